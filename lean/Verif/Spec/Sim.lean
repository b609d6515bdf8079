import Verif.Code.Node

/-! # Equality up to addresses -/

namespace Verif

variable {F : Type}

/-- Forget the addresses of all cells but variables. -/
def strip : Node F → Node F
  | .const _ v => .const 0 v
  | .var i s k => .var i s k
  | .add _ args => .add 0 (strips args)
  | .cos _ a => .cos 0 (strip a)
  | .div _ a b => .div 0 (strip a) (strip b)
  | .mul _ a b => .mul 0 (strip a) (strip b)
  | .sin _ a => .sin 0 (strip a)
where
  /-- on lists -/
  strips : List (Node F) → List (Node F)
    | [] => []
    | a :: as => strip a :: strips as

/-- Equal up to addresses. -/
def Sim (a b : Node F) : Prop := strip a = strip b

/-- Both runs return related results, or both panic in the same way. -/
def Sim2 {α β : Type} (x : M α) (y : M β) (P : α → β → Prop) : Prop :=
  ∀ n n', match x n, y n' with
    | .ok (a, _), .ok (b, _) => P a b
    | .error p, .error q => p = q
    | _, _ => False

end Verif
