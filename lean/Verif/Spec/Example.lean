import Verif.Spec.Shape
import Verif.Spec.Exact
import Verif.Proofs.Node

/-! # Concrete programs over the rationals, for the non-vacuity examples -/

namespace Verif

section
variable {F : Type} [DecidableEq F]

/-- Decidable equality of nodes (for the examples). -/
def Node.beqN : Node F → Node F → Bool
  | .const i v, .const j w => i == j && decide (v = w)
  | .var i s k, .var j t l => i == j && s == t && decide (k = l)
  | .add i as, .add j bs => i == j && beqs as bs
  | .cos i a, .cos j b => i == j && beqN a b
  | .sin i a, .sin j b => i == j && beqN a b
  | .mul i a b, .mul j c d => i == j && beqN a c && beqN b d
  | .div i a b, .div j c d => i == j && beqN a c && beqN b d
  | _, _ => false
where
  /-- on lists -/
  beqs : List (Node F) → List (Node F) → Bool
    | [], [] => true
    | a :: as, b :: bs => beqN a b && beqs as bs
    | _, _ => false

theorem Node.beqN_iff (a : Node F) : ∀ b, a.beqN b = true ↔ a = b := by
  induction a using Node.ind with
  | const i v => intro b; cases b <;> simp [Node.beqN]
  | var i s k => intro b; cases b <;> simp [Node.beqN, and_assoc]
  | add i args ih =>
    intro b
    cases b <;> simp [Node.beqN]
    rename_i j bs
    intro _
    induction args generalizing bs with
    | nil => cases bs <;> simp [Node.beqN.beqs]
    | cons a as ih2 =>
      cases bs <;> simp [Node.beqN.beqs]
      rw [ih a (by simp), ih2 fun b hb => ih b (by simp [hb])]
  | cos i a ih => intro b; cases b <;> simp [Node.beqN, ih]
  | sin i a ih => intro b; cases b <;> simp [Node.beqN, ih]
  | mul i a b iha ihb => intro b; cases b <;> simp [Node.beqN, iha, ihb, and_assoc]
  | div i a b iha ihb => intro b; cases b <;> simp [Node.beqN, iha, ihb, and_assoc]

instance : DecidableEq (Node F) := fun a b => decidable_of_iff _ (Node.beqN_iff a b)

end

/-- exact rationals with non-finite values -/
abbrev Q := Option ℚ

instance : Inhabited (Node Q) := ⟨.const 0 none⟩

/-- Does the program run without panic? -/
def runs (ops : List (Op Q)) : Bool :=
  match runOps HashOrder.listOrder [] ops 0 with
  | .ok _ => true
  | .error _ => false

/-- The handles held after the program. -/
def regsOf (ops : List (Op Q)) : List (Node Q) :=
  match runOps HashOrder.listOrder [] ops 0 with
  | .ok r => r.1
  | .error _ => []

/-- The number of cells created by the program. -/
def countOf (ops : List (Op Q)) : Nat :=
  match runOps HashOrder.listOrder [] ops 0 with
  | .ok r => r.2
  | .error _ => 0

theorem runs_reachable {ops : List (Op Q)} (h : runs ops = true) :
    Reachable HashOrder.listOrder (regsOf ops) (countOf ops) := by
  refine ⟨ops, ?_⟩
  unfold runs at h
  unfold regsOf countOf
  revert h
  cases runOps HashOrder.listOrder [] ops 0 <;> simp

theorem runs_reachableApi {ops : List (Op Q)} (h : runs ops = true) (hr : ops.all (fun o => !o.isRaw) = true) :
    ReachableApi HashOrder.listOrder (regsOf ops) (countOf ops) := by
  obtain ⟨ops', h'⟩ := runs_reachable h
  refine ⟨ops, by simpa using hr, ?_⟩
  unfold runs at h
  unfold regsOf countOf
  revert h
  cases runOps HashOrder.listOrder [] ops 0 <;> simp

/-- An assignment given by a list (variable number ↦ value). -/
def envOf (l : List (Nat × ℚ)) : Env Q := fun i => (l.find? (fun p => p.1 == i)).map fun p => some p.2

/-- Result of an operation on handle `i` (and `j`) of a program, if everything returns. -/
def resultOf {α : Type} (x : M α) (n : Nat) : Option α :=
  match x n with
  | .ok r => some r.1
  | .error _ => none

/-- The panic of a computation, if any. -/
def panicOf {α : Type} (x : M α) (n : Nat) : Option Panic :=
  match x n with
  | .ok _ => none
  | .error p => some p

theorem of_panicOf {α : Type} {x : M α} {n : Nat} {p : Panic} (h : panicOf x n = some p) : x n = .error p := by
  unfold panicOf at h
  revert h
  cases x n <;> simp

theorem of_resultOf {α : Type} {x : M α} {n : Nat} {a : α} (h : resultOf x n = some a) : ∃ m, x n = .ok (a, m) := by
  unfold resultOf at h
  revert h
  cases hx : x n with
  | error p => simp
  | ok r => intro h; simp at h; subst h; exact ⟨r.2, rfl⟩

theorem get_mem {α : Type} [Inhabited α] {l : List α} {i : Nat} (h : i < l.length) : l[i]! ∈ l := by
  rw [getElem!_pos l i h]; exact List.getElem_mem h

end Verif
