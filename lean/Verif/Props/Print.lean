import Verif.Proofs.Print
import Verif.Proofs.Reach
import Verif.Proofs.WorldInv
import Verif.Spec.ExampleW

/-! # Property C17: printed expressions and constraints -/

namespace Verif

set_option linter.unusedSectionVars false

/-- A text denotes at most one number, whatever the names and the numbers in it stand for. -/
theorem C17_reader_unique {F : Type} [FloatOps F] {readNum : Word → Option F} {ρ : Word → F} {s : List Char} {v w : F}
    (h1 : Reads readNum ρ s v) (h2 : Reads readNum ρ s w) : v = w := by
  obtain ⟨n, h1⟩ := h1
  obtain ⟨m, h2⟩ := h2
  have e1 := (p_mono readNum ρ n).1 _ _ h1 (n + m) (by omega)
  have e2 := (p_mono readNum ρ m).1 _ _ h2 (n + m) (by omega)
  rw [e1] at e2
  injection e2 with e2
  injection e2

section
variable {K : Type} [Field K] [LinearOrder K] [Trig K]
variable {readNum : Word → Option (Option K)} {ρ : Word → Option K} {fmt : Option K → List Char} {σ : Env (Option K)}

/-- C17: for every expression that a program can hold, if its numbers print as words that read back as the same number, and its variables
have names that are words, are not numbers and stand for the values of the variables, then the printed text denotes the value of the
expression. -/
theorem C17_expression {H : HashOrder} {regs : List (Node (Option K))} {n : Nat} (hr : Reachable H regs n)
    {e : Node (Option K)} (he : e ∈ regs) (hread : Readable readNum ρ fmt σ e) : Reads readNum ρ (e.print fmt) (e.evaluate σ) := by
  obtain ⟨hp, -, hg⟩ := hr.inv
  have := (print_ok e (hg e he) hread).sum.1 [] (e.evaluate σ, []) (by simp [NoTerm, NoOpen]) (sumLoop_stop (by simp))
  obtain ⟨N, hN⟩ := this
  refine ⟨N, ?_⟩
  have := hN N (Nat.le_refl _)
  simpa using this

/-- C17 for constraints: the printed text denotes the comparison of the values of the two sides. -/
theorem C17_constraint {H : HashOrder} {W : World (Option K)} {n : Nat} (hr : ReachableW H W n) {c : Constraint (Option K)}
    (hc : c ∈ W.cs) (hl : Readable readNum ρ fmt σ c.lhs) (hrd : Readable readNum ρ fmt σ c.rhs) :
    ReadsCmp readNum ρ (c.print fmt) c.kind (c.lhs.evaluate σ) (c.rhs.evaluate σ) := by
  obtain ⟨hp, hw⟩ := hr.inv
  obtain ⟨g1, g2, -⟩ := hw.cs c hc
  have hsym : IsWord c.kind.symbol := by cases c.kind <;> constructor <;> decide
  have hwords : lex (c.print fmt) = lex (c.lhs.print fmt) ++ c.kind.symbol :: lex (c.rhs.print fmt) := by
    unfold Constraint.print
    rw [lex_sep _ _ (by decide), lex_sep _ _ (by decide), lex_word hsym]
    simp [sepWord]
  have hhead : ∀ w, c.kind.symbol = w → w ≠ ['('] ∧ w ≠ ['*'] ∧ w ≠ ['/'] ∧ w ≠ ['+'] := by
    rintro w rfl
    cases c.kind <;> simp [CKind.symbol]
  obtain ⟨e1, e2, e3, e4⟩ := hhead _ rfl
  obtain ⟨N1, h1⟩ := (print_ok c.lhs g1 hl).sum.1 (c.kind.symbol :: lex (c.rhs.print fmt)) (c.lhs.evaluate σ, _)
    (by simp [NoTerm, NoOpen, e1, e2, e3]) (sumLoop_stop (by simp [e4]))
  obtain ⟨N2, h2⟩ := (print_ok c.rhs g2 hrd).sum.1 [] (c.rhs.evaluate σ, []) (by simp [NoTerm, NoOpen]) (sumLoop_stop (by simp))
  refine ⟨N1 + N2, c.kind.symbol, lex (c.rhs.print fmt), ?_, ?_, ?_⟩
  · rw [hwords]; exact h1 _ (by omega)
  · simpa using h2 (N1 + N2) (by omega)
  · cases c.kind <;> rfl

end

/-- A format of integers, for the example. -/
def exFmt : Q → List Char
  | some q => if q.num < 0 then ['-', Char.ofNat (48 + q.num.natAbs)] else [Char.ofNat (48 + q.num.natAbs)]
  | none => []

/-- A reader of one-digit and negative one-digit integers, for the example. -/
def exRead : Word → Option Q
  | [c] => if c.isDigit then some (some ((c.toNat - 48 : Nat) : ℚ)) else none
  | ['-', c] => if c.isDigit then some (some (-((c.toNat - 48 : Nat) : ℚ))) else none
  | _ => none

/-- `x * ((x + 3) / (x * x)) - 2 * cos(x)`, whose printed form leaves out the outer parentheses of the quotient. -/
def exPrintProg : List (Op Q) := [.var "x" .continuous, .addScalar 0 (some 3), .mul 0 0, .div 1 2, .mul 0 3, .cos 0, .mulScalar 5 (some 2),
  .sub 4 6]

/-- The nodes of an expression. -/
def Node.nodes {F : Type} : Node F → List (Node F)
  | .const i v => [.const i v]
  | .var i s k => [.var i s k]
  | .add i args => .add i args :: nodesOf args
  | .cos i a => .cos i a :: a.nodes
  | .div i a b => .div i a b :: (a.nodes ++ b.nodes)
  | .mul i a b => .mul i a b :: (a.nodes ++ b.nodes)
  | .sin i a => .sin i a :: a.nodes
where
  nodesOf : List (Node F) → List (Node F)
    | [] => []
    | a :: as => a.nodes ++ nodesOf as

theorem mem_nodes {F : Type} {x y : Node F} (h : Occurs y x) : y ∈ x.nodes := by
  have hargs : ∀ (as : List (Node F)) (a z : Node F), a ∈ as → z ∈ a.nodes → z ∈ Node.nodes.nodesOf as := by
    intro as
    induction as with
    | nil => simp
    | cons b as ih =>
      intro a z ha hz
      simp only [Node.nodes.nodesOf, List.mem_append]
      rcases List.mem_cons.1 ha with rfl | ha
      · exact .inl hz
      · exact .inr (ih a z ha hz)
  induction h with
  | refl => cases y <;> simp [Node.nodes]
  | @arg a x ha _ ih =>
    cases x <;> simp only [Node.arguments, List.mem_cons, List.not_mem_nil, or_false] at ha
    case add i args => simp only [Node.nodes, List.mem_cons]; exact .inr (hargs _ _ _ ha ih)
    all_goals (rcases ha with rfl | rfl) <;> simp [Node.nodes, ih]

instance (w : Word) : Decidable (IsWord w) := inferInstanceAs (Decidable (w ≠ [] ∧ w.any isSep = false))

/-- A check of readability, for the example. -/
def readableCheck (ρ : Word → Q) (σ : Env Q) (e : Node Q) : Bool :=
  e.nodes.all fun
    | .const _ v => decide (IsWord (exFmt v) ∧ exRead (exFmt v) = some v)
    | .var i s k => decide (IsWord s.toList ∧ exRead s.toList = none ∧ ρ s.toList = (Node.var i s k : Node Q).evaluate σ)
    | _ => true

theorem readableCheck_sound {ρ : Word → Q} {σ : Env Q} {e : Node Q} (h : readableCheck ρ σ e = true) : Readable exRead ρ exFmt σ e := by
  unfold readableCheck at h
  rw [List.all_eq_true] at h
  constructor
  · intro i v ho
    simpa using h _ (mem_nodes ho)
  · intro x hx ho
    cases x <;> simp [Node.isVar] at hx
    have := h _ (mem_nodes ho)
    simpa [Node.name] using this

/-- The value of the names in the example. -/
def exNames : Word → Q := fun w => if w = ['x'] then some 2 else none

/-- The expression of the example. -/
def exPrint : Node Q := ((regsOf exPrintProg)[7]?).getD (.const 0 none)

/-- Non-vacuity of C17: the expression is held by a program, its text is as shown, and it is readable with `x = 2`. -/
example : Reachable HashOrder.listOrder (regsOf exPrintProg) (countOf exPrintProg) ∧ exPrint ∈ regsOf exPrintProg ∧
    exPrint.print exFmt = ['x', '*', '(', 'x', ' ', '+', ' ', '3', ')', '/', '(', 'x', '*', 'x', ')', ' ', '+', ' ', '-', '1', '*', 'c', 'o', 's',
        '(', 'x', ')', '*', '2'] ∧ Readable exRead exNames exFmt (envOf [(0, 2)]) exPrint :=
  ⟨runs_reachable (by decide +kernel), by decide +kernel, by decide +kernel,
    readableCheck_sound (by decide +kernel)⟩

/-- Non-vacuity of C17 for constraints: `x + 3 >= x*2`. -/
example :
    let cmds : List (Cmd Q) := [.expr (.var "x" .continuous), .expr (.addScalar 0 (some 3)), .expr (.mulScalar 0 (some 2)),
      .cmpNodeNode .greaterEqual 1 2 ""]
    ReachableW HashOrder.listOrder (worldOf cmds) (wcount cmds) ∧
    (worldOf cmds).cs.map (fun c => c.print exFmt) = [['x', ' ', '+', ' ', '3', ' ', '>', '=', ' ', 'x', '*', '2']] :=
  ⟨(runsW_reachable (by decide +kernel) (by decide +kernel)).reachable, by decide +kernel⟩

end Verif
