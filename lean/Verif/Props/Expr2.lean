import Verif.Props.Expr

/-!
# Properties of expressions: C03 – C06
-/

set_option linter.unusedSectionVars false
set_option linter.unusedSimpArgs false

namespace Verif

open Exact

/-! ## C03 building expressions does not panic

The full property is **false**: see `C03_counterexample`.  Products and negations never panic (`C03_mul_total_partial`);
sums panic exactly in the case described by `Cancels` (`C03_add_panics_iff`), hence never when both operands are
non-constant or both constant. -/

/-- `s` is a sum with exactly one non-constant argument and `k` is a non-zero constant that cancels its constant arguments. -/
def Cancels {K : Type} [Field K] [LinearOrder K] [Trig K] (s k : Node (Option K)) : Prop :=
  ∃ i args j v t, s = .add i args ∧ k = .const j v ∧ v ≠ some 0 ∧
    args.filter (fun a => !a.isConstant) = [t] ∧
    (osum ((args.filter Node.isConstant).map (Node.evaluate fun _ => none)) +. v) = some 0

section
variable {F : Type} [FloatOps F]

/-- C03 (part): `a * b`, `a * c`, `c * a`, `-a` return, for all expressions a program can hold. -/
theorem C03_mul_total_partial {H : HashOrder} {regs : List (Node F)} {n : Nat} (hr : Reachable H regs n) {a b : Node F}
    (ha : a ∈ regs) (hb : b ∈ regs) (c : F) :
    (∃ r, mulN a b n = .ok r) ∧ (∃ r, mulS c a n = .ok r) ∧ (∃ r, sMul c a n = .ok r) ∧ (∃ r, negN a n = .ok r) := by
  obtain ⟨hp, -, hg⟩ := hr.inv
  have ha' := (hg a ha).sumsOk
  have hb' := (hg b hb).sumsOk
  obtain ⟨_, _, h1⟩ := total_mulN a b ha' hb' n
  obtain ⟨_, _, h2⟩ := total_mulS c a ha' n
  obtain ⟨_, _, h3⟩ := total_sMul c a ha' n
  obtain ⟨_, _, h4⟩ := total_negN a ha' n
  exact ⟨⟨_, h1⟩, ⟨_, h2⟩, ⟨_, h3⟩, ⟨_, h4⟩⟩

end

section
variable {K : Type} [Field K] [LinearOrder K] [Trig K]

theorem addConsts_add (c : Option K) (i : Nat) (args : List (Node (Option K))) :
    addConsts c (.add i args) = (c +. osum ((args.filter Node.isConstant).map (Node.evaluate fun _ => none))) := by
  simp only [addConsts]
  induction args generalizing c with
  | nil => simp
  | cons a as ih =>
    rw [List.foldl_cons, ih]
    cases a <;> simp [List.filter_cons, Node.isConstant, Node.evaluate, oadd_assoc]

theorem isConstVal_zero_iff {a : Node (Option K)} : a.isConstVal zero = true ↔ ∃ i, a = .const i (some 0) := by
  constructor
  · exact isConstVal_eval
  · rintro ⟨i, rfl⟩; simp [Node.isConstVal]

/-- For expressions built with the operators: no non-constant term means constant. -/
theorem terms_nil {h : Heap (Option K)} {a : Node (Option K)} (hg : Good .api h a) : terms a = [] ↔ a.isConstant = true := by
  cases a <;> simp [terms, Node.isConstant]
  have := hg.shape.2 (by simp)
  simpa [Node.isConstant] using this

theorem add_panics_one_const {h : Heap (Option K)} {a b : Node (Option K)} (hga : Good .api h a) (hgb : Good .api h b)
    (hb : b.isConstant = true) :
    (a.isConstVal zero = false ∧ b.isConstVal zero = false ∧ (terms a ++ terms b).length = 1 ∧
      (addConsts (addConsts zero a) b ==. zero) = true) ↔ Cancels a b := by
  obtain ⟨j, v, rfl⟩ := isConstant_iff.1 hb
  constructor
  · rintro ⟨h1, h2, h3, h4⟩
    simp only [terms, List.append_nil] at h3
    have hv : v ≠ some 0 := by rintro rfl; simp [Node.isConstVal] at h2
    cases a
    case const i w => simp [terms] at h3
    case add i args =>
      rw [addConsts_add] at h4
      simp only [addConsts, zero_def, ozero_add, eq_zero_iff] at h4
      simp only [terms] at h3
      obtain ⟨t, ht⟩ := List.length_eq_one_iff.1 h3
      exact ⟨i, args, j, v, t, rfl, rfl, hv, ht, h4⟩
    all_goals
      simp only [addConsts, zero_def, ozero_add, eq_zero_iff] at h4
      exact absurd h4 hv
  · rintro ⟨i, args, j', v', t, rfl, hk, hv, ht, hs⟩
    cases hk
    refine ⟨rfl, ?_, ?_, ?_⟩
    · cases hh : (Node.const j v).isConstVal zero
      · rfl
      · obtain ⟨i, hi⟩ := isConstVal_zero_iff.1 hh
        cases hi; exact absurd rfl hv
    · simp [terms, ht]
    · rw [addConsts_add]
      simp only [addConsts, zero_def, ozero_add, eq_zero_iff]
      exact hs

/-- C03 (part): `a + b` panics exactly when one operand is a non-zero constant that cancels the constants of the other, a sum
with a single non-constant term. -/
theorem C03_add_panics_iff {H : HashOrder} {regs : List (Node (Option K))} {n : Nat} (hr : ReachableApi H regs n)
    {a b : Node (Option K)} (ha : a ∈ regs) (hb : b ∈ regs) :
    (∃ p, addN a b n = .error p) ↔ Cancels a b ∨ Cancels b a := by
  obtain ⟨hp, -, hg⟩ := hr.inv
  have hga := hg a ha
  have hgb := hg b hb
  have hcomm : (addConsts (addConsts zero a) b) = (addConsts (addConsts zero b) a) := by
    have key : ∀ (c : Option K) (x : Node (Option K)), addConsts c x = (c +. addConsts (some 0) x) := by
      intro c x
      cases x
      case const i v => simp [addConsts]
      case add i args => rw [addConsts_add, addConsts_add]; simp
      all_goals simp [addConsts]
    rw [zero_def, key (addConsts (some 0) a) b, key (addConsts (some 0) b) a, oadd_comm]
  have hiff : (∃ p, addN a b n = .error p) ↔ a.isConstVal zero = false ∧ b.isConstVal zero = false ∧
      (terms a ++ terms b).length = 1 ∧ (addConsts (addConsts zero a) b ==. zero) = true := by
    constructor
    · rintro ⟨p, hp⟩
      obtain ⟨h1, h2, h3, h4, -⟩ := addN_error.1 hp
      exact ⟨h1, h2, h3, h4⟩
    · rintro ⟨h1, h2, h3, h4⟩
      exact ⟨.addArgs, addN_error.2 ⟨h1, h2, h3, h4, rfl⟩⟩
  rw [hiff]
  constructor
  · intro h
    have h3 := h.2.2.1
    rw [List.length_append] at h3
    have : terms a = [] ∨ terms b = [] := by
      cases hta : terms a with
      | nil => exact .inl rfl
      | cons x xs => cases htb : terms b with
        | nil => exact .inr rfl
        | cons y ys => simp [hta, htb] at h3; omega
    rcases this with hta | htb
    · right
      rw [← add_panics_one_const hgb hga ((terms_nil hga).1 hta), ← hcomm]
      exact ⟨h.2.1, h.1, by simpa [Nat.add_comm] using h3, h.2.2.2⟩
    · left
      rw [← add_panics_one_const hga hgb ((terms_nil hgb).1 htb)]
      exact h
  · rintro (h | h)
    · have hb : b.isConstant = true := by obtain ⟨i, args, j, v, t, rfl, rfl, _⟩ := h; rfl
      exact (add_panics_one_const hga hgb hb).2 h
    · have ha : a.isConstant = true := by obtain ⟨i, args, j, v, t, rfl, rfl, _⟩ := h; rfl
      have := (add_panics_one_const hgb hga ha).2 h
      refine ⟨this.2.1, this.1, ?_, by rw [hcomm]; exact this.2.2.2⟩
      have h3 := this.2.2.1
      rw [List.length_append] at h3 ⊢
      omega

theorem not_cancels_nonconst {a b : Node (Option K)} (hb : b.isConstant = false) : ¬ Cancels a b := by
  rintro ⟨i, args, j, v, t, rfl, rfl, _⟩; simp [Node.isConstant] at hb

/-- C03 (part): adding or subtracting two non-constant expressions returns. -/
theorem C03_add_nonconst_total_partial {H : HashOrder} {regs : List (Node (Option K))} {n : Nat} (hr : ReachableApi H regs n)
    {a b : Node (Option K)} (ha : a ∈ regs) (hb : b ∈ regs) (hac : a.isConstant = false) (hbc : b.isConstant = false) :
    (∃ r, addN a b n = .ok r) ∧ (∃ r, subN a b n = .ok r) := by
  constructor
  · cases h : addN a b n with
    | ok r => exact ⟨r, rfl⟩
    | error p =>
      rcases (C03_add_panics_iff hr ha hb).1 ⟨p, h⟩ with h' | h'
      · exact absurd h' (not_cancels_nonconst hbc)
      · exact absurd h' (not_cancels_nonconst hac)
  · obtain ⟨hp, hn, hg⟩ := hr.inv
    obtain ⟨nb, m, h1⟩ := total_sMul negOne b (hg b hb).sumsOk n
    obtain ⟨hp', hle, hn', _, hgn, hnc⟩ := spec_sMul b hn (hg b hb) nb m h1
    have hnbc := hnc (by simp) hbc
    cases h : addN a nb m with
    | ok r => exact ⟨r, by unfold subN; rw [M.bind_ok_eq h1, h]⟩
    | error p =>
      exfalso
      obtain ⟨_, _, h3, _, _⟩ := addN_error.1 h
      rw [List.length_append] at h3
      have hta : terms a ≠ [] := fun h0 => by
        rw [(terms_nil (hg a ha)).1 h0] at hac; cases hac
      have htb : terms nb ≠ [] := fun h0 => by
        rw [(terms_nil hgn).1 h0] at hnbc; cases hnbc
      have := List.length_pos_iff.2 hta
      have := List.length_pos_iff.2 htb
      omega

end

/-- Non-vacuity of `C03_add_nonconst_total_partial`: its hypotheses hold of `x + 5` and `y * 3`. -/
example : ReachableApi HashOrder.listOrder (regsOf exProg) (countOf exProg) ∧
    ((regsOf exProg)[2]!).isConstant = false ∧ ((regsOf exProg)[3]!).isConstant = false :=
  ⟨runs_reachableApi (by decide +kernel) (by decide +kernel), by decide +kernel, by decide +kernel⟩

/-- C03 is false: `(x + 5) - 5` panics in the assertion of `FunctionAdd::new`. -/
theorem C03_counterexample :
    ∃ (regs : List (Node Q)) (n : Nat) (a : Node Q), ReachableApi HashOrder.listOrder regs n ∧ a ∈ regs ∧
      subS a (some 5) n = .error .addArgs ∧ addS a (some (-5)) n = .error .addArgs := by
  have hr := runs_reachableApi (ops := [.var "x" .continuous, .addScalar 0 (some 5)]) (by decide +kernel) (by decide +kernel)
  refine ⟨_, _, (regsOf [.var "x" .continuous, .addScalar 0 (some 5)])[1]!, hr, ?_, ?_, ?_⟩
  · exact get_mem (by decide +kernel)
  · exact of_panicOf (by decide +kernel)
  · exact of_panicOf (by decide +kernel)

/-! ## C04 division -/

section
variable {F : Type} [FloatOps F]

/-- C04: `a / b` panics if and only if `b` is a constant equal to zero, and then with the division panic. -/
theorem C04_div {a b : Node F} {n : Nat} {p : Panic} :
    divN a b n = .error p ↔ p = .divByZero ∧ ∃ i v, b = .const i v ∧ (v ==. zero) = true := by
  constructor
  · intro h
    cases hb : b.isConstVal zero
    · obtain ⟨_, _, h'⟩ := total_divN (a := a) hb n
      rw [h'] at h; cases h
    · refine ⟨?_, ?_⟩
      · unfold divN at h
        rw [hb] at h
        rw [if_pos rfl, M.panic_error] at h; exact h
      · cases b <;> simp [Node.isConstVal] at hb
        exact ⟨_, _, rfl, hb⟩
  · rintro ⟨rfl, i, v, rfl, hv⟩
    have : (Node.const i v).isConstVal zero = true := hv
    unfold divN
    rw [this]; rfl

/-- C04: `a / c` panics if and only if the scalar is zero. -/
theorem C04_div_scalar {a : Node F} {c : F} {n : Nat} {p : Panic} :
    divS a c n = .error p ↔ p = .divByZero ∧ (c ==. zero) = true := by
  constructor
  · intro h
    cases hc : (c ==. zero)
    · obtain ⟨_, _, h'⟩ := total_divS (a := a) hc n
      rw [h'] at h; cases h
    · refine ⟨?_, rfl⟩
      unfold divS at h
      rw [hc] at h
      rw [if_pos rfl, M.panic_error] at h; exact h
  · rintro ⟨rfl, hc⟩
    unfold divS
    rw [hc]; rfl

/-- C04: `c / b` panics if and only if `b` is a constant equal to zero. -/
theorem C04_scalar_div {b : Node F} {c : F} {n : Nat} {p : Panic} :
    sDiv c b n = .error p ↔ p = .divByZero ∧ ∃ i v, b = .const i v ∧ (v ==. zero) = true := by
  constructor
  · intro h
    cases hb : b.isConstVal zero
    · obtain ⟨_, _, h'⟩ := total_sDiv (c := c) hb n
      rw [h'] at h; cases h
    · refine ⟨?_, ?_⟩
      · unfold sDiv at h
        rw [hb] at h
        rw [if_pos rfl, M.panic_error] at h; exact h
      · cases b <;> simp [Node.isConstVal] at hb
        exact ⟨_, _, rfl, hb⟩
  · rintro ⟨rfl, i, v, rfl, hv⟩
    have : (Node.const i v).isConstVal zero = true := hv
    unfold sDiv
    rw [this]; rfl

/-! ## C05 identity -/

/-- C05: after any program, for any two nodes held or reachable inside held expressions: `==` holds iff they are the same
node (and then they have the same value everywhere), and nodes with the same address are the same. -/
theorem C05_identity {H : HashOrder} {regs : List (Node F)} {n : Nat} (hr : Reachable H regs n) {a b x y : Node F}
    (ha : a ∈ regs) (hb : b ∈ regs) (hx : Occurs x a) (hy : Occurs y b) :
    (x.ptrEq y = true ↔ x = y) ∧ (x.id = y.id → x = y) ∧
      (x.ptrEq y = true → ∀ σ, x.evaluate σ = y.evaluate σ) := by
  obtain ⟨hp, -, hg⟩ := hr.inv
  have hgx := (hg a ha).sub hx
  have hgy := (hg b hb).sub hy
  refine ⟨hgx.ptrEq_iff hgy, hgx.eq_of_id hgy, fun h σ => ?_⟩
  rw [(hgx.ptrEq_iff hgy).1 h]

/-- C05: a variable (or constant) created after any program differs from every node that exists, whatever its name or
value. -/
theorem C05_fresh {H : HashOrder} {regs : List (Node F)} {n : Nat} (hr : Reachable H regs n) {a y : Node F}
    (ha : a ∈ regs) (hy : Occurs y a) (name : String) (kind : VarKind) (v : F) :
    (∀ e m, newVar name kind n = .ok (e, m) → e.ptrEq y = false) ∧ (∀ e m, newConst v n = .ok (e, m) → e.ptrEq y = false) := by
  obtain ⟨hp, hn, hg⟩ := hr.inv
  have hlt := ((hg a ha).sub hy).lt hn
  have key : ∀ e : Node F, e.id = n → e.ptrEq y = false := by
    intro e he
    simp only [Node.ptrEq, Bool.and_eq_false_iff, beq_eq_false_iff_ne]
    right; omega
  constructor
  · intro e m h
    simp only [newVar_eq, Except.ok.injEq, Prod.mk.injEq] at h
    apply key; rw [← h.1]; rfl
  · intro e m h
    rw [newConst_ok] at h
    apply key; rw [h.1]; rfl

/-! ## C06 evaluation -/

/-- C06: the value depends only on the variables that occur in the expression. -/
theorem C06_agree {e : Node F} {σ τ : Env F} (h : ∀ i s k, Occurs (.var i s k) e → σ i = τ i) :
    e.evaluate σ = e.evaluate τ := by
  induction e using Node.ind with
  | const i v => rfl
  | var i s k => simp [Node.evaluate, h i s k (.refl _)]
  | add i args ih =>
    have ih' : ∀ a ∈ args, a.evaluate σ = a.evaluate τ := fun a ha =>
      ih a ha fun i s k ho => h i s k (.arg (by simpa [Node.arguments] using ha) ho)
    simp only [Node.evaluate, sumFrom_eq_foldl]
    clear ih h
    generalize (zero : F) = acc
    induction args generalizing acc with
    | nil => rfl
    | cons a as ih2 =>
      simp only [List.foldl_cons]
      rw [ih' a (by simp), ih2 fun b hb => ih' b (by simp [hb])]
  | cos i a ih =>
    simp only [Node.evaluate]
    rw [ih fun i s k ho => h i s k (.arg (by simp [Node.arguments]) ho)]
  | sin i a ih =>
    simp only [Node.evaluate]
    rw [ih fun i s k ho => h i s k (.arg (by simp [Node.arguments]) ho)]
  | mul i a b iha ihb =>
    simp only [Node.evaluate]
    rw [iha fun i s k ho => h i s k (.arg (a := a) (by simp [Node.arguments]) ho),
      ihb fun i s k ho => h i s k (.arg (a := b) (by simp [Node.arguments]) ho)]
  | div i a b iha ihb =>
    simp only [Node.evaluate]
    rw [iha fun i s k ho => h i s k (.arg (a := a) (by simp [Node.arguments]) ho),
      ihb fun i s k ho => h i s k (.arg (a := b) (by simp [Node.arguments]) ho)]

end

section
variable {K : Type} [Field K] [LinearOrder K] [Trig K]

theorem osum_none {l : List (Option K)} (h : none ∈ l) : osum l = none := by
  induction l with
  | nil => simp at h
  | cons a l ih =>
    simp only [List.mem_cons] at h
    rcases h with rfl | h
    · simp
    · simp [ih h]

/-- C06: if a variable that occurs in the expression has no value (or a non-finite one), the expression has none. -/
theorem C06_missing {e : Node (Option K)} {σ : Env (Option K)} {i : Nat} {s : String} {k : VarKind}
    (ho : Occurs (.var i s k) e) (hm : σ i = none ∨ σ i = some none) : e.evaluate σ = none := by
  induction e using Node.ind_args with
  | step e ih =>
    rw [occurs_iff] at ho
    rcases ho with rfl | ⟨a, ha, ho⟩
    · rcases hm with hm | hm <;> simp [Node.evaluate, hm]
    · have := ih a ha ho
      cases e
      case const => simp [Node.arguments] at ha
      case var => simp [Node.arguments] at ha
      case add j args =>
        rw [evaluate_add]
        exact osum_none (List.mem_map.2 ⟨a, by simpa [Node.arguments] using ha, this⟩)
      case cos j b => simp [Node.arguments] at ha; subst ha; simp [Node.evaluate, this]
      case sin j b => simp [Node.arguments] at ha; subst ha; simp [Node.evaluate, this]
      case mul j b c =>
        simp [Node.arguments] at ha
        rcases ha with rfl | rfl <;> simp [Node.evaluate, this]
      case div j b c =>
        simp [Node.arguments] at ha
        rcases ha with rfl | rfl <;> simp [Node.evaluate, this]

end

/-- Non-vacuity of C05/C06: in the example program the handle 4 (`x + 5 - y*3`) contains the variable `x`, which equals
handle 0; without a value for `y` it has no value. -/
example : Reachable HashOrder.listOrder (regsOf exProg) (countOf exProg) ∧
    Occurs ((regsOf exProg)[0]!) ((regsOf exProg)[4]!) ∧
    ((regsOf exProg)[4]!).evaluate (envOf [(0, 2)]) = none := by
  refine ⟨runs_reachable (by decide +kernel), ?_, by decide +kernel⟩
  exact .arg (a := (regsOf exProg)[0]!) (List.mem_of_getElem? (i := 0) (by decide +kernel)) (.refl _)

end Verif
