import Verif.Spec.PolyDeriv64
import Verif.Proofs.ExactEval
import Verif.Proofs.Diff
import Mathlib.Algebra.MvPolynomial.NoZeroDivisors

/-! # Polynomials with integer coefficients in double precision: what is stored -/

set_option linter.unusedSectionVars false

namespace Verif.P64

open MvPolynomial

variable [Libm]

theorem value_unique {c : F64} {x y : ℚ} (h : c.HasValue x) (h' : c.HasValue y) : x = y := by
  cases c with
  | fin s q hq => exact h.symm.trans h'
  | _ => cases h

/-- The integer that a constant is. -/
noncomputable def intOf (c : F64) : ℤ := by
  classical exact if h : ∃ k : ℤ, c.HasValue (k : ℚ) then h.choose else 0

theorem intOf_eq {c : F64} {k : ℤ} (h : c.HasValue (k : ℚ)) : intOf c = k := by
  have he : ∃ k : ℤ, c.HasValue (k : ℚ) := ⟨k, h⟩
  unfold intOf
  rw [dif_pos he]
  exact_mod_cast value_unique he.choose_spec h

/-- The polynomial that is stored. -/
noncomputable def polyOf : Node F64 → MvPolynomial ℕ ℤ
  | .const _ c => C (intOf c)
  | .var i _ _ => X i
  | .add _ args => polys args
  | .mul _ a b => polyOf a * polyOf b
  | _ => 0
where
  /-- the terms of a sum -/
  polys : List (Node F64) → MvPolynomial ℕ ℤ
    | [] => 0
    | a :: as => polyOf a + polys as

/-- The polynomial with absolute values. -/
noncomputable def absOf : Node F64 → MvPolynomial ℕ ℕ
  | .const _ c => C (intOf c).natAbs
  | .var i _ _ => X i
  | .add _ args => abss args
  | .mul _ a b => absOf a * absOf b
  | _ => 0
where
  /-- the terms of a sum -/
  abss : List (Node F64) → MvPolynomial ℕ ℕ
    | [] => 0
    | a :: as => absOf a + abss as

/-- Sums and products of variables and integers other than zero. -/
def IntPoly : Node F64 → Prop
  | .const _ c => ∃ k : ℤ, k ≠ 0 ∧ c.HasValue (k : ℚ)
  | .var .. => True
  | .add _ args => args ≠ [] ∧ all args
  | .mul _ a b => IntPoly a ∧ IntPoly b
  | _ => False
where
  /-- the terms of a sum -/
  all : List (Node F64) → Prop
    | [] => True
    | a :: as => IntPoly a ∧ all as

theorem polys_eq (as : List (Node F64)) : polyOf.polys as = (as.map polyOf).sum := by
  induction as with
  | nil => rfl
  | cons a as ih => simp [polyOf.polys, ih]

theorem abss_eq (as : List (Node F64)) : absOf.abss as = (as.map absOf).sum := by
  induction as with
  | nil => rfl
  | cons a as ih => simp [absOf.abss, ih]

theorem all_iff {as : List (Node F64)} : IntPoly.all as ↔ ∀ a ∈ as, IntPoly a := by
  induction as with
  | nil => simp [IntPoly.all]
  | cons a as ih => simp [IntPoly.all, ih]

theorem IntPoly.arg {e : Node F64} (h : IntPoly e) : ∀ a ∈ e.arguments, IntPoly a := by
  cases e <;> simp only [Node.arguments, List.mem_singleton, List.mem_cons, List.not_mem_nil, or_false] <;> intro a ha
  case const => cases ha
  case var => cases ha
  case add => exact all_iff.1 h.2 a ha
  case cos => cases h
  case sin => cases h
  case mul => rcases ha with rfl | rfl; exacts [h.1, h.2]
  case div => cases h

/-- At a point with coordinates of at least one, the size is at least one. -/
theorem one_le_abs {T : ℕ → ℕ} (hT : ∀ i, 1 ≤ T i) (e : Node F64) : IntPoly e → 1 ≤ eval T (absOf e) := by
  induction e using Node.ind_args with
  | step e ih =>
    intro h
    have ih' : ∀ a ∈ e.arguments, 1 ≤ eval T (absOf a) := fun a ha => ih a ha (h.arg a ha)
    cases e
    case const i c =>
      obtain ⟨k, hk, hc⟩ := h
      simp only [absOf, eval_C, intOf_eq hc]
      omega
    case var i s k => simpa [absOf] using hT i
    case add i args =>
      simp only [Node.arguments] at ih'
      obtain ⟨h1, -⟩ := h
      cases args with
      | nil => exact absurd rfl h1
      | cons a as =>
        have := ih' a (by simp)
        simp only [absOf, absOf.abss, map_add]
        omega
    case cos => cases h
    case sin => cases h
    case mul i a b =>
      simp only [absOf, map_mul]
      exact Nat.mul_pos (ih' a (by simp [Node.arguments])) (ih' b (by simp [Node.arguments]))
    case div => cases h

theorem abs_ne_zero {e : Node F64} (h : IntPoly e) : absOf e ≠ 0 := by
  intro h0
  have := one_le_abs (T := fun _ => 1) (fun _ => le_rfl) e h
  rw [h0] at this
  simp at this

theorem isDouble_int {k : ℤ} (h : k.natAbs ≤ 2 ^ 53) : IsDouble (k : ℚ) := by
  have h1 : |k| ≤ 2 ^ 53 := by rw [Int.abs_eq_natAbs]; exact_mod_cast h
  have := isDouble_fixed (g := 0) (by norm_num) (by norm_num) h1
  simpa using this

/-- The value is at most the size. -/
theorem natAbs_eval_le {z : ℕ → ℤ} {T : ℕ → ℕ} (hT : ∀ i, (z i).natAbs ≤ T i) (e : Node F64) : (eval z (polyOf e)).natAbs ≤ eval T (absOf e) := by
  induction e using Node.ind_args with
  | step e ih =>
    cases e
    case const i c => simp [polyOf, absOf]
    case var i s k => simpa [polyOf, absOf] using hT i
    case add i args =>
      simp only [Node.arguments] at ih
      simp only [polyOf, absOf]
      induction args with
      | nil => simp [polyOf.polys, absOf.abss]
      | cons a as ihs =>
        have h1 := ih a (by simp)
        have h2 := ihs fun a ha => ih a (by simp [ha])
        simp only [polyOf.polys, absOf.abss, map_add]
        have := Int.natAbs_add_le (eval z (polyOf a)) (eval z (polyOf.polys as))
        omega
    case cos => simp [polyOf, absOf]
    case sin => simp [polyOf, absOf]
    case mul i a b =>
      simp only [polyOf, absOf, map_mul, Int.natAbs_mul]
      exact Nat.mul_le_mul (ih a (by simp [Node.arguments])) (ih b (by simp [Node.arguments]))
    case div => simp [polyOf, absOf]

theorem mem_vars_add_left {i : ℕ} {A B : MvPolynomial ℕ ℕ} (h : i ∈ A.vars) : i ∈ (A + B).vars := by
  rw [mem_vars] at h ⊢
  obtain ⟨d, hd, hi⟩ := h
  refine ⟨d, ?_, hi⟩
  rw [mem_support_iff] at hd ⊢
  rw [coeff_add]
  omega

theorem mem_vars_add_right {i : ℕ} {A B : MvPolynomial ℕ ℕ} (h : i ∈ B.vars) : i ∈ (A + B).vars := by
  rw [add_comm]; exact mem_vars_add_left h

theorem mem_vars_mul_left {i : ℕ} {A B : MvPolynomial ℕ ℕ} (h : i ∈ A.vars) (hB : B ≠ 0) : i ∈ (A * B).vars := by
  have hA : A ≠ 0 := by rintro rfl; simp at h
  rw [mem_vars_iff_degreeOf_ne_zero] at h ⊢
  rw [degreeOf_mul_eq hA hB]
  omega

theorem mem_vars_mul_right {i : ℕ} {A B : MvPolynomial ℕ ℕ} (h : i ∈ B.vars) (hA : A ≠ 0) : i ∈ (A * B).vars := by
  rw [mul_comm]; exact mem_vars_mul_left h hA

/-- Evaluation is exact. -/
theorem eval_exact {σ : Env F64} {z : ℕ → ℤ} {T : ℕ → ℕ} (hz : ∀ i, (z i).natAbs ≤ T i) (hT : ∀ i, 1 ≤ T i) (e : Node F64) :
    IntPoly e → (∀ i ∈ (absOf e).vars, ∃ a, σ i = some a ∧ a.HasValue ((z i : ℤ) : ℚ)) → eval T (absOf e) ≤ 2 ^ 53 →
    (e.evaluate σ).HasValue ((eval z (polyOf e) : ℤ) : ℚ) := by
  induction e using Node.ind_args with
  | step e ih =>
    intro h hv hs
    have harg := h.arg
    cases e
    case const i c =>
      obtain ⟨k, hk, hc⟩ := h
      simpa [polyOf, intOf_eq hc, Node.evaluate] using hc
    case var i s k =>
      obtain ⟨a, h1, h2⟩ := hv i (by simp [absOf])
      simpa [polyOf, Node.evaluate, h1] using h2
    case add i args =>
      simp only [Node.arguments] at ih harg
      simp only [absOf] at hv hs
      have hF : List.Forall₂ (fun a t => (Node.evaluate σ a).HasValue t) args (args.map fun a => ((eval z (polyOf a) : ℤ) : ℚ)) := by
        rw [List.forall₂_map_right_iff, List.forall₂_same]
        intro a ha
        obtain ⟨l, r, rfl⟩ := List.append_of_mem ha
        have e1 : absOf.abss (l ++ a :: r) = absOf a + ((l.map absOf).sum + (r.map absOf).sum) := by rw [abss_eq]; simp; ring
        rw [e1] at hv hs
        rw [map_add] at hs
        exact ih a ha (harg a ha) (fun i hi => hv i (mem_vars_add_left hi)) (by omega)
      have := sumFrom_exact hF (acc := zero) (y := 0) F64.zero_value (by
        intro l hl
        obtain ⟨k, rfl⟩ : ∃ k, l = ((args.take k).map fun a => ((eval z (polyOf a) : ℤ) : ℚ)) :=
          ⟨l.length, by rw [List.map_take]; exact List.prefix_iff_eq_take.1 hl⟩
        have e2 : ∀ as : List (Node F64), (as.map fun a => ((eval z (polyOf a) : ℤ) : ℚ)).sum = ((eval z (polyOf.polys as) : ℤ) : ℚ) := by
          intro as
          induction as with
          | nil => simp [polyOf.polys]
          | cons a as ih => simp [polyOf.polys, ih]
        rw [zero_add, e2]
        refine isDouble_int ?_
        have h1 := natAbs_eval_le hz (.add 0 (args.take k))
        simp only [polyOf, absOf] at h1
        refine h1.trans (le_trans ?_ hs)
        conv_rhs => rw [← List.take_append_drop k args]
        rw [abss_eq, abss_eq, List.map_append, List.sum_append, map_add]
        omega)
      rw [zero_add] at this
      have e2 : ∀ as : List (Node F64), (as.map fun a => ((eval z (polyOf a) : ℤ) : ℚ)).sum = ((eval z (polyOf.polys as) : ℤ) : ℚ) := by
        intro as
        induction as with
        | nil => simp [polyOf.polys]
        | cons a as ih => simp [polyOf.polys, ih]
      rw [e2] at this
      exact this
    case cos => cases h
    case sin => cases h
    case mul i a b =>
      simp only [Node.arguments, List.mem_cons, List.not_mem_nil, or_false] at ih harg
      simp only [absOf] at hv hs
      have ha := harg a (.inl rfl)
      have hb := harg b (.inr rfl)
      have h1 := one_le_abs hT a ha
      have h2 := one_le_abs hT b hb
      rw [map_mul] at hs
      have h3 := ih a (.inl rfl) ha (fun i hi => hv i (mem_vars_mul_left hi (abs_ne_zero hb))) (le_trans (Nat.le_mul_of_pos_right _ h2) hs)
      have h4 := ih b (.inr rfl) hb (fun i hi => hv i (mem_vars_mul_right hi (abs_ne_zero ha))) (le_trans (Nat.le_mul_of_pos_left _ h1) hs)
      have h5 : IsDouble (((eval z (polyOf a) : ℤ) : ℚ) * ((eval z (polyOf b) : ℤ) : ℚ)) := by
        rw [← Int.cast_mul]
        refine isDouble_int ?_
        rw [Int.natAbs_mul]
        exact (Nat.mul_le_mul (natAbs_eval_le hz a) (natAbs_eval_le hz b)).trans hs
      have := F64.mul_exact h3 h4 h5
      simp only [polyOf, map_mul, Int.cast_mul]
      exact this
    case div => cases h

/-! ## Domination -/

/-- Every coefficient of `A` is at most the coefficient of `B`. -/
def Dom (A B : MvPolynomial ℕ ℕ) : Prop := ∃ D, B = A + D

theorem Dom.refl (A : MvPolynomial ℕ ℕ) : Dom A A := ⟨0, by simp⟩
theorem Dom.trans {A B D : MvPolynomial ℕ ℕ} (h : Dom A B) (h' : Dom B D) : Dom A D := by
  obtain ⟨X, rfl⟩ := h; obtain ⟨Y, rfl⟩ := h'; exact ⟨X + Y, by ring⟩
theorem Dom.add {A B A' B' : MvPolynomial ℕ ℕ} (h : Dom A B) (h' : Dom A' B') : Dom (A + A') (B + B') := by
  obtain ⟨X, rfl⟩ := h; obtain ⟨Y, rfl⟩ := h'; exact ⟨X + Y, by ring⟩
theorem Dom.mul {A B A' B' : MvPolynomial ℕ ℕ} (h : Dom A B) (h' : Dom A' B') : Dom (A * A') (B * B') := by
  obtain ⟨X, rfl⟩ := h; obtain ⟨Y, rfl⟩ := h'; exact ⟨A * Y + X * A' + X * Y, by ring⟩
theorem Dom.pderiv {A B : MvPolynomial ℕ ℕ} (x : ℕ) (h : Dom A B) : Dom (pderiv x A) (pderiv x B) := by
  obtain ⟨X, rfl⟩ := h; exact ⟨_, map_add _ _ _⟩
theorem Dom.ofLe {a b : ℕ} (h : a ≤ b) : Dom (C a) (C b) := ⟨C (b - a), by rw [← C_add]; congr 1; omega⟩
theorem Dom.eval {A B : MvPolynomial ℕ ℕ} (h : Dom A B) (T : ℕ → ℕ) : eval T A ≤ eval T B := by
  obtain ⟨X, rfl⟩ := h; rw [map_add]; omega
theorem Dom.small {A B : MvPolynomial ℕ ℕ} (h : Dom A B) (hs : SmallSum B) : SmallSum A := (h.eval _).trans hs
theorem Dom.vars {A B : MvPolynomial ℕ ℕ} (h : Dom A B) {i : ℕ} (hi : i ∈ A.vars) : i ∈ B.vars := by
  obtain ⟨X, rfl⟩ := h; exact mem_vars_add_left hi
theorem Dom.zero (A : MvPolynomial ℕ ℕ) : Dom 0 A := ⟨A, by simp⟩

/-- A constant with the value zero. -/
def IsZero (e : Node F64) : Prop := ∃ i c, e = .const i c ∧ c.HasValue 0

/-- The expression stores the polynomial `P`, with sizes of at most `A`. -/
def Rep (e : Node F64) (P : MvPolynomial ℕ ℤ) (A : MvPolynomial ℕ ℕ) : Prop :=
  (IsZero e ∧ P = 0) ∨ (IntPoly e ∧ polyOf e = P ∧ Dom (absOf e) A)

theorem Rep.grow {e : Node F64} {P : MvPolynomial ℕ ℤ} {A B : MvPolynomial ℕ ℕ} (h : Rep e P A) (hd : Dom A B) : Rep e P B := by
  rcases h with h | ⟨h1, h2, h3⟩
  · exact .inl h
  · exact .inr ⟨h1, h2, h3.trans hd⟩

theorem Rep.const {i : ℕ} {c : F64} {k : ℤ} (h : c.HasValue (k : ℚ)) : Rep (.const i c) (C k) (C k.natAbs) := by
  by_cases hk : k = 0
  · subst hk
    exact .inl ⟨⟨i, c, rfl, by simpa using h⟩, by simp⟩
  · refine .inr ⟨⟨k, hk, h⟩, by simp [polyOf, intOf_eq h], ?_⟩
    simp only [absOf, intOf_eq h]
    exact .refl _

theorem Rep.of_const {i : ℕ} {c : F64} {P : MvPolynomial ℕ ℤ} {A : MvPolynomial ℕ ℕ} (h : Rep (.const i c) P A) :
    ∃ k : ℤ, c.HasValue (k : ℚ) ∧ P = C k ∧ Dom (C k.natAbs) A := by
  rcases h with ⟨⟨j, c', h1, h2⟩, rfl⟩ | ⟨⟨k, hk, hc⟩, rfl, h3⟩
  · cases h1
    exact ⟨0, by simpa using h2, by simp, by simpa using Dom.zero A⟩
  · refine ⟨k, hc, by simp [polyOf, intOf_eq hc], ?_⟩
    simpa only [absOf, intOf_eq hc] using h3

theorem Rep.eval {e : Node F64} {P : MvPolynomial ℕ ℤ} {A : MvPolynomial ℕ ℕ} (h : Rep e P A) {σ : Env F64} {z : ℕ → ℤ}
    (hσ : ∀ i ∈ A.vars, ∃ a, σ i = some a ∧ a.HasValue ((z i : ℤ) : ℚ)) (hs : eval (fun i => max 1 (z i).natAbs) A ≤ 2 ^ 53) :
    (e.evaluate σ).HasValue ((eval z P : ℤ) : ℚ) := by
  rcases h with ⟨⟨i, c, rfl, hc⟩, rfl⟩ | ⟨h1, rfl, h3⟩
  · simpa [Node.evaluate] using hc
  · exact eval_exact (fun i => le_max_right _ _) (fun i => le_max_left _ _) e h1 (fun i hi => hσ i (h3.vars hi)) ((h3.eval _).trans hs)

/-! ## Sums -/

/-- The state of the loop that collects terms. -/
def Gath (acc : F64 × List (Node F64)) (P : MvPolynomial ℕ ℤ) (A : MvPolynomial ℕ ℕ) : Prop :=
  ∃ k : ℤ, acc.1.HasValue (k : ℚ) ∧ (∀ a ∈ acc.2, IntPoly a) ∧ C k + (acc.2.map polyOf).sum = P ∧ Dom (C k.natAbs + (acc.2.map absOf).sum) A

theorem Gath.addConst {acc : F64 × List (Node F64)} {P : MvPolynomial ℕ ℤ} {A : MvPolynomial ℕ ℕ} (h : Gath acc P A) {c : F64} {k : ℤ}
    (hc : c.HasValue (k : ℚ)) (hs : SmallSum (A + C k.natAbs)) : Gath (acc.1 +. c, acc.2) (P + C k) (A + C k.natAbs) := by
  obtain ⟨j, h1, h2, rfl, h4⟩ := h
  have hle := Int.natAbs_add_le j k
  refine ⟨j + k, ?_, h2, by rw [C_add]; ring, ?_⟩
  · push_cast
    refine F64.add_exact h1 hc ?_
    rw [← Int.cast_add]
    refine isDouble_int ?_
    have := (h4.add (Dom.refl (C k.natAbs))).small hs
    unfold SmallSum at this
    simp only [map_add, eval_C] at this
    omega
  · refine Dom.trans ?_ (h4.add (.refl _))
    have := (Dom.ofLe hle).add (.refl (acc.2.map absOf).sum)
    rw [C_add] at this
    convert this using 1
    ring

theorem Gath.addTerm {acc : F64 × List (Node F64)} {P : MvPolynomial ℕ ℤ} {A : MvPolynomial ℕ ℕ} (h : Gath acc P A) {a : Node F64} (ha : IntPoly a) :
    Gath (acc.1, acc.2 ++ [a]) (P + polyOf a) (A + absOf a) := by
  obtain ⟨j, h1, h2, rfl, h4⟩ := h
  refine ⟨j, h1, ?_, by simp; ring, ?_⟩
  · intro b hb
    rcases List.mem_append.1 hb with hb | hb
    · exact h2 b hb
    · simp at hb; subst hb; exact ha
  · convert h4.add (.refl (absOf a)) using 1
    simp
    ring

theorem gatherArgs_rep : ∀ (as : List (Node F64)) {acc : F64 × List (Node F64)} {P : MvPolynomial ℕ ℤ} {A : MvPolynomial ℕ ℕ}, Gath acc P A →
    (∀ a ∈ as, IntPoly a) → SmallSum (A + (as.map absOf).sum) → Gath (gatherArgs acc as) (P + (as.map polyOf).sum) (A + (as.map absOf).sum) := by
  intro as
  induction as with
  | nil => intro acc P A h _ _; simpa [gatherArgs] using h
  | cons a as ih =>
    intro acc P A h ha hs
    have ha1 := ha a (by simp)
    have ha2 : ∀ a ∈ as, IntPoly a := fun a h' => ha a (by simp [h'])
    simp only [List.map_cons, List.sum_cons, ← add_assoc] at hs ⊢
    obtain ⟨c, args⟩ := acc
    cases a
    case const i v =>
      obtain ⟨k, hk, hc⟩ := ha1
      simp only [polyOf, absOf, intOf_eq hc] at hs ⊢
      exact ih (h.addConst hc (Dom.small ⟨_, rfl⟩ hs)) ha2 hs
    all_goals exact ih (h.addTerm ha1) ha2 hs

theorem gather_rep {acc : F64 × List (Node F64)} {P Q : MvPolynomial ℕ ℤ} {A B : MvPolynomial ℕ ℕ} {e : Node F64} (h : Gath acc P A) (he : Rep e Q B)
    (hs : SmallSum (A + B)) : Gath (gather acc e) (P + Q) (A + B) := by
  have grow : ∀ {acc' : F64 × List (Node F64)} {B'}, Dom B' B → Gath acc' (P + Q) (A + B') → Gath acc' (P + Q) (A + B) := by
    rintro acc' B' hd ⟨k, h1, h2, h3, h4⟩
    exact ⟨k, h1, h2, h3, h4.trans ((Dom.refl A).add hd)⟩
  cases e
  case const i c =>
    obtain ⟨k, hc, rfl, hd⟩ := he.of_const
    exact grow hd (h.addConst hc (((Dom.refl A).add hd).small hs))
  all_goals
    rcases he with ⟨⟨_, _, he, _⟩, _⟩ | ⟨h1, rfl, h3⟩
    · cases he
  case add i args =>
    refine grow h3 ?_
    have h3' := ((Dom.refl A).add h3).small hs
    simp only [polyOf, absOf, polys_eq, abss_eq] at h3' ⊢
    exact gatherArgs_rep args h (all_iff.1 h1.2) h3'
  all_goals exact grow h3 (h.addTerm h1)

theorem Gath.finish {acc : F64 × List (Node F64)} {P : MvPolynomial ℕ ℤ} {A : MvPolynomial ℕ ℕ} (h : Gath acc P A) {e : Node F64} {n n' : ℕ}
    (he : finishAdd acc n = .ok (e, n')) : Rep e P A := by
  obtain ⟨k, h1, h2, rfl, h4⟩ := h
  unfold finishAdd at he
  split at he
  · rename_i hempty
    rw [newConst_ok] at he
    obtain ⟨rfl, -⟩ := he
    have hl : acc.2 = [] := by simpa using hempty
    rw [hl] at h4 ⊢
    simp only [List.map_nil, List.sum_nil, add_zero] at h4 ⊢
    exact (Rep.const h1).grow h4
  · rename_i hne
    have hne' : acc.2 ≠ [] := by simpa using hne
    split at he
    · rename_i hz
      rw [M.bind_ok] at he
      obtain ⟨kn, n1, hk, he⟩ := he
      rw [newConst_ok] at hk
      obtain ⟨rfl, -⟩ := hk
      rw [newAdd_ok] at he
      obtain ⟨-, rfl, -⟩ := he
      have hk0 : k ≠ 0 := by
        rintro rfl
        simp only [Bool.not_eq_true'] at hz
        have := (F64.eqz (by simpa using h1 : acc.1.HasValue 0)).2 rfl
        rw [this] at hz
        cases hz
      refine .inr ⟨⟨by simp, all_iff.2 ?_⟩, ?_, ?_⟩
      · intro a ha
        rcases List.mem_append.1 ha with ha | ha
        · exact h2 a ha
        · simp at ha; subst ha; exact ⟨k, hk0, h1⟩
      · simp only [polyOf, polys_eq]
        simp [polyOf, intOf_eq h1]
        ring
      · simp only [absOf, abss_eq]
        convert h4 using 1
        simp [absOf, intOf_eq h1]
        ring
    · rename_i hz
      rw [newAdd_ok] at he
      obtain ⟨-, rfl, -⟩ := he
      simp only [Bool.not_eq_true', Bool.not_eq_false] at hz
      have hq : k = 0 := by exact_mod_cast (F64.eqz h1).1 hz
      subst hq
      refine .inr ⟨⟨hne', all_iff.2 h2⟩, by simp [polyOf, polys_eq], ?_⟩
      simp only [absOf, abss_eq]
      simpa using h4

theorem rep_sum {a b e : Node F64} {P Q : MvPolynomial ℕ ℤ} {A B : MvPolynomial ℕ ℕ} {n n' : ℕ} (ha : Rep a P A) (hb : Rep b Q B)
    (hs : SmallSum (A + B)) (h : finishAdd (gather (gather (zero, []) a) b) n = .ok (e, n')) : Rep e (P + Q) (A + B) := by
  have g0 : Gath (zero, []) 0 0 := ⟨0, by simpa using F64.zero_value, by simp, by simp, by simpa using Dom.refl 0⟩
  have g1 := gather_rep g0 ha (by rw [zero_add]; exact Dom.small ⟨_, rfl⟩ hs)
  rw [zero_add, zero_add] at g1
  exact (gather_rep g1 hb hs).finish h

theorem isZero_of {e : Node F64} {P : MvPolynomial ℕ ℤ} {A : MvPolynomial ℕ ℕ} (h : Rep e P A) (h0 : e.isConstVal zero = true) : P = 0 := by
  obtain ⟨i, v, rfl, hv⟩ := isConstVal_invD h0
  obtain ⟨k, hc, rfl, -⟩ := h.of_const
  have := (F64.eqz hc).1 hv
  have : k = 0 := by exact_mod_cast this
  subst this
  simp

theorem rep_addN {a b e : Node F64} {P Q : MvPolynomial ℕ ℤ} {A B : MvPolynomial ℕ ℕ} {n n' : ℕ} (ha : Rep a P A) (hb : Rep b Q B)
    (hs : SmallSum (A + B)) (h : addN a b n = .ok (e, n')) : Rep e (P + Q) (A + B) := by
  unfold addN at h
  split at h
  · rename_i h0
    rw [M.pure_ok] at h
    obtain ⟨rfl, -⟩ := h
    rw [isZero_of ha h0, zero_add]
    exact hb.grow ⟨A, by ring⟩
  split at h
  · rename_i h0
    rw [M.pure_ok] at h
    obtain ⟨rfl, -⟩ := h
    rw [isZero_of hb h0, add_zero]
    exact ha.grow ⟨B, rfl⟩
  · exact rep_sum ha hb hs h

theorem rep_addS {a e : Node F64} {P : MvPolynomial ℕ ℤ} {A : MvPolynomial ℕ ℕ} {c : F64} {k : ℤ} {n n' : ℕ} (ha : Rep a P A)
    (hc : c.HasValue (k : ℚ)) (hs : SmallSum (A + C k.natAbs)) (h : addS a c n = .ok (e, n')) : Rep e (P + C k) (A + C k.natAbs) := by
  unfold addS at h
  split at h
  · rename_i h0
    rw [M.pure_ok] at h
    obtain ⟨rfl, -⟩ := h
    have : k = 0 := by exact_mod_cast (F64.eqz hc).1 h0
    subst this
    simpa using ha
  · rw [M.bind_ok] at h
    obtain ⟨kn, n1, hk, h⟩ := h
    rw [newConst_ok] at hk
    obtain ⟨rfl, -⟩ := hk
    exact rep_sum ha (.const hc) hs h

theorem rep_sAdd {a e : Node F64} {P : MvPolynomial ℕ ℤ} {A : MvPolynomial ℕ ℕ} {c : F64} {k : ℤ} {n n' : ℕ} (ha : Rep a P A)
    (hc : c.HasValue (k : ℚ)) (hs : SmallSum (C k.natAbs + A)) (h : sAdd c a n = .ok (e, n')) : Rep e (C k + P) (C k.natAbs + A) := by
  unfold sAdd at h
  split at h
  · rename_i h0
    rw [M.pure_ok] at h
    obtain ⟨rfl, -⟩ := h
    have : k = 0 := by exact_mod_cast (F64.eqz hc).1 h0
    subst this
    simpa using ha
  · rw [M.bind_ok] at h
    obtain ⟨kn, n1, hk, h⟩ := h
    rw [newConst_ok] at hk
    obtain ⟨rfl, -⟩ := hk
    exact rep_sum (.const hc) ha hs h

end Verif.P64
