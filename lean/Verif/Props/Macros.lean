import Verif.Code.Macros
import Verif.Proofs.Binary64Ops
import Verif.Spec.ExampleD
import Verif.Proofs.Loop

/-! # C90: the public assertion on vectors -/

set_option linter.unusedSectionVars false

namespace Verif

section
variable {F : Type} [FloatOps F]

/-- The loop ends without a panic exactly if each comparison succeeds. -/
theorem assertPairs_ok {eps : F} {l : List (F × F)} : assertPairs eps l = .ok () ↔ ∀ p ∈ l, (FloatOps.abs (p.1 -. p.2) <=. eps) = true := by
  induction l with
  | nil => simp [assertPairs]
  | cons p l ih =>
    obtain ⟨a, b⟩ := p
    unfold assertPairs assertAbsDiffEq
    by_cases h : (FloatOps.abs (a -. b) <=. eps) = true
    · rw [if_pos h, R.ok_bind, ih]
      simp [h]
    · rw [if_neg h]
      simp only [List.mem_cons, forall_eq_or_imp, h]
      exact ⟨fun h => (by cases h), fun h => absurd h.1 (by simp)⟩

/-- The loop ends, or panics with a failed assertion. -/
theorem assertPairs_total (eps : F) (l : List (F × F)) : assertPairs eps l = .ok () ∨ assertPairs eps l = .error .assert := by
  induction l with
  | nil => exact .inl rfl
  | cons p l ih =>
    obtain ⟨a, b⟩ := p
    unfold assertPairs assertAbsDiffEq
    split
    · rw [R.ok_bind]; exact ih
    · exact .inr rfl

/-- **C90.** For every arithmetic: the assertion holds exactly if the vectors have the same length and each comparison of entries succeeds; otherwise it panics
with a failed assertion. -/
theorem C90_panics (x y : List F) (eps : F) :
    (assertVecApproxEq x y eps = .ok () ↔ x.length = y.length ∧ ∀ (i : ℕ) a b, x[i]? = some a → y[i]? = some b → (FloatOps.abs (a -. b) <=. eps) = true) ∧
    (assertVecApproxEq x y eps = .ok () ∨ assertVecApproxEq x y eps = .error .assert) := by
  unfold assertVecApproxEq
  split
  · rename_i h
    refine ⟨?_, assertPairs_total _ _⟩
    rw [assertPairs_ok, and_iff_right h]
    constructor
    · intro hp i a b ha hb
      refine hp (a, b) (List.mem_iff_getElem?.2 ⟨i, ?_⟩)
      rw [List.getElem?_zip_eq_some]
      exact ⟨ha, hb⟩
    · rintro hp ⟨a, b⟩ hm
      obtain ⟨i, hi⟩ := List.mem_iff_getElem?.1 hm
      rw [List.getElem?_zip_eq_some] at hi
      exact hp i a b hi.1 hi.2
  · rename_i h
    exact ⟨⟨fun h => (by cases h), fun hc => absurd hc.1 h⟩, .inr rfl⟩

end

section
variable [Libm]

theorem F64.le_value {a b : F64} {x y : ℚ} (ha : a.HasValue x) (hb : b.HasValue y) : (a <=. b) = true ↔ x ≤ y := by
  cases a <;> cases b <;> simp [F64.HasValue] at ha hb
  subst ha hb
  show (decide _ || decide _) = true ↔ _
  rw [Bool.or_eq_true, decide_eq_true_eq, decide_eq_true_eq, le_iff_lt_or_eq]

/-- One comparison, of finite doubles: it succeeds if the exact distance is at most `e`. -/
theorem absDiff_of_le {a b eps : F64} {p q e : ℚ} (ha : a.HasValue p) (hb : b.HasValue q) (he : eps.HasValue e) (h : |p - q| ≤ e) :
    (FloatOps.abs (a -. b) <=. eps) = true := by
  have hf : IsDouble e := by
    cases eps <;> simp [F64.HasValue] at he
    rename_i s v hv
    subst he
    cases s
    · exact hv.2
    · have : (0 : ℚ) ≤ -v := (abs_nonneg _).trans h
      have h0 : v = 0 := le_antisymm (by linarith) hv.1
      subst h0
      simpa [signedQ] using hv.2
  have hlt : |p - q| < 2 ^ (1024 : ℤ) - 2 ^ (970 : ℤ) := by
    have h1 := form53_below hf.form (lt_of_le_of_lt (le_abs_self e) hf.1)
    have h2 : (2 : ℚ) ^ (970 : ℤ) < 2 ^ (971 : ℤ) := zpow_lt_zpow_right₀ (by norm_num) (by norm_num)
    exact lt_of_le_of_lt (h.trans h1) (sub_lt_sub_left h2 _)
  rcases F64.sub_value ha hb with ⟨-, hs⟩ | ⟨hge, -⟩
  · rw [F64.le_value ((F64.abs_value hs).2 rfl) he]
    have h1 := round53_nearest (p - q) hf.form
    have h2 := round53_nearest (p - q) hf.form.neg
    rcases abs_le.1 h with ⟨h3, h4⟩
    rw [abs_of_nonneg (by linarith : 0 ≤ e - (p - q))] at h1
    rw [abs_of_nonpos (by linarith : -e - (p - q) ≤ 0)] at h2
    rw [abs_le] at h1 h2 ⊢
    constructor <;> linarith [h1.1, h1.2, h2.1, h2.2]
  · exact absurd hlt (not_lt.2 hge)

/-- One comparison that succeeds with a finite tolerance: the entries are finite, and the exact distance is at most `e` up to the rounding of one
subtraction. -/
theorem le_of_absDiff {a b eps : F64} {e : ℚ} (he : eps.HasValue e) (h : (FloatOps.abs (a -. b) <=. eps) = true) :
    ∃ p q, a.HasValue p ∧ b.HasValue q ∧ |p - q| * (1 - 2 ^ (-53 : ℤ)) ≤ e := by
  have notInf : ∀ s, (FloatOps.abs (F64.inf s) <=. eps) = false := by
    intro s
    cases eps <;> simp [F64.HasValue] at he
    rfl
  have notNan : (FloatOps.abs F64.nan <=. eps) = false := by
    cases eps <;> simp [F64.HasValue] at he
    rfl
  have sub_eq : ∀ a b : F64, a -. b = F64.add a (F64.neg b) := fun _ _ => rfl
  cases a with
  | nan => rw [sub_eq] at h; cases b <;> simp [F64.add, F64.neg, notNan] at h
  | inf s =>
    rw [sub_eq] at h
    cases b with
    | nan => simp [F64.add, F64.neg, notNan] at h
    | inf t =>
      simp only [F64.add, F64.neg] at h
      split at h
      · rw [notInf] at h; cases h
      · rw [notNan] at h; cases h
    | fin t r hr => simp only [F64.add, F64.neg] at h; rw [notInf] at h; cases h
  | fin s v hv =>
    cases b with
    | nan => rw [sub_eq] at h; simp [F64.add, F64.neg, notNan] at h
    | inf t => rw [sub_eq] at h; simp only [F64.add, F64.neg] at h; rw [notInf] at h; cases h
    | fin t r hr =>
      refine ⟨_, _, rfl, rfl, ?_⟩
      have ha : (F64.fin s v hv).HasValue (signedQ s v) := rfl
      have hb : (F64.fin t r hr).HasValue (signedQ t r) := rfl
      rcases F64.sub_value ha hb with ⟨-, hs⟩ | ⟨-, hs⟩
      · rw [F64.le_value ((F64.abs_value hs).2 rfl) he] at h
        have h1 := round53_rel_err (.inl (F64.grid_sub ha hb))
        have h2 := abs_sub_abs_le_abs_sub (signedQ s v - signedQ t r) (round53 (signedQ s v - signedQ t r))
        rw [abs_sub_comm _ (round53 _)] at h2
        rw [mul_sub, mul_one, mul_comm _ ((2 : ℚ) ^ (-53 : ℤ))]
        linarith
      · rw [hs, notInf] at h; cases h

/-- **C90.** In double precision, vectors of finite numbers of the same length whose entries differ, in exact arithmetic, by at most the tolerance pass. -/
theorem C90_passes {x y : List F64} {eps : F64} {e : ℚ} (he : eps.HasValue e) (hlen : x.length = y.length)
    (h : ∀ (i : ℕ) a b, x[i]? = some a → y[i]? = some b → ∃ p q, a.HasValue p ∧ b.HasValue q ∧ |p - q| ≤ e) : assertVecApproxEq x y eps = .ok () :=
  (C90_panics x y eps).1.2 ⟨hlen, fun i a b ha hb => by
    obtain ⟨p, q, h1, h2, h3⟩ := h i a b ha hb
    exact absDiff_of_le h1 h2 he h3⟩

/-- **C90.** In double precision, vectors that pass with a finite tolerance have the same length, their entries are finite, and these differ, in exact
arithmetic, by at most the tolerance, up to the rounding of one subtraction. -/
theorem C90_sound {x y : List F64} {eps : F64} {e : ℚ} (he : eps.HasValue e) (h : assertVecApproxEq x y eps = .ok ()) :
    x.length = y.length ∧ ∀ (i : ℕ) a b, x[i]? = some a → y[i]? = some b → ∃ p q, a.HasValue p ∧ b.HasValue q ∧ |p - q| * (1 - 2 ^ (-53 : ℤ)) ≤ e := by
  obtain ⟨h1, h2⟩ := (C90_panics x y eps).1.1 h
  exact ⟨h1, fun i a b ha hb => le_of_absDiff he (h2 i a b ha hb)⟩

end

section
attribute [local instance] exLibm

/-- Concrete cases: vectors that pass, that differ too much, of different lengths, and with an infinity. -/
example : assertVecApproxEq [dbl 1, dbl (1 / 10)] [dbl 1, dbl (3 / 20)] (dbl (1 / 16)) = .ok () ∧
    assertVecApproxEq [dbl 1, dbl (1 / 10)] [dbl 1, dbl (3 / 20)] (dbl (1 / 32)) = .error .assert ∧
    assertVecApproxEq [dbl 1] [dbl 1, dbl 2] (dbl 10) = .error .assert ∧
    assertVecApproxEq [.inf false] [.inf false] (dbl 10) = .error .assert := by decide +kernel

/-- The hypotheses of `C90_passes` are met by the first case. -/
example : assertVecApproxEq [dbl 1] [dbl (17 / 16)] (dbl (1 / 16)) = .ok () :=
  C90_passes (e := 1 / 16) (F64.value_iff.1 (by decide +kernel)) rfl fun i a b ha hb => by
    match i with
    | 0 =>
      simp only [List.getElem?_cons_zero, Option.some.injEq] at ha hb
      subst ha hb
      exact ⟨1, 17 / 16, F64.value_iff.1 (by decide +kernel), F64.value_iff.1 (by decide +kernel), by norm_num⟩
    | i + 1 => simp at ha

end

end Verif
