import Verif.Proofs.Binary64

/-! # Facts about the operations on doubles -/

set_option linter.unusedSectionVars false

namespace Verif

variable [Libm]

namespace F64

theorem signed_abs (s : Bool) {q : ℚ} (h : 0 ≤ q) : |signedQ s q| = q := by
  unfold signedQ
  cases s <;> simp [abs_of_nonneg h]

theorem double_of_value {a : F64} {x : ℚ} (h : a.HasValue x) : IsDouble x := by
  cases a with
  | nan => exact h.elim
  | inf s => exact h.elim
  | fin s q hq =>
    have h : signedQ s q = x := h
    subst h
    cases s
    · exact hq.2
    · obtain ⟨h1, m, e, h2, h3, h4⟩ := hq.2
      exact ⟨by simpa [signedQ] using h1, -m, e, by simpa using h2, h3, by simp [signedQ, h4]⟩

theorem form_of_value {a : F64} {x : ℚ} (h : a.HasValue x) : Form53 x := (double_of_value h).form

theorem value_unique {a : F64} {x y : ℚ} (h : a.HasValue x) (h' : a.HasValue y) : x = y := by
  cases a with
  | nan => exact h.elim
  | inf s => exact h.elim
  | fin s q hq => exact h.symm.trans h'

theorem neg_value {a : F64} {x : ℚ} (h : a.HasValue x) : (F64.neg a).HasValue (-x) := by
  cases a with
  | nan => exact h.elim
  | inf s => exact h.elim
  | fin s q hq =>
    have h : signedQ s q = x := h
    subst h
    show signedQ (!s) q = -signedQ s q
    cases s <;> simp [signedQ]

theorem add_value {a b : F64} {x y : ℚ} (ha : a.HasValue x) (hb : b.HasValue y) :
    (|x + y| < 2 ^ (1024 : ℤ) - 2 ^ (970 : ℤ) ∧ (a +. b).HasValue (round53 (x + y))) ∨
    (2 ^ (1024 : ℤ) - 2 ^ (970 : ℤ) ≤ |x + y| ∧ a +. b = .inf (decide (x + y < 0))) := by
  cases a with
  | nan => exact ha.elim
  | inf s => exact ha.elim
  | fin s q hq =>
    cases b with
    | nan => exact hb.elim
    | inf t => exact hb.elim
    | fin t r hr =>
      have ha : signedQ s q = x := ha
      have hb : signedQ t r = y := hb
      subst ha hb
      exact ofRat_value _ _

theorem sub_value {a b : F64} {x y : ℚ} (ha : a.HasValue x) (hb : b.HasValue y) :
    (|x - y| < 2 ^ (1024 : ℤ) - 2 ^ (970 : ℤ) ∧ (a -. b).HasValue (round53 (x - y))) ∨
    (2 ^ (1024 : ℤ) - 2 ^ (970 : ℤ) ≤ |x - y| ∧ a -. b = .inf (decide (x - y < 0))) := by
  rw [sub_eq_add_neg]
  exact add_value ha (neg_value hb)

theorem mul_value {a b : F64} {x y : ℚ} (ha : a.HasValue x) (hb : b.HasValue y) :
    (|x * y| < 2 ^ (1024 : ℤ) - 2 ^ (970 : ℤ) ∧ (a *. b).HasValue (round53 (x * y))) ∨
    (2 ^ (1024 : ℤ) - 2 ^ (970 : ℤ) ≤ |x * y| ∧ a *. b = .inf (decide (x * y < 0))) := by
  cases a with
  | nan => exact ha.elim
  | inf s => exact ha.elim
  | fin s q hq =>
    cases b with
    | nan => exact hb.elim
    | inf t => exact hb.elim
    | fin t r hr =>
      have ha : signedQ s q = x := ha
      have hb : signedQ t r = y := hb
      subst ha hb
      exact ofRat_value _ _

theorem div_value {a b : F64} {x y : ℚ} (ha : a.HasValue x) (hb : b.HasValue y) (hy : y ≠ 0) :
    (|x / y| < 2 ^ (1024 : ℤ) - 2 ^ (970 : ℤ) ∧ (a /. b).HasValue (round53 (x / y))) ∨
    (2 ^ (1024 : ℤ) - 2 ^ (970 : ℤ) ≤ |x / y| ∧ a /. b = .inf (decide (x / y < 0))) := by
  cases a with
  | nan => exact ha.elim
  | inf s => exact ha.elim
  | fin s q hq =>
    cases b with
    | nan => exact hb.elim
    | inf t => exact hb.elim
    | fin t r hr =>
      have ha : signedQ s q = x := ha
      have hb : signedQ t r = y := hb
      subst ha hb
      have hr0 : r ≠ 0 := by rintro rfl; apply hy; cases t <;> simp [signedQ]
      show _ ∨ _ ∧ F64.div (.fin s q hq) (.fin t r hr) = _
      have e1 : F64.div (.fin s q hq) (.fin t r hr) = ofRat (s ^^ t) (signedQ s q / signedQ t r) := by
        simp only [F64.div, if_neg hr0]
      have e2 : F64.div (.fin s q hq) (.fin t r hr) = (.fin s q hq : F64) /. .fin t r hr := rfl
      rw [← e2, e1]
      exact ofRat_value _ _

theorem abs_value {a : F64} {x v : ℚ} (h : a.HasValue x) : (FloatOps.abs a).HasValue v ↔ |x| = v := by
  cases a with
  | nan => exact h.elim
  | inf s => exact h.elim
  | fin s q hq =>
    have h : signedQ s q = x := h
    subst h
    rw [signed_abs s hq.1]
    rfl

theorem grid_sub {a b : F64} {x y : ℚ} (ha : a.HasValue x) (hb : b.HasValue y) : OnGrid (x - y) := by
  rw [sub_eq_add_neg]
  exact (form_of_value ha).grid.add (form_of_value hb).grid.neg

theorem zero_value : (zero : F64).HasValue 0 := by show signedQ false 0 = 0; simp [signedQ]

theorem lt_iff {a b : F64} {x y : ℚ} (ha : a.HasValue x) (hb : b.HasValue y) : F64.lt a b = true ↔ x < y := by
  cases a with
  | nan => exact ha.elim
  | inf s => exact ha.elim
  | fin s q hq =>
    cases b with
    | nan => exact hb.elim
    | inf t => exact hb.elim
    | fin t r hr =>
      have ha : signedQ s q = x := ha
      have hb : signedQ t r = y := hb
      subst ha hb
      simp [F64.lt]

theorem eq_iff {a b : F64} {x y : ℚ} (ha : a.HasValue x) (hb : b.HasValue y) : F64.eq a b = true ↔ x = y := by
  cases a with
  | nan => exact ha.elim
  | inf s => exact ha.elim
  | fin s q hq =>
    cases b with
    | nan => exact hb.elim
    | inf t => exact hb.elim
    | fin t r hr =>
      have ha : signedQ s q = x := ha
      have hb : signedQ t r = y := hb
      subst ha hb
      simp [F64.eq]

theorem max_value {a b : F64} {x y : ℚ} (ha : a.HasValue x) (hb : b.HasValue y) : (FloatOps.max a b).HasValue (max x y) := by
  have h := lt_iff hb ha
  cases a with
  | nan => exact ha.elim
  | inf s => exact ha.elim
  | fin s q hq =>
    cases b with
    | nan => exact hb.elim
    | inf t => exact hb.elim
    | fin t r hr =>
      show (if F64.lt (.fin t r hr) (.fin s q hq) then F64.fin s q hq else .fin t r hr).HasValue _
      by_cases hl : y < x
      · rw [if_pos (h.2 hl), max_eq_left hl.le]; exact ha
      · rw [if_neg (fun hc => hl (h.1 hc)), max_eq_right (not_lt.1 hl)]; exact hb

theorem max_zero_value {a : F64} {x : ℚ} (h : a.HasValue x) : (FloatOps.max zero a).HasValue (max 0 x) := max_value zero_value h

theorem max_zero_inf (s : Bool) : FloatOps.max zero (.inf s : F64) = if s then zero else .inf false := by cases s <;> rfl

theorem round53_nonpos_iff {x : ℚ} (h : OnGrid x) : round53 x ≤ 0 ↔ x ≤ 0 := by
  constructor
  · intro h1
    by_contra hc
    have hc := not_le.1 hc
    have := round53_nonneg hc.le
    exact hc.ne' ((round53_eq_zero h).1 (le_antisymm h1 this))
  · intro h1
    have := round53_nonneg (neg_nonneg.2 h1)
    rw [round53_neg] at this
    linarith

theorem threshold_pos : (0 : ℚ) < 2 ^ (1024 : ℤ) - 2 ^ (970 : ℤ) := by decide +kernel

theorem max_sub_zero {a b : F64} {x y : ℚ} (ha : a.HasValue x) (hb : b.HasValue y) : (FloatOps.max zero (a -. b)).HasValue 0 ↔ x ≤ y := by
  rw [← sub_nonpos]
  rcases sub_value ha hb with ⟨-, h⟩ | ⟨h, h'⟩
  · rw [← round53_nonpos_iff (grid_sub ha hb)]
    have h1 := max_zero_value h
    constructor
    · intro h2
      exact max_eq_left_iff.1 (value_unique h1 h2)
    · intro h2
      rw [max_eq_left h2] at h1
      exact h1
  · rw [h', max_zero_inf]
    have hp := threshold_pos
    by_cases hlt : x - y < 0
    · simp only [hlt, decide_true, if_true, hlt.le, iff_true]
      exact zero_value
    · simp only [hlt, decide_false, Bool.false_eq_true, if_false]
      refine ⟨fun h => h.elim, fun h2 => ?_⟩
      have : x - y = 0 := le_antisymm h2 (not_lt.1 hlt)
      rw [this, abs_zero] at h
      exact absurd hp (not_lt.2 h)

theorem max_sub_accuracy {a b : F64} {x y : ℚ} (ha : a.HasValue x) (hb : b.HasValue y) :
    (max 0 (x - y) < 2 ^ (1024 : ℤ) - 2 ^ (970 : ℤ) ∧ ∃ v, (FloatOps.max zero (a -. b)).HasValue v ∧ 0 ≤ v ∧
        |v - max 0 (x - y)| ≤ 2 ^ (-53 : ℤ) * max 0 (x - y)) ∨
      (2 ^ (1024 : ℤ) - 2 ^ (970 : ℤ) ≤ max 0 (x - y) ∧ FloatOps.max zero (a -. b) = .inf false) := by
  have hp := threshold_pos
  rcases sub_value ha hb with ⟨h, h'⟩ | ⟨h, h'⟩
  · refine .inl ⟨max_lt hp (lt_of_le_of_lt (le_abs_self _) h), _, max_zero_value h', le_max_left _ _, ?_⟩
    have hg := grid_sub ha hb
    rcases le_or_gt (x - y) 0 with h1 | h1
    · rw [max_eq_left h1, max_eq_left ((round53_nonpos_iff hg).2 h1)]; simp
    · have h2 : 0 ≤ round53 (x - y) := round53_nonneg h1.le
      rw [max_eq_right h1.le, max_eq_right h2]
      have := round53_rel_err (.inl hg)
      rwa [abs_of_pos h1] at this
  · rw [h', max_zero_inf]
    by_cases hlt : x - y < 0
    · left
      simp only [hlt, decide_true, if_true]
      rw [max_eq_left hlt.le]
      exact ⟨hp, 0, zero_value, le_refl _, by simp⟩
    · right
      have h1 := not_lt.1 hlt
      simp only [hlt, decide_false, Bool.false_eq_true, if_false, and_true]
      rw [max_eq_right h1]
      rwa [abs_of_nonneg h1] at h

theorem abs_not_neg (a : F64) : (FloatOps.abs a <. zero) = false := by
  cases a with
  | nan => rfl
  | inf s => rfl
  | fin s q hq =>
    show decide (signedQ false q < signedQ false 0) = false
    simpa [signedQ] using hq.1

theorem max_not_neg (a : F64) : (FloatOps.max zero a <. zero) = false := by
  cases a with
  | nan => show decide (signedQ false 0 < signedQ false 0) = false; simp
  | inf s => cases s <;> first | rfl | (show decide (signedQ false 0 < signedQ false 0) = false; simp)
  | fin s q hq =>
    have h := max_zero_value (a := .fin s q hq) (x := signedQ s q) rfl
    rw [Bool.eq_false_iff]
    intro hc
    have := (lt_iff h zero_value).1 hc
    exact absurd this (not_lt.2 (le_max_left _ _))

theorem eq_zero_iff {a : F64} : (a ==. zero) = true ↔ a.HasValue 0 := by
  cases a with
  | nan => exact ⟨fun h => Bool.noConfusion (show false = true from h), fun h => h.elim⟩
  | inf s => exact ⟨fun h => Bool.noConfusion (show false = true from h), fun h => h.elim⟩
  | fin s q hq =>
    rw [show ((.fin s q hq : F64) ==. zero) = decide (signedQ s q = signedQ false 0) from rfl, decide_eq_true_eq]
    simp [signedQ, HasValue]

theorem max_sub_le {a b : F64} (ha : a ≠ .nan) (hb : b ≠ .nan) : (FloatOps.max zero (a -. b) ==. zero) = (a <=. b) := by
  cases a with
  | nan => exact absurd rfl ha
  | inf s =>
    cases b with
    | nan => exact absurd rfl hb
    | inf t => cases s <;> cases t <;> rfl
    | fin t r hr => cases s <;> rfl
  | fin s q hq =>
    cases b with
    | nan => exact absurd rfl hb
    | inf t => cases t <;> rfl
    | fin t r hr =>
      have h := max_sub_zero (a := .fin s q hq) (b := .fin t r hr) (x := signedQ s q) (y := signedQ t r) rfl rfl
      rw [← eq_zero_iff] at h
      have h2 : ((.fin s q hq : F64) <=. .fin t r hr) = true ↔ signedQ s q ≤ signedQ t r := by
        rw [show ((.fin s q hq : F64) <=. .fin t r hr) = (decide (signedQ s q < signedQ t r) || decide (signedQ s q = signedQ t r)) from rfl]
        simp [le_iff_lt_or_eq]
      exact Bool.eq_iff_iff.2 (h.trans h2.symm)

theorem abs_sub_eq (a b : F64) : (FloatOps.abs (a -. b) ==. zero) = (a ==. b && a.isFinite) := by
  cases a with
  | nan => rfl
  | inf s =>
    cases b with
    | nan => rfl
    | inf t => cases s <;> cases t <;> rfl
    | fin t r hr => cases s <;> rfl
  | fin s q hq =>
    cases b with
    | nan => rfl
    | inf t => cases t <;> rfl
    | fin t r hr =>
      have ha : (.fin s q hq : F64).HasValue (signedQ s q) := rfl
      have hb : (.fin t r hr : F64).HasValue (signedQ t r) := rfl
      have h2 : ((.fin s q hq : F64) ==. .fin t r hr && (F64.fin s q hq).isFinite) = true ↔ signedQ s q = signedQ t r := by
        rw [show ((.fin s q hq : F64) ==. .fin t r hr) = decide (signedQ s q = signedQ t r) from rfl]
        simp [isFinite]
      refine Bool.eq_iff_iff.2 (Iff.trans ?_ h2.symm)
      rw [eq_zero_iff]
      rcases sub_value ha hb with ⟨-, h⟩ | ⟨h, h'⟩
      · rw [abs_value h, abs_eq_zero, round53_eq_zero (grid_sub ha hb), sub_eq_zero]
      · rw [h']
        refine ⟨fun h => h.elim, fun he => ?_⟩
        rw [he, sub_self, abs_zero] at h
        exact absurd threshold_pos (not_lt.2 h)

end F64

theorem sterbenz_pos {x y : ℚ} (hx : Form53 x) (hy : Form53 y) (h0 : 0 ≤ y) (h1 : y ≤ x) (h2 : x ≤ 2 * y) : Form53 (x - y) := by
  obtain ⟨m, e, hm, he, rfl⟩ := hx
  obtain ⟨m', e', hm', he', rfl⟩ := hy
  rcases le_total e e' with h | h
  · obtain ⟨k, hk⟩ := zpow_split h
    refine ⟨m - m' * k, e, ?_, he, by rw [hk]; push_cast; ring⟩
    have hp := two_zpow_pos e
    rw [hk, ← mul_assoc] at h0 h1 h2
    have a0 : (0 : ℚ) ≤ m' * k := by by_contra hc; nlinarith
    have a1 : (m' * k : ℚ) ≤ m := le_of_mul_le_mul_right h1 hp
    have b0 : 0 ≤ m' * k := by exact_mod_cast a0
    have b1 : m' * k ≤ m := by exact_mod_cast a1
    rw [abs_of_nonneg (by omega)]
    rw [abs_of_nonneg (by omega)] at hm
    omega
  · obtain ⟨k, hk⟩ := zpow_split h
    refine ⟨m * k - m', e', ?_, he', by rw [hk]; push_cast; ring⟩
    have hp := two_zpow_pos e'
    rw [hk, ← mul_assoc] at h1 h2
    rw [← mul_assoc] at h2
    have a0 : (0 : ℚ) ≤ m' := by by_contra hc; nlinarith
    have a1 : (m' : ℚ) ≤ m * k := le_of_mul_le_mul_right h1 hp
    have a2 : (m * k : ℚ) ≤ 2 * m' := le_of_mul_le_mul_right h2 hp
    have b0 : 0 ≤ m' := by exact_mod_cast a0
    have b1 : m' ≤ m * k := by exact_mod_cast a1
    have b2 : m * k ≤ 2 * m' := by exact_mod_cast a2
    rw [abs_of_nonneg (by omega)]
    rw [abs_of_nonneg (by omega)] at hm'
    omega

/-- Sterbenz: the difference of doubles within a factor of two is a double. -/
theorem sterbenz {x y : ℚ} (hx : Form53 x) (hy : Form53 y) (h1 : |x| ≤ 2 * |y|) (h2 : |y| ≤ 2 * |x|) (hs : 0 ≤ x * y) : Form53 (x - y) := by
  have main : ∀ {x y : ℚ}, Form53 x → Form53 y → 0 ≤ x → 0 ≤ y → x ≤ 2 * y → y ≤ 2 * x → Form53 (x - y) := by
    intro x y hx hy h0 h0' h1 h2
    rcases le_total y x with h | h
    · exact sterbenz_pos hx hy h0' h h1
    · have := (sterbenz_pos hy hx h0 h h2).neg
      rwa [neg_sub] at this
  rcases le_total 0 x with h | h <;> rcases le_total 0 y with h' | h'
  · rw [abs_of_nonneg h, abs_of_nonneg h'] at h1 h2
    exact main hx hy h h' h1 h2
  · rcases eq_or_lt_of_le h with h | h
    · subst h
      have : y = 0 := by simpa using h2
      subst this
      simpa using hx
    · rcases eq_or_lt_of_le h' with h' | h'
      · subst h'; simpa using hx
      · nlinarith [mul_neg_of_pos_of_neg h h']
  · rcases eq_or_lt_of_le h with h | h
    · subst h
      have : y = 0 := by simpa using h2
      subst this
      simpa using hx
    · rcases eq_or_lt_of_le h' with h' | h'
      · subst h'; simpa using hx
      · nlinarith [mul_neg_of_neg_of_pos h h']
  · rw [abs_of_nonpos h, abs_of_nonpos h'] at h1 h2
    have := (main hx.neg hy.neg (by linarith) (by linarith) h1 h2).neg
    rwa [show -(-x - -y) = x - y by ring] at this

theorem F64.sub_small {a b : F64} {x y : ℚ} (ha : a.HasValue x) (hb : b.HasValue y) (hs : 0 ≤ x * y) :
    |x - y| < 2 ^ (1024 : ℤ) - 2 ^ (970 : ℤ) := by
  have hx : |x| ≤ 2 ^ (1024 : ℤ) - 2 ^ (971 : ℤ) := by
    have h := double_of_value ha
    rw [abs_le]
    exact ⟨neg_le.1 (form53_below h.form.neg (lt_of_le_of_lt (neg_le_abs x) h.1)), form53_below h.form (lt_of_le_of_lt (le_abs_self x) h.1)⟩
  have hy : |y| ≤ 2 ^ (1024 : ℤ) - 2 ^ (971 : ℤ) := by
    have h := double_of_value hb
    rw [abs_le]
    exact ⟨neg_le.1 (form53_below h.form.neg (lt_of_le_of_lt (neg_le_abs y) h.1)), form53_below h.form (lt_of_le_of_lt (le_abs_self y) h.1)⟩
  have hd : (2 : ℚ) ^ (1024 : ℤ) - 2 ^ (971 : ℤ) < 2 ^ (1024 : ℤ) - 2 ^ (970 : ℤ) := by decide +kernel
  refine lt_of_le_of_lt ?_ hd
  generalize (2 : ℚ) ^ (1024 : ℤ) - 2 ^ (971 : ℤ) = t at *
  rw [abs_le] at hx hy ⊢
  rcases le_total 0 x with h | h <;> rcases le_total 0 y with h' | h'
  · constructor <;> linarith
  · rcases eq_or_lt_of_le h with h | h
    · subst h; constructor <;> linarith
    · rcases eq_or_lt_of_le h' with h' | h'
      · subst h'; constructor <;> linarith
      · nlinarith [mul_neg_of_pos_of_neg h h']
  · rcases eq_or_lt_of_le h with h | h
    · subst h; constructor <;> linarith
    · rcases eq_or_lt_of_le h' with h' | h'
      · subst h'; constructor <;> linarith
      · nlinarith [mul_neg_of_neg_of_pos h h']
  · constructor <;> linarith

end Verif
