import Verif.Proofs.Graded
import Verif.Proofs.ExactRep

/-! # The two ways to give degrees, for doubles and for exact numbers -/

set_option linter.unusedSectionVars false
set_option linter.unusedSimpArgs false

namespace Verif

section
variable {F : Type} [FloatOps F]

/-- Facts about signs of numbers. -/
structure SignFacts (F : Type) [FloatOps F] : Prop where
  zz : ((zero : F) <. zero) = false
  one : ((one : F) <. zero) = false
  negOne : ((zero : F) <. Verif.negOne) = false
  negOne_ne : ((Verif.negOne : F) ==. zero) = false
  add_nn : ∀ {v w : F}, (v <. zero) = false → (w <. zero) = false → (v +. w <. zero) = false
  add_np : ∀ {v w : F}, (zero <. v) = false → (zero <. w) = false → (zero <. v +. w) = false
  cancel_nn : ∀ {v w : F}, (v <. zero) = false → (w <. zero) = false → (v +. w ==. zero) = true → (v ==. zero) = true ∧ (w ==. zero) = true
  cancel_np : ∀ {v w : F}, (zero <. v) = false → (zero <. w) = false → (v +. w ==. zero) = true → (v ==. zero) = true ∧ (w ==. zero) = true
  mul_pp : ∀ {v w : F}, (v <. zero) = false → (w <. zero) = false → (v *. w <. zero) = false
  mul_pn : ∀ {v w : F}, (v <. zero) = false → (zero <. w) = false → (zero <. v *. w) = false
  mul_np : ∀ {v w : F}, (zero <. v) = false → (w <. zero) = false → (zero <. v *. w) = false
  mul_nn : ∀ {v w : F}, (zero <. v) = false → (zero <. w) = false → (v *. w <. zero) = false
  inv_p : ∀ {k : F}, (k <. zero) = false → (k ==. zero) = false → (FloatOps.one /. k <. zero) = false
  inv_n : ∀ {k : F}, (zero <. k) = false → (k ==. zero) = false → (zero <. FloatOps.one /. k) = false
  unit : ∀ {k : F}, (k ==. FloatOps.one) = true → (zero <. k) = true

theorem zmod2 (d : ZMod 2) : d = 0 ∨ d = 1 := by revert d; decide

theorem signLaws (S : SignFacts F) : GradeLaws (signNum : F → ZMod 2 → Prop) 0 1 (fun _ => True) (fun _ => True) where
  one := .inl ⟨rfl, S.one⟩
  zero := by
    intro d _
    rcases zmod2 d with rfl | rfl
    · exact .inl ⟨rfl, S.zz⟩
    · exact .inr ⟨rfl, S.zz⟩
  valid := fun _ => trivial
  valid_add := fun _ _ => trivial
  pos_valid := fun _ => trivial
  pos_var := trivial
  pos_add := fun _ _ => trivial
  valid_sub := fun _ => trivial
  add := by
    rintro v w d (⟨rfl, h1⟩ | ⟨rfl, h1⟩) (⟨h, h2⟩ | ⟨h, h2⟩)
    · exact .inl ⟨rfl, S.add_nn h1 h2⟩
    · exact absurd h (by decide)
    · exact absurd h (by decide)
    · exact .inr ⟨rfl, S.add_np h1 h2⟩
  cancel := by
    rintro v w d - (⟨rfl, h1⟩ | ⟨rfl, h1⟩) (⟨h, h2⟩ | ⟨h, h2⟩) h0
    · exact S.cancel_nn h1 h2 h0
    · exact absurd h (by decide)
    · exact absurd h (by decide)
    · exact S.cancel_np h1 h2 h0
  mul := by
    rintro v w d e (⟨rfl, h1⟩ | ⟨rfl, h1⟩) (⟨rfl, h2⟩ | ⟨rfl, h2⟩) - -
    · exact .inl ⟨by decide, S.mul_pp h1 h2⟩
    · exact .inr ⟨by decide, S.mul_pn h1 h2⟩
    · exact .inr ⟨by decide, S.mul_np h1 h2⟩
    · exact .inl ⟨by decide, S.mul_nn h1 h2⟩
  neg := by
    rintro v d (⟨rfl, h1⟩ | ⟨rfl, h1⟩)
    · exact .inr ⟨by decide, S.mul_np S.negOne h1⟩
    · exact .inl ⟨by decide, S.mul_nn S.negOne h1⟩
  negOne := .inr ⟨rfl, S.negOne⟩
  negOne_ne := S.negOne_ne
  inv := by
    rintro k d (⟨rfl, h1⟩ | ⟨rfl, h1⟩) h0
    · exact .inl ⟨by decide, S.inv_p h1 h0⟩
    · exact .inr ⟨by decide, S.inv_n h1 h0⟩
  unit := by
    rintro k d (⟨rfl, h1⟩ | ⟨rfl, h1⟩) h
    · rfl
    · rw [S.unit h] at h1; cases h1

/-- Facts about zeros. -/
structure ZeroFacts (F : Type) [FloatOps F] : Prop where
  zz : ((zero : F) ==. zero) = true
  add : ∀ {v w : F}, (v ==. zero) = true → (w ==. zero) = true → (v +. w ==. zero) = true
  neg : ∀ {v : F}, (v ==. zero) = true → (negOne *. v ==. zero) = true
  negOne_ne : ((negOne : F) ==. zero) = false
  unit : ∀ {k : F}, (k ==. one) = true → (k ==. zero) = false

theorem homLaws (S : ZeroFacts F) : GradeLaws (homNum : F → ℤ → Prop) 1 0 (0 ≤ ·) (1 ≤ ·) where
  one := .inl rfl
  zero := by
    intro d hd
    rcases hd.lt_or_eq with h | h
    · exact .inr ⟨h, S.zz⟩
    · exact .inl h.symm
  valid := by rintro v d (rfl | ⟨h, -⟩) <;> omega
  valid_add := by intro d e h1 h2; show 0 ≤ d + e; omega
  pos_valid := by intro d h; show 0 ≤ d; omega
  pos_var := le_refl 1
  pos_add := by intro d e h1 h2; show 1 ≤ d + e; omega
  valid_sub := by intro d h; show 0 ≤ d - 1; omega
  add := by
    rintro v w d (rfl | ⟨h, h1⟩) (h' | ⟨h', h2⟩)
    · exact .inl rfl
    · omega
    · omega
    · exact .inr ⟨h, S.add h1 h2⟩
  cancel := by
    rintro v w d hp (rfl | ⟨h, h1⟩) (h' | ⟨h', h2⟩) -
    · simp at hp
    · omega
    · omega
    · exact ⟨h1, h2⟩
  mul := by
    rintro v w d e (rfl | ⟨h, h1⟩) (rfl | ⟨h', h2⟩) h3 h4
    · exact .inl rfl
    · rw [h2] at h4; cases h4
    · rw [h1] at h3; cases h3
    · rw [h1] at h3; cases h3
  neg := by
    rintro v d (rfl | ⟨h, h1⟩)
    · exact .inl rfl
    · exact .inr ⟨by omega, S.neg h1⟩
  negOne := .inl rfl
  negOne_ne := S.negOne_ne
  inv := by
    rintro k d (rfl | ⟨h, h1⟩) h0
    · exact .inl rfl
    · rw [h1] at h0; cases h0
  unit := by
    rintro k d (rfl | ⟨h, h1⟩) h0
    · rfl
    · rw [S.unit h0] at h1; cases h1

end

/-! ### Doubles -/

namespace F64

/-- Not negative. -/
def NN : F64 → Prop
  | .nan => True
  | .inf s => s = false
  | .fin s q _ => 0 ≤ signedQ s q

/-- Not positive. -/
def NP : F64 → Prop
  | .nan => True
  | .inf s => s = true
  | .fin s q _ => signedQ s q ≤ 0

variable [Libm]

theorem nn_iff {v : F64} : (v <. zero) = false ↔ v.NN := by
  show F64.lt v (.fin false 0 double_zero) = false ↔ _
  cases v <;> simp [F64.lt, NN, signedQ]

theorem np_iff {v : F64} : (zero <. v) = false ↔ v.NP := by
  show F64.lt (.fin false 0 double_zero) v = false ↔ _
  cases v <;> simp [F64.lt, NP, signedQ]

theorem ofRat_nn {s : Bool} {x : ℚ} (h : 0 ≤ x) : (F64.ofRat s x).NN := by
  unfold ofRat
  by_cases hx : x = 0
  · subst hx
    simp only [abs_zero, round53_zero]
    rw [dif_pos (by positivity)]
    simp [NN, signedQ]
  · have : decide (x < 0) = false := by simpa using h
    simp only [hx, if_false, this]
    split
    · simp only [NN, signedQ]; exact round53_nonneg (abs_nonneg x)
    · rfl

theorem ofRat_np {s : Bool} {x : ℚ} (h : x ≤ 0) : (F64.ofRat s x).NP := by
  unfold ofRat
  by_cases hx : x = 0
  · subst hx
    simp only [abs_zero, round53_zero]
    rw [dif_pos (by positivity)]
    simp [NP, signedQ]
  · have : decide (x < 0) = true := by simpa using lt_of_le_of_ne h hx
    simp only [hx, if_false, this]
    split
    · simp only [NP, signedQ, if_true]; have := round53_nonneg (abs_nonneg x); linarith
    · rfl

theorem add_NN {v w : F64} (hv : v.NN) (hw : w.NN) : (F64.add v w).NN := by
  cases v <;> cases w <;> simp only [F64.add, NN] at * <;> try trivial
  · subst hv hw; simp
  · exact ofRat_nn (add_nonneg hv hw)

theorem add_NP {v w : F64} (hv : v.NP) (hw : w.NP) : (F64.add v w).NP := by
  cases v <;> cases w <;> simp only [F64.add, NP] at * <;> try trivial
  · subst hv hw; simp
  · exact ofRat_np (add_nonpos hv hw)

theorem add_zero_value {v w : F64} (h : (v +. w ==. zero) = true) : ∃ x y, v.HasValue x ∧ w.HasValue y ∧ x + y = 0 := by
  rw [eq_zero_iff] at h
  have hf : ∀ {a b : F64}, (a +. b).HasValue 0 → ∃ x y, a.HasValue x ∧ b.HasValue y := by
    intro a b h
    have h : (F64.add a b).HasValue 0 := h
    cases a <;> cases b <;> simp only [F64.add] at h <;> first | exact h.elim | skip
    · split at h <;> exact h.elim
    · exact ⟨_, _, rfl, rfl⟩
  obtain ⟨x, y, hx, hy⟩ := hf h
  refine ⟨x, y, hx, hy, ?_⟩
  rcases add_value hx hy with ⟨-, h'⟩ | ⟨-, h'⟩
  · have := value_unique h h'
    exact (round53_eq_zero ((form_of_value hx).grid.add (form_of_value hy).grid)).1 this.symm
  · rw [h'] at h; exact h.elim

theorem nn_value {v : F64} {x : ℚ} (h : v.NN) (hx : v.HasValue x) : 0 ≤ x := by
  cases v
  case fin s q hq => have hx : signedQ s q = x := hx; rw [← hx]; exact h
  all_goals exact hx.elim

theorem np_value {v : F64} {x : ℚ} (h : v.NP) (hx : v.HasValue x) : x ≤ 0 := by
  cases v
  case fin s q hq => have hx : signedQ s q = x := hx; rw [← hx]; exact h
  all_goals exact hx.elim

/-- A sign for each of the two cases. -/
def HasSign (b : Bool) (v : F64) : Prop := if b then v.NP else v.NN

theorem signedQ_of_sign {b s : Bool} {q : ℚ} {h : 0 ≤ q ∧ IsDouble q} (hq : q ≠ 0) (hb : HasSign b (.fin s q h)) : s = b := by
  have : 0 < q := lt_of_le_of_ne h.1 (Ne.symm hq)
  cases b <;> cases s <;> simp [HasSign, NN, NP, signedQ] at hb ⊢ <;> linarith

theorem inf_of_sign {b s : Bool} (hb : HasSign b (.inf s)) : s = b := by
  cases b <;> simpa [HasSign, NN, NP] using hb

theorem sign_inf (b : Bool) : HasSign b (.inf b) := by cases b <;> rfl

theorem sign_nan (b : Bool) : HasSign b .nan := by cases b <;> trivial

theorem sign_value {b s : Bool} {q : ℚ} {h : 0 ≤ q ∧ IsDouble q} (hb : HasSign b (.fin s q h)) : ∃ y, 0 ≤ y ∧ signedQ s q = signedQ b y := by
  cases b
  · exact ⟨signedQ s q, hb, rfl⟩
  · exact ⟨-signedQ s q, by have : signedQ s q ≤ 0 := hb; linarith, by simp [signedQ]⟩

theorem sign_ofRat {b s : Bool} {y x : ℚ} (hy : 0 ≤ y) (hx : x = signedQ b y) : HasSign b (F64.ofRat s x) := by
  subst hx
  cases b
  · exact ofRat_nn hy
  · refine ofRat_np ?_
    simp only [signedQ, if_true]; linarith

theorem mul_sign {a b : Bool} {v w : F64} (hv : HasSign a v) (hw : HasSign b w) : HasSign (a ^^ b) (F64.mul v w) := by
  cases v with
  | nan => exact sign_nan _
  | inf s =>
    have hs := inf_of_sign hv
    subst hs
    cases w with
    | nan => exact sign_nan _
    | inf t => rw [inf_of_sign hw]; exact sign_inf _
    | fin t r hr =>
      simp only [F64.mul]
      split
      · exact sign_nan _
      · rename_i h; rw [signedQ_of_sign h hw]; exact sign_inf _
  | fin s q hq =>
    cases w with
    | nan => exact sign_nan _
    | inf t =>
      have ht := inf_of_sign hw
      subst ht
      simp only [F64.mul]
      split
      · exact sign_nan _
      · rename_i h; rw [signedQ_of_sign h hv]; exact sign_inf _
    | fin t r hr =>
      obtain ⟨y, hy, e1⟩ := sign_value hv
      obtain ⟨z, hz, e2⟩ := sign_value hw
      simp only [F64.mul, e1, e2]
      refine sign_ofRat (y := y * z) (mul_nonneg hy hz) ?_
      cases a <;> cases b <;> simp [signedQ]

theorem inv_sign {b : Bool} {k : F64} (hk : HasSign b k) (h0 : ¬ k.HasValue 0) : HasSign b (F64.div (.fin false 1 double_one) k) := by
  cases k with
  | nan => exact sign_nan _
  | inf s =>
    simp only [F64.div]
    cases b <;> simp [HasSign, NN, NP, signedQ]
  | fin s q hq =>
    have hq0 : q ≠ 0 := by
      intro h
      apply h0
      subst h
      show signedQ s 0 = 0
      cases s <;> simp [signedQ]
    simp only [F64.div, hq0, if_false]
    obtain ⟨y, hy, e1⟩ := sign_value hk
    refine sign_ofRat (y := 1 / y) (by positivity) ?_
    rw [e1]
    cases b <;> simp [signedQ, neg_div, div_neg]

theorem hasSign_false {v : F64} : (v <. zero) = false ↔ HasSign false v := nn_iff
theorem hasSign_true {v : F64} : (zero <. v) = false ↔ HasSign true v := np_iff

theorem signFacts : SignFacts F64 where
  zz := nn_iff.2 (by show (0 : ℚ) ≤ signedQ false 0; simp [signedQ])
  one := nn_iff.2 (by show (0 : ℚ) ≤ signedQ false 1; simp [signedQ])
  negOne := np_iff.2 (by show signedQ (!false) 1 ≤ 0; simp [signedQ])
  negOne_ne := by
    rw [Bool.eq_false_iff]
    intro h
    have := (F64.eqz F64.negOne_value).1 h
    norm_num at this
  add_nn := fun h1 h2 => nn_iff.2 (add_NN (nn_iff.1 h1) (nn_iff.1 h2))
  add_np := fun h1 h2 => np_iff.2 (add_NP (np_iff.1 h1) (np_iff.1 h2))
  cancel_nn := by
    intro v w h1 h2 h
    obtain ⟨x, y, hx, hy, hxy⟩ := add_zero_value h
    have := nn_value (nn_iff.1 h1) hx
    have := nn_value (nn_iff.1 h2) hy
    exact ⟨(eqz hx).2 (by linarith), (eqz hy).2 (by linarith)⟩
  cancel_np := by
    intro v w h1 h2 h
    obtain ⟨x, y, hx, hy, hxy⟩ := add_zero_value h
    have := np_value (np_iff.1 h1) hx
    have := np_value (np_iff.1 h2) hy
    exact ⟨(eqz hx).2 (by linarith), (eqz hy).2 (by linarith)⟩
  mul_pp := fun h1 h2 => hasSign_false.2 (mul_sign (hasSign_false.1 h1) (hasSign_false.1 h2))
  mul_pn := fun h1 h2 => hasSign_true.2 (mul_sign (hasSign_false.1 h1) (hasSign_true.1 h2))
  mul_np := fun h1 h2 => hasSign_true.2 (mul_sign (hasSign_true.1 h1) (hasSign_false.1 h2))
  mul_nn := fun h1 h2 => hasSign_false.2 (mul_sign (hasSign_true.1 h1) (hasSign_true.1 h2))
  inv_p := fun h1 h2 => hasSign_false.2 (inv_sign (hasSign_false.1 h1) fun h => by rw [eq_zero_iff.2 h] at h2; cases h2)
  inv_n := fun h1 h2 => hasSign_true.2 (inv_sign (hasSign_true.1 h1) fun h => by rw [eq_zero_iff.2 h] at h2; cases h2)
  unit := by
    intro k h
    have hk : ∃ x, k.HasValue x := by
      have h : F64.eq k (.fin false 1 double_one) = true := h
      cases k
      case fin s q hq => exact ⟨_, rfl⟩
      all_goals simp [F64.eq] at h
    obtain ⟨x, hx⟩ := hk
    have h1 := (eqo hx).1 h
    exact (lt_iff zero_value hx).2 (by rw [h1]; norm_num)

theorem zeroFacts : ZeroFacts F64 where
  zz := eq_zero_iff.2 zero_value
  add := by
    intro v w h1 h2
    rw [eq_zero_iff] at *
    have := add_exact h1 h2 (by rw [add_zero]; exact isDouble_zero)
    rwa [add_zero] at this
  neg := by
    intro v h
    rw [eq_zero_iff] at *
    have := mul_exact negOne_value h (by rw [mul_zero]; exact isDouble_zero)
    rwa [mul_zero] at this
  negOne_ne := signFacts.negOne_ne
  unit := by
    intro k h
    rw [Bool.eq_false_iff]
    intro h0
    have := (eqo (eq_zero_iff.1 h0)).1 h
    norm_num at this

end F64

/-! ### Exact numbers -/

open Exact

section
variable {K : Type} [Field K] [LinearOrder K] [IsStrictOrderedRing K] [Trig K]

theorem exact_nn {v : Option K} : (v <. zero) = false ↔ ∀ x, v = some x → 0 ≤ x := by
  cases v with
  | none => simp
  | some x => show decide (x < 0) = false ↔ _; simp

theorem exact_np {v : Option K} : (zero <. v) = false ↔ ∀ x, v = some x → x ≤ 0 := by
  cases v with
  | none => simp
  | some x => show decide (0 < x) = false ↔ _; simp

theorem exactSignFacts : SignFacts (Option K) where
  zz := exact_nn.2 (by intro x h; cases h; exact le_refl _)
  one := exact_nn.2 (by intro x h; cases h; exact zero_le_one)
  negOne := exact_np.2 (by intro x h; cases h; simp)
  negOne_ne := by simp [negOne]
  add_nn := by
    intro v w h1 h2
    rw [exact_nn] at *
    intro x hx
    rw [add_eq_some] at hx
    obtain ⟨a, b, rfl, rfl, rfl⟩ := hx
    exact add_nonneg (h1 a rfl) (h2 b rfl)
  add_np := by
    intro v w h1 h2
    rw [exact_np] at *
    intro x hx
    rw [add_eq_some] at hx
    obtain ⟨a, b, rfl, rfl, rfl⟩ := hx
    exact add_nonpos (h1 a rfl) (h2 b rfl)
  cancel_nn := by
    intro v w h1 h2 h
    rw [exact_nn] at h1 h2
    rw [zero_def, eq_zero_iff, add_eq_some] at h
    obtain ⟨a, b, rfl, rfl, h⟩ := h
    have := h1 a rfl
    have := h2 b rfl
    rw [zero_def, eq_zero_iff, eq_zero_iff]
    exact ⟨congrArg some (by linarith), congrArg some (by linarith)⟩
  cancel_np := by
    intro v w h1 h2 h
    rw [exact_np] at h1 h2
    rw [zero_def, eq_zero_iff, add_eq_some] at h
    obtain ⟨a, b, rfl, rfl, h⟩ := h
    have := h1 a rfl
    have := h2 b rfl
    rw [zero_def, eq_zero_iff, eq_zero_iff]
    exact ⟨congrArg some (by linarith), congrArg some (by linarith)⟩
  mul_pp := by
    intro v w h1 h2
    rw [exact_nn] at *
    intro x hx
    rw [mul_eq_some] at hx
    obtain ⟨a, b, rfl, rfl, rfl⟩ := hx
    exact mul_nonneg (h1 a rfl) (h2 b rfl)
  mul_pn := by
    intro v w h1 h2
    rw [exact_np] at *
    rw [exact_nn] at *
    intro x hx
    rw [mul_eq_some] at hx
    obtain ⟨a, b, rfl, rfl, rfl⟩ := hx
    exact mul_nonpos_of_nonneg_of_nonpos (h1 a rfl) (h2 b rfl)
  mul_np := by
    intro v w h1 h2
    rw [exact_np] at *
    rw [exact_nn] at *
    intro x hx
    rw [mul_eq_some] at hx
    obtain ⟨a, b, rfl, rfl, rfl⟩ := hx
    exact mul_nonpos_of_nonpos_of_nonneg (h1 a rfl) (h2 b rfl)
  mul_nn := by
    intro v w h1 h2
    rw [exact_np] at *
    rw [exact_nn] at *
    intro x hx
    rw [mul_eq_some] at hx
    obtain ⟨a, b, rfl, rfl, rfl⟩ := hx
    exact mul_nonneg_of_nonpos_of_nonpos (h1 a rfl) (h2 b rfl)
  inv_p := by
    intro k h1 h2
    rw [exact_nn] at *
    cases k with
    | none => intro x hx; cases hx
    | some k =>
      intro x hx
      have hx : (if k = 0 then none else some (1 / k)) = some x := hx
      split at hx
      · cases hx
      · cases hx; exact one_div_nonneg.2 (h1 k rfl)
  inv_n := by
    intro k h1 h2
    rw [exact_np] at *
    cases k with
    | none => intro x hx; cases hx
    | some k =>
      intro x hx
      have hx : (if k = 0 then none else some (1 / k)) = some x := hx
      split at hx
      · cases hx
      · cases hx; exact one_div_nonpos.2 (h1 k rfl)
  unit := by
    intro k h
    rw [one_def, eq_one_iff] at h
    subst h
    show decide ((0 : K) < 1) = true
    simp

theorem exactZeroFacts : ZeroFacts (Option K) where
  zz := by simp
  add := by
    intro v w h1 h2
    rw [zero_def, eq_zero_iff] at *
    subst h1 h2
    rw [add_eq_some]
    exact ⟨0, 0, rfl, rfl, by simp⟩
  neg := by
    intro v h
    rw [zero_def, eq_zero_iff] at *
    subst h
    rw [mul_eq_some]
    exact ⟨-1, 0, by simp [negOne], rfl, by simp⟩
  negOne_ne := by simp [negOne]
  unit := by
    intro k h
    rw [one_def, eq_one_iff] at h
    subst h
    simp

end

end Verif
