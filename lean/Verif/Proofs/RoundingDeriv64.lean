import Verif.Spec.RoundingDeriv64
import Verif.Proofs.Rounding64Ops
import Verif.Proofs.RoundingSolve64
import Verif.Proofs.Diff
import Verif.Proofs.SumForm
import Mathlib.Analysis.Calculus.Deriv.Inv
import Mathlib.Analysis.SpecialFunctions.Trigonometric.Deriv

/-! # Derivatives in double precision -/

set_option linter.unusedSectionVars false

namespace Verif.R64

variable [Libm]

theorem sumB_isAdd (e : Node F64) : sumB e = isAdd e := by cases e <;> rfl

theorem realAt_sumL (t : ℕ → ℝ) (as : List (Node F64)) : Node.realAt.sumL t as = (as.map (Node.realAt t)).sum := by
  induction as with
  | nil => rfl
  | cons a as ih => simp [Node.realAt.sumL, ih]

theorem sizeAt_sumL (t : ℕ → ℝ) (as : List (Node F64)) : Node.sizeAt.sumL t as = (as.map (Node.sizeAt t)).sum := by
  induction as with
  | nil => rfl
  | cons a as ih => simp [Node.sizeAt.sumL, ih]

theorem opsAt_sumL (κ : ℕ) (as : List (Node F64)) : Node.opsAt.sumL κ as = (as.map (Node.opsAt κ)).sum + as.length := by
  induction as with
  | nil => rfl
  | cons a as ih => simp only [Node.opsAt.sumL, ih, List.map_cons, List.sum_cons, List.length_cons]; omega

theorem tameL_iff {σ : Env F64} {t : ℕ → ℝ} {κ : ℕ} {as : List (Node F64)} : Node.Tame.tameL σ t κ as ↔ ∀ a ∈ as, a.Tame σ t κ := by
  induction as with
  | nil => simp [Node.Tame.tameL]
  | cons a as ih => simp [Node.Tame.tameL, ih]

theorem sizeAt_one (t : ℕ → ℝ) (e : Node F64) : 1 ≤ e.sizeAt t := by
  induction e using Node.ind_args with
  | step e ih =>
    cases e with
    | const i c => exact le_max_left _ _
    | var i s k => exact le_max_left _ _
    | add i args =>
      simp only [Node.sizeAt, sizeAt_sumL]
      have : 0 ≤ (args.map (Node.sizeAt t)).sum := by
        refine List.sum_nonneg ?_
        intro x hx
        obtain ⟨a, ha, rfl⟩ := List.mem_map.1 hx
        linarith [ih a (by simpa [Node.arguments] using ha)]
      linarith
    | cos i a => have := ih a (by simp [Node.arguments]); simp only [Node.sizeAt]; linarith
    | sin i a => have := ih a (by simp [Node.arguments]); simp only [Node.sizeAt]; linarith
    | mul i a b =>
      have h1 := ih a (by simp [Node.arguments]); have h2 := ih b (by simp [Node.arguments])
      simp only [Node.sizeAt]
      nlinarith
    | div i a b =>
      have h1 := ih a (by simp [Node.arguments])
      simp only [Node.sizeAt]
      have : 0 ≤ a.sizeAt t / |b.realAt t| := div_nonneg (by linarith) (abs_nonneg _)
      linarith

theorem opsAt_pos (κ : ℕ) (e : Node F64) : isAdd e = false → 1 ≤ e.opsAt κ := by
  intro h
  cases e <;> simp [Node.opsAt, isAdd] at h ⊢ <;> omega

theorem _root_.Verif.Node.Tame.range {σ : Env F64} {t : ℕ → ℝ} {κ : ℕ} {e : Node F64} (h : e.Tame σ t κ) : InRange (e.sizeAt t) (e.opsAt κ + 1) := by
  unfold Node.Tame at h
  exact h.1

theorem _root_.Verif.Node.Tame.args {σ : Env F64} {t : ℕ → ℝ} {κ : ℕ} {e : Node F64} (h : e.Tame σ t κ) : ∀ a ∈ e.arguments, a.Tame σ t κ := by
  unfold Node.Tame at h
  obtain ⟨-, h⟩ := h
  cases e <;> simp only [Node.arguments, List.mem_singleton, List.mem_cons, List.not_mem_nil, or_false] <;> intro a ha
  case const => cases ha
  case var => cases ha
  case add => exact tameL_iff.1 h a ha
  case cos => subst ha; exact h.1
  case sin => subst ha; exact h.1
  case mul => rcases ha with rfl | rfl; exacts [h.1, h.2]
  case div => rcases ha with rfl | rfl; exacts [h.1, h.2.1]

theorem tauD_le_one' : tauD ≤ 1 := zpow_le_one_of_nonpos₀ (by norm_num) (by norm_num)

theorem nat_bound {κ : ℕ} (h : 1 ≤ κ) (o : ℕ) : κ * o ≤ 2 * κ ^ 2 * (2 * o + 2) := by
  have h1 : κ * 1 ≤ κ * κ := Nat.mul_le_mul_left _ h
  have h2 : κ * o ≤ κ * κ * (2 * o + 2) := Nat.mul_le_mul (by omega) (by omega)
  have h3 : 2 * κ ^ 2 * (2 * o + 2) = 2 * (κ * κ * (2 * o + 2)) := by ring
  omega

/-- A stored expression that can be computed is close to its exact value. -/
theorem tame_rep {σ : Env F64} {t : ℕ → ℝ} {κ : ℕ} (e : Node F64) : FlatSums e → e.Tame σ t κ → Rep (Node.evaluate σ) e (e.realAt t) (e.sizeAt t) (e.opsAt κ) := by
  induction e using Node.ind_args with
  | step e ih =>
    intro hfl h
    have hargs := h.args
    have hrep : ∀ a ∈ e.arguments, Rep (Node.evaluate σ) a (a.realAt t) (a.sizeAt t) (a.opsAt κ) := fun a ha => ih a ha (flat_arg hfl ha) (hargs a ha)
    have hev : ∀ a ∈ e.arguments, ∃ x, (a.evaluate σ).Is x ∧ Approx uD x (a.realAt t) (a.sizeAt t) (a.opsAt κ) ∧
        (isAdd a = false → ∃ j, j + 1 ≤ a.opsAt κ ∧ Approx uD x (a.realAt t) (a.sizeAt t) j) := fun a ha =>
      (hrep a ha).eval ((hargs a ha).range.mono le_rfl (by omega))
    have hR := h.range
    clear ih
    unfold Node.Tame at h
    obtain ⟨-, h⟩ := h
    cases e with
    | const i c =>
      have hc : c.Is c.toReal := F64.is_toReal h
      exact Rep.single (k := 0) (x := c.toReal) rfl (by simpa only [Node.evaluate] using hc) ((Approx.exact _).grow uD_nonneg (le_max_right _ _))
    | var i s k =>
      obtain ⟨a, h1, h2⟩ := h
      exact Rep.single (k := 0) (x := t i) rfl (by simp only [Node.evaluate, h1]; exact h2) ((Approx.exact _).grow uD_nonneg (le_max_right _ _))
    | add i args =>
      simp only [Node.arguments] at hev
      have hns := (flat_add.1 hfl).1.1
      refine ⟨args.map fun a => (a.realAt t, a.sizeAt t), 0, 0, (args.map (Node.opsAt κ)).sum, ?_, .zero uD_nonneg _, ?_, ?_, ?_⟩
      · show List.Forall₂ _ args _
        rw [List.forall₂_map_right_iff, List.forall₂_same]
        intro a ha
        obtain ⟨x, hx, hax, -⟩ := hev a ha
        refine ⟨by rw [← sumB_isAdd]; exact hns a ha, x, hx, hax.mono uD_nonneg ?_⟩
        exact List.single_le_sum (by simp) _ (List.mem_map_of_mem ha)
      · simp only [Node.realAt, realAt_sumL, List.map_map, Function.comp_def, zero_add]
      · simp only [Node.sizeAt, sizeAt_sumL, List.map_map, Function.comp_def]; linarith
      · simp only [Node.opsAt, opsAt_sumL, addends]; omega
    | cos i a =>
      obtain ⟨x, hx, hax, -⟩ := hev a (by simp [Node.arguments])
      obtain ⟨-, z, hz, hz'⟩ := h.2 _ x hx
      have hm := hax.nonneg
      have hq := (hax.lipschitz uD_nonneg (f := Real.cos) Real.abs_cos_sub_cos_le Real.abs_cos_le_one).twice (by linarith) hz'
      exact Rep.single (x := z) rfl (by simp only [Node.evaluate]; exact hz) hq
    | sin i a =>
      obtain ⟨x, hx, hax, -⟩ := hev a (by simp [Node.arguments])
      obtain ⟨⟨z, hz, hz'⟩, -⟩ := h.2 _ x hx
      have hm := hax.nonneg
      have hq := (hax.lipschitz uD_nonneg (f := Real.sin) Real.abs_sin_sub_sin_le Real.abs_sin_le_one).twice (by linarith) hz'
      exact Rep.single (x := z) rfl (by simp only [Node.evaluate]; exact hz) hq
    | mul i a b =>
      obtain ⟨x, hx, hax, -⟩ := hev a (by simp [Node.arguments])
      obtain ⟨y, hy, hay, -⟩ := hev b (by simp [Node.arguments])
      have hp := hax.mul uD_nonneg hay
      have hone := sizeAt_one t (.mul i a b)
      obtain ⟨z, hz, hz'⟩ := F64.is_mul hx hy (hp.bound (hR.mono le_rfl (by simp only [Node.opsAt]; omega)))
      exact Rep.single (x := z) rfl (by simpa only [Node.evaluate] using hz) (hp.roundT uD_nonneg (le_trans tauD_le_one' hone) hz')
    | div i a b =>
      obtain ⟨x, hx, hax, -⟩ := hev a (by simp [Node.arguments])
      obtain ⟨y, hy, hay, -⟩ := hev b (by simp [Node.arguments])
      obtain ⟨-, -, hw, hκ, -, hs⟩ := h
      have hs' : κ * b.opsAt κ ≤ 2 ^ 51 := by
        refine le_trans ?_ hs
        rcases Nat.eq_zero_or_pos κ with rfl | hk
        · simp
        · exact nat_bound hk _
      obtain ⟨hy0, hinv⟩ := hay.inv uD_nonneg hw hκ (uD_pow_le' hs')
      have hp := hax.mul uD_nonneg hinv
      rw [← div_eq_mul_inv, ← div_eq_mul_inv, ← div_eq_mul_inv] at hp
      have hg := hp.grow uD_nonneg (show a.sizeAt t / |b.realAt t| ≤ 1 + a.sizeAt t / |b.realAt t| by linarith)
      obtain ⟨z, hz, hz'⟩ := F64.is_div hx hy hy0 (hg.bound (hR.mono le_rfl (by simp only [Node.opsAt]; omega)))
      have ht' := (tauAt_le x).trans tauD_le_one'
      have hn := hp.nonneg
      exact Rep.single (x := z) rfl (by simpa only [Node.evaluate] using hz) (hg.roundT uD_nonneg (by simp only [Node.sizeAt]; linarith) hz')

/-! ## Partial derivatives -/

/-- The exact partial derivative of a node by its argument `c`. -/
noncomputable def pVal (t : ℕ → ℝ) (e c : Node F64) : ℝ :=
  match e with
  | .const .. => 0
  | .var .. => 0
  | .add .. => 1
  | .cos _ a => - Real.sin (a.realAt t)
  | .sin _ a => Real.cos (a.realAt t)
  | .mul _ a b => if a.ptrEq c then b.realAt t else a.realAt t
  | .div _ a b => if a.ptrEq c then 1 / b.realAt t else - a.realAt t / (b.realAt t * b.realAt t)

/-- Its size. -/
noncomputable def pSize (t : ℕ → ℝ) (e c : Node F64) : ℝ :=
  match e with
  | .const .. => 1
  | .var .. => 1
  | .add .. => 1
  | .cos _ a => 1 + a.sizeAt t
  | .sin _ a => 1 + a.sizeAt t
  | .mul _ a b => if a.ptrEq c then b.sizeAt t else a.sizeAt t
  | .div _ a b => if a.ptrEq c then 1 + 1 / |b.realAt t| else 1 + a.sizeAt t / (b.realAt t * b.realAt t)

/-- Its operations. -/
def pOps (κ : ℕ) (e c : Node F64) : ℕ :=
  match e with
  | .const .. => 1
  | .var .. => 1
  | .add .. => 1
  | .cos _ a => a.opsAt κ + 4
  | .sin _ a => a.opsAt κ + 3
  | .mul _ a b => if a.ptrEq c then b.opsAt κ else a.opsAt κ
  | .div _ a b => if a.ptrEq c then 2 * (κ * b.opsAt κ) + 2 else a.opsAt κ + 2 * (2 * κ ^ 2 * (2 * b.opsAt κ + 2)) + 3

theorem pSize_one (t : ℕ → ℝ) (e c : Node F64) : 1 ≤ pSize t e c := by
  unfold pSize
  split
  · exact le_rfl
  · exact le_rfl
  · exact le_rfl
  · rename_i a; linarith [sizeAt_one t a]
  · rename_i a; linarith [sizeAt_one t a]
  · split_ifs <;> exact sizeAt_one t _
  · rename_i a b
    split_ifs
    · have : 0 ≤ 1 / |b.realAt t| := by positivity
      linarith
    · have := div_nonneg (le_trans zero_le_one (sizeAt_one t a)) (mul_self_nonneg (b.realAt t))
      linarith

theorem tau_small {k : ℕ} (h : k ≤ 2 ^ 53) : k * tauD ≤ uD := by
  have h1 : (k : ℝ) ≤ 2 ^ (53 : ℤ) := by exact_mod_cast h
  have h2 : (2 : ℝ) ^ (53 : ℤ) * tauD ≤ uD := by
    unfold tauD uD
    rw [← zpow_add₀ (by norm_num)]
    exact zpow_le_zpow_right₀ (by norm_num) (by norm_num)
  exact (mul_le_mul_of_nonneg_right h1 tauD_nonneg).trans h2

theorem uD_le_one : uD ≤ 1 := zpow_le_one_of_nonpos₀ (by norm_num) (by norm_num)

/-- The partial derivatives that the library builds. -/
theorem partialN_rep {σ : Env F64} {t : ℕ → ℝ} {κ : ℕ} {e c p : Node F64} {n n' : ℕ} (hfl : FlatSums e) (h : e.Tame σ t κ) (hc : c ∈ e.arguments)
    (hp : partialN e c n = .ok (p, n')) (hR : InRange (pSize t e c) (pOps κ e c)) : Rep (Node.evaluate σ) p (pVal t e c) (pSize t e c) (pOps κ e c) := by
  have hargs := h.args
  have hrep : ∀ a ∈ e.arguments, Rep (Node.evaluate σ) a (a.realAt t) (a.sizeAt t) (a.opsAt κ) := fun a ha => tame_rep a (flat_arg hfl ha) (hargs a ha)
  have hRg : ∀ a ∈ e.arguments, InRange (a.sizeAt t) (a.opsAt κ) := fun a ha => (hargs a ha).range.mono le_rfl (by omega)
  have hrange := h.range
  unfold Node.Tame at h
  obtain ⟨-, h⟩ := h
  cases e
  case const i v => simp [Node.arguments] at hc
  case var i s k => simp [Node.arguments] at hc
  case add i args =>
    simp only [Node.arguments] at hc
    have : args.any (fun a => a.ptrEq c) = true := List.any_eq_true.2 ⟨c, hc, ptrEq_refl c⟩
    simp only [partialN, this, if_true] at hp
    have := rep_const (ev := Node.evaluate σ) F64.is_one hp
    simpa [pVal, pSize, pOps, LinEv.κ, evalLin] using this
  case cos i a =>
    simp only [Node.arguments, List.mem_singleton] at hc
    subst hc
    simp only [partialN, ptrEq_refl, if_true, M.bind_ok] at hp
    obtain ⟨s, k, h1, h2⟩ := hp
    have hs := rep_sinN h.2 (hrep c (by simp [Node.arguments])) (hRg c (by simp [Node.arguments])) h1
    exact rep_negN hs hR h2
  case sin i a =>
    simp only [Node.arguments, List.mem_singleton] at hc
    subst hc
    simp only [partialN, ptrEq_refl, if_true] at hp
    exact rep_cosN h.2 (hrep c (by simp [Node.arguments])) (hRg c (by simp [Node.arguments])) hp
  case mul i a b =>
    simp only [partialN] at hp
    simp only [pVal, pSize, pOps]
    split at hp
    · rename_i hpq
      rw [M.pure_ok] at hp
      simp only [hpq, if_true]
      rw [hp.1]
      exact hrep b (by simp [Node.arguments])
    · rename_i hpq
      split at hp
      · rw [M.pure_ok] at hp
        simp only [hpq]
        rw [hp.1]
        exact hrep a (by simp [Node.arguments])
      · rename_i hp'
        simp only [Node.arguments, List.mem_cons, List.not_mem_nil, or_false] at hc
        rcases hc with rfl | rfl
        · exact absurd (ptrEq_refl c) hpq
        · exact absurd (ptrEq_refl c) hp'
  case div i a b =>
    obtain ⟨-, -, hw, hκ, hmax, hs⟩ := h
    have ha := hrep a (by simp [Node.arguments])
    have hb := hrep b (by simp [Node.arguments])
    have hRa := (hargs a (by simp [Node.arguments])).range
    have hRb := hRg b (by simp [Node.arguments])
    have hb1 := sizeAt_one t b
    have ha1 := sizeAt_one t a
    have hκ0 : 1 ≤ κ := by
      rcases Nat.eq_zero_or_pos κ with rfl | hk
      · simp at hκ; linarith
      · exact hk
    have hs' : κ * b.opsAt κ ≤ 2 ^ 51 := by
      exact le_trans (nat_bound hκ0 _) hs
    simp only [partialN] at hp
    simp only [pVal, pSize, pOps] at hR ⊢
    split at hp
    · rename_i hpq
      simp only [hpq, if_true] at hR ⊢
      have h1 : |(1 : ℝ)| / |b.realAt t| + tauD ≤ 1 + 1 / |b.realAt t| := by rw [abs_one]; linarith [tauD_le_one']
      exact (rep_sDiv hb F64.is_one hRb hw hκ hs' (hR.mono h1 le_rfl) hp).grow h1
    · rename_i hpq
      split at hp
      · simp only [hpq, Bool.false_eq_true, if_false] at hR ⊢
        simp only [M.bind_ok] at hp
        obtain ⟨na, k, h1, cc, k2, h2, h3⟩ := hp
        have hna := rep_negN ha hRa h1
        have hbops : b.opsAt κ + b.opsAt κ + 2 ≤ 2 ^ 51 := by
          refine le_trans ?_ hs
          have : 1 ≤ κ ^ 2 := Nat.one_le_pow _ _ hκ0
          nlinarith [Nat.zero_le (b.opsAt κ)]
        have htau : ((b.opsAt κ : ℝ) + b.opsAt κ + 1) * tauD ≤ 1 := by
          have := tau_small (k := b.opsAt κ + b.opsAt κ + 1) (by omega)
          push_cast at this
          exact this.trans uD_le_one
        have hRbb : InRange (b.sizeAt t * b.sizeAt t + ((b.opsAt κ : ℝ) + b.opsAt κ + 1) * tauD) (b.opsAt κ + b.opsAt κ + 2) :=
          ⟨by linarith, by omega⟩
        have hbb := rep_mulN hb hb hRb hRb hRbb h2
        have hww : b.realAt t * b.realAt t ≠ 0 := mul_ne_zero hw hw
        have habs : |b.realAt t * b.realAt t| = b.realAt t * b.realAt t := abs_mul_self _
        have hκ2 : b.sizeAt t * b.sizeAt t + ((b.opsAt κ : ℝ) + b.opsAt κ + 1) * tauD ≤ ((2 * κ ^ 2 : ℕ) : ℝ) * |b.realAt t * b.realAt t| := by
          have e1 : b.sizeAt t * b.sizeAt t ≤ (κ * |b.realAt t|) * (κ * |b.realAt t|) := mul_le_mul hκ hκ (by linarith) (by positivity)
          have e2 : (κ * |b.realAt t|) * (κ * |b.realAt t|) = (κ : ℝ) ^ 2 * |b.realAt t * b.realAt t| := by rw [abs_mul]; ring
          have e3 : 1 ≤ b.sizeAt t * b.sizeAt t := by nlinarith
          push_cast
          linarith
        have e1 : a.sizeAt t / |b.realAt t * b.realAt t| + tauD ≤ 1 + a.sizeAt t / (b.realAt t * b.realAt t) := by rw [habs]; linarith [tauD_le_one']
        have e2 : (a.opsAt κ + 1) + 2 * (2 * κ ^ 2 * (b.opsAt κ + b.opsAt κ + 2)) + 2 ≤ a.opsAt κ + 2 * (2 * κ ^ 2 * (2 * b.opsAt κ + 2)) + 3 := by
          rw [two_mul (b.opsAt κ)]; omega
        have hd := rep_divN hna hbb hRa hRbb hww hκ2 (by rw [← two_mul]; exact hs) (hR.mono e1 e2) h3
        exact (hd.grow e1).mono e2
      · rename_i hp'
        simp only [Node.arguments, List.mem_cons, List.not_mem_nil, or_false] at hc
        rcases hc with rfl | rfl
        · exact absurd (ptrEq_refl c) hpq
        · exact absurd (ptrEq_refl c) hp'

/-! ## Products and sums over paths -/

/-- Exact product of the partial derivatives along a path. -/
noncomputable def pathV (t : ℕ → ℝ) : List (Node F64) → ℝ
  | a :: b :: rest => pVal t a b * pathV t (b :: rest)
  | _ => 1

/-- Size of the product. -/
noncomputable def pathS (t : ℕ → ℝ) : List (Node F64) → ℝ
  | a :: b :: rest => pSize t a b * pathS t (b :: rest)
  | _ => 1

/-- Operations of the product. -/
def pathK (κ : ℕ) : List (Node F64) → ℕ
  | a :: b :: rest => pOps κ a b + 2 + pathK κ (b :: rest)
  | _ => 0

/-- Consecutive nodes: the second is an argument of the first, and the first can be computed. -/
def TamePath (σ : Env F64) (t : ℕ → ℝ) (κ : ℕ) : List (Node F64) → Prop
  | a :: b :: rest => FlatSums a ∧ a.Tame σ t κ ∧ b ∈ a.arguments ∧ TamePath σ t κ (b :: rest)
  | _ => True

theorem pathS_one (t : ℕ → ℝ) (p : List (Node F64)) : 1 ≤ pathS t p := by
  induction p with
  | nil => exact le_rfl
  | cons a p ih =>
    cases p with
    | nil => exact le_rfl
    | cons b p =>
      simp only [pathS]
      have := pSize_one t a b
      nlinarith

theorem dfs_tame {σ : Env F64} {t : ℕ → ℝ} {κ : ℕ} (e : Node F64) (hfl : FlatSums e) (he : e.Tame σ t κ) : ∀ p ∈ dfs e, TamePath σ t κ p := by
  induction e using Node.ind_args with
  | step e ih =>
    intro p hp
    rw [dfs_eq] at hp
    split at hp
    · simp at hp; subst hp; trivial
    · simp only [List.mem_map, mem_dfsL] at hp
      obtain ⟨t, ⟨a, ha, ht⟩, rfl⟩ := hp
      have := ih a ha (flat_arg hfl ha) (he.args a ha) t ht
      obtain ⟨t', rfl⟩ := dfs_head ht
      exact ⟨hfl, he, ha, this⟩

theorem one_le_pow_u (k : ℕ) : 1 ≤ (1 + uD) ^ k := one_le_pow₀ (by linarith [uD_nonneg])

theorem range_of {P : ℝ} {k : ℕ} (h0 : 0 ≤ P) (h : 2 * P ≤ maxSize) (hk : k ≤ 2 ^ 52) : InRange (P * (1 + uD) ^ k) k :=
  ⟨by nlinarith [uD_pow_le hk], hk⟩

theorem pathProd_rep {σ : Env F64} {t : ℕ → ℝ} {κ : ℕ} {path : List (Node F64)} (hp : TamePath σ t κ path) :
    ∀ {prod e : Node F64} {n m k : ℕ} {v P : ℝ}, Rep (Node.evaluate σ) prod v (P * (1 + uD) ^ k) k → 1 ≤ P →
      2 * (P * pathS t path) ≤ maxSize → k + pathK κ path ≤ 2 ^ 52 → pathProd prod path n = .ok (e, m) →
      Rep (Node.evaluate σ) e (v * pathV t path) (P * pathS t path * (1 + uD) ^ (k + pathK κ path)) (k + pathK κ path) := by
  induction path with
  | nil => intro prod e n m k v P hr _ _ _ h; simp only [pathProd, M.pure_ok] at h; rw [h.1]; simpa [pathV, pathS, pathK] using hr
  | cons a path ih =>
    intro prod e n m k v P hr hP hs hk h
    cases path with
    | nil => simp only [pathProd, M.pure_ok] at h; rw [h.1]; simpa [pathV, pathS, pathK] using hr
    | cons b path =>
      simp only [pathProd, M.bind_ok] at h
      obtain ⟨p, k1, h1, q, k2, h2, h3⟩ := h
      obtain ⟨hfa, ha, hb, hrest⟩ := hp
      simp only [pathS, pathK] at hs hk
      have s1 := pSize_one t a b
      have s2 := pathS_one t (b :: path)
      set s := pSize t a b
      set S := pathS t (b :: path)
      set o := pOps κ a b
      have hPs : 1 ≤ P * s := by nlinarith
      have hPsS : P * s ≤ P * (s * S) := by nlinarith
      have hsP : s ≤ P * s := by nlinarith
      have hPP : P ≤ P * s := by nlinarith
      have hRp : InRange s o := ⟨by linarith, by omega⟩
      have hrp := partialN_rep hfa ha hb h1 hRp
      have u0 := uD_nonneg
      have hpow := one_le_pow_u k
      have hτ : ((k : ℝ) + o + 1) * tauD ≤ uD := by
        have := tau_small (k := k + o + 1) (by omega)
        push_cast at this
        exact this
      have hgrow : P * (1 + uD) ^ k * s + ((k : ℝ) + o + 1) * tauD ≤ P * s * (1 + uD) ^ (k + o + 2) := by
        have e1 : (1 + uD) ^ (k + 1) ≤ (1 + uD) ^ (k + o + 2) := pow_le_pow_right₀ (by linarith) (by omega)
        have e2 : P * s * (1 + uD) ^ (k + 1) = P * (1 + uD) ^ k * s + P * s * (1 + uD) ^ k * uD := by ring
        have e3 : 1 ≤ P * s * (1 + uD) ^ k := by nlinarith
        have e4 : P * s * (1 + uD) ^ (k + 1) ≤ P * s * (1 + uD) ^ (k + o + 2) := mul_le_mul_of_nonneg_left e1 (by linarith)
        nlinarith
      have hRq : InRange (P * s * (1 + uD) ^ (k + o + 2)) (k + o + 2) := range_of (by linarith) (by linarith) (by omega)
      have hq := (rep_mulN hr hrp (range_of (by linarith) (by linarith) (by omega)) hRp (hRq.mono hgrow le_rfl) h2).grow hgrow
      have := ih hrest hq hPs (by rw [mul_assoc]; exact hs) (by omega) h3
      simp only [pathV, pathS, pathK]
      rw [show v * (pVal t a b * pathV t (b :: path)) = v * pVal t a b * pathV t (b :: path) by ring, show P * (s * S) = P * s * S by ring,
        show k + (o + 2 + pathK κ (b :: path)) = k + o + 2 + pathK κ (b :: path) by omega]
      exact this

theorem pathSum_rep {σ : Env F64} {t : ℕ → ℝ} {κ : ℕ} {ps : List (List (Node F64))} (hp : ∀ p ∈ ps, TamePath σ t κ p) :
    ∀ {d e : Node F64} {n m k : ℕ} {v D : ℝ}, Rep (Node.evaluate σ) d v (D * (1 + uD) ^ k) k → 0 ≤ D →
      2 * (D + (ps.map (pathS t)).sum) ≤ maxSize → k + (ps.map fun p => pathK κ p + 2).sum ≤ 2 ^ 52 → pathSum d ps n = .ok (e, m) →
      Rep (Node.evaluate σ) e (v + (ps.map (pathV t)).sum) ((D + (ps.map (pathS t)).sum) * (1 + uD) ^ (k + (ps.map fun p => pathK κ p + 2).sum))
        (k + (ps.map fun p => pathK κ p + 2).sum) := by
  induction ps with
  | nil => intro d e n m k v D hr _ _ _ h; simp only [pathSum, M.pure_ok] at h; rw [h.1]; simpa using hr
  | cons p ps ih =>
    intro d e n m k v D hr hD hs hk h
    simp only [pathSum, M.bind_ok] at h
    obtain ⟨c, k0, h0, q, k1, h1, d', k2, h2, h3⟩ := h
    simp only [List.map_cons, List.sum_cons] at hs hk ⊢
    have hS := pathS_one t p
    have hrest : 0 ≤ (ps.map (pathS t)).sum := by
      refine List.sum_nonneg ?_
      intro x hx
      obtain ⟨a, -, rfl⟩ := List.mem_map.1 hx
      linarith [pathS_one t a]
    have u0 := uD_nonneg
    have hc : Rep (Node.evaluate σ) c 1 (1 * (1 + uD) ^ 1) 1 := by
      have := rep_const (ev := Node.evaluate σ) F64.is_one h0
      simp only [LinEv.κ, evalLin, id, abs_one] at this
      exact this.grow (by linarith)
    have hq := pathProd_rep (hp p (by simp)) hc le_rfl (by linarith) (by omega) h1
    simp only [one_mul] at hq
    have hgrow : D * (1 + uD) ^ k + pathS t p * (1 + uD) ^ (1 + pathK κ p) ≤ (D + pathS t p) * (1 + uD) ^ (k + (1 + pathK κ p) + 1) := by
      have e1 : (1 + uD) ^ k ≤ (1 + uD) ^ (k + (1 + pathK κ p) + 1) := pow_le_pow_right₀ (by linarith) (by omega)
      have e2 : (1 + uD) ^ (1 + pathK κ p) ≤ (1 + uD) ^ (k + (1 + pathK κ p) + 1) := pow_le_pow_right₀ (by linarith) (by omega)
      rw [add_mul]
      exact add_le_add (mul_le_mul_of_nonneg_left e1 hD) (mul_le_mul_of_nonneg_left e2 (by linarith))
    have hRd : InRange ((D + pathS t p) * (1 + uD) ^ (k + (1 + pathK κ p) + 1)) (k + (1 + pathK κ p) + 1) := range_of (by linarith) (by linarith) (by omega)
    have hd' := (rep_addN hr hq (hRd.mono hgrow le_rfl) h2).grow hgrow
    have := ih (fun p' h' => hp p' (by simp [h'])) hd' (by linarith) (by linarith) (by omega) h3
    rw [show k + (pathK κ p + 2 + (ps.map fun p => pathK κ p + 2).sum) = k + (1 + pathK κ p) + 1 + (ps.map fun p => pathK κ p + 2).sum by omega,
      ← add_assoc, ← add_assoc]
    exact this

/-! ## The sum over the paths follows the rules of calculus -/

/-- The exact derivative by the rules of calculus. -/
noncomputable def gradV (t : ℕ → ℝ) (x : ℕ) : Node F64 → ℝ
  | .const .. => 0
  | .var i _ _ => if i = x then 1 else 0
  | .add _ args => gradVs t x args
  | .cos _ a => - Real.sin (a.realAt t) * gradV t x a
  | .sin _ a => Real.cos (a.realAt t) * gradV t x a
  | .mul _ a b => b.realAt t * gradV t x a + a.realAt t * gradV t x b
  | .div _ a b => 1 / b.realAt t * gradV t x a + - a.realAt t / (b.realAt t * b.realAt t) * gradV t x b
where
  gradVs (t : ℕ → ℝ) (x : ℕ) : List (Node F64) → ℝ
    | [] => 0
    | a :: as => gradV t x a + gradVs t x as

/-- Sum over the paths to `x`: value, size, number of paths, operations. -/
noncomputable def pathsG (t : ℕ → ℝ) (κ : ℕ) (x : Node F64) (ps : List (List (Node F64))) : ℝ × ℝ × ℕ × ℕ :=
  let qs := ps.filter (endsAt x)
  ((qs.map (pathV t)).sum, (qs.map (pathS t)).sum, qs.length, (qs.map fun p => pathK κ p + 2).sum)

/-- A further factor. -/
noncomputable def edgeG (t : ℕ → ℝ) (κ : ℕ) (e a : Node F64) (g : ℝ × ℝ × ℕ × ℕ) : ℝ × ℝ × ℕ × ℕ :=
  (pVal t e a * g.1, pSize t e a * g.2.1, g.2.2.1, g.2.2.2 + g.2.2.1 * (pOps κ e a + 2))

theorem pathsG_append (t : ℕ → ℝ) (κ : ℕ) (x : Node F64) (ps qs : List (List (Node F64))) :
    pathsG t κ x (ps ++ qs) = pathsG t κ x ps + pathsG t κ x qs := by
  simp [pathsG]

theorem pathsG_edge (t : ℕ → ℝ) (κ : ℕ) (x e a : Node F64) : pathsG t κ x ((dfs a).map (e :: ·)) = edgeG t κ e a (pathsG t κ x (dfs a)) := by
  have : ∀ ps : List (List (Node F64)), (∀ p ∈ ps, ∃ t, p = a :: t) → pathsG t κ x (ps.map (e :: ·)) = edgeG t κ e a (pathsG t κ x ps) := by
    intro ps
    induction ps with
    | nil => simp [pathsG, edgeG]
    | cons p ps ih =>
      intro h
      obtain ⟨r, rfl⟩ := h p (by simp)
      have ih' := ih fun p' h' => h p' (by simp [h'])
      simp only [pathsG, edgeG, List.map_cons, List.filter_cons, Prod.mk.injEq] at ih' ⊢
      obtain ⟨i1, i2, i3, i4⟩ := ih'
      rw [endsAt_cons (by simp)]
      cases endsAt x (a :: r)
      · exact ⟨i1, i2, i3, i4⟩
      · simp only [if_true, List.map_cons, List.sum_cons, List.length_cons, pathV, pathS, pathK, i1, i2, i3, i4]
        refine ⟨by ring, by ring, trivial, by ring⟩
  exact this _ fun p hp => dfs_head hp

theorem pathsG_args (t : ℕ → ℝ) (κ : ℕ) (x e : Node F64) (as : List (Node F64)) :
    pathsG t κ x ((dfs.dfsL as).map (e :: ·)) = (as.map fun a => edgeG t κ e a (pathsG t κ x (dfs a))).sum := by
  induction as with
  | nil => simp [dfs.dfsL, pathsG]
  | cons a as ih => simp only [dfs.dfsL, List.map_append, pathsG_append, ih, pathsG_edge, List.map_cons, List.sum_cons]; exact add_comm _ _

/-- Value, size, number and operations, by the rules. -/
noncomputable def ruleG (t : ℕ → ℝ) (κ : ℕ) (x : ℕ) (e : Node F64) : ℝ × ℝ × ℕ × ℕ :=
  (gradV t x e, (e.gradSize t κ x).size, (e.gradSize t κ x).terms, (e.gradSize t κ x).ops)

theorem pathsG_eq {h : Heap F64} (t : ℕ → ℝ) (κ : ℕ) {x : Node F64} (hxv : x.isVar = true) (e : Node F64) (hg : Good .noSelf h e) :
    pathsG t κ x (dfs e) = ruleG t κ x.id e := by
  induction e using Node.ind_args with
  | step e ih =>
    have ih' : ∀ a ∈ e.arguments, pathsG t κ x (dfs a) = ruleG t κ x.id a := fun a ha => ih a ha (hg.arg ha)
    clear ih
    rw [dfs_eq]
    cases e
    case const i v => simp [Node.isVar, Node.arguments, dfs.dfsL, pathsG, ruleG, gradV, Node.gradSize, GradSize.none]
    case var i s k =>
      simp only [Node.isVar, if_true, pathsG, ruleG, gradV, Node.gradSize]
      rw [List.filter_cons]
      simp only [endsAt, List.getLast?_singleton]
      cases x <;> simp only [Node.isVar, Bool.false_eq_true] at hxv
      rename_i j s' k'
      by_cases hx : i = j <;> simp [Node.ptrEq, Node.id, Node.tag, pathV, pathS, pathK, hx, GradSize.none]
    case add i args =>
      simp only [Node.isVar, Bool.false_eq_true, if_false]
      rw [pathsG_args]
      simp only [Node.arguments] at ih' ⊢
      simp only [ruleG, gradV, Node.gradSize]
      have : ∀ as : List (Node F64), (∀ a ∈ as, pathsG t κ x (dfs a) = ruleG t κ x.id a) →
          (as.map fun a => edgeG t κ (.add i args) a (pathsG t κ x (dfs a))).sum =
          (gradV.gradVs t x.id as, (Node.gradSize.sumL t κ x.id as).size, (Node.gradSize.sumL t κ x.id as).terms, (Node.gradSize.sumL t κ x.id as).ops) := by
        intro as
        induction as with
        | nil => intro _; rfl
        | cons a as ih =>
          intro hh
          rw [List.map_cons, List.sum_cons, ih fun a ha => hh a (by simp [ha]), hh a (by simp)]
          simp [edgeG, ruleG, pVal, pSize, pOps, gradV.gradVs, Node.gradSize.sumL, GradSize.add, GradSize.times]
      exact this args ih'
    case cos i a =>
      simp only [Node.isVar, Bool.false_eq_true, if_false]
      rw [pathsG_args]
      simp [Node.arguments] at ih' ⊢
      simp [ih', edgeG, ruleG, gradV, Node.gradSize, GradSize.times, pVal, pSize, pOps]
    case sin i a =>
      simp only [Node.isVar, Bool.false_eq_true, if_false]
      rw [pathsG_args]
      simp [Node.arguments] at ih' ⊢
      simp [ih', edgeG, ruleG, gradV, Node.gradSize, GradSize.times, pVal, pSize, pOps]
    case mul i a b =>
      simp only [Node.isVar, Bool.false_eq_true, if_false]
      rw [pathsG_args]
      have hga : Good .noSelf h a := hg.arg (by simp [Node.arguments])
      have hgb : Good .noSelf h b := hg.arg (by simp [Node.arguments])
      simp [Node.arguments] at ih' ⊢
      simp only [ih', edgeG, ruleG, gradV, Node.gradSize, GradSize.times, GradSize.add, pVal, pSize, pOps, ptrEq_refl, if_true]
      by_cases hab : a.ptrEq b = true
      · have := (hga.ptrEq_iff hgb).1 hab
        subst this
        simp [ptrEq_refl]
      · simp [hab]
    case div i a b =>
      simp only [Node.isVar, Bool.false_eq_true, if_false]
      rw [pathsG_args]
      have hab : a.ptrEq b = false := hg.shape.2 rfl
      simp [Node.arguments] at ih' ⊢
      simp [ih', edgeG, ruleG, gradV, Node.gradSize, GradSize.times, GradSize.add, pVal, pSize, pOps, ptrEq_refl, hab]

theorem realAt_hasDerivAt {σ : Env F64} {t : ℕ → ℝ} {κ : ℕ} (x : ℕ) (e : Node F64) :
    e.Tame σ t κ → HasDerivAt (fun s => e.realAt (Function.update t x s)) (gradV t x e) (t x) := by
  have hup : Function.update t x (t x) = t := Function.update_eq_self x t
  induction e using Node.ind_args with
  | step e ih =>
    intro h
    have ih' : ∀ a ∈ e.arguments, HasDerivAt (fun s => a.realAt (Function.update t x s)) (gradV t x a) (t x) := fun a ha => ih a ha (h.args a ha)
    clear ih
    unfold Node.Tame at h
    obtain ⟨-, h⟩ := h
    cases e
    case const i v => simp only [Node.realAt, gradV]; exact hasDerivAt_const _ _
    case var i s k =>
      simp only [Node.realAt, gradV]
      by_cases hi : i = x
      · subst hi; simp only [Function.update_self, if_true]; exact hasDerivAt_id' _
      · simp only [Function.update_of_ne hi, hi, if_false]; exact hasDerivAt_const _ _
    case add i args =>
      simp only [Node.realAt, gradV]
      simp only [Node.arguments] at ih'
      clear h
      induction args with
      | nil => simp only [Node.realAt.sumL, gradV.gradVs]; exact hasDerivAt_const _ _
      | cons a as ihs =>
        simp only [Node.realAt.sumL, gradV.gradVs]
        exact (ih' a (by simp)).add (ihs fun a ha => ih' a (by simp [ha]))
    case cos i a =>
      have := (ih' a (by simp [Node.arguments])).cos
      simpa only [Node.realAt, gradV, hup] using this
    case sin i a =>
      have := (ih' a (by simp [Node.arguments])).sin
      simpa only [Node.realAt, gradV, hup] using this
    case mul i a b =>
      have := (ih' a (by simp [Node.arguments])).mul (ih' b (by simp [Node.arguments]))
      simp only [hup] at this
      simp only [Node.realAt, gradV]
      refine HasDerivAt.congr_deriv this ?_
      ring
    case div i a b =>
      have hne := h.2.2.1
      have := (ih' a (by simp [Node.arguments])).div (ih' b (by simp [Node.arguments])) (by rw [hup]; exact hne)
      simp only [hup] at this
      simp only [Node.realAt, gradV]
      refine HasDerivAt.congr_deriv this ?_
      field_simp
      ring

/-- The derivative that is built for a path list. -/
theorem derivative_rep {h : Heap F64} {σ : Env F64} {t : ℕ → ℝ} {κ : ℕ} {e x d0 d : Node F64} {n m n0 : ℕ} (hx : x.isVar = true) (hg : Good .noSelf h e)
    (hfl : FlatSums e) (ht : e.Tame σ t κ) (hs : 2 * (e.gradSize t κ x.id).size ≤ maxSize) (hk : (e.gradSize t κ x.id).ops + 1 ≤ 2 ^ 52)
    (h0 : d0 = .const n0 zero) (hd : pathSum d0 ((dfs e).filter (endsAt x)) n = .ok (d, m)) :
    ∃ z, (d.evaluate σ).Is z ∧ |z - gradV t x.id e| ≤ ((1 + uD) ^ (2 * ((e.gradSize t κ x.id).ops + 1)) - 1) * (e.gradSize t κ x.id).size := by
  have hG := pathsG_eq t κ hx e hg
  simp only [pathsG, ruleG, Prod.mk.injEq] at hG
  obtain ⟨hV, hS, -, hO⟩ := hG
  have h00 : Rep (Node.evaluate σ) d0 0 (0 * (1 + uD) ^ 1) 1 := by
    rw [h0, zero_mul]
    exact Rep.single (k := 0) (x := 0) rfl (by simp only [Node.evaluate]; exact F64.is_zero) (.zero uD_nonneg _)
  have hS0 : 0 ≤ (e.gradSize t κ x.id).size := by
    rw [← hS]
    refine List.sum_nonneg ?_
    intro x hx
    obtain ⟨a, -, rfl⟩ := List.mem_map.1 hx
    linarith [pathS_one t a]
  have hr := pathSum_rep (fun p hp => dfs_tame e hfl ht p (List.mem_filter.1 hp).1) h00 le_rfl (by rw [hS]; linarith) (by rw [hO]; omega) hd
  rw [hV, hS, hO, zero_add, zero_add, add_comm 1 (e.gradSize t κ x.id).ops] at hr
  obtain ⟨z, hz, hap, -⟩ := hr.eval (range_of hS0 hs hk)
  refine ⟨z, hz, hap.1.trans ?_⟩
  have e1 := one_le_pow_u ((e.gradSize t κ x.id).ops + 1)
  rw [two_mul, pow_add _ ((e.gradSize t κ x.id).ops + 1) ((e.gradSize t κ x.id).ops + 1)]
  clear hap hr hs hk
  generalize (1 + uD) ^ ((e.gradSize t κ x.id).ops + 1) = w at *
  nlinarith [mul_nonneg hS0 (sub_nonneg.2 e1)]

end Verif.R64
