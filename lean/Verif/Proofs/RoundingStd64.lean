import Verif.Spec.RoundingStd64
import Verif.Proofs.Rounding64Ops
import Verif.Proofs.RoundingStd

/-! # Rounding errors, in double precision, of the coefficients of linear expressions -/

namespace Verif.R64

set_option linter.unusedSectionVars false

variable [Libm]

/-- The coefficient of `x` in an expression. -/
def coefIn (x : Node F64) (e : Node F64) : F64 := e.stdProperties.coefD x

theorem zero_err (t : ℝ) : |t - t| ≤ uD * |t| := by
  rw [sub_self, abs_zero]; exact mul_nonneg uD_nonneg (abs_nonneg _)

theorem merge_err {o p : Option F64} {y z : ℝ} (ho : (o.getD zero).Is y) (hp : (p.getD zero).Is z) (h : |y + z| ≤ 2 * maxSize) :
    ∃ w, ((optMerge (fun a b : F64 => a +. b) o p).getD zero).Is w ∧ |w - (y + z)| ≤ uD * |y + z| := by
  cases o with
  | none =>
    have hy : 0 = y := F64.is_zero.unique ho
    subst hy
    exact ⟨z, hp, by rw [zero_add]; exact zero_err z⟩
  | some a =>
    cases p with
    | none =>
      have hz : 0 = z := F64.is_zero.unique hp
      subst hz
      exact ⟨y, ho, by rw [add_zero]; exact zero_err y⟩
    | some b => exact F64.is_add ho hp h

theorem sum_nonneg' {P : Node F64 → ℝ → Prop} {k : ℕ} {as : List (Node F64)} {ts : List (ℝ × ℝ)}
    (h : List.Forall₂ (fun a t => ∃ y, P a y ∧ Approx uD y t.1 t.2 k) as ts) : 0 ≤ (ts.map Prod.snd).sum := by
  induction h with
  | nil => simp
  | cons h _ ih =>
    simp only [List.map_cons, List.sum_cons]
    obtain ⟨x, -, h⟩ := h
    have := h.nonneg
    linarith

theorem coef_sum {x : Node F64} {k : ℕ} {as : List (Node F64)} {ts : List (ℝ × ℝ)}
    (h : List.Forall₂ (fun a t => ∃ y, (coefIn x a).Is y ∧ Approx uD y t.1 t.2 k) as ts) :
    ∀ {acc : Prop' F64} {y va ma : ℝ} {j : ℕ}, k ≤ j → (acc.coefD x).Is y → Approx uD y va ma j →
    InRange (ma + (ts.map Prod.snd).sum) (j + as.length) →
    ∃ z, ((Node.stdProperties.addProps acc as).coefD x).Is z ∧
      Approx uD z (va + (ts.map Prod.fst).sum) (ma + (ts.map Prod.snd).sum) (j + as.length) := by
  induction h with
  | nil =>
    intro acc y va ma j _ hy ha _
    exact ⟨y, hy, by simpa using ha⟩
  | @cons a t as ts ht hts ih =>
    intro acc y va ma j hj hy ha hR
    simp only [List.map_cons, List.sum_cons, List.length_cons] at hR ⊢
    rw [← add_assoc, show j + (as.length + 1) = j + 1 + as.length by omega] at hR ⊢
    rw [← add_assoc]
    have hnn := sum_nonneg' hts
    obtain ⟨z, hz, haz⟩ := ht
    have hs := ha.add (haz.mono uD_nonneg hj)
    obtain ⟨w, hw, hw'⟩ := merge_err hy hz (hs.bound (hR.mono (by linarith) (by omega)))
    have hnew : (Prop'.coefD ⟨acc.affine && a.stdProperties.affine, a.stdProperties.a.foldl (fun m e => addToN m e.1 e.2) acc.a, acc.b +. a.stdProperties.b⟩ x).Is w := by
      unfold Prop'.coefD
      simp only
      rw [foldl_addToN, getN_foldUpd (stdProperties_keys a).1]
      exact hw
    obtain ⟨r, hr, har⟩ := ih (j := j + 1) (by omega) hnew (hs.round uD_nonneg hw') hR
    exact ⟨r, by simp only [Node.stdProperties.addProps]; exact hr, har⟩

theorem scaled_map (e : Node F64) (f : F64 → F64) (x : Node F64) :
    getN (e.stdProperties.a.foldl (fun m q => insertN m q.1 (f q.2)) []) x = (getN e.stdProperties.a x).map f := by
  rw [foldl_insertN (fun q => f q.2), foldUpd_nil (by rw [keysN_mapSnd]; exact (stdProperties_keys e).1), getN_mapSnd]

theorem scaled_coef {f : F64 → F64} {g : ℝ → ℝ} {err : ℝ → ℝ} (hg : g 0 = 0) (he : 0 ≤ err 0) {o : Option F64} {y : ℝ}
    (hf : ∀ a : F64, a.Is y → ∃ z, (f a).Is z ∧ |z - g y| ≤ err y)
    (hy : (o.getD zero).Is y) : ∃ z, ((o.map f).getD zero).Is z ∧ |z - g y| ≤ err y := by
  cases o with
  | none =>
    have hy : 0 = y := F64.is_zero.unique hy
    subst hy
    exact ⟨0, F64.is_zero, by rw [hg, sub_zero, abs_zero]; exact he⟩
  | some a => exact hf a hy

theorem coef_const (x : Node F64) (i : ℕ) (c : F64) : coefIn x (.const i c) = zero := rfl

theorem zeroK {y : ℝ} (h : (zero : F64).Is y) : y = 0 := h.unique F64.is_zero

noncomputable instance coefLin (x : Node F64) : LinEv (coefIn x) where
  K _ := zero
  κ _ := 0
  const _ _ := rfl
  K_num _ := F64.is_zero
  κ_lin _ := by simp
  K_add {a b y z} ha hb _ := by
    rw [zeroK ha, zeroK hb]
    exact ⟨0, F64.is_zero, by simp⟩
  K_mulL {c' c a y} hc ha _ := by
    rw [zeroK ha]
    exact ⟨0, F64.is_zero, zero_scale (by simp) _⟩
  K_mulR {c' c a y} hc ha _ := by
    rw [zeroK ha]
    exact ⟨0, F64.is_zero, zero_scale (by simp) _⟩
  K_div {c' c a y} hc' hc ha _ := by
    rw [zeroK ha]
    exact ⟨0, F64.is_zero, zero_scale (by simp) _⟩
  sum i {k as ts v0 m0} h h0 hR := coef_sum h (acc := ⟨true, [], zero⟩) le_rfl F64.is_zero h0 hR
  mulL i j {c' c a y} hc ha hR := by
    obtain ⟨z, hz, hz'⟩ := scaled_coef (f := fun v : F64 => v *. c') (g := fun y => c * y) (err := fun y => uD * max |c * y| (tinyAt c y)) (mul_zero c)
      (mul_nonneg uD_nonneg (le_trans (abs_nonneg _) (le_max_left _ _))) (fun b hb => (F64.is_scale hc hb hR).2) ha
    refine ⟨z, ?_, hz'⟩
    rw [← scaled_map a (fun v => v *. c')] at hz
    exact hz
  mulR i j {c' c a y} hc ha hR := by
    obtain ⟨z, hz, hz'⟩ := scaled_coef (f := fun v : F64 => v *. c') (g := fun y => c * y) (err := fun y => uD * max |c * y| (tinyAt c y)) (mul_zero c)
      (mul_nonneg uD_nonneg (le_trans (abs_nonneg _) (le_max_left _ _))) (fun b hb => (F64.is_scale hc hb hR).2) ha
    refine ⟨z, ?_, hz'⟩
    rw [← scaled_map a (fun v => v *. c')] at hz
    exact hz
  divR i j {c' c a y} hc' hc ha hR := by
    obtain ⟨z, hz, hz'⟩ := scaled_coef (f := fun v : F64 => v /. c') (g := fun y => y / c) (err := fun y => uD * max |y / c| (tauAt y)) (zero_div c)
      (mul_nonneg uD_nonneg (le_trans (abs_nonneg _) (le_max_left _ _))) (fun b hb => F64.is_div hb hc' hc hR) ha
    refine ⟨z, ?_, hz'⟩
    rw [← scaled_map a (fun v => v /. c')] at hz
    exact hz

/-- The constant of an expression. -/
def constIn (e : Node F64) : F64 := e.stdProperties.b

theorem const_sum {k : ℕ} {as : List (Node F64)} {ts : List (ℝ × ℝ)}
    (h : List.Forall₂ (fun a t => ∃ y, (constIn a).Is y ∧ Approx uD y t.1 t.2 k) as ts) :
    ∀ {acc : Prop' F64} {y va ma : ℝ} {j : ℕ}, k ≤ j → acc.b.Is y → Approx uD y va ma j → InRange (ma + (ts.map Prod.snd).sum) (j + as.length) →
    ∃ z, (Node.stdProperties.addProps acc as).b.Is z ∧
      Approx uD z (va + (ts.map Prod.fst).sum) (ma + (ts.map Prod.snd).sum) (j + as.length) := by
  induction h with
  | nil =>
    intro acc y va ma j _ hy ha _
    exact ⟨y, hy, by simpa using ha⟩
  | @cons a t as ts ht hts ih =>
    intro acc y va ma j hj hy ha hR
    simp only [List.map_cons, List.sum_cons, List.length_cons] at hR ⊢
    rw [← add_assoc, show j + (as.length + 1) = j + 1 + as.length by omega] at hR ⊢
    rw [← add_assoc]
    have hnn := sum_nonneg' hts
    obtain ⟨z, hz, haz⟩ := ht
    have hz : a.stdProperties.b.Is z := hz
    have hs := ha.add (haz.mono uD_nonneg hj)
    obtain ⟨w, hw, hw'⟩ := F64.is_add hy hz (hs.bound (hR.mono (by linarith) (by omega)))
    obtain ⟨r, hr, har⟩ := ih (acc := ⟨acc.affine && a.stdProperties.affine, a.stdProperties.a.foldl (fun m e => addToN m e.1 e.2) acc.a, acc.b +. a.stdProperties.b⟩)
      (j := j + 1) (by omega) hw (hs.round uD_nonneg hw') hR
    exact ⟨r, by simp only [Node.stdProperties.addProps]; exact hr, har⟩

noncomputable instance constLin : LinEv constIn where
  K a := a
  κ c := c
  const _ _ := rfl
  K_num h := h
  κ_lin c := (mul_one c).symm
  K_add ha hb hR := F64.is_add ha hb hR
  K_mulL hc ha hR := (F64.is_scale hc ha hR).1
  K_mulR hc ha hR := (F64.is_scale hc ha hR).2
  K_div hc' hc ha hR := F64.is_div ha hc' hc hR
  sum i {k as ts v0 m0} h h0 hR := const_sum h (acc := ⟨true, [], zero⟩) le_rfl F64.is_zero h0 hR
  mulL i j {c' c a x} hc ha hR := by
    have ha : a.stdProperties.b.Is x := ha
    exact (F64.is_scale hc ha hR).1
  mulR i j {c' c a x} hc ha hR := by
    have ha : a.stdProperties.b.Is x := ha
    exact (F64.is_scale hc ha hR).2
  divR i j {c' c a x} hc' hc ha hR := by
    have ha : a.stdProperties.b.Is x := ha
    exact F64.is_div ha hc' hc hR

theorem divC_ne {a e : Node F64} {c' : F64} {c : ℝ} (hc : c'.Is c) {i n n' : ℕ} (h : divN a (.const i c') n = .ok (e, n')) : c ≠ 0 := by
  intro h0
  subst h0
  unfold divN at h
  rw [if_pos (show (Node.const i c').isConstVal zero = true from F64.is_eqz.2 hc)] at h
  exact absurd h (by simp [M.panic])

theorem scaleSize_eq (c : ℝ) (k : ℕ) (m : ℝ) : scaleSize c k m = |c| * m + lost c m k := by
  unfold scaleSize lost; split_ifs with h <;> simp [h]

theorem divSize_eq (c m : ℝ) : divSize c m = m / |c| + lostD m := by
  unfold divSize lostD; split_ifs with h <;> simp [h]

theorem writesLinear64_rep {e : Node F64} {α μ : ℕ → ℝ} {β ν : ℝ} {k : ℕ} (h : WritesLinear64 e α β μ ν k) :
    LinExpr e ∧ (∀ x, x.isVar = true → Rep (coefIn x) e (α x.id) (μ x.id) k) ∧ Rep constIn e β ν k ∧ AllInRange μ ν k := by
  induction h with
  | @const e n n' c x hc hR h =>
    refine ⟨?_, fun x _ => ?_, rep_const hc h, fun i => hR.mono (by simp) le_rfl, hR⟩
    · rw [newConst_ok] at h
      obtain ⟨rfl, -⟩ := h
      exact .const _ _
    · have := rep_const (ev := coefIn x) hc h
      simpa [LinEv.κ] using this
  | @var e n n' s kind h =>
    rw [newVar_eq] at h
    cases h
    have hR : ∀ m : ℝ, m ≤ 1 → InRange m 1 := fun m hm => ⟨le_trans hm (by
      unfold maxSize; exact one_le_zpow₀ (by norm_num) (by norm_num)), by norm_num⟩
    refine ⟨.var _ _ _, fun x hx => ?_, Rep.single (x := 0) rfl F64.is_zero (by simpa using Approx.exact (u := uD) 0), fun i => hR _ ?_, hR _ (by norm_num)⟩
    · cases x <;> simp [Node.isVar] at hx
      rename_i i s' k'
      refine Rep.single (x := (Pi.single n 1 : ℕ → ℝ) i) rfl ?_ ?_
      · by_cases hi : n = i
        · subst hi
          simp [coefIn, Prop'.coefD, Node.stdProperties, getN, Node.ptrEq, Node.tag, Node.id, F64.is_one]
        · simp [coefIn, Prop'.coefD, Node.stdProperties, getN, Node.ptrEq, Node.tag, Node.id, hi, F64.is_zero]
      · by_cases hi : n = i
        · subst hi
          simpa [Node.id] using Approx.exact (u := uD) 1
        · simpa [Node.id, Pi.single_eq_of_ne (Ne.symm hi)] using Approx.exact (u := uD) 0
    · by_cases hi : i = n
      · subst hi; simp
      · simp [Pi.single_eq_of_ne hi]
  | add _ _ hR h iha ihb =>
    exact ⟨.add iha.1 ihb.1 h, fun x hx => rep_addN (iha.2.1 x hx) (ihb.2.1 x hx) (hR.1 x.id) h, rep_addN iha.2.2.1 ihb.2.2.1 hR.2 h, hR⟩
  | addScalar _ hc hR h ih =>
    refine ⟨.addScalar ih.1 h, fun x hx => ?_, rep_addS ih.2.2.1 hc hR.2 h, hR⟩
    simpa [LinEv.κ] using rep_addS (ih.2.1 x hx) hc (by simpa [LinEv.κ] using hR.1 x.id) h
  | scalarAdd _ hc hR h ih =>
    refine ⟨.scalarAdd ih.1 h, fun x hx => ?_, rep_sAdd ih.2.2.1 hc hR.2 h, hR⟩
    simpa [LinEv.κ] using rep_sAdd (ih.2.1 x hx) hc (by simpa [LinEv.κ] using hR.1 x.id) h
  | sub _ _ hR h iha ihb =>
    exact ⟨.sub iha.1 ihb.1 h, fun x hx => rep_subN (iha.2.1 x hx) (ihb.2.1 x hx) (hR.1 x.id) h, rep_subN iha.2.2.1 ihb.2.2.1 hR.2 h, hR⟩
  | subScalar _ hc hR h ih =>
    refine ⟨.subScalar ih.1 h, fun x hx => ?_, rep_subS ih.2.2.1 hc hR.2 h, hR⟩
    simpa [LinEv.κ] using rep_subS (ih.2.1 x hx) hc (by simpa [LinEv.κ] using hR.1 x.id) h
  | scalarSub _ hc hR h ih =>
    refine ⟨.scalarSub ih.1 h, fun x hx => ?_, rep_sSub ih.2.2.1 hc hR.2 h, hR⟩
    simpa [LinEv.κ] using rep_sSub (ih.2.1 x hx) hc (by simpa [LinEv.κ] using hR.1 x.id) h
  | neg _ hR h ih => exact ⟨.neg ih.1 h, fun x hx => rep_negN (ih.2.1 x hx) (hR.1 x.id) h, rep_negN ih.2.2.1 hR.2 h, hR⟩
  | @mulScalar a e n n' c α μ β ν x k _ hc hR h ih =>
    refine ⟨.mulScalar ih.1 h, fun y hy => ?_, ?_, hR⟩
    · have h1 := hR.1 y.id
      simp only [scaleSize_eq] at h1 ⊢
      rw [mul_comm |x|] at h1
      have := rep_mulS (ih.2.1 y hy) (ih.2.2.2.1 y.id) hc h1 h
      rwa [mul_comm (α y.id), mul_comm _ |x|] at this
    · have h1 := hR.2
      simp only [scaleSize_eq] at h1 ⊢
      rw [mul_comm |x|] at h1
      have := rep_mulS ih.2.2.1 ih.2.2.2.2 hc h1 h
      rwa [mul_comm β, mul_comm _ |x|] at this
  | @scalarMul a e n n' c α μ β ν x k _ hc hR h ih =>
    refine ⟨.scalarMul ih.1 h, fun y hy => ?_, ?_, hR⟩
    · have h1 := hR.1 y.id
      simp only [scaleSize_eq] at h1 ⊢
      exact rep_sMul (ih.2.1 y hy) (ih.2.2.2.1 y.id) hc h1 h
    · have h1 := hR.2
      simp only [scaleSize_eq] at h1 ⊢
      exact rep_sMul ih.2.2.1 ih.2.2.2.2 hc h1 h
  | @mulConst a b e n n' i i' c α μ β ν x k _ hc hR hb h ih =>
    rw [newConst_ok] at hb
    obtain ⟨rfl, -⟩ := hb
    refine ⟨.mulConst ih.1 h, fun y hy => ?_, ?_, hR⟩
    · have h1 := hR.1 y.id
      simp only [scaleSize_eq] at h1 ⊢
      exact (rep_mulC (ih.2.1 y hy) (ih.2.2.2.1 y.id) hc (.exact x) (h1.mono le_rfl (by omega)) (.inl h)).mono (by omega)
    · have h1 := hR.2
      simp only [scaleSize_eq] at h1 ⊢
      exact (rep_mulC ih.2.2.1 ih.2.2.2.2 hc (.exact x) (h1.mono le_rfl (by omega)) (.inl h)).mono (by omega)
  | @constMul a b e n n' i i' c α μ β ν x k _ hc hR hb h ih =>
    rw [newConst_ok] at hb
    obtain ⟨rfl, -⟩ := hb
    refine ⟨.constMul ih.1 h, fun y hy => ?_, ?_, hR⟩
    · have h1 := hR.1 y.id
      simp only [scaleSize_eq] at h1 ⊢
      exact (rep_mulC (ih.2.1 y hy) (ih.2.2.2.1 y.id) hc (.exact x) (h1.mono le_rfl (by omega)) (.inr h)).mono (by omega)
    · have h1 := hR.2
      simp only [scaleSize_eq] at h1 ⊢
      exact (rep_mulC ih.2.2.1 ih.2.2.2.2 hc (.exact x) (h1.mono le_rfl (by omega)) (.inr h)).mono (by omega)
  | @divScalar a e n n' c α μ β ν x k _ hc hR h ih =>
    refine ⟨.divScalar ih.1 h, fun y hy => ?_, ?_, hR⟩
    · have h1 := hR.1 y.id
      simp only [divSize_eq] at h1 ⊢
      have := rep_divS (ih.2.1 y hy) (ih.2.2.2.1 y.id) hc h1 h
      rwa [div_eq_inv_mul (α y.id)] at this
    · have h1 := hR.2
      simp only [divSize_eq] at h1 ⊢
      exact rep_divS ih.2.2.1 ih.2.2.2.2 hc h1 h
  | @divConst a b e n n' i i' c α μ β ν x k _ hc hR hb h ih =>
    rw [newConst_ok] at hb
    obtain ⟨rfl, -⟩ := hb
    have hx := divC_ne hc h
    have hinv : Approx uD x⁻¹ x⁻¹ |x|⁻¹ 0 := by rw [← abs_inv]; exact .exact _
    refine ⟨.divConst ih.1 h, fun y hy => ?_, ?_, hR⟩
    · have h1 := hR.1 y.id
      simp only [divSize_eq, div_eq_mul_inv] at h1 ⊢
      have := rep_divC (ih.2.1 y hy) (ih.2.2.2.1 y.id) hc hx hinv h1 h
      rwa [mul_comm (α y.id)] at this
    · have h1 := hR.2
      simp only [divSize_eq, div_eq_mul_inv] at h1 ⊢
      exact rep_divC ih.2.2.1 ih.2.2.2.2 hc hx hinv h1 h

/-- The coefficients of a linear formula. -/
theorem writesLinear64_coef {e : Node F64} {α μ : ℕ → ℝ} {β ν : ℝ} {k : ℕ} (h : WritesLinear64 e α β μ ν k) {x : Node F64}
    (hx : x.isVar = true) : ∃ y, (e.stdProperties.coefD x).Is y ∧ Approx uD y (α x.id) (μ x.id) k := by
  obtain ⟨-, h1, -, h2⟩ := writesLinear64_rep h
  obtain ⟨y, h3, h4, -⟩ := (h1 x hx).eval (h2.1 x.id)
  exact ⟨y, h3, h4⟩

/-- The constant of a linear formula. -/
theorem writesLinear64_const {e : Node F64} {α μ : ℕ → ℝ} {β ν : ℝ} {k : ℕ} (h : WritesLinear64 e α β μ ν k) :
    ∃ y, e.stdProperties.b.Is y ∧ Approx uD y β ν k := by
  obtain ⟨-, -, h1, h2⟩ := writesLinear64_rep h
  obtain ⟨y, h3, h4, -⟩ := h1.eval h2.2
  exact ⟨y, h3, h4⟩

end Verif.R64
