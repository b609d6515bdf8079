import Verif.Proofs.Affine
import Verif.Props.Expr2

/-! # Second derivatives, and derivatives of affine expressions -/

set_option linter.unusedSectionVars false
set_option linter.unusedSimpArgs false

namespace Verif

open Exact Filter Topology

/-- Second derivative by the rules of calculus. -/
noncomputable def numD2 (σ : Env (Option ℝ)) (x y : Node (Option ℝ)) : Node (Option ℝ) → ℝ
  | .const .. => 0
  | .var .. => 0
  | .add _ args => numD2s σ x y args
  | .cos _ a => - Real.cos (val σ a) * numD σ y a * numD σ x a - Real.sin (val σ a) * numD2 σ x y a
  | .sin _ a => - Real.sin (val σ a) * numD σ y a * numD σ x a + Real.cos (val σ a) * numD2 σ x y a
  | .mul _ a b => numD σ y b * numD σ x a + val σ b * numD2 σ x y a + numD σ y a * numD σ x b + val σ a * numD2 σ x y b
  | .div _ a b => numD2 σ x y a / val σ b - numD σ x a * numD σ y b / (val σ b) ^ 2 - numD σ y a * numD σ x b / (val σ b) ^ 2
      - val σ a * numD2 σ x y b / (val σ b) ^ 2 + 2 * val σ a * numD σ x b * numD σ y b / (val σ b) ^ 3
where
  /-- sum over a list of terms -/
  numD2s (σ : Env (Option ℝ)) (x y : Node (Option ℝ)) : List (Node (Option ℝ)) → ℝ
    | [] => 0
    | a :: as => numD2 σ x y a + numD2s σ x y as

theorem numD2_symm (σ : Env (Option ℝ)) (x y e : Node (Option ℝ)) : numD2 σ x y e = numD2 σ y x e := by
  induction e using Node.ind with
  | const i v => rfl
  | var i s k => rfl
  | add i args ih =>
    simp only [numD2]
    induction args with
    | nil => rfl
    | cons a as ih2 => simp only [numD2.numD2s]; rw [ih a (by simp), ih2 fun b hb => ih b (by simp [hb])]
  | cos i a ih => simp only [numD2, ih]; ring
  | sin i a ih => simp only [numD2, ih]; ring
  | mul i a b iha ihb => simp only [numD2, iha, ihb]; ring
  | div i a b iha ihb => simp only [numD2, iha, ihb]; ring

section
variable {σ : Env (Option ℝ)} {x y : Node (Option ℝ)} {t0 : ℝ}

theorem numD2_hasDerivAt (hy : y.isVar = true) (ht : σ y.id = some (some t0)) (x e : Node (Option ℝ)) (hd : Defined e σ) :
    HasDerivAt (fun t => numD (σ.set y.id (some t)) x e) (numD2 σ x y e) t0 := by
  have hσ : σ.set y.id (some t0) = σ := Env.set_self ht
  induction e using Node.ind with
  | const i v => exact hasDerivAt_const ..
  | var i s k => exact hasDerivAt_const ..
  | add i args ih =>
    have hargs : ∀ a ∈ args, Defined a σ := fun a ha => eval_args hd a (by simpa [Node.arguments] using ha)
    simp only [numD, numD2]
    clear hd
    induction args with
    | nil => exact hasDerivAt_const ..
    | cons a as ih2 =>
      simp only [numD.numDs, numD2.numD2s]
      exact (ih a (by simp) (hargs a (by simp))).add (ih2 (fun b hb => ih b (by simp [hb])) fun b hb => hargs b (by simp [hb]))
  | cos i a ih =>
    have hda : Defined a σ := eval_args hd a (by simp [Node.arguments])
    have h1 := (numD_hasDerivAt hy ht a hda).2
    have h2 := ih hda
    have h3 := h1.sin.neg.mul h2
    simp only [hσ, Pi.neg_apply] at h3
    have h4 : numD2 σ x y (.cos i a) = -(Real.cos (val σ a) * numD σ y a) * numD σ x a + -Real.sin (val σ a) * numD2 σ x y a := by
      simp only [numD2]; ring
    rw [h4]; exact h3
  | sin i a ih =>
    have hda : Defined a σ := eval_args hd a (by simp [Node.arguments])
    have h1 := (numD_hasDerivAt hy ht a hda).2
    have h2 := ih hda
    have h3 := h1.cos.mul h2
    simp only [hσ] at h3
    exact h3
  | mul i a b iha ihb =>
    have hda : Defined a σ := eval_args hd a (by simp [Node.arguments])
    have hdb : Defined b σ := eval_args hd b (by simp [Node.arguments])
    have h3 := ((numD_hasDerivAt hy ht b hdb).2.mul (iha hda)).add ((numD_hasDerivAt hy ht a hda).2.mul (ihb hdb))
    simp only [hσ] at h3
    have h4 : numD2 σ x y (.mul i a b) = numD σ y b * numD σ x a + val σ b * numD2 σ x y a +
        (numD σ y a * numD σ x b + val σ a * numD2 σ x y b) := by
      simp only [numD2]; ring
    rw [h4]; exact h3
  | div i a b iha ihb =>
    have hda : Defined a σ := eval_args hd a (by simp [Node.arguments])
    have hdb : Defined b σ := eval_args hd b (by simp [Node.arguments])
    have hne : val σ b ≠ 0 := eval_div_ne hd
    have hb := (numD_hasDerivAt hy ht b hdb).2
    have ha := (numD_hasDerivAt hy ht a hda).2
    have hne' : val (σ.set y.id (some t0)) b ≠ 0 := by rw [hσ]; exact hne
    have h1 := ((hasDerivAt_const t0 (1 : ℝ)).div hb hne').mul (iha hda)
    have h2 := (ha.neg.div (hb.mul hb) (mul_ne_zero hne' hne')).mul (ihb hdb)
    have h3 := h1.add h2
    simp only [hσ, Pi.mul_apply, Pi.neg_apply, Pi.div_apply] at h3
    refine h3.congr_deriv ?_
    simp only [numD2]
    field_simp
    ring

theorem Defined.var_value {K : Type} [Field K] [LinearOrder K] [Trig K] {e x : Node (Option K)} {σ : Env (Option K)} (hd : Defined e σ)
    (hx : x.isVar = true) (ho : Occurs x e) : ∃ t, σ x.id = some (some t) := by
  cases x <;> simp [Node.isVar] at hx
  rename_i i s k
  cases h : σ i with
  | none =>
    obtain ⟨v, hv⟩ := hd
    rw [C06_missing ho (.inl h)] at hv; cases hv
  | some o =>
    cases o with
    | none =>
      obtain ⟨v, hv⟩ := hd
      rw [C06_missing ho (.inr h)] at hv; cases hv
    | some t => exact ⟨t, h⟩

theorem partialDeriv_congr_id {e x x' : Node (Option ℝ)} (h : x.id = x'.id) (σ : Env (Option ℝ)) :
    partialDeriv e x σ = partialDeriv e x' σ := by
  unfold partialDeriv section'; rw [h]

/-- The second derivative, as the derivative of the first one. -/
theorem partialDeriv_hasDerivAt {s0 : ℝ} (hx : x.isVar = true) (hy : y.isVar = true) (hs : σ x.id = some (some s0))
    (ht : σ y.id = some (some t0)) {e : Node (Option ℝ)} (hd : Defined e σ) :
    HasDerivAt (fun t => partialDeriv e x (σ.set y.id (some t))) (numD2 σ x y e) t0 := by
  refine (numD2_hasDerivAt hy ht x e hd).congr_of_eventuallyEq ?_
  filter_upwards [(numD_hasDerivAt hy ht e hd).1] with t hdt
  have : ∃ s, (σ.set y.id (some t)) x.id = some (some s) := by
    unfold Env.set
    split
    · exact ⟨t, rfl⟩
    · exact ⟨s0, hs⟩
  obtain ⟨s, hs'⟩ := this
  exact numD_partialDeriv hx hs' hdt

theorem numD_absent {K : Type} [Field K] [LinearOrder K] [Trig K] {σ : Env (Option K)} {x e : Node (Option K)}
    (h : ∀ y, Occurs y e → y.ptrEq x = false) : numD σ x e = 0 := by
  induction e using Node.ind with
  | const i v => rfl
  | var i s k => simp only [numD]; rw [h _ (.refl _)]; simp
  | add i args ih =>
    simp only [numD]
    have h' : ∀ a ∈ args, ∀ y, Occurs y a → y.ptrEq x = false := fun a ha y hy => h y (.arg (by simpa [Node.arguments] using ha) hy)
    clear h
    induction args with
    | nil => rfl
    | cons a as ih2 =>
      simp only [numD.numDs]
      rw [ih a (by simp) (h' a (by simp)), ih2 (fun b hb => ih b (by simp [hb])) fun b hb => h' b (by simp [hb])]; simp
  | cos i a ih => simp only [numD, ih fun y hy => h y (.arg (by simp [Node.arguments]) hy)]; simp
  | sin i a ih => simp only [numD, ih fun y hy => h y (.arg (by simp [Node.arguments]) hy)]; simp
  | mul i a b iha ihb =>
    simp only [numD, iha fun y hy => h y (.arg (by simp [Node.arguments]) hy), ihb fun y hy => h y (.arg (by simp [Node.arguments]) hy)]; simp
  | div i a b iha ihb =>
    simp only [numD, iha fun y hy => h y (.arg (by simp [Node.arguments]) hy), ihb fun y hy => h y (.arg (by simp [Node.arguments]) hy)]; simp

theorem numD2_absent {x e : Node (Option ℝ)}
    (h : ∀ y, Occurs y e → y.ptrEq x = false) (y : Node (Option ℝ)) : numD2 σ x y e = 0 := by
  induction e using Node.ind with
  | const i v => rfl
  | var i s k => rfl
  | add i args ih =>
    simp only [numD2]
    have h' : ∀ a ∈ args, ∀ y, Occurs y a → y.ptrEq x = false := fun a ha y hy => h y (.arg (by simpa [Node.arguments] using ha) hy)
    clear h
    induction args with
    | nil => rfl
    | cons a as ih2 =>
      simp only [numD2.numD2s]
      rw [ih a (by simp) (h' a (by simp)), ih2 (fun b hb => ih b (by simp [hb])) fun b hb => h' b (by simp [hb])]; simp
  | cos i a ih =>
    have ha : ∀ y, Occurs y a → y.ptrEq x = false := fun y hy => h y (.arg (by simp [Node.arguments]) hy)
    simp only [numD2, ih ha, numD_absent ha]; simp
  | sin i a ih =>
    have ha : ∀ y, Occurs y a → y.ptrEq x = false := fun y hy => h y (.arg (by simp [Node.arguments]) hy)
    simp only [numD2, ih ha, numD_absent ha]; simp
  | mul i a b iha ihb =>
    have ha : ∀ y, Occurs y a → y.ptrEq x = false := fun y hy => h y (.arg (by simp [Node.arguments]) hy)
    have hb : ∀ y, Occurs y b → y.ptrEq x = false := fun y hy => h y (.arg (by simp [Node.arguments]) hy)
    simp only [numD2, iha ha, ihb hb, numD_absent ha, numD_absent hb]; simp
  | div i a b iha ihb =>
    have ha : ∀ y, Occurs y a → y.ptrEq x = false := fun y hy => h y (.arg (by simp [Node.arguments]) hy)
    have hb : ∀ y, Occurs y b → y.ptrEq x = false := fun y hy => h y (.arg (by simp [Node.arguments]) hy)
    simp only [numD2, iha ha, ihb hb, numD_absent ha, numD_absent hb]; simp

theorem numD_congr {K : Type} [Field K] [LinearOrder K] [Trig K] {σ : Env (Option K)} {x x' : Node (Option K)} (h : x.ptrEq x' = true)
    (e : Node (Option K)) : numD σ x e = numD σ x' e := by
  have hv : ∀ i s k, (Node.var i s k : Node (Option K)).ptrEq x = (Node.var i s k : Node (Option K)).ptrEq x' := by
    intro i s k
    rw [Bool.eq_iff_iff]
    exact ⟨fun h1 => ptrEq_trans h1 h, fun h1 => ptrEq_trans h1 (by rw [ptrEq_symm]; exact h)⟩
  induction e using Node.ind with
  | const i v => rfl
  | var i s k => simp only [numD, hv]
  | add i args ih =>
    simp only [numD]
    induction args with
    | nil => rfl
    | cons a as ih2 => simp only [numD.numDs]; rw [ih a (by simp), ih2 fun b hb => ih b (by simp [hb])]
  | cos i a ih => simp only [numD, ih]
  | sin i a ih => simp only [numD, ih]
  | mul i a b iha ihb => simp only [numD, iha, ihb]
  | div i a b iha ihb => simp only [numD, iha, ihb]

theorem numD2_congr {x x' y y' : Node (Option ℝ)} (h : x.ptrEq x' = true) (h' : y.ptrEq y' = true)
    (e : Node (Option ℝ)) : numD2 σ x y e = numD2 σ x' y' e := by
  induction e using Node.ind with
  | const i v => rfl
  | var i s k => rfl
  | add i args ih =>
    simp only [numD2]
    induction args with
    | nil => rfl
    | cons a as ih2 => simp only [numD2.numD2s]; rw [ih a (by simp), ih2 fun b hb => ih b (by simp [hb])]
  | cos i a ih => simp only [numD2, ih, numD_congr h, numD_congr h']
  | sin i a ih => simp only [numD2, ih, numD_congr h, numD_congr h']
  | mul i a b iha ihb => simp only [numD2, iha, ihb, numD_congr h, numD_congr h']
  | div i a b iha ihb => simp only [numD2, iha, ihb, numD_congr h, numD_congr h']

/-! ### Affine expressions -/

/-- Sum of the coefficients of `v`. -/
def coefSum {K : Type} [Field K] (m : List (Node (Option K) × Option K)) (v : Node (Option K)) : K :=
  ((m.filter fun p => p.1.ptrEq v).map fun p => p.2.getD 0).sum

theorem isVar_ptrEq_iff {F : Type} {x v : Node F} (hx : x.isVar = true) (hv : v.isVar = true) : x.ptrEq v = true ↔ x.id = v.id := by
  cases x <;> simp [Node.isVar] at hx
  cases v <;> simp [Node.isVar] at hv
  simp [Node.ptrEq, Node.tag, Node.id]

theorem eval_set_eq {F : Type} [FloatOps F] {σ : Env F} {x v : Node F} (hx : x.isVar = true) (h : x.id = v.id) (t : F) :
    x.evaluate (σ.set v.id t) = t := by
  cases x <;> simp [Node.isVar] at hx
  rename_i i s k
  change i = v.id at h
  simp only [Node.evaluate, Env.set, h, if_true]

theorem eval_set_ne {F : Type} [FloatOps F] {σ : Env F} {x v : Node F} (hx : x.isVar = true) (h : x.id ≠ v.id) (t : F) :
    x.evaluate (σ.set v.id t) = x.evaluate σ := by
  cases x <;> simp [Node.isVar] at hx
  rename_i i s k
  change i ≠ v.id at h
  simp only [Node.evaluate, Env.set, h, if_false]

theorem lin_section {K : Type} [Field K] [LinearOrder K] [Trig K] {σ : Env (Option K)} {v : Node (Option K)} (hv : v.isVar = true)
    {m : List (Node (Option K) × Option K)} (hm : ∀ k ∈ keysN m, k.isVar = true) {w : K} (hw : lin σ m = some w) :
    ∃ r, ∀ t, lin (σ.set v.id (some t)) m = some (coefSum m v * t + r) := by
  induction m generalizing w with
  | nil => exact ⟨0, fun t => by simp [lin, coefSum]⟩
  | cons e m ih =>
    obtain ⟨x, c⟩ := e
    simp only [lin, List.map_cons, osum_cons] at hw
    obtain ⟨w1, w2, h1, h2, -⟩ := add_eq_some.1 hw
    obtain ⟨c', xv, rfl, hxv, -⟩ := mul_eq_some.1 h1
    have hx : x.isVar = true := hm x (by simp)
    obtain ⟨r, hr⟩ := ih (fun k hk => hm k (by simp only [keysN, List.map_cons, List.mem_cons]; exact .inr hk)) h2
    by_cases hp : x.ptrEq v = true
    · refine ⟨r, fun t => ?_⟩
      have he : x.evaluate (σ.set v.id (some t)) = some t := eval_set_eq hx ((isVar_ptrEq_iff hx hv).1 hp) _
      have hr := hr t
      simp only [lin, List.map_cons, osum_cons, he] at hr ⊢
      rw [hr]
      simp only [coefSum, List.filter_cons, hp, if_true, List.map_cons, List.sum_cons, Option.getD_some]
      simp
      ring
    · refine ⟨c' * xv + r, fun t => ?_⟩
      have he : x.evaluate (σ.set v.id (some t)) = some xv := by
        rw [← hxv]; exact eval_set_ne hx ((not_congr (isVar_ptrEq_iff hx hv)).1 hp) _
      have hr := hr t
      simp only [lin, List.map_cons, osum_cons, he] at hr ⊢
      rw [hr]
      simp only [coefSum, List.filter_cons, hp]
      simp
      ring

theorem coefSum_mem {K : Type} [Field K] {m : List (Node (Option K) × Option K)} (hm : NodupP (keysN m)) {v : Node (Option K)} {c : Option K}
    (h : (v, c) ∈ m) : coefSum m v = c.getD 0 := by
  induction m with
  | nil => simp at h
  | cons e m ih =>
    obtain ⟨x, d⟩ := e
    have h1 := (List.pairwise_cons.1 hm).1
    simp only [List.mem_cons, Prod.mk.injEq] at h
    rcases h with ⟨rfl, rfl⟩ | h
    · have : m.filter (fun p => p.1.ptrEq v) = [] := by
        rw [List.filter_eq_nil_iff]
        intro p hp
        rw [ptrEq_symm, h1 p.1 (List.mem_map.2 ⟨p, hp, rfl⟩)]; simp
      simp [coefSum, List.filter_cons, ptrEq_refl, this]
    · have hx : x.ptrEq v = false := h1 v (List.mem_map.2 ⟨_, h, rfl⟩)
      have := ih (List.pairwise_cons.1 hm).2 h
      simp only [coefSum, List.filter_cons, hx] at this ⊢
      simpa using this

theorem lin_coef_some {K : Type} [Field K] [LinearOrder K] [Trig K] {σ : Env (Option K)} {m : List (Node (Option K) × Option K)} {w : K}
    (hw : lin σ m = some w) {p : Node (Option K) × Option K} (hp : p ∈ m) : ∃ c, p.2 = some c := by
  induction m generalizing w with
  | nil => simp at hp
  | cons e m ih =>
    simp only [lin, List.map_cons, osum_cons] at hw
    obtain ⟨w1, w2, h1, h2, -⟩ := add_eq_some.1 hw
    obtain ⟨c', xv, hc, hxv, -⟩ := mul_eq_some.1 h1
    rcases List.mem_cons.1 hp with rfl | hp
    · exact ⟨c', hc⟩
    · exact ih h2 hp

/-- Along one variable, an affine expression is an affine function, defined everywhere. -/
theorem affine_section {K : Type} [Field K] [LinearOrder K] [Trig K] {σ : Env (Option K)} {hp : Heap (Option K)} {l : Level} (hl : l ≠ .raw)
    {e v : Node (Option K)} (hg : Good l hp e) (ha : Aff e) (hd : Defined e σ) (hv : v.isVar = true) :
    ∃ r, ∀ t, e.evaluate (σ.set v.id (some t)) = some (coefSum e.stdProperties.a v * t + r) := by
  obtain ⟨w, hw⟩ := hd
  rw [affine_val hl σ e hg ha] at hw
  obtain ⟨w1, b, h1, h2, -⟩ := add_eq_some.1 hw
  obtain ⟨r, hr⟩ := lin_section hv (fun k hk => ((stdProperties_keys e).2.1 k hk).1) h1
  refine ⟨r + b, fun t => ?_⟩
  rw [affine_val hl _ e hg ha, hr, h2]
  simp
  ring

theorem affine_numD {hp : Heap (Option ℝ)} {l : Level} (hl : l ≠ .raw) {e v : Node (Option ℝ)} (hg : Good l hp e) (ha : Aff e)
    (hd : Defined e σ) (hv : v.isVar = true) (ht : σ v.id = some (some t0)) : numD σ v e = coefSum e.stdProperties.a v := by
  obtain ⟨r, hr⟩ := affine_section hl hg ha hd hv
  have h1 := (numD_hasDerivAt hv ht e hd).2
  have h2 : (fun t => val (σ.set v.id (some t)) e) = fun t => coefSum e.stdProperties.a v * t + r := by
    funext t; exact val_eq (hr t)
  rw [h2] at h1
  have h3 : HasDerivAt (fun t => coefSum e.stdProperties.a v * t + r) (coefSum e.stdProperties.a v) t0 := by
    simpa using ((hasDerivAt_id t0).const_mul (coefSum e.stdProperties.a v)).add_const r
  exact h1.unique h3

theorem affine_numD2 {hp : Heap (Option ℝ)} {l : Level} (hl : l ≠ .raw) {e x y : Node (Option ℝ)} (hg : Good l hp e) (ha : Aff e)
    (hd : Defined e σ) (hx : x.isVar = true) (hy : y.isVar = true) {s0 : ℝ} (hs : σ x.id = some (some s0)) (ht : σ y.id = some (some t0)) :
    numD2 σ x y e = 0 := by
  have h1 := partialDeriv_hasDerivAt hx hy hs ht hd
  have h2 : (fun t => partialDeriv e x (σ.set y.id (some t))) = fun _ => coefSum e.stdProperties.a x := by
    funext t
    obtain ⟨r, hr⟩ := affine_section hl hg ha hd hy
    have hd' : Defined e (σ.set y.id (some t)) := ⟨_, hr t⟩
    have : ∃ s, (σ.set y.id (some t)) x.id = some (some s) := by
      unfold Env.set
      split
      · exact ⟨t, rfl⟩
      · exact ⟨s0, hs⟩
    obtain ⟨s, hs'⟩ := this
    rw [numD_partialDeriv hx hs' hd', affine_numD hl hg ha hd' hx hs']
  rw [h2] at h1
  exact h1.unique (hasDerivAt_const ..)

end

end Verif
