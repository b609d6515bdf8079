import Verif.Proofs.Deriv
import Verif.Spec.Calculus

/-! # The numeric derivative is the derivative -/

set_option linter.unusedSectionVars false
set_option linter.unusedSimpArgs false

namespace Verif

open Exact Filter Topology

theorem Env.set_self {F : Type} {σ : Env F} {i : Nat} {v : F} (h : σ i = some v) : σ.set i v = σ := by
  funext j; unfold Env.set; split
  · rename_i hj; rw [hj, h]
  · rfl

theorem Env.set_set {F : Type} (σ : Env F) (i : Nat) (v w : F) : (σ.set i v).set i w = σ.set i w := by
  funext j; unfold Env.set; split <;> rfl

theorem Env.set_get {F : Type} (σ : Env F) (i : Nat) (v : F) : (σ.set i v) i = some v := by simp [Env.set]

section
variable {σ : Env (Option ℝ)} {x : Node (Option ℝ)} {t0 : ℝ}

theorem val_add {τ : Env (Option ℝ)} {i : Nat} {args : List (Node (Option ℝ))} (h : ∀ a ∈ args, Defined a τ) :
    Defined (.add i args) τ ∧ val τ (.add i args) = (args.map (val τ)).sum := by
  have : (Node.add i args).evaluate τ = some ((args.map (val τ)).sum) := by
    rw [evaluate_add]
    induction args with
    | nil => simp
    | cons a as ih =>
      have ih' := ih (fun b hb => h b (by simp [hb]))
      simp only [List.map_cons, osum_cons, ih']
      rw [eval_some_val (h a (by simp))]
      simp
  exact ⟨⟨_, this⟩, val_eq this⟩

theorem numD_hasDerivAt (hx : x.isVar = true) (ht : σ x.id = some (some t0)) (e : Node (Option ℝ)) (hd : Defined e σ) :
    (∀ᶠ t in 𝓝 t0, Defined e (σ.set x.id (some t))) ∧ HasDerivAt (fun t => val (σ.set x.id (some t)) e) (numD σ x e) t0 := by
  have hσ : σ.set x.id (some t0) = σ := Env.set_self ht
  induction e using Node.ind with
  | const i v =>
    obtain ⟨w, hw⟩ := hd
    simp only [Node.evaluate] at hw
    subst hw
    refine ⟨Eventually.of_forall fun t => ⟨w, rfl⟩, ?_⟩
    have : (fun t => val (σ.set x.id (some t)) (Node.const i (some w))) = fun _ => w := by funext t; rfl
    rw [this]
    exact hasDerivAt_const _ _
  | var i s k =>
    have hp : (Node.var i s k : Node (Option ℝ)).ptrEq x = true ↔ i = x.id := by
      cases x <;> simp [Node.isVar] at hx
      simp [Node.ptrEq, Node.tag, Node.id]
    simp only [numD]
    by_cases hi : i = x.id
    · have he : ∀ t : ℝ, (Node.var i s k).evaluate (σ.set x.id (some t)) = some t := by
        intro t; simp [Node.evaluate, Env.set, hi]
      refine ⟨Eventually.of_forall fun t => ⟨t, he t⟩, ?_⟩
      have : (fun t : ℝ => val (σ.set x.id (some t)) (Node.var i s k)) = fun t => t := by
        funext t; exact val_eq (he t)
      rw [this, if_pos (hp.2 hi)]
      exact hasDerivAt_id t0
    · have he : ∀ t : ℝ, (Node.var i s k).evaluate (σ.set x.id (some t)) = (Node.var i s k).evaluate σ := by
        intro t; simp [Node.evaluate, Env.set, hi]
      refine ⟨Eventually.of_forall fun t => ?_, ?_⟩
      · obtain ⟨v, hv⟩ := hd
        exact ⟨v, by rw [he, hv]⟩
      · have : (fun t : ℝ => val (σ.set x.id (some t)) (Node.var i s k)) = fun t => val σ (.var i s k) := by
          funext t; simp [val, he t]
        rw [this, if_neg (by simpa using (not_congr hp).2 hi)]
        exact hasDerivAt_const _ _
  | add i args ih =>
    have hargs : ∀ a ∈ args, Defined a σ := fun a ha => eval_args hd a (by simpa [Node.arguments] using ha)
    have key : (∀ᶠ t in 𝓝 t0, ∀ a ∈ args, Defined a (σ.set x.id (some t))) ∧
        HasDerivAt (fun t => (args.map (val (σ.set x.id (some t)))).sum) (numD.numDs σ x args) t0 := by
      clear hd
      induction args with
      | nil => exact ⟨by simp, by simpa [numD.numDs] using hasDerivAt_const t0 (0 : ℝ)⟩
      | cons a as ih2 =>
        obtain ⟨h1, h2⟩ := ih a (by simp) (hargs a (by simp))
        obtain ⟨h3, h4⟩ := ih2 (fun b hb => ih b (by simp [hb])) (fun b hb => hargs b (by simp [hb]))
        refine ⟨?_, ?_⟩
        · filter_upwards [h1, h3] with t ha has
          simpa using ⟨ha, has⟩
        · simp only [List.map_cons, List.sum_cons, numD.numDs]
          exact h2.add h4
    refine ⟨key.1.mono fun t ht => (val_add ht).1, ?_⟩
    refine key.2.congr_of_eventuallyEq ?_
    filter_upwards [key.1] with t ht
    exact (val_add ht).2
  | cos i a ih =>
    obtain ⟨h1, h2⟩ := ih (eval_args hd a (by simp [Node.arguments]))
    have he : ∀ τ : Env (Option ℝ), Defined a τ → (Node.cos i a).evaluate τ = some (Real.cos (val τ a)) := by
      intro τ h; simp only [Node.evaluate]; rw [eval_some_val h]; rfl
    refine ⟨h1.mono fun t ht => ⟨_, he _ ht⟩, ?_⟩
    have h3 := h2.cos
    simp only [hσ] at h3
    refine HasDerivAt.congr_of_eventuallyEq (f := fun t => Real.cos (val (σ.set x.id (some t)) a)) h3 ?_
    filter_upwards [h1] with t ht
    exact val_eq (he _ ht)
  | sin i a ih =>
    obtain ⟨h1, h2⟩ := ih (eval_args hd a (by simp [Node.arguments]))
    have he : ∀ τ : Env (Option ℝ), Defined a τ → (Node.sin i a).evaluate τ = some (Real.sin (val τ a)) := by
      intro τ h; simp only [Node.evaluate]; rw [eval_some_val h]; rfl
    refine ⟨h1.mono fun t ht => ⟨_, he _ ht⟩, ?_⟩
    have h3 := h2.sin
    simp only [hσ] at h3
    refine HasDerivAt.congr_of_eventuallyEq (f := fun t => Real.sin (val (σ.set x.id (some t)) a)) h3 ?_
    filter_upwards [h1] with t ht
    exact val_eq (he _ ht)
  | mul i a b iha ihb =>
    obtain ⟨h1, h2⟩ := iha (eval_args hd a (by simp [Node.arguments]))
    obtain ⟨h3, h4⟩ := ihb (eval_args hd b (by simp [Node.arguments]))
    have he : ∀ τ : Env (Option ℝ), Defined a τ → Defined b τ → (Node.mul i a b).evaluate τ = some (val τ a * val τ b) := by
      intro τ h h'; simp only [Node.evaluate]; rw [eval_some_val h, eval_some_val h']; rfl
    refine ⟨by filter_upwards [h1, h3] with t ha hb using ⟨_, he _ ha hb⟩, ?_⟩
    have h5 := h2.mul h4
    simp only [hσ] at h5
    have h6 : HasDerivAt (fun t => val (σ.set x.id (some t)) a * val (σ.set x.id (some t)) b) (numD σ x (.mul i a b)) t0 := by
      have h7 : numD σ x (.mul i a b) = numD σ x a * val σ b + val σ a * numD σ x b := by simp only [numD]; ring
      rw [h7]; exact h5
    refine h6.congr_of_eventuallyEq ?_
    filter_upwards [h1, h3] with t ha hb
    exact val_eq (he _ ha hb)
  | div i a b iha ihb =>
    obtain ⟨h1, h2⟩ := iha (eval_args hd a (by simp [Node.arguments]))
    obtain ⟨h3, h4⟩ := ihb (eval_args hd b (by simp [Node.arguments]))
    have hne : val σ b ≠ 0 := eval_div_ne hd
    have h0 : ∀ᶠ t in 𝓝 t0, val (σ.set x.id (some t)) b ≠ 0 := by
      apply h4.continuousAt.eventually_ne
      simpa [hσ] using hne
    have he : ∀ τ : Env (Option ℝ), Defined a τ → Defined b τ → val τ b ≠ 0 →
        (Node.div i a b).evaluate τ = some (val τ a / val τ b) := by
      intro τ h h' hn; simp only [Node.evaluate]; rw [eval_some_val h, eval_some_val h', div_some_ne _ hn]
    refine ⟨by filter_upwards [h1, h3, h0] with t ha hb hc using ⟨_, he _ ha hb hc⟩, ?_⟩
    have h5 := h2.div h4 (by simpa [hσ] using hne)
    simp only [hσ] at h5
    have h6 : HasDerivAt (fun t => val (σ.set x.id (some t)) a / val (σ.set x.id (some t)) b) (numD σ x (.div i a b)) t0 := by
      have h7 : numD σ x (.div i a b) = (numD σ x a * val σ b - val σ a * numD σ x b) / val σ b ^ 2 := by
        simp only [numD]; field_simp; ring
      rw [h7]; exact h5
    refine h6.congr_of_eventuallyEq ?_
    filter_upwards [h1, h3, h0] with t ha hb hc
    exact val_eq (he _ ha hb hc)

theorem numD_partialDeriv (hx : x.isVar = true) (ht : σ x.id = some (some t0)) {e : Node (Option ℝ)} (hd : Defined e σ) :
    partialDeriv e x σ = numD σ x e := by
  have := (numD_hasDerivAt hx ht e hd).2
  unfold partialDeriv
  rw [ht]
  exact this.deriv

end

end Verif
