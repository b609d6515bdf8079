import Verif.Spec.Convex
import Verif.Proofs.Kkt2
import Mathlib.Analysis.Convex.Deriv

/-! # Directional derivatives of expressions, and optimality of points with a certificate -/

set_option linter.unusedSectionVars false
set_option linter.unusedSimpArgs false

namespace Verif

open Exact Filter Topology

/-- The number that an assignment gives to a variable (0 if none). -/
def numAt (σ : Env (Option ℝ)) (x : Node (Option ℝ)) : ℝ := ((σ x.id).getD none).getD 0

section
variable {σ τ : Env (Option ℝ)}

theorem Env.mix_zero : σ.mix τ 0 = σ := by
  funext k
  unfold Env.mix
  split
  · rename_i a b h1 h2; rw [h1]; simp
  · rfl

theorem Env.mix_num {k : Nat} {a b : ℝ} (ha : σ k = some (some a)) (hb : τ k = some (some b)) (t : ℝ) :
    σ.mix τ t k = some (some (a + t * (b - a))) := by
  unfold Env.mix; rw [ha, hb]

/-- Sum over variables of derivative times difference. -/
noncomputable def dirD (σ τ : Env (Option ℝ)) (vars : List (Node (Option ℝ))) (e : Node (Option ℝ)) : ℝ :=
  (vars.map fun x => numD σ x e * (numAt τ x - numAt σ x)).sum

theorem sum_map_lin {α : Type} (l : List α) (f g : α → ℝ) (c d : ℝ) :
    (l.map fun x => c * f x + d * g x).sum = c * (l.map f).sum + d * (l.map g).sum := by
  induction l with
  | nil => simp
  | cons a l ih => simp only [List.map_cons, List.sum_cons, ih]; ring

theorem dirD_lin {vars : List (Node (Option ℝ))} {e a b : Node (Option ℝ)} {c d : ℝ}
    (h : ∀ x, numD σ x e = c * numD σ x a + d * numD σ x b) : dirD σ τ vars e = c * dirD σ τ vars a + d * dirD σ τ vars b := by
  unfold dirD
  rw [← sum_map_lin]
  congr 1
  refine List.map_congr_left fun x _ => ?_
  rw [h]; ring

theorem dirD_mul {vars : List (Node (Option ℝ))} {e a : Node (Option ℝ)} {c : ℝ}
    (h : ∀ x, numD σ x e = c * numD σ x a) : dirD σ τ vars e = c * dirD σ τ vars a := by
  have := dirD_lin (σ := σ) (τ := τ) (vars := vars) (e := e) (a := a) (b := a) (c := c) (d := 0) (fun x => by rw [h]; ring)
  rw [this]; ring

/-- The chain rule along the segment from `σ` to `τ`. -/
theorem dirD_hasDerivAt {vars : List (Node (Option ℝ))} (hv : ∀ x ∈ vars, x.isVar = true) (hn : (vars.map Node.id).Nodup)
    (e : Node (Option ℝ)) (hd : Defined e σ) (ho : ∀ y, y.isVar = true → Occurs y e → (∃ x ∈ vars, x.id = y.id) ∧
      ∃ a b, σ y.id = some (some a) ∧ τ y.id = some (some b)) :
    (∀ᶠ t in 𝓝 (0 : ℝ), Defined e (σ.mix τ t)) ∧ HasDerivAt (fun t => val (σ.mix τ t) e) (dirD σ τ vars e) 0 := by
  have hσ : σ.mix τ 0 = σ := Env.mix_zero
  induction e using Node.ind with
  | const i v =>
    obtain ⟨w, hw⟩ := hd
    simp only [Node.evaluate] at hw
    subst hw
    refine ⟨Eventually.of_forall fun t => ⟨w, rfl⟩, ?_⟩
    have : (fun t => val (σ.mix τ t) (Node.const i (some w))) = fun _ => w := by funext t; rfl
    rw [this]
    have h0 : dirD σ τ vars (Node.const i (some w)) = 0 := by simp [dirD, numD]
    rw [h0]
    exact hasDerivAt_const _ _
  | var i s k =>
    obtain ⟨⟨x0, hx0, hid⟩, a, b, ha, hb⟩ := ho (.var i s k) rfl (Occurs.refl _)
    change x0.id = i at hid
    change σ i = _ at ha
    change τ i = _ at hb
    have he : ∀ t : ℝ, (Node.var i s k).evaluate (σ.mix τ t) = some (a + t * (b - a)) := by
      intro t; simp only [Node.evaluate]; rw [Env.mix_num ha hb]
    refine ⟨Eventually.of_forall fun t => ⟨_, he t⟩, ?_⟩
    have h1 : (fun t : ℝ => val (σ.mix τ t) (Node.var i s k)) = fun t => a + t * (b - a) := by
      funext t; exact val_eq (he t)
    have h0 : dirD σ τ vars (Node.var i s k) = b - a := by
      unfold dirD
      rw [sum_map_single (List.Nodup.of_map _ hn) hx0]
      · have : (Node.var i s k : Node (Option ℝ)).ptrEq x0 = true := (isVar_ptrEq_iff rfl (hv _ hx0)).2 hid.symm
        simp [numD, this, numAt, hid, ha, hb]
      · intro y hy hne
        have : ¬ (Node.var i s k : Node (Option ℝ)).ptrEq y = true := by
          rw [isVar_ptrEq_iff rfl (hv _ hy)]
          intro hiy
          exact hne (List.inj_on_of_nodup_map hn hy hx0 (by rw [hid, ← hiy]; rfl))
        simp [numD, this]
    rw [h1, h0]
    simpa using ((hasDerivAt_id (0 : ℝ)).mul_const (b - a)).const_add a
  | add i args ih =>
    have hargs : ∀ a ∈ args, Defined a σ := fun a ha => eval_args hd a (by simpa [Node.arguments] using ha)
    have hoa : ∀ a ∈ args, ∀ y, y.isVar = true → Occurs y a → Occurs y (.add i args) := fun a ha y _ h =>
      .arg (by simpa [Node.arguments] using ha) h
    have key : (∀ᶠ t in 𝓝 (0 : ℝ), ∀ a ∈ args, Defined a (σ.mix τ t)) ∧
        HasDerivAt (fun t => (args.map (val (σ.mix τ t))).sum) ((args.map (dirD σ τ vars)).sum) 0 := by
      have ih' : ∀ a ∈ args, (∀ᶠ t in 𝓝 (0 : ℝ), Defined a (σ.mix τ t)) ∧ HasDerivAt (fun t => val (σ.mix τ t) a) (dirD σ τ vars a) 0 :=
        fun a ha => ih a ha (hargs a ha) fun y hy h => ho y hy (hoa a ha y hy h)
      clear hd ho ih hoa hargs
      induction args with
      | nil => exact ⟨by simp, by simpa using hasDerivAt_const (0 : ℝ) (0 : ℝ)⟩
      | cons a as ih2 =>
        obtain ⟨h1, h2⟩ := ih' a (by simp)
        obtain ⟨h3, h4⟩ := ih2 (fun b hb => ih' b (by simp [hb]))
        refine ⟨?_, ?_⟩
        · filter_upwards [h1, h3] with t ha has
          simpa using ⟨ha, has⟩
        · simp only [List.map_cons, List.sum_cons]
          exact h2.add h4
    have hsum : dirD σ τ vars (.add i args) = (args.map (dirD σ τ vars)).sum := by
      clear ih hd ho hargs key hoa
      have : ∀ args : List (Node (Option ℝ)), (vars.map fun x => numD.numDs σ x args * (numAt τ x - numAt σ x)).sum = (args.map (dirD σ τ vars)).sum := by
        intro args
        induction args with
        | nil => simp [numD.numDs]
        | cons a as ih =>
          rw [List.map_cons, List.sum_cons, ← ih, dirD, ← sum_map_add']
          congr 1
          refine List.map_congr_left fun x _ => ?_
          simp only [numD.numDs]; ring
      exact this args
    rw [hsum]
    refine ⟨key.1.mono fun t ht => (val_add ht).1, ?_⟩
    refine key.2.congr_of_eventuallyEq ?_
    filter_upwards [key.1] with t ht
    exact (val_add ht).2
  | cos i a ih =>
    obtain ⟨h1, h2⟩ := ih (eval_args hd a (by simp [Node.arguments])) fun y hy h => ho y hy (.arg (by simp [Node.arguments]) h)
    have he : ∀ τ : Env (Option ℝ), Defined a τ → (Node.cos i a).evaluate τ = some (Real.cos (val τ a)) := by
      intro τ h; simp only [Node.evaluate]; rw [eval_some_val h]; rfl
    refine ⟨h1.mono fun t ht => ⟨_, he _ ht⟩, ?_⟩
    have h3 := h2.cos
    simp only [hσ] at h3
    rw [← dirD_mul (e := .cos i a) (c := -Real.sin (val σ a)) (fun x => rfl)] at h3
    refine HasDerivAt.congr_of_eventuallyEq (f := fun t => Real.cos (val (σ.mix τ t) a)) h3 ?_
    filter_upwards [h1] with t ht
    exact val_eq (he _ ht)
  | sin i a ih =>
    obtain ⟨h1, h2⟩ := ih (eval_args hd a (by simp [Node.arguments])) fun y hy h => ho y hy (.arg (by simp [Node.arguments]) h)
    have he : ∀ τ : Env (Option ℝ), Defined a τ → (Node.sin i a).evaluate τ = some (Real.sin (val τ a)) := by
      intro τ h; simp only [Node.evaluate]; rw [eval_some_val h]; rfl
    refine ⟨h1.mono fun t ht => ⟨_, he _ ht⟩, ?_⟩
    have h3 := h2.sin
    simp only [hσ] at h3
    rw [← dirD_mul (e := .sin i a) (c := Real.cos (val σ a)) (fun x => rfl)] at h3
    refine HasDerivAt.congr_of_eventuallyEq (f := fun t => Real.sin (val (σ.mix τ t) a)) h3 ?_
    filter_upwards [h1] with t ht
    exact val_eq (he _ ht)
  | mul i a b iha ihb =>
    obtain ⟨h1, h2⟩ := iha (eval_args hd a (by simp [Node.arguments])) fun y hy h => ho y hy (.arg (by simp [Node.arguments]) h)
    obtain ⟨h3, h4⟩ := ihb (eval_args hd b (by simp [Node.arguments])) fun y hy h => ho y hy (.arg (by simp [Node.arguments]) h)
    have he : ∀ τ : Env (Option ℝ), Defined a τ → Defined b τ → (Node.mul i a b).evaluate τ = some (val τ a * val τ b) := by
      intro τ h h'; simp only [Node.evaluate]; rw [eval_some_val h, eval_some_val h']; rfl
    refine ⟨by filter_upwards [h1, h3] with t ha hb using ⟨_, he _ ha hb⟩, ?_⟩
    have h5 := h2.mul h4
    simp only [hσ] at h5
    have h6 : HasDerivAt (fun t => val (σ.mix τ t) a * val (σ.mix τ t) b) (dirD σ τ vars (.mul i a b)) 0 := by
      have h7 : dirD σ τ vars (.mul i a b) = dirD σ τ vars a * val σ b + val σ a * dirD σ τ vars b := by
        rw [dirD_lin (e := .mul i a b) (a := a) (b := b) (fun x => rfl)]; ring
      rw [h7]; exact h5
    refine h6.congr_of_eventuallyEq ?_
    filter_upwards [h1, h3] with t ha hb
    exact val_eq (he _ ha hb)
  | div i a b iha ihb =>
    obtain ⟨h1, h2⟩ := iha (eval_args hd a (by simp [Node.arguments])) fun y hy h => ho y hy (.arg (by simp [Node.arguments]) h)
    obtain ⟨h3, h4⟩ := ihb (eval_args hd b (by simp [Node.arguments])) fun y hy h => ho y hy (.arg (by simp [Node.arguments]) h)
    have hne : val σ b ≠ 0 := eval_div_ne hd
    have h0 : ∀ᶠ t in 𝓝 (0 : ℝ), val (σ.mix τ t) b ≠ 0 := by
      apply h4.continuousAt.eventually_ne
      simpa [hσ] using hne
    have he : ∀ τ : Env (Option ℝ), Defined a τ → Defined b τ → val τ b ≠ 0 →
        (Node.div i a b).evaluate τ = some (val τ a / val τ b) := by
      intro τ h h' hn; simp only [Node.evaluate]; rw [eval_some_val h, eval_some_val h', div_some_ne _ hn]
    refine ⟨by filter_upwards [h1, h3, h0] with t ha hb hc using ⟨_, he _ ha hb hc⟩, ?_⟩
    have h5 := h2.div h4 (by simpa [hσ] using hne)
    simp only [hσ] at h5
    have h6 : HasDerivAt (fun t => val (σ.mix τ t) a / val (σ.mix τ t) b) (dirD σ τ vars (.div i a b)) 0 := by
      have h7 : dirD σ τ vars (.div i a b) = (dirD σ τ vars a * val σ b - val σ a * dirD σ τ vars b) / val σ b ^ 2 := by
        rw [dirD_lin (e := .div i a b) (a := a) (b := b) (fun x => rfl)]; field_simp; ring
      rw [h7]; exact h5
    refine h6.congr_of_eventuallyEq ?_
    filter_upwards [h1, h3, h0] with t ha hb hc
    exact val_eq (he _ ha hb hc)

/-- The function has derivatives by the variables at `σ`, and along the segment the derivative that the chain rule says. -/
structure Chain (σ τ : Env (Option ℝ)) (vars : List (Node (Option ℝ))) (g : Env (Option ℝ) → Option ℝ) (D : Node (Option ℝ) → ℝ) : Prop where
  defV : ∀ x ∈ vars, ∀ᶠ t in 𝓝 (numAt σ x), ∃ v, g (σ.set x.id (some t)) = some v
  derV : ∀ x ∈ vars, HasDerivAt (alongVar g x σ) (D x) (numAt σ x)
  defS : ∀ᶠ t in 𝓝 (0 : ℝ), ∃ v, g (σ.mix τ t) = some v
  derS : HasDerivAt (alongSeg g σ τ) ((vars.map fun x => D x * (numAt τ x - numAt σ x)).sum) 0

variable {vars : List (Node (Option ℝ))}

theorem Chain.sub {g g' : Env (Option ℝ) → Option ℝ} {D D' : Node (Option ℝ) → ℝ} (h : Chain σ τ vars g D) (h' : Chain σ τ vars g' D') :
    Chain σ τ vars (fun ρ => g ρ -. g' ρ) (fun x => D x - D' x) where
  defV x hx := by
    filter_upwards [h.defV x hx, h'.defV x hx] with t ⟨v, hv⟩ ⟨w, hw⟩
    exact ⟨v - w, by rw [hv, hw]; rfl⟩
  derV x hx := by
    refine ((h.derV x hx).sub (h'.derV x hx)).congr_of_eventuallyEq ?_
    filter_upwards [h.defV x hx, h'.defV x hx] with t ⟨v, hv⟩ ⟨w, hw⟩
    simp only [alongVar, Pi.sub_apply, hv, hw]; rfl
  defS := by
    filter_upwards [h.defS, h'.defS] with t ⟨v, hv⟩ ⟨w, hw⟩
    exact ⟨v - w, by rw [hv, hw]; rfl⟩
  derS := by
    have e1 : (vars.map fun x => (D x - D' x) * (numAt τ x - numAt σ x)).sum =
        (vars.map fun x => D x * (numAt τ x - numAt σ x)).sum - (vars.map fun x => D' x * (numAt τ x - numAt σ x)).sum := by
      rw [show (fun x => (D x - D' x) * (numAt τ x - numAt σ x)) =
        fun x => 1 * (D x * (numAt τ x - numAt σ x)) + (-1) * (D' x * (numAt τ x - numAt σ x)) by funext x; ring, sum_map_lin]
      ring
    rw [e1]
    refine (h.derS.sub h'.derS).congr_of_eventuallyEq ?_
    filter_upwards [h.defS, h'.defS] with t ⟨v, hv⟩ ⟨w, hw⟩
    simp only [alongSeg, Pi.sub_apply, hv, hw]; rfl

theorem Chain.zero : Chain σ τ vars (fun _ => some 0) (fun _ => 0) where
  defV x hx := Eventually.of_forall fun t => ⟨0, rfl⟩
  derV x hx := hasDerivAt_const _ _
  defS := Eventually.of_forall fun t => ⟨0, rfl⟩
  derS := by
    have : (vars.map fun x => (0 : ℝ) * (numAt τ x - numAt σ x)).sum = 0 := by simp
    rw [this]
    exact hasDerivAt_const _ _

theorem Chain.congr {g g' : Env (Option ℝ) → Option ℝ} {D : Node (Option ℝ) → ℝ} (h : Chain σ τ vars g D) (hg : g = g') : Chain σ τ vars g' D :=
  hg ▸ h

theorem Chain.node (hv : ∀ x ∈ vars, x.isVar = true) (hn : (vars.map Node.id).Nodup)
    (hσ : ∀ x ∈ vars, ∃ a, σ x.id = some (some a)) {e : Node (Option ℝ)} (hd : Defined e σ)
    (ho : ∀ y, y.isVar = true → Occurs y e → (∃ x ∈ vars, x.id = y.id) ∧ ∃ a b, σ y.id = some (some a) ∧ τ y.id = some (some b)) :
    Chain σ τ vars (fun ρ => e.evaluate ρ) (fun x => numD σ x e) where
  defV x hx := by
    obtain ⟨a, ha⟩ := hσ x hx
    have : numAt σ x = a := by simp [numAt, ha]
    rw [this]
    exact (numD_hasDerivAt (hv x hx) ha e hd).1
  derV x hx := by
    obtain ⟨a, ha⟩ := hσ x hx
    have : numAt σ x = a := by simp [numAt, ha]
    rw [this]
    exact (numD_hasDerivAt (hv x hx) ha e hd).2
  defS := (dirD_hasDerivAt hv hn e hd ho).1
  derS := (dirD_hasDerivAt hv hn e hd ho).2

/-- A convex function lies above its tangent. -/
theorem Chain.above {g : Env (Option ℝ) → Option ℝ} {D : Node (Option ℝ) → ℝ} (h : Chain σ τ vars g D) (hc : ConvexBetween g σ τ) {a b : ℝ}
    (ha : g σ = some a) (hb : g (σ.mix τ 1) = some b) : a + (vars.map fun x => D x * (numAt τ x - numAt σ x)).sum ≤ b := by
  have := hc.convex.le_slope_of_hasDerivAt (x := 0) (y := 1) (by simp) (by simp) (by norm_num) h.derS
  simp only [slope, vsub_eq_sub, sub_zero, inv_one, one_smul, alongSeg, Env.mix_zero, ha, hb, Option.getD_some] at this
  linarith

theorem sum_swap {α β : Type} (l : List α) (k : List β) (f : α → β → ℝ) :
    (l.map fun x => (k.map fun y => f x y).sum).sum = (k.map fun y => (l.map fun x => f x y).sum).sum := by
  induction l with
  | nil => simp
  | cons a l ih => simp only [List.map_cons, List.sum_cons, ih, sum_map_add']

theorem sum_nonneg' {α : Type} (l : List α) (f : α → ℝ) (h : ∀ x ∈ l, 0 ≤ f x) : 0 ≤ (l.map f).sum := by
  refine List.sum_nonneg fun y hy => ?_
  obtain ⟨x, hx, rfl⟩ := List.mem_map.1 hy
  exact h x hx

theorem sum_mul_right {α : Type} (l : List α) (f : α → ℝ) (c : ℝ) : (l.map f).sum * c = (l.map fun x => f x * c).sum := by
  induction l with
  | nil => simp
  | cons a l ih => simp only [List.map_cons, List.sum_cons, ← ih]; ring

theorem evaluate_var_num {x : Node (Option ℝ)} (hx : x.isVar = true) {ρ : Env (Option ℝ)} {t : ℝ} (h : x.evaluate ρ = some t) :
    ρ x.id = some (some t) := by
  cases x <;> simp [Node.isVar] at hx
  rename_i i s k
  simp only [Node.evaluate] at h
  change ρ i = _
  cases hρ : ρ i with
  | none => rw [hρ] at h; simp [nan] at h
  | some v => rw [hρ] at h; simp only at h; rw [h]

/-- A point with a certificate is optimal among the assignments towards which the model is convex. -/
theorem Model.KktAt.optimal {mod : Model (Option ℝ)} {y : Constraint (Option ℝ) → ℝ} (hk : mod.KktAt σ y) (hv : ∀ x ∈ vars, mod.HasVar x)
    (hn : (vars.map Node.id).Nodup) (hall : ∀ x, mod.HasVar x → ∃ z ∈ vars, z.id = x.id)
    (hσ : ∀ x, mod.HasVar x → ∃ t : ℝ, x.evaluate σ = some t) {a : ℝ} (ha : mod.minimised σ = some a)
    (hτ : mod.Satisfies τ) (hc : mod.ConvexBetween σ τ) :
    ∃ b, mod.minimised τ = some b ∧ a ≤ b := by
  have hvar : ∀ x ∈ vars, x.isVar = true := fun x hx => (hv x hx).1
  have hnum : ∀ x, mod.HasVar x → ∃ a b, σ x.id = some (some a) ∧ τ x.id = some (some b) := fun x hx => by
    obtain ⟨s, hs⟩ := hσ x hx
    obtain ⟨t, ht⟩ := hτ.numbers x hx
    exact ⟨s, t, evaluate_var_num hx.1 hs, evaluate_var_num hx.1 ht⟩
  have hmix : ∀ x, mod.HasVar x → (σ.mix τ 1) x.id = τ x.id := fun x hx => by
    obtain ⟨a, b, h1, h2⟩ := hnum x hx
    rw [Env.mix_num h1 h2, h2]; simp
  have hnode : ∀ e, Defined e σ → (∀ x, x.isVar = true → Occurs x e → mod.HasVar x) →
      Chain σ τ vars (fun ρ => e.evaluate ρ) (fun x => numD σ x e) ∧ e.evaluate (σ.mix τ 1) = e.evaluate τ := fun e hd ho => by
    refine ⟨Chain.node hvar hn (fun x hx => ?_) hd fun z hz hoz => ⟨hall z (ho z hz hoz), hnum z (ho z hz hoz)⟩,
      evaluate_congr_var e fun x hx hox => hmix x (ho x hx hox)⟩
    obtain ⟨a, b, h1, -⟩ := hnum x (hv x hx)
    exact ⟨a, h1⟩
  -- the objective
  have hobj : (∃ D, Chain σ τ vars mod.minimised D) ∧ mod.minimised (σ.mix τ 1) = mod.minimised τ := by
    cases ho : mod.objective with
    | minimize f =>
      have hg : mod.minimised = fun ρ => f.evaluate ρ := by funext ρ; simp [Model.minimised, ho]
      rw [hg] at ha ⊢
      obtain ⟨h1, h2⟩ := hnode f ⟨a, ha⟩ fun x hx h => ⟨hx, .inl ⟨f, .inl ho, h⟩⟩
      exact ⟨⟨_, h1⟩, h2⟩
    | maximize f =>
      have hg : mod.minimised = fun ρ => FloatOps.neg (f.evaluate ρ) := by funext ρ; simp [Model.minimised, ho]
      have hd : Defined f σ := by
        rw [hg] at ha
        simp only at ha
        cases hf : f.evaluate σ with
        | none => rw [hf] at ha; simp at ha
        | some v => exact ⟨v, hf⟩
      obtain ⟨h1, h2⟩ := hnode f hd fun x hx h => ⟨hx, .inl ⟨f, .inr ho, h⟩⟩
      refine ⟨⟨_, (Chain.zero.sub h1).congr ?_⟩, ?_⟩
      · rw [hg]
        funext ρ
        cases f.evaluate ρ <;> simp
      · rw [hg]; simp only [h2]
    | empty =>
      have hg : mod.minimised = fun _ => some 0 := by funext ρ; simp [Model.minimised, ho]
      rw [hg]
      exact ⟨⟨_, Chain.zero⟩, rfl⟩
  obtain ⟨⟨D0, hD0⟩, hm⟩ := hobj
  obtain ⟨b, hb⟩ := hc.objective.value 1 (by simp)
  refine ⟨b, by rw [← hm, hb], ?_⟩
  have habove := hD0.above hc.objective ha hb
  -- the constraints
  have hcon : ∀ c ∈ mod.constraints, Chain σ τ vars (fun ρ => c.lhs.evaluate ρ -. c.rhs.evaluate ρ) (fun x => numD σ x c.lhs - numD σ x c.rhs) ∧
      0 ≤ c.kind.sign * y c * (vars.map fun x => (numD σ x c.lhs - numD σ x c.rhs) * (numAt τ x - numAt σ x)).sum := by
    intro c hcm
    obtain ⟨l1, r1, hl1, hr1, hrel1⟩ := hk.holds c hcm
    obtain ⟨l2, r2, hl2, hr2, hrel2⟩ := hτ.holds c hcm
    obtain ⟨hL, hL'⟩ := hnode c.lhs ⟨l1, hl1⟩ fun x hx h => ⟨hx, .inr ⟨c, hcm, .inl h⟩⟩
    obtain ⟨hR, hR'⟩ := hnode c.rhs ⟨r1, hr1⟩ fun x hx h => ⟨hx, .inr ⟨c, hcm, .inr h⟩⟩
    refine ⟨hL.sub hR, ?_⟩
    have up : c.kind ≠ .greaterEqual → (vars.map fun x => (numD σ x c.lhs - numD σ x c.rhs) * (numAt τ x - numAt σ x)).sum ≤
        (l2 - r2) - (l1 - r1) := fun hkd => by
      have := (hL.sub hR).above (hc.upper c hcm hkd) (a := l1 - r1) (b := l2 - r2) (by rw [hl1, hr1]; rfl) (by rw [hL', hR', hl2, hr2]; rfl)
      linarith
    have lo : c.kind ≠ .lessEqual → (l2 - r2) - (l1 - r1) ≤
        (vars.map fun x => (numD σ x c.lhs - numD σ x c.rhs) * (numAt τ x - numAt σ x)).sum := fun hkd => by
      have := (hR.sub hL).above (hc.lower c hcm hkd) (a := r1 - l1) (b := r2 - l2) (by rw [hl1, hr1]; rfl) (by rw [hL', hR', hl2, hr2]; rfl)
      have e1 : (vars.map fun x => (numD σ x c.rhs - numD σ x c.lhs) * (numAt τ x - numAt σ x)).sum =
          - (vars.map fun x => (numD σ x c.lhs - numD σ x c.rhs) * (numAt τ x - numAt σ x)).sum := by
        rw [← neg_one_mul, mul_comm, sum_mul_right]
        congr 1
        refine List.map_congr_left fun x _ => by ring
      linarith
    have hcs := fun hkd => hk.complementary c hcm hkd l1 r1 hl1 hr1
    have hnn := fun hkd => hk.nonneg c hcm hkd
    generalize (vars.map fun x => (numD σ x c.lhs - numD σ x c.rhs) * (numAt τ x - numAt σ x)).sum = S at up lo ⊢
    cases hkd : c.kind with
    | equal =>
      have h1 := up (by simp [hkd])
      have h2 := lo (by simp [hkd])
      simp only [CKind.Rel, hkd] at hrel1 hrel2
      have : S = 0 := by linarith
      rw [this]; simp
    | lessEqual =>
      have h1 := up (by simp [hkd])
      have h2 := hcs (by simp [hkd])
      have h3 := hnn (by simp [hkd])
      simp only [CKind.Rel, hkd] at hrel1 hrel2
      simp only [CKind.sign]
      nlinarith [mul_le_mul_of_nonneg_left h1 h3, mul_nonneg h3 (sub_nonneg.2 hrel2)]
    | greaterEqual =>
      have h1 := lo (by simp [hkd])
      have h2 := hcs (by simp [hkd])
      have h3 := hnn (by simp [hkd])
      simp only [CKind.Rel, hkd] at hrel1 hrel2
      simp only [CKind.sign]
      nlinarith [mul_le_mul_of_nonneg_left h1 h3, mul_nonneg h3 (sub_nonneg.2 hrel2)]
  have hst : ∀ x ∈ vars, D0 x = (mod.constraints.map fun c => c.kind.sign * y c * (numD σ x c.lhs - numD σ x c.rhs)).sum := by
    intro x hx
    obtain ⟨t, ht⟩ := hσ x (hv x hx)
    obtain ⟨g0, g, h1, h2, h3⟩ := hk.stationary x (hv x hx) t ht
    have hnt : numAt σ x = t := by simp [numAt, evaluate_var_num (hvar x hx) ht]
    have e0 := hD0.derV x hx
    rw [hnt] at e0
    rw [e0.unique h1, h3]
    congr 1
    refine List.map_congr_left fun c hcm => ?_
    have e1 := (hcon c hcm).1.derV x hx
    rw [hnt] at e1
    rw [e1.unique (h2 c hcm)]
  have hsum : (vars.map fun x => D0 x * (numAt τ x - numAt σ x)).sum =
      (mod.constraints.map fun c => c.kind.sign * y c * (vars.map fun x => (numD σ x c.lhs - numD σ x c.rhs) * (numAt τ x - numAt σ x)).sum).sum := by
    have e1 : (vars.map fun x => D0 x * (numAt τ x - numAt σ x)) = vars.map fun x => (mod.constraints.map fun c =>
        c.kind.sign * y c * (numD σ x c.lhs - numD σ x c.rhs) * (numAt τ x - numAt σ x)).sum := by
      refine List.map_congr_left fun x hx => ?_
      rw [hst x hx, sum_mul_right]
    rw [e1, sum_swap]
    congr 1
    refine List.map_congr_left fun c _ => ?_
    rw [mul_comm (c.kind.sign * y c), sum_mul_right]
    congr 1
    refine List.map_congr_left fun x _ => by ring
  have := sum_nonneg' _ _ fun c hcm => (hcon c hcm).2
  rw [← hsum] at this
  linarith

end

section
variable {n m : Nat}

theorem evaluate_of_num {x : Node (Option ℝ)} (hx : x.isVar = true) {ρ : Env (Option ℝ)} {t : ℝ} (h : ρ x.id = some (some t)) :
    x.evaluate ρ = some t := by
  cases x <;> simp [Node.isVar] at hx
  rename_i i s k
  change ρ i = _ at h
  simp only [Node.evaluate, h]

/-- An affine function on a segment. -/
theorem lin_mix {σ τ : Env (Option ℝ)} {es : List (Node (Option ℝ) × Option ℝ)} (hv : ∀ p ∈ es, p.1.isVar = true)
    (hn : ∀ p ∈ es, ∃ a b, σ p.1.id = some (some a) ∧ τ p.1.id = some (some b)) {w : ℝ} (hw : lin σ es = some w) :
    ∃ d, ∀ t, lin (σ.mix τ t) es = some (w + t * d) := by
  induction es generalizing w with
  | nil => exact ⟨0, fun t => by simpa [lin] using hw⟩
  | cons p es ih =>
    obtain ⟨w1, w2, h1, h2, rfl⟩ := add_eq_some.1 (show (p.2 *. p.1.evaluate σ) +. lin σ es = some w from hw)
    obtain ⟨d, hd⟩ := ih (fun q hq => hv q (by simp [hq])) (fun q hq => hn q (by simp [hq])) h2
    obtain ⟨c, v, hc, hv', rfl⟩ := mul_eq_some.1 h1
    obtain ⟨a, b, ha, hb⟩ := hn p (by simp)
    have hpa : v = a := by
      have := evaluate_var_num (hv p (by simp)) hv'
      rw [ha] at this
      simpa using this.symm
    subst hpa
    refine ⟨c * (b - v) + d, fun t => ?_⟩
    have hm : p.1.evaluate (σ.mix τ t) = some (v + t * (b - v)) := evaluate_of_num (hv p (by simp)) (Env.mix_num ha hb t)
    change (p.2 *. p.1.evaluate (σ.mix τ t)) +. lin (σ.mix τ t) es = _
    rw [hm, hd, hc, mul_some, add_some]
    congr 1; ring

/-- A function that is affine on a segment is convex there. -/
theorem convexBetween_affine {g : Env (Option ℝ) → Option ℝ} {σ τ : Env (Option ℝ)} {w d : ℝ}
    (h : ∀ t, g (σ.mix τ t) = some (w + t * d)) : ConvexBetween g σ τ := by
  refine ⟨fun t _ => ⟨_, h t⟩, convex_Icc _ _, fun x _ y _ a b _ _ hab => le_of_eq ?_⟩
  simp only [alongSeg, h, Option.getD_some, smul_eq_mul]
  have : w = a * w + b * w := by rw [← add_mul, hab, one_mul]
  linear_combination this

theorem affine_mix {l : Level} (hl : l ≠ .raw) {h : Heap (Option ℝ)} {σ τ : Env (Option ℝ)} {e : Node (Option ℝ)} (hg : Good l h e)
    (ha : Aff e) (hn : ∀ x, x.isVar = true → Occurs x e → ∃ a b, σ x.id = some (some a) ∧ τ x.id = some (some b)) {w : ℝ}
    (hw : e.evaluate σ = some w) : ∃ d, ∀ t, e.evaluate (σ.mix τ t) = some (w + t * d) := by
  obtain ⟨-, hk, -⟩ := stdProperties_keys e
  have hk' : ∀ p ∈ e.stdProperties.a, p.1.isVar = true ∧ Occurs p.1 e := fun p hp => hk p.1 (List.mem_map.2 ⟨p, hp, rfl⟩)
  rw [affine_val hl σ e hg ha] at hw
  obtain ⟨w1, b, h1, h2, rfl⟩ := add_eq_some.1 hw
  obtain ⟨d, hd⟩ := lin_mix (τ := τ) (fun p hp => (hk' p hp).1) (fun p hp => hn _ (hk' p hp).1 (hk' p hp).2) h1
  refine ⟨d, fun t => ?_⟩
  rw [affine_val hl _ e hg ha, hd, h2, add_some]
  congr 1; ring

/-- Linear models are convex between any two assignments of numbers. -/
theorem SpFacts.linear_convex {H : HashOrder} {lv : Level} {h : Heap (Option ℝ)} {mod : Model (Option ℝ)} {comp : ModelComp (Option ℝ)}
    {e : Node (Option ℝ)} {ps : List (Piece (Option ℝ))} {cols : List (Node (Option ℝ))} {xes ves} {sp : StdProb (Option ℝ)}
    (hf : SpFacts H lv h n m mod comp e ps cols xes ves sp) (hlv : lv ≠ .raw)
    (hlin : (∃ q, sp.prob = .lp q) ∨ ∃ q, sp.prob = .milp q) {σ τ : Env (Option ℝ)}
    (hnum : ∀ x, mod.HasVar x → ∃ a b, σ x.id = some (some a) ∧ τ x.id = some (some b))
    (hres : ∀ c ∈ mod.constraints, ∃ d, c.residual σ = some d) (hobj : ∃ v, mod.minimised σ = some v) :
    mod.ConvexBetween σ τ := by
  have haf : comp.obj.prop.affine = true ∧ comp.constr.f = [] := by
    rcases hf.life with ⟨hh, -⟩ | ⟨-, hh, -⟩
    · exact hh
    · rcases hlin with ⟨q, hq⟩ | ⟨q, hq⟩ <;> rw [hq] at hh <;> simp at hh
  have hcon : ∀ c ∈ mod.constraints, ∃ w d, ∀ t, c.residual (σ.mix τ t) = some (w + t * d) := by
    intro c hc
    obtain ⟨p, hpm, rfl⟩ := List.mem_map.1 (hf.mf.cs ▸ hc)
    obtain ⟨n', m', -, -, hok⟩ := hf.mf.piece hpm
    obtain ⟨j, hj⟩ := hok.exp
    have hexp : ∀ ρ, p.exp.evaluate ρ = p.c.residual ρ := fun ρ => subN_val hj ρ
    have haff : Aff p.exp := by
      have h1 := hok.affine
      rw [hok.prop.2] at h1
      have h2 : p.isNl = false := by
        rw [← Bool.not_eq_true]
        intro hnl
        have h3 := hf.mf.f_eq
        rw [haf.2] at h3
        have h4 : p ∈ ps.filter Piece.isNl := List.mem_filter.2 ⟨hpm, hnl⟩
        rw [List.map_eq_nil_iff.1 h3.symm] at h4
        simp at h4
      unfold Aff
      rw [h1, h2]; rfl
    obtain ⟨a, ha⟩ := hres p.c hc
    obtain ⟨d, hd'⟩ := affine_mix hlv (τ := τ) hok.goodExp haff (fun x hx ho => hnum x (hf.mf.pieceVar hpm hx ho)) (w := a)
      (by rw [hexp, ha])
    exact ⟨a, d, fun t => by rw [← hexp, hd' t]⟩
  refine ⟨?_, fun c hc _ => ?_, fun c hc _ => ?_⟩
  · obtain ⟨v, hv⟩ := hobj
    have haff : Aff e := by unfold Aff; rw [← hf.mf.objProp.2]; exact haf.1
    obtain ⟨d, hd'⟩ := affine_mix hlv (τ := τ) hf.mf.goodE haff (fun x hx ho => hnum x (hf.mf.objVar hx ho)) (w := v)
      (by rw [hf.mf.objVal, hv])
    exact convexBetween_affine fun t => by rw [← hf.mf.objVal, hd' t]
  · obtain ⟨w, d, hwd⟩ := hcon c hc
    exact convexBetween_affine hwd
  · obtain ⟨w, d, hwd⟩ := hcon c hc
    refine convexBetween_affine (w := -w) (d := -d) fun t => ?_
    have := hwd t
    unfold Constraint.residual at this
    revert this
    cases c.lhs.evaluate (σ.mix τ t) <;> cases c.rhs.evaluate (σ.mix τ t) <;> simp
    intro h1
    linarith

end

end Verif
