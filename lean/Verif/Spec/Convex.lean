import Verif.Spec.Kkt

/-! # Convex models -/

namespace Verif

/-- The assignment at the fraction `t` of the way from `σ` to `τ`, for the variables to which both give numbers. -/
noncomputable def Env.mix (σ τ : Env (Option ℝ)) (t : ℝ) : Env (Option ℝ) := fun k =>
  match σ k, τ k with
  | some (some a), some (some b) => some (some (a + t * (b - a)))
  | s, _ => s

/-- A function of assignments as a real function on the segment from `σ` to `τ` (0 where it has no value). -/
noncomputable def alongSeg (g : Env (Option ℝ) → Option ℝ) (σ τ : Env (Option ℝ)) (t : ℝ) : ℝ := (g (σ.mix τ t)).getD 0

/-- The function has values on the segment from `σ` to `τ` and is convex there. -/
structure ConvexBetween (g : Env (Option ℝ) → Option ℝ) (σ τ : Env (Option ℝ)) : Prop where
  value : ∀ t ∈ Set.Icc (0 : ℝ) 1, ∃ v, g (σ.mix τ t) = some v
  convex : ConvexOn ℝ (Set.Icc 0 1) (alongSeg g σ τ)

/-- Between `σ` and `τ` the model is convex: what is minimised and `lhs - rhs` of `<=` are convex, of `>=` concave, of `==` both. -/
structure Model.ConvexBetween (mod : Model (Option ℝ)) (σ τ : Env (Option ℝ)) : Prop where
  objective : Verif.ConvexBetween mod.minimised σ τ
  upper : ∀ c ∈ mod.constraints, c.kind ≠ .greaterEqual → Verif.ConvexBetween (fun ρ => c.lhs.evaluate ρ -. c.rhs.evaluate ρ) σ τ
  lower : ∀ c ∈ mod.constraints, c.kind ≠ .lessEqual → Verif.ConvexBetween (fun ρ => c.rhs.evaluate ρ -. c.lhs.evaluate ρ) σ τ

/-- `τ` gives a number to every variable of the model and satisfies every constraint. -/
structure Model.Satisfies (mod : Model (Option ℝ)) (τ : Env (Option ℝ)) : Prop where
  numbers : ∀ x, mod.HasVar x → ∃ t : ℝ, x.evaluate τ = some t
  holds : ∀ c ∈ mod.constraints, c.Holds τ

end Verif
