import Verif.Props.ModelStd3
import Verif.Props.Solve

/-! # Counterexamples to C15, C16 and C28 without their restriction: the quotient of a node by itself -/

namespace Verif

open Exact

/-- The expression `x / x`. -/
def exSelf : List (Op Q) := [.var "x" .continuous, .div 0 0]

/-- The model `minimize x / x`. -/
def exSelfM : List (Cmd Q) := [.expr (.var "x" .continuous), .expr (.div 0 0), .minimize 1]

theorem exSelf_value {t : ℚ} (ht : t ≠ 0) : ((regsOf exSelf)[1]!).evaluate (fun _ => some (some t)) = some 1 := by
  have h : (regsOf exSelf)[1]! = .div 1 (.var 0 "x" .continuous) (.var 0 "x" .continuous) := by decide +kernel
  rw [h]
  simp [Node.evaluate, div_some_ne _ ht, div_self ht]

/-- C15 and C16 without their restriction are false: `x / x` is 1 at every non-zero point, but at 1 its gradient entry has the value 2. -/
theorem C15_counterexample : ReachableApi HashOrder.listOrder (regsOf exSelf) (countOf exSelf) ∧ (regsOf exSelf)[1]! ∈ regsOf exSelf ∧
    (∀ t : ℚ, t ≠ 0 → ((regsOf exSelf)[1]!).evaluate (fun _ => some (some t)) = some 1) ∧
    ∃ c m, ((regsOf exSelf)[1]!).stdComponents HashOrder.listOrder (countOf exSelf) = .ok (c, m) ∧
      c.gphi.map (fun p => p.2.evaluate (fun _ => some (some 1))) = [some 2] := by
  refine ⟨runs_reachableApi (by decide +kernel) (by decide +kernel), get_mem (by decide +kernel), fun t ht => exSelf_value ht, ?_⟩
  have h : (resultOf (((regsOf exSelf)[1]!).stdComponents HashOrder.listOrder) (countOf exSelf)).map
      (fun c => c.gphi.map fun p => p.2.evaluate (fun _ => some (some 1))) = some [some 2] := by decide +kernel
  rw [Option.map_eq_some_iff] at h
  obtain ⟨c, hc, hv⟩ := h
  obtain ⟨m, hm⟩ := of_resultOf hc
  exact ⟨c, m, hm, hv⟩

/-- C16: and its Hessian entry has the value -2. -/
theorem C16_counterexample : ReachableApi HashOrder.listOrder (regsOf exSelf) (countOf exSelf) ∧ (regsOf exSelf)[1]! ∈ regsOf exSelf ∧
    (∀ t : ℚ, t ≠ 0 → ((regsOf exSelf)[1]!).evaluate (fun _ => some (some t)) = some 1) ∧
    ∃ c m, ((regsOf exSelf)[1]!).stdComponents HashOrder.listOrder (countOf exSelf) = .ok (c, m) ∧
      c.hphi.map (fun p => p.2.2.evaluate (fun _ => some (some 1))) = [some (-2)] := by
  refine ⟨runs_reachableApi (by decide +kernel) (by decide +kernel), get_mem (by decide +kernel), fun t ht => exSelf_value ht, ?_⟩
  have h : (resultOf (((regsOf exSelf)[1]!).stdComponents HashOrder.listOrder) (countOf exSelf)).map
      (fun c => c.hphi.map fun p => p.2.2.evaluate (fun _ => some (some 1))) = some [some (-2)] := by decide +kernel
  rw [Option.map_eq_some_iff] at h
  obtain ⟨c, hc, hv⟩ := h
  obtain ⟨m, hm⟩ := of_resultOf hc
  exact ⟨c, m, hm, hv⟩

/-- C28 without its restriction is false: the objective of `minimize x / x` is 1 at every non-zero point, but evaluating the standard
problem at 1 gives the gradient 2 and the Hessian -2. -/
theorem C28_counterexample : ReachableApiW HashOrder.listOrder (worldOf exSelfM) (wcount exSelfM) ∧
    (∀ t : ℚ, t ≠ 0 → (worldOf exSelfM).m.minimised (fun _ => some (some t)) = some 1) ∧
    ∃ sp m, (worldOf exSelfM).m.stdProblem HashOrder.listOrder (wcount exSelfM) = .ok (sp, m) ∧
      (∃ q, sp.prob = .nlp q) ∧ ∀ q ∈ sp.prob.views, ∃ r, q.evaluate [some 1] = .ok r ∧
        r.buf.gphi = [some 2] ∧ r.buf.hphi.triplets = [(0, 0, some (-2))] := by
  refine ⟨runsW_reachable (by decide +kernel) (by decide +kernel), fun t ht => ?_, ?_⟩
  · have h : (worldOf exSelfM).m.objective = .minimize (.div 1 (.var 0 "x" .continuous) (.var 0 "x" .continuous)) := by decide +kernel
    simp [Model.minimised, h, Node.evaluate, div_some_ne _ ht, div_self ht]
  · have h : (resultOf ((worldOf exSelfM).m.stdProblem HashOrder.listOrder) (wcount exSelfM)).map (fun sp =>
        ((match sp.prob with | .nlp _ => true | _ => false), sp.prob.views.all fun q => match q.evaluate [some 1] with
          | .ok r => decide (r.buf.gphi = [some 2] ∧ r.buf.hphi.triplets = [(0, 0, some (-2))])
          | .error _ => false)) = some (true, true) := by decide +kernel
    rw [Option.map_eq_some_iff] at h
    obtain ⟨sp, hsp, hv⟩ := h
    obtain ⟨m, hm⟩ := of_resultOf hsp
    simp only [Prod.mk.injEq, List.all_eq_true] at hv
    refine ⟨sp, m, hm, ?_, fun q hq => ?_⟩
    · cases hp : sp.prob <;> rw [hp] at hv <;> simp at hv ⊢
    · have := hv.2 q hq
      split at this
      · rename_i r hr
        exact ⟨r, hr, by simpa using this⟩
      · simp at this

end Verif
