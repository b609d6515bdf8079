import Verif.Spec.Example
import Verif.Spec.Feasible

/-! # Concrete programs with constraints and models, for the non-vacuity examples -/

namespace Verif

/-- Does the program run without panic? -/
def runsW (cmds : List (Cmd Q)) : Bool :=
  match runCmds HashOrder.listOrder World.start cmds 0 with
  | .ok _ => true
  | .error _ => false

/-- What the program holds at the end. -/
def worldOf (cmds : List (Cmd Q)) : World Q :=
  match runCmds HashOrder.listOrder World.start cmds 0 with
  | .ok r => r.1
  | .error _ => World.start

/-- The number of cells created by the program. -/
def wcount (cmds : List (Cmd Q)) : Nat :=
  match runCmds HashOrder.listOrder World.start cmds 0 with
  | .ok r => r.2
  | .error _ => 0

theorem runsW_reachable {cmds : List (Cmd Q)} (h : runsW cmds = true) (hr : cmds.all (fun o => !o.isRaw) = true) :
    ReachableApiW HashOrder.listOrder (worldOf cmds) (wcount cmds) := by
  refine ⟨cmds, by simpa using hr, ?_⟩
  unfold runsW at h
  unfold worldOf wcount
  revert h
  cases runCmds HashOrder.listOrder World.start cmds 0 <;> simp

deriving instance DecidableEq for Constraint
instance : Inhabited (Constraint Q) := ⟨⟨0, .const 0 none, .equal, .const 0 none, ""⟩⟩

end Verif

namespace Verif

/-- A sufficient check of feasibility for the examples. -/
def feasCheck (q : Minlp Q) (xs : List Q) : Bool :=
  xs.length == q.nx &&
  q.b.zipIdx.all (fun e => e.1.isSome && decide (total ((rowOf q.a.triplets e.2).map fun t => t.2 *. (xs[t.1]?).getD none) = e.1)) &&
  (match q.evaluate xs with
   | .ok q' => q'.buf.f.all fun v => decide (v = some 0)
   | .error _ => false) &&
  xs.zipIdx.all (fun e => match e.1, q.l[e.2]?, q.u[e.2]? with
    | some t, some (some lo), some (some up) => decide (lo ≤ t ∧ t ≤ up)
    | _, _, _ => false) &&
  q.p.zipIdx.all (fun e => !e.1 || match xs[e.2]? with
    | some (some t) => decide (t = (t.num : ℚ))
    | _ => false)

theorem feasCheck_sound {q : Minlp Q} {xs : List Q} (h : feasCheck q xs = true) : q.Feasible xs := by
  simp only [feasCheck, Bool.and_eq_true, beq_iff_eq, List.all_eq_true] at h
  obtain ⟨⟨⟨⟨h1, h2⟩, h3⟩, h4⟩, h5⟩ := h
  refine ⟨h1, fun i v hv => ?_, ?_, fun i x hx => ?_, fun i hi => ?_⟩
  · have := h2 (v, i) (List.mem_zipIdx_iff_getElem?.2 hv)
    simp only [decide_eq_true_eq] at this
    obtain ⟨t, ht⟩ := Option.isSome_iff_exists.1 this.1
    exact ⟨t, ht, by rw [this.2, ht]⟩
  · revert h3
    cases q.evaluate xs with
    | error p => simp
    | ok q' =>
      intro h3
      exact ⟨q', rfl, by simpa using h3⟩
  · have := h4 (x, i) (List.mem_zipIdx_iff_getElem?.2 hx)
    revert this
    simp only
    split
    · rename_i t lo up hx' h2 h3
      intro ht
      simp only [decide_eq_true_eq] at ht
      exact ⟨_, _, _, rfl, h2, h3, ht.1, ht.2⟩
    · simp
  · have := h5 (true, i) (List.mem_zipIdx_iff_getElem?.2 hi)
    revert this
    simp only [Bool.not_true, Bool.false_or]
    split
    · rename_i t ht
      intro h'
      exact ⟨t.num, by rw [ht]; simpa using h'⟩
    · simp

/-- The problem at the start of the list of views of the standard problem of a program. -/
def viewOf (cmds : List (Cmd Q)) : Option (Minlp Q) :=
  (resultOf ((worldOf cmds).m.stdProblem HashOrder.listOrder) (wcount cmds)).bind fun sp => sp.prob.views.head?

theorem viewOf_some {cmds : List (Cmd Q)} {q : Minlp Q} (h : viewOf cmds = some q) :
    ∃ sp m, (worldOf cmds).m.stdProblem HashOrder.listOrder (wcount cmds) = .ok (sp, m) ∧ q ∈ sp.prob.views := by
  unfold viewOf at h
  obtain ⟨sp, hsp, hq⟩ := Option.bind_eq_some_iff.1 h
  obtain ⟨m, hm⟩ := of_resultOf hsp
  exact ⟨sp, m, hm, List.mem_of_head? hq⟩

theorem viewOf_feas {cmds : List (Cmd Q)} {xs : List Q} (h : (viewOf cmds).any (fun q => feasCheck q xs) = true) :
    ∃ sp m q, (worldOf cmds).m.stdProblem HashOrder.listOrder (wcount cmds) = .ok (sp, m) ∧ q ∈ sp.prob.views ∧ q.Feasible xs := by
  cases hq : viewOf cmds with
  | none => rw [hq] at h; cases h
  | some q =>
  rw [hq] at h
  have hc : feasCheck q xs = true := h
  obtain ⟨sp, m, h1, h2⟩ := viewOf_some hq
  exact ⟨sp, m, q, h1, h2, feasCheck_sound hc⟩

end Verif
