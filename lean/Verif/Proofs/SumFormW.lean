import Verif.Proofs.SumForm
import Verif.Proofs.WorldInv
import Verif.Spec.World

/-! # Everything a program holds has flat sums -/

set_option linter.unusedSectionVars false

namespace Verif

variable {F : Type} [FloatOps F] {H : HashOrder}

theorem flat_isVar {x : Node F} (h : x.isVar = true) : FlatSums x := by
  cases x <;> simp [Node.isVar] at h
  exact flat_var _ _ _

/-- Both sides of a constraint. -/
def FlatC (c : Constraint F) : Prop := FlatSums c.lhs ∧ FlatSums c.rhs

/-- The expressions of a program. -/
structure FlatW (W : World F) : Prop where
  regs : ∀ x ∈ W.regs, FlatSums x
  cs : ∀ c ∈ W.cs, FlatC c
  min : ∀ f, W.m.objective = .minimize f → FlatSums f
  max : ∀ f, W.m.objective = .maximize f → FlatSums f
  constr : ∀ c ∈ W.m.constraints, FlatC c

theorem FlatW.addRegs {W : World F} (h : FlatW W) {rs : List (Node F)} (hr : ∀ x ∈ rs, FlatSums x) : FlatW { W with regs := W.regs ++ rs } :=
  ⟨fun x hx => (List.mem_append.1 hx).elim (h.regs x) (hr x), h.cs, h.min, h.max, h.constr⟩

theorem FlatW.addC {W : World F} (h : FlatW W) {c : M (Constraint F)} (hc : Post c FlatC) : Post (M.bind c fun c => M.pure { W with cs := W.cs ++ [c] }) FlatW :=
  hc.bind fun c hc => .pure ⟨h.regs, fun d hd => (List.mem_append.1 hd).elim (h.cs d) (fun hd => by simp at hd; rw [hd]; exact hc), h.min, h.max, h.constr⟩

theorem post_newConstraint {l r : Node F} {k : CKind} {tag : String} (hl : FlatSums l) (hr : FlatSums r) : Post (newConstraint l k r tag) FlatC := by
  intro n c m h
  cases h
  exact ⟨hl, hr⟩

theorem flat_getN {ds : List (Node F × Node F)} {x d : Node F} (h : getN ds x = some d) (hd : ∀ p ∈ ds, FlatSums p.2) : FlatSums d := by
  obtain ⟨y, hy, -⟩ := getN_some_iff h
  exact hd _ hy

theorem flat_stdComponents {e : Node F} (he : FlatSums e) :
    Post (e.stdComponents H) fun c => (∀ p ∈ c.gphi, FlatSums p.2) ∧ ∀ p ∈ c.hphi, FlatSums p.2.2 := by
  intro n c m h
  by_cases ha : Aff e
  · obtain ⟨-, -, h0, es, -, hf⟩ := stdComponents_affine h ha
    rw [h0]
    refine ⟨fun p hp => ?_, by simp⟩
    obtain ⟨kv, -, -, i, hi⟩ := forall₂_right hf hp
    rw [hi]
    exact flat_const _ _
  · obtain ⟨-, -, vars, derivs, k1, k2, -, hd, hl⟩ := stdComponents_nonaffine h ha
    have hds := flat_derivatives he _ _ _ hd
    obtain ⟨-, h1, h2, -⟩ := hessLoop_ok hl
    refine ⟨fun p hp => flat_getN (h1 p hp) hds, fun p hp => ?_⟩
    obtain ⟨-, -, d, dd, vs', k, k', g1, g2, g3⟩ := h2 p hp
    exact flat_getN g3 (flat_derivatives (flat_getN g1 hds) _ _ _ g2)

theorem flat_cmd {W : World F} {n : ℕ} {h0 : Heap F} (hi : WInv .api h0 W n) (hw : FlatW W) {cmd : Cmd F} (hraw : cmd.isRaw = false) {W' : World F} {m : ℕ}
    (h : cmd.exec H W n = .ok (W', m)) : FlatW W' := by
  have hmem : ∀ {i : ℕ} {a : Node F}, W.regs[i]? = some a → FlatSums a := fun h => hw.regs _ (List.mem_of_getElem? h)
  have hself : ∀ {W' m}, (M.pure W : M (World F)) n = .ok (W', m) → FlatW W' := fun h => by rw [M.pure_ok] at h; rw [h.1]; exact hw
  cases cmd with
  | expr op =>
    simp only [Cmd.exec, M.bind_ok, M.pure_ok] at h
    obtain ⟨rs, k, h1, rfl, -⟩ := h
    exact hw.addRegs (flat_exec hw.regs hraw _ _ _ h1)
  | cmpNodeNode k i j tag =>
    simp only [Cmd.exec] at h
    cases ha : W.regs[i]? with
    | none => simp only [ha] at h; exact hself h
    | some a =>
    cases hb : W.regs[j]? with
    | none => simp only [ha, hb] at h; exact hself h
    | some b =>
      simp only [ha, hb] at h
      refine hw.addC ?_ _ _ _ h
      cases k <;> exact post_newConstraint (hmem ha) (hmem hb)
  | cmpNodeScalar k i v tag =>
    simp only [Cmd.exec] at h
    cases ha : W.regs[i]? with
    | none => simp only [ha] at h; exact hself h
    | some a =>
      simp only [ha] at h
      refine hw.addC ?_ _ _ _ h
      cases k <;> exact (post_fconst v).bind fun _ hk => post_newConstraint (hmem ha) hk
  | cmpScalarNode k v i tag =>
    simp only [Cmd.exec] at h
    cases ha : W.regs[i]? with
    | none => simp only [ha] at h; exact hself h
    | some a =>
      simp only [ha] at h
      refine hw.addC ?_ _ _ _ h
      cases k <;> exact (post_fconst v).bind fun _ hk => post_newConstraint hk (hmem ha)
  | newModel =>
    simp only [Cmd.exec, M.pure_ok] at h
    obtain ⟨rfl, -⟩ := h
    exact ⟨hw.regs, hw.cs, by simp [Model.new], by simp [Model.new], by simp [Model.new]⟩
  | minimize i =>
    simp only [Cmd.exec] at h
    cases ha : W.regs[i]? with
    | none => simp only [ha] at h; exact hself h
    | some a =>
      simp only [ha] at h
      simp only [M.pure_ok] at h
      obtain ⟨rfl, -⟩ := h
      exact ⟨hw.regs, hw.cs, fun f hf => by simp [Model.setObjective] at hf; rw [← hf]; exact hmem ha, by simp [Model.setObjective], hw.constr⟩
  | maximize i =>
    simp only [Cmd.exec] at h
    cases ha : W.regs[i]? with
    | none => simp only [ha] at h; exact hself h
    | some a =>
      simp only [ha] at h
      simp only [M.pure_ok] at h
      obtain ⟨rfl, -⟩ := h
      exact ⟨hw.regs, hw.cs, by simp [Model.setObjective], fun f hf => by simp [Model.setObjective] at hf; rw [← hf]; exact hmem ha, hw.constr⟩
  | noObjective =>
    simp only [Cmd.exec, M.pure_ok] at h
    obtain ⟨rfl, -⟩ := h
    exact ⟨hw.regs, hw.cs, by simp [Model.setObjective], by simp [Model.setObjective], hw.constr⟩
  | addConstraint i =>
    simp only [Cmd.exec] at h
    cases hc : W.cs[i]? with
    | none => simp only [hc] at h; exact hself h
    | some c =>
      simp only [hc] at h
      simp only [M.pure_ok] at h
      obtain ⟨rfl, -⟩ := h
      refine ⟨hw.regs, hw.cs, hw.min, hw.max, fun d hd => ?_⟩
      simp only [Model.addConstraint, List.mem_append, List.mem_singleton] at hd
      exact hd.elim (hw.constr d) fun h => h ▸ hw.cs _ (List.mem_of_getElem? hc)
  | addConstraints is =>
    simp only [Cmd.exec, M.pure_ok] at h
    obtain ⟨rfl, -⟩ := h
    refine ⟨hw.regs, hw.cs, hw.min, hw.max, fun d hd => ?_⟩
    simp only [Model.addConstraints, List.mem_append, List.mem_filterMap] at hd
    rcases hd with hd | ⟨i, -, hi⟩
    · exact hw.constr d hd
    · exact hw.cs _ (List.mem_of_getElem? hi)
  | setInitPrimals vals =>
    simp only [Cmd.exec, M.bind_ok, M.pure_ok, Model.setInitPrimals] at h
    obtain ⟨mm, k, ⟨es, k2, -, rfl, -⟩, rfl, -⟩ := h
    exact ⟨hw.regs, hw.cs, hw.min, hw.max, hw.constr⟩
  | solve solver =>
    simp only [Cmd.exec, M.bind_ok, M.pure_ok] at h
    obtain ⟨r, k, hs, rfl, -⟩ := h
    obtain ⟨sp, k0, hsp, -, hres⟩ := solve_ok hs
    obtain ⟨h1, -, -, -, k', comp, e, ps, cols, xes, ves, hf, -⟩ := spec_stdProblem (H := H) hi.heap hi.model hi.initNd sp _ hsp
    rcases hres with ⟨_, -, rfl⟩ | ⟨st, sol, primals, duals, -, ⟨ves', as, js, us, ls, d1, d2, d3, p1, p2, p3, p4, p5, hp, _⟩, rfl⟩
    · exact ⟨by simpa [Model.cleared] using hw.regs, hw.cs, hw.min, hw.max, hw.constr⟩
    · refine ⟨?_, hw.cs, hw.min, hw.max, hw.constr⟩
      refine (hw.addRegs (rs := primals.map Prod.fst) fun x hx' => ?_).regs
      rw [hf.v2i] at p1
      have hnd : NodupP (keysN ves') := by
        refine NodupP.perm ?_ (p1.map Prod.fst).symm
        rw [List.zipIdx_map_fst]
        exact hf.cok.nodup
      obtain ⟨q, hq, rfl⟩ := List.mem_map.1 hx'
      obtain ⟨e', he', hr⟩ := forall₂_right (foldR_primals hnd hp) hq
      have hmem := p1.mem_iff.1 he'
      rw [List.mem_zipIdx_iff_getElem?] at hmem
      rw [hr.1]
      exact flat_isVar (hf.cok.var _ (List.mem_of_getElem? hmem))
  | stdProblem =>
    simp only [Cmd.exec, M.bind_ok, M.pure_ok] at h
    obtain ⟨sp, k, hsp, rfl, -⟩ := h
    obtain ⟨h1, -, -, -, k', comp, e, ps, cols, xes, ves, hf, -⟩ := spec_stdProblem (H := H) hi.heap hi.model hi.initNd sp _ hsp
    refine hw.addRegs fun x hx => ?_
    rw [hf.v2i, List.zipIdx_map_fst] at hx
    exact flat_isVar (hf.cok.var x hx)
  | stdComponents i =>
    simp only [Cmd.exec] at h
    cases ha : W.regs[i]? with
    | none => simp only [ha] at h; exact hself h
    | some a =>
      simp only [ha] at h
      simp only [M.bind_ok, M.pure_ok] at h
      obtain ⟨c, k, h1, rfl, -⟩ := h
      obtain ⟨g1, g2⟩ := flat_stdComponents (hmem ha) _ _ _ h1
      refine hw.addRegs fun x hx => ?_
      rcases List.mem_append.1 hx with hx | hx
      · obtain ⟨q, hq, rfl⟩ := List.mem_map.1 hx
        exact g1 q hq
      · obtain ⟨q, hq, rfl⟩ := List.mem_map.1 hx
        exact g2 q hq

theorem flat_runCmds {cmds : List (Cmd F)} : ∀ {W W' : World F} {n m : ℕ} {h : Heap F}, WInv .api h W n → FlatW W → (∀ c ∈ cmds, c.isRaw = false) →
    runCmds H W cmds n = .ok (W', m) → FlatW W' := by
  induction cmds with
  | nil => intro W W' n m h _ hw _ hr; simp only [runCmds, M.pure_ok] at hr; rw [hr.1]; exact hw
  | cons c cs ih =>
    intro W W' n m h hi hw hraw hr
    simp only [runCmds, M.bind_ok] at hr
    obtain ⟨W1, k, h1, h2⟩ := hr
    have hc := hraw c (by simp)
    obtain ⟨h', -, -, -, hi'⟩ := spec_cmd (H := H) hi (cmd := c) (.inr ⟨rfl, hc⟩) W1 k h1
    exact ih hi' (flat_cmd hi hw hc h1) (fun c hc => hraw c (by simp [hc])) h2

theorem ReachableApiW.flat {W : World F} {n : ℕ} (hr : ReachableApiW H W n) : FlatW W := by
  obtain ⟨cmds, hraw, h⟩ := hr
  exact flat_runCmds WInv.start ⟨by simp [World.start], by simp [World.start], by simp [World.start, Model.new], by simp [World.start, Model.new],
    by simp [World.start, Model.new]⟩ hraw h

end Verif
