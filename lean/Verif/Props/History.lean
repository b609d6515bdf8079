import Verif.Spec.History
import Verif.Props.ModelStd2
import Verif.Props.Solve

/-! # C66 a model holds what the program put into it -/

set_option linter.unusedSectionVars false

namespace Verif

variable {F : Type} [FloatOps F] {H : HashOrder} {W W' : World F} {n m : Nat}

/-- The effect of one call on the model and the handles. -/
theorem Cmd.effect {c : Cmd F} (h : c.exec H W n = .ok (W', m)) :
    (W.regs <+: W'.regs ∧ W.cs <+: W'.cs) ∧
    (c.isNewModel = true → W'.m.constraints = [] ∧ W'.m.objective = .empty) ∧
    (c.isNewModel = false → W'.m.constraints = W.m.constraints ++ c.adds W ∧ W'.m.objective = (c.sets W).getD W.m.objective) := by
  cases c <;> simp only [Cmd.exec] at h
  case cmpNodeNode k i j tag =>
    cases hi : W.regs[i]? <;> cases hj : W.regs[j]? <;> simp only [hi, hj, M.bind_ok, M.pure_ok] at h
    case some.some => obtain ⟨_, _, -, rfl, rfl⟩ := h; simp [Cmd.adds, Cmd.sets, Cmd.isNewModel]
    all_goals (obtain ⟨rfl, rfl⟩ := h; simp [Cmd.adds, Cmd.sets, Cmd.isNewModel])
  case cmpNodeScalar k i v tag =>
    cases hi : W.regs[i]? <;> simp only [hi, M.bind_ok, M.pure_ok] at h
    case some => obtain ⟨_, _, -, rfl, rfl⟩ := h; simp [Cmd.adds, Cmd.sets, Cmd.isNewModel]
    all_goals (obtain ⟨rfl, rfl⟩ := h; simp [Cmd.adds, Cmd.sets, Cmd.isNewModel])
  case cmpScalarNode k v i tag =>
    cases hi : W.regs[i]? <;> simp only [hi, M.bind_ok, M.pure_ok] at h
    case some => obtain ⟨_, _, -, rfl, rfl⟩ := h; simp [Cmd.adds, Cmd.sets, Cmd.isNewModel]
    all_goals (obtain ⟨rfl, rfl⟩ := h; simp [Cmd.adds, Cmd.sets, Cmd.isNewModel])
  case stdComponents i =>
    cases hi : W.regs[i]? <;> simp only [hi, M.bind_ok, M.pure_ok] at h
    case some => obtain ⟨_, _, -, rfl, rfl⟩ := h; simp [Cmd.adds, Cmd.sets, Cmd.isNewModel]
    all_goals (obtain ⟨rfl, rfl⟩ := h; simp [Cmd.adds, Cmd.sets, Cmd.isNewModel])
  case minimize i =>
    cases hi : W.regs[i]? <;> simp only [hi, M.pure_ok] at h <;> obtain ⟨rfl, rfl⟩ := h <;>
      simp [Cmd.adds, Cmd.sets, Cmd.isNewModel, Model.setObjective, hi]
  case maximize i =>
    cases hi : W.regs[i]? <;> simp only [hi, M.pure_ok] at h <;> obtain ⟨rfl, rfl⟩ := h <;>
      simp [Cmd.adds, Cmd.sets, Cmd.isNewModel, Model.setObjective, hi]
  case addConstraint i =>
    cases hi : W.cs[i]? <;> simp only [hi, M.pure_ok] at h <;> obtain ⟨rfl, rfl⟩ := h <;>
      simp [Cmd.adds, Cmd.sets, Cmd.isNewModel, Model.addConstraint, hi]
  case expr op =>
    simp only [M.bind_ok, M.pure_ok] at h
    obtain ⟨_, _, -, rfl, rfl⟩ := h; simp [Cmd.adds, Cmd.sets, Cmd.isNewModel]
  case stdProblem =>
    simp only [M.bind_ok, M.pure_ok] at h
    obtain ⟨_, _, -, rfl, rfl⟩ := h; simp [Cmd.adds, Cmd.sets, Cmd.isNewModel]
  case noObjective =>
    simp only [M.pure_ok] at h; obtain ⟨rfl, rfl⟩ := h; simp [Cmd.adds, Cmd.sets, Cmd.isNewModel, Model.setObjective]
  case newModel =>
    simp only [M.pure_ok] at h; obtain ⟨rfl, rfl⟩ := h; simp [Cmd.isNewModel, Model.new]
  case addConstraints is =>
    simp only [M.pure_ok] at h; obtain ⟨rfl, rfl⟩ := h; simp [Cmd.adds, Cmd.sets, Cmd.isNewModel, Model.addConstraints]
  case setInitPrimals vals =>
    simp only [M.bind_ok, M.pure_ok] at h
    obtain ⟨m1, k2, hset, rfl, rfl⟩ := h
    simp only [Model.setInitPrimals, M.bind_ok, M.pure_ok] at hset
    obtain ⟨es, k3, hit, rfl, rfl⟩ := hset
    simp [Cmd.adds, Cmd.sets, Cmd.isNewModel]
  case solve solver =>
    simp only [M.bind_ok, M.pure_ok] at h
    obtain ⟨⟨r, mod'⟩, k2, hs, rfl, rfl⟩ := h
    obtain ⟨h1, h2, -⟩ := (C30_call hs).1
    simp [Cmd.adds, Cmd.sets, Cmd.isNewModel, h1, h2]

/-- What a sequence of calls that creates no model does to the model. -/
theorem runCmds_effect {pre post : List (Cmd F)} {W0 : World F} {k : Nat} (h0 : runCmds H World.start pre 0 = .ok (W0, k))
    (h1 : runCmds H W0 post k = .ok (W, n)) (hpost : ∀ c ∈ post, c.isNewModel = false) :
    ∃ Ws, Trace H pre post Ws ∧ W.m.constraints = W0.m.constraints ++ (post.zip Ws).flatMap (fun e => e.1.adds e.2) ∧
      W.m.objective = (((post.zip Ws).reverse.findSome? fun e => e.1.sets e.2).getD W0.m.objective) := by
  induction post generalizing pre W0 k with
  | nil =>
    simp only [runCmds, M.pure_ok] at h1
    obtain ⟨rfl, rfl⟩ := h1
    exact ⟨[], ⟨rfl, by simp⟩, by simp, by simp⟩
  | cons c cs ih =>
    simp only [runCmds, M.bind_ok] at h1
    obtain ⟨W1, k1, hc, h1⟩ := h1
    have h0' : runCmds H World.start (pre ++ [c]) 0 = .ok (W1, k1) := by
      rw [runCmds_append]
      refine ⟨W0, k, h0, ?_⟩
      simp only [runCmds, M.bind_ok, M.pure_ok]
      exact ⟨W1, k1, hc, rfl, rfl⟩
    obtain ⟨Ws, ⟨ht1, ht2⟩, hcs, hob⟩ := ih h0' h1 fun c' hc' => hpost c' (by simp [hc'])
    obtain ⟨e1, e2⟩ := (Cmd.effect hc).2.2 (hpost c (by simp))
    refine ⟨W0 :: Ws, ⟨by simp [ht1], fun i Wi hi => ?_⟩, ?_, ?_⟩
    · cases i with
      | zero =>
        simp only [List.getElem?_cons_zero, Option.some.injEq] at hi
        subst hi
        exact ⟨k, by simpa using h0⟩
      | succ i =>
        obtain ⟨k', hk'⟩ := ht2 i Wi (by simpa using hi)
        exact ⟨k', by simpa using hk'⟩
    · rw [hcs, e1]; simp
    · rw [hob, e2]
      simp only [List.zip_cons_cons, List.reverse_cons, List.findSome?_append]
      cases List.findSome? (fun e => e.1.sets e.2) (cs.zip Ws).reverse <;> cases hs : c.sets W0 <;> simp [hs]

/-- C66: the constraints of a model are exactly those that `add_constraint` and `add_constraints` gave it since it was created, in
that order and as often as they were added; its objective is the one set last, and none if none was set. In between, the program may
build expressions and constraints, set initial values, call `std_problem` and solve the model. -/
theorem C66_contents {pre post : List (Cmd F)} (hrun : runCmds H World.start (pre ++ post) 0 = .ok (W, n))
    (hpre : pre = [] ∨ pre.getLast? = some .newModel) (hpost : ∀ c ∈ post, c.isNewModel = false) :
    ∃ Ws, Trace H pre post Ws ∧ W.m.constraints = (post.zip Ws).flatMap (fun e => e.1.adds e.2) ∧
      W.m.objective = (((post.zip Ws).reverse.findSome? fun e => e.1.sets e.2).getD .empty) := by
  rw [runCmds_append] at hrun
  obtain ⟨W0, k, hr0, hr1⟩ := hrun
  have h0 : W0.m.constraints = [] ∧ W0.m.objective = .empty := by
    rcases hpre with rfl | hpre
    · simp only [runCmds, M.pure_ok] at hr0
      rw [hr0.1]; exact ⟨rfl, rfl⟩
    · obtain ⟨pre', rfl⟩ := List.getLast?_eq_some_iff.1 hpre
      rw [runCmds_append] at hr0
      obtain ⟨W1, k1, -, hr0⟩ := hr0
      simp only [runCmds, M.bind_ok, M.pure_ok] at hr0
      obtain ⟨W2, k2, hc, rfl, rfl⟩ := hr0
      exact (Cmd.effect hc).2.1 rfl
  obtain ⟨Ws, h1, h2, h3⟩ := runCmds_effect hr0 hr1 hpost
  exact ⟨Ws, h1, by rw [h2, h0.1, List.nil_append], by rw [h3, h0.2]⟩

theorem prefix_get {α : Type} {l1 l2 : List α} (h : l1 <+: l2) {i : Nat} {a : α} (ha : l1[i]? = some a) : l2[i]? = some a := by
  obtain ⟨t, rfl⟩ := h
  rw [List.getElem?_append_left (List.getElem?_eq_some_iff.1 ha).1, ha]

/-- C66: handles are never changed: an expression or constraint that the program holds stays what it is, whatever is called later. -/
theorem C66_handles {cmds : List (Cmd F)} (h : runCmds H W cmds n = .ok (W', m)) :
    (∀ (i : Nat) e, W.regs[i]? = some e → W'.regs[i]? = some e) ∧ ∀ (i : Nat) c, W.cs[i]? = some c → W'.cs[i]? = some c := by
  have key : W.regs <+: W'.regs ∧ W.cs <+: W'.cs := by
    induction cmds generalizing W n with
    | nil =>
      simp only [runCmds, M.pure_ok] at h
      rw [h.1]; exact ⟨List.prefix_refl _, List.prefix_refl _⟩
    | cons c cs ih =>
      simp only [runCmds, M.bind_ok] at h
      obtain ⟨W1, k, h1, h2⟩ := h
      obtain ⟨a1, a2⟩ := (Cmd.effect h1).1
      obtain ⟨b1, b2⟩ := ih h2
      exact ⟨a1.trans b1, a2.trans b2⟩
  exact ⟨fun i e he => prefix_get key.1 he, fun i c hc => prefix_get key.2 hc⟩

/-- Non-vacuity of C66: a program that creates a second model, adds constraint 1 and then 0 and 1, sets an objective twice and solves. -/
example :
    let pre : List (Cmd Q) := [.expr (.var "x" .continuous), .cmpNodeScalar .lessEqual 0 (some 5) "a",
      .cmpNodeScalar .greaterEqual 0 (some 3) "b", .addConstraint 0, .newModel]
    let post : List (Cmd Q) := [.addConstraint 1, .minimize 0, .addConstraints [0, 1], .stdProblem, .maximize 0]
    (∃ W n, runCmds HashOrder.listOrder World.start (pre ++ post) 0 = .ok (W, n)) ∧
    pre.getLast?.map Cmd.isNewModel = some true ∧ (∀ c ∈ post, c.isNewModel = false) ∧
    (worldOf (pre ++ post)).m.constraints.map (·.label) = ["b", "a", "b"] ∧
    (match (worldOf (pre ++ post)).m.objective with | .maximize f => f.name | _ => "") = "x" := by
  refine ⟨?_, by decide +kernel, by simp [Cmd.isNewModel], by decide +kernel, by decide +kernel⟩
  have h : runsW ([.expr (.var "x" .continuous), .cmpNodeScalar .lessEqual 0 (some 5) "a",
      .cmpNodeScalar .greaterEqual 0 (some 3) "b", .addConstraint 0, .newModel] ++ [.addConstraint 1, .minimize 0,
      .addConstraints [0, 1], .stdProblem, .maximize 0]) = true := by decide +kernel
  unfold runsW at h
  revert h
  cases runCmds HashOrder.listOrder World.start ([.expr (.var "x" .continuous), .cmpNodeScalar .lessEqual 0 (some 5) "a",
      .cmpNodeScalar .greaterEqual 0 (some 3) "b", .addConstraint 0, .newModel] ++ [.addConstraint 1, .minimize 0,
      .addConstraints [0, 1], .stdProblem, .maximize 0] : List (Cmd Q)) 0 with
  | error e => simp
  | ok r => exact fun _ => ⟨r.1, r.2, rfl⟩

end Verif
