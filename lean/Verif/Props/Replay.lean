import Verif.Proofs.Replay
import Verif.Props.Repro
import Verif.Code.ModelPrint
import Verif.Spec.ExampleW

/-! # Property C99: the same program next to other work gives the same results -/

namespace Verif

set_option linter.unusedSectionVars false
set_option linter.unusedSimpArgs false

variable {F : Type} [FloatOps F] {W W' : World F} {n n' : Nat} {f g : Nat → Nat} {H H' : HashOrder}

/-- C99, calls: if both worlds make the same call, both panic with the same panic, or both return, and the worlds after the call
correspond again. -/
theorem C99_call (h : Replay W n W' n' f g) (hN : H.Positional) (hO : SameOrders H H' n n') (c : Cmd F) :
    match c.exec H W n with
    | .ok (W1, n1) => ∃ W1' n1', (c.move f g).exec H' W' n' = .ok (W1', n1') ∧ Replay W1 n1 W1' n1' f g ∧ SameOrders H H' n1 n1'
    | .error p => (c.move f g).exec H' W' n' = .error p := by
  obtain ⟨ρ, hi⟩ := h.inv
  have h1 := hi.step hN hO c
  cases hx : c.exec H W n with
  | error p => rw [hx] at h1; exact h1
  | ok r =>
    obtain ⟨W1, n1⟩ := r
    rw [hx] at h1
    obtain ⟨W1', n1', h2, -, h3⟩ := h1
    exact ⟨W1', n1', h2, h.both hN hO hx h2, h3⟩

/-- C99, programs: the same with a sequence of calls. -/
theorem C99_program (h : Replay W n W' n' f g) (hN : H.Positional) (hO : SameOrders H H' n n') (cmds : List (Cmd F)) :
    match runCmds H W cmds n with
    | .ok (W1, n1) => ∃ W1' n1', runCmds H' W' (cmds.map (·.move f g)) n' = .ok (W1', n1') ∧ Replay W1 n1 W1' n1' f g ∧ SameOrders H H' n1 n1'
    | .error p => runCmds H' W' (cmds.map (·.move f g)) n' = .error p := by
  induction cmds generalizing W W' n n' with
  | nil => exact ⟨W', n', rfl, h, hO⟩
  | cons c cmds ih =>
    have h1 := C99_call h hN hO c
    simp only [runCmds, List.map_cons, M.bind]
    cases hx : c.exec H W n with
    | error p => rw [hx] at h1; simp only at h1 ⊢; simp only [h1]
    | ok r =>
      obtain ⟨W1, n1⟩ := r
      rw [hx] at h1
      obtain ⟨W1', n1', h2, h3, h4⟩ := h1
      simp only [h2]
      exact ih h3 h4

/-- C99, handles: the corresponding handle exists, is of the same kind, has the same name and the same printed text, and `std_properties`
gives the same answer: the same flag, constant, and coefficients of corresponding variables. -/
theorem C99_handles (h : Replay W n W' n' f g) {i : Nat} {a : Node F} (ha : W.regs[i]? = some a) :
    ∃ a', W'.regs[f i]? = some a' ∧ a'.tag = a.tag ∧ a'.name = a.name ∧ a'.isInteger = a.isInteger ∧
      (∀ fmt, a'.print fmt = a.print fmt) ∧ a'.stdProperties.affine = a.stdProperties.affine ∧ a'.stdProperties.b = a.stdProperties.b ∧
      ∀ j x x', W.regs[j]? = some x → W'.regs[f j]? = some x' → getN a'.stdProperties.a x' = getN a.stdProperties.a x := by
  obtain ⟨ρ, hi⟩ := h.inv
  have h1 := hi.rel.regs.get i
  rw [ha] at h1
  refine ⟨_, h1, ren_tag a, ren_name a, ren_isInteger a, fun fmt => ren_print fmt a, ?_, ?_, fun j x x' hx hx' => ?_⟩
  · rw [ren_stdProperties hi.inj]; rfl
  · rw [ren_stdProperties hi.inj]; rfl
  · rw [hi.rel.regs.get, hx] at hx'
    obtain rfl := Option.some.inj hx'
    rw [ren_stdProperties hi.inj]
    have := ren_getN hi.inj id a.stdProperties.a x
    simpa [Prop'.ren] using this

/-- C99, values: for every assignment of values in one world there is one in the other world such that corresponding handles
(those of variables too) have the same values, and corresponding constraints the same violation. -/
theorem C99_values (h : Replay W n W' n' f g) :
    (∀ σ' : Env F, ∃ σ : Env F, (∀ i a a', W.regs[i]? = some a → W'.regs[f i]? = some a' → a'.evaluate σ' = a.evaluate σ) ∧
      ∀ i c c', W.cs[i]? = some c → W'.cs[g i]? = some c' → c'.violation σ' = c.violation σ) ∧
    (∀ σ : Env F, ∃ σ' : Env F, (∀ i a a', W.regs[i]? = some a → W'.regs[f i]? = some a' → a'.evaluate σ' = a.evaluate σ) ∧
      ∀ i c c', W.cs[i]? = some c → W'.cs[g i]? = some c' → c'.violation σ' = c.violation σ) := by
  obtain ⟨ρ, hi⟩ := h.inv
  have key : ∀ i a a', W.regs[i]? = some a → W'.regs[f i]? = some a' → a' = a.ren ρ := by
    intro i a a' h1 h2
    have h3 := hi.rel.regs.get i
    rw [h1, h2] at h3
    exact Option.some.inj h3
  have keyC : ∀ i c c', W.cs[i]? = some c → W'.cs[g i]? = some c' → c' = c.ren ρ := by
    intro i a a' h1 h2
    have h3 := hi.rel.cs.get i
    rw [h1, h2] at h3
    exact Option.some.inj h3
  have hv : ∀ (c : Constraint F) (σ' : Env F), (c.ren ρ).violation σ' = c.violation fun k => σ' (ρ k) := by
    intro c σ'
    simp only [Constraint.violation, Constraint.ren, ren_evaluate]
  have hback : ∀ σ : Env F, (fun k => (fun j => σ (Function.invFun ρ j)) (ρ k)) = σ := by
    intro σ
    funext k
    exact congrArg σ (Function.leftInverse_invFun hi.inj k)
  refine ⟨fun σ' => ⟨fun k => σ' (ρ k), fun i a a' h1 h2 => ?_, fun i c c' h1 h2 => ?_⟩,
    fun σ => ⟨fun k => σ (Function.invFun ρ k), fun i a a' h1 h2 => ?_, fun i c c' h1 h2 => ?_⟩⟩
  · rw [key i a a' h1 h2, ren_evaluate]
  · rw [keyC i c c' h1 h2, hv]
  · rw [key i a a' h1 h2, ren_evaluate, hback]
  · rw [keyC i c c' h1 h2, hv, hback]

/-- C99, equality of handles: two handles are equal in one world if and only if the corresponding ones are in the other. -/
theorem C99_equality (h : Replay W n W' n' f g) {i j : Nat} :
    (∀ a b a' b', W.regs[i]? = some a → W.regs[j]? = some b → W'.regs[f i]? = some a' → W'.regs[f j]? = some b' → a'.ptrEq b' = a.ptrEq b) ∧
    (∀ c d c' d', W.cs[i]? = some c → W.cs[j]? = some d → W'.cs[g i]? = some c' → W'.cs[g j]? = some d' → c'.ptrEq d' = c.ptrEq d) := by
  obtain ⟨ρ, hi⟩ := h.inv
  constructor
  · intro a b a' b' h1 h2 h3 h4
    rw [hi.rel.regs.get, h1] at h3
    rw [hi.rel.regs.get, h2] at h4
    obtain rfl := Option.some.inj h3
    obtain rfl := Option.some.inj h4
    exact ren_ptrEq hi.inj a b
  · intro a b a' b' h1 h2 h3 h4
    rw [hi.rel.cs.get, h1] at h3
    rw [hi.rel.cs.get, h2] at h4
    obtain rfl := Option.some.inj h3
    obtain rfl := Option.some.inj h4
    exact renC_ptrEq hi.inj a b

/-- C99, constraints: the corresponding constraint exists, and has the same text, label and kind. -/
theorem C99_constraints (h : Replay W n W' n' f g) {i : Nat} {c : Constraint F} (hc : W.cs[i]? = some c) :
    ∃ c', W'.cs[g i]? = some c' ∧ c'.label = c.label ∧ c'.kind = c.kind ∧ (∀ fmt, c'.print fmt = c.print fmt) := by
  obtain ⟨ρ, hi⟩ := h.inv
  have h1 := hi.rel.cs.get i
  rw [hc] at h1
  exact ⟨_, h1, rfl, rfl, fun fmt => ren_printC fmt c⟩

/-- C99, text of the model: the model prints the same text. -/
theorem C99_text (h : Replay W n W' n' f g) (fmt : F → List Char) : W'.m.print fmt = W.m.print fmt := by
  obtain ⟨ρ, hi⟩ := h.inv
  obtain ⟨h1, h2, -⟩ := bare_parts hi.rel.m
  unfold Model.print
  rw [h1, h2]
  have h3 : (W.m.objective.ren ρ).heading = W.m.objective.heading := by cases W.m.objective <;> rfl
  have h4 : (W.m.objective.ren ρ).line fmt = W.m.objective.line fmt := by
    cases W.m.objective <;> simp [Objective.ren, Objective.line, ren_print]
  have h5 : ∀ c : Constraint F, (c.ren ρ).line fmt = c.line fmt := by
    intro c; simp only [Constraint.line, ren_printC]; rfl
  rw [h3, h4, List.length_map, List.flatMap_map]
  simp only [h5]

/-- C99, standard problem: both calls of `std_problem` panic with the same panic, or both return; then the problem (class, data and
evaluation functions) is the same, the columns have the same names, corresponding handles have the same column, and corresponding
constraints have the same rows and bounds. -/
theorem C99_problem (h : Replay W n W' n' f g) (hN : H.Positional) (hO : SameOrders H H' n n') :
    match W.m.stdProblem H n with
    | .ok (sp, _) => ∃ sp' k', W'.m.stdProblem H' n' = .ok (sp', k') ∧ sp'.prob = sp.prob ∧
        sp'.var2index.map (fun e => (e.1.name, e.2)) = sp.var2index.map (fun e => (e.1.name, e.2)) ∧
        (∀ i a a', W.regs[i]? = some a → W'.regs[f i]? = some a' → getN sp'.var2index a' = getN sp.var2index a) ∧
        (∀ i c c', W.cs[i]? = some c → W'.cs[g i]? = some c' → ∀ r,
          ((r, c') ∈ sp'.aindex2constr ↔ (r, c) ∈ sp.aindex2constr) ∧ ((r, c') ∈ sp'.jindex2constr ↔ (r, c) ∈ sp.jindex2constr) ∧
          ((r, c') ∈ sp'.uindex2constr ↔ (r, c) ∈ sp.uindex2constr) ∧ ((r, c') ∈ sp'.lindex2constr ↔ (r, c) ∈ sp.lindex2constr))
    | .error p => W'.m.stdProblem H' n' = .error p := by
  obtain ⟨ρ, hi⟩ := h.inv
  have h1 := ren_stdProblem' (H := H) (H' := H') hi.inj hN hi.rel.m n n' (ag_of hi.late hO)
  cases hx : W.m.stdProblem H n with
  | error p => rw [hx] at h1; exact h1
  | ok r =>
    obtain ⟨sp, k⟩ := r
    rw [hx] at h1
    obtain ⟨k', h2, -⟩ := h1
    refine ⟨_, k', h2, rfl, ?_, fun i a a' ha ha' => ?_, fun i c c' hc hc' r => ?_⟩
    · simp [StdProb.ren, renK, Function.comp_def]
    · rw [hi.rel.regs.get, ha] at ha'
      obtain rfl := Option.some.inj ha'
      have := ren_getN hi.inj id sp.var2index a
      simpa [StdProb.ren] using this
    · rw [hi.rel.cs.get, hc] at hc'
      obtain rfl := Option.some.inj hc'
      have key : ∀ l : List (Nat × Constraint F), (r, c.ren ρ) ∈ l.map (fun e => (e.1, e.2.ren ρ)) ↔ (r, c) ∈ l := by
        intro l
        constructor
        · intro hm
          obtain ⟨e, he, hee⟩ := List.mem_map.1 hm
          obtain ⟨rfl, h3⟩ := Prod.mk.inj hee
          exact ren_injC hi.inj h3 ▸ he
        · intro hm
          exact List.mem_map.2 ⟨_, hm, rfl⟩
      exact ⟨key _, key _, key _, key _⟩

/-- C99, solve: both calls of `solve` with the same solver panic with the same panic, or both return; then the result and the status are
the same, and corresponding handles have the same final primal values, corresponding constraints the same final dual values. -/
theorem C99_solve (h : Replay W n W' n' f g) (hN : H.Positional) (hO : SameOrders H H' n n') (solver : SolverFn F) :
    match W.m.solve H solver n with
    | .ok ((res, m), _) => ∃ m' k', W'.m.solve H' solver n' = .ok ((res, m'), k') ∧ m'.solverStatus = m.solverStatus ∧
        (∀ i a a', W.regs[i]? = some a → W'.regs[f i]? = some a' → getN m'.finalPrimals a' = getN m.finalPrimals a) ∧
        (∀ i c c', W.cs[i]? = some c → W'.cs[g i]? = some c' → getC m'.finalDuals c' = getC m.finalDuals c)
    | .error p => W'.m.solve H' solver n' = .error p := by
  obtain ⟨ρ, hi⟩ := h.inv
  have h1 := ren_solve' (H := H) (H' := H') hi.inj hN hi.rel.m solver n n' (ag_of hi.late hO)
  cases hx : W.m.solve H solver n with
  | error p => rw [hx] at h1; exact h1
  | ok r =>
    obtain ⟨⟨res, m⟩, k⟩ := r
    rw [hx] at h1
    obtain ⟨k', h2, -⟩ := h1
    refine ⟨_, k', h2, rfl, fun i a a' ha ha' => ?_, fun i c c' hc hc' => ?_⟩
    · rw [hi.rel.regs.get, ha] at ha'
      obtain rfl := Option.some.inj ha'
      have := ren_getN hi.inj id m.finalPrimals a
      simpa [Model.ren] using this
    · rw [hi.rel.cs.get, hc] at hc'
      obtain rfl := Option.some.inj hc'
      exact ren_getC hi.inj m.finalDuals c

/-- From `n'` on, the orders of `H` from `n` on. -/
def HashOrder.shift (H : HashOrder) (n n' : Nat) : HashOrder :=
  ⟨fun k => H.order (n + (k - n')), fun k => H.perm (n + (k - n'))⟩

theorem shift_same (H : HashOrder) (n n' : Nat) : SameOrders H (H.shift n n') n n' := by
  intro j α l
  show H.order (n + (n' + j - n')) α l = _
  rw [Nat.add_sub_cancel_left]

/-- C99, any orders: if the hash orders of the second call are not related to those of the first one, but no two columns have the same name,
then the two problems still have the same class, cost, matrix, right-hand side, bounds, integer flags and initial point, and the columns have
the same names, in the same order. -/
theorem C99_any_orders {H0 H2 : HashOrder} {n2 k k2 : Nat} {sp sp2 : StdProb F} (h : Replay W n W' n' f g) (hr : ReachableW H0 W' n') (hN : H.Positional)
    (h1 : W.m.stdProblem H n = .ok (sp, k)) (hn2 : n' ≤ n2) (h2 : W'.m.stdProblem H2 n2 = .ok (sp2, k2))
    (hd : (sp.var2index.map fun e => e.1.name).Nodup) :
    sp.prob.cls = sp2.prob.cls ∧ sp.prob.cost = sp2.prob.cost ∧ (∀ q ∈ sp.prob.views, ∀ r ∈ sp2.prob.views, SameData q r) ∧
    sp.var2index.map (fun e => (e.1.name, e.2)) = sp2.var2index.map (fun e => (e.1.name, e.2)) := by
  have h3 := C99_problem h hN (shift_same H n n')
  rw [h1] at h3
  obtain ⟨sp', k', h4, h5, h6, -, -⟩ := h3
  have hd' : (sp'.var2index.map fun e => e.1.name).Nodup := by
    have e1 : ∀ s : StdProb F, (s.var2index.map fun e => e.1.name) = (s.var2index.map fun e => (e.1.name, e.2)).map Prod.fst := by
      intro s; simp [Function.comp_def]
    rwa [e1, h6, ← e1]
  obtain ⟨c1, c2, c3, -⟩ := C61_data hr (Nat.le_refl _) hn2 h4 h2 hd'
  rw [← h5, ← h6]
  exact ⟨c1, c2, c3, C61_columns hr (Nat.le_refl _) hn2 h4 h2⟩

/-! ### A concrete case -/

/-- `x`, `x + 5` and the constraint `x + 5 <= 10` -/
def exRp1 : List (Cmd Q) := [.expr (.var "x" .continuous), .expr (.addScalar 0 (some 5)), .cmpNodeScalar .lessEqual 1 (some 10) "c"]

/-- minimize `x * x` under the constraint -/
def exRp2 : List (Cmd Q) := [.expr (.mul 0 0), .minimize 2, .addConstraint 0, .solve fun _ => .ok (.ok (.solved, ⟨[some 0], [], [], [some 0], [some 0]⟩))]

/-- What is held after the calls (nothing after a panic). -/
def endOf (W : World Q) (cmds : List (Cmd Q)) (n : Nat) : World Q × Nat :=
  match runCmds HashOrder.listOrder W cmds n with
  | .ok r => r
  | .error _ => (World.start, 0)

theorem endOf_eq {W : World Q} {cmds : List (Cmd Q)} {n : Nat} {r : World Q × Nat} (h : runCmds HashOrder.listOrder W cmds n = .ok r) : r = endOf W cmds n := by
  unfold endOf; rw [h]

theorem endOf_ok {W : World Q} {cmds : List (Cmd Q)} {n : Nat} (h : (endOf W cmds n).2 ≠ 0) :
    runCmds HashOrder.listOrder W cmds n = .ok ((endOf W cmds n).1, (endOf W cmds n).2) := by
  unfold endOf at *
  cases hx : runCmds HashOrder.listOrder W cmds n with
  | error p => rw [hx] at h; exact absurd rfl h
  | ok r => rfl

/-- The first program runs next to one that has a handle and 7 used addresses at the start, and makes two more handles and a constraint (of
its own) after the first part. -/
example : ∃ (W W' : World Q) (n n' : Nat) (f g : Nat → Nat), Replay W n W' n' f g ∧ ReachableW HashOrder.listOrder W n ∧
    W.m.constraints.length = 1 ∧ W.regs.length = 4 ∧ W'.regs.length = 7 ∧ W'.cs.length = 2 ∧ n + 16 ≤ n' ∧ f 0 = 1 ∧ f 2 = 5 ∧ g 0 = 0 := by
  have hN : HashOrder.listOrder.Positional := fun _ _ _ _ _ => rfl
  have hO : ∀ n n', SameOrders HashOrder.listOrder HashOrder.listOrder n n' := fun _ _ _ _ _ => rfl
  have h0 := Replay.start (F := Q) (W' := ⟨[.const 3 (some 3)], [], Model.new, none⟩) (n' := 7) rfl
  have h1 := C99_program h0 hN (hO _ _) exRp1
  have e1 := endOf_ok (W := World.start) (cmds := exRp1) (n := 0) (by decide +kernel)
  rw [e1] at h1
  obtain ⟨W1', n1', e2, h2, -⟩ := h1
  obtain ⟨e2a, e2b⟩ := Prod.mk.inj (endOf_eq e2)
  have h3 := h2.other (n'' := 30) (rs := [.const 20 (some 1), .var 21 "x" .continuous]) (cs := [⟨22, .const 20 (some 1), .equal, .var 21 "x" .continuous, ""⟩])
    (res := none) (by rw [e2b]; decide +kernel)
  have h4 := C99_program h3 hN (hO _ _) exRp2
  have e3 := endOf_ok (W := (endOf World.start exRp1 0).1) (cmds := exRp2) (n := (endOf World.start exRp1 0).2) (by decide +kernel)
  rw [e3] at h4
  obtain ⟨W2', n2', e5, h5, -⟩ := h4
  obtain ⟨e5a, e5b⟩ := Prod.mk.inj (endOf_eq e5)
  refine ⟨_, _, _, _, _, _, h5, ⟨exRp1 ++ exRp2, ?_⟩, ?_⟩
  · exact (runCmds_append exRp1 exRp2 _ _ _ _).2 ⟨_, _, e1, e3⟩
  · subst e2a e2b
    subst e5a e5b
    decide +kernel

end Verif
