import Verif.Proofs.StdEval

/-! # Invariants of programs; what `solve` does -/

set_option linter.unusedSectionVars false
set_option linter.unusedSimpArgs false

namespace Verif

variable {F : Type} [FloatOps F]
variable {H : HashOrder} {l : Level} {h h' : Heap F} {n m : Nat}

/-! ### `solve` -/

/-- The model with the results of the last solve removed. -/
def Model.cleared (m : Model F) : Model F := { m with finalPrimals := [], finalDuals := [], solverStatus := none }

/-- The outcome of a successful extraction of results. -/
structure Extract (sp : StdProb F) (sol : Sol F) (primals : List (Node F × F)) (duals : List (Constraint F × F)) : Prop where
  ex : ∃ ves as js us ls d1 d2 d3, ves.Perm sp.var2index ∧ as.Perm sp.aindex2constr ∧ js.Perm sp.jindex2constr ∧
    us.Perm sp.uindex2constr ∧ ls.Perm sp.lindex2constr ∧
    foldR (fun p e => do .ok (insertN p e.1 (← idx sol.x e.2))) [] ves = .ok primals ∧
    insertDuals sol.lam [] as = .ok d1 ∧ insertDuals sol.nu d1 js = .ok d2 ∧ insertDuals sol.mu d2 us = .ok d3 ∧
    insertDuals sol.pi d3 ls = .ok duals

theorem solve_ok {mod : Model F} {solver : SolverFn F} {r : Except String Unit × Model F} (hs : mod.solve H solver n = .ok (r, m)) :
    ∃ sp k, mod.stdProblem H n = .ok (sp, k) ∧ k ≤ m ∧
      ((∃ e, solver sp.prob = .ok (.error e) ∧ r = (.error e, mod.cleared)) ∨
       (∃ status sol primals duals, solver sp.prob = .ok (.ok (status, sol)) ∧ Extract sp sol primals duals ∧
        r = (.ok (), { mod with solverStatus := some status, finalPrimals := primals, finalDuals := duals }))) := by
  unfold Model.solve at hs
  simp only [M.bind_ok] at hs
  obtain ⟨sp, k, hsp, sr, k2, hsr, hs⟩ := hs
  rw [M.ofR_ok] at hsr
  obtain ⟨hsr, rfl⟩ := hsr
  cases sr with
  | error e =>
    simp only [M.pure_ok] at hs
    obtain ⟨rfl, rfl⟩ := hs
    exact ⟨sp, m, hsp, Nat.le_refl _, .inl ⟨e, hsr, rfl⟩⟩
  | ok p =>
    obtain ⟨status, sol⟩ := p
    simp only [M.bind_ok, M.ofR_ok, M.pure_ok] at hs
    obtain ⟨ves, a1, hves, primals, a2, ⟨hp, rfl⟩, as, a3, has, d1, a4, ⟨hd1, rfl⟩, js, a5, hjs, d2, a6, ⟨hd2, rfl⟩, us, a7, hus,
      d3, a8, ⟨hd3, rfl⟩, ls, a9, hls, d4, a10, ⟨hd4, rfl⟩, rfl, rfl⟩ := hs
    have p1 := HashOrder.iter_perm hves
    have p2 := HashOrder.iter_perm has
    have p3 := HashOrder.iter_perm hjs
    have p4 := HashOrder.iter_perm hus
    have p5 := HashOrder.iter_perm hls
    rw [HashOrder.iter_ok] at hves has hjs hus hls
    refine ⟨sp, k2, hsp, by omega, .inr ⟨status, sol, primals, d4, hsr, ⟨ves, as, js, us, ls, d1, d2, d3, p1, p2, p3, p4, p5, hp, hd1,
      hd2, hd3, hd4⟩, rfl⟩⟩

theorem forall₂_right {α β : Type} {R : α → β → Prop} {as : List α} {bs : List β} (h : List.Forall₂ R as bs) {b : β} (hb : b ∈ bs) :
    ∃ a ∈ as, R a b := by
  induction h with
  | nil => simp at hb
  | cons h _ ih =>
    rcases List.mem_cons.1 hb with rfl | hb
    · exact ⟨_, by simp, h⟩
    · obtain ⟨a, ha, hr⟩ := ih hb
      exact ⟨a, by simp [ha], hr⟩

theorem forall₂_left {α β : Type} {R : α → β → Prop} {as : List α} {bs : List β} (h : List.Forall₂ R as bs) {a : α} (ha : a ∈ as) :
    ∃ b ∈ bs, R a b := by
  induction h with
  | nil => simp at ha
  | cons h _ ih =>
    rcases List.mem_cons.1 ha with rfl | ha
    · exact ⟨_, by simp, h⟩
    · obtain ⟨a, ha, hr⟩ := ih ha
      exact ⟨a, by simp [ha], hr⟩

theorem foldR_primals {x : List F} {ves : List (Node F × Nat)} {primals : List (Node F × F)} (hn : NodupP (keysN ves))
    (hf : foldR (fun (p : List (Node F × F)) (e : Node F × Nat) => (do .ok (insertN p e.1 (← idx x e.2)) : R _)) [] ves = .ok primals) :
    List.Forall₂ (fun e p => p.1 = e.1 ∧ x[e.2]? = some p.2) ves primals := by
  suffices HH : ∀ (acc : List (Node F × F)), NodupP (keysN acc ++ keysN ves) →
      foldR (fun (p : List (Node F × F)) (e : Node F × Nat) => (do .ok (insertN p e.1 (← idx x e.2)) : R _)) acc ves = .ok primals →
      ∃ rest, primals = acc ++ rest ∧ List.Forall₂ (fun (e : Node F × Nat) (p : Node F × F) => p.1 = e.1 ∧ x[e.2]? = some p.2) ves rest by
    obtain ⟨rest, h1, h2⟩ := HH [] (by simpa using hn) hf
    simp only [List.nil_append] at h1
    rw [h1]; exact h2
  clear hf hn
  induction ves with
  | nil =>
    intro acc _ hf
    simp only [foldR, Except.ok.injEq] at hf
    exact ⟨[], by simp [hf], .nil⟩
  | cons e ves ih =>
    intro acc hn hf
    rw [foldR_cons_ok] at hf
    obtain ⟨b, hb, hf⟩ := hf
    rw [R.bind_ok_iff] at hb
    obtain ⟨v, hv, hb⟩ := hb
    injection hb with hb
    rw [idx_ok] at hv
    rw [insertN_upd, updN_absent] at hb
    · subst hb
      obtain ⟨rest, h1, h2⟩ := ih (acc ++ [(e.1, v)]) (by simpa [keysN] using hn) hf
      exact ⟨(e.1, v) :: rest, by rw [h1]; simp, .cons ⟨rfl, hv⟩ h2⟩
    · intro y hy
      have := List.pairwise_append.1 hn
      exact this.2.2 y hy e.1 (by simp [keysN])

theorem spec_solve {mod : Model F} {solver : SolverFn F} (hn : HInv h n) (hg : ModelGood l h mod)
    (hinit : NodupP (keysN mod.initPrimals)) :
    Spec h n (mod.solve H solver) (fun h' _ r => (∀ q ∈ r.2.finalPrimals, Good l h' q.1) ∧ r.2.objective = mod.objective ∧
      r.2.constraints = mod.constraints ∧ r.2.initPrimals = mod.initPrimals) := by
  intro r m hs
  obtain ⟨sp, k, hsp, hk, hs⟩ := solve_ok hs
  obtain ⟨h1, hle1, hn1, hm1, k', comp, e, ps, cols, xes, ves, hf, hcomp⟩ := spec_stdProblem hn hg hinit sp k hsp
  refine ⟨h1, hle1, fun i hi => hn1 i (by omega), by omega, ?_⟩
  rcases hs with ⟨e, _, rfl⟩ | ⟨status, sol, primals, duals, hsol, ⟨ves', as, js, us, ls, d1, d2, d3, p1, p2, p3, p4, p5, hp, _⟩, rfl⟩
  · exact ⟨by simp [Model.cleared], rfl, rfl, rfl⟩
  · refine ⟨?_, rfl, rfl, rfl⟩
    rw [hf.v2i] at p1
    have hnd : NodupP (keysN ves') := by
      refine NodupP.perm ?_ (p1.map Prod.fst).symm
      rw [List.zipIdx_map_fst]
      exact hf.cok.nodup
    have hall := foldR_primals hnd hp
    intro q hq
    obtain ⟨e', he', hr⟩ := forall₂_right hall hq
    have hmem := p1.mem_iff.1 he'
    rw [List.mem_zipIdx_iff_getElem?] at hmem
    rw [hr.1]
    exact hf.cok.good _ (List.mem_of_getElem? hmem)

/-! ### The invariant -/

/-- The invariant of programs. -/
structure WInv (l : Level) (h : Heap F) (W : World F) (n : Nat) : Prop where
  heap : HInv h n
  regs : ∀ x ∈ W.regs, Good l h x
  cs : ∀ c ∈ W.cs, Good l h c.lhs ∧ Good l h c.rhs ∧ c.id < n
  csNd : W.cs.Pairwise fun a b => a.id ≠ b.id
  model : ModelGood l h W.m
  sub : ∀ c ∈ W.m.constraints, c ∈ W.cs
  initNd : NodupP (keysN W.m.initPrimals)
  initGood : ∀ e ∈ W.m.initPrimals, Good l h e.1

theorem WInv.mono {W : World F} (hw : WInv l h W n) (hle : h.le h') (hn : HInv h' m) (hnm : n ≤ m) : WInv l h' W m where
  heap := hn
  regs := fun x hx => (hw.regs x hx).mono hle
  cs := fun c hc => ⟨(hw.cs c hc).1.mono hle, (hw.cs c hc).2.1.mono hle, by have := (hw.cs c hc).2.2; omega⟩
  csNd := hw.csNd
  model := ⟨fun f hf => (hw.model.min f hf).mono hle, fun f hf => (hw.model.max f hf).mono hle,
    fun c hc => ⟨(hw.model.cs c hc).1.mono hle, (hw.model.cs c hc).2.mono hle⟩⟩
  sub := hw.sub
  initNd := hw.initNd
  initGood := fun e he => (hw.initGood e he).mono hle

theorem WInv.addRegs {W : World F} (hw : WInv l h W n) {rs : List (Node F)} (hr : ∀ x ∈ rs, Good l h x) :
    WInv l h { W with regs := W.regs ++ rs } n :=
  { heap := hw.heap, cs := hw.cs, csNd := hw.csNd, model := hw.model, sub := hw.sub, initNd := hw.initNd, initGood := hw.initGood
    regs := fun x hx => by
      rcases List.mem_append.1 hx with hx | hx
      · exact hw.regs x hx
      · exact hr x hx }

theorem WInv.setModel {W : World F} (hw : WInv l h W n) {mod : Model F} {res : Option (Except String Unit)} (h1 : ModelGood l h mod)
    (h2 : ∀ c ∈ mod.constraints, c ∈ W.cs) (h3 : NodupP (keysN mod.initPrimals)) (h4 : ∀ e ∈ mod.initPrimals, Good l h e.1) :
    WInv l h { W with m := mod, result := res } n :=
  ⟨hw.heap, hw.regs, hw.cs, hw.csNd, h1, h2, h3, h4⟩

theorem newConstraint_ok {a b : Node F} {k : CKind} {s : String} {c : Constraint F} (hc : newConstraint a k b s n = .ok (c, m)) :
    c = ⟨n, a, k, b, s⟩ ∧ m = n + 1 := by
  unfold newConstraint at hc
  simp only [M.bind_ok, M.fresh_ok, M.pure_ok] at hc
  obtain ⟨i, k1, ⟨rfl, rfl⟩, rfl, rfl⟩ := hc
  exact ⟨rfl, rfl⟩

/-- Adding a constraint made by one of the comparison methods. -/
theorem WInv.addC {W : World F} (hw : WInv l h W n) {x : M (Constraint F)}
    (hx : Spec h n x (fun h' m c => Good l h' c.lhs ∧ Good l h' c.rhs ∧ n ≤ c.id ∧ c.id < m)) :
    Spec h n (M.bind x fun c => M.pure { W with cs := W.cs ++ [c] }) (fun h' m W' => WInv l h' W' m) := by
  refine hx.bind fun h1 k c hle1 hn1 hk hq => Spec.pure hn1 ?_
  have hw1 := hw.mono hle1 hn1 hk
  refine { heap := hn1, regs := hw1.regs, model := hw1.model, initNd := hw1.initNd, initGood := hw1.initGood, cs := ?_, csNd := ?_, sub := ?_ }
  · intro d hd
    simp only [List.mem_append, List.mem_singleton] at hd
    rcases hd with hd | rfl
    · exact hw1.cs d hd
    · exact ⟨hq.1, hq.2.1, hq.2.2.2⟩
  · refine List.pairwise_append.2 ⟨hw1.csNd, by simp, ?_⟩
    intro a ha b hb
    simp only [List.mem_singleton] at hb
    subst hb
    have := (hw.cs a ha).2.2
    omega
  · intro d hd
    simp only [List.mem_append]
    exact .inl (hw1.sub d hd)

theorem spec_cmpNN {k : CKind} {a b : Node F} {s : String} (hn : HInv h n) (ha : Good l h a) (hb : Good l h b) :
    Spec h n (cmpNN k a b s) (fun h' m c => Good l h' c.lhs ∧ Good l h' c.rhs ∧ n ≤ c.id ∧ c.id < m) := by
  intro c m hc
  have : newConstraint a k b s n = .ok (c, m) := by cases k <;> exact hc
  obtain ⟨rfl, rfl⟩ := newConstraint_ok this
  exact ⟨h, h.le_refl, fun i hi => hn i (by omega), by omega, ha, hb, Nat.le_refl _, by simp⟩

theorem spec_cmpNS {k : CKind} {a : Node F} {v : F} {s : String} (hn : HInv h n) (ha : Good l h a) :
    Spec h n (cmpNS k a v s) (fun h' m c => Good l h' c.lhs ∧ Good l h' c.rhs ∧ n ≤ c.id ∧ c.id < m) := by
  have hx : cmpNS k a v s = M.bind (newConst v) fun b => newConstraint a k b s := by cases k <;> rfl
  rw [hx]
  refine (spec_newConst (l := l) hn).bind fun h1 k1 b hle hn1 hk hb => ?_
  intro c m hc
  obtain ⟨rfl, rfl⟩ := newConstraint_ok hc
  exact ⟨h1, h1.le_refl, fun i hi => hn1 i (by omega), by omega, ha.mono hle, hb.1, hk, by simp⟩

theorem spec_cmpSN {k : CKind} {a : Node F} {v : F} {s : String} (hn : HInv h n) (ha : Good l h a) :
    Spec h n (cmpSN k v a s) (fun h' m c => Good l h' c.lhs ∧ Good l h' c.rhs ∧ n ≤ c.id ∧ c.id < m) := by
  have hx : cmpSN k v a s = M.bind (newConst v) fun b => newConstraint b k a s := by cases k <;> rfl
  rw [hx]
  refine (spec_newConst (l := l) hn).bind fun h1 k1 b hle hn1 hk hb => ?_
  intro c m hc
  obtain ⟨rfl, rfl⟩ := newConstraint_ok hc
  exact ⟨h1, h1.le_refl, fun i hi => hn1 i (by omega), by omega, hb.1, ha.mono hle, hk, by simp⟩

theorem foldl_insertN_keys {β : Type} (es m : List (Node F × β)) (hn : NodupP (keysN m)) :
    NodupP (keysN (es.foldl (fun m e => insertN m e.1 e.2) m)) ∧
    ∀ k ∈ keysN (es.foldl (fun m e => insertN m e.1 e.2) m), k ∈ keysN m ∨ k ∈ keysN es := by
  induction es generalizing m with
  | nil => exact ⟨hn, fun k hk => .inl hk⟩
  | cons e es ih =>
    rw [List.foldl_cons]
    have hk : keysN (insertN m e.1 e.2) = setInsert (keysN m) e.1 := by rw [insertN_upd]; exact updN_keys ..
    obtain ⟨i1, i2⟩ := ih (insertN m e.1 e.2) (by rw [hk]; exact setInsert_nodup hn)
    refine ⟨i1, fun k hk' => ?_⟩
    rcases i2 k hk' with hk' | hk'
    · rw [hk] at hk'
      rcases setInsert_mem hk' with hk' | hk'
      · exact .inl hk'
      · exact .inr (by simp [keysN, hk'])
    · refine .inr ?_
      simp only [keysN, List.map_cons, List.mem_cons]
      exact .inr hk'

theorem spec_cmd {W : World F} (hw : WInv l h W n) {cmd : Cmd F} (hl : l = .raw ∨ (l = .api ∧ cmd.isRaw = false)) :
    Spec h n (cmd.exec H W) (fun h' m W' => WInv l h' W' m) := by
  have hmem : ∀ {i : Nat} {a : Node F}, W.regs[i]? = some a → Good l h a := fun hi => hw.regs _ (List.mem_of_getElem? hi)
  have hself : Spec h n (M.pure W) (fun h' m W' => WInv l h' W' m) := Spec.pure hw.heap hw
  cases cmd with
  | expr op =>
    refine (spec_exec hw.heap hw.regs (op := op) hl).bind fun h1 k rs hle hn1 hk hrs => Spec.pure hn1 ?_
    exact (hw.mono hle hn1 hk).addRegs hrs
  | cmpNodeNode k i j tag =>
    simp only [Cmd.exec]
    split
    · rename_i a b ha hb
      exact hw.addC (spec_cmpNN hw.heap (hmem ha) (hmem hb))
    · exact hself
  | cmpNodeScalar k i v tag =>
    simp only [Cmd.exec]
    split
    · rename_i a ha
      exact hw.addC (spec_cmpNS hw.heap (hmem ha))
    · exact hself
  | cmpScalarNode k v i tag =>
    simp only [Cmd.exec]
    split
    · rename_i a ha
      exact hw.addC (spec_cmpSN hw.heap (hmem ha))
    · exact hself
  | newModel =>
    refine Spec.pure hw.heap (hw.setModel ⟨?_, ?_, ?_⟩ ?_ ?_ ?_) <;> simp [Model.new, keysN, NodupP]
  | minimize i =>
    simp only [Cmd.exec]
    split
    · rename_i a ha
      refine Spec.pure hw.heap (hw.setModel ⟨?_, ?_, hw.model.cs⟩ hw.sub hw.initNd hw.initGood)
      · simp only [Model.setObjective, Objective.minimize.injEq]
        rintro f rfl; exact hmem ha
      · simp [Model.setObjective]
    · exact hself
  | maximize i =>
    simp only [Cmd.exec]
    split
    · rename_i a ha
      refine Spec.pure hw.heap (hw.setModel ⟨?_, ?_, hw.model.cs⟩ hw.sub hw.initNd hw.initGood)
      · simp [Model.setObjective]
      · simp only [Model.setObjective, Objective.maximize.injEq]
        rintro f rfl; exact hmem ha
    · exact hself
  | noObjective =>
    refine Spec.pure hw.heap (hw.setModel ⟨?_, ?_, hw.model.cs⟩ hw.sub hw.initNd hw.initGood) <;> simp [Model.setObjective]
  | addConstraint i =>
    simp only [Cmd.exec]
    split
    · rename_i c hc
      have hc := List.mem_of_getElem? hc
      refine Spec.pure hw.heap (hw.setModel ⟨hw.model.min, hw.model.max, ?_⟩ ?_ hw.initNd hw.initGood)
      · intro d hd
        simp only [Model.addConstraint, List.mem_append, List.mem_singleton] at hd
        rcases hd with hd | rfl
        · exact hw.model.cs d hd
        · exact ⟨(hw.cs d hc).1, (hw.cs d hc).2.1⟩
      · intro d hd
        simp only [Model.addConstraint, List.mem_append, List.mem_singleton] at hd
        rcases hd with hd | rfl
        · exact hw.sub d hd
        · exact hc
    · exact hself
  | addConstraints is =>
    have hc : ∀ c ∈ is.filterMap (W.cs[·]?), c ∈ W.cs := by
      intro c hc
      obtain ⟨i, _, hi⟩ := List.mem_filterMap.1 hc
      exact List.mem_of_getElem? hi
    refine Spec.pure hw.heap (hw.setModel ⟨hw.model.min, hw.model.max, ?_⟩ ?_ hw.initNd hw.initGood)
    · intro d hd
      simp only [Model.addConstraints, List.mem_append] at hd
      rcases hd with hd | hd
      · exact hw.model.cs d hd
      · exact ⟨(hw.cs d (hc d hd)).1, (hw.cs d (hc d hd)).2.1⟩
    · intro d hd
      simp only [Model.addConstraints, List.mem_append] at hd
      rcases hd with hd | hd
      · exact hw.sub d hd
      · exact hc d hd
  | setInitPrimals vals =>
    simp only [Cmd.exec, Model.setInitPrimals]
    intro W' m hW
    simp only [M.bind_ok, M.pure_ok] at hW
    obtain ⟨m1, k1, ⟨es, k2, hes, rfl, rfl⟩, rfl, rfl⟩ := hW
    have hp := HashOrder.iter_perm hes
    rw [HashOrder.iter_ok] at hes
    have hn' : HInv h m := fun i hi => hw.heap i (by omega)
    have hw1 := hw.mono h.le_refl hn' (by omega)
    have hvals : ∀ k ∈ keysN ((vals.filterMap fun e => (W.regs[e.1]?).map fun a => (a, e.2)).foldl (fun m e => insertN m e.1 e.2) []),
        Good l h k := by
      intro k hk
      rcases (foldl_insertN_keys _ [] (by simp [keysN, NodupP])).2 k hk with hk | hk
      · simp [keysN] at hk
      · obtain ⟨q, hq, rfl⟩ := List.mem_map.1 hk
        obtain ⟨e, _, he⟩ := List.mem_filterMap.1 hq
        simp only [Option.map_eq_some_iff] at he
        obtain ⟨a, ha, rfl⟩ := he
        exact hmem ha
    refine ⟨h, h.le_refl, hn', by omega, hw1.setModel ⟨hw1.model.min, hw1.model.max, hw1.model.cs⟩ hw1.sub ?_ ?_⟩
    · exact (foldl_insertN_keys es [] (by simp [keysN, NodupP])).1
    · intro e he
      rcases (foldl_insertN_keys es [] (by simp [keysN, NodupP])).2 e.1 (List.mem_map.2 ⟨e, he, rfl⟩) with hk | hk
      · simp [keysN] at hk
      · exact hvals _ ((hp.map Prod.fst).mem_iff.1 hk)
  | solve solver =>
    refine (spec_solve hw.heap hw.model hw.initNd).bind fun h1 k r hle hn1 hk hq => Spec.pure hn1 ?_
    obtain ⟨q1, q2, q3, q4⟩ := hq
    have hw1 := hw.mono hle hn1 hk
    refine { heap := hn1, regs := ?_, cs := hw1.cs, csNd := hw1.csNd, model := ⟨?_, ?_, ?_⟩, sub := ?_, initNd := ?_, initGood := ?_ }
    · intro x hx
      rcases List.mem_append.1 hx with hx | hx
      · exact hw1.regs x hx
      · obtain ⟨q, hq, rfl⟩ := List.mem_map.1 hx
        exact q1 q hq
    · simp only [q2]; exact hw1.model.min
    · simp only [q2]; exact hw1.model.max
    · simp only [q3]; exact hw1.model.cs
    · simp only [q3]; exact hw1.sub
    · simp only [q4]; exact hw1.initNd
    · simp only [q4]; exact hw1.initGood
  | stdProblem =>
    refine (spec_stdProblem hw.heap hw.model hw.initNd).bind fun h1 k sp hle hn1 hk hq => Spec.pure hn1 ?_
    obtain ⟨k', comp, e, ps, cols, xes, ves, hf, _⟩ := hq
    refine (hw.mono hle hn1 hk).addRegs fun x hx => ?_
    rw [hf.v2i, List.zipIdx_map_fst] at hx
    exact hf.cok.good x hx
  | stdComponents i =>
    simp only [Cmd.exec]
    split
    · rename_i a ha
      refine (spec_nodeComp hw.heap (hmem ha)).bind fun h1 k c hle hn1 hk hq => Spec.pure hn1 ?_
      refine (hw.mono hle hn1 hk).addRegs fun x hx => ?_
      rcases List.mem_append.1 hx with hx | hx
      · obtain ⟨q, hq', rfl⟩ := List.mem_map.1 hx
        exact hq.1 q hq'
      · obtain ⟨q, hq', rfl⟩ := List.mem_map.1 hx
        exact hq.2 q hq'
    · exact hself

theorem spec_runCmds {cmds : List (Cmd F)} : ∀ {h : Heap F} {n : Nat} {W : World F}, WInv l h W n →
    (l = .raw ∨ (l = .api ∧ ∀ c ∈ cmds, c.isRaw = false)) →
    Spec h n (runCmds H W cmds) (fun h' m W' => WInv l h' W' m) := by
  induction cmds with
  | nil => intro h n W hw _; exact Spec.pure hw.heap hw
  | cons c cs ih =>
    intro h n W hw hl
    refine (spec_cmd hw (cmd := c) (hl.imp id fun h => ⟨h.1, h.2 c (by simp)⟩)).bind fun h1 k W1 hle hn1 hk hw1 => ?_
    exact ih hw1 (hl.imp id fun h => ⟨h.1, fun c hc => h.2 c (by simp [hc])⟩)

theorem WInv.start : WInv l (fun _ => none) (World.start : World F) 0 where
  heap := fun _ _ => rfl
  regs := by simp [World.start]
  cs := by simp [World.start]
  csNd := by simp [World.start]
  model := ⟨by simp [World.start, Model.new], by simp [World.start, Model.new], by simp [World.start, Model.new]⟩
  sub := by simp [World.start, Model.new]
  initNd := by simp [World.start, Model.new, keysN, NodupP]
  initGood := by simp [World.start, Model.new]

theorem ReachableW.inv {W : World F} (hr : ReachableW H W n) : ∃ h, WInv .raw h W n := by
  obtain ⟨cmds, hc⟩ := hr
  obtain ⟨h, -, -, -, hw⟩ := spec_runCmds (l := .raw) WInv.start (.inl rfl) W n hc
  exact ⟨h, hw⟩

theorem ReachableApiW.inv {W : World F} (hr : ReachableApiW H W n) : ∃ h, WInv .api h W n := by
  obtain ⟨cmds, hraw, hc⟩ := hr
  obtain ⟨h, -, -, -, hw⟩ := spec_runCmds (l := .api) WInv.start (.inr ⟨rfl, hraw⟩) W n hc
  exact ⟨h, hw⟩

theorem ReachableApiW.reachable {W : World F} (hr : ReachableApiW H W n) : ReachableW H W n := by
  obtain ⟨cmds, -, hc⟩ := hr
  exact ⟨cmds, hc⟩

end Verif
