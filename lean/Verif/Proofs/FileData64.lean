import Verif.Proofs.File64

/-! # The numbers of linear models in double precision are finite -/

namespace Verif

set_option linter.unusedSectionVars false
set_option linter.unusedSimpArgs false

section
variable {F : Type} [FloatOps F] {H : HashOrder} {l : Level} {h : Heap F} {n m : ℕ} {cols : List (Node F)} {comp : ModelComp F}
  {mod : Model F} {e : Node F} {ps : List (Piece F)} {xes : List (Node F × F)} {ves : List (Node F × ℕ)} {sp : StdProb F}

theorem SpFacts.milp_eq (hf : SpFacts H l h n m mod comp e ps cols xes ves sp) {q : Milp F} (hq : sp.prob.IsMilp q) :
    q = ⟨stdC cols comp, stdLinear cols comp xes⟩ := by
  rw [hf.prob] at hq
  unfold stdProbOf at hq
  split at hq
  · split at hq
    · rcases hq with hq | ⟨q', hq, rfl⟩
      · cases hq
      · injection hq with hq; rw [← hq]
    · rcases hq with hq | ⟨q', hq, rfl⟩
      · injection hq with hq; rw [← hq]
      · cases hq
  · split at hq
    · rcases hq with hq | ⟨q', hq, rfl⟩ <;> cases hq
    · rcases hq with hq | ⟨q', hq, rfl⟩ <;> cases hq

/-- No variable occurs twice in a row. -/
theorem SpFacts.coefs_nodup (hf : SpFacts H l h n m mod comp e ps cols xes ves sp) {p : Piece F} (hp : p ∈ ps) (hl : p.isLin = true) :
    (∀ q ∈ p.coefs, q.1 ∈ cols) ∧ (p.coefs.map fun q => colOf cols q.1).Nodup := by
  obtain ⟨n1, m1, -, -, hok⟩ := hf.mf.piece hp
  have hck : ∀ q ∈ p.coefs, q.1 ∈ cols := fun q hq => by
    rcases hok.coefKeys hq with ⟨a, b⟩ | a
    · exact (hf.mem _).2 (.inl ⟨a, .inr ⟨p, hp, b⟩⟩)
    · exact (hf.mem _).2 (.inr (List.mem_filterMap.2 ⟨p, hp, a⟩))
  have hpn : NodupP (keysN p.comp.prop.a) := by rw [hok.prop.2]; exact (stdProperties_keys p.exp).1
  have hpk : ∀ q ∈ p.comp.prop.a, mod.HasVar q.1 := fun q hq => hf.mf.pieceVar hp (hok.propKeys hq).1 (hok.propKeys hq).2
  have hcases : ∃ es, es.Perm p.comp.prop.a ∧ p.coefs = es ++ (match p.slack with | some s => [(s, negOne)] | none => []) := by
    cases hk : p.kind with
    | linEq es => exact ⟨es, hok.linEq es hk, by simp [Piece.coefs, Piece.slack, hk]⟩
    | linIneq es s => exact ⟨es, (hok.linIneq es s hk).1, by simp [Piece.coefs, Piece.slack, hk]⟩
    | _ => simp [Piece.isLin, hk] at hl
  obtain ⟨es, hes, hco⟩ := hcases
  have hcn : NodupP (keysN p.coefs) := by
    rw [hco]
    have hen : NodupP (keysN es) := hpn.perm (hes.map _).symm
    cases hs : p.slack with
    | none => simpa using hen
    | some s =>
      simp only
      unfold keysN NodupP
      rw [List.map_append, List.pairwise_append]
      refine ⟨hen, by simp, ?_⟩
      intro a ha b hb
      obtain ⟨q, hq, rfl⟩ := List.mem_map.1 ha
      simp only [List.map_cons, List.map_nil, List.mem_singleton] at hb
      subst hb
      exact (hf.mf.slack_new (List.mem_filterMap.2 ⟨p, hp, hs⟩) (hpk q (hes.mem_iff.1 hq))).1
  refine ⟨hck, ?_⟩
  unfold keysN NodupP at hcn
  rw [List.pairwise_map] at hcn
  unfold List.Nodup
  rw [List.pairwise_map]
  refine hcn.imp_of_mem fun {a b} ha hb hab heq => ?_
  have h1 := (hf.cok.col (hck a ha)).2
  have h2 := (hf.cok.col (hck b hb)).2
  rw [heq, h2] at h1
  injection h1 with h1
  rw [h1, ptrEq_refl] at hab
  cases hab

/-- The rows of the matrix, one after the other. -/
theorem SpFacts.rows_all (hf : SpFacts H l h n m mod comp e ps cols xes ves sp) (P : F → List (ℕ × F) → Prop)
    (hP : ∀ p ∈ ps, p.isLin = true → P (FloatOps.neg p.comp.prop.b) (p.coefs.map fun e => (colOf cols e.1, e.2))) :
    ∀ (i : ℕ) b, comp.constr.b[i]? = some b → P b (rowOf (stdA cols comp).triplets i) := by
  obtain ⟨k, -, hch⟩ := hf.mf.chain
  have hrows := (hch.rows fun v es => P v (es.map fun e => (colOf cols e.1, e.2))).2 hP
  intro i b hb
  have e1 : comp.constr.a = ps.flatMap fun p => p.out.a := by rw [hf.mf.constr]; simp [ConstrComp.concat, List.flatMap_map]
  have e2 : comp.constr.b = ps.flatMap fun p => p.out.b := by rw [hf.mf.constr]; simp [ConstrComp.concat, List.flatMap_map]
  have := hrows i b (by rw [← e2]; exact hb)
  rw [Nat.zero_add, ← e1] at this
  rw [rowOf_stdA]
  exact this

end

variable [Libm] {H : HashOrder} {l : Level} {h : Heap F64} {n m : ℕ} {cols : List (Node F64)} {comp : ModelComp F64}
  {mod : Model F64} {e : Node F64} {ps : List (Piece F64)} {xes : List (Node F64 × F64)}
  {ves : List (Node F64 × ℕ)} {sp : StdProb F64}

/-- The numbers of the standard problem of a linear model are finite. -/
structure Finite64 (cols : List (Node F64)) (comp : ModelComp F64) : Prop where
  c : ∀ v ∈ stdC cols comp, ∃ y, v.Is y
  row : ∀ (i : ℕ) b, comp.constr.b[i]? = some b → (∃ y, b.Is y) ∧ (∀ e ∈ rowOf (stdA cols comp).triplets i, ∃ y, e.2.Is y) ∧
    ((rowOf (stdA cols comp).triplets i).map Prod.fst).Nodup
  lower : ∀ w ∈ stdL cols comp, ∃ y, w.Is y ∧ -(10 ^ 8) ≤ y
  upper : ∀ w ∈ stdU cols comp, ∃ y, w.Is y ∧ y ≤ 10 ^ 8

theorem SpFacts.finite64 (hf : SpFacts H l h n m mod comp e ps cols xes ves sp) {F G : Constraint F64 → LinForm}
    (hc : ∀ c ∈ mod.constraints, c.lhs.Says64 (F c) ∧ c.rhs.Says64 (G c)) (hRg : ∀ c ∈ mod.constraints, PairInRange (F c) (G c))
    {o : LinForm} (ho : mod.ObjectiveSays64 o) : Finite64 cols comp := by
  have hpiece : ∀ p ∈ ps, ∃ b, p.comp.prop.b.Is b ∧ (∀ q ∈ p.coefs, ∃ w, q.2.Is w) := by
    intro p hp
    have hpc : p.c ∈ mod.constraints := by rw [← hf.mf.cs]; exact List.mem_map_of_mem hp
    obtain ⟨b, h1, h2, -⟩ := hf.pieceErr64 hp (hc _ hpc).1 (hc _ hpc).2 (hRg _ hpc) (t := 0) (v := fun _ => 0) fun _ _ => rfl
    exact ⟨b, h1, h2⟩
  have hbd : ∀ p ∈ ps, ∀ d x b, p.bnd = some (d, x, b) → ∃ y, b.Is y := by
    intro p hp d x b hb
    have hpc : p.c ∈ mod.constraints := by rw [← hf.mf.cs]; exact List.mem_map_of_mem hp
    obtain ⟨b', h1, -⟩ := hpiece p hp
    rcases Piece.bnd_or hb with ⟨-, rfl⟩ | ⟨-, rfl⟩
    · exact ⟨_, F64.is_neg h1⟩
    · exact ⟨_, F64.is_zero⟩
  refine ⟨?_, ?_, ?_, ?_⟩
  · intro v hv
    obtain ⟨x, hx, rfl⟩ := List.mem_map.1 hv
    by_cases hob : mod.objective = .empty
    · obtain ⟨i, rfl⟩ := hf.mf.objEmpty hob
      have : comp.obj.prop.a = [] := by rw [hf.mf.objProp.2]; rfl
      rw [this]
      exact ⟨_, F64.is_zero⟩
    · obtain ⟨o', hs, -⟩ := objective_says64 hf ho hob
      obtain ⟨y, h1, -⟩ := (C80_coefficients hs.1).2 x (hf.cok.var _ hx)
      refine ⟨y, ?_⟩
      rw [hf.mf.objProp.2]
      exact h1
  · refine hf.rows_all (fun b es => (∃ y, b.Is y) ∧ (∀ e ∈ es, ∃ y, e.2.Is y) ∧ (es.map Prod.fst).Nodup) ?_
    intro p hp hl
    obtain ⟨b, h1, h2⟩ := hpiece p hp
    refine ⟨⟨_, F64.is_neg h1⟩, ?_, ?_⟩
    · intro e he
      obtain ⟨q, hq, rfl⟩ := List.mem_map.1 he
      exact h2 q hq
    · rw [List.map_map]
      exact (hf.coefs_nodup hp hl).2
  · intro w hw
    obtain ⟨x, hx, rfl⟩ := List.mem_map.1 hw
    obtain ⟨y, hy⟩ := R64.tightest_is (cmp := fun v c => c <=. v) ⟨_, F64.is_neg F64.is_inf⟩ (es := comp.constr.l) (fun e he => by
      obtain ⟨p, hp, hb, -⟩ := hf.mf.lower.1 he
      exact hbd p hp _ _ _ hb) x
    refine ⟨y, hy, ?_⟩
    have := (R64.tightest_lo (init := FloatOps.neg FloatOps.inf) (fun h => by cases h) comp.constr.l x).2 y
    rw [F64.below_is hy, F64.below_is (F64.is_neg F64.is_inf)] at this
    exact (this.1 le_rfl).1
  · intro w hw
    obtain ⟨x, hx, rfl⟩ := List.mem_map.1 hw
    obtain ⟨y, hy⟩ := R64.tightest_is (cmp := fun v c => v <=. c) ⟨_, F64.is_inf⟩ (es := comp.constr.u) (fun e he => by
      obtain ⟨p, hp, hb, -⟩ := hf.mf.upper.1 he
      exact hbd p hp _ _ _ hb) x
    refine ⟨y, hy, ?_⟩
    have := (R64.tightest_up (init := FloatOps.inf) (fun h => by cases h) comp.constr.u x).2 y
    rw [F64.above_is hy, F64.above_is F64.is_inf] at this
    exact (this.1 le_rfl).1

end Verif
