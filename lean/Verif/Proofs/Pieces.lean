import Verif.Proofs.World

/-! # The components of a model, piece by piece; columns -/

set_option linter.unusedSectionVars false
set_option linter.unusedSimpArgs false

namespace Verif

variable {F : Type} [FloatOps F]

/-- Concatenation of components. -/
def ConstrComp.concat (l : List (ConstrComp F)) : ConstrComp F :=
  ⟨l.flatMap (·.ca), l.flatMap (·.cj), l.flatMap (·.a), l.flatMap (·.b), l.flatMap (·.f), l.flatMap (·.j), l.flatMap (·.h),
    l.flatMap (·.u), l.flatMap (·.l), l.flatMap (·.prop)⟩

theorem ConstrComp.foldl_append (s : ConstrComp F) (l : List (ConstrComp F)) :
    l.foldl ConstrComp.append s = s.append (concat l) := by
  induction l generalizing s with
  | nil => simp [concat, append]
  | cons c l ih => rw [List.foldl_cons, ih]; simp [concat, append]

theorem ConstrComp.foldl_empty (l : List (ConstrComp F)) : l.foldl ConstrComp.append ConstrComp.empty = concat l := by
  rw [foldl_append]; simp [concat, append, empty]

/-- Pieces created one after the other, with row counters. -/
def PChain (H : HashOrder) (l : Level) (h : Heap F) : Nat → Nat → Nat → List (Piece F) → Nat → Prop
  | n, _, _, [], m => n = m
  | n, ar, jr, p :: ps, m => p.arow = ar ∧ p.jrow = jr ∧ ∃ k, n ≤ k ∧ p.Ok H l h n k ∧
      PChain H l h k (ar + p.isLin.toNat) (jr + p.isNl.toNat) ps m

variable {H : HashOrder} {l : Level} {h h' : Heap F} {n m ar jr : Nat} {ps : List (Piece F)}

theorem PChain.mono (hp : PChain H l h n ar jr ps m) (hle : h.le h') : PChain H l h' n ar jr ps m := by
  induction ps generalizing n ar jr with
  | nil => exact hp
  | cons p ps ih =>
    obtain ⟨h1, h2, k, h3, h4, h5⟩ := hp
    exact ⟨h1, h2, k, h3, h4.mono hle, ih h5⟩

theorem PChain.le (hp : PChain H l h n ar jr ps m) : n ≤ m := by
  induction ps generalizing n ar jr with
  | nil => exact Nat.le_of_eq hp
  | cons p ps ih =>
    obtain ⟨h1, h2, k, h3, h4, h5⟩ := hp
    exact Nat.le_trans h3 (ih h5)

theorem PChain.ok (hp : PChain H l h n ar jr ps m) : ∀ p ∈ ps, ∃ n' m', n ≤ n' ∧ m' ≤ m ∧ p.Ok H l h n' m' := by
  induction ps generalizing n ar jr with
  | nil => simp
  | cons p ps ih =>
    obtain ⟨h1, h2, k, h3, h4, h5⟩ := hp
    intro q hq
    rcases List.mem_cons.1 hq with rfl | hq
    · exact ⟨n, k, Nat.le_refl _, h5.le, h4⟩
    · obtain ⟨n', m', a, b, c⟩ := ih h5 q hq
      exact ⟨n', m', by omega, b, c⟩

theorem PChain.lin (hp : PChain H l h n ar jr ps m) :
    (ps.filter Piece.isLin).map Piece.arow = List.range' ar (ps.filter Piece.isLin).length := by
  induction ps generalizing n ar jr with
  | nil => simp
  | cons p ps ih =>
    obtain ⟨h1, h2, k, h3, h4, h5⟩ := hp
    have := ih h5
    cases hl : p.isLin
    · simp only [hl, Bool.toNat_false, Nat.add_zero] at this
      simp [hl, this]
    · simp only [hl, Bool.toNat_true] at this
      simp [hl, this, h1, List.range'_succ]

theorem PChain.nl (hp : PChain H l h n ar jr ps m) :
    (ps.filter Piece.isNl).map Piece.jrow = List.range' jr (ps.filter Piece.isNl).length := by
  induction ps generalizing n ar jr with
  | nil => simp
  | cons p ps ih =>
    obtain ⟨h1, h2, k, h3, h4, h5⟩ := hp
    have := ih h5
    cases hl : p.isNl
    · simp only [hl, Bool.toNat_false, Nat.add_zero] at this
      simp [hl, this]
    · simp only [hl, Bool.toNat_true] at this
      simp [hl, this, h2, List.range'_succ]

/-- Slack variables have increasing numbers, starting at `n`. -/
theorem PChain.slacks (hp : PChain H l h n ar jr ps m) :
    (∀ s ∈ ps.filterMap Piece.slack, n ≤ s.id ∧ s.id < m) ∧ (ps.filterMap Piece.slack).Pairwise (fun a b => a.id < b.id) := by
  induction ps generalizing n ar jr with
  | nil => simp
  | cons p ps ih =>
    obtain ⟨h1, h2, k, h3, h4, h5⟩ := hp
    obtain ⟨i1, i2⟩ := ih h5
    have hk := h5.le
    cases hs : p.slack with
    | none =>
      simp only [List.filterMap_cons, hs]
      exact ⟨fun s hs => ⟨by have := (i1 s hs).1; omega, (i1 s hs).2⟩, i2⟩
    | some s =>
      obtain ⟨hg, i, str, he, hi1, hi2⟩ := h4.slack s hs
      have hid : s.id = i := by rw [he]; rfl
      simp only [List.filterMap_cons, hs, List.mem_cons, forall_eq_or_imp, List.pairwise_cons]
      refine ⟨⟨by omega, fun s hs => ⟨by have := (i1 s hs).1; omega, (i1 s hs).2⟩⟩, fun s' hs' => ?_, i2⟩
      have := (i1 s' hs').1
      omega

theorem spec_constrLoop {cs : List (Constraint F)} : ∀ {h : Heap F} {n : Nat} {s : ConstrComp F × Nat × Nat}, HInv h n →
    (∀ c ∈ cs, Good l h c.lhs ∧ Good l h c.rhs) →
    Spec h n (constrLoop H s cs) (fun h' m r => ∃ ps : List (Piece F), ps.map (·.c) = cs ∧ PChain H l h' n s.2.1 s.2.2 ps m ∧
      r.1 = (ps.map Piece.out).foldl ConstrComp.append s.1) := by
  induction cs with
  | nil => intro h n s hn _; exact Spec.pure hn ⟨[], rfl, rfl, rfl⟩
  | cons c cs ih =>
    intro h n s hn hg
    simp only [constrLoop]
    refine (spec_constr hn (hg c (by simp)).1 (hg c (by simp)).2).bind fun h1 k r hle1 hn1 hk1 hq => ?_
    obtain ⟨p, hp, hc, hra, hrj, rfl⟩ := hq
    refine (ih hn1 fun d hd => ⟨(hg d (by simp [hd])).1.mono hle1, (hg d (by simp [hd])).2.mono hle1⟩).weaken ?_
    rintro h2 m2 r2 hle2 hn2 ⟨ps, e1, e2, e3⟩
    exact ⟨p :: ps, by simp [e1, hc], ⟨hra, hrj, k, hk1, hp.mono hle2, e2⟩, by simpa using e3⟩

/-! ### The model -/

/-- The expressions of a model are in the cells `h`. -/
structure ModelGood (l : Level) (h : Heap F) (mod : Model F) : Prop where
  min : ∀ f, mod.objective = .minimize f → Good l h f
  max : ∀ f, mod.objective = .maximize f → Good l h f
  cs : ∀ c ∈ mod.constraints, Good l h c.lhs ∧ Good l h c.rhs

/-- What is known about the components of a model. -/
structure MFacts (H : HashOrder) (l : Level) (h : Heap F) (n m : Nat) (mod : Model F) (comp : ModelComp F) (e : Node F)
    (ps : List (Piece F)) : Prop where
  objMin : ∀ f, mod.objective = .minimize f → e = f
  objMax : ∀ f, mod.objective = .maximize f → ∃ k k', negN f k = .ok (e, k')
  objEmpty : mod.objective = .empty → ∃ i, e = .const i zero
  objComp : ∃ k k', e.stdComponents H k = .ok (comp.obj, k')
  goodE : Good l h e
  goodG : ∀ q ∈ comp.obj.gphi, Good l h q.2
  goodH : ∀ q ∈ comp.obj.hphi, Good l h q.2.2
  cs : ps.map (·.c) = mod.constraints
  chain : ∃ k, n ≤ k ∧ PChain H l h k 0 0 ps m
  constr : comp.constr = ConstrComp.concat (ps.map Piece.out)
  old : ∀ x, mod.HasVar x → x.id < n ∧ Good l h x

theorem MFacts.mono {mod : Model F} {comp : ModelComp F} {e : Node F} (hf : MFacts H l h n m mod comp e ps) (hle : h.le h') :
    MFacts H l h' n m mod comp e ps :=
  { hf with
    goodE := hf.goodE.mono hle
    goodG := fun q hq => (hf.goodG q hq).mono hle
    goodH := fun q hq => (hf.goodH q hq).mono hle
    chain := hf.chain.imp fun k hk => ⟨hk.1, hk.2.mono hle⟩
    old := fun x hx => ⟨(hf.old x hx).1, (hf.old x hx).2.mono hle⟩ }

theorem ModelGood.old {mod : Model F} (hg : ModelGood l h mod) {x : Node F} (hx : mod.HasVar x) : Good l h x := by
  obtain ⟨-, ⟨f, hf | hf, ho⟩ | ⟨c, hc, ho | ho⟩⟩ := hx
  · exact (hg.min f hf).sub ho
  · exact (hg.max f hf).sub ho
  · exact (hg.cs c hc).1.sub ho
  · exact (hg.cs c hc).2.sub ho

theorem spec_modelComp {mod : Model F} (hn : HInv h n) (hg : ModelGood l h mod) :
    Spec h n (mod.stdComponents H) (fun h' m comp => ∃ e ps, MFacts H l h' n m mod comp e ps) := by
  unfold Model.stdComponents
  refine Spec.bind (Q := fun h' _ (obj : NodeComp F) => ∃ e,
      (∀ f, mod.objective = .minimize f → e = f) ∧ (∀ f, mod.objective = .maximize f → ∃ k k', negN f k = .ok (e, k')) ∧
      (mod.objective = .empty → ∃ i, e = .const i zero) ∧ (∃ k k', e.stdComponents H k = .ok (obj, k')) ∧ Good l h' e ∧
      (∀ q ∈ obj.gphi, Good l h' q.2) ∧ ∀ q ∈ obj.hphi, Good l h' q.2.2) ?_ ?_
  · unfold Model.objComponents
    cases ho : mod.objective with
    | minimize f =>
      simp only
      intro obj k hk
      obtain ⟨h1, hle1, hn1, hm1, hq⟩ := spec_nodeComp hn (hg.min f ho) obj k hk
      exact ⟨h1, hle1, hn1, hm1, f, by simp, by simp, by simp, ⟨_, _, hk⟩, (hg.min f ho).mono hle1, hq.1, hq.2⟩
    | maximize f =>
      simp only
      intro obj k hk
      rw [M.bind_ok] at hk
      obtain ⟨e, k1, he, hk⟩ := hk
      obtain ⟨h1, hle1, hn1, hm1, hge⟩ := spec_negN hn (hg.max f ho) e k1 he
      obtain ⟨h2, hle2, hn2, hm2, hq⟩ := spec_nodeComp hn1 hge obj k hk
      refine ⟨h2, Heap.le_trans hle1 hle2, hn2, by omega, e, by simp, ?_, by simp, ⟨_, _, hk⟩, hge.mono hle2, hq.1, hq.2⟩
      intro f' hf'
      simp only [Objective.maximize.injEq] at hf'
      subst hf'
      exact ⟨_, _, he⟩
    | empty =>
      simp only
      intro obj k hk
      rw [M.bind_ok] at hk
      obtain ⟨e, k1, he, hk⟩ := hk
      obtain ⟨h1, hle1, hn1, hm1, hge, hec, -⟩ := spec_newConst (l := l) hn e k1 he
      obtain ⟨h2, hle2, hn2, hm2, hq⟩ := spec_nodeComp hn1 hge obj k hk
      exact ⟨h2, Heap.le_trans hle1 hle2, hn2, by omega, e, by simp, by simp, fun _ => ⟨_, hec⟩, ⟨_, _, hk⟩, hge.mono hle2,
        hq.1, hq.2⟩
  · intro h1 k1 obj hle1 hn1 hk1 ⟨e, e1, e2, e3, e4, e5, e6, e7⟩
    refine (spec_constrLoop hn1 fun c hc => ⟨(hg.cs c hc).1.mono hle1, (hg.cs c hc).2.mono hle1⟩).bind
      fun h2 m2 r hle2 hn2 _ hq => Spec.pure hn2 ?_
    obtain ⟨ps, q1, q2, q3⟩ := hq
    refine ⟨e, ps, e1, e2, e3, e4, e5.mono hle2, fun q hq => (e6 q hq).mono hle2, fun q hq => (e7 q hq).mono hle2, q1,
      ⟨k1, hk1, q2⟩, ?_, fun x hx => ⟨(hg.old hx).lt hn, ((hg.old hx).mono hle1).mono hle2⟩⟩
    rw [q3, ConstrComp.foldl_empty]

/-! ### Variables -/

theorem Piece.Ok.vars {p : Piece F} (hp : p.Ok H l h n m) {x : Node F} (hx : x.isVar = true) :
    (Occurs x p.exp → Occurs x p.c.lhs ∨ Occurs x p.c.rhs) ∧
    ((negOne ==. (zero : F)) = false → Occurs x p.c.lhs ∨ Occurs x p.c.rhs → Occurs x p.exp) := by
  obtain ⟨k, hk⟩ := hp.exp
  exact occ_subN hx _ _ _ _ _ hk

theorem Piece.Ok.prop {p : Piece F} (hp : p.Ok H l h n m) : p.comp.phi = p.exp ∧ p.comp.prop = p.exp.stdProperties := by
  obtain ⟨k, k', hk⟩ := hp.comp
  exact stdComponents_prop hk

theorem keys_iff {e : Node F} (he : Good l h e) {x : Node F} :
    x ∈ keysN e.stdProperties.a ↔ x.isVar = true ∧ Occurs x e := by
  obtain ⟨h1, h2, h3⟩ := stdProperties_keys e
  refine ⟨h2 x, fun ⟨hx, ho⟩ => ?_⟩
  obtain ⟨k, hk, hkx⟩ := h3 x hx ho
  have := ((he.sub (h2 k hk).2).ptrEq_iff (he.sub ho)).1 hkx
  rw [← this]; exact hk

section
variable {mod : Model F} {comp : ModelComp F} {e : Node F}

theorem MFacts.pieceVar (hf : MFacts H l h n m mod comp e ps) {p : Piece F} (hp : p ∈ ps) {x : Node F} (hx : x.isVar = true)
    (ho : Occurs x p.exp) : mod.HasVar x := by
  obtain ⟨k, _, hc⟩ := hf.chain
  obtain ⟨n', m', _, _, hok⟩ := hc.ok p hp
  refine ⟨hx, .inr ⟨p.c, ?_, (hok.vars hx).1 ho⟩⟩
  rw [← hf.cs]; exact List.mem_map.2 ⟨p, hp, rfl⟩

theorem MFacts.objVar (hf : MFacts H l h n m mod comp e ps) {x : Node F} (hx : x.isVar = true)
    (ho : Occurs x e) : mod.HasVar x := by
  refine ⟨hx, .inl ?_⟩
  cases hob : mod.objective with
  | minimize f => exact ⟨f, .inl rfl, by rw [← hf.objMin f hob]; exact ho⟩
  | maximize f =>
    obtain ⟨k, k', hk⟩ := hf.objMax f hob
    exact ⟨f, .inr rfl, (occ_negN hx f _ _ _ hk).1 ho⟩
  | empty =>
    obtain ⟨i, rfl⟩ := hf.objEmpty hob
    exact absurd ho (not_occurs_const hx)

/-- The columns: what the set of variables contains. -/
def MFacts.IsCol (e : Node F) (ps : List (Piece F)) (x : Node F) : Prop :=
  (x.isVar = true ∧ (Occurs x e ∨ ∃ p ∈ ps, Occurs x p.exp)) ∨ x ∈ ps.filterMap Piece.slack

theorem MFacts.isCol_good (hf : MFacts H l h n m mod comp e ps) {x : Node F} (hx : MFacts.IsCol e ps x) : Good l h x := by
  obtain ⟨k, _, hc⟩ := hf.chain
  rcases hx with ⟨hx, ho | ⟨p, hp, ho⟩⟩ | hx
  · exact hf.goodE.sub ho
  · obtain ⟨n', m', _, _, hok⟩ := hc.ok p hp
    exact hok.goodExp.sub ho
  · obtain ⟨p, hp, hs⟩ := List.mem_filterMap.1 hx
    obtain ⟨n', m', _, _, hok⟩ := hc.ok p hp
    exact (hok.slack x hs).1

theorem MFacts.isCol_var (hf : MFacts H l h n m mod comp e ps) {x : Node F} (hx : MFacts.IsCol e ps x) : x.isVar = true := by
  obtain ⟨k, _, hc⟩ := hf.chain
  rcases hx with ⟨hx, _⟩ | hx
  · exact hx
  · obtain ⟨p, hp, hs⟩ := List.mem_filterMap.1 hx
    obtain ⟨n', m', _, _, hok⟩ := hc.ok p hp
    obtain ⟨_, i, s, rfl, _⟩ := hok.slack x hs
    rfl

/-- The slack of a piece is not a variable of its expression. -/
theorem MFacts.slack_new (hf : MFacts H l h n m mod comp e ps) {s x : Node F} (hs : s ∈ ps.filterMap Piece.slack)
    (hx : mod.HasVar x) : x.ptrEq s = false ∧ s.ptrEq x = false ∧ x ≠ s := by
  obtain ⟨k, hk, hc⟩ := hf.chain
  have h1 := (hc.slacks.1 s hs).1
  have h2 := (hf.old x hx).1
  have : x.id ≠ s.id := by omega
  refine ⟨?_, ?_, fun h => this (by rw [h])⟩ <;> simp only [Node.ptrEq, Bool.and_eq_false_iff, beq_eq_false_iff_ne] 
  · exact .inr this
  · exact .inr this.symm

theorem MFacts.propOut (hf : MFacts H l h n m mod comp e ps) {p : Piece F} (hp : p ∈ ps) {x : Node F} :
    x ∈ keysN p.propOut.a ↔ (x.isVar = true ∧ Occurs x p.exp) ∨ p.slack = some x := by
  obtain ⟨k, _, hc⟩ := hf.chain
  obtain ⟨n', m', _, _, hok⟩ := hc.ok p hp
  have hk := fun x => keys_iff hok.goodExp (x := x)
  unfold Piece.propOut
  cases hs : p.slack with
  | none => rw [hok.prop.2, hk]; simp
  | some s =>
    simp only
    rw [hok.prop.2, insertN_upd, updN_absent]
    · simp only [keysN, List.map_append, List.mem_append, List.map_cons, List.map_nil, List.mem_singleton, Option.some.injEq]
      rw [hk]
      exact or_congr Iff.rfl ⟨fun h => h.symm, fun h => h.symm⟩
    · intro y hy
      rw [hk] at hy
      exact (hf.slack_new (List.mem_filterMap.2 ⟨p, hp, hs⟩) (hf.pieceVar hp hy.1 hy.2)).1

theorem varset_eq (comp : ModelComp F) :
    comp.varset = setOf (keysN comp.obj.prop.a ++ comp.constr.prop.flatMap fun p => keysN p.a) := by
  unfold ModelComp.varset setOf
  rw [List.foldl_append]
  generalize List.foldl setInsert [] _ = s
  generalize comp.constr.prop = l
  induction l generalizing s with
  | nil => rfl
  | cons p l ih => simp only [List.foldl_cons, List.flatMap_cons, List.foldl_append, ih]

theorem MFacts.varset (hf : MFacts H l h n m mod comp e ps) :
    NodupP comp.varset ∧ ∀ x, x ∈ comp.varset ↔ MFacts.IsCol e ps x := by
  rw [varset_eq]
  have hobj : comp.obj.prop = e.stdProperties := by
    obtain ⟨k, k', hk⟩ := hf.objComp
    exact (stdComponents_prop hk).2
  have hall : ∀ x, x ∈ (keysN comp.obj.prop.a ++ comp.constr.prop.flatMap fun p => keysN p.a) ↔ MFacts.IsCol e ps x := by
    intro x
    rw [List.mem_append, hobj, keys_iff hf.goodE, hf.constr]
    have hc2 : (x ∈ (ConstrComp.concat (ps.map Piece.out)).prop.flatMap fun p => keysN p.a) ↔ ∃ p ∈ ps, x ∈ keysN p.propOut.a := by
      simp only [ConstrComp.concat, List.mem_flatMap]
      constructor
      · rintro ⟨q, ⟨o, ho, hq⟩, hx⟩
        obtain ⟨p, hp, rfl⟩ := List.mem_map.1 ho
        simp only [Piece.out, List.mem_singleton] at hq
        subst hq
        exact ⟨p, hp, hx⟩
      · rintro ⟨p, hp, hx⟩
        exact ⟨p.propOut, ⟨p.out, List.mem_map.2 ⟨p, hp, rfl⟩, by simp [Piece.out]⟩, hx⟩
    rw [hc2]
    constructor
    · rintro (h | ⟨p, hp, hx⟩)
      · exact .inl ⟨h.1, .inl h.2⟩
      · rcases (hf.propOut hp).1 hx with h | h
        · exact .inl ⟨h.1, .inr ⟨p, hp, h.2⟩⟩
        · exact .inr (List.mem_filterMap.2 ⟨p, hp, h⟩)
    · rintro (⟨hx, ho | ⟨p, hp, ho⟩⟩ | hx)
      · exact .inl ⟨hx, ho⟩
      · exact .inr ⟨p, hp, (hf.propOut hp).2 (.inl ⟨hx, ho⟩)⟩
      · obtain ⟨p, hp, hs⟩ := List.mem_filterMap.1 hx
        exact .inr ⟨p, hp, (hf.propOut hp).2 (.inr hs)⟩
  refine ⟨setOf_nodup _, fun x => ⟨fun hx => (hall x).1 (setOf_mem hx), fun hx => ?_⟩⟩
  obtain ⟨y, hy, hyx⟩ := setOf_has ((hall x).2 hx)
  have := ((hf.isCol_good ((hall y).1 (setOf_mem hy))).ptrEq_iff (hf.isCol_good hx)).1 hyx
  rw [← this]; exact hy

end

/-! ### Columns -/

theorem insertByName_perm (x : Node F) (vs : List (Node F)) : (insertByName x vs).Perm (x :: vs) := by
  induction vs with
  | nil => exact List.Perm.refl _
  | cons y ys ih =>
    simp only [insertByName]
    split
    · exact List.Perm.refl _
    · exact (ih.cons y).trans (List.Perm.swap ..)

theorem sortByName_perm (vs : List (Node F)) : (sortByName vs).Perm vs := by
  unfold sortByName
  induction vs with
  | nil => exact List.Perm.refl _
  | cons x vs ih => exact (insertByName_perm ..).trans (ih.cons x)

theorem insertByName_sorted (x : Node F) (vs : List (Node F)) (h : vs.Pairwise fun x y => x.name.toList ≤ y.name.toList) :
    (insertByName x vs).Pairwise fun x y => x.name.toList ≤ y.name.toList := by
  induction vs with
  | nil => simp [insertByName]
  | cons y ys ih =>
    have h' := h
    rw [List.pairwise_cons] at h
    simp only [insertByName]
    split
    · rename_i hle
      refine List.pairwise_cons.2 ⟨fun z hz => ?_, h'⟩
      rcases List.mem_cons.1 hz with rfl | hz
      · exact hle
      · exact List.le_trans hle (h.1 z hz)
    · rename_i hle
      refine List.pairwise_cons.2 ⟨fun z hz => ?_, ih h.2⟩
      rcases List.mem_cons.1 ((insertByName_perm ..).mem_iff.1 hz) with rfl | hz
      · exact (List.le_total ..).resolve_left hle
      · exact h.1 z hz

theorem sortByName_sorted (vs : List (Node F)) : (sortByName vs).Pairwise fun x y => x.name ≤ y.name := by
  have : (sortByName vs).Pairwise fun x y => x.name.toList ≤ y.name.toList := by
    unfold sortByName
    induction vs with
    | nil => simp
    | cons x vs ih => exact insertByName_sorted _ _ ih
  exact this.imp fun h => h

theorem foldl_insertN_nodup {β : Type} (es : List (Node F × β)) (m : List (Node F × β)) (hn : NodupP (keysN m ++ keysN es)) :
    es.foldl (fun m e => insertN m e.1 e.2) m = m ++ es := by
  induction es generalizing m with
  | nil => simp
  | cons a es ih =>
    rw [List.foldl_cons, insertN_upd, updN_absent, ih]
    · simp
    · simpa [keysN] using hn
    · intro y hy
      have := List.pairwise_append.1 hn
      exact this.2.2 y hy a.1 (by simp)

theorem indexMap_eq {cols : List (Node F)} (hn : NodupP cols) : indexMap cols = cols.zipIdx := by
  unfold indexMap
  rw [foldl_insertN_nodup]
  · rfl
  · simpa [keysN] using hn

/-- Column of a variable. -/
def colOf (cols : List (Node F)) (x : Node F) : Nat := cols.findIdx (fun y => y.ptrEq x)

theorem getN_zipIdx (cols : List (Node F)) (k : Nat) (x : Node F) :
    getN (cols.zipIdx k) x = if cols.any (fun y => y.ptrEq x) then some (k + colOf cols x) else none := by
  induction cols generalizing k with
  | nil => rfl
  | cons y cols ih =>
    simp only [List.zipIdx_cons, getN, List.any_cons, colOf, List.findIdx_cons]
    cases hy : y.ptrEq x
    · simp only [Bool.false_eq_true, if_false, ih, Bool.false_or, cond_false, colOf]
      split <;> simp <;> omega
    · simp

/-- The columns of a problem: distinct cells. -/
structure ColsOk (l : Level) (h : Heap F) (cols : List (Node F)) : Prop where
  nodup : NodupP cols
  good : ∀ x ∈ cols, Good l h x
  var : ∀ x ∈ cols, x.isVar = true

theorem ColsOk.col (hc : ColsOk l h cols) {x : Node F} (hx : x ∈ cols) :
    colOf cols x < cols.length ∧ cols[colOf cols x]? = some x := by
  have hlt : colOf cols x < cols.length := by
    unfold colOf
    rw [List.findIdx_lt_length]
    exact ⟨x, hx, ptrEq_refl x⟩
  refine ⟨hlt, ?_⟩
  rw [List.getElem?_eq_getElem hlt]
  have := List.findIdx_getElem (p := fun y : Node F => y.ptrEq x) (xs := cols) (w := hlt)
  exact congrArg some (((hc.good _ (List.getElem_mem hlt)).ptrEq_iff (hc.good x hx)).1 this)

theorem ColsOk.col_inj (hc : ColsOk l h cols) {x y : Node F} (hx : x ∈ cols) (hy : y ∈ cols) (he : colOf cols x = colOf cols y) :
    x = y := by
  have h1 := (hc.col hx).2
  have h2 := (hc.col hy).2
  rw [he, h2] at h1
  injection h1 with h1; exact h1.symm

theorem ColsOk.nodup' (hc : ColsOk l h cols) : cols.Nodup := by
  refine hc.nodup.imp ?_
  rintro a b hab rfl
  rw [ptrEq_refl] at hab; cases hab

theorem ColsOk.col_get (hc : ColsOk l h cols) {i : Nat} (hi : i < cols.length) : colOf cols cols[i] = i := by
  have h1 := hc.col (List.getElem_mem hi)
  have h2 := h1.2
  rw [List.getElem?_eq_getElem h1.1] at h2
  injection h2 with h2
  exact (List.getElem_inj hc.nodup').1 h2

theorem ColsOk.indexOf (hc : ColsOk l h cols) {x : Node F} (hx : x ∈ cols) : indexOf cols.zipIdx x = .ok (colOf cols x) := by
  have : cols.any (fun y => y.ptrEq x) = true := List.any_eq_true.2 ⟨x, hx, ptrEq_refl x⟩
  unfold Verif.indexOf
  rw [getN_zipIdx, this]
  simp

end Verif
