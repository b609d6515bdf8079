import Verif.Proofs.Class
import Verif.Proofs.EvalSpec
import Verif.Spec.Repro

/-! # Two standard problems of one model -/

set_option linter.unusedSectionVars false
set_option linter.unusedSimpArgs false

namespace Verif

section
variable {F : Type} [FloatOps F]

theorem stdProperties_strip (a : Node F) : (strip a).stdProperties = a.stdProperties := by
  induction a using Node.ind with
  | const i v => rfl
  | var i s k => rfl
  | add i args ih =>
    simp only [strip, Node.stdProperties, strips_eq]
    generalize (⟨true, [], zero⟩ : Prop' F) = acc
    induction args generalizing acc with
    | nil => rfl
    | cons a as ih' =>
      simp only [List.map_cons, Node.stdProperties.addProps]
      rw [ih a (by simp)]
      exact ih' (fun b hb => ih b (by simp [hb])) _
  | cos i a ih => simp only [strip, Node.stdProperties, ih]
  | sin i a ih => simp only [strip, Node.stdProperties, ih]
  | div i a b iha ihb => simp only [strip, Node.stdProperties, iha, ihb]
  | mul i a b iha ihb => simp only [strip, Node.stdProperties, iha, ihb]

theorem Sim.stdProperties {a b : Node F} (h : Sim a b) : a.stdProperties = b.stdProperties := by
  rw [← stdProperties_strip a, ← stdProperties_strip b, show strip a = strip b from h]

theorem sim_subN {a b a' b' : Node F} (ha : Sim a a') (hb : Sim b b') : Sim2 (subN a b) (subN a' b') Sim :=
  Sim2.bind (sim_sMul b b' hb) fun _ _ h => sim_addN ha h

theorem sim_occurs {l l' : Level} {h h' : Heap F} {a b : Node F} (hs : Sim a b) (ha : Good l h a) (hb : Good l' h' b) {x : Node F}
    (hx : x.isVar = true) : Occurs x a ↔ Occurs x b := by
  have h1 := keys_iff ha (x := x)
  have h2 := keys_iff hb (x := x)
  rw [hs.stdProperties, h2] at h1
  simpa [hx] using h1.symm

/-- What two runs made of one constraint. -/
structure PSim (p q : Piece F) : Prop where
  c : p.c = q.c
  arow : p.arow = q.arow
  jrow : p.jrow = q.jrow
  exp : Sim p.exp q.exp
  prop : p.comp.prop = q.comp.prop
  lin : p.isLin = q.isLin
  nl : p.isNl = q.isNl
  slack : (p.slack = none ∧ q.slack = none) ∨ ∃ s t, p.slack = some s ∧ q.slack = some t ∧ s.name = t.name
  bnd : (p.bnd = none ∧ q.bnd = none) ∨ ∃ d x y v, p.bnd = some (d, x, v) ∧ q.bnd = some (d, y, v) ∧
    ((p.slack = some x ∧ q.slack = some y) ∨ (x = y ∧ x.isVar = true ∧ Occurs x p.exp))
  coefs : (p.slack = none ∧ p.coefs.Perm q.coefs ∧ ∀ e ∈ p.coefs, e.1.isVar = true ∧ Occurs e.1 p.exp) ∨ (∃ es es', ∃ s t : Node F, p.slack = some s ∧ q.slack = some t ∧ p.coefs = es ++ [(s, negOne)] ∧
    q.coefs = es' ++ [(t, negOne)] ∧ es.Perm es' ∧ ∀ e ∈ es, e.1.isVar = true ∧ Occurs e.1 p.exp) ∨ (p.coefs = [] ∧ q.coefs = [])

end

section
variable {F : Type} [FloatOps F] {H H' : HashOrder} {l l' : Level} {h h' : Heap F} {n m n' m' : Nat}

theorem Piece.Ok.boundVar {p : Piece F} (hp : p.Ok H l h n m) {x : Node F} (hk : p.kind = .bound x) : p.c.boundVar p.comp.prop = some x := by
  obtain ⟨v, h1, h2⟩ := hp.bound x hk
  have h3 : p.comp.prop.affine = true := by rw [hp.affine]; simp [Piece.isNl, hk]
  have h4 : p.c.kind ≠ .equal := fun h => by
    have := hp.equal.1 h
    simp [Piece.bnd, hk] at this
  simp [Constraint.boundVar, h1, h2, h3, h4]

theorem psim {p q : Piece F} (hp : p.Ok H l h n m) (hq : q.Ok H' l' h' n' m') (hc : p.c = q.c) (ha : p.arow = q.arow)
    (hj : p.jrow = q.jrow) : PSim p q := by
  have hexp : Sim p.exp q.exp := by
    obtain ⟨k, hk⟩ := hp.exp
    obtain ⟨k', hk'⟩ := hq.exp
    rw [hc] at hk
    obtain ⟨b, m2, hb, hs⟩ := (sim_subN (Sim.refl q.c.lhs) (Sim.refl q.c.rhs)).ok hk n'
    rw [hk'] at hb
    cases hb
    exact hs
  have hprop : p.comp.prop = q.comp.prop := by rw [hp.prop.2, hq.prop.2, hexp.stdProperties]
  have hnl : p.isNl = q.isNl := by
    have h1 := hp.affine
    rw [hprop, hq.affine] at h1
    simpa using h1.symm
  have heq : p.bnd = none ↔ q.bnd = none := by rw [← hp.equal, ← hq.equal, hc]
  have hpk : ∀ e ∈ p.comp.prop.a, e.1.isVar = true ∧ Occurs e.1 p.exp := fun e he => hp.propKeys he
  have hnb : ∀ x, p.kind ≠ .bound x → q.kind = .bound x → False := fun x h1 h2 => by
    have h3 := hq.boundVar h2
    rw [← hprop, ← hc] at h3
    have h4 : ∀ y, p.kind ≠ .bound y := fun y hy => by
      have := hp.boundVar hy
      rw [h3] at this
      cases this
      exact h1 hy
    rw [hp.notBound h4] at h3
    cases h3
  have hnb' : ∀ x, q.kind ≠ .bound x → p.kind = .bound x → False := fun x h1 h2 => by
    have h3 := hp.boundVar h2
    rw [hprop, hc] at h3
    have h4 : ∀ y, q.kind ≠ .bound y := fun y hy => by
      have := hq.boundVar hy
      rw [h3] at this
      cases this
      exact h1 hy
    rw [hq.notBound h4] at h3
    cases h3
  cases hkp : p.kind with
  | bound x =>
    have hkq : q.kind = .bound x := by
      by_contra hne
      exact hnb' x hne hkp
    obtain ⟨v, hv, -⟩ := hp.bound x hkp
    refine ⟨hc, ha, hj, hexp, hprop, ?_, hnl, .inl ?_, .inr ⟨decide (p.c.kind = .lessEqual), x, x, FloatOps.neg p.comp.prop.b, ?_, ?_, .inr ⟨rfl, hpk (x, v) (by simp [hv])⟩⟩, .inr (.inr ?_)⟩
    · simp [Piece.isLin, hkp, hkq]
    · simp [Piece.slack, hkp, hkq]
    · simp [Piece.bnd, hkp]
    · simp [Piece.bnd, hkq, hc, hprop]
    · simp [Piece.coefs, hkp, hkq]
  | linEq es =>
    have h2 : q.bnd = none := heq.1 (by simp [Piece.bnd, hkp])
    have h3 : q.isNl = false := by rw [← hnl]; simp [Piece.isNl, hkp]
    obtain ⟨es', hkq⟩ : ∃ es', q.kind = .linEq es' := by
      cases hk : q.kind <;> simp [Piece.bnd, Piece.isNl, hk] at h2 h3 ⊢
    refine ⟨hc, ha, hj, hexp, hprop, ?_, hnl, .inl ?_, .inl ?_, .inl ⟨?_, ?_, ?_⟩⟩
    · simp [Piece.isLin, hkp, hkq]
    · simp [Piece.slack, hkp, hkq]
    · simp [Piece.bnd, hkp, hkq]
    · simp [Piece.slack, hkp]
    · simp only [Piece.coefs, hkp, hkq]
      exact (hp.linEq es hkp).trans (hprop ▸ (hq.linEq es' hkq).symm)
    · simp only [Piece.coefs, hkp]
      exact fun e he => hpk e ((hp.linEq es hkp).mem_iff.1 he)
  | linIneq es s =>
    have h2 : q.bnd ≠ none := fun hh => by have := heq.2 hh; simp [Piece.bnd, hkp] at this
    have h3 : q.isNl = false := by rw [← hnl]; simp [Piece.isNl, hkp]
    obtain ⟨es', t, hkq⟩ : ∃ es' t, q.kind = .linIneq es' t := by
      cases hk : q.kind with
      | bound x => exact (hnb x (by simp [hkp]) hk).elim
      | linIneq es' t => exact ⟨_, _, rfl⟩
      | _ => simp [Piece.bnd, Piece.isNl, hk] at h2 h3
    refine ⟨hc, ha, hj, hexp, hprop, ?_, hnl, .inr ⟨s, t, ?_, ?_, ?_⟩, .inr ⟨decide (p.c.kind = .lessEqual), s, t, zero, ?_, ?_, .inl ⟨?_, ?_⟩⟩,
      .inr (.inl ⟨es, es', s, t, ?_, ?_, ?_, ?_, ?_, ?_⟩)⟩
    · simp [Piece.isLin, hkp, hkq]
    · simp [Piece.slack, hkp]
    · simp [Piece.slack, hkq]
    · rw [(hp.linIneq es s hkp).2, (hq.linIneq es' t hkq).2, ha]
    · simp [Piece.bnd, hkp]
    · simp [Piece.bnd, hkq, hc]
    · simp [Piece.slack, hkp]
    · simp [Piece.slack, hkq]
    · simp [Piece.slack, hkp]
    · simp [Piece.slack, hkq]
    · simp [Piece.coefs, hkp]
    · simp [Piece.coefs, hkq]
    · exact (hp.linIneq es s hkp).1.trans (hprop ▸ (hq.linIneq es' t hkq).1.symm)
    · exact fun e he => hpk e ((hp.linIneq es s hkp).1.mem_iff.1 he)
  | nlEq =>
    have h2 : q.bnd = none := heq.1 (by simp [Piece.bnd, hkp])
    have h3 : q.isNl = true := by rw [← hnl]; simp [Piece.isNl, hkp]
    have hkq : q.kind = .nlEq := by
      cases hk : q.kind <;> simp [Piece.bnd, Piece.isNl, hk] at h2 h3 ⊢
    refine ⟨hc, ha, hj, hexp, hprop, ?_, hnl, .inl ?_, .inl ?_, .inr (.inr ?_)⟩
    · simp [Piece.isLin, hkp, hkq]
    · simp [Piece.slack, hkp, hkq]
    · simp [Piece.bnd, hkp, hkq]
    · simp [Piece.coefs, hkp, hkq]
  | nlIneq s f m1 =>
    have h2 : q.bnd ≠ none := fun hh => by have := heq.2 hh; simp [Piece.bnd, hkp] at this
    have h3 : q.isNl = true := by rw [← hnl]; simp [Piece.isNl, hkp]
    obtain ⟨t, f', m1', hkq⟩ : ∃ t f' m1', q.kind = .nlIneq t f' m1' := by
      cases hk : q.kind with
      | nlIneq t f' m1' => exact ⟨_, _, _, rfl⟩
      | _ => simp [Piece.bnd, Piece.isNl, hk] at h2 h3
    refine ⟨hc, ha, hj, hexp, hprop, ?_, hnl, .inr ⟨s, t, ?_, ?_, ?_⟩, .inr ⟨decide (p.c.kind = .lessEqual), s, t, zero, ?_, ?_, .inl ⟨?_, ?_⟩⟩,
      .inr (.inr ?_)⟩
    · simp [Piece.isLin, hkp, hkq]
    · simp [Piece.slack, hkp]
    · simp [Piece.slack, hkq]
    · rw [(hp.nlIneq s f m1 hkp).1, (hq.nlIneq t f' m1' hkq).1, hj]
    · simp [Piece.bnd, hkp]
    · simp [Piece.bnd, hkq, hc]
    · simp [Piece.slack, hkp]
    · simp [Piece.slack, hkq]
    · simp [Piece.coefs, hkp, hkq]

theorem psim_chain {ar jr : Nat} {ps qs : List (Piece F)} (hp : PChain H l h n ar jr ps m) (hq : PChain H' l' h' n' ar jr qs m')
    (hc : ps.map (·.c) = qs.map (·.c)) : List.Forall₂ PSim ps qs := by
  induction ps generalizing qs n n' ar jr with
  | nil =>
    cases qs with
    | nil => exact .nil
    | cons q qs => simp at hc
  | cons p ps ih =>
    cases qs with
    | nil => simp at hc
    | cons q qs =>
      simp only [List.map_cons, List.cons.injEq] at hc
      obtain ⟨h1, h2, k, h3, h4, h5⟩ := hp
      obtain ⟨g1, g2, k', g3, g4, g5⟩ := hq
      have hs := psim h4 g4 hc.1 (h1.trans g1.symm) (h2.trans g2.symm)
      rw [← hs.lin, ← hs.nl] at g5
      exact .cons hs (ih h5 g5 hc.2)

end

/-! ### Columns -/

section
variable {F : Type} [FloatOps F] {H H' : HashOrder} {l l' : Level} {h h' : Heap F} {n m n' m' : Nat} {mod : Model F}
  {comp comp' : ModelComp F} {e e' : Node F} {ps ps' : List (Piece F)} {cols cols' : List (Node F)} {xes xes' : List (Node F × F)}
  {ves ves' : List (Node F × Nat)} {sp sp' : StdProb F}

theorem MFacts.simObj (hf : MFacts H l h n m mod comp e ps) (hf' : MFacts H' l' h' n' m' mod comp' e' ps') : Sim e e' := by
  cases ho : mod.objective with
  | minimize f => rw [hf.objMin f ho, hf'.objMin f ho]; exact Sim.refl f
  | maximize f =>
    obtain ⟨k, k1, hk⟩ := hf.objMax f ho
    obtain ⟨k', k1', hk'⟩ := hf'.objMax f ho
    obtain ⟨b, m2, hb, hs⟩ := (sim_negN (Sim.refl f)).ok hk k'
    rw [hk'] at hb
    cases hb
    exact hs
  | empty =>
    obtain ⟨i, hi⟩ := hf.objEmpty ho
    obtain ⟨j, hj⟩ := hf'.objEmpty ho
    rw [hi, hj]
    exact sim_const.2 rfl

theorem MFacts.psim (hf : MFacts H l h n m mod comp e ps) (hf' : MFacts H' l' h' n' m' mod comp' e' ps') :
    List.Forall₂ PSim ps ps' := by
  obtain ⟨k, -, hc⟩ := hf.chain
  obtain ⟨k', -, hc'⟩ := hf'.chain
  exact psim_chain hc hc' (by rw [hf.cs, hf'.cs])

/-- The variables of the user are the same. -/
theorem MFacts.userCol (hf : MFacts H l h n m mod comp e ps) (hf' : MFacts H' l' h' n' m' mod comp' e' ps') {x : Node F} :
    (x.isVar = true ∧ (Occurs x e ∨ ∃ p ∈ ps, Occurs x p.exp)) ↔ (x.isVar = true ∧ (Occurs x e' ∨ ∃ p ∈ ps', Occurs x p.exp)) := by
  have hps := hf.psim hf'
  refine and_congr_right fun hx => or_congr (sim_occurs (hf.simObj hf') hf.goodE hf'.goodE hx) ⟨?_, ?_⟩
  · rintro ⟨p, hp, ho⟩
    obtain ⟨q, hq, hpq⟩ := forall₂_left hps hp
    obtain ⟨_, _, -, -, hok⟩ := hf.piece hp
    obtain ⟨_, _, -, -, hok'⟩ := hf'.piece hq
    exact ⟨q, hq, (sim_occurs hpq.exp hok.goodExp hok'.goodExp hx).1 ho⟩
  · rintro ⟨q, hq, ho⟩
    obtain ⟨p, hp, hpq⟩ := forall₂_right hps hq
    obtain ⟨_, _, -, -, hok⟩ := hf.piece hp
    obtain ⟨_, _, -, -, hok'⟩ := hf'.piece hq
    exact ⟨p, hp, (sim_occurs hpq.exp hok.goodExp hok'.goodExp hx).2 ho⟩

theorem MFacts.userVar (hf : MFacts H l h n m mod comp e ps) {x : Node F}
    (hx : x.isVar = true ∧ (Occurs x e ∨ ∃ p ∈ ps, Occurs x p.exp)) : mod.HasVar x := by
  obtain ⟨hx, ho | ⟨p, hp, ho⟩⟩ := hx
  · exact hf.objVar hx ho
  · exact hf.pieceVar hp hx ho

theorem psim_names {ps ps' : List (Piece F)} (h : List.Forall₂ PSim ps ps') :
    (ps.filterMap Piece.slack).map Node.name = (ps'.filterMap Piece.slack).map Node.name := by
  induction h with
  | nil => rfl
  | cons hr _ ih =>
    rcases hr.slack with ⟨h1, h2⟩ | ⟨s, t, h1, h2, h3⟩ <;> simp [List.filterMap_cons, h1, h2, ih]
    exact h3

/-- The columns are the variables of the user and the slack variables. -/
theorem SpFacts.split (hf : SpFacts H l h n m mod comp e ps cols xes ves sp) :
    cols.Perm ((cols.filter fun x => decide (x.id < n)) ++ ps.filterMap Piece.slack) ∧
    ∀ x, x ∈ (cols.filter fun x => decide (x.id < n)) ↔ (x.isVar = true ∧ (Occurs x e ∨ ∃ p ∈ ps, Occurs x p.exp)) := by
  obtain ⟨k, hk, hch⟩ := hf.mf.chain
  have hsl := hch.slacks
  have hu : ∀ x, x ∈ (cols.filter fun x => decide (x.id < n)) ↔ (x.isVar = true ∧ (Occurs x e ∨ ∃ p ∈ ps, Occurs x p.exp)) := by
    intro x
    rw [List.mem_filter, hf.mem, decide_eq_true_eq]
    constructor
    · rintro ⟨hx | hx, hlt⟩
      · exact hx
      · have := (hsl.1 x hx).1
        omega
    · exact fun hx => ⟨.inl hx, (hf.mf.old x (hf.mf.userVar hx)).1⟩
  refine ⟨(List.perm_ext_iff_of_nodup hf.cok.nodup' ?_).2 fun x => ?_, hu⟩
  · refine List.nodup_append.2 ⟨hf.cok.nodup'.filter _, hsl.2.imp fun hlt heq => ?_, fun a ha b hb => ?_⟩
    · rw [heq] at hlt; omega
    · have h1 := (List.mem_filter.1 ha).2
      have h2 := (hsl.1 b hb).1
      simp only [decide_eq_true_eq] at h1
      rintro rfl
      omega
  · rw [List.mem_append, hu, hf.mem]
    rfl

theorem names_perm (hf : SpFacts H l h n m mod comp e ps cols xes ves sp) (hf' : SpFacts H' l' h' n' m' mod comp' e' ps' cols' xes' ves' sp') :
    (cols.map Node.name).Perm (cols'.map Node.name) := by
  obtain ⟨h1, h2⟩ := hf.split
  obtain ⟨h1', h2'⟩ := hf'.split
  refine (h1.map _).trans (List.Perm.trans ?_ (h1'.map _).symm)
  rw [List.map_append, List.map_append, psim_names (hf.mf.psim hf'.mf)]
  refine List.Perm.append_right _ (List.Perm.map _ ?_)
  refine (List.perm_ext_iff_of_nodup (hf.cok.nodup'.filter _) (hf'.cok.nodup'.filter _)).2 fun x => ?_
  rw [h2, h2', hf.mf.userCol hf'.mf]

theorem names_eq (hf : SpFacts H l h n m mod comp e ps cols xes ves sp) (hf' : SpFacts H' l' h' n' m' mod comp' e' ps' cols' xes' ves' sp') :
    cols.map Node.name = cols'.map Node.name := by
  refine (names_perm hf hf').eq_of_pairwise (le := fun a b : String => a ≤ b) ?_ ?_ ?_
  · exact fun a b _ _ h1 h2 => String.le_antisymm h1 h2
  · rw [List.pairwise_map]; exact hf.sorted
  · rw [List.pairwise_map]; exact hf'.sorted

/-- Columns of the two problems with the same name. -/
def SameCol (cols cols' : List (Node F)) (x y : Node F) : Prop := x ∈ cols ∧ y ∈ cols' ∧ x.name = y.name

theorem idx_of_name {cols : List (Node F)} (hn : (cols.map Node.name).Nodup) {i j : Nat} {x y : Node F} (hi : cols[i]? = some x)
    (hj : cols[j]? = some y) (he : x.name = y.name) : i = j := by
  have h1 : (cols.map Node.name)[i]? = some x.name := by simp [hi]
  have h2 : (cols.map Node.name)[j]? = some x.name := by simp [hj, he]
  have hlt : i < (cols.map Node.name).length := (List.getElem?_eq_some_iff.1 h1).1
  exact (List.getElem?_inj hlt hn).1 (h1.trans h2.symm)

structure Pair (cols cols' : List (Node F)) : Prop where
  names : cols.map Node.name = cols'.map Node.name
  nodup : (cols.map Node.name).Nodup
  ok : ∃ (l : Level) (h : Heap F), ColsOk l h cols
  ok' : ∃ (l : Level) (h : Heap F), ColsOk l h cols'

theorem Pair.length (hp : Pair cols cols') : cols.length = cols'.length := by
  have := congrArg List.length hp.names
  simpa using this

theorem Pair.all (hp : Pair cols cols') : List.Forall₂ (SameCol cols cols') cols cols' := by
  rw [List.forall₂_iff_get]
  refine ⟨hp.length, fun i h1 h2 => ⟨by simp, by simp, ?_⟩⟩
  have := congrArg (fun l => l[i]?) hp.names
  simpa [List.getElem?_eq_getElem h1, List.getElem?_eq_getElem h2] using this

theorem Pair.colOf (hp : Pair cols cols') {x y : Node F} (h : SameCol cols cols' x y) : colOf cols x = colOf cols' y := by
  obtain ⟨_, _, hc⟩ := hp.ok
  obtain ⟨_, _, hc'⟩ := hp.ok'
  have h1 := (hc.col h.1).2
  have h2 := (hc'.col h.2.1).2
  have g1 : (cols.map Node.name)[Verif.colOf cols x]? = some x.name := by simp [h1]
  have g2 : (cols.map Node.name)[Verif.colOf cols' y]? = some x.name := by rw [hp.names]; simp [h2, h.2.2]
  have hlt : Verif.colOf cols x < (cols.map Node.name).length := (List.getElem?_eq_some_iff.1 g1).1
  exact (List.getElem?_inj hlt hp.nodup).1 (g1.trans g2.symm)

theorem Pair.ptrEq (hp : Pair cols cols') {x y a b : Node F} (h : SameCol cols cols' x y) (h' : SameCol cols cols' a b) :
    x.ptrEq a = y.ptrEq b := by
  obtain ⟨_, _, hc⟩ := hp.ok
  obtain ⟨_, _, hc'⟩ := hp.ok'
  rw [Bool.eq_iff_iff, (hc.good x h.1).ptrEq_iff (hc.good a h'.1), (hc'.good y h.2.1).ptrEq_iff (hc'.good b h'.2.1)]
  constructor
  · rintro rfl
    exact hc'.col_inj h.2.1 h'.2.1 (by rw [← hp.colOf h, ← hp.colOf h'])
  · rintro rfl
    exact hc.col_inj h.1 h'.1 (by rw [hp.colOf h, hp.colOf h'])

theorem map_pair {α : Type} (hp : Pair cols cols') {f g : Node F → α} (h : ∀ x y, SameCol cols cols' x y → f x = g y) :
    cols.map f = cols'.map g := by
  have := hp.all
  generalize hR : SameCol cols cols' = R at this h
  clear hR hp
  induction this with
  | nil => rfl
  | cons hr _ ih => simp [h _ _ hr, ih]

end

/-! ### Data -/

section
variable {F : Type} [FloatOps F] {H H' : HashOrder} {l l' : Level} {h h' : Heap F} {n m n' m' : Nat} {mod : Model F}
  {comp comp' : ModelComp F} {e e' : Node F} {ps ps' : List (Piece F)} {cols cols' : List (Node F)} {xes xes' : List (Node F × F)}
  {ves ves' : List (Node F × Nat)} {sp sp' : StdProb F}

theorem name_inj {cols : List (Node F)} (hn : (cols.map Node.name).Nodup) {x y : Node F} (hx : x ∈ cols) (hy : y ∈ cols)
    (he : x.name = y.name) : x = y := by
  obtain ⟨i, hi⟩ := List.mem_iff_getElem?.1 hx
  obtain ⟨j, hj⟩ := List.mem_iff_getElem?.1 hy
  have := idx_of_name hn hi hj he
  rw [this, hj] at hi
  injection hi with hi; exact hi.symm

/-- Two standard problems of one model. -/
structure Two (H H' : HashOrder) (l l' : Level) (h h' : Heap F) (n m n' m' : Nat) (mod : Model F) (comp comp' : ModelComp F) (e e' : Node F)
    (ps ps' : List (Piece F)) (cols cols' : List (Node F)) (xes xes' : List (Node F × F)) (ves ves' : List (Node F × Nat))
    (sp sp' : StdProb F) : Prop where
  hf : SpFacts H l h n m mod comp e ps cols xes ves sp
  hf' : SpFacts H' l' h' n' m' mod comp' e' ps' cols' xes' ves' sp'
  nodup : (cols.map Node.name).Nodup
  initNd : NodupP (keysN mod.initPrimals)
  init : ∀ e ∈ mod.initPrimals, e.1.id < n ∧ e.1.id < n'

variable (T : Two H H' l l' h h' n m n' m' mod comp comp' e e' ps ps' cols cols' xes xes' ves ves' sp sp')
include T

theorem Two.pair : Pair cols cols' := ⟨names_eq T.hf T.hf', T.nodup, ⟨_, _, T.hf.cok⟩, ⟨_, _, T.hf'.cok⟩⟩

theorem Two.nodup' : (cols'.map Node.name).Nodup := T.pair.names ▸ T.nodup

theorem Two.user {x : Node F} (hx : x.isVar = true ∧ (Occurs x e ∨ ∃ p ∈ ps, Occurs x p.exp)) : SameCol cols cols' x x :=
  ⟨(T.hf.mem x).2 (.inl hx), (T.hf'.mem x).2 (.inl ((T.hf.mf.userCol T.hf'.mf).1 hx)), rfl⟩

theorem Two.slack {p q : Piece F} (hp : p ∈ ps) (hq : q ∈ ps') (hpq : PSim p q) {s t : Node F} (hs : p.slack = some s)
    (ht : q.slack = some t) : SameCol cols cols' s t := by
  refine ⟨(T.hf.mem s).2 (.inr (List.mem_filterMap.2 ⟨p, hp, hs⟩)), (T.hf'.mem t).2 (.inr (List.mem_filterMap.2 ⟨q, hq, ht⟩)), ?_⟩
  rcases hpq.slack with ⟨h1, -⟩ | ⟨s', t', h1, h2, h3⟩
  · rw [h1] at hs; cases hs
  · rw [hs] at h1; rw [ht] at h2; cases h1; cases h2; exact h3

theorem Two.inv {x y : Node F} (hxy : SameCol cols cols' x y) :
    (x = y ∧ mod.HasVar x) ∨ (∃ p ∈ ps, p.slack = some x) ∧ ∃ p ∈ ps', p.slack = some y := by
  rcases (T.hf.mem x).1 hxy.1 with hx | hx
  · left
    have := T.user hx
    exact ⟨name_inj T.nodup' this.2.1 hxy.2.1 hxy.2.2, T.hf.mf.userVar hx⟩
  · right
    obtain ⟨p, hp, hs⟩ := List.mem_filterMap.1 hx
    obtain ⟨q, hq, hpq⟩ := forall₂_left (T.hf.mf.psim T.hf'.mf) hp
    refine ⟨⟨p, hp, hs⟩, q, hq, ?_⟩
    rcases hpq.slack with ⟨h1, -⟩ | ⟨s', t', h1, h2, h3⟩
    · rw [h1] at hs; cases hs
    · have := T.slack hp hq hpq h1 h2
      rw [hs] at h1; cases h1
      rw [h2, name_inj T.nodup' this.2.1 hxy.2.1 (this.2.2.symm.trans hxy.2.2)]

theorem Two.objProp : comp.obj.prop = comp'.obj.prop := by
  rw [T.hf.mf.objProp.2, T.hf'.mf.objProp.2, (T.hf.mf.simObj T.hf'.mf).stdProperties]

theorem Two.stdC : stdC cols comp = stdC cols' comp' := by
  refine map_pair T.pair fun x y hxy => ?_
  rcases T.inv hxy with ⟨rfl, -⟩ | ⟨⟨p, hp, hs⟩, q, hq, ht⟩
  · rw [T.objProp]
  · unfold valAt
    rw [getN_none_of, getN_none_of]
    · rw [T.hf'.mf.objProp.2]
      intro z hz
      have hz' := (stdProperties_keys e').2.1 z hz
      exact (T.hf'.mf.slack_new (List.mem_filterMap.2 ⟨q, hq, ht⟩) (T.hf'.mf.objVar hz'.1 hz'.2)).1
    · rw [T.hf.mf.objProp.2]
      intro z hz
      have hz' := (stdProperties_keys e).2.1 z hz
      exact (T.hf.mf.slack_new (List.mem_filterMap.2 ⟨p, hp, hs⟩) (T.hf.mf.objVar hz'.1 hz'.2)).1

theorem Two.isInteger {x y : Node F} (hxy : SameCol cols cols' x y) : x.isInteger = y.isInteger := by
  rcases T.inv hxy with ⟨rfl, -⟩ | ⟨⟨p, hp, hs⟩, q, hq, ht⟩
  · rfl
  · obtain ⟨_, _, -, -, hok⟩ := T.hf.mf.piece hp
    obtain ⟨_, _, -, -, hok'⟩ := T.hf'.mf.piece hq
    obtain ⟨-, i, s, rfl, -⟩ := hok.slack x hs
    obtain ⟨-, i', s', rfl, -⟩ := hok'.slack y ht
    rfl

theorem Two.stdP : stdP cols = stdP cols' := map_pair T.pair fun _ _ hxy => T.isInteger hxy

theorem Two.stdX0 : stdX0 cols xes = stdX0 cols' xes' := by
  have hnd : NodupP (keysN xes) := T.initNd.perm (T.hf.xesP.map _).symm
  have hnd' : NodupP (keysN xes') := T.initNd.perm (T.hf'.xesP.map _).symm
  refine map_pair T.pair fun x y hxy => ?_
  rw [valAt_perm T.hf.xesP hnd, valAt_perm T.hf'.xesP hnd']
  rcases T.inv hxy with ⟨rfl, -⟩ | ⟨⟨p, hp, hs⟩, q, hq, ht⟩
  · rfl
  · obtain ⟨k, hk, hch⟩ := T.hf.mf.chain
    obtain ⟨k', hk', hch'⟩ := T.hf'.mf.chain
    have h1 := (hch.slacks.1 x (List.mem_filterMap.2 ⟨p, hp, hs⟩)).1
    have h2 := (hch'.slacks.1 y (List.mem_filterMap.2 ⟨q, hq, ht⟩)).1
    have hne : ∀ z : Node F, ∀ w : Node F, z.id ≠ w.id → z.ptrEq w = false := fun z w hzw => by
      simp only [Node.ptrEq, Bool.and_eq_false_iff, beq_eq_false_iff_ne]
      exact .inr hzw
    unfold valAt
    rw [getN_none_of, getN_none_of]
    · intro z hz
      obtain ⟨w, hw, rfl⟩ := List.mem_map.1 hz
      exact hne _ _ (by have := (T.init w hw).2; omega)
    · intro z hz
      obtain ⟨w, hw, rfl⟩ := List.mem_map.1 hz
      exact hne _ _ (by have := (T.init w hw).1; omega)

/-- Corresponding bounds. -/
theorem Two.bounds (up : Bool) : List.Forall₂ (fun a b : Node F × F × Constraint F => SameCol cols cols' a.1 b.1 ∧ a.2 = b.2)
    (ps.flatMap fun p => p.bounds up) (ps'.flatMap fun p => p.bounds up) := by
  have hps := T.hf.mf.psim T.hf'.mf
  have key : ∀ p ∈ ps, ∀ q ∈ ps', PSim p q → List.Forall₂ (fun a b : Node F × F × Constraint F => SameCol cols cols' a.1 b.1 ∧ a.2 = b.2)
      (p.bounds up) (q.bounds up) := by
    intro p hp q hq hpq
    unfold Piece.bounds
    rcases hpq.bnd with ⟨h1, h2⟩ | ⟨d, x, y, v, h1, h2, h3⟩
    · rw [h1, h2]; exact .nil
    · rw [h1, h2]
      simp only
      split
      · refine .cons ⟨?_, by rw [hpq.c]⟩ .nil
        rcases h3 with ⟨h3, h4⟩ | ⟨rfl, h3, h4⟩
        · exact T.slack hp hq hpq h3 h4
        · exact T.user ⟨h3, .inr ⟨p, hp, h4⟩⟩
      · exact .nil
  generalize hR : (fun a b : Node F × F × Constraint F => SameCol cols cols' a.1 b.1 ∧ a.2 = b.2) = R at key ⊢
  clear hR T
  induction hps with
  | nil => exact .nil
  | cons hpq _ ih =>
    simp only [List.flatMap_cons]
    exact List.rel_append (key _ (by simp) _ (by simp) hpq) (ih fun p hp q hq => key p (by simp [hp]) q (by simp [hq]))

omit T in
theorem tightest_pair (hp : Pair cols cols') {us us' : List (Node F × F × Constraint F)}
    (hu : List.Forall₂ (fun a b : Node F × F × Constraint F => SameCol cols cols' a.1 b.1 ∧ a.2 = b.2) us us') (t : F → F → Bool) (i : F)
    {x y : Node F} (hxy : SameCol cols cols' x y) : tightest t i us x = tightest t i us' y := by
  unfold tightest
  generalize ((i, none) : F × Option (Constraint F)) = s
  induction hu generalizing s with
  | nil => rfl
  | cons hr _ ih =>
    simp only [List.foldl_cons]
    rw [hp.ptrEq hr.1 hxy, hr.2]
    exact ih _

theorem Two.upT {x y : Node F} (hxy : SameCol cols cols' x y) : upT comp x = upT comp' y := by
  unfold Verif.upT
  rw [T.hf.mf.constr, T.hf'.mf.constr]
  simp only [ConstrComp.concat, List.flatMap_map]
  exact tightest_pair T.pair (T.bounds true) _ _ hxy

theorem Two.loT {x y : Node F} (hxy : SameCol cols cols' x y) : loT comp x = loT comp' y := by
  unfold Verif.loT
  rw [T.hf.mf.constr, T.hf'.mf.constr]
  simp only [ConstrComp.concat, List.flatMap_map]
  exact tightest_pair T.pair (T.bounds false) _ _ hxy

theorem Two.stdU : stdU cols comp = stdU cols' comp' := map_pair T.pair fun _ _ hxy => by rw [T.upT hxy]
theorem Two.stdL : stdL cols comp = stdL cols' comp' := map_pair T.pair fun _ _ hxy => by rw [T.loT hxy]

theorem Two.b : comp.constr.b = comp'.constr.b := by
  rw [T.hf.mf.constr, T.hf'.mf.constr]
  simp only [ConstrComp.concat, List.flatMap_map]
  have hps := T.hf.mf.psim T.hf'.mf
  clear T
  induction hps with
  | nil => rfl
  | cons hpq _ ih =>
    simp only [List.flatMap_cons, ih]
    simp only [Piece.out, hpq.lin, hpq.prop]

theorem Two.aindex : sp.aindex2constr = sp'.aindex2constr := by
  rw [T.hf.aindex, T.hf'.aindex]
  have hps := T.hf.mf.psim T.hf'.mf
  clear T
  induction hps with
  | nil => rfl
  | cons hpq _ ih =>
    simp only [List.filter_cons, hpq.lin]
    split
    · simp only [List.map_cons, ih, hpq.arow, hpq.c]
    · exact ih

theorem Two.jindex : sp.jindex2constr = sp'.jindex2constr := by
  rw [T.hf.jindex, T.hf'.jindex]
  have hps := T.hf.mf.psim T.hf'.mf
  clear T
  induction hps with
  | nil => rfl
  | cons hpq _ ih =>
    simp only [List.filter_cons, hpq.nl]
    split
    · simp only [List.map_cons, ih, hpq.jrow, hpq.c]
    · exact ih

theorem Two.flen : comp.constr.f.length = comp'.constr.f.length := by
  have h1 := congrArg List.length T.jindex
  rw [T.hf.jindex, T.hf'.jindex] at h1
  rw [T.hf.mf.f_eq, T.hf'.mf.f_eq]
  simpa using h1

theorem Two.a : (linP cols comp.constr.a).Perm (linP cols' comp'.constr.a) := by
  rw [T.hf.mf.constr, T.hf'.mf.constr]
  simp only [ConstrComp.concat, List.flatMap_map, linP, List.map_flatMap]
  have hps := T.hf.mf.psim T.hf'.mf
  have key : ∀ p ∈ ps, ∀ q ∈ ps', PSim p q → (p.out.a.map fun e => (e.1, colOf cols e.2.1, e.2.2)).Perm
      (q.out.a.map fun e => (e.1, colOf cols' e.2.1, e.2.2)) := by
    intro p hp q hq hpq
    have hperm : ∀ es es' : List (Node F × F), es.Perm es' → (∀ e ∈ es, e.1.isVar = true ∧ Occurs e.1 p.exp) →
        (es.map fun e => (p.arow, colOf cols e.1, e.2)).Perm (es'.map fun e => (q.arow, colOf cols' e.1, e.2)) := by
      intro es es' he hk
      rw [hpq.arow]
      refine List.Perm.trans ?_ (he.map _)
      rw [List.map_congr_left fun a ha => by rw [T.pair.colOf (T.user ⟨(hk a ha).1, .inr ⟨p, hp, (hk a ha).2⟩⟩)]]
    simp only [Piece.out, List.map_map, Function.comp_def]
    rcases hpq.coefs with ⟨-, h1, h2⟩ | ⟨es, es', s, t, h1, h2, h3, h4, h5, h6⟩ | ⟨h1, h2⟩
    · exact hperm _ _ h1 h2
    · rw [h3, h4, List.map_append, List.map_append]
      refine (hperm es es' h5 h6).append ?_
      simp [hpq.arow, T.pair.colOf (T.slack hp hq hpq h1 h2)]
    · rw [h1, h2]; simp
  clear T
  induction hps with
  | nil => exact .nil
  | cons hpq _ ih =>
    simp only [List.flatMap_cons]
    exact (key _ (by simp) _ (by simp) hpq).append (ih fun p hp q hq => key p (by simp [hp]) q (by simp [hq]))

theorem Two.cls : sp.prob.cls = sp'.prob.cls ∧ sp.prob.cost = sp'.prob.cost := by
  rw [T.hf.prob, T.hf'.prob]
  unfold stdProbOf
  have h1 : (comp.obj.prop.affine = true ∧ comp.constr.f = []) ↔ (comp'.obj.prop.affine = true ∧ comp'.constr.f = []) := by
    rw [T.objProp, ← List.length_eq_zero_iff, T.flen, List.length_eq_zero_iff]
  have h2 : (∀ x ∈ cols, x.isInteger = false) ↔ ∀ x ∈ cols', x.isInteger = false := by
    constructor
    · intro hh y hy
      obtain ⟨x, hx, hxy⟩ := forall₂_right T.pair.all hy
      rw [← T.isInteger hxy]; exact hh x hx
    · intro hh x hx
      obtain ⟨y, hy, hxy⟩ := forall₂_left T.pair.all hx
      rw [T.isInteger hxy]; exact hh y hy
  simp only [h1, h2, T.stdC]
  split <;> split <;> exact ⟨rfl, rfl⟩

theorem Two.uindex (i : Nat) (c : Constraint F) : (i, c) ∈ sp.uindex2constr ↔ (i, c) ∈ sp'.uindex2constr := by
  rw [← getNat_mem T.hf.uidx.nodup, ← getNat_mem T.hf'.uidx.nodup, T.hf.uidx.get, T.hf'.uidx.get]
  have := map_pair T.pair (f := fun x => (Verif.upT comp x).2) (g := fun x => (Verif.upT comp' x).2) fun x y hxy => by rw [T.upT hxy]
  have := congrArg (fun l => l[i]?) this
  simp only [List.getElem?_map] at this
  revert this
  cases cols[i]? <;> cases cols'[i]? <;> simp
  intro h; rw [h]

theorem Two.lindex (i : Nat) (c : Constraint F) : (i, c) ∈ sp.lindex2constr ↔ (i, c) ∈ sp'.lindex2constr := by
  rw [← getNat_mem T.hf.lidx.nodup, ← getNat_mem T.hf'.lidx.nodup, T.hf.lidx.get, T.hf'.lidx.get]
  have := map_pair T.pair (f := fun x => (Verif.loT comp x).2) (g := fun x => (Verif.loT comp' x).2) fun x y hxy => by rw [T.loT hxy]
  have := congrArg (fun l => l[i]?) this
  simp only [List.getElem?_map] at this
  revert this
  cases cols[i]? <;> cases cols'[i]? <;> simp
  intro h; rw [h]

end
end Verif
