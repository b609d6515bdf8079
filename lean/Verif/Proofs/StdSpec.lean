import Verif.Proofs.StdProb

/-! # What `std_problem` returns -/

set_option linter.unusedSectionVars false
set_option linter.unusedSimpArgs false

namespace Verif

variable {F : Type} [FloatOps F]
variable {H : HashOrder} {l : Level} {h h' : Heap F} {n m : Nat} {mod : Model F} {comp : ModelComp F} {e : Node F}
  {ps : List (Piece F)} {cols : List (Node F)}

theorem Piece.Ok.gphiKeys {p : Piece F} (hp : p.Ok H l h n m) {q : Node F × Node F} (hq : q ∈ p.comp.gphi) :
    q.1.isVar = true ∧ Occurs q.1 p.exp := by
  obtain ⟨k, k', hk⟩ := hp.comp
  exact (stdProperties_keys p.exp).2.1 _ ((stdComponents_gphi hk).mem_iff.1 (List.mem_map.2 ⟨q, hq, rfl⟩))

theorem Piece.Ok.hphiKeys {p : Piece F} (hp : p.Ok H l h n m) {q : Node F × Node F × Node F} (hq : q ∈ p.comp.hphi) :
    (q.1.isVar = true ∧ Occurs q.1 p.exp) ∧ (q.2.1.isVar = true ∧ Occurs q.2.1 p.exp) := by
  obtain ⟨k, k', hk⟩ := hp.comp
  have := stdComponents_hphi_mem hk q hq
  exact ⟨(stdProperties_keys p.exp).2.1 _ this.1, (stdProperties_keys p.exp).2.1 _ this.2⟩

theorem Piece.Ok.propKeys {p : Piece F} (hp : p.Ok H l h n m) {q : Node F × F} (hq : q ∈ p.comp.prop.a) :
    q.1.isVar = true ∧ Occurs q.1 p.exp := by
  rw [hp.prop.2] at hq
  exact (stdProperties_keys p.exp).2.1 _ (List.mem_map.2 ⟨q, hq, rfl⟩)

theorem Piece.Ok.coefKeys {p : Piece F} (hp : p.Ok H l h n m) {q : Node F × F} (hq : q ∈ p.coefs) :
    (q.1.isVar = true ∧ Occurs q.1 p.exp) ∨ p.slack = some q.1 := by
  unfold Piece.coefs at hq
  split at hq
  · rename_i es hk
    exact .inl (hp.propKeys ((hp.linEq es hk).mem_iff.1 hq))
  · rename_i es s hk
    rcases List.mem_append.1 hq with hq | hq
    · exact .inl (hp.propKeys ((hp.linIneq es s hk).1.mem_iff.1 hq))
    · simp only [List.mem_singleton] at hq
      subst hq
      exact .inr (by simp [Piece.slack, hk])
  · simp at hq

theorem Piece.Ok.jacKeys {p : Piece F} (hp : p.Ok H l h n m) {q : Node F × Node F} (hq : q ∈ p.jac) :
    (q.1.isVar = true ∧ Occurs q.1 p.exp) ∨ p.slack = some q.1 := by
  unfold Piece.jac at hq
  split at hq
  · exact .inl (hp.gphiKeys hq)
  · rename_i s f m1 hk
    rcases List.mem_append.1 hq with hq | hq
    · exact .inl (hp.gphiKeys hq)
    · simp only [List.mem_singleton] at hq
      subst hq
      exact .inr (by simp [Piece.slack, hk])
  · simp at hq

theorem Piece.Ok.bndKeys {p : Piece F} (hp : p.Ok H l h n m) {b : Bool × Node F × F} (hq : p.bnd = some b) :
    (b.2.1.isVar = true ∧ Occurs b.2.1 p.exp) ∨ p.slack = some b.2.1 := by
  unfold Piece.bnd at hq
  split at hq
  · rename_i x hk
    obtain ⟨v, hv, _⟩ := hp.bound x hk
    injection hq with hq
    subst hq
    exact .inl (hp.propKeys (q := (x, v)) (by simp [hv]))
  · rename_i es s hk
    injection hq with hq; subst hq
    exact .inr (by simp [Piece.slack, hk])
  · rename_i s f m1 hk
    injection hq with hq; subst hq
    exact .inr (by simp [Piece.slack, hk])
  · cases hq

theorem MFacts.piece (hf : MFacts H l h n m mod comp e ps) {p : Piece F} (hp : p ∈ ps) : ∃ n' m', n ≤ n' ∧ m' ≤ m ∧ p.Ok H l h n' m' := by
  obtain ⟨k, hk, hc⟩ := hf.chain
  obtain ⟨n', m', h1, h2, h3⟩ := hc.ok p hp
  exact ⟨n', m', by omega, h2, h3⟩

theorem MFacts.objProp (hf : MFacts H l h n m mod comp e ps) : comp.obj.phi = e ∧ comp.obj.prop = e.stdProperties := by
  obtain ⟨k, k', hk⟩ := hf.objComp
  exact stdComponents_prop hk

theorem MFacts.compOk (hf : MFacts H l h n m mod comp e ps) (hcols : ∀ x, x ∈ cols ↔ MFacts.IsCol e ps x) : CompOk cols comp := by
  obtain ⟨ko, ko', hko⟩ := hf.objComp
  have hobj : ∀ x ∈ keysN e.stdProperties.a, x ∈ cols := fun x hx => by
    obtain ⟨h1, h2⟩ := (stdProperties_keys e).2.1 x hx
    exact (hcols x).2 (.inl ⟨h1, .inl h2⟩)
  have hpc : ∀ p ∈ ps, ∀ x, ((x.isVar = true ∧ Occurs x p.exp) ∨ p.slack = some x) → x ∈ cols := by
    rintro p hp x (⟨h1, h2⟩ | hs)
    · exact (hcols x).2 (.inl ⟨h1, .inr ⟨p, hp, h2⟩⟩)
    · exact (hcols x).2 (.inr (List.mem_filterMap.2 ⟨p, hp, hs⟩))
  have hg := stdComponents_gphi hko
  constructor
  · intro q hq
    exact hobj _ (hg.mem_iff.1 (List.mem_map.2 ⟨q, hq, rfl⟩))
  · exact (stdProperties_keys e).1.perm hg.symm
  · intro q hq
    have := stdComponents_hphi_mem hko q hq
    exact ⟨hobj _ this.1, hobj _ this.2⟩
  · rw [hf.objProp.2]
    intro q hq
    exact hobj _ (List.mem_map.2 ⟨q, hq, rfl⟩)
  · rw [hf.objProp.2]; exact (stdProperties_keys e).1
  · rw [hf.constr]
    intro q hq
    simp only [ConstrComp.concat, List.mem_flatMap, List.mem_map] at hq
    obtain ⟨o, ⟨p, hp, rfl⟩, hq⟩ := hq
    obtain ⟨n', m', _, _, hok⟩ := hf.piece hp
    simp only [Piece.out, List.mem_map] at hq
    obtain ⟨c, hc, rfl⟩ := hq
    exact hpc p hp _ (hok.coefKeys hc)
  · rw [hf.constr]
    intro q hq
    simp only [ConstrComp.concat, List.mem_flatMap, List.mem_map] at hq
    obtain ⟨o, ⟨p, hp, rfl⟩, hq⟩ := hq
    obtain ⟨n', m', _, _, hok⟩ := hf.piece hp
    simp only [Piece.out, List.mem_map] at hq
    obtain ⟨c, hc, rfl⟩ := hq
    exact hpc p hp _ (hok.jacKeys hc)
  · rw [hf.constr]
    intro es hes q hq
    simp only [ConstrComp.concat, List.mem_flatMap, List.mem_map] at hes
    obtain ⟨o, ⟨p, hp, rfl⟩, hes⟩ := hes
    obtain ⟨n', m', _, _, hok⟩ := hf.piece hp
    simp only [Piece.out] at hes
    split at hes
    · simp only [List.mem_singleton] at hes
      subst hes
      have := hok.hphiKeys hq
      exact ⟨hpc p hp _ (.inl this.1), hpc p hp _ (.inl this.2)⟩
    · simp at hes
  · rw [hf.constr]
    intro q hq
    simp only [ConstrComp.concat, List.mem_flatMap, List.mem_map] at hq
    obtain ⟨o, ⟨p, hp, rfl⟩, hq⟩ := hq
    obtain ⟨n', m', _, _, hok⟩ := hf.piece hp
    simp only [Piece.out, Piece.bounds] at hq
    split at hq
    · rename_i d x v hb
      split at hq
      · simp only [List.mem_singleton] at hq
        subst hq
        exact hpc p hp _ (hok.bndKeys hb)
      · simp at hq
    · simp at hq
  · rw [hf.constr]
    intro q hq
    simp only [ConstrComp.concat, List.mem_flatMap, List.mem_map] at hq
    obtain ⟨o, ⟨p, hp, rfl⟩, hq⟩ := hq
    obtain ⟨n', m', _, _, hok⟩ := hf.piece hp
    simp only [Piece.out, Piece.bounds] at hq
    split at hq
    · rename_i d x v hb
      split at hq
      · simp only [List.mem_singleton] at hq
        subst hq
        exact hpc p hp _ (hok.bndKeys hb)
      · simp at hq
    · simp at hq
  · rw [hf.constr]
    simp only [ConstrComp.concat, List.length_flatMap, List.map_map]
    congr 1
    refine List.map_congr_left fun p _ => ?_
    simp only [Function.comp, Piece.out]
    split <;> rfl

/-- The facts about a standard problem. -/
structure SpFacts (H : HashOrder) (l : Level) (h : Heap F) (n m : Nat) (mod : Model F) (comp : ModelComp F) (e : Node F)
    (ps : List (Piece F)) (cols : List (Node F)) (xes : List (Node F × F)) (ves : List (Node F × Nat)) (sp : StdProb F) : Prop where
  mf : MFacts H l h n m mod comp e ps
  cok : ColsOk l h cols
  mem : ∀ x, x ∈ cols ↔ MFacts.IsCol e ps x
  sorted : cols.Pairwise fun x y => x.name ≤ y.name
  cmpOk : CompOk cols comp
  xesP : xes.Perm mod.initPrimals
  vesP : ves.Perm cols.zipIdx
  prob : sp.prob = stdProbOf cols comp xes ves
  v2i : sp.var2index = cols.zipIdx
  aidx : sp.aindex2constr = comp.constr.ca.zipIdx.map (fun e => (e.2, e.1))
  jidx : sp.jindex2constr = comp.constr.cj.zipIdx.map (fun e => (e.2, e.1))
  uidx : BndIdx cols (fun x => (upT comp x).2) sp.uindex2constr
  lidx : BndIdx cols (fun x => (loT comp x).2) sp.lindex2constr

/-- After the standard components, everything succeeds. -/
theorem stdProblem_after (hf : MFacts H l h n m mod comp e ps) (hinit : NodupP (keysN mod.initPrimals))
    (hcomp : mod.stdComponents H n = .ok (comp, m)) :
    ∃ sp xes ves cols m', mod.stdProblem H n = .ok (sp, m') ∧ m' = m + 5 ∧ SpFacts H l h n m mod comp e ps cols xes ves sp := by
  obtain ⟨hvn, hvm⟩ := hf.varset
  let vs := H.order m (Node F) comp.varset
  have hvs : vs.Perm comp.varset := H.perm _ _ _
  let cols := sortByName vs
  have hcp : cols.Perm comp.varset := (sortByName_perm vs).trans hvs
  have hmem : ∀ x, x ∈ cols ↔ MFacts.IsCol e ps x := fun x => hcp.mem_iff.trans (hvm x)
  have hnd : NodupP cols := hvn.perm hcp.symm
  have hcok : ColsOk l h cols := ⟨hnd, fun x hx => hf.isCol_good ((hmem x).1 hx), fun x hx => hf.isCol_var ((hmem x).1 hx)⟩
  have hlen : comp.varset.length = cols.length := hcp.length_eq.symm
  let xes := H.order (m + 1 + 1 + 1 + 1) (Node F × F) mod.initPrimals
  have hx : xes.Perm mod.initPrimals := H.perm _ _ _
  let ves := H.order (m + 1) (Node F × Nat) cols.zipIdx
  have hv : ves.Perm cols.zipIdx := H.perm _ _ _
  have hok := hf.compOk hmem
  obtain ⟨sp, s1, s2, s3, s4, s5, s6, s7⟩ := assemble_ok (ves := ves) (xes := xes) hcok hok
    (ies := H.order (m + 1 + 1 + 1) _ cols.zipIdx) (pes := H.order (m + 1 + 1) _ comp.obj.prop.a) (H.perm _ _ _) (H.perm _ _ _)
    (hinit.perm (hx.map _).symm)
  refine ⟨sp, xes, ves, cols, m + 5, ?_, rfl, hf, hcok, hmem, sortByName_sorted vs, hok, hx, hv, s2, s3, s4, s5, s6, s7⟩
  unfold Model.stdProblem
  rw [M.bind_ok_eq hcomp, M.bind_ok_eq (HashOrder.iter_ok.2 ⟨rfl, rfl⟩)]
  rw [show sortByName (H.order m (Node F) comp.varset) = cols from rfl, indexMap_eq hnd,
    M.bind_ok_eq (HashOrder.iter_ok.2 ⟨rfl, rfl⟩), M.bind_ok_eq (HashOrder.iter_ok.2 ⟨rfl, rfl⟩),
    M.bind_ok_eq (HashOrder.iter_ok.2 ⟨rfl, rfl⟩), M.bind_ok_eq (HashOrder.iter_ok.2 ⟨rfl, rfl⟩), hlen, M.ofR_ok]
  exact ⟨s1, rfl⟩

/-- The specification of `std_problem`. -/
theorem spec_stdProblem (hn : HInv h n) (hg : ModelGood l h mod) (hinit : NodupP (keysN mod.initPrimals)) :
    Spec h n (mod.stdProblem H) (fun h' m sp => ∃ k comp e ps cols xes ves, SpFacts H l h' n k mod comp e ps cols xes ves sp ∧
      mod.stdComponents H n = .ok (comp, k)) := by
  intro sp m hsp
  have h0 := hsp
  unfold Model.stdProblem at hsp
  rw [M.bind_ok] at hsp
  obtain ⟨comp, k, hcomp, -⟩ := hsp
  obtain ⟨h1, hle1, hn1, hm1, e, ps, hf⟩ := spec_modelComp (H := H) hn hg comp k hcomp
  obtain ⟨sp', xes, ves, cols, m', e1, e2, e3⟩ := stdProblem_after hf hinit hcomp
  rw [h0] at e1
  injection e1 with e1
  injection e1 with e4 e5
  subst e4 e5
  exact ⟨h1, hle1, fun i hi => hn1 i (by omega), by omega, k, comp, e, ps, cols, xes, ves, e3, hcomp⟩

end Verif
