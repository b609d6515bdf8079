import Verif.Proofs.Ipopt
import Verif.Proofs.EvalSpec
import Verif.Props.ModelStd

/-! # The Ipopt interface on the problems that exist -/

namespace Verif

set_option linter.unusedSectionVars false
set_option linter.unusedSimpArgs false

variable {F : Type} [FloatOps F]

/-! ## Callbacks are histories of problem operations -/

theorem evalIfNew_ops {q q' : Minlp F} {newX : Int} {x : List F} (h : evalIfNew q newX x = .ok q') : ∃ ops, runProb q ops = .ok q' := by
  unfold evalIfNew at h
  split at h
  · exact ⟨[.evaluate (x.take q.nx)], runProb_one (op := .evaluate _) h⟩
  · cases h; exact ⟨[], rfl⟩

theorem Call.exec_ops {q q' : Minlp F} {c : Call F} {a : Answer F} (h : c.exec q = .ok (q', a)) : ∃ ops, runProb q ops = .ok q' := by
  have hnil : ∀ {q q' : Minlp F}, q = q' → ∃ ops, runProb q ops = .ok q' := fun h => ⟨[], by rw [h]; rfl⟩
  cases c with
  | f n x newX out data =>
    simp only [Call.exec, evalFCb] at h
    split at h
    · cases h; exact hnil rfl
    split at h
    · cases h; exact hnil rfl
    split at h
    · cases h; exact hnil rfl
    rw [R.bind_ok_iff] at h
    obtain ⟨q1, h1, h⟩ := h
    cases h
    exact evalIfNew_ops h1
  | gradF n x newX out data =>
    simp only [Call.exec, evalGradFCb] at h
    split at h
    · cases h; exact hnil rfl
    split at h
    · cases h; exact hnil rfl
    split at h
    · cases h; exact hnil rfl
    rw [R.bind_ok_iff] at h
    obtain ⟨q1, h1, h⟩ := h
    cases h
    exact evalIfNew_ops h1
  | g n x newX m out data =>
    simp only [Call.exec, evalGCb] at h
    split at h
    · cases h; exact hnil rfl
    split at h
    · cases h; exact hnil rfl
    split at h
    · cases h; exact hnil rfl
    split at h
    · cases h; exact hnil rfl
    rw [R.bind_ok_iff] at h
    obtain ⟨q1, h1, h⟩ := h
    rw [R.bind_ok_iff] at h
    obtain ⟨ax, -, h⟩ := h
    rw [R.bind_ok_iff] at h
    obtain ⟨_, -, h⟩ := h
    cases h
    exact evalIfNew_ops h1
  | jacG n x newX m nele irow jcol values data =>
    simp only [Call.exec, evalJacGCb] at h
    split at h
    · cases h; exact hnil rfl
    split at h
    · cases h; exact hnil rfl
    split at h
    · cases h; exact hnil rfl
    split at h
    · cases h; exact hnil rfl
    split at h
    · split at h
      · cases h; exact hnil rfl
      · rw [R.bind_ok_iff] at h
        obtain ⟨_, -, h⟩ := h
        cases h; exact hnil rfl
    · split at h
      · cases h; exact hnil rfl
      · rw [R.bind_ok_iff] at h
        obtain ⟨q1, h1, h⟩ := h
        rw [R.bind_ok_iff] at h
        obtain ⟨_, -, h⟩ := h
        rw [R.bind_ok_iff] at h
        obtain ⟨_, -, h⟩ := h
        cases h
        exact evalIfNew_ops h1
  | h n x newX s m lambda newLambda nele irow jcol values data =>
    simp only [Call.exec, evalHCb] at h
    split at h
    · cases h; exact hnil rfl
    split at h
    · cases h; exact hnil rfl
    split at h
    · cases h; exact hnil rfl
    split at h
    · cases h; exact hnil rfl
    split at h
    · split at h
      · cases h; exact hnil rfl
      · rw [R.bind_ok_iff] at h
        obtain ⟨_, -, h⟩ := h
        cases h; exact hnil rfl
    · split at h
      · cases h; exact hnil rfl
      · rw [R.bind_ok_iff] at h
        obtain ⟨q1, h1, h⟩ := h
        obtain ⟨ops1, ho1⟩ := evalIfNew_ops h1
        split at h
        · cases h; exact ⟨_, ho1⟩
        · rename_i lam _
          have hend : ∀ q2 : Minlp F, (if (newX == 1 || newLambda == 1) = true then do
                let vh ← q2.buf.hphi.iter.drain
                let vc ← q2.hcomb.iter.drain
                .ok (q2, (⟨true, vh.map (fun (t : Nat × Nat × F) => s *. t.2.2) ++ vc.map (fun (t : Nat × Nat × F) => t.2.2), [], []⟩ : Answer F))
              else .ok (q2, ⟨true, [], [], []⟩)) = .ok (q', a) → q' = q2 := by
            intro q2 h
            split at h
            · rw [R.bind_ok_iff] at h
              obtain ⟨_, -, h⟩ := h
              rw [R.bind_ok_iff] at h
              obtain ⟨_, -, h⟩ := h
              cases h; rfl
            · cases h; rfl
          by_cases hnl : (newLambda == 1) = true
          · rw [if_pos hnl, R.bind_ok_iff] at h
            obtain ⟨q2, h2, h⟩ := h
            have := hend q2 h
            subst this
            exact ⟨_, runProb_append ho1 (runProb_one (op := .combineH _) h2)⟩
          · rw [if_neg hnl, R.bind_ok_iff] at h
            obtain ⟨q2, h2, h⟩ := h
            cases h2
            have := hend _ h
            subst this
            exact ⟨_, ho1⟩

theorem Native.run_ops {nat : Native F} {q q' : Minlp F} {o : Int × List F × List F × List F × List F} (h : nat.run q = .ok (q', o)) :
    ∃ ops, runProb q ops = .ok q' := by
  induction nat generalizing q with
  | done status x lamnu pi mu => cases h; exact ⟨[], rfl⟩
  | call c next ih =>
    simp only [Native.run] at h
    rw [R.bind_ok_iff] at h
    obtain ⟨⟨q1, a⟩, h1, h⟩ := h
    obtain ⟨ops1, ho1⟩ := Call.exec_ops h1
    obtain ⟨ops2, ho2⟩ := ih a h
    exact ⟨_, runProb_append ho1 ho2⟩

theorem runProb_data {q q' : Minlp F} {ops : List (ProbOp F)} (h : runProb q ops = .ok q') :
    q'.a = q.a ∧ q'.b = q.b ∧ q'.l = q.l ∧ q'.u = q.u ∧ q'.x0 = q.x0 ∧ q'.evalFn = q.evalFn := by
  unfold runProb at h
  induction ops generalizing q with
  | nil => simp only [foldR, Except.ok.injEq] at h; subst h; exact ⟨rfl, rfl, rfl, rfl, rfl, rfl⟩
  | cons op ops ih =>
    rw [foldR_cons_ok] at h
    obtain ⟨q1, h1, h2⟩ := h
    have := ih h2
    have h3 : q1.a = q.a ∧ q1.b = q.b ∧ q1.l = q.l ∧ q1.u = q.u ∧ q1.x0 = q.x0 ∧ q1.evalFn = q.evalFn := by
      cases op with
      | evaluate x =>
        simp only [ProbOp.exec, Minlp.evaluate] at h1
        rw [R.bind_ok_iff] at h1
        obtain ⟨_, -, h1⟩ := h1
        cases h1; exact ⟨rfl, rfl, rfl, rfl, rfl, rfl⟩
      | combineH nu =>
        simp only [ProbOp.exec, Minlp.combineH] at h1
        rw [R.bind_ok_iff] at h1
        obtain ⟨_, -, h1⟩ := h1
        rw [R.bind_ok_iff] at h1
        obtain ⟨_, -, h1⟩ := h1
        cases h1; exact ⟨rfl, rfl, rfl, rfl, rfl, rfl⟩
    simp only [this, h3, and_self]

/-! ## Problems -/

theorem Minlp.initial_sound {hphi a : Coo F} {b : List F} {j : Coo F} {h : List (Coo F)} {l u : List F} {p : List Bool}
    {x0 : Option (List F)} {fn : EvalFn F} (h1 : hphi.WF) (h2 : a.WF) (h3 : ∀ t ∈ a.triplets, t.1 < a.rows ∧ t.2.1 < a.cols)
    (h4 : b.length = a.rows) (h5 : j.WF) (h6 : ∀ m ∈ h, m.WF) (h7 : h.length = j.rows) :
    (Minlp.initial hphi a b j h l u p x0 fn).Sound where
  aWF := h2
  aIn := h3
  b := h4
  gphi := by simp [Minlp.initial, Minlp.nx]
  hphi := h1
  j := h5
  h := h6
  hnum := by simp [Minlp.initial, Minlp.nf, h7]
  combRows := rfl
  combCols := rfl
  combData := by simp [Minlp.initial]

theorem SamePat.toPattern {a b : Coo F} (h : SamePat a b) : a.SamePattern b := h

section
variable {H : HashOrder} {l : Level} {h : Heap F} {n m ar jr : Nat} {ps : List (Piece F)} {cols : List (Node F)} {comp : ModelComp F}

theorem PChain.arange (hc : PChain H l h n ar jr ps m) :
    ∀ e ∈ ps.flatMap fun p => p.out.a, e.1 < ar + (ps.flatMap fun p => p.out.b).length := by
  induction ps generalizing n ar jr with
  | nil => simp
  | cons p ps ih =>
    obtain ⟨h1, h2, k, h3, h4, h5⟩ := hc
    have hi := ih h5
    have hb : p.out.b.length = p.isLin.toNat := by cases hl : p.isLin <;> simp [Piece.out, hl]
    intro e he
    rw [List.flatMap_cons, List.mem_append] at he
    rw [List.flatMap_cons, List.length_append, hb]
    rcases he with he | he
    · cases hl : p.isLin with
      | false => simp [Piece.out, Piece.coefs_nil hl] at he
      | true =>
        simp only [Piece.out, h1, List.append_nil, List.mem_map] at he
        obtain ⟨e', -, rfl⟩ := he
        simp only [Bool.toNat_true]
        omega
    · have := hi e he
      omega

theorem PChain.jrange (hc : PChain H l h n ar jr ps m) :
    ∀ e ∈ ps.flatMap fun p => p.out.j, e.1 < jr + (ps.flatMap fun p => p.out.f).length := by
  induction ps generalizing n ar jr with
  | nil => simp
  | cons p ps ih =>
    obtain ⟨h1, h2, k, h3, h4, h5⟩ := hc
    have hi := ih h5
    have hb : p.out.f.length = p.isNl.toNat := by cases hl : p.isNl <;> simp [Piece.out, hl]
    intro e he
    rw [List.flatMap_cons, List.mem_append] at he
    rw [List.flatMap_cons, List.length_append, hb]
    rcases he with he | he
    · cases hl : p.isNl with
      | false => simp [Piece.out, Piece.jac_nil hl, hl] at he
      | true =>
        simp only [Piece.out, h2, List.mem_append, List.mem_map] at he
        have : e.1 = jr := by
          obtain ⟨e', -, rfl⟩ := he
          rfl
        simp only [Bool.toNat_true]
        omega
    · have := hi e he
      omega

theorem stdA_range {mod : Model F} {e : Node F} {xes : List (Node F × F)} {ves : List (Node F × Nat)} {sp : StdProb F}
    (hf : SpFacts H l h n m mod comp e ps cols xes ves sp) :
    ∀ t ∈ (stdA cols comp).triplets, t.1 < (stdA cols comp).rows ∧ t.2.1 < (stdA cols comp).cols := by
  obtain ⟨k, -, hch⟩ := hf.mf.chain
  have ha := hch.arange
  have e1 : comp.constr.a = ps.flatMap fun p => p.out.a := by rw [hf.mf.constr]; simp [ConstrComp.concat, List.flatMap_map]
  have e2 : comp.constr.b = ps.flatMap fun p => p.out.b := by rw [hf.mf.constr]; simp [ConstrComp.concat, List.flatMap_map]
  rw [← e1, ← e2] at ha
  intro t ht
  have : (stdA cols comp).triplets = linP cols comp.constr.a := by
    unfold stdA Coo.triplets
    dsimp only
    generalize linP cols comp.constr.a = L
    induction L with
    | nil => rfl
    | cons a L ih => simp only [List.map_cons, List.zip_cons_cons, ih]
  rw [this] at ht
  obtain ⟨e', he', rfl⟩ := List.mem_map.1 ht
  have h1 := ha e' he'
  have h2 := (hf.cok.col (hf.cmpOk.a e' he')).1
  simp only [stdA, Coo.rows, Coo.cols]
  exact ⟨by omega, h2⟩

theorem SpFacts.views_eq {mod : Model F} {e : Node F} {xes : List (Node F × F)} {ves : List (Node F × Nat)} {sp : StdProb F}
    (hf : SpFacts H l h n m mod comp e ps cols xes ves sp) {q : Minlp F} (hq : q ∈ sp.prob.views) :
    (comp.constr.f = [] ∧ q = stdLinear cols comp xes) ∨ q = stdMinlp cols comp xes ves := by
  rw [hf.prob] at hq
  unfold stdProbOf at hq
  split at hq
  · rename_i hc
    left
    refine ⟨hc.2, ?_⟩
    split at hq
    · simpa [Problem.views] using hq
    · simpa [Problem.views] using hq
  · right
    split at hq
    · simpa [Problem.views] using hq
    · simpa [Problem.views] using hq

theorem linear_keep {c : List F} {q q' : Minlp F} (hfn : q.evalFn = linearEval c) {ops : List (ProbOp F)} (h : runProb q ops = .ok q') :
    q'.buf = { q.buf with phi := q'.buf.phi, gphi := q'.buf.gphi } ∧ q'.buf.gphi.length = q.buf.gphi.length := by
  unfold runProb at h
  induction ops generalizing q with
  | nil => simp only [foldR, Except.ok.injEq] at h; subst h; exact ⟨rfl, rfl⟩
  | cons op ops ih =>
    rw [foldR_cons_ok] at h
    obtain ⟨q1, h1, h2⟩ := h
    cases op with
    | evaluate x =>
      simp only [ProbOp.exec, Minlp.evaluate, hfn, linearEval] at h1
      rw [R.bind_ok_iff] at h1
      obtain ⟨buf, hb, h1⟩ := h1
      rw [R.bind_ok_iff] at hb
      obtain ⟨phi, _, hb⟩ := hb
      split at hb
      · rename_i hl
        cases hb; cases h1
        obtain ⟨i1, i2⟩ := ih (q := { q with buf := { q.buf with phi := phi, gphi := c }, evalFn := linearEval c }) rfl (by rw [← h2])
        refine ⟨i1, i2.trans ?_⟩
        simpa using (beq_iff_eq.1 hl).symm
      · cases hb
    | combineH nu =>
      simp only [ProbOp.exec, Minlp.combineH] at h1
      rw [R.bind_ok_iff] at h1
      obtain ⟨_, _, h1⟩ := h1
      rw [R.bind_ok_iff] at h1
      obtain ⟨_, _, h1⟩ := h1
      cases h1
      obtain ⟨i1, i2⟩ := ih (by exact hfn) h2
      exact ⟨i1, i2⟩

/-- Every view of the standard problem is sound, and its evaluation is a function of the point. -/
theorem SpFacts.ipopt {mod : Model F} {e : Node F} {xes : List (Node F × F)} {ves : List (Node F × Nat)} {sp : StdProb F}
    (hf : SpFacts H l h n m mod comp e ps cols xes ves sp) {q : Minlp F} (hq : q ∈ sp.prob.views) :
    q.Sound ∧ ∃ val, EvalsTo q val := by
  have hA : (stdA cols comp).WF := by simp [stdA, Coo.WF]
  rcases hf.views_eq hq with ⟨hnf, rfl⟩ | rfl
  · refine ⟨Minlp.initial_sound (by simp [Coo.fromNnz, Coo.WF]) hA (stdA_range hf) rfl (by simp [Coo.fromNnz, Coo.WF]) (by simp) rfl, ?_⟩
    have hi : LinInv (stdC cols comp) (stdA cols comp) comp.constr.b (stdL cols comp) (stdU cols comp) (stdP cols)
        (some (stdX0 cols xes)) (stdLinear cols comp xes) := LinInv.initial (by simp [stdC, stdA, Coo.cols])
    refine ⟨fun x => { (stdLinear cols comp xes).buf with
      phi := unrolledDot zero zero zero zero zero zero zero zero ((stdC cols comp).zip x), gphi := stdC cols comp }, ?_, ?_⟩
    · intro ops q' hr x hx
      rw [(hi.run hr).evaluate (by rw [hx]; simp [stdC, stdLinear, Minlp.initial, Minlp.nx, stdA, Coo.cols]), (linear_keep rfl hr).1]
    · intro x hx
      refine ⟨?_, .refl _, rfl, .refl _, List.forall₂_same.2 fun _ _ => .refl _⟩
      simp [stdLinear, Minlp.initial, stdC, stdA, Coo.cols]
  · refine ⟨Minlp.initial_sound (zeroMat_wf ..) hA (stdA_range hf) rfl (zeroMat_wf ..) (stdH_wf cols comp) ?_, ?_⟩
    · simp only [stdH, stdJ, zeroMat, Coo.rows, List.length_map]
      exact hf.cmpOk.fh.symm
    · have hi : StdInv cols comp xes ves (stdMinlp cols comp xes ves) := StdInv.initial
      refine ⟨fun x => evalBuf cols comp (pointEnv cols x), ?_, ?_⟩
      · intro ops q' hr x hx
        refine (hi.run hf.cok hf.cmpOk hf.vesP hr).evaluate hf.cok hf.cmpOk hf.vesP ?_
        rw [hx]; exact Nat.le_refl _
      · intro x hx
        have hb := evalBuf_inv cols comp (pointEnv cols x)
        refine ⟨?_, hb.hphi, ?_, hb.j, hb.h⟩
        · simp [evalBuf, stdMinlp, Minlp.initial, stdA, Coo.cols]
        · simp [evalBuf, stdMinlp, Minlp.initial, stdJ, zeroMat, Coo.rows]

theorem hessP_lt (hc : ColsOk l h cols) {es : List (Node F × Node F × Node F)} (he : ∀ e ∈ es, e.1 ∈ cols ∧ e.2.1 ∈ cols) :
    ∀ t ∈ hessP cols es, t.1 < cols.length ∧ t.2.1 < cols.length := by
  intro t ht
  obtain ⟨e, hm, rfl⟩ := List.mem_map.1 ht
  have h1 := (hc.col (he e hm).1).1
  have h2 := (hc.col (he e hm).2).1
  split
  · exact ⟨h1, h2⟩
  · exact ⟨h2, h1⟩

theorem smallIdx_map {rows ncols : Nat} {es : List (Nat × Nat × Node F)} (h : ∀ t ∈ es, t.1 < 2 ^ 31 ∧ t.2.1 < 2 ^ 31) :
    SmallIdx (zeroMat rows ncols es) := by
  constructor
  · intro r hr
    obtain ⟨t, ht, rfl⟩ := List.mem_map.1 hr
    exact (h t ht).1
  · intro r hr
    obtain ⟨t, ht, rfl⟩ := List.mem_map.1 hr
    exact (h t ht).2

theorem SpFacts.small {mod : Model F} {e : Node F} {xes : List (Node F × F)} {ves : List (Node F × Nat)} {sp : StdProb F}
    (hf : SpFacts H l h n m mod comp e ps cols xes ves sp) {q : Minlp F} (hq : q ∈ sp.prob.views) (hx : q.nx < 2 ^ 31)
    (hm : q.na + q.nf < 2 ^ 31) : q.Small := by
  have hA : cols.length < 2 ^ 31 → comp.constr.b.length < 2 ^ 31 → SmallIdx (stdA cols comp) := by
    intro h1 h2
    have hr := stdA_range hf
    have hw : (stdA cols comp).WF := by simp [stdA, Coo.WF]
    constructor
    · intro r hr'
      rw [← triplets_rows hw] at hr'
      obtain ⟨t, ht, rfl⟩ := List.mem_map.1 hr'
      exact Nat.lt_trans (hr t ht).1 h2
    · intro r hr'
      rw [← triplets_cols hw] at hr'
      obtain ⟨t, ht, rfl⟩ := List.mem_map.1 hr'
      exact Nat.lt_trans (hr t ht).2 h1
  rcases hf.views_eq hq with ⟨hnf, rfl⟩ | rfl
  · have h1 : cols.length < 2 ^ 31 := hx
    have h2 : comp.constr.b.length < 2 ^ 31 := Nat.lt_of_le_of_lt (Nat.le_add_right _ _) hm
    exact ⟨hA h1 h2, ⟨by simp [stdLinear, Minlp.initial, Coo.fromNnz], by simp [stdLinear, Minlp.initial, Coo.fromNnz]⟩,
      ⟨by simp [stdLinear, Minlp.initial, Coo.fromNnz], by simp [stdLinear, Minlp.initial, Coo.fromNnz]⟩,
      ⟨by simp [stdLinear, Minlp.initial, Coo.fromNnz], by simp [stdLinear, Minlp.initial, Coo.fromNnz]⟩⟩
  · have h1 : cols.length < 2 ^ 31 := hx
    have h2 : comp.constr.b.length < 2 ^ 31 := Nat.lt_of_le_of_lt (Nat.le_add_right _ _) hm
    have h3 : comp.constr.f.length < 2 ^ 31 := by
      have : (stdMinlp cols comp xes ves).nf = comp.constr.f.length := by
        simp [stdMinlp, Minlp.initial, Minlp.nf, stdJ, zeroMat, Coo.rows]
      omega
    obtain ⟨k, -, hch⟩ := hf.mf.chain
    have hj := hch.jrange
    have e1 : comp.constr.j = ps.flatMap fun p => p.out.j := by rw [hf.mf.constr]; simp [ConstrComp.concat, List.flatMap_map]
    have e2 : comp.constr.f = ps.flatMap fun p => p.out.f := by rw [hf.mf.constr]; simp [ConstrComp.concat, List.flatMap_map]
    rw [← e1, ← e2] at hj
    have hH : ∀ es ∈ comp.constr.h, ∀ t ∈ hessP cols es, t.1 < 2 ^ 31 ∧ t.2.1 < 2 ^ 31 := by
      intro es he t ht
      have := hessP_lt hf.cok (hf.cmpOk.h es he) t ht
      exact ⟨by omega, by omega⟩
    refine ⟨hA h1 h2, smallIdx_map ?_, smallIdx_map ?_, ?_⟩
    · intro t ht
      obtain ⟨e', he', rfl⟩ := List.mem_map.1 ht
      have := hj e' he'
      have := (hf.cok.col (hf.cmpOk.j e' he')).1
      exact ⟨by dsimp only; omega, by dsimp only; omega⟩
    · intro t ht
      have := hessP_lt hf.cok hf.cmpOk.hphi t ht
      exact ⟨by omega, by omega⟩
    · constructor
      · intro r hr
        obtain ⟨mt, hmt, hr⟩ := List.mem_flatMap.1 hr
        obtain ⟨es, hes, rfl⟩ := List.mem_map.1 hmt
        obtain ⟨t, ht, rfl⟩ := List.mem_map.1 hr
        exact (hH es hes t ht).1
      · intro r hr
        obtain ⟨mt, hmt, hr⟩ := List.mem_flatMap.1 hr
        obtain ⟨es, hes, rfl⟩ := List.mem_map.1 hmt
        obtain ⟨t, ht, rfl⟩ := List.mem_map.1 hr
        exact (hH es hes t ht).2

end

end Verif
