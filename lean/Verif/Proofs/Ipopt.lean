import Verif.Spec.Ipopt
import Verif.Proofs.Problem
import Verif.Props.Matrix

/-! # The Ipopt callbacks -/

namespace Verif

set_option linter.unusedSectionVars false
set_option linter.unusedSimpArgs false

variable {F : Type} [FloatOps F]

theorem Coo.SamePattern.refl (a : Coo F) : a.SamePattern a := ⟨rfl, rfl, rfl, rfl⟩

theorem Coo.SamePattern.trans {a b c : Coo F} (h : a.SamePattern b) (h' : b.SamePattern c) : a.SamePattern c :=
  ⟨h'.1.trans h.1, h'.2.1.trans h.2.1, h'.2.2.1.trans h.2.2.1, h'.2.2.2.trans h.2.2.2⟩

theorem Coo.SamePattern.nnz {a b : Coo F} (h : a.SamePattern b) : b.nnz = a.nnz := by rw [Coo.nnz, h.2.1]; rfl

theorem Coo.SamePattern.wf {a b : Coo F} (h : a.SamePattern b) (ha : a.WF) : b.WF :=
  ⟨by rw [h.2.1, h.2.2.1]; exact ha.1, by rw [h.2.1, h.2.2.2]; exact ha.2⟩

theorem SameShape.refl (b : EvalBuf F) : SameShape b b :=
  ⟨rfl, .refl _, rfl, .refl _, List.forall₂_same.2 fun _ _ => .refl _⟩

/-- `combine_h` with dimensions that fit. -/
theorem combineH_fits {q : Minlp F} {nu : List F} (hn : q.nf = nu.length) (hl : q.buf.h.length = q.nf)
    (hd : q.hcomb.data.length = (q.buf.h.flatMap Coo.data).length) :
    q.combineH nu = .ok { q with hcomb := { q.hcomb with
      data := (q.buf.h.zip nu).flatMap fun hn => hn.1.data.map fun v => hn.2 *. v } } := by
  simp only [Minlp.combineH]
  have e : (q.nf == nu.length) = true := by simp [hn]
  simp only [e, assertR_true, R.ok_bind]
  rw [combine_data]
  have hl := length_weighted_data (h := q.buf.h) (nu := nu) (by rw [hl, hn])
  rw [fill_loop _ _ (by rw [hl, hd])]
  simp only [R.ok_bind]
  rw [hl, ← hd, List.drop_length, List.append_nil]

/-- What every history of callbacks keeps. -/
structure CbInv (q0 q : Minlp F) : Prop where
  ops : ∃ ops, runProb q0 ops = .ok q
  a : q.a = q0.a
  b : q.b = q0.b
  shape : SameShape q0.buf q.buf
  comb : q0.hcomb.SamePattern q.hcomb

theorem CbInv.refl (q : Minlp F) : CbInv q q := ⟨⟨[], rfl⟩, rfl, rfl, .refl _, .refl _⟩

namespace CbInv
variable {q0 q : Minlp F}

theorem nx (h : CbInv q0 q) : q.nx = q0.nx := by rw [Minlp.nx, h.a]; rfl
theorem na (h : CbInv q0 q) : q.na = q0.na := by rw [Minlp.na, h.b]; rfl
theorem nf (h : CbInv q0 q) : q.nf = q0.nf := h.shape.f
theorem nnzA (h : CbInv q0 q) : q.a.nnz = q0.a.nnz := by rw [h.a]
theorem nnzJ (h : CbInv q0 q) : q.buf.j.nnz = q0.buf.j.nnz := h.shape.j.nnz
theorem nnzH (h : CbInv q0 q) : q.buf.hphi.nnz = q0.buf.hphi.nnz := h.shape.hphi.nnz
theorem nnzC (h : CbInv q0 q) : q.hcomb.nnz = q0.hcomb.nnz := h.comb.nnz

end CbInv

theorem runProb_append {q q1 q2 : Minlp F} {ops1 ops2 : List (ProbOp F)} (h1 : runProb q ops1 = .ok q1) (h2 : runProb q1 ops2 = .ok q2) :
    runProb q (ops1 ++ ops2) = .ok q2 := by
  unfold runProb at *
  rw [foldR_append, h1]; exact h2

theorem runProb_one {q q' : Minlp F} {op : ProbOp F} (h : op.exec q = .ok q') : runProb q [op] = .ok q' := by
  simp [runProb, foldR, h]

/-- The state of the problem when the last point was `p`. -/
structure CbAt (q0 : Minlp F) (val : List F → EvalBuf F) (p : Option (List F)) (q : Minlp F) : Prop extends CbInv q0 q where
  point : ∀ x, p = some x → x.length = q0.nx ∧ q.buf = val x

variable {q0 q : Minlp F} {val : List F → EvalBuf F} {p : Option (List F)}

theorem CbAt.evaluate (hv : EvalsTo q0 val) (h : CbInv q0 q) {x : List F} (hx : x.length = q0.nx) :
    ∃ q', q.evaluate x = .ok q' ∧ q' = { q with buf := val x } ∧ CbAt q0 val (some x) q' := by
  obtain ⟨ops, hops⟩ := h.ops
  have he := hv.eval ops q hops x hx
  refine ⟨_, he, rfl, ⟨⟨ops ++ [.evaluate x], runProb_append hops (runProb_one (op := .evaluate x) he)⟩, h.a, h.b, hv.shape x hx, h.comb⟩, ?_⟩
  rintro y hy
  injection hy with hy
  subst hy
  exact ⟨hx, rfl⟩

theorem CbAt.evalNew (hv : EvalsTo q0 val) (h : CbAt q0 val p q) {x : List F} (hx : x.length = q0.nx) {newX : Int}
    (hnew : newX = 1 ∨ p = some x) : ∃ q', evalIfNew q newX x = .ok q' ∧ CbAt q0 val (some x) q' := by
  have ht : x.take q.nx = x := by rw [h.nx, ← hx]; exact List.take_length
  unfold Verif.evalIfNew
  by_cases hn : newX = 1
  · obtain ⟨q', h1, -, h3⟩ := CbAt.evaluate hv h.toCbInv hx
    exact ⟨q', by simp [hn, ht, h1], h3⟩
  · have hp := hnew.resolve_left hn
    subst hp
    exact ⟨q, by simp [hn], h⟩

theorem toI32s_ok {ns : List Nat} (h : ∀ n ∈ ns, n < 2 ^ 31) : toI32s ns = .ok (ns.map Int.ofNat) := by
  induction ns with
  | nil => rfl
  | cons n ns ih =>
    have e : toI32 n = .ok (n : Int) := if_pos (h n (by simp))
    simp only [toI32s, e, R.ok_bind, ih fun m hm => h m (by simp [hm]), List.map_cons]
    rfl

theorem writePattern_ok {m1 m2 : Coo F} (h1 : m1.WF) (h2 : m2.WF) (s1 : SmallIdx m1) (s2 : SmallIdx m2) :
    writePattern m1 m2 = .ok ⟨true, [], (m1.rowInds ++ m2.rowInds).map Int.ofNat, (m1.colInds ++ m2.colInds).map Int.ofNat⟩ := by
  unfold writePattern
  simp only [Coo.drain h1, Coo.drain h2, R.ok_bind, triplets_rows h1, triplets_rows h2, triplets_cols h1, triplets_cols h2,
    toI32s_ok s1.rows, toI32s_ok s1.cols, toI32s_ok s2.rows, toI32s_ok s2.cols, List.map_append]

/-! ## The answers -/

theorem CbAt.f_ok (hv : EvalsTo q0 val) (h : CbAt q0 val p q) {x : List F} (hx : x.length = q0.nx) {newX : Int}
    (hnew : newX = 1 ∨ p = some x) :
    ∃ q', evalFCb q q0.nx (some x) newX true true = .ok (q', ⟨true, [(val x).phi], [], []⟩) ∧ CbAt q0 val (some x) q' := by
  obtain ⟨q', h1, h2⟩ := h.evalNew hv hx hnew
  refine ⟨q', ?_, h2⟩
  have e : ((q0.nx : Int) != (q.nx : Int)) = false := by simp [h.nx]
  simp [evalFCb, e, h1, (h2.point x rfl).2]

theorem CbAt.gradF_ok (hs : q0.Sound) (hv : EvalsTo q0 val) (h : CbAt q0 val p q) {x : List F} (hx : x.length = q0.nx) {newX : Int}
    (hnew : newX = 1 ∨ p = some x) :
    ∃ q', evalGradFCb q q0.nx (some x) newX true true = .ok (q', ⟨true, (val x).gphi, [], []⟩) ∧ CbAt q0 val (some x) q' := by
  obtain ⟨q', h1, h2⟩ := h.evalNew hv hx hnew
  refine ⟨q', ?_, h2⟩
  have e : ((q0.nx : Int) != (q.nx : Int)) = false := by simp [h.nx]
  have hl : (val x).gphi.length = q'.nx := by rw [(hv.shape x hx).gphi, hs.gphi, h2.nx]
  simp [evalGradFCb, e, h1, (h2.point x rfl).2, ← hl]

theorem sub_rows {y b : List F} (hl : y.length = b.length) {g : Nat → F} (hy : ∀ i < b.length, y[i]? = some (g i)) :
    (y.zip b).map (fun e => e.1 -. e.2) = b.zipIdx.map fun e => g e.2 -. e.1 := by
  apply List.ext_getElem?
  intro i
  simp only [List.getElem?_map, List.getElem?_zip_eq_some, List.getElem?_zipIdx, Nat.zero_add]
  by_cases hi : i < b.length
  · have h1 := hy i hi
    have h2 : i < y.length := by omega
    rw [List.getElem?_eq_getElem h2] at h1
    injection h1 with h1
    simp [List.getElem?_eq_getElem, hi, h2, h1]
  · have h2 : ¬ i < y.length := by omega
    simp [hi, h2]

theorem CbAt.g_ok (hs : q0.Sound) (hv : EvalsTo q0 val) (h : CbAt q0 val p q) {x : List F} (hx : x.length = q0.nx) {newX : Int}
    (hnew : newX = 1 ∨ p = some x) :
    ∃ q', evalGCb q q0.nx (some x) newX (q0.na + q0.nf : Nat) true true = .ok (q', ⟨true, constraintValues q0 (val x) x, [], []⟩) ∧
      CbAt q0 val (some x) q' := by
  obtain ⟨q', h1, h2⟩ := h.evalNew hv hx hnew
  refine ⟨q', ?_, h2⟩
  have e : ((q0.nx : Int) != (q.nx : Int)) = false := by simp [h.nx]
  have e2 : (((q0.na + q0.nf : Nat) : Int) != ((q.na + q.nf : Nat) : Int)) = false := by simp [h.na, h.nf]
  have ht : x.take q'.nx = x := by rw [h2.nx, ← hx]; exact List.take_length
  obtain ⟨y, hy1, hy2, hy3⟩ := (C40_mul hs.aWF x).2.2 (by rw [hx]; rfl) hs.aIn
  have hyb : y.length = q0.b.length := by rw [hy2, hs.b]
  have hnb : q'.na = q0.b.length := h2.na
  have hfl : (val x).f.length = q'.nf := by rw [(hv.shape x hx).f, h2.nf]; rfl
  have hsub := sub_rows hyb (g := fun i => (rowOf q0.a.triplets i).foldl (fun s e => s +. ((x[e.1]?).getD zero *. e.2)) zero)
    (fun i hi => hy3 i (by rw [← hs.b]; exact hi))
  simp only [evalGCb, e, e2, h1, Bool.not_true, Bool.or_self, Bool.false_eq_true, if_false, R.ok_bind, ht, h2.a, hy1, h2.b, hyb, BEq.rfl,
    assertR_true, hsub, (h2.point x rfl).2]
  rw [← hfl, List.take_length, List.take_of_length_le (by simp [hnb])]
  rfl

theorem CbAt.jacG_ok (hs : q0.Sound) (hv : EvalsTo q0 val) (h : CbAt q0 val p q) {x : List F} (hx : x.length = q0.nx) {newX : Int}
    (hnew : newX = 1 ∨ p = some x) (irow jcol : Bool) :
    ∃ q', evalJacGCb q q0.nx (some x) newX (q0.na + q0.nf : Nat) (q0.a.nnz + q0.buf.j.nnz : Nat) irow jcol true true =
        .ok (q', ⟨true, (jacobianEntries q0 (val x)).map (fun e => e.2.2), [], []⟩) ∧ CbAt q0 val (some x) q' := by
  obtain ⟨q', h1, h2⟩ := h.evalNew hv hx hnew
  refine ⟨q', ?_, h2⟩
  have e : ((q0.nx : Int) != (q.nx : Int)) = false := by simp [h.nx]
  have e2 : (((q0.na + q0.nf : Nat) : Int) != ((q.na + q.nf : Nat) : Int)) = false := by simp [h.na, h.nf]
  have e3 : (((q0.a.nnz + q0.buf.j.nnz : Nat) : Int) != ((q.a.nnz + q.buf.j.nnz : Nat) : Int)) = false := by simp [h.nnzA, h.nnzJ]
  have hsh := hv.shape x hx
  have hj : (val x).j.WF := hsh.j.wf hs.j
  have hmatch : ∃ y, (if (newX == 1) = true then some x else some []) = some y ∧ evalIfNew q newX y = .ok q' := by
    by_cases hn : newX = 1
    · exact ⟨x, by simp [hn], h1⟩
    · refine ⟨[], by simp [hn], ?_⟩
      rw [← h1]
      simp [evalIfNew, hn]
  obtain ⟨y, hy1, hy2⟩ := hmatch
  simp only [evalJacGCb, e, e2, e3, Bool.not_true, Bool.false_eq_true, if_false, hy1, hy2, R.ok_bind, h2.a, Coo.drain hs.aWF,
    (h2.point x rfl).2, Coo.drain hj]
  simp [jacobianEntries, Function.comp_def]

theorem CbAt.h_ok (hs : q0.Sound) (hv : EvalsTo q0 val) (h : CbAt q0 val p q) {x : List F} (hx : x.length = q0.nx) {newX : Int}
    (hnew : newX = 1 ∨ p = some x) {lambda : List F} (hl : lambda.length = q0.na + q0.nf) (s : F) (newLambda : Int) (irow jcol : Bool) :
    ∃ q' a, evalHCb q q0.nx (some x) newX s (q0.na + q0.nf : Nat) (some lambda) newLambda (q0.buf.hphi.nnz + q0.hcomb.nnz : Nat) irow jcol
        true true = .ok (q', a) ∧ CbAt q0 val (some x) q' ∧
      (newLambda = 1 → a = ⟨true, (hessianEntries (val x) s (lambda.drop q0.na)).map (fun e => e.2.2), [], []⟩) ∧
      (newLambda ≠ 1 → newX = 1 → a = ⟨true, (val x).hphi.triplets.map (fun t => s *. t.2.2) ++ q.hcomb.data, [], []⟩) ∧
      (newLambda ≠ 1 → newX ≠ 1 → a = ⟨true, [], [], []⟩) := by
  obtain ⟨q1, h1, h2⟩ := h.evalNew hv hx hnew
  have hcq : q1.hcomb = q.hcomb := by
    unfold evalIfNew at h1
    split at h1
    · unfold Minlp.evaluate at h1
      rw [R.bind_ok_iff] at h1
      obtain ⟨b, -, h1⟩ := h1
      injection h1 with h1
      rw [← h1]
    · injection h1 with h1; rw [h1]
  have e : ((q0.nx : Int) != (q.nx : Int)) = false := by simp [h.nx]
  have e2 : (((q0.na + q0.nf : Nat) : Int) != ((q.na + q.nf : Nat) : Int)) = false := by simp [h.na, h.nf]
  have e3 : (((q0.buf.hphi.nnz + q0.hcomb.nnz : Nat) : Int) != ((q.buf.hphi.nnz + q.hcomb.nnz : Nat) : Int)) = false := by
    simp [h.nnzH, h.nnzC]
  have hsh := hv.shape x hx
  have hphi : (val x).hphi.WF := hsh.hphi.wf hs.hphi
  have hwf : ∀ m ∈ (val x).h, m.WF := samePat_wf hsh.h hs.h
  have hcw : q0.hcomb.WF := by
    refine ⟨?_, ?_⟩
    · rw [hs.combRows, hs.combCols, List.length_flatMap, List.length_flatMap]
      congr 1
      exact List.map_congr_left fun m hm => (hs.h m hm).1
    · rw [hs.combRows, hs.combData, List.length_flatMap, List.length_flatMap]
      congr 1
      exact List.map_congr_left fun m hm => (hs.h m hm).2
  have hmatch : ∃ y, (if (newX == 1) = true then some x else some []) = some y ∧ evalIfNew q newX y = .ok q1 := by
    by_cases hn : newX = 1
    · exact ⟨x, by simp [hn], h1⟩
    · refine ⟨[], by simp [hn], ?_⟩
      rw [← h1]
      simp [evalIfNew, hn]
  have hmatch2 : ∀ b : Bool, (newX == 1) = b → ∃ y, (if b = true then some x else some []) = some y ∧ evalIfNew q newX y = .ok q1 := by
    rintro b rfl; exact hmatch
  obtain ⟨y, hy1, hy2⟩ := hmatch
  by_cases hnl : newLambda = 1
  · have hnu : (((lambda.drop q1.na).take q1.nf)) = lambda.drop q0.na := by
      rw [h2.na, h2.nf, List.take_of_length_le]
      simp; omega
    have hnul : (lambda.drop q0.na).length = q0.nf := by simp; omega
    have hhl : (val x).h.length = q0.nf := by rw [← hsh.h.length_eq]; exact hs.hnum
    have hdat : q1.hcomb.data.length = ((val x).h.flatMap Coo.data).length := by
      rw [h2.comb.2.2.2, hs.combData]
      simp only [List.length_flatMap]
      rw [samePat_map hsh.h (fun m => m.data.length) fun a b h => h.2.2.2]
    have hcomb := combineH_fits (q := q1) (nu := lambda.drop q0.na) (by rw [h2.nf, hnul])
      (by rw [(h2.point x rfl).2, h2.nf, hhl]) (by rw [(h2.point x rfl).2, hdat])
    have hrow : q1.hcomb.rowInds = (val x).h.flatMap Coo.rowInds := by
      rw [h2.comb.2.1, hs.combRows, List.flatMap_def, List.flatMap_def, samePat_map hsh.h Coo.rowInds fun a b h => h.2.1]
    have hcol : q1.hcomb.colInds = (val x).h.flatMap Coo.colInds := by
      rw [h2.comb.2.2.1, hs.combCols, List.flatMap_def, List.flatMap_def, samePat_map hsh.h Coo.colInds fun a b h => h.2.2.1]
    have htr := weighted_triplets hwf (nu := lambda.drop q0.na) (by rw [hhl, hnul]) q1.hcomb.shape
    have hlen := length_weighted_data (h := (val x).h) (nu := lambda.drop q0.na) (by rw [hhl, hnul])
    have hq2 : ({ q1.hcomb with data := (q1.buf.h.zip (lambda.drop q0.na)).flatMap fun hn => hn.1.data.map fun v => hn.2 *. v } : Coo F) =
        ⟨q1.hcomb.shape, (val x).h.flatMap Coo.rowInds, (val x).h.flatMap Coo.colInds,
          ((val x).h.zip (lambda.drop q0.na)).flatMap fun hn => hn.1.data.map fun v => hn.2 *. v⟩ := by
      show (⟨q1.hcomb.shape, q1.hcomb.rowInds, q1.hcomb.colInds, _⟩ : Coo F) = _
      rw [hrow, hcol, (h2.point x rfl).2]
    rw [hq2] at hcomb
    have hwf2 : (⟨q1.hcomb.shape, (val x).h.flatMap Coo.rowInds, (val x).h.flatMap Coo.colInds,
          ((val x).h.zip (lambda.drop q0.na)).flatMap fun hn => hn.1.data.map fun v => hn.2 *. v⟩ : Coo F).WF := by
      refine ⟨?_, ?_⟩
      · simp only [List.length_flatMap]
        congr 1
        exact List.map_congr_left fun m hm => (hwf m hm).1
      · show ((val x).h.flatMap Coo.rowInds).length = _
        rw [hlen, List.length_flatMap, List.length_flatMap]
        congr 1
        exact List.map_congr_left fun m hm => (hwf m hm).2
    refine ⟨{ q1 with hcomb := ⟨q1.hcomb.shape, (val x).h.flatMap Coo.rowInds, (val x).h.flatMap Coo.colInds,
          ((val x).h.zip (lambda.drop q0.na)).flatMap fun hn => hn.1.data.map fun v => hn.2 *. v⟩ }, _, ?_, ?_, fun _ => rfl,
      fun h => absurd hnl h, fun h => absurd hnl h⟩
    · have e4 : (newLambda == 1) = true := by simp [hnl]
      simp only [evalHCb, e, e2, e3, Bool.not_true, Bool.false_eq_true, if_false, hy1, hy2, R.ok_bind, e4, if_true, hnu, hcomb, Bool.or_true,
        (h2.point x rfl).2, Coo.drain hphi, Coo.drain hwf2, htr]
      simp [hessianEntries, Function.comp_def]
    · obtain ⟨ops, hops⟩ := h2.ops
      refine ⟨⟨⟨ops ++ [.combineH (lambda.drop q0.na)], runProb_append hops (runProb_one (op := .combineH (lambda.drop q0.na)) hcomb)⟩, h2.a, h2.b, h2.shape, ?_⟩, h2.point⟩
      refine ⟨h2.comb.1, hrow.symm.trans h2.comb.2.1, hcol.symm.trans h2.comb.2.2.1, ?_⟩
      show (((val x).h.zip (lambda.drop q0.na)).flatMap fun hn => hn.1.data.map fun v => hn.2 *. v).length = _
      rw [hlen, ← hdat]
      exact h2.comb.2.2.2
  · have e4 : (newLambda == 1) = false := by simp [hnl]
    by_cases hn : newX = 1
    · have e5 : (newX == 1) = true := by simp [hn]
      have hc1 : q1.hcomb.WF := h2.comb.wf hcw
      refine ⟨q1, _, ?_, h2, fun h => absurd h hnl, fun _ _ => rfl, fun _ h => absurd hn h⟩
      obtain ⟨y', hy1', hy2'⟩ := hmatch2 _ e5
      simp only [if_true] at hy1'
      simp only [evalHCb, e, e2, e3, Bool.not_true, Bool.false_eq_true, if_false, hy1', hy2', R.ok_bind, e4, e5, if_true, Bool.or_false,
        (h2.point x rfl).2, Coo.drain hphi, Coo.drain hc1]
      have : q1.hcomb.triplets.map (fun t => t.2.2) = q.hcomb.data := by
        rw [← hcq]
        exact triplets_vals hc1
      rw [this]
    · have e5 : (newX == 1) = false := by simp [hn]
      refine ⟨q1, _, ?_, h2, fun h => absurd h hnl, fun _ h => absurd h hn, fun _ _ => rfl⟩
      obtain ⟨y', hy1', hy2'⟩ := hmatch2 _ e5
      simp only [Bool.false_eq_true, if_false] at hy1'
      injection hy1' with hy1'
      subst hy1'
      simp only [evalHCb, e, e2, e3, Bool.not_true, Bool.false_eq_true, if_false, hy2', R.ok_bind, e4, e5, if_true, Bool.or_false]

/-! ## Patterns and refusals -/

theorem CbInv.jac_pattern (hs : q0.Sound) (h : CbInv q0 q) (sa : SmallIdx q0.a) (sj : SmallIdx q0.buf.j) (x : Option (List F)) (newX : Int) :
    evalJacGCb q q0.nx x newX (q0.na + q0.nf : Nat) (q0.a.nnz + q0.buf.j.nnz : Nat) true true false true =
      .ok (q, ⟨true, [], (q0.a.rowInds ++ q0.buf.j.rowInds).map Int.ofNat, (q0.a.colInds ++ q0.buf.j.colInds).map Int.ofNat⟩) := by
  have e : ((q0.nx : Int) != (q.nx : Int)) = false := by simp [h.nx]
  have e2 : (((q0.na + q0.nf : Nat) : Int) != ((q.na + q.nf : Nat) : Int)) = false := by simp [h.na, h.nf]
  have e3 : (((q0.a.nnz + q0.buf.j.nnz : Nat) : Int) != ((q0.a.nnz + q.buf.j.nnz : Nat) : Int)) = false := by simp [h.nnzJ]
  have hj : q.buf.j.WF := h.shape.j.wf hs.j
  have sj' : SmallIdx q.buf.j := ⟨by rw [h.shape.j.2.1]; exact sj.rows, by rw [h.shape.j.2.2.1]; exact sj.cols⟩
  simp only [evalJacGCb, e, e2, e3, Bool.not_true, Bool.false_eq_true, if_false, Bool.not_false, if_true, Bool.or_self, h.a,
    writePattern_ok hs.aWF hj sa sj', R.ok_bind, h.shape.j.2.1, h.shape.j.2.2.1]

theorem CbInv.h_pattern (hs : q0.Sound) (h : CbInv q0 q) (sh : SmallIdx q0.buf.hphi) (sc : SmallIdx q0.hcomb) (x : Option (List F)) (newX : Int)
    (s : F) (lambda : Option (List F)) (newLambda : Int) :
    evalHCb q q0.nx x newX s (q0.na + q0.nf : Nat) lambda newLambda (q0.buf.hphi.nnz + q0.hcomb.nnz : Nat) true true false true =
      .ok (q, ⟨true, [], (q0.buf.hphi.rowInds ++ q0.hcomb.rowInds).map Int.ofNat, (q0.buf.hphi.colInds ++ q0.hcomb.colInds).map Int.ofNat⟩) := by
  have e : ((q0.nx : Int) != (q.nx : Int)) = false := by simp [h.nx]
  have e2 : (((q0.na + q0.nf : Nat) : Int) != ((q.na + q.nf : Nat) : Int)) = false := by simp [h.na, h.nf]
  have e3 : (((q0.buf.hphi.nnz + q0.hcomb.nnz : Nat) : Int) != ((q.buf.hphi.nnz + q.hcomb.nnz : Nat) : Int)) = false := by
    simp [h.nnzH, h.nnzC]
  have hcw : q0.hcomb.WF := by
    refine ⟨?_, ?_⟩
    · rw [hs.combRows, hs.combCols, List.length_flatMap, List.length_flatMap]
      congr 1
      exact List.map_congr_left fun m hm => (hs.h m hm).1
    · rw [hs.combRows, hs.combData, List.length_flatMap, List.length_flatMap]
      congr 1
      exact List.map_congr_left fun m hm => (hs.h m hm).2
  have hj : q.buf.hphi.WF := h.shape.hphi.wf hs.hphi
  have hc : q.hcomb.WF := h.comb.wf hcw
  have sj' : SmallIdx q.buf.hphi := ⟨by rw [h.shape.hphi.2.1]; exact sh.rows, by rw [h.shape.hphi.2.2.1]; exact sh.cols⟩
  have sc' : SmallIdx q.hcomb := ⟨by rw [h.comb.2.1]; exact sc.rows, by rw [h.comb.2.2.1]; exact sc.cols⟩
  simp only [evalHCb, e, e2, e3, Bool.not_true, Bool.false_eq_true, if_false, Bool.not_false, if_true, Bool.or_self,
    writePattern_ok hj hc sj' sc', R.ok_bind, h.shape.hphi.2.1, h.shape.hphi.2.2.1, h.comb.2.1, h.comb.2.2.1]

end Verif
