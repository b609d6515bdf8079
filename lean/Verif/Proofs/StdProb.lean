import Verif.Proofs.Assemble
import Verif.Props.Problem

/-! # The standard problem -/

set_option linter.unusedSectionVars false
set_option linter.unusedSimpArgs false

namespace Verif

variable {F : Type} [FloatOps F]

/-- Everything the components mention is a column. -/
structure CompOk (cols : List (Node F)) (comp : ModelComp F) : Prop where
  gphi : ∀ e ∈ comp.obj.gphi, e.1 ∈ cols
  gphiNd : NodupP (keysN comp.obj.gphi)
  hphi : ∀ e ∈ comp.obj.hphi, e.1 ∈ cols ∧ e.2.1 ∈ cols
  pa : ∀ e ∈ comp.obj.prop.a, e.1 ∈ cols
  paNd : NodupP (keysN comp.obj.prop.a)
  a : ∀ e ∈ comp.constr.a, e.2.1 ∈ cols
  j : ∀ e ∈ comp.constr.j, e.2.1 ∈ cols
  h : ∀ es ∈ comp.constr.h, ∀ e ∈ es, e.1 ∈ cols ∧ e.2.1 ∈ cols
  u : ∀ e ∈ comp.constr.u, e.1 ∈ cols
  l : ∀ e ∈ comp.constr.l, e.1 ∈ cols
  fh : comp.constr.f.length = comp.constr.h.length

section
variable (cols : List (Node F)) (comp : ModelComp F)

def stdHphi : Coo F := zeroMat cols.length cols.length (hessP cols comp.obj.hphi)
def stdA : Coo F :=
  ⟨(comp.constr.b.length, cols.length), (linP cols comp.constr.a).map (·.1), (linP cols comp.constr.a).map (·.2.1),
    (linP cols comp.constr.a).map (·.2.2)⟩
def stdJ : Coo F := zeroMat comp.constr.f.length cols.length (jacP cols comp.constr.j)
def stdH : List (Coo F) := comp.constr.h.map fun es => zeroMat cols.length cols.length (hessP cols es)
def stdC : List F := cols.map (valAt comp.obj.prop.a zero)
def upT (x : Node F) : F × Option (Constraint F) := tightest (fun v c => v <=. c) inf comp.constr.u x
def loT (x : Node F) : F × Option (Constraint F) := tightest (fun v c => c <=. v) (FloatOps.neg inf) comp.constr.l x
def stdU : List F := cols.map fun x => (upT comp x).1
def stdL : List F := cols.map fun x => (loT comp x).1
def stdP : List Bool := cols.map Node.isInteger
def stdX0 (init : List (Node F × F)) : List F := cols.map (valAt init zero)
def stdFn (ves : List (Node F × Nat)) : EvalFn F :=
  stdEval ves comp.obj.phi (comp.obj.gphi.map fun e => (colOf cols e.1, e.2)) ((hessP cols comp.obj.hphi).map (·.2.2))
    comp.constr.f ((jacP cols comp.constr.j).map (·.2.2)) (comp.constr.h.map fun es => (hessP cols es).map (·.2.2))

/-- The general form of the standard problem. -/
def stdMinlp (init : List (Node F × F)) (ves : List (Node F × Nat)) : Minlp F :=
  Minlp.initial (stdHphi cols comp) (stdA cols comp) comp.constr.b (stdJ cols comp) (stdH cols comp) (stdL cols comp)
    (stdU cols comp) (stdP cols) (some (stdX0 cols init)) (stdFn cols comp ves)

/-- The linear form. -/
def stdLinear (init : List (Node F × F)) : Minlp F :=
  Minlp.initial (Coo.fromNnz (cols.length, cols.length) 0) (stdA cols comp) comp.constr.b (Coo.fromNnz (0, cols.length) 0) []
    (stdL cols comp) (stdU cols comp) (stdP cols) (some (stdX0 cols init)) (linearEval (stdC cols comp))

def stdProbOf (init : List (Node F × F)) (ves : List (Node F × Nat)) : Problem F :=
  if comp.obj.prop.affine = true ∧ comp.constr.f = [] then
    if (∀ x ∈ cols, x.isInteger = false) then
      .lp ⟨⟨stdC cols comp, stdLinear cols comp init⟩, ⟨stdLinear cols comp init⟩⟩
    else .milp ⟨stdC cols comp, stdLinear cols comp init⟩
  else if (∀ x ∈ cols, x.isInteger = false) then .nlp ⟨stdMinlp cols comp init ves⟩
  else .minlp (stdMinlp cols comp init ves)

end

theorem stdH_wf (cols : List (Node F)) (comp : ModelComp F) : ∀ hh ∈ stdH cols comp, hh.WF := by
  intro hh hm
  obtain ⟨es, _, rfl⟩ := List.mem_map.1 hm
  exact zeroMat_wf ..

theorem std_dims {cols : List (Node F)} {comp : ModelComp F} (fh : comp.constr.f.length = comp.constr.h.length) :
    DimsOk (stdHphi cols comp) (stdA cols comp) comp.constr.b (stdJ cols comp) (stdH cols comp) (stdL cols comp) (stdU cols comp)
      (stdP cols) where
  dimHphi := ⟨rfl, rfl⟩
  dimB := rfl
  dimJ := rfl
  numH := by simp [stdH, stdJ, zeroMat, Coo.rows, fh]
  dimH := by
    intro hh hm
    obtain ⟨es, _, rfl⟩ := List.mem_map.1 hm
    exact ⟨rfl, rfl⟩
  dimL := by simp [stdL, stdA, Coo.cols]
  dimU := by simp [stdU, stdA, Coo.cols]
  dimP := by simp [stdP, stdA, Coo.cols]

theorem noInt_iff (cols : List (Node F)) : cols.countP Node.isInteger = 0 ↔ ∀ x ∈ cols, x.isInteger = false := by
  rw [List.countP_eq_zero]
  simp

theorem stdP_noInt {cols : List (Node F)} (h : ∀ x ∈ cols, x.isInteger = false) : stdP cols = List.replicate cols.length false := by
  unfold stdP
  rw [List.map_congr_left h]
  simp

theorem chooseProblem_eq {cols : List (Node F)} {comp : ModelComp F} {init : List (Node F × F)} {ves : List (Node F × Nat)}
    (fh : comp.constr.f.length = comp.constr.h.length) :
    chooseProblem comp.obj.prop.affine comp.constr.f.length (cols.countP Node.isInteger) (stdHphi cols comp) (stdA cols comp)
      comp.constr.b (stdJ cols comp) (stdH cols comp) (stdL cols comp) (stdU cols comp) (stdC cols comp) (stdP cols)
      (stdX0 cols init) (stdFn cols comp ves) = .ok (stdProbOf cols comp init ves) := by
  have hd := std_dims (cols := cols) fh
  have hf : (comp.constr.f.length == 0) = decide (comp.constr.f = []) := by
    rw [Bool.eq_iff_iff]; simp
  have hcols : (stdA cols comp).cols = cols.length := rfl
  unfold chooseProblem stdProbOf
  simp only [hf]
  by_cases hl : comp.obj.prop.affine = true ∧ comp.constr.f = []
  · rw [if_pos hl]
    by_cases hi : ∀ x ∈ cols, x.isInteger = false
    · have h0 := (noInt_iff cols).2 hi
      rw [if_pos hi]
      have : (comp.obj.prop.affine && decide (comp.constr.f = []) && cols.countP Node.isInteger == 0) = true := by
        simp [hl.1, hl.2, h0]
      rw [if_pos this, Lp.new_ok ⟨by simp [stdC, hcols], hd.dimB, hd.dimL, hd.dimU⟩]
      simp only [R.ok_bind, Except.ok.injEq, Problem.lp.injEq, stdLinear, stdP_noInt hi, stdC, List.length_map, hcols]
    · have h0 : ¬ cols.countP Node.isInteger = 0 := fun h => hi ((noInt_iff cols).1 h)
      rw [if_neg hi]
      have h1 : (comp.obj.prop.affine && decide (comp.constr.f = []) && cols.countP Node.isInteger == 0) = false := by
        simp [h0]
      have h2 : (comp.obj.prop.affine && decide (comp.constr.f = []) && decide (cols.countP Node.isInteger > 0)) = true := by
        simp only [hl.1, hl.2, Bool.and_self, Bool.true_and, decide_eq_true_eq, decide_true]; omega
      rw [h1, h2]
      simp only [Bool.false_eq_true, if_false, if_true]
      unfold Milp.new
      simp only
      rw [Minlp.new_ok (by simp) (dims_linear.2 ⟨rfl, hd.dimB, hd.dimL, hd.dimU, hd.dimP⟩)]
      rfl
  · have h1 : (comp.obj.prop.affine && decide (comp.constr.f = [])) = false := by
      rw [← Bool.not_eq_true]; simpa using hl
    rw [if_neg hl]
    simp only [h1, Bool.false_and, Bool.false_eq_true, if_false]
    by_cases hi : ∀ x ∈ cols, x.isInteger = false
    · have h0 := (noInt_iff cols).2 hi
      rw [if_pos hi, h0]
      simp only [BEq.rfl, if_true, Nlp.new, hcols, ← stdP_noInt hi]
      rw [Minlp.new_ok (stdH_wf _ _) hd]
      rfl
    · have h0 : ¬ cols.countP Node.isInteger = 0 := fun h => hi ((noInt_iff cols).1 h)
      have : (cols.countP Node.isInteger == 0) = false := by simpa using h0
      rw [if_neg hi, this]
      simp only [Bool.false_eq_true, if_false]
      rw [Minlp.new_ok (stdH_wf _ _) hd]
      rfl

variable {l : Level} {h : Heap F} {cols : List (Node F)}

theorem assign_loopG (hn : NodupP cols) (es : List (Node F × F)) (hk : NodupP (keysN es)) (g : Node F → F)
    (step : List F → Node F × F → R (List F))
    (hs : ∀ x e, step x e = match getN cols.zipIdx e.1 with | some i => setIdx x i e.2 | none => .ok x) :
    foldR step (cols.map g) es = .ok (cols.map fun x => valAt es (g x) x) := by
  rw [← assign_loop hn es hk g]
  exact foldR_congr fun e _ s => by rw [hs]; cases getN cols.zipIdx e.1 <;> rfl

theorem assemble_ok {comp : ModelComp F} (hc : ColsOk l h cols) (ho : CompOk cols comp) {ves ies : List (Node F × Nat)}
    {pes xes : List (Node F × F)} (hies : ies.Perm cols.zipIdx) (hpes : pes.Perm comp.obj.prop.a)
    (hxes : NodupP (keysN xes)) :
    ∃ sp, assemble comp cols.length cols.zipIdx ves ies pes xes = .ok sp ∧ sp.prob = stdProbOf cols comp xes ves ∧
      sp.var2index = cols.zipIdx ∧ sp.aindex2constr = comp.constr.ca.zipIdx.map (fun e => (e.2, e.1)) ∧
      sp.jindex2constr = comp.constr.cj.zipIdx.map (fun e => (e.2, e.1)) ∧
      BndIdx cols (fun x => (upT comp x).2) sp.uindex2constr ∧ BndIdx cols (fun x => (loT comp x).2) sp.lindex2constr := by
  obtain ⟨um, hu1, hu2⟩ := bound_loop hc (fun v c => v <=. c) inf comp.constr.u ho.u (upperLoop cols.zipIdx) fun s e => rfl
  obtain ⟨lm, hl1, hl2⟩ := bound_loop hc (fun v c => c <=. v) (FloatOps.neg inf) comp.constr.l ho.l (lowerLoop cols.zipIdx) fun s e => rfl
  have hpnd : NodupP (keysN pes) := ho.paNd.perm (hpes.map _).symm
  have e1 : mapR (fun (e : Node F × Node F) => (do .ok (← indexOf cols.zipIdx e.1, e.2) : R _)) comp.obj.gphi =
      .ok (comp.obj.gphi.map fun e => (colOf cols e.1, e.2)) := mapR_eq fun e he => by rw [hc.indexOf (ho.gphi e he)]; rfl
  have e2 := assign_loop' hc pes hpnd (fun e he => ho.pa e (hpes.mem_iff.1 he)) (fun _ => zero)
  have e3 : mapR (fun (e : Nat × Node F × F) => (do .ok (e.1, ← indexOf cols.zipIdx e.2.1, e.2.2) : R _)) comp.constr.a =
      .ok (linP cols comp.constr.a) := mapR_eq fun e he => by rw [hc.indexOf (ho.a e he)]; rfl
  have e4 : mapR (hessEntries cols.zipIdx) comp.constr.h = .ok (comp.constr.h.map (hessP cols)) :=
    mapR_eq fun es he => hessEntries_eq hc (ho.h es he)
  have e5 : mapR (zeroCoo cols.length cols.length) (comp.constr.h.map (hessP cols)) = .ok (stdH cols comp) := by
    rw [mapR_eq (g := zeroMat cols.length cols.length) fun es _ => zeroCoo_eq ..]
    simp [stdH]
  have e6 := int_loop hc hies
  unfold assemble
  simp only [replicate_cols (cols := cols) rfl]
  rw [e1, R.ok_bind, hessEntries_eq hc ho.hphi, R.ok_bind, zeroCoo_eq, R.ok_bind, e2, R.ok_bind, e3, R.ok_bind,
    Coo.new_eq (by simp) (by simp), R.ok_bind, jacEntries_eq hc ho.j, R.ok_bind, zeroCoo_eq, R.ok_bind, e4, R.ok_bind, e5, R.ok_bind,
    hu1, R.ok_bind, hl1, R.ok_bind, e6, R.ok_bind]
  rw [assign_loopG hc.nodup xes hxes (fun _ => zero) _ ?hs, R.ok_bind]
  case hs => intro x e; cases getN cols.zipIdx e.1 <;> rfl
  have hcc : (cols.map fun x => valAt pes zero x) = stdC cols comp :=
    List.map_congr_left fun x _ => valAt_perm hpes hpnd _ _
  have := chooseProblem_eq (cols := cols) (comp := comp) (init := xes) (ves := ves) ho.fh
  simp only [hcc]
  unfold stdHphi stdA stdJ stdL stdU stdP stdX0 stdFn upT loT at this
  simp only [List.map_map, Function.comp_def] at this ⊢
  rw [this, R.ok_bind]
  exact ⟨_, rfl, rfl, rfl, rfl, rfl, hu2, hl2⟩

end Verif
