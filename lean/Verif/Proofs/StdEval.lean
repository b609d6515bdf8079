import Verif.Proofs.StdSpec

/-! # Evaluating the standard problem -/

set_option linter.unusedSectionVars false
set_option linter.unusedSimpArgs false

namespace Verif

variable {F : Type} [FloatOps F]
variable {l : Level} {h h' : Heap F} {comp : ModelComp F} {cols : List (Node F)}

theorem zipAssign_full {α : Type} {d v : List α} (hl : d.length = v.length) : zipAssign d v = v := by
  induction d generalizing v with
  | nil =>
    cases v with
    | nil => rfl
    | cons a v => simp at hl
  | cons b d ih =>
    cases v with
    | nil => simp at hl
    | cons a v => simp only [zipAssign, ih (v := v) (by simpa using hl)]

theorem keysN_mapSnd {β γ : Type} (m : List (Node F × β)) (f : β → γ) : keysN (m.map fun e => (e.1, f e.2)) = keysN m := by
  simp [keysN, Function.comp_def]

theorem getN_mapSnd {β γ : Type} (m : List (Node F × β)) (f : β → γ) (x : Node F) :
    getN (m.map fun e => (e.1, f e.2)) x = (getN m x).map f := by
  induction m with
  | nil => rfl
  | cons a m ih =>
    obtain ⟨k, v⟩ := a
    simp only [List.map_cons, getN, ih]
    split <;> rfl

theorem getN_none_iff {β : Type} {m : List (Node F × β)} {x : Node F} : getN m x = none ↔ ∀ y ∈ keysN m, y.ptrEq x = false := by
  refine ⟨fun hk => ?_, getN_none_of⟩
  induction m with
  | nil => simp [keysN]
  | cons a m ih =>
    obtain ⟨k, v⟩ := a
    simp only [getN] at hk
    split at hk
    · cases hk
    · rename_i hne
      simp only [keysN, List.map_cons, List.mem_cons, forall_eq_or_imp]
      exact ⟨by simpa using hne, ih hk⟩

/-- The matrix of the values of the entries. -/
def valMat (rows cols : Nat) (es : List (Nat × Nat × Node F)) (σ : Env F) : Coo F :=
  ⟨(rows, cols), es.map (·.1), es.map (·.2.1), es.map fun e => e.2.2.evaluate σ⟩

/-- All values at `σ`. -/
def evalBuf (cols : List (Node F)) (comp : ModelComp F) (σ : Env F) : EvalBuf F where
  phi := comp.obj.phi.evaluate σ
  gphi := cols.map fun x => valAt (comp.obj.gphi.map fun e => (e.1, e.2.evaluate σ)) zero x
  hphi := valMat cols.length cols.length (hessP cols comp.obj.hphi) σ
  f := comp.constr.f.map (·.evaluate σ)
  j := valMat comp.constr.f.length cols.length (jacP cols comp.constr.j) σ
  h := comp.constr.h.map fun es => valMat cols.length cols.length (hessP cols es) σ

/-- The buffers have the sparsity patterns of the standard problem, and the gradient is 0 where the objective does not depend on
the column. -/
structure BufInv (cols : List (Node F)) (comp : ModelComp F) (buf : EvalBuf F) : Prop where
  gphi : ∃ g : Node F → F, buf.gphi = cols.map g ∧ ∀ x ∈ cols, (∀ k ∈ keysN comp.obj.gphi, k.ptrEq x = false) → g x = zero
  hphi : SamePat (stdHphi cols comp) buf.hphi
  f : buf.f.length = comp.constr.f.length
  j : SamePat (stdJ cols comp) buf.j
  h : List.Forall₂ SamePat (stdH cols comp) buf.h

theorem SamePat.valMat {rows ncols : Nat} {es : List (Nat × Nat × Node F)} {m : Coo F} (hm : SamePat (zeroMat rows ncols es) m) (σ : Env F) :
    { m with data := zipAssign m.data ((es.map (·.2.2)).map (·.evaluate σ)) } = valMat rows ncols es σ := by
  obtain ⟨h1, h2, h3, h4⟩ := hm
  rw [zipAssign_full (by rw [h4]; simp [zeroMat])]
  obtain ⟨a, b, c, d⟩ := m
  simp only [zeroMat] at h1 h2 h3
  subst h1 h2 h3
  simp [Verif.valMat, Function.comp_def]

theorem samePat_valMat (rows ncols : Nat) (es : List (Nat × Nat × Node F)) (σ : Env F) :
    SamePat (zeroMat rows ncols es) (valMat rows ncols es σ) := by
  simp [SamePat, zeroMat, valMat]

theorem evalBuf_inv (cols : List (Node F)) (comp : ModelComp F) (σ : Env F) : BufInv cols comp (evalBuf cols comp σ) where
  gphi := ⟨_, rfl, fun x _ hk => by
    unfold valAt
    rw [getN_none_of, Option.getD_none]
    intro y hy
    refine hk y ?_
    simpa [keysN] using hy⟩
  hphi := samePat_valMat ..
  f := by simp [evalBuf]
  j := samePat_valMat ..
  h := by
    simp only [stdH, evalBuf, List.forall₂_map_left_iff, List.forall₂_map_right_iff]
    exact List.forall₂_same.2 fun es _ => samePat_valMat ..

theorem initial_inv {p : List Bool} {x0 : Option (List F)} {fn : EvalFn F} {a : Coo F} {b lo up : List F} (ha : a.cols = cols.length) :
    BufInv cols comp (Minlp.initial (stdHphi cols comp) a b (stdJ cols comp) (stdH cols comp) lo up p x0 fn).buf where
  gphi := ⟨fun _ => zero, by simp [Minlp.initial, ha], fun _ _ _ => rfl⟩
  hphi := ⟨rfl, rfl, rfl, rfl⟩
  f := by simp [Minlp.initial, stdJ, zeroMat, Coo.rows]
  j := ⟨rfl, rfl, rfl, rfl⟩
  h := by
    simp only [Minlp.initial]
    exact List.forall₂_same.2 fun es _ => ⟨rfl, rfl, rfl, rfl⟩

theorem stdFn_eq (hc : ColsOk l h cols) (ho : CompOk cols comp) {ves : List (Node F × Nat)} (hv : ves.Perm cols.zipIdx)
    {buf : EvalBuf F} (hb : BufInv cols comp buf) {xs : List F} (hx : cols.length ≤ xs.length) :
    stdFn cols comp ves buf xs = .ok (evalBuf cols comp (pointEnv cols xs)) := by
  unfold stdFn stdEval
  rw [evalEnv_eq hc hv hx, R.ok_bind]
  generalize pointEnv cols xs = σ
  obtain ⟨g, hg1, hg2⟩ := hb.gphi
  have key : foldR (fun (g : List F) (e : Nat × Node F) => setIdx g e.1 (e.2.evaluate σ)) buf.gphi
      (comp.obj.gphi.map fun e => (colOf cols e.1, e.2)) = .ok (evalBuf cols comp σ).gphi := by
    rw [hg1, foldR_map]
    have := assign_loop' hc (comp.obj.gphi.map fun e => (e.1, e.2.evaluate σ))
      (by rw [keysN_mapSnd]; exact ho.gphiNd)
      (by
        intro e he
        obtain ⟨q, hq, rfl⟩ := List.mem_map.1 he
        exact ho.gphi q hq) g
    rw [foldR_map] at this
    have e2 : (cols.map fun x => valAt (comp.obj.gphi.map fun e => (e.1, e.2.evaluate σ)) (g x) x) = (evalBuf cols comp σ).gphi := by
      refine List.map_congr_left fun x hx => ?_
      unfold valAt
      cases hk : getN (comp.obj.gphi.map fun e => (e.1, e.2.evaluate σ)) x with
      | some v => rfl
      | none =>
        simp only [Option.getD_none]
        refine hg2 x hx ?_
        have := getN_none_iff.1 hk
        rw [keysN_mapSnd] at this
        exact this
    rw [← e2, ← this]
    refine foldR_congr fun e he s => ?_
    rw [hc.indexOf (ho.gphi e he), R.ok_bind]
  rw [key, R.ok_bind]
  congr 1
  have h1 := SamePat.valMat (es := hessP cols comp.obj.hphi) hb.hphi σ
  have h2 := SamePat.valMat (es := jacP cols comp.constr.j) hb.j σ
  have h3 : zipAssign buf.f (comp.constr.f.map (·.evaluate σ)) = comp.constr.f.map (·.evaluate σ) :=
    zipAssign_full (by simp [hb.f])
  rw [h1, h2, h3]
  have h4 : zipAssign buf.h (List.zipWith
      (fun (hh : Coo F) (es : List (Node F)) => { hh with data := zipAssign hh.data (es.map (·.evaluate σ)) }) buf.h
        (comp.constr.h.map fun es => (hessP cols es).map (·.2.2))) = (evalBuf cols comp σ).h := by
    have hl : buf.h.length = comp.constr.h.length := by
      have := hb.h.length_eq
      simpa [stdH] using this.symm
    rw [zipAssign_full (by simp [hl])]
    have hh := hb.h
    simp only [stdH, List.forall₂_map_left_iff] at hh
    unfold evalBuf
    simp only
    generalize comp.constr.h = L at hh
    generalize buf.h = B at hh
    induction hh with
    | nil => rfl
    | cons hp _ ih => 
      simp only [List.map_cons, List.zipWith_cons_cons, ih]
      rw [SamePat.valMat hp]
  rw [h4]
  rfl

/-- A standard problem during its life. -/
structure StdInv (cols : List (Node F)) (comp : ModelComp F) (init : List (Node F × F)) (ves : List (Node F × Nat)) (q : Minlp F) : Prop where
  a : q.a = stdA cols comp
  b : q.b = comp.constr.b
  l : q.l = stdL cols comp
  u : q.u = stdU cols comp
  p : q.p = stdP cols
  x0 : q.x0 = some (stdX0 cols init)
  fn : q.evalFn = stdFn cols comp ves
  buf : BufInv cols comp q.buf

theorem StdInv.initial {init : List (Node F × F)} {ves : List (Node F × Nat)} : StdInv cols comp init ves (stdMinlp cols comp init ves) :=
  ⟨rfl, rfl, rfl, rfl, rfl, rfl, rfl, initial_inv rfl⟩

theorem StdInv.evaluate {init : List (Node F × F)} {ves : List (Node F × Nat)} {q : Minlp F} (hi : StdInv cols comp init ves q)
    (hc : ColsOk l h cols) (ho : CompOk cols comp) (hv : ves.Perm cols.zipIdx) {xs : List F} (hx : cols.length ≤ xs.length) :
    q.evaluate xs = .ok { q with buf := evalBuf cols comp (pointEnv cols xs) } := by
  unfold Minlp.evaluate
  rw [hi.fn, stdFn_eq hc ho hv hi.buf hx]
  rfl

theorem stdFn_short {ves : List (Node F × Nat)} (hc : ColsOk l h cols) (hv : ves.Perm cols.zipIdx) {buf buf' : EvalBuf F} {xs : List F}
    (he : stdFn cols comp ves buf xs = .ok buf') : cols.length ≤ xs.length := by
  unfold stdFn stdEval at he
  rw [R.bind_ok_iff] at he
  obtain ⟨σ, hσ, -⟩ := he
  by_contra hlt
  rw [Nat.not_le] at hlt
  have : evalEnv ves xs = .error .index := by
    unfold evalEnv
    refine foldR_error (fun _ => True) (fun e => xs.length ≤ e.2) trivial ?_ ?_ ?_
    · intro s a _ ha
      rw [Nat.not_le] at ha
      exact ⟨_, by rw [idx_of_lt ha, R.ok_bind], trivial⟩
    · intro s a _ ha
      rw [idx_of_ge ha]; rfl
    · refine ⟨(cols[xs.length], xs.length), hv.mem_iff.2 ?_, Nat.le_refl _⟩
      rw [List.mem_zipIdx_iff_getElem?]
      exact List.getElem?_eq_getElem hlt
  rw [this] at hσ; cases hσ

theorem StdInv.step {init : List (Node F × F)} {ves : List (Node F × Nat)} {q q' : Minlp F} (hi : StdInv cols comp init ves q)
    (hc : ColsOk l h cols) (ho : CompOk cols comp) (hv : ves.Perm cols.zipIdx) {op : ProbOp F} (hq : op.exec q = .ok q') :
    StdInv cols comp init ves q' := by
  cases op with
  | evaluate xs =>
    have hx : cols.length ≤ xs.length := by
      simp only [ProbOp.exec, Minlp.evaluate, hi.fn] at hq
      rw [R.bind_ok_iff] at hq
      obtain ⟨b, hb, -⟩ := hq
      exact stdFn_short hc hv hb
    simp only [ProbOp.exec] at hq
    rw [hi.evaluate hc ho hv hx] at hq
    injection hq with hq
    subst hq
    exact ⟨hi.a, hi.b, hi.l, hi.u, hi.p, hi.x0, hi.fn, evalBuf_inv ..⟩
  | combineH nu =>
    simp only [ProbOp.exec, Minlp.combineH] at hq
    rw [R.bind_ok_iff] at hq
    obtain ⟨_, -, hq⟩ := hq
    rw [R.bind_ok_iff] at hq
    obtain ⟨r, -, hq⟩ := hq
    injection hq with hq
    subst hq
    exact ⟨hi.a, hi.b, hi.l, hi.u, hi.p, hi.x0, hi.fn, hi.buf⟩

theorem StdInv.run {init : List (Node F × F)} {ves : List (Node F × Nat)} {q q' : Minlp F} (hi : StdInv cols comp init ves q)
    (hc : ColsOk l h cols) (ho : CompOk cols comp) (hv : ves.Perm cols.zipIdx) {ops : List (ProbOp F)} (hq : runProb q ops = .ok q') :
    StdInv cols comp init ves q' := by
  unfold runProb at hq
  induction ops generalizing q with
  | nil => simp only [foldR, Except.ok.injEq] at hq; exact hq ▸ hi
  | cons op ops ih =>
    rw [foldR_cons_ok] at hq
    obtain ⟨q1, h1, h2⟩ := hq
    exact ih (hi.step hc ho hv h1) h2

end Verif
