import Verif.Proofs.IpoptMem
import Verif.Props.Ipopt2
import Verif.Props.Problem

/-!
# C93: the callbacks of the Ipopt interface stay inside the arrays

The callbacks are unsafe code: they read and write through raw pointers.
-/

namespace Verif

set_option linter.unusedSectionVars false

variable {F : Type} [FloatOps F] {q0 q : Minlp F}

theorem runMem_inv (hs : q0.Sized) (hk : q0.KeepsSizes) : ∀ {cs : List (MemCall F)} {q q' : Minlp F}, (∀ c ∈ cs, c.Fits) → MemInv q0 q → runMem q cs = .ok q' →
    MemInv q0 q' := by
  intro cs
  induction cs with
  | nil => intro q q' _ hi h; cases h; exact hi
  | cons c cs ih =>
    intro q q' hf hi h
    rcases hi.agrees hs hk c (hf c (by simp)) with ⟨p, h1, h2⟩ | ⟨q1, a, h1, h2, h3, -⟩
    · simp [runMem, h2] at h
    · simp only [runMem, h2, U.ok_bind] at h
      exact ih (fun c' hc' => hf c' (by simp [hc'])) h3 h

/-- C93: the sizes of what the problem stores fit together, and its evaluation function does not change them. Then whatever the native library does, in whatever order it
calls the callbacks, with whatever flags, points, dimensions and null pointers: as long as the arrays that it passes are as large as the numbers passed with them say, no
callback ever reads or writes a cell outside of an array. Missing: problems with an evaluation function that changes the sizes, for which it is false
(`C93_counterexample`). -/
theorem C93_inside_partial (hs : q0.Sized) (hk : q0.KeepsSizes) {lib : NativeMem F} (hl : lib.Fits) : lib.run q0 ≠ .error .outside := by
  suffices H : ∀ (lib : NativeMem F) (q : Minlp F), lib.Fits → MemInv q0 q → lib.run q ≠ .error .outside from H lib q0 hl (.refl hs)
  intro lib
  induction lib with
  | done status => intro q _ _; simp [NativeMem.run]
  | call c next ih =>
    intro q hf hi
    rcases hi.agrees hs hk c hf.1 with ⟨p, h1, h2⟩ | ⟨q1, a, h1, h2, h3, -⟩
    · simp [NativeMem.run, h2]
    · simp only [NativeMem.run, h2, U.ok_bind]
      exact ih _ q1 (hf.2 _) h3

/-- C93, what is written: after any sequence of calls, a call either panics, exactly if the call of the model without memory does, or writes the answer of that call (see
C51, C52, C53 for what it is) to the first cells of the arrays, at most as many as the size passed with the array says, and leaves all other cells as they are. -/
theorem C93_writes_partial (hs : q0.Sized) (hk : q0.KeepsSizes) {cs : List (MemCall F)} (hcs : ∀ c ∈ cs, c.Fits) (hr : runMem q0 cs = .ok q) {c : MemCall F} (hc : c.Fits) :
    (∃ p, c.toCall.exec q = .error p ∧ c.exec q = .error (.panic p)) ∨
    ∃ q' a, c.toCall.exec q = .ok (q', a) ∧ c.exec q = .ok (q', c.after a) ∧
      a.values.length ≤ c.room ∧ a.irow.length ≤ c.room ∧ a.jcol.length ≤ c.room := by
  rcases (runMem_inv hs hk hcs (.refl hs) hr).agrees hs hk c hc with h | ⟨q1, a, h1, h2, -, h4⟩
  · exact .inl h
  · exact .inr ⟨q1, a, h1, h2, h4⟩

/-! ## Which problems meet the hypotheses -/

theorem Minlp.Sound.sized (h : q.Sound) (hl : q.l.length = q.nx) (hu : q.u.length = q.nx) : q.Sized where
  b := h.b
  gphi := h.gphi
  a := h.aWF
  hphi := h.hphi
  j := h.j
  l := hl
  u := hu
  comb := by
    have key : ∀ l : List (Coo F), (∀ m ∈ l, m.WF) → (l.flatMap Coo.rowInds).length = (l.flatMap Coo.colInds).length ∧
        (l.flatMap Coo.rowInds).length = (l.flatMap Coo.data).length := by
      intro l
      induction l with
      | nil => intro _; simp
      | cons m l ih =>
        intro hw
        obtain ⟨h1, h2⟩ := hw m (by simp)
        obtain ⟨h3, h4⟩ := ih fun m' hm' => hw m' (by simp [hm'])
        simp only [List.flatMap_cons, List.length_append]
        omega
    obtain ⟨h1, h2⟩ := key _ h.h
    exact ⟨by rw [h.combRows, h.combCols, h1], by rw [h.combRows, h.combData, h2]⟩

theorem EvalsTo.keepsSizes {val : List F → EvalBuf F} (hs : q.Sound) (hv : EvalsTo q val) : q.KeepsSizes := by
  intro ops q' hr x r hx he
  rw [hv.eval ops q' hr x hx] at he
  cases he
  have h := hv.shape x hx
  exact ⟨h.gphi, h.f, h.hphi.wf hs.hphi, h.hphi.nnz, h.j.wf hs.j, h.j.nnz⟩

/-- C93 for models: the standard problem of a model meets the hypotheses. -/
theorem C93_model {H : HashOrder} {W : World F} {n m : ℕ} {sp : StdProb F} (hr : ReachableW H W n) (h : W.m.stdProblem H n = .ok (sp, m))
    (hq : q ∈ sp.prob.views) : q.Sized ∧ q.KeepsSizes := by
  obtain ⟨h1, ⟨val, h2, -⟩, -⟩ := C51_model hr h hq
  have hlu : q.l.length = q.nx ∧ q.u.length = q.nx := by
    obtain ⟨hp, k, comp, e, ps, cols, xes, ves, hf, -⟩ := hr.facts h
    rcases hf.views_eq hq with ⟨-, rfl⟩ | rfl <;>
      simp [stdLinear, stdMinlp, Minlp.initial, Minlp.nx, stdL, stdU, stdA, Coo.cols]
  exact ⟨h1.sized hlu.1 hlu.2, h2.keepsSizes h1⟩

/-- C93 for problems made with the constructor: the sizes fit together (the matrices are well formed because they were made with their constructors). -/
theorem C93_constructed {hphi a : Coo F} {b : List F} {j : Coo F} {h : List (Coo F)} {l u : List F} {x0 : Option (List F)} {fn : EvalFn F}
    {q : Nlp F} (h1 : hphi.WF) (h2 : a.WF) (h5 : j.WF) (h6 : ∀ m ∈ h, m.WF) (hq : Nlp.new hphi a b j h l u x0 fn = .ok q) : q.base.Sized := by
  unfold Nlp.new at hq
  rw [R.bind_ok_iff] at hq
  obtain ⟨q', hq', hq⟩ := hq
  cases hq
  by_cases hd : DimsOk hphi a b j h l u (List.replicate a.cols false)
  · rw [Minlp.new_ok h6 hd] at hq'
    cases hq'
    obtain ⟨⟨d1, d2⟩, d3, d4, d5, d6, d7, d8, d9⟩ := hd
    refine ⟨d3, by simp [Minlp.initial, Minlp.nx], h2, h1, h5, ?_, by simpa [Minlp.initial, Minlp.nx] using d7, by simpa [Minlp.initial, Minlp.nx] using d8⟩
    have key : ∀ l : List (Coo F), (∀ m ∈ l, m.WF) → (l.flatMap Coo.rowInds).length = (l.flatMap Coo.colInds).length ∧
        (l.flatMap Coo.rowInds).length = (l.flatMap Coo.data).length := by
      intro l
      induction l with
      | nil => intro _; simp
      | cons m l ih =>
        intro hw
        obtain ⟨h1, h2⟩ := hw m (by simp)
        obtain ⟨h3, h4⟩ := ih fun m' hm' => hw m' (by simp [hm'])
        simp only [List.flatMap_cons, List.length_append]
        omega
    obtain ⟨k1, k2⟩ := key _ h6
    exact ⟨k1, by simp only [Minlp.initial, List.length_replicate]; exact k2⟩
  · have := (C41_minlp_partial (hphi := hphi) (a := a) (b := b) (j := j) (h := h) (l := l) (u := u) (p := List.replicate a.cols false) (x0 := x0)
      (evalFn := fn) h6).1 hd
    rw [this] at hq'
    cases hq'

/-- C93 for linear problems made with the constructor: both hypotheses hold. -/
theorem C93_linear {c : List F} {a : Coo F} {b l u : List F} {x0 : Option (List F)} {q : Lp F} (ha : a.WF) (hq : Lp.new c a b l u x0 = .ok q) :
    q.baseNlp.base.Sized ∧ q.baseNlp.base.KeepsSizes := by
  by_cases hd : c.length = a.cols ∧ b.length = a.rows ∧ l.length = a.cols ∧ u.length = a.cols
  case neg => rw [C41_lp_partial.1 hd] at hq; cases hq
  rw [Lp.new_ok hd] at hq
  cases hq
  obtain ⟨d1, d2, d3, d4⟩ := hd
  refine ⟨⟨d2, by simp [Minlp.initial, Minlp.nx], ha, by simp [Minlp.initial, Coo.fromNnz, Coo.WF], by simp [Minlp.initial, Coo.fromNnz, Coo.WF],
    by simp [Minlp.initial, Coo.WF], by simpa [Minlp.initial, Minlp.nx] using d3, by simpa [Minlp.initial, Minlp.nx] using d4⟩, ?_⟩
  intro ops q' hr x r hx he
  have hr' := runProb_append hr (ops2 := [.evaluate x]) (q2 := r) (by simp [runProb, foldR, ProbOp.exec, he])
  obtain ⟨e1, e2⟩ := linear_keep (c := c) rfl hr'
  refine ⟨e2, by rw [e1], ?_, by rw [e1], ?_, by rw [e1]⟩
  · rw [e1]; simp [Minlp.initial, Coo.fromNnz, Coo.WF]
  · rw [e1]; simp [Minlp.initial, Coo.fromNnz, Coo.WF]

/-! ## The arrays passed to the native library -/

/-- C93, the arrays that `solve` passes to the native library: it only ever passes arrays that have as many entries as the numbers `n` and `m` passed with them say. So what
the library would do with others does not matter. -/
theorem C93_arguments {ps : Params F} {lib lib' : IpoptLib F} (hs : q.Sized) (h : lib.SameOnFits lib') : ipoptSolveNlp ps lib q = ipoptSolveNlp ps lib' q := by
  unfold ipoptSolveNlp
  by_cases n1 : q.nx < 2 ^ 31
  case neg => simp only [toI32_error n1]; rfl
  by_cases n2 : q.na + q.nf < 2 ^ 31
  case neg => simp only [toI32_ok n1, toI32_error n2, Verif.R.ok_bind]; rfl
  simp only [toI32_ok n1, toI32_ok n2, Verif.R.ok_bind]
  cases toI32 (q.a.nnz + q.buf.j.nnz) with
  | error p => rfl
  | ok nnzj =>
  cases toI32 (q.buf.hphi.nnz + q.hcomb.nnz) with
  | error p => rfl
  | ok nnzh =>
  simp only [Verif.R.ok_bind]
  have hf : (⟨(q.nx : Int), q.l, q.u, ((q.na + q.nf : Nat) : Int), List.replicate (q.na + q.nf) zero, List.replicate (q.na + q.nf) zero, nnzj, nnzh, 0⟩ : IpoptArgs F).Fits :=
    ⟨by simp [hs.l], by simp [hs.u], by simp, by simp⟩
  rw [h.create _ hf, h.addInt, h.addStr]
  have hsolve : ∀ level sb (x : List F), x.length = q.nx →
      lib.solve ⟨(q.nx : Int), q.l, q.u, ((q.na + q.nf : Nat) : Int), List.replicate (q.na + q.nf) zero, List.replicate (q.na + q.nf) zero, nnzj, nnzh, 0⟩ level sb x
        (List.replicate (q.na + q.nf) zero) (List.replicate q.nx zero) (List.replicate q.nx zero) =
      lib'.solve ⟨(q.nx : Int), q.l, q.u, ((q.na + q.nf : Nat) : Int), List.replicate (q.na + q.nf) zero, List.replicate (q.na + q.nf) zero, nnzj, nnzh, 0⟩ level sb x
        (List.replicate (q.na + q.nf) zero) (List.replicate q.nx zero) (List.replicate q.nx zero) := by
    intro level sb x hx
    exact h.solve _ _ _ _ _ _ _ hf (by simp [hx]) (by simp) (by simp) (by simp)
  cases hx0 : q.x0 with
  | none => simp only [Verif.R.ok_bind, hsolve _ _ _ (List.length_replicate (n := q.nx) (a := (zero : F)))]
  | some x0 =>
    by_cases hl : x0.length = q.nx
    · simp only [hl, beq_self_eq_true, if_true, Verif.R.ok_bind, hsolve _ _ _ hl]
    · have : (x0.length == q.nx) = false := by simpa using hl
      simp only [this]
      rfl

/-! ## Counterexamples and examples -/

/-- A problem with one variable and no constraints, and the evaluation function `fn`. -/
def exQ (fn : EvalFn Q) : R (Nlp Q) :=
  Nlp.new (Coo.fromNnz (1, 1) 0) (Coo.fromNnz (0, 1) 0) [] (Coo.fromNnz (0, 1) 0) [] [some 0] [some 1] none fn

/-- The outcome of a call on the problem. -/
def exQrun (fn : EvalFn Q) (c : MemCall Q) : Option Fault :=
  match exQ fn with
  | .error _ => none
  | .ok q => match c.exec q.base with
    | .error e => some e
    | .ok _ => none

/-- C93 is false for problems with any evaluation function (safe code). If it makes the gradient shorter, the gradient callback reads outside of it; if it makes the
list of constraints longer, the constraint callback writes outside of the array of Ipopt; if it adds entries to the Hessian or the Jacobian, so do the Hessian and
the Jacobian callback. The arrays that Ipopt passes are as large as they should be. -/
theorem C93_counterexample :
    (exQrun (fun buf _ => .ok { buf with gphi := [] }) (.gradF 1 (some [some 0]) 1 (some [some 0]) true) = some .outside) ∧
    (exQrun (fun buf _ => .ok { buf with f := [some 0] }) (.g 1 (some [some 0]) 1 0 (some []) true) = some .outside) ∧
    (exQrun (fun buf _ => .ok { buf with hphi := ⟨(1, 1), [0], [0], [some 1]⟩ }) (.h 1 (some [some 0]) 1 (some 1) 0 none 0 0 none none (some []) true) = some .outside) ∧
    (exQrun (fun buf _ => .ok { buf with j := ⟨(0, 1), [0], [0], [some 1]⟩ }) (.jacG 1 (some [some 0]) 1 0 0 none none (some []) true) = some .outside) ∧
    (MemCall.Fits (.gradF 1 (some [some (0 : ℚ)]) 1 (some [some 0]) true : MemCall Q) ∧ MemCall.Fits (.g 1 (some [some 0]) 1 0 (some []) true : MemCall Q) ∧
      MemCall.Fits (.h 1 (some [some 0]) 1 (some 1) 0 none 0 0 none none (some []) true : MemCall Q) ∧
      MemCall.Fits (.jacG 1 (some [some 0]) 1 0 0 none none (some []) true : MemCall Q)) := by
  refine ⟨by decide +kernel, by decide +kernel, by decide +kernel, by decide +kernel, ?_, ?_, ?_, ?_⟩ <;> simp [MemCall.Fits, Holds]

/-- Minimise `2 x - y` subject to `x + y = 3` with both in `[0, 2]`. -/
def exQlp : R (Lp Q) := Lp.new [some 2, some (-1)] ⟨(1, 2), [0, 0], [0, 1], [some 1, some 1]⟩ [some 3] [some 0, some 0] [some 2, some 2] none

/-- A native library that asks for the pattern of the Jacobian, the constraints and the gradient, with arrays that are longer than needed, at `x = 2`, `y = 4`, and ends with
code 0 exactly if it finds in them what it should: its own cells are untouched. -/
def exQlib : NativeMem Q :=
  .call (.jacG 2 none 0 1 2 (some [7, 7, 7]) (some [8, 8]) none true) fun r1 =>
  .call (.g 2 (some [some 2, some 4, some 9]) 1 1 (some [some 5, some 5]) true) fun r2 =>
  .call (.gradF 2 (some [some 2, some 4]) 0 (some [some 5, some 5, some 6]) true) fun r3 =>
  .done (if r1.irow = some [0, 0, 7] ∧ r1.jcol = some [0, 1] ∧ r2.values = some [some 3, some 5] ∧ r3.values = some [some 2, some (-1), some 6] then 0 else -1)

/-- The hypotheses of `C93_inside_partial` are met by this problem and this library. -/
example : ∃ q, exQlp = .ok q ∧ q.baseNlp.base.Sized ∧ q.baseNlp.base.KeepsSizes ∧ exQlib.Fits := by
  refine ⟨_, rfl, (C93_linear (q := _) (by simp [Coo.WF]) (show exQlp = .ok _ from rfl)).1, (C93_linear (q := _) (by simp [Coo.WF]) (show exQlp = .ok _ from rfl)).2, ?_⟩
  simp [exQlib, NativeMem.Fits, MemCall.Fits, Holds]

/-- And the library finds what it should. -/
example : (match exQlp with
    | .ok q => (match exQlib.run q.baseNlp.base with
      | .ok r => decide (r.2 = 0)
      | .error _ => false)
    | .error _ => false) = true := by decide +kernel

end Verif
