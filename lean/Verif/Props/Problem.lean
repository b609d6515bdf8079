import Verif.Proofs.Problem
import Verif.Proofs.Heap
import Verif.Spec.Example

/-! # Properties C41 - C43: problem structures -/

namespace Verif

set_option linter.unusedSectionVars false
set_option linter.unusedSimpArgs false

section
variable {F : Type} [FloatOps F]

/-- **C41.** `ProblemMinlp::new` panics iff some dimension among those it can compare is inconsistent; otherwise it returns the
given data, a combined Hessian with the concatenated sparsity patterns, and objective value, gradient, constraint values and
combined Hessian all zero. Missing from the property (see `C41_counterexample_x0`): the length of `x0` is not compared. -/
theorem C41_minlp_partial {hphi a : Coo F} {b : List F} {j : Coo F} {h : List (Coo F)} {l u : List F} {p : List Bool}
    {x0 : Option (List F)} {evalFn : EvalFn F} (hw : ∀ hh ∈ h, hh.WF) :
    (¬ DimsOk hphi a b j h l u p → Minlp.new hphi a b j h l u p x0 evalFn = .error .assert) ∧
    (DimsOk hphi a b j h l u p → ∃ q, Minlp.new hphi a b j h l u p x0 evalFn = .ok q ∧
      q.a = a ∧ q.b = b ∧ q.l = l ∧ q.u = u ∧ q.p = p ∧ q.x0 = x0 ∧ q.buf.hphi = hphi ∧ q.buf.j = j ∧ q.buf.h = h ∧
      q.nx = a.cols ∧ q.na = a.rows ∧ q.nf = j.rows ∧
      q.hcomb.rows = a.cols ∧ q.hcomb.cols = a.cols ∧
      q.hcomb.rowInds = (h.map Coo.rowInds).flatten ∧ q.hcomb.colInds = (h.map Coo.colInds).flatten ∧ q.hcomb.WF ∧
      (∀ v ∈ q.hcomb.data, v = zero) ∧ q.buf.phi = zero ∧ q.buf.gphi = List.replicate a.cols zero ∧
      q.buf.f = List.replicate j.rows zero) := by
  refine ⟨Minlp.new_error, fun hd => ⟨_, Minlp.new_ok hw hd, rfl, rfl, rfl, rfl, rfl, rfl, rfl, rfl, rfl, rfl, hd.dimB,
    by simp [Minlp.nf, Minlp.initial], rfl, rfl, ?_, ?_, ?_, ?_, rfl, rfl, rfl⟩⟩
  · simp [Minlp.initial, List.flatMap_def]
  · simp [Minlp.initial, List.flatMap_def]
  · have e1 := map_flatMap_wf hw _ _ fun m hm => triplets_rows hm
    have e2 := map_flatMap_wf hw _ _ fun m hm => triplets_cols hm
    refine ⟨?_, ?_⟩
    · simp only [Minlp.initial, ← e1, ← e2, List.length_map]
    · simp only [Minlp.initial, ← e1, dataLen_sum hw, List.length_map, List.length_replicate]
  · intro v hv
    simp only [Minlp.initial] at hv
    exact List.eq_of_mem_replicate hv

/-- **C41.** The same for `ProblemNlp::new`. -/
theorem C41_nlp_partial {hphi a : Coo F} {b : List F} {j : Coo F} {h : List (Coo F)} {l u : List F}
    {x0 : Option (List F)} {evalFn : EvalFn F} (hw : ∀ hh ∈ h, hh.WF) :
    (¬ DimsOk hphi a b j h l u (List.replicate a.cols false) → Nlp.new hphi a b j h l u x0 evalFn = .error .assert) ∧
    (DimsOk hphi a b j h l u (List.replicate a.cols false) →
      ∃ q, Nlp.new hphi a b j h l u x0 evalFn = .ok q ∧
        Minlp.new hphi a b j h l u (List.replicate a.cols false) x0 evalFn = .ok q.base) := by
  refine ⟨fun hd => ?_, fun hd => ?_⟩
  · simp [Nlp.new, Minlp.new_error hd]
  · exact ⟨⟨_⟩, by simp only [Nlp.new, Minlp.new_ok hw hd, R.ok_bind]; rfl, Minlp.new_ok hw hd⟩

theorem dims_linear {a : Coo F} {b l u : List F} {p : List Bool} {n : Nat} :
    DimsOk (Coo.fromNnz (n, n) 0) a b (Coo.fromNnz (0, n) 0) [] l u p ↔
      n = a.cols ∧ b.length = a.rows ∧ l.length = a.cols ∧ u.length = a.cols ∧ p.length = a.cols := by
  constructor
  · rintro ⟨⟨_, h1⟩, h2, h3, _, _, h4, h5, h6⟩
    exact ⟨h1, h2, h4, h5, h6⟩
  · rintro ⟨rfl, h2, h3, h4, h5⟩
    exact ⟨⟨rfl, rfl⟩, h2, rfl, rfl, by simp, h3, h4, h5⟩

/-- **C41.** `ProblemMilp::new` panics iff `b`, `l`, `u` or `p` does not fit the matrix. Missing from the property (see
`C41_counterexample_c`): the length of `c` and of `x0` is not compared. -/
theorem C41_milp_partial {c : List F} {a : Coo F} {b l u : List F} {p : List Bool} {x0 : Option (List F)} :
    (¬ (b.length = a.rows ∧ l.length = a.cols ∧ u.length = a.cols ∧ p.length = a.cols) →
      Milp.new c a b l u p x0 = .error .assert) ∧
    (b.length = a.rows ∧ l.length = a.cols ∧ u.length = a.cols ∧ p.length = a.cols →
      ∃ q, Milp.new c a b l u p x0 = .ok q ∧ q.c = c ∧ q.base.a = a ∧ q.base.b = b ∧ q.base.l = l ∧ q.base.u = u ∧
        q.base.p = p ∧ q.base.x0 = x0 ∧ q.nx = c.length ∧ q.na = a.rows) := by
  refine ⟨fun hd => ?_, fun hd => ?_⟩
  · have : ¬ DimsOk (Coo.fromNnz (a.cols, a.cols) 0) a b (Coo.fromNnz (0, a.cols) 0) [] l u p := by
      rw [dims_linear]; exact fun h => hd h.2
    simp [Milp.new, Minlp.new_error this]
  · have : DimsOk (Coo.fromNnz (a.cols, a.cols) 0) a b (Coo.fromNnz (0, a.cols) 0) [] l u p := dims_linear.2 ⟨rfl, hd⟩
    refine ⟨⟨c, Minlp.initial (Coo.fromNnz (a.cols, a.cols) 0) a b (Coo.fromNnz (0, a.cols) 0) [] l u p x0 (linearEval c)⟩,
      by simp only [Milp.new, Minlp.new_ok (by simp) this, R.ok_bind], rfl, rfl, rfl, rfl, rfl, rfl, rfl, rfl, hd.1⟩

/-- What `ProblemLp::new` accepts. -/
theorem Lp.new_ok {c : List F} {a : Coo F} {b l u : List F} {x0 : Option (List F)}
    (hd : c.length = a.cols ∧ b.length = a.rows ∧ l.length = a.cols ∧ u.length = a.cols) :
    Lp.new c a b l u x0 = .ok
      ⟨⟨c, Minlp.initial (Coo.fromNnz (a.cols, a.cols) 0) a b (Coo.fromNnz (0, a.cols) 0) [] l u
          (List.replicate c.length false) x0 (linearEval c)⟩,
        ⟨Minlp.initial (Coo.fromNnz (c.length, c.length) 0) a b (Coo.fromNnz (0, c.length) 0) [] l u
          (List.replicate a.cols false) x0 (linearEval c)⟩⟩ := by
  obtain ⟨h1, h2, h3, h4⟩ := hd
  have d1 : DimsOk (Coo.fromNnz (a.cols, a.cols) 0) a b (Coo.fromNnz (0, a.cols) 0) [] l u (List.replicate c.length false) :=
    dims_linear.2 ⟨rfl, h2, h3, h4, by simp [h1]⟩
  have d2 : DimsOk (Coo.fromNnz (c.length, c.length) 0) a b (Coo.fromNnz (0, c.length) 0) [] l u (List.replicate a.cols false) :=
    dims_linear.2 ⟨h1, h2, h3, h4, by simp⟩
  simp only [Lp.new, Milp.new, Nlp.new, Minlp.new_ok (by simp) d1, Minlp.new_ok (by simp) d2, R.ok_bind]

/-- **C41.** `ProblemLp::new` panics iff `c`, `b`, `l` or `u` does not fit the matrix (`x0` is not compared). -/
theorem C41_lp_partial {c : List F} {a : Coo F} {b l u : List F} {x0 : Option (List F)} :
    (¬ (c.length = a.cols ∧ b.length = a.rows ∧ l.length = a.cols ∧ u.length = a.cols) →
      Lp.new c a b l u x0 = .error .assert) ∧
    (c.length = a.cols ∧ b.length = a.rows ∧ l.length = a.cols ∧ u.length = a.cols → ∃ q, Lp.new c a b l u x0 = .ok q) := by
  refine ⟨fun hd => ?_, fun hd => ⟨_, Lp.new_ok hd⟩⟩
  have : ¬ DimsOk (Coo.fromNnz (a.cols, a.cols) 0) a b (Coo.fromNnz (0, a.cols) 0) [] l u (List.replicate c.length false) := by
    rw [dims_linear]
    simp only [List.length_replicate, true_and]
    exact fun h => hd ⟨h.2.2.2, h.1, h.2.1, h.2.2.1⟩
  simp [Lp.new, Milp.new, Minlp.new_error this]

/-- **C42.** After any history of `evaluate` and `combine_h` calls on a problem (with an evaluation function that writes values
only), `combine_h(nu)` panics if `nu` does not have one entry per nonlinear constraint, and otherwise changes nothing but the
values of the combined Hessian, which become those of `nu₁ H₁`, `nu₂ H₂`, ... one after the other, at the positions of the
entries of the current `H₁`, `H₂`, ... . -/
theorem C42_combine {hphi a : Coo F} {b : List F} {j : Coo F} {h : List (Coo F)} {l u : List F} {p : List Bool}
    {x0 : Option (List F)} {evalFn : EvalFn F} (hw : ∀ hh ∈ h, hh.WF) (hk : KeepsPatterns evalFn) {q0 q : Minlp F}
    (h0 : Minlp.new hphi a b j h l u p x0 evalFn = .ok q0) {ops : List (ProbOp F)} (hr : runProb q0 ops = .ok q)
    (nu : List F) :
    (nu.length ≠ j.rows → q.combineH nu = .error .assert) ∧
    (nu.length = j.rows → ∃ q', q.combineH nu = .ok q' ∧ q' = { q with hcomb := q'.hcomb } ∧
      q'.hcomb.WF ∧ q'.hcomb.triplets = weighted q.buf.h nu) := by
  by_cases hd : DimsOk hphi a b j h l u p
  swap
  · rw [Minlp.new_error hd] at h0; cases h0
  rw [Minlp.new_ok hw hd] at h0
  injection h0 with h0
  subst h0
  have hi := (ProbInv.initial (x0 := x0) hw hd hk).run hr
  refine ⟨fun hn => Minlp.combineH_error (by rw [hi.hnf]; exact hn), fun hn => ⟨_, hi.combineH hn, rfl, ?_, ?_⟩⟩
  · have e1 := map_flatMap_wf hi.wf _ _ fun m hm => triplets_rows hm
    have e2 := map_flatMap_wf hi.wf _ _ fun m hm => triplets_cols hm
    have f1 : q.buf.h.flatMap Coo.rowInds = h.flatMap Coo.rowInds := by
      rw [List.flatMap_def, List.flatMap_def, hi.pat.1]
    have f2 : q.buf.h.flatMap Coo.colInds = h.flatMap Coo.colInds := by
      rw [List.flatMap_def, List.flatMap_def, hi.pat.2]
    refine ⟨?_, ?_⟩
    · show q.hcomb.rowInds.length = q.hcomb.colInds.length
      rw [hi.rows, hi.cols, ← f1, ← f2, ← e1, ← e2]
      simp only [List.length_map]
    · show q.hcomb.rowInds.length = _
      rw [hi.rows, ← f1, ← e1, length_weighted_data (by rw [hi.hlen, hn]), dataLen_sum hi.wf, List.length_map]
  · have f1 : h.flatMap Coo.rowInds = q.buf.h.flatMap Coo.rowInds := by
      rw [List.flatMap_def, List.flatMap_def, hi.pat.1]
    have f2 : h.flatMap Coo.colInds = q.buf.h.flatMap Coo.colInds := by
      rw [List.flatMap_def, List.flatMap_def, hi.pat.2]
    simp only [hi.rows, hi.cols, f1, f2]
    exact weighted_triplets hi.wf (by rw [hi.hlen, hn]) _

/-- The state that histories of calls on a linear problem can reach. -/
structure LinInv (c : List F) (a : Coo F) (b l u : List F) (p : List Bool) (x0 : Option (List F)) (q : Minlp F) : Prop where
  gphi : q.buf.gphi.length = c.length
  f : q.buf.f = []
  j : q.buf.j.rows = 0 ∧ q.buf.j.triplets = []
  h : q.buf.h = []
  hphi : q.buf.hphi.triplets = []
  fn : q.evalFn = linearEval c
  data : q.a = a ∧ q.b = b ∧ q.l = l ∧ q.u = u ∧ q.p = p ∧ q.x0 = x0

theorem LinInv.run {c : List F} {a : Coo F} {b l u : List F} {p : List Bool} {x0 : Option (List F)} {q q' : Minlp F}
    (hi : LinInv c a b l u p x0 q) {ops : List (ProbOp F)} (h : runProb q ops = .ok q') : LinInv c a b l u p x0 q' := by
  unfold runProb at h
  induction ops generalizing q with
  | nil => simp only [foldR, Except.ok.injEq] at h; exact h ▸ hi
  | cons op ops ih =>
    rw [foldR_cons_ok] at h
    obtain ⟨q1, h1, h2⟩ := h
    refine ih ?_ h2
    cases op with
    | evaluate x =>
      simp only [ProbOp.exec, Minlp.evaluate, hi.fn, linearEval] at h1
      rw [R.bind_ok_iff] at h1
      obtain ⟨buf, hb, h1⟩ := h1
      rw [R.bind_ok_iff] at hb
      obtain ⟨phi, _, hb⟩ := hb
      simp only [hi.gphi, BEq.rfl, if_true, Except.ok.injEq] at hb h1
      subst hb h1
      exact ⟨rfl, hi.f, hi.j, hi.h, hi.hphi, rfl, hi.data⟩
    | combineH nu =>
      simp only [ProbOp.exec, Minlp.combineH] at h1
      rw [R.bind_ok_iff] at h1
      obtain ⟨_, _, h1⟩ := h1
      rw [R.bind_ok_iff] at h1
      obtain ⟨_, _, h1⟩ := h1
      injection h1 with h1
      subst h1
      exact ⟨hi.gphi, hi.f, hi.j, hi.h, hi.hphi, hi.fn, hi.data⟩

theorem SumOf.foldl {F : Type} [FloatOps F] (f : F × F → F) {l : List F} {s : F} (h : SumOf l s) (es : List (F × F)) :
    SumOf (l ++ es.map f) (es.foldl (fun s e => s +. f e) s) := by
  induction es generalizing l s with
  | nil => simpa using h
  | cons e es ih =>
    have := ih (SumOf.add h (.single (f e)) (List.Perm.refl _))
    simpa using this

theorem unrolledDot_sumOf (n : ℕ) : ∀ (es : List (F × F)), es.length ≤ n → ∀ {l0 l1 l2 l3 l4 l5 l6 l7 : List F} {p0 p1 p2 p3 p4 p5 p6 p7 : F},
    SumOf l0 p0 → SumOf l1 p1 → SumOf l2 p2 → SumOf l3 p3 → SumOf l4 p4 → SumOf l5 p5 → SumOf l6 p6 → SumOf l7 p7 →
    ∃ l, l.Perm (l0 ++ l1 ++ l2 ++ l3 ++ l4 ++ l5 ++ l6 ++ l7 ++ es.map fun e => e.1 *. e.2) ∧
      SumOf l (unrolledDot p0 p1 p2 p3 p4 p5 p6 p7 es) := by
  induction n using Nat.strong_induction_on with
  | _ n ih =>
    intro es hn l0 l1 l2 l3 l4 l5 l6 l7 p0 p1 p2 p3 p4 p5 p6 p7 h0 h1 h2 h3 h4 h5 h6 h7
    unfold unrolledDot
    split
    · rename_i e0 e1 e2 e3 e4 e5 e6 e7 es
      simp only [List.length_cons] at hn
      obtain ⟨l, hl, hs⟩ := ih (n - 8) (by omega) es (by omega) (h0.add (.single _) (.refl _)) (h1.add (.single _) (.refl _)) (h2.add (.single _) (.refl _))
        (h3.add (.single _) (.refl _)) (h4.add (.single _) (.refl _)) (h5.add (.single _) (.refl _)) (h6.add (.single _) (.refl _)) (h7.add (.single _) (.refl _))
      refine ⟨l, hl.trans ?_, hs⟩
      classical
      rw [List.perm_iff_count]
      intro a
      simp only [List.map_cons, List.count_append, List.count_cons, List.count_nil]
      omega
    · refine ⟨_, ?_, SumOf.foldl (fun e => e.1 *. e.2) ((((SumOf.zero.add (h0.add h4 (.refl _)) (.refl _)).add (h1.add h5 (.refl _)) (.refl _)).add
        (h2.add h6 (.refl _)) (.refl _)).add (h3.add h7 (.refl _)) (.refl _)) es⟩
      classical
      rw [List.perm_iff_count]
      intro a
      simp only [List.count_append, List.count_nil]
      omega

theorem SumOf.perm {F : Type} [FloatOps F] {l l' : List F} {v : F} (h : SumOf l v) (hp : l'.Perm l) : SumOf l' v := by
  cases h with
  | zero => rw [List.perm_nil.1 hp]; exact .zero
  | single v => rw [List.perm_singleton.1 hp]; exact .single v
  | add h h' hp' => exact .add h h' (hp.trans hp')

theorem dot_sumOf (es : List (F × F)) :
    SumOf (es.map fun e => e.1 *. e.2) (unrolledDot zero zero zero zero zero zero zero zero es) := by
  obtain ⟨l, hl, hs⟩ := unrolledDot_sumOf es.length es le_rfl SumOf.zero SumOf.zero SumOf.zero SumOf.zero SumOf.zero SumOf.zero SumOf.zero SumOf.zero
  exact hs.perm (by simpa using hl.symm)

theorem LinInv.evaluate {c : List F} {a : Coo F} {b l u : List F} {p : List Bool} {x0 : Option (List F)} {q : Minlp F}
    (hi : LinInv c a b l u p x0 q) {x : List F} (hx : x.length = c.length) :
    q.evaluate x = .ok { q with buf := { q.buf with phi := unrolledDot zero zero zero zero zero zero zero zero (c.zip x), gphi := c } } := by
  have : (c.length == x.length) = true := by simp [hx]
  simp [Minlp.evaluate, hi.fn, linearEval, dot, this, hi.gphi]

theorem LinInv.initial {c : List F} {a : Coo F} {b l u : List F} {p : List Bool} {x0 : Option (List F)} {n : Nat}
    (h : c.length = a.cols) :
    LinInv c a b l u p x0 (Minlp.initial (Coo.fromNnz (n, n) 0) a b (Coo.fromNnz (0, n) 0) [] l u p x0 (linearEval c)) :=
  ⟨by simp [Minlp.initial, h], rfl, ⟨rfl, rfl⟩, rfl, rfl, rfl, rfl, rfl, rfl, rfl, rfl, rfl⟩

/-- **C43.** The Milp, Minlp and Nlp views of a `ProblemLp` have the given data and no integer variables, and after any history
of calls, evaluating any of them at any point with one value per variable gives as objective value the sum of the products of coefficients and values
(added up in some order), as gradient `c`, no nonlinear constraint and no Hessian entry. -/
theorem C43_views {c : List F} {a : Coo F} {b l u : List F} {x0 : Option (List F)} {q : Lp F}
    (hq : Lp.new c a b l u x0 = .ok q) :
    q.baseMilp.c = c ∧
    ∀ v, (v = q.baseMilp.base ∨ v = q.baseNlp.base) →
      v.a = a ∧ v.b = b ∧ v.l = l ∧ v.u = u ∧ v.x0 = x0 ∧ v.p = List.replicate c.length false ∧ v.nx = c.length ∧
      ∀ ops v', runProb v ops = .ok v' → ∀ x, x.length = c.length → ∃ v'', v'.evaluate x = .ok v'' ∧
        SumOf ((c.zip x).map fun e => e.1 *. e.2) v''.buf.phi ∧ v''.buf.gphi = c ∧
        v''.buf.f = [] ∧ v''.buf.j.triplets = [] ∧ v''.buf.h = [] ∧ v''.buf.hphi.triplets = [] ∧
        v''.a = a ∧ v''.b = b ∧ v''.l = l ∧ v''.u = u := by
  by_cases hd : c.length = a.cols ∧ b.length = a.rows ∧ l.length = a.cols ∧ u.length = a.cols
  swap
  · rw [C41_lp_partial.1 hd] at hq; cases hq
  rw [Lp.new_ok hd] at hq
  injection hq with hq
  subst hq
  refine ⟨rfl, ?_⟩
  have main : ∀ v, LinInv c a b l u (List.replicate c.length false) x0 v →
      v.a = a ∧ v.b = b ∧ v.l = l ∧ v.u = u ∧ v.x0 = x0 ∧ v.p = List.replicate c.length false ∧ v.nx = c.length ∧
      ∀ ops v', runProb v ops = .ok v' → ∀ x, x.length = c.length → ∃ v'', v'.evaluate x = .ok v'' ∧
        SumOf ((c.zip x).map fun e => e.1 *. e.2) v''.buf.phi ∧ v''.buf.gphi = c ∧
        v''.buf.f = [] ∧ v''.buf.j.triplets = [] ∧ v''.buf.h = [] ∧ v''.buf.hphi.triplets = [] ∧
        v''.a = a ∧ v''.b = b ∧ v''.l = l ∧ v''.u = u := by
    intro v hv
    obtain ⟨d1, d2, d3, d4, d5, d6⟩ := hv.data
    refine ⟨d1, d2, d3, d4, d6, d5, by rw [Minlp.nx, d1, hd.1], ?_⟩
    intro ops v' hr x hx
    have hi := hv.run hr
    obtain ⟨e1, e2, e3, e4, _, _⟩ := hi.data
    exact ⟨_, hi.evaluate hx, dot_sumOf _, rfl, hi.f, hi.j.2, hi.h, hi.hphi, e1, e2, e3, e4⟩
  rintro v (rfl | rfl)
  · exact main _ (LinInv.initial hd.1)
  · refine main _ ?_
    show LinInv _ _ _ _ _ _ _ (Minlp.initial _ _ _ _ _ _ _ (List.replicate a.cols false) _ _)
    rw [← hd.1]
    exact LinInv.initial hd.1

end

section
variable {K : Type} [Field K] [LinearOrder K] [Trig K]

theorem total_cons (v : Option K) (l : List (Option K)) : total (v :: l) = (v +. total l) := by
  cases l with
  | nil => simp [total]
  | cons w l =>
    simp only [total, List.foldl_cons]
    induction l generalizing v w with
    | nil => rfl
    | cons z l ih => simp only [List.foldl_cons, Exact.oadd_assoc, ih]

theorem total_append (l l' : List (Option K)) : total (l ++ l') = (total l +. total l') := by
  induction l with
  | nil => simp [total]
  | cons v l ih => simp only [List.cons_append, total_cons, ih, Exact.oadd_assoc]

theorem total_mul (n : K) (l : List (Option K)) : total (l.map (some n *. ·)) = (some n *. total l) := by
  induction l with
  | nil => simp [total]
  | cons v l ih => simp only [List.map_cons, total_cons, ih, Exact.omul_add]

theorem foldl_oadd (s : Option K) (l : List (Option K)) : l.foldl (· +. ·) s = (s +. total l) := by
  induction l generalizing s with
  | nil => simp [total]
  | cons v l ih => simp only [List.foldl_cons, ih, total_cons, Exact.oadd_assoc]

theorem total_perm' {l l' : List (Option K)} (hp : l.Perm l') : total l = total l' := by
  induction hp with
  | nil => rfl
  | cons x _ ih => rw [total_cons, total_cons, ih]
  | swap x y l => rw [total_cons, total_cons, total_cons, total_cons, ← Exact.oadd_assoc, ← Exact.oadd_assoc, Exact.oadd_comm y x]
  | trans _ _ ih ih' => rw [ih, ih']

theorem SumOf.total {l : List (Option K)} {v : Option K} (h : SumOf l v) : v = Verif.total l := by
  induction h with
  | zero => rfl
  | single v => rfl
  | add h h' hp ih ih' => rw [ih, ih', ← total_append, total_perm' hp]

theorem unrolledDot_exact (es : List (Option K × Option K)) :
    unrolledDot zero zero zero zero zero zero zero zero es = es.foldl (fun s e => s +. (e.1 *. e.2)) zero := by
  rw [(dot_sumOf es).total, (SumOf.foldl (fun e : Option K × Option K => e.1 *. e.2) SumOf.zero es).total]
  rfl

theorem sum_products (c x : List K) (hx : x.length = c.length) :
    ((c.zip x).map fun e => e.1 * e.2).sum = ∑ j ∈ Finset.range c.length, c.getD j 0 * x.getD j 0 := by
  induction c generalizing x with
  | nil => rfl
  | cons d c ih =>
    cases x with
    | nil => simp at hx
    | cons y x =>
      rw [List.zip_cons_cons, List.map_cons, List.sum_cons, List.length_cons, Finset.sum_range_succ', ih x (by simpa using hx), add_comm]
      simp only [List.getD_cons_succ, List.getD_cons_zero]

/-- **C43.** In exact arithmetic the objective value of any of the views is `cᵀx`. -/
theorem C43_objective {c : List K} {a : Coo (Option K)} {b l u : List (Option K)} {x0 : Option (List (Option K))} {q : Lp (Option K)}
    (hq : Lp.new (c.map some) a b l u x0 = .ok q) {v v' : Minlp (Option K)} (hv : v = q.baseMilp.base ∨ v = q.baseNlp.base)
    {ops : List (ProbOp (Option K))} (hr : runProb v ops = .ok v') {x : List K} (hx : x.length = c.length) :
    ∃ v'', v'.evaluate (x.map some) = .ok v'' ∧ v''.buf.phi = some (∑ j ∈ Finset.range c.length, c.getD j 0 * x.getD j 0) := by
  obtain ⟨_, _, _, _, _, _, _, h⟩ := (C43_views hq).2 v hv
  obtain ⟨v'', h1, h2, _⟩ := h ops v' hr (x.map some) (by simpa using hx)
  refine ⟨v'', h1, ?_⟩
  rw [h2.total]
  have e : ((c.map some).zip (x.map some)).map (fun e : Option K × Option K => e.1 *. e.2) = ((c.zip x).map fun e => e.1 * e.2).map some := by
    rw [List.zip_map, List.map_map, List.map_map]
    rfl
  rw [e, total_some]
  congr 1
  exact sum_products c x hx

theorem dense_weighted (h : List (Coo (Option K))) (nu : List K) (r c : Nat) :
    total (valuesAt c (rowOf (weighted h (nu.map some)) r)) = weightedDense h (nu.map some) r c := by
  unfold weighted weightedDense
  rw [foldl_oadd, Exact.zero_def, Exact.ozero_add]
  induction h generalizing nu with
  | nil => rfl
  | cons m h ih =>
    cases nu with
    | nil => rfl
    | cons n nu =>
      simp only [List.map_cons, List.zip_cons_cons, List.flatMap_cons]
      rw [rowOf_append, total_cons]
      have e1 : ∀ (a b : List (Nat × Option K)), valuesAt c (a ++ b) = valuesAt c a ++ valuesAt c b := by
        intro a b; simp [valuesAt]
      rw [e1, total_append, ih]
      congr 1
      have e2 : valuesAt c (rowOf (m.triplets.map fun t => (t.1, t.2.1, some n *. t.2.2)) r) =
          (valuesAt c (rowOf m.triplets r)).map (some n *. ·) := by
        simp only [valuesAt, rowOf, List.filter_map, List.map_map]
        rfl
      rw [e2, total_mul]
      rfl

/-- **C42.** In exact arithmetic, for finite multipliers, the combined Hessian represents the weighted sum of the constraint
Hessians: entry (r, c) is `nu₁ H₁[r,c] + nu₂ H₂[r,c] + ...`. -/
theorem C42_combine_dense {hphi a : Coo (Option K)} {b : List (Option K)} {j : Coo (Option K)} {h : List (Coo (Option K))}
    {l u : List (Option K)} {p : List Bool} {x0 : Option (List (Option K))} {evalFn : EvalFn (Option K)}
    (hw : ∀ hh ∈ h, hh.WF) (hk : KeepsPatterns evalFn) {q0 q : Minlp (Option K)}
    (h0 : Minlp.new hphi a b j h l u p x0 evalFn = .ok q0) {ops : List (ProbOp (Option K))} (hr : runProb q0 ops = .ok q)
    (nu : List K) (hn : nu.length = j.rows) :
    ∃ q', q.combineH (nu.map some) = .ok q' ∧ ∀ r c, q'.hcomb.dense r c = weightedDense q.buf.h (nu.map some) r c := by
  obtain ⟨q', h1, _, _, h4⟩ := (C42_combine hw hk h0 hr (nu.map some)).2 (by simpa using hn)
  exact ⟨q', h1, fun r c => by rw [Coo.dense, h4, dense_weighted]⟩

end

/-! ## Counterexamples and concrete cases -/

/-- A 1x2 matrix. -/
def exA : Coo (Option ℚ) := ⟨(1, 2), [0, 0], [0, 1], [some 1, some 2]⟩

/-- A problem with two nonlinear constraints in two variables. -/
def exH : List (Coo (Option ℚ)) :=
  [⟨(2, 2), [0, 1], [0, 0], [some 1, some 2]⟩, ⟨(2, 2), [1], [1], [some 3]⟩]

/-- **C41** is false as stated: `ProblemLp::new` accepts an initial point with the wrong number of values. -/
theorem C41_counterexample_x0 :
    ∃ q : Lp (Option ℚ), Lp.new [some 1, some 1] exA [some 3] [some 0, some 0] [some 9, some 9] (some []) = .ok q ∧
      q.baseMilp.base.x0 = some [] ∧ q.baseMilp.base.nx = 2 :=
  ⟨_, Lp.new_ok (by decide), rfl, rfl⟩

/-- **C41** is false as stated: `ProblemMilp::new` accepts an objective with the wrong number of coefficients. -/
theorem C41_counterexample_c :
    ∃ q : Milp (Option ℚ), Milp.new [] exA [some 3] [some 0, some 0] [some 9, some 9] [true, false] none = .ok q ∧
      q.nx = 0 ∧ q.base.nx = 2 := by
  obtain ⟨q, h1, h2, h3, h4, h5, h6, h7, h8, h9, _⟩ :=
    (C41_milp_partial (c := ([] : List (Option ℚ))) (a := exA) (b := [some 3]) (l := [some 0, some 0]) (u := [some 9, some 9])
      (p := [true, false]) (x0 := none)).2 (by decide)
  exact ⟨q, h1, h9, by rw [Minlp.nx, h3]; rfl⟩

/-- C41, C42: the dimensions are consistent for a problem with two nonlinear constraints. -/
example : DimsOk (Coo.fromNnz (2, 2) 0) exA [some 3] (Coo.fromNnz (2, 2) 0) exH [some 0, some 0] [some 1, some 1]
    [false, true] ∧ (∀ hh ∈ exH, hh.WF) :=
  ⟨⟨⟨rfl, rfl⟩, rfl, rfl, rfl, by simp [exH, exA, Coo.rows, Coo.cols], rfl, rfl, rfl⟩, by simp [exH, Coo.WF]⟩

/-- C42: an evaluation function that writes the point into the constraint Hessians keeps the patterns. -/
example : KeepsPatterns (F := Option ℚ) fun buf x =>
    .ok { buf with phi := x[0]!, h := buf.h.map fun m => { m with data := m.data.map fun _ => x[0]! } } := by
  intro buf x buf' h
  injection h with h
  subst h
  refine ⟨rfl, ?_⟩
  rw [List.forall₂_map_right_iff]
  exact List.forall₂_same.2 fun m _ => ⟨rfl, rfl, rfl, by simp⟩

/-- C42: the combination for concrete multipliers. -/
example : (weighted exH [some 10, some 100]).map (fun t => (t.1, t.2.1)) = [(0, 0), (1, 0), (1, 1)] ∧
    weightedDense exH [some 10, some 100] 1 0 = some 20 := by decide +kernel

/-- C43: nine products; the eight partial sums and one that is left. -/
example : dot (F := Option ℚ) [some 1, some 2, some 3, some 4, some 5, some 6, some 7, some 8, some 9]
    [some 1, some 1, some 1, some 1, some 1, some 1, some 1, some 1, some 10] = .ok (some 126) := by decide +kernel

/-- C43: a `ProblemLp`. -/
example : ∃ q : Lp (Option ℚ), Lp.new [some 1, some 5] exA [some 3] [some 0, some 0] [some 9, some 9] none = .ok q :=
  ⟨_, Lp.new_ok (by decide)⟩

end Verif
