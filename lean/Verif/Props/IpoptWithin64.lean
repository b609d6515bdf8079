import Verif.Proofs.IpoptWithin64
import Verif.Props.RoundingNlp64
import Verif.Props.IpoptWithin

/-! # C88: models solved with Ipopt in double precision -/

namespace Verif

set_option linter.unusedSectionVars false

section
variable [Libm] {H : HashOrder} {W : World F64} {n m : ℕ}

/-- What is known about the answer of a library that keeps its promise. -/
theorem ipopt_meets64 {q : Minlp F64} {val : List F64 → EvalBuf F64} (hv : EvalsTo q val) (hp : ∀ i : Nat, q.p[i]? ≠ some true) {δ ε : ℝ} {x : List F64}
    (h : q.ipoptArgs.Meets64 (q.oracle val) δ ε x) :
    ∃ (δ' : ℝ) (ts : List ℝ), x.length = q.nx ∧ List.Forall₂ F64.Is x ts ∧ q.LinearWithin64 δ' ε 0 ts ∧
      (∀ (i : ℕ) b, q.b[i]? = some b →
        ∃ z, ((rowOf q.a.triplets i).foldl (fun (s : F64) (t : ℕ × F64) => s +. ((x[t.1]?).getD zero *. t.2)) zero -. b).Is z ∧ |z| ≤ δ) ∧
      ∃ r, q.evaluate x = .ok r ∧ ∀ y ∈ r.buf.f, ∃ z, y.Is z ∧ |z| ≤ δ := by
  have hx : x.length = q.nx := by
    have := h.len
    simp only [Minlp.ipoptArgs] at this
    exact_mod_cast this
  have hg : ((q.oracle val).g x).length = q.na + q.nf := by
    simp only [Minlp.oracle, constraintValues, List.length_append, List.length_map, List.length_zipIdx, (hv.shape x hx).f]
    rfl
  have hall : ∀ (i : Nat) v, ((q.oracle val).g x)[i]? = some v → ∃ z, v.Is z ∧ |z| ≤ δ := by
    intro i v hiv
    have hi := (List.getElem?_eq_some_iff.1 hiv).1
    obtain ⟨lo, v', up, z, h1, h2, h3, h4, h5, h6⟩ := h.rows i hi
    rw [hg] at hi
    have e1 : q.ipoptArgs.gL[i]? = some zero := by simp [Minlp.ipoptArgs, List.getElem?_replicate, hi]
    have e2 : q.ipoptArgs.gU[i]? = some zero := by simp [Minlp.ipoptArgs, List.getElem?_replicate, hi]
    rw [e1] at h1; rw [e2] at h3
    cases h1; cases h3
    rw [hiv] at h2; cases h2
    rw [F64.below_is F64.is_zero] at h5
    rw [F64.above_is F64.is_zero] at h6
    exact ⟨z, h4, abs_le.2 ⟨by linarith, by linarith⟩⟩
  obtain ⟨ts, hts⟩ : ∃ ts, List.Forall₂ F64.Is x ts := by
    have hnum : ∀ v ∈ x, ∃ t, v.Is t := by
      intro v hvm
      obtain ⟨i, hi, rfl⟩ := List.getElem_of_mem hvm
      obtain ⟨lo, v', up, t, -, h2, -, h4, -⟩ := h.bounds i hi
      rw [List.getElem?_eq_getElem hi] at h2
      cases h2
      exact ⟨t, h4⟩
    refine ⟨x.map F64.toReal, ?_⟩
    rw [List.forall₂_map_right_iff]
    refine List.forall₂_same.2 fun v hvm => ?_
    obtain ⟨t, ht⟩ := hnum v hvm
    rwa [ht.toReal]
  have hb : ∀ (i : ℕ) t, ts[i]? = some t → ∃ lo up, q.l[i]? = some lo ∧ q.u[i]? = some up ∧ lo.Below (t + ε) ∧ up.Above (t - ε) := by
    intro i t hi
    have hlt : i < x.length := by rw [hts.length_eq]; exact (List.getElem?_eq_some_iff.1 hi).1
    obtain ⟨lo, v, up, t', h1, h2, h3, h4, h5, h6⟩ := h.bounds i hlt
    obtain ⟨v', h7, h8⟩ := R64.forall_get hts hi
    rw [h2] at h7; cases h7
    rw [h8.unique h4]
    exact ⟨lo, up, h1, h3, h5, h6⟩
  refine ⟨∑ i ∈ Finset.range q.b.length, |((rowOf q.a.triplets i).map fun e => e.2.toReal * ts.getD e.1 0).sum - ((q.b[i]?).getD zero).toReal|, ts, hx, hts,
    ⟨by rw [← hts.length_eq, hx], ?_, ?_, ?_, fun i t hi hpi => absurd hpi (hp i)⟩, ?_, ?_⟩
  · intro i b y hbi hy _
    have := Finset.single_le_sum (f := fun i => |((rowOf q.a.triplets i).map fun e => e.2.toReal * ts.getD e.1 0).sum - ((q.b[i]?).getD zero).toReal|)
      (s := Finset.range q.b.length) (fun i _ => abs_nonneg _) (Finset.mem_range.2 (List.getElem?_eq_some_iff.1 hbi).1)
    simpa only [hbi, Option.getD_some, hy.toReal] using this
  · intro i t lo hi hlo
    obtain ⟨lo', up', h1, h2, h3, h4⟩ := hb i t hi
    rw [hlo] at h1; cases h1
    exact h3
  · intro i t up hi hup
    obtain ⟨lo', up', h1, h2, h3, h4⟩ := hb i t hi
    rw [hup] at h2; cases h2
    exact h4
  · intro i b hbi
    refine hall i _ ?_
    simp only [Minlp.oracle, constraintValues]
    rw [List.getElem?_append_left (by simpa using (List.getElem?_eq_some_iff.1 hbi).1), List.getElem?_map, List.getElem?_zipIdx, hbi]
    simp
  · refine ⟨_, hv.eval [] q rfl x hx, fun v hvm => ?_⟩
    obtain ⟨i, hi, hiv⟩ := List.getElem_of_mem hvm
    refine hall (q.na + i) v ?_
    simp only [Minlp.oracle, constraintValues]
    rw [List.getElem?_append_right (by simp [Minlp.na])]
    simp only [List.length_map, List.length_zipIdx, Minlp.na, Nat.add_sub_cancel_left]
    rw [List.getElem?_eq_getElem hi, hiv]

/-- The solver is Ipopt, with a native library that obeys the `new_x` protocol and, whenever the values it is told are those that the callbacks compute, ends
with code 0 or 1 only at a point of finite doubles at which the delivered rows are at most `δ` in absolute value and the bounds hold up to `ε`. -/
def IpoptKeeps64 (W : World F64) (H : HashOrder) (n : ℕ) (lib : IpoptLib F64) (δ ε : ℝ) : Prop :=
  ∀ sp m q val, W.m.stdProblem H n = .ok (sp, m) → sp.prob.IsNlp q → EvalsTo q val → lib.Obeys q.ipoptArgs q ∧
    lib.Right (fun c a => ¬ c.IsJacPattern → (q.oracle val).Truthful c a) q.ipoptArgs (q.ipoptArgs.ClaimMeets64 (q.oracle val) δ ε)

theorem ipopt_answer64 (hr : ReachableW H W n) {ps : Params F64} {lib : IpoptLib F64} {mod' : Model F64}
    (h : W.m.solve H (ipoptFn ps lib) n = .ok ((.ok (), mod'), m)) (hst : mod'.solverStatus = some .solved) {δ ε : ℝ} (hlib : IpoptKeeps64 W H n lib δ ε)
    {sp : StdProb F64} {st : Status} {sol : Sol F64} (hs : W.m.SolvedBy H n (ipoptFn ps lib) sp st sol) :
    ∃ q ∈ sp.prob.views, ∃ (δ' : ℝ) (ts : List ℝ), sol.x.length = q.nx ∧ List.Forall₂ F64.Is sol.x ts ∧ q.LinearWithin64 δ' ε 0 ts ∧
      (∀ (i : ℕ) b, q.b[i]? = some b →
        ∃ z, ((rowOf q.a.triplets i).foldl (fun (s : F64) (t : ℕ × F64) => s +. ((sol.x[t.1]?).getD zero *. t.2)) zero -. b).Is z ∧ |z| ≤ δ) ∧
      ∃ r, q.evaluate sol.x = .ok r ∧ ∀ y ∈ r.buf.f, ∃ z, y.Is z ∧ |z| ≤ δ := by
  have hstat := solvedBy_unique h hs
  rw [hst] at hstat
  injection hstat with hstat
  obtain ⟨k, hsp, hsol⟩ := hs
  obtain ⟨q, val, code, x, lamnu, pi, mu, hq, hview, hsound, hv, hclaim, hc, -, -, hx⟩ := ipopt_claim hr hsp hsol
    (T := fun q val c a => ¬ c.IsJacPattern → (q.oracle val).Truthful c a)
    (claim := fun q val => q.ipoptArgs.ClaimMeets64 (q.oracle val) δ ε)
    (fun q val _ _ c a h1 h2 => h1 fun h3 => absurd h3 h2) (fun q val hq hv => hlib sp k q val hsp hq hv)
  have hf := ipopt_meets64 hv (nlp_continuous hr hsp hq) (hclaim (hc.1 hstat.symm))
  have hl : x.length = q.nx := by obtain ⟨_, _, hl, _⟩ := hf; exact hl
  rw [hx hl]
  exact ⟨q, hview, hf⟩

/-- **C88.** A model is written and solved with Ipopt in double precision, by a native library that keeps its promise (`IpoptKeeps64`) about the doubles that it
is told. If `solve` succeeds and reports `Solved`, every variable of the model has a finite final value, in the box up to `ε`, and at these values every constraint between linear
formulas, taken in exact arithmetic as it was written, holds up to `δ` (for an equality) or `δ + ε` (for an inequality), the rounding errors `pairErr` of
representing it, and the rounding errors `rowErr` of computing its row. `S` contains the cell numbers of the variables of the constraint. -/
theorem C88_linear (hr : ReachableW H W n) {ps : Params F64} {lib : IpoptLib F64} {mod' : Model F64}
    (h : W.m.solve H (ipoptFn ps lib) n = .ok ((.ok (), mod'), m)) (hst : mod'.solverStatus = some .solved) {δ ε : ℝ} (hδ : 0 ≤ δ) (hε : 0 ≤ ε)
    (hlib : IpoptKeeps64 W H n lib δ ε) :
    (∃ t, W.m.Values64 mod' t) ∧ ∀ t, W.m.Values64 mod' t →
      (∀ c ∈ W.m.constraints, ∀ f g, c.lhs.Says64 f → c.rhs.Says64 g → PairInRange f g →
        ∀ S : Finset ℕ, (∀ x, x.isVar = true → Occurs x c.lhs ∨ Occurs x c.rhs → x.id ∈ S) →
        rowSize f g S.card t + (10 ^ 8 + ε) ≤ 2 ^ (1022 : ℤ) → S.card + 2 ≤ 2 ^ 51 →
        c.kind.Within (δ + (if c.kind = .equal then 0 else ε) + pairErr uD f g t + rowErr f g S.card δ t) (f.value t) (g.value t)) ∧
      ∀ x, W.m.HasVar x → |t x.id| ≤ 10 ^ 8 + ε := by
  obtain ⟨sp, k, hsp, -, hres⟩ := solve_ok h
  rcases hres with ⟨_, -, hbad⟩ | ⟨st, sol, primals, duals, hsol', hx, hmod⟩
  · injection hbad with hbad; cases hbad
  injection hmod with _ hmod
  obtain ⟨q, hq, δ', xs, -, hxs, hwith, hrowc, -⟩ := ipopt_answer64 hr h hst hlib ⟨k, hsp, hsol'⟩
  subst hmod
  obtain ⟨hp, k', comp, e, ps', cols, xes, ves, hf, -⟩ := hr.facts hsp
  obtain ⟨hlen, hpt⟩ := (hf.pointFacts64 hq).1 hwith
  have hneg : (negOne ==. (zero : F64)) = false := by
    rfl
  have hvar : ∀ x, W.m.HasVar x → x ∈ cols := fun x hx => (hf.mem x).2 (hf.mf.col_of_hasVar hneg hx)
  have henv : ∀ x ∈ cols, ∃ a, mapEnv primals x.id = some a ∧ a.Is (colVal64 cols xs x) := by
    intro x hxm
    rw [hx.env hf, pointEnv_col hf.cok hxm]
    exact R64.forall_get hxs (colVal64_get hf.cok hlen hxm)
  refine ⟨?_, fun t ht => ?_⟩
  · classical
    refine ⟨fun i => if hi : ∃ x ∈ cols, x.id = i then colVal64 cols xs hi.choose else 0, fun x hxv => ?_⟩
    have hxm := hvar x hxv
    have hi : ∃ y ∈ cols, y.id = x.id := ⟨x, hxm, rfl⟩
    have he : hi.choose = x := (hf.cok.good _ hi.choose_spec.1).eq_of_id (hf.cok.good _ hxm) hi.choose_spec.2
    obtain ⟨a, h1, h2⟩ := henv x hxm
    refine ⟨a, h1, ?_⟩
    beta_reduce
    rw [dif_pos hi, he]
    exact h2
  · have htv : ∀ x, W.m.HasVar x → t x.id = colVal64 cols xs x := by
      intro x hxv
      obtain ⟨a, h1, h2⟩ := ht x hxv
      obtain ⟨a', h3, h4⟩ := henv x (hvar x hxv)
      change mapEnv primals x.id = _ at h1
      rw [h3] at h1
      cases h1
      exact h2.unique h4
    have hbox : ∀ x ∈ cols, |colVal64 cols xs x| ≤ 10 ^ 8 + ε := by
      intro x hxm
      obtain ⟨h1, h2⟩ := hpt.box x hxm
      exact abs_le.2 ⟨by linarith, h2⟩
    refine ⟨fun c hc f g hfs hgs hRg S hS hM hN => ?_, fun x hxv => by rw [htv x hxv]; exact hbox x (hvar x hxv)⟩
    rw [← hf.mf.cs] at hc
    obtain ⟨p, hpm, rfl⟩ := List.mem_map.1 hc
    obtain ⟨n1, m1, hn1, -, hok⟩ := hf.mf.piece hpm
    have hrt : ∀ b, p.comp.prop.b.Is b → (∀ q ∈ p.coefs, ∃ w, q.2.Is w) → p.isLin = true →
        |(p.coefs.map fun q => q.2.toReal * colVal64 cols xs q.1).sum + b| ≤ δ + rowErr f g S.card δ t := fun b hb hnum hlin =>
      hf.rowTrue64 hpm hlin hfs hgs hRg hxs (fun x hxv => (htv x hxv).symm) hS hδ (by positivity)
        (fun s hs => hbox s (hf.newCol.2 ⟨p, hpm, hs⟩).1) hM hN (hf.rowVals64 hq hrowc p hpm hlin) hb hnum
    have hre : 0 ≤ rowErr f g S.card δ t := by
      obtain ⟨b, hb, hnum, -⟩ := hf.pieceErr64 hpm hfs hgs hRg (v := colVal64 cols xs) fun x hx => (htv x hx).symm
      unfold rowErr rowSize
      have h1 := says64_mag_nonneg hfs t
      have h2 := says64_mag_nonneg hgs t
      refine mul_nonneg (eps_nonneg uD_nonneg _) ?_
      have : (0 : ℝ) ≤ ((S.card : ℝ) + 1) * 2 ^ (-1022 : ℤ) := by positivity
      generalize ((S.card : ℝ) + 1) * 2 ^ (-1022 : ℤ) = r at *
      clear hM
      linarith
    clear hM
    generalize rowErr f g S.card δ t = ρ at *
    obtain ⟨b, hb, hnum, ⟨x, hk, -, hbnd, herr⟩ | ⟨hk, hlin, -, herr⟩ | ⟨s, hlin, hsl, hbnd, herr⟩⟩ :=
      hf.pieceErr64 hpm hfs hgs hRg (v := colVal64 cols xs) fun x hx => (htv x hx).symm
    · have hbd := hpt.bounds p hpm _ _ _ hbnd
      obtain ⟨h1, h2⟩ := abs_le.1 herr
      have hne : p.c.kind ≠ .equal := by rw [Ne, hok.equal, hbnd]; simp
      cases hkk : p.c.kind
      · exact absurd hkk hne
      all_goals
        simp only [hkk, CKind.Within, reduceCtorEq, decide_true, decide_false, if_true, if_false, Bool.false_eq_true] at hbd ⊢
        simp only [F64.above_is (F64.is_neg hb), F64.below_is (F64.is_neg hb)] at hbd
        linarith
    · have hrow := hrt b hb hnum hlin
      simp only [hk, CKind.Within, if_true, add_zero]
      have e1 : f.value t - g.value t = ((p.coefs.map fun q => q.2.toReal * colVal64 cols xs q.1).sum + b) -
        (((p.coefs.map fun q => q.2.toReal * colVal64 cols xs q.1).sum + b) - (f.value t - g.value t)) := by ring
      rw [e1]
      exact (abs_sub _ _).trans (by linarith)
    · have hrow := hrt b hb hnum hlin
      have hbd := hpt.bounds p hpm _ _ _ hbnd
      obtain ⟨h1, h2⟩ := abs_le.1 herr
      obtain ⟨h3, h4⟩ := abs_le.1 hrow
      have hne : p.c.kind ≠ .equal := by rw [Ne, hok.equal, hbnd]; simp
      cases hkk : p.c.kind
      · exact absurd hkk hne
      all_goals
        simp only [hkk, CKind.Within, reduceCtorEq, decide_true, decide_false, if_true, if_false, Bool.false_eq_true] at hbd ⊢
        simp only [F64.above_is F64.is_zero, F64.below_is F64.is_zero] at hbd
        linarith

/-- **C88.** The same for the nonlinear constraints: each, taken in exact arithmetic as it was written, holds at the final values up to `δ` (for an equality)
or `δ + ε` (for an inequality) and the rounding errors of its formulas. -/
theorem C88_nonlinear (hr : ReachableW H W n) {ps : Params F64} {lib : IpoptLib F64} {mod' : Model F64}
    (h : W.m.solve H (ipoptFn ps lib) n = .ok ((.ok (), mod'), m)) (hst : mod'.solverStatus = some .solved) {δ ε : ℝ} (hδ : 0 ≤ δ) (hε : 0 ≤ ε)
    (hlib : IpoptKeeps64 W H n lib δ ε) {sp : StdProb F64} {m₀ : ℕ} (hsp : W.m.stdProblem H n = .ok (sp, m₀)) {k : ℕ} {c : Constraint F64}
    (hk : (k, c) ∈ sp.jindex2constr) {v w s s' : ℝ} {a b : ℕ} (hl : Writes64 (mapEnv mod'.finalPrimals) c.lhs v s a)
    (hr' : Writes64 (mapEnv mod'.finalPrimals) c.rhs w s' b) (hm : s + s' + (10 ^ 8 + ε) ≤ 2 ^ (1022 : ℤ)) (hab : a + b + 5 ≤ 2 ^ 51) :
    c.kind.Within (δ + (if c.kind = .equal then 0 else ε) + ((1 + 2 ^ (-53 : ℤ)) ^ (a + b + 5) - 1) * (4 * (s + s') + 2 * δ)) v w := by
  refine nlp_feasible64 (η := 0) hr h hδ hε (fun sp st sol hs => ?_) hsp hk hl hr' hm hab
  obtain ⟨q, hq, δ', ts, -, h1, h2, -, h3⟩ := ipopt_answer64 hr h hst hlib hs
  exact ⟨q, hq, ⟨δ', ts, h1, h2⟩, h3⟩

end

/-! ## Concrete cases -/

section
attribute [local instance] exLibm

/-- Three finite doubles in this order, up to `t`. -/
def orderedD (t : ℚ) (lo v up : Option F64) : Bool :=
  match lo.bind F64.value, v.bind F64.value, up.bind F64.value with
  | some a, some b, some c => decide (a ≤ b + t) && decide (b - t ≤ c)
  | _, _, _ => false

theorem orderedD_sound {t : ℚ} {lo v up : Option F64} (h : orderedD t lo v up = true) :
    ∃ a b c r, lo = some a ∧ v = some b ∧ up = some c ∧ b.Is r ∧ a.Below (r + t) ∧ c.Above (r - t) := by
  unfold orderedD at h
  split at h
  · rename_i a b c ha hb hc
    simp only [Bool.and_eq_true, decide_eq_true_eq] at h
    obtain ⟨lo, rfl, ha⟩ := Option.bind_eq_some_iff.1 ha
    obtain ⟨v, rfl, hb⟩ := Option.bind_eq_some_iff.1 hb
    obtain ⟨up, rfl, hc⟩ := Option.bind_eq_some_iff.1 hc
    refine ⟨lo, v, up, b, rfl, rfl, rfl, F64.is_lit hb rfl, ?_, ?_⟩
    · rw [F64.below_is (F64.is_lit ha rfl)]
      exact_mod_cast (Rat.cast_le (K := ℝ)).2 h.1
    · rw [F64.above_is (F64.is_lit hc rfl)]
      exact_mod_cast (Rat.cast_le (K := ℝ)).2 h.2
  · cases h

/-- A native library that only checks the initial point, up to `t`. -/
def checkLibD (t : ℚ) : IpoptLib F64 where
  create _ := true
  addInt _ _ := true
  addStr _ _ := true
  solve args _ _ x lamnu pi mu :=
    .call (.jacG args.n none 0 args.m args.nnzj true true false true) fun _ =>
    .call (.g args.n (some x) 1 args.m true true) fun a =>
    .done (if a.ok && (List.range x.length).all (fun i => orderedD t args.xL[i]? x[i]? args.xU[i]?) &&
      (List.range a.values.length).all (fun i => orderedD t args.gL[i]? a.values[i]? args.gU[i]?) then 1 else -1) x lamnu pi mu

/-- It keeps its promise for every model. -/
theorem checkLibD_keeps (W : World F64) (H : HashOrder) (n : ℕ) (t : ℚ) : IpoptKeeps64 W H n (checkLibD t) t t := by
  refine fun sp m q val _ _ _ => ⟨fun level sb x lamnu pi mu hx => ?_, fun level sb x lamnu pi mu hx => ?_⟩
  · have hx : x.length = q.nx := by
      simp only [Minlp.ipoptArgs, Nat.cast_inj] at hx
      exact hx
    exact .pattern ⟨rfl, rfl, rfl, rfl, rfl, rfl, rfl⟩ fun _ => .values (x := x) ⟨rfl, rfl, hx, rfl, rfl, rfl⟩ (.inl rfl) fun _ => .done ..
  · refine .call fun _ _ => .call fun a ha => .done ?_
    intro hcode
    have hcode : (a.ok && (List.range x.length).all (fun i => orderedD t q.ipoptArgs.xL[i]? x[i]? q.ipoptArgs.xU[i]?) &&
        (List.range a.values.length).all (fun i => orderedD t q.ipoptArgs.gL[i]? a.values[i]? q.ipoptArgs.gU[i]?)) = true := by
      by_contra hc
      rw [if_neg hc] at hcode
      rcases hcode with h | h <;> cases h
    simp only [Bool.and_eq_true, List.all_eq_true, List.mem_range] at hcode
    obtain ⟨⟨h1, h2⟩, h3⟩ := hcode
    have hv := ha (fun h => h) h1 x rfl
    rw [hv] at h3
    exact ⟨hx, fun i hi => orderedD_sound (h2 i hi), fun i hi => orderedD_sound (h3 i hi)⟩

/-- The program: minimise `x * x` subject to `x * x <= 2` and `x + y == 3`, from `x` next to the square root of 2 and `y = 203/128`. -/
def exI : List (Cmd F64) :=
  [.expr (.var "x" .continuous), .expr (.var "y" .continuous), .expr (.mul 0 0), .expr (.add 0 1), .cmpNodeScalar .lessEqual 2 (dbl 2) "",
    .cmpNodeScalar .equal 3 (dbl 3) "", .newModel, .minimize 2, .addConstraints [0, 1], .setInitPrimals [(0, dbl exNr), (1, dbl (203 / 128))]]

def exIx : Node F64 := .var 0 "x" .continuous
def exIy : Node F64 := .var 1 "y" .continuous
def exIc : Constraint F64 := ⟨5, .mul 2 exIx exIx, .lessEqual, .const 4 (dbl 2), ""⟩
def exId : Constraint F64 := ⟨7, .add 3 [exIx, exIy], .equal, .const 6 (dbl 3), ""⟩

theorem exI_reach : ReachableW HashOrder.listOrder (worldD exI) (countD exI) :=
  (runsD_reachable (by decide +kernel) (by decide +kernel)).reachable

theorem exI_model : (worldD exI).m.constraints = [exIc, exId] := by decide +kernel

theorem exI_j : (match (worldD exI).m.stdProblem HashOrder.listOrder (countD exI) with
    | .ok r => decide (r.1.jindex2constr = [(0, exIc)])
    | .error _ => false) = true := by decide +kernel

theorem exI_solve : (match (worldD exI).m.solve HashOrder.listOrder (ipoptFn ipoptParams (checkLibD (2 ^ (-10 : ℤ)))) (countD exI) with
    | .ok ((.ok (), mod'), _) => decide (mod'.solverStatus = some .solved ∧ mapEnv mod'.finalPrimals 0 = some (dbl exNr) ∧ mapEnv mod'.finalPrimals 1 = some (dbl (203 / 128)))
    | _ => false) = true := by decide +kernel

/-- The formulas `x + y` and `3`. -/
noncomputable def exIf : LinForm := ⟨{0, 1}, Pi.single 0 1 + Pi.single 1 1, 0 + 0, Pi.single 0 1 + Pi.single 1 1, 0 + 0, 1 + 1 + 1⟩
noncomputable def exIg : LinForm := ⟨∅, 0, 3, 0, |3|, 1⟩

theorem exI_says : exId.lhs.Says64 exIf ∧ exId.rhs.Says64 exIg ∧ PairInRange exIf exIg := by
  have hs : ∀ i, (Pi.single 0 1 + Pi.single 1 1 : ℕ → ℝ) i ≤ 2 := fun i => by
    have h0 := small_single 0 i
    have h1 := small_single 1 i
    rw [Pi.add_apply]
    linarith
  refine ⟨⟨.add (a := exIx) (b := exIy) (n := 3) (n' := 4) (.var (n := 0) (n' := 1) rfl) (.var (n := 1) (n' := 2) rfl)
    ⟨fun i => inRange_small ((hs i).trans (by norm_num)) (by norm_num), inRange_small (by norm_num) (by norm_num)⟩ rfl, fun i hi => ?_⟩,
    ⟨.const (n := 6) (n' := 7) (x := 3) (F64.is_lit (q := 3) (by decide +kernel) (by norm_num)) (inRange_small (by norm_num) (by norm_num)) rfl, fun i _ => rfl⟩,
    fun i => inRange_small ?_ ?_, inRange_small ?_ ?_⟩
  · simp only [exIf, Finset.mem_insert, Finset.mem_singleton, not_or] at hi
    show (Pi.single 0 1 + Pi.single 1 1 : ℕ → ℝ) i = 0
    rw [Pi.add_apply, Pi.single_eq_of_ne hi.1, Pi.single_eq_of_ne hi.2, add_zero]
  · show (Pi.single 0 1 + Pi.single 1 1 : ℕ → ℝ) i + 0 ≤ _
    have := hs i
    linarith
  · norm_num [exIf, exIg]
  · norm_num [exIf, exIg]
  · norm_num [exIf, exIg]

/-- Non-vacuity of C88: `solve` with Ipopt and the library `checkLibD` with tolerance `2^-10` succeeds and reports `Solved`, the hypotheses of both theorems
are met, and so the reported values satisfy `x + y == 3` up to `2^-9` and `x * x <= 2` up to `2^-8`. They satisfy neither exactly. -/
example : ∃ mod' n' t, (worldD exI).m.solve HashOrder.listOrder (ipoptFn ipoptParams (checkLibD (2 ^ (-10 : ℤ)))) (countD exI) = .ok ((.ok (), mod'), n') ∧
    mod'.solverStatus = some .solved ∧ (worldD exI).m.Values64 mod' t ∧ |t 0 + t 1 - 3| ≤ 2 ^ (-9 : ℤ) ∧ t 0 * t 0 ≤ 2 + 2 ^ (-8 : ℤ) ∧
    t 0 + t 1 ≠ 3 ∧ ¬ t 0 * t 0 ≤ 2 := by
  obtain ⟨mod', n', hs, hst, ht0, ht1⟩ : ∃ mod' n', (worldD exI).m.solve HashOrder.listOrder (ipoptFn ipoptParams (checkLibD (2 ^ (-10 : ℤ)))) (countD exI) = .ok ((.ok (), mod'), n') ∧
      mod'.solverStatus = some .solved ∧ mapEnv mod'.finalPrimals 0 = some (dbl exNr) ∧ mapEnv mod'.finalPrimals 1 = some (dbl (203 / 128)) := by
    have hok := exI_solve
    revert hok
    generalize (worldD exI).m.solve HashOrder.listOrder (ipoptFn ipoptParams (checkLibD (2 ^ (-10 : ℤ)))) (countD exI) = r
    match r with
    | .ok ((.ok (), mod'), n') => exact fun h => ⟨mod', n', rfl, by simpa using h⟩
    | .ok ((.error _, _), _) => simp
    | .error _ => simp
  have hkeep := checkLibD_keeps (worldD exI) HashOrder.listOrder (countD exI) (2 ^ (-10 : ℤ))
  have hcast : ((2 ^ (-10 : ℤ) : ℚ) : ℝ) = 2 ^ (-10 : ℤ) := by push_cast; rfl
  rw [hcast] at hkeep
  obtain ⟨⟨t, ht⟩, hall⟩ := C88_linear exI_reach hs hst (by positivity) (by positivity) hkeep
  have hd : exId ∈ (worldD exI).m.constraints := by rw [exI_model]; simp
  have hX : (worldD exI).m.HasVar exIx := ⟨rfl, .inr ⟨exId, hd, .inl (.arg (a := exIx) (by simp [exId, Node.arguments]) (.refl _))⟩⟩
  have hY : (worldD exI).m.HasVar exIy := ⟨rfl, .inr ⟨exId, hd, .inl (.arg (a := exIy) (by simp [exId, Node.arguments]) (.refl _))⟩⟩
  have t0 : t 0 = exNr := by
    obtain ⟨a, h1, h2⟩ := ht _ hX
    change mapEnv mod'.finalPrimals 0 = _ at h1
    rw [ht0] at h1
    cases h1
    exact F64.Is.unique h2 (F64.is_lit (q := exNr) (by decide +kernel) rfl)
  have t1 : t 1 = 203 / 128 := by
    obtain ⟨a, h1, h2⟩ := ht _ hY
    change mapEnv mod'.finalPrimals 1 = _ at h1
    rw [ht1] at h1
    cases h1
    exact F64.Is.unique h2 (F64.is_lit (q := 203 / 128) (by decide +kernel) (by norm_num))
  have hmag : exIf.mag t + exIg.mag t ≤ 7 := by
    simp only [exIf, exIg, LinForm.mag]
    rw [Finset.sum_pair (by norm_num), t0, t1]
    simp only [Pi.add_apply, Finset.sum_empty, Pi.single_eq_same]
    rw [Pi.single_eq_of_ne (by norm_num), Pi.single_eq_of_ne (by norm_num)]
    norm_num [exNr]
  have hmag0 : 0 ≤ exIf.mag t + exIg.mag t := add_nonneg (says64_mag_nonneg exI_says.1 t) (says64_mag_nonneg exI_says.2.1 t)
  have hτ : (2 : ℝ) ^ (-1022 : ℤ) ≤ 1 := zpow_le_one_of_nonpos₀ (by norm_num) (by norm_num)
  have hrow : rowSize exIf exIg 2 t ≤ 17 := by
    unfold rowSize
    generalize (2 : ℝ) ^ (-1022 : ℤ) = τ at hτ
    norm_num
    linarith
  have hbig : (17 : ℝ) + (10 ^ 8 + 2 ^ (-10 : ℤ)) ≤ 2 ^ (1022 : ℤ) :=
    le_trans (by norm_num) (zpow_le_zpow_right₀ (by norm_num : (1 : ℝ) ≤ 2) (by norm_num : (30 : ℤ) ≤ 1022))
  have h1 := (hall t ht).1 exId hd exIf exIg exI_says.1 exI_says.2.1 exI_says.2.2 {0, 1} (fun x hx ho => by
    have hv : x = exIx ∨ x = exIy := by
      rcases ho with ho | ho
      · cases ho with
        | refl => cases hx
        | arg hm ho =>
          simp only [exId, Node.arguments, List.mem_cons, List.not_mem_nil, or_false] at hm
          rcases hm with rfl | rfl
          · cases ho with
            | refl => exact .inl rfl
            | arg hm _ => simp [exIx, Node.arguments] at hm
          · cases ho with
            | refl => exact .inr rfl
            | arg hm _ => simp [exIy, Node.arguments] at hm
      · cases ho with
        | refl => cases hx
        | arg hm _ => simp [exId, Node.arguments] at hm
    rcases hv with rfl | rfl <;> simp [exIx, exIy, Node.id]) (le_trans (add_le_add hrow le_rfl) hbig) (by norm_num)
  have hj := exI_j
  cases hsp : (worldD exI).m.stdProblem HashOrder.listOrder (countD exI) with
  | error _ => rw [hsp] at hj; cases hj
  | ok sp =>
    obtain ⟨sp, m⟩ := sp
    rw [hsp] at hj
    simp only [decide_eq_true_eq] at hj
    have htD := tauD_le_one
    have hx : Writes64 (mapEnv mod'.finalPrimals) exIx exNr |(exNr : ℝ)| 1 :=
      .var (n := 0) (n' := 1) (c := dbl exNr) rfl ht0 (F64.is_lit (q := exNr) (by decide +kernel) rfl) (inRange_small (by norm_num [exNr]) (by norm_num))
    have hxx : Writes64 (mapEnv mod'.finalPrimals) exIc.lhs (exNr * exNr) (|(exNr : ℝ)| * |(exNr : ℝ)| + ((1 : ℕ) + (1 : ℕ) + 1) * tauD) (1 + 1 + 2) :=
      .mul (n := 2) (n' := 3) hx hx (inRange_small (by norm_num [exNr]; linarith) (by norm_num)) rfl
    have h2 : Writes64 (mapEnv mod'.finalPrimals) exIc.rhs 2 |2| 1 :=
      .const (n := 4) (n' := 5) (F64.is_lit (q := 2) (by decide +kernel) (by norm_num)) (inRange_small (by norm_num) (by norm_num)) rfl
    have hsz : |(exNr : ℝ)| * |(exNr : ℝ)| + ((1 : ℕ) + (1 : ℕ) + 1) * tauD + |2| ≤ 8 := by
      have hmul : |(exNr : ℝ)| * |(exNr : ℝ)| ≤ 3 := by norm_num [exNr]
      norm_num at hmul ⊢
      linarith
    have h3 := C88_nonlinear exI_reach hs hst (by positivity) (by positivity) hkeep hsp (k := 0) (c := exIc) (by rw [hj]; simp) hxx h2
      (le_trans (add_le_add hsz le_rfl) (le_trans (by norm_num) hbig)) (by norm_num)
    refine ⟨mod', n', t, hs, hst, ht, ?_, ?_, ?_, ?_⟩
    · have hf : exIf.value t = t 0 + t 1 := by
        simp only [exIf, LinForm.value]
        rw [Finset.sum_pair (by norm_num)]
        simp
      have hg : exIg.value t = 3 := by simp [exIg, LinForm.value]
      rw [hf, hg] at h1
      simp only [exId, CKind.Within, if_true] at h1
      refine h1.trans ?_
      have e1 : pairErr uD exIf exIg t ≤ ((1 + 2 ^ (-53 : ℤ)) ^ 6 - 1) * 7 := mul_le_mul_of_nonneg_left hmag (eps_nonneg uD_nonneg 6)
      have e2 : rowErr exIf exIg 2 (2 ^ (-10 : ℤ)) t ≤ ((1 + 2 ^ (-53 : ℤ)) ^ (2 + 2) - 1) * (4 * 17 + 2 * 2 ^ (-10 : ℤ)) :=
        mul_le_mul_of_nonneg_left (by linarith) (eps_nonneg uD_nonneg (2 + 2))
      have e3 : ((1 + 2 ^ (-53 : ℤ) : ℝ) ^ 6 - 1) * 7 ≤ 2 ^ (-20 : ℤ) := by norm_num
      have e4 : ((1 + 2 ^ (-53 : ℤ) : ℝ) ^ (2 + 2) - 1) * (4 * 17 + 2 * 2 ^ (-10 : ℤ)) ≤ 2 ^ (-20 : ℤ) := by norm_num
      have e5 : (2 : ℝ) ^ (-10 : ℤ) + 0 + 2 ^ (-20 : ℤ) + 2 ^ (-20 : ℤ) ≤ 2 ^ (-9 : ℤ) := by norm_num
      have hc : ({0, 1} : Finset ℕ).card = 2 := rfl
      rw [hc]
      exact le_trans (add_le_add (add_le_add le_rfl (e1.trans e3)) (e2.trans e4)) e5
    · simp only [exIc, CKind.Within, reduceCtorEq, if_false] at h3
      rw [t0]
      have e1 : ((1 + 2 ^ (-53 : ℤ) : ℝ) ^ ((1 + 1 + 2) + 1 + 5) - 1) * (4 * (|(exNr : ℝ)| * |(exNr : ℝ)| + ((1 : ℕ) + (1 : ℕ) + 1) * tauD + |2|) + 2 * 2 ^ (-10 : ℤ)) ≤
          ((1 + 2 ^ (-53 : ℤ) : ℝ) ^ ((1 + 1 + 2) + 1 + 5) - 1) * (4 * 8 + 2 * 2 ^ (-10 : ℤ)) :=
        mul_le_mul_of_nonneg_left (by linarith) (eps_nonneg uD_nonneg _)
      have e2 : ((1 + 2 ^ (-53 : ℤ) : ℝ) ^ ((1 + 1 + 2) + 1 + 5) - 1) * (4 * 8 + 2 * 2 ^ (-10 : ℤ)) ≤ 2 ^ (-20 : ℤ) := by norm_num
      have e3 : (2 : ℝ) ^ (-10 : ℤ) + 2 ^ (-10 : ℤ) + 2 ^ (-20 : ℤ) ≤ 2 ^ (-8 : ℤ) := by norm_num
      have e4 := e1.trans e2
      linarith
    · rw [t0, t1]; norm_num [exNr]
    · rw [t0]; norm_num [exNr]

end

end Verif
