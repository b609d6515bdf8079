import Verif.Proofs.Kkt

/-! # From the first-order conditions of the standard problem to those of the model -/

set_option linter.unusedSectionVars false
set_option linter.unusedSimpArgs false

namespace Verif

section
variable {H : HashOrder} {h : Heap (Option ℝ)} {n m : Nat} {cols : List (Node (Option ℝ))} {comp : ModelComp (Option ℝ)}
  {mod : Model (Option ℝ)} {e : Node (Option ℝ)} {ps : List (Piece (Option ℝ))} {xes : List (Node (Option ℝ) × Option ℝ)}
  {ves : List (Node (Option ℝ) × Nat)} {sp : StdProb (Option ℝ)} {σ : Env (Option ℝ)}

/-- The bounds of a slack. -/
theorem SpFacts.slack_bounds (hf : SpFacts H .noSelf h n m mod comp e ps cols xes ves sp) {p : Piece (Option ℝ)} (hp : p ∈ ps)
    {s : Node (Option ℝ)} (hs : p.slack = some s) :
    (p.c.kind = .lessEqual → upT comp s = (some 0, some p.c) ∧ loT comp s = (some (-(10 ^ 8)), none)) ∧
    (p.c.kind = .greaterEqual → loT comp s = (some 0, some p.c) ∧ upT comp s = (some (10 ^ 8), none)) := by
  have hsc := MFacts.slackCol hf hp hs
  have hb := fun (v : Option ℝ) (c : Constraint (Option ℝ)) => hf.bound_new hp hs (v := v) (c := c)
  have hcolU : ∀ b ∈ comp.constr.u, b.1 ∈ cols := hf.cmpOk.u
  have goodEq : ∀ {b : Node (Option ℝ) × Option ℝ × Constraint (Option ℝ)}, b.1 ∈ cols → b.1 = s → b.1.ptrEq s = true := by
    intro b _ hbs; rw [hbs]; exact ptrEq_refl s
  constructor
  · intro hk
    constructor
    · cases hu : (upT comp s).2 with
      | none =>
        obtain ⟨up, -, -, -, h4⟩ := tightest_up (10 ^ 8 : ℝ) comp.constr.u s
        obtain ⟨b, hbm, hbs, he⟩ := (hb zero p.c).1.2 ⟨rfl, rfl, hk⟩
        have := (h4 hu).2 b hbm hbs 0 (by rw [he]; rfl)
        norm_num at this
      | some c =>
        obtain ⟨up, h1, p', hp', hc, hbd⟩ := hf.up_some hsc hu
        have := (hb (some up) c).1.1 ⟨(s, some up, c), hf.mf.upper.2 ⟨p', hp', hbd, hc.symm⟩, ptrEq_refl s, rfl⟩
        rw [this.2.1] at h1
        rw [← this.1, ← hu]
        exact Prod.ext h1 rfl
    · cases hu : (loT comp s).2 with
      | none => exact Prod.ext (lo_none hu) hu
      | some c =>
        obtain ⟨lo, h1, p', hp', hc, hbd⟩ := hf.lo_some hsc hu
        have := (hb (some lo) c).2.1 ⟨(s, some lo, c), hf.mf.lower.2 ⟨p', hp', hbd, hc.symm⟩, ptrEq_refl s, rfl⟩
        rw [hk] at this
        cases this.2.2
  · intro hk
    constructor
    · cases hu : (loT comp s).2 with
      | none =>
        obtain ⟨up, -, -, -, h4⟩ := tightest_lo (-(10 ^ 8) : ℝ) comp.constr.l s
        obtain ⟨b, hbm, hbs, he⟩ := (hb zero p.c).2.2 ⟨rfl, rfl, hk⟩
        have := (h4 hu).2 b hbm hbs 0 (by rw [he]; rfl)
        norm_num at this
      | some c =>
        obtain ⟨lo, h1, p', hp', hc, hbd⟩ := hf.lo_some hsc hu
        have := (hb (some lo) c).2.1 ⟨(s, some lo, c), hf.mf.lower.2 ⟨p', hp', hbd, hc.symm⟩, ptrEq_refl s, rfl⟩
        rw [this.2.1] at h1
        rw [← this.1, ← hu]
        exact Prod.ext h1 rfl
    · cases hu : (upT comp s).2 with
      | none => exact Prod.ext (up_none hu) hu
      | some c =>
        obtain ⟨up, h1, p', hp', hc, hbd⟩ := hf.up_some hsc hu
        have := (hb (some up) c).1.1 ⟨(s, some up, c), hf.mf.upper.2 ⟨p', hp', hbd, hc.symm⟩, ptrEq_refl s, rfl⟩
        rw [hk] at this
        cases this.2.2

/-- A piece that bounds a variable: derivative and value of its expression. -/
theorem SpFacts.bound_piece (hf : SpFacts H .noSelf h n m mod comp e ps cols xes ves sp) {p : Piece (Option ℝ)} (hp : p ∈ ps)
    {y : Node (Option ℝ)} (hk : p.kind = .bound y) (hd : Defined p.exp σ) (hσ : ∀ x ∈ cols, ∃ t, σ x.id = some (some t)) :
    y ∈ cols ∧ y.id < n ∧ (∀ x ∈ cols, numD σ x p.exp = if x = y then 1 else 0) ∧
      ∃ v t, FloatOps.neg p.comp.prop.b = some v ∧ y.evaluate σ = some t ∧ p.exp.evaluate σ = some (t - v) := by
  obtain ⟨n', m', hn', -, hok⟩ := hf.mf.piece hp
  obtain ⟨w, hw, hone⟩ := hok.bound y hk
  have hpk := hok.propKeys (q := (y, w)) (by rw [hw]; simp)
  have hyc := hf.pieceCol hp hpk.1 hpk.2
  have haff : Aff p.exp := by
    have := hok.affine
    rw [hok.prop.2] at this
    unfold Aff
    rw [this]
    simp [Piece.isNl, hk]
  have hw' : p.exp.stdProperties.a = [(y, w)] := by rw [← hok.prop.2, hw]
  have hw1 : w = some 1 := by
    cases w with
    | none => simp [FloatOps.eq, one] at hone
    | some w => simpa using (Exact.eq_one_iff.1 hone)
  refine ⟨hyc, (hf.mf.old y (hf.mf.pieceVar hp hpk.1 hpk.2)).1, fun x hx => ?_, ?_⟩
  · obtain ⟨t, ht⟩ := hσ x hx
    by_cases hxy : x = y
    · rw [if_pos hxy]
      have := coef_numD (by simp) hok.goodExp haff hd (hf.cok.var _ hx) ht (some 1) (by rw [hw', hw1, hxy]; simp)
      injection this with this
      exact this.symm
    · rw [if_neg hxy]
      refine numD_absent fun z hz => ?_
      rw [← Bool.not_eq_true]
      intro hzx
      have hzx' : z = x := ((hok.goodExp.sub hz).ptrEq_iff (hf.cok.good _ hx)).1 hzx
      subst hzx'
      have hkz := (keys_iff hok.goodExp).2 ⟨hf.cok.var _ hx, hz⟩
      rw [hw'] at hkz
      simp [keysN] at hkz
      exact hxy hkz
  · obtain ⟨v, hv⟩ := hd
    have ha := affine_val (by simp) σ p.exp hok.goodExp haff
    rw [hv] at ha
    obtain ⟨w1, b, h1, h2, h3⟩ := Exact.add_eq_some.1 ha.symm
    rw [hw', hw1] at h1
    simp only [lin, List.map_cons, List.map_nil, osum_cons, osum_nil] at h1
    obtain ⟨t0, ht0⟩ := hσ y hyc
    have hye : y.evaluate σ = some t0 := by
      have := hf.cok.var _ hyc
      cases y <;> simp [Node.isVar] at this
      simpa [Node.evaluate, Node.id] using by simp [Node.id] at ht0; rw [ht0]
    rw [hye] at h1
    refine ⟨-b, t0, by rw [hok.prop.2, h2]; rfl, hye, ?_⟩
    rw [hv]
    simp at h1
    rw [← h3, ← h1]
    simp


theorem Piece.bound_of {p : Piece (Option ℝ)} (hs : p.slack = none) (hb : p.bnd ≠ none) : ∃ x, p.kind = .bound x := by
  unfold Piece.bnd at hb
  unfold Piece.slack at hs
  cases hk : p.kind <;> simp [hk] at hs hb ⊢

set_option maxHeartbeats 1600000 in
/-- From multipliers of the standard problem to multipliers of the model. -/
theorem SpFacts.kkt (hf : SpFacts H .noSelf h n m mod comp e ps cols xes ves sp)
    (hdef : ∀ c ∈ mod.constraints, ∃ σ d, c.residual σ = some d) (hnd : mod.constraints.Nodup)
    {q : Minlp (Option ℝ)} (hq : q ∈ sp.prob.views) {sol : Sol (Option ℝ)} (hk : q.Kkt sol) (hobj : Defined e (pointEnv cols sol.x))
    (hbox : mod.InsideBox (pointEnv cols sol.x)) (y : Constraint (Option ℝ) → ℝ)
    (hE : ∀ c ∈ mod.constraints, c.kind = .equal → ∃ k, (k, c) ∈ sp.aindex2constr ∧ sol.lam[k]? = some (some (y c)) ∨
      (k, c) ∈ sp.jindex2constr ∧ sol.nu[k]? = some (some (y c)))
    (hU : ∀ c ∈ mod.constraints, c.kind = .lessEqual → (∃ i, (i, c) ∈ sp.uindex2constr ∧ sol.mu[i]? = some (some (y c))) ∨
      ((∃ x v, c.Bounds x v) ∧ (∀ i, (i, c) ∉ sp.uindex2constr) ∧ y c = 0))
    (hL : ∀ c ∈ mod.constraints, c.kind = .greaterEqual → (∃ i, (i, c) ∈ sp.lindex2constr ∧ sol.pi[i]? = some (some (y c))) ∨
      ((∃ x v, c.Bounds x v) ∧ (∀ i, (i, c) ∉ sp.lindex2constr) ∧ y c = 0)) :
    mod.KktAt (pointEnv cols sol.x) y := by
  obtain ⟨hfeas, r, xv, lam, nu, mu, pi, lo, up, hr, hsx, hsl, hsn, hsm, hsp, hql, hqu, hcol⟩ := hk
  obtain ⟨hlen, hholds, hslack, -, -⟩ := (hf.feasible (by simp) hdef hq sol.x).1 hfeas
  obtain ⟨hnx, hna, hnf⟩ := hf.na_eq hq
  have hv := hf.view hq
  obtain ⟨kc, hkc, hch⟩ := hf.mf.chain
  rw [hnx] at hsx hsm hsp hql hqu hcol
  rw [hna] at hsl hcol
  rw [hnf] at hsn hcol
  generalize hσ : pointEnv cols sol.x = σ at *
  -- columns
  have hmemc : ∀ p ∈ ps, p.c ∈ mod.constraints := fun p hp => by rw [← hf.mf.cs]; exact List.mem_map.2 ⟨p, hp, rfl⟩
  have hcnd : (ps.map (·.c)).Nodup := by rw [hf.mf.cs]; exact hnd
  have hpnd : ps.Nodup := List.Nodup.of_map _ hcnd
  have hcinj : ∀ p ∈ ps, ∀ p' ∈ ps, p.c = p'.c → p = p' := fun p hp p' hp' hc => List.inj_on_of_nodup_map hcnd hp hp' hc
  have hcoln : ∀ x ∈ cols, ∃ i, i < cols.length ∧ cols[i]? = some x := fun x hx => by
    obtain ⟨i, hi⟩ := List.mem_iff_getElem?.1 hx
    exact ⟨i, (List.getElem?_eq_some_iff.1 hi).1, hi⟩
  have hval : ∀ (i : Nat) (x : Node (Option ℝ)), cols[i]? = some x → σ x.id = some (some (xv i)) ∧ x.evaluate σ = some (xv i) := by
    intro i x hx
    obtain ⟨hi, hxi⟩ := List.getElem?_eq_some_iff.1 hx
    have hxm := List.mem_of_getElem? hx
    have h1 := pointEnv_col hf.cok hxm (xs := sol.x)
    have hcx : colOf cols x = i := by rw [← hxi]; exact hf.cok.col_get hi
    have h2 : σ x.id = some (some (xv i)) := by
      rw [← hσ, h1, hcx, hsx, vec_get hi]
    refine ⟨h2, ?_⟩
    have := hf.cok.var _ hxm
    cases x <;> simp [Node.isVar] at this
    simp only [Node.id] at h2
    simp [Node.evaluate, h2]
  have hσn : ∀ x ∈ cols, ∃ t, σ x.id = some (some t) := fun x hx => by
    obtain ⟨i, -, hi⟩ := hcoln x hx
    exact ⟨_, (hval i x hi).1⟩
  have hcidx : ∀ {i j : Nat} {x : Node (Option ℝ)}, cols[i]? = some x → cols[j]? = some x → i = j := by
    intro i j x hi hj
    obtain ⟨hi1, hi2⟩ := List.getElem?_eq_some_iff.1 hi
    obtain ⟨hj1, hj2⟩ := List.getElem?_eq_some_iff.1 hj
    rw [← hf.cok.col_get hi1, ← hf.cok.col_get hj1, hi2, hj2]
  have hup : ∀ (i : Nat) (x : Node (Option ℝ)), cols[i]? = some x → (upT comp x).1 = some (up i) ∧ (loT comp x).1 = some (lo i) := by
    intro i x hx
    have hi := (List.getElem?_eq_some_iff.1 hx).1
    constructor
    · have h1 := hv.u
      rw [hqu] at h1
      have h2 : (vec cols.length up)[i]? = (stdU cols comp)[i]? := by rw [h1]
      rw [vec_get hi, stdU, List.getElem?_map, hx] at h2
      simpa using h2.symm
    · have h1 := hv.l
      rw [hql] at h1
      have h2 : (vec cols.length lo)[i]? = (stdL cols comp)[i]? := by rw [h1]
      rw [vec_get hi, stdL, List.getElem?_map, hx] at h2
      simpa using h2.symm
  -- pieces
  have hres : ∀ p ∈ ps, ∀ τ, p.exp.evaluate τ = p.c.residual τ := fun p hp τ => by
    obtain ⟨n', m', -, -, hok⟩ := hf.mf.piece hp
    obtain ⟨k, hk'⟩ := hok.exp
    exact subN_val hk' τ
  have hpd : ∀ p ∈ ps, Defined p.exp σ := fun p hp => by
    obtain ⟨d, hd, -⟩ := (p.c.holds_iff σ).1 (hholds p.c (hmemc p hp))
    exact ⟨d, by rw [hres p hp, hd]⟩
  let D := fun (x : Node (Option ℝ)) (p : Piece (Option ℝ)) => numD σ x p.exp - slackD x p.slack
  have hstat : ∀ (i : Nat) (x : Node (Option ℝ)), cols[i]? = some x →
      numD σ x e = (ps.map fun p => D x p * p.mult lam nu).sum - mu i + pi i := by
    intro i x hx
    have hi := (List.getElem?_eq_some_iff.1 hx).1
    obtain ⟨-, -, -, -, g, a, j, hg, ha, hj, hs⟩ := hcol i hi
    have hg' := hf.grad hq hlen hr (by rw [hσ]; exact hobj) (by rw [hσ]; exact hσn) hx
    rw [hσ] at hg'
    rw [hg'] at hg
    injection hg with hg
    injection hg with hg
    rw [← hch.row_sums lam nu (D x) (a := a) (j := j) ?_ ?_]
    · rw [hg]; linarith
    · intro p hp hl
      have h1 : p.arow < (ps.filter Piece.isLin).length := by
        have := hch.lin
        have h2 : p.arow ∈ (ps.filter Piece.isLin).map Piece.arow := List.mem_map.2 ⟨p, List.mem_filter.2 ⟨hp, hl⟩, rfl⟩
        rw [this, List.mem_range'_1] at h2
        omega
      have h3 := ha p.arow h1
      rw [hv.a, hf.lin_entry hp hl (hpd p hp) hσn hx] at h3
      injection h3 with h3
      exact h3.symm
    · intro p hp hl
      have h1 : p.jrow < (ps.filter Piece.isNl).length := by
        have := hch.nl
        have h2 : p.jrow ∈ (ps.filter Piece.isNl).map Piece.jrow := List.mem_map.2 ⟨p, List.mem_filter.2 ⟨hp, hl⟩, rfl⟩
        rw [this, List.mem_range'_1] at h2
        omega
      have h3 := hj p.jrow h1
      have hne : comp.constr.f ≠ [] := by
        rw [hf.mf.f_eq]
        intro hnil
        have : p ∈ ps.filter Piece.isNl := List.mem_filter.2 ⟨hp, hl⟩
        rw [List.map_eq_nil_iff] at hnil
        rw [hnil] at this
        simp at this
      rcases hf.life with ⟨⟨-, hnf'⟩, -⟩ | ⟨-, -, hst⟩
      · exact absurd hnf' hne
      · rw [(hst q hq).evaluate hf.cok hf.cmpOk hf.vesP (by omega)] at hr
        injection hr with hr
        rw [← hr, hσ] at h3
        simp only [evalBuf] at h3
        rw [hf.jac_entry hp hl (hpd p hp) hx] at h3
        injection h3 with h3
        exact h3.symm
  -- the slack of a row
  have hrowMul : ∀ p ∈ ps, ∀ s, p.slack = some s → ∀ i : Nat, cols[i]? = some s → p.mult lam nu = pi i - mu i := by
    intro p hp s hs i hi
    obtain ⟨h0, h1⟩ := hf.slackAbsent (σ := σ) hp hs
    have h2 := hstat i s hi
    rw [h0, sum_map_single hpnd hp] at h2
    · simp only [D] at h2
      rw [h1 p hp, hs] at h2
      simp only [slackD, if_true] at h2
      linarith
    · intro p' hp' hne
      simp only [D, h1 p' hp']
      have : slackD s p'.slack = 0 := by
        cases hs' : p'.slack with
        | none => rfl
        | some s' =>
          simp only [slackD]
          rw [if_neg]
          intro hid
          have : s' = s := Good.eq_of_id (hf.cok.good _ (MFacts.slackCol hf hp' hs')) (hf.cok.good _ (List.mem_of_getElem? hi)) hid
          subst this
          exact hne (hf.slack_inj hp' hp hs' hs)
      rw [this]; ring
  have hnob : ∀ p ∈ ps, ∀ s, p.slack = some s → ∀ x v, ¬ p.c.Bounds x v := by
    intro p hp s hs x v hb
    obtain ⟨n', m', -, -, hok⟩ := hf.mf.piece hp
    have := (hok.bounds_iff.1 hb).1
    simp [Piece.slack, this] at hs
  -- the dual of an inequality with a row
  have hslk : ∀ p ∈ ps, ∀ s, p.slack = some s → p.c.kind ≠ .equal ∧ p.c.kind.sign * y p.c = p.mult lam nu ∧ 0 ≤ y p.c ∧
      ∀ d, p.c.residual σ = some d → y p.c * d = 0 := by
    intro p hp s hs
    obtain ⟨n', m', -, -, hok⟩ := hf.mf.piece hp
    have hsc := MFacts.slackCol hf hp hs
    obtain ⟨i, hi, hic⟩ := hcoln s hsc
    have hbnd := Piece.bnd_slack hs
    have hne : p.c.kind ≠ .equal := by rw [Ne, hok.equal, hbnd]; simp
    obtain ⟨hm0, hp0, hmc, hpc, -⟩ := hcol i hi
    obtain ⟨hu1, hl1⟩ := hup i s hic
    have hrm := hrowMul p hp s hs i hic
    have hsv := hslack p hp s hs
    rw [(hval i s hic).2] at hsv
    have hbx : -(10 ^ 8) < xv i ∧ xv i < 10 ^ 8 := by
      obtain ⟨a, b, ha, hb, -⟩ := hholds p.c (hmemc p hp)
      have := hbox.rows p.c (hmemc p hp) hne (hnob p hp s hs) a b ha hb
      have hab : p.c.residual σ = some (a - b) := by unfold Constraint.residual; rw [ha, hb]; rfl
      rw [hab] at hsv
      injection hsv with hsv
      rw [hsv]; exact this
    refine ⟨hne, ?_⟩
    obtain ⟨hle, hge⟩ := hf.slack_bounds hp hs
    cases hkd : p.c.kind with
    | equal => exact absurd hkd hne
    | lessEqual =>
      obtain ⟨e1, e2⟩ := hle hkd
      rw [e1] at hu1
      rw [e2] at hl1
      simp only [Option.some.injEq] at hu1 hl1
      have hpi : pi i = 0 := by
        rcases mul_eq_zero.1 hpc with h' | h'
        · exact h'
        · rw [← hl1] at h'; linarith [hbx.1]
      have hy : y p.c = mu i := by
        rcases hU p.c (hmemc p hp) hkd with ⟨i', hi', hyi⟩ | ⟨⟨x, v, hb⟩, -⟩
        · obtain ⟨z, hz, hz'⟩ := hf.uidx_col hi'
          obtain ⟨_, -, p', hp', hpc', hbd⟩ := hf.up_some (List.mem_of_getElem? hz) hz'
          rw [hcinj p' hp' p hp hpc', hbnd] at hbd
          simp only [Option.some.injEq, Prod.mk.injEq] at hbd
          rw [← hbd.2.1] at hz
          rw [hcidx hz hic, hsm, vec_get hi] at hyi
          simpa using hyi.symm
        · exact absurd hb (hnob p hp s hs x v)
      refine ⟨?_, by rw [hy]; exact hm0, fun d hd => ?_⟩
      · rw [hrm, hy, hpi]; simp [CKind.sign]
      · rw [hd] at hsv
        injection hsv with hsv
        rw [hy, ← hsv]
        rw [← hu1] at hmc
        linarith
    | greaterEqual =>
      obtain ⟨e1, e2⟩ := hge hkd
      rw [e2] at hu1
      rw [e1] at hl1
      simp only [Option.some.injEq] at hu1 hl1
      have hmu : mu i = 0 := by
        rcases mul_eq_zero.1 hmc with h' | h'
        · exact h'
        · rw [← hu1] at h'; linarith [hbx.2]
      have hy : y p.c = pi i := by
        rcases hL p.c (hmemc p hp) hkd with ⟨i', hi', hyi⟩ | ⟨⟨x, v, hb⟩, -⟩
        · obtain ⟨z, hz, hz'⟩ := hf.lidx_col hi'
          obtain ⟨_, -, p', hp', hpc', hbd⟩ := hf.lo_some (List.mem_of_getElem? hz) hz'
          rw [hcinj p' hp' p hp hpc', hbnd] at hbd
          simp only [Option.some.injEq, Prod.mk.injEq] at hbd
          rw [← hbd.2.1] at hz
          rw [hcidx hz hic, hsp, vec_get hi] at hyi
          simpa using hyi.symm
        · exact absurd hb (hnob p hp s hs x v)
      refine ⟨?_, by rw [hy]; exact hp0, fun d hd => ?_⟩
      · rw [hrm, hy, hmu]; simp [CKind.sign]
      · rw [hd] at hsv
        injection hsv with hsv
        rw [hy, ← hsv]
        rw [← hl1] at hpc
        linarith
  -- the dual of an equality
  have heq : ∀ p ∈ ps, p.c.kind = .equal → p.slack = none ∧ y p.c = p.mult lam nu := by
    intro p hp hkd
    obtain ⟨n', m', -, -, hok⟩ := hf.mf.piece hp
    have hsn' : p.slack = none := by
      cases hs : p.slack with
      | none => rfl
      | some s => exact absurd hkd (hslk p hp s hs).1
    refine ⟨hsn', ?_⟩
    obtain ⟨k, ⟨hk1, hk2⟩ | ⟨hk1, hk2⟩⟩ := hE p.c (hmemc p hp) hkd
    · rw [hf.aindex] at hk1
      obtain ⟨p', hp', he⟩ := List.mem_map.1 hk1
      obtain ⟨hp', hl⟩ := List.mem_filter.1 hp'
      simp only [Prod.mk.injEq] at he
      have := hcinj p' hp' p hp he.2
      subst this
      rw [← he.1, hsl] at hk2
      have := (vec_get_some hk2).2
      injection this with this
      rw [this, Piece.mult, if_pos hl]
    · rw [hf.jindex] at hk1
      obtain ⟨p', hp', he⟩ := List.mem_map.1 hk1
      obtain ⟨hp', hl⟩ := List.mem_filter.1 hp'
      simp only [Prod.mk.injEq] at he
      have := hcinj p' hp' p hp he.2
      subst this
      rw [← he.1, hsn] at hk2
      have := (vec_get_some hk2).2
      injection this with this
      have hl' : p'.isLin = false := by
        by_contra hh
        have := Piece.lin_not_nl (by simpa using hh)
        rw [hl] at this; cases this
      rw [this, Piece.mult, hl', if_neg (by simp), if_pos hl]
  -- the dual of a bound
  have hbd : ∀ p ∈ ps, ∀ x, p.kind = .bound x → ∀ i : Nat, cols[i]? = some x → p.mult lam nu = 0 ∧ 0 ≤ y p.c ∧
      (∀ d, p.c.residual σ = some d → y p.c * d = 0) ∧
      (p.c.kind = .lessEqual ∧ y p.c = (if (upT comp x).2 = some p.c then mu i else 0) ∧ (loT comp x).2 ≠ some p.c ∨
       p.c.kind = .greaterEqual ∧ y p.c = (if (loT comp x).2 = some p.c then pi i else 0) ∧ (upT comp x).2 ≠ some p.c) := by
    intro p hp x hkx i hi
    have hilt := (List.getElem?_eq_some_iff.1 hi).1
    obtain ⟨n', m', -, -, hok⟩ := hf.mf.piece hp
    obtain ⟨hm0, hp0, hmc, hpc, -⟩ := hcol i hilt
    obtain ⟨hu1, hl1⟩ := hup i x hi
    have hxm := List.mem_of_getElem? hi
    obtain ⟨-, hxn, -, v, t, hvb, hxt, hev⟩ := hf.bound_piece hp hkx (hpd p hp) hσn
    rw [(hval i x hi).2] at hxt
    injection hxt with hxt
    have hbnd : p.bnd = some (decide (p.c.kind = .lessEqual), x, some v) := by simp [Piece.bnd, hkx, hvb]
    have hne : p.c.kind ≠ .equal := by rw [Ne, hok.equal, hbnd]; simp
    have hupv : (upT comp x).2 = some p.c → p.c.kind = .lessEqual ∧ up i = v := by
      intro hc
      obtain ⟨up', h1, p', hp', hpc', hb'⟩ := hf.up_some hxm hc
      rw [hcinj p' hp' p hp hpc', hbnd] at hb'
      simp only [Option.some.injEq, Prod.mk.injEq, decide_eq_true_eq] at hb'
      rw [hu1] at h1
      injection h1 with h1
      exact ⟨hb'.1, by rw [h1, hb'.2.2]⟩
    have hlov : (loT comp x).2 = some p.c → p.c.kind = .greaterEqual ∧ lo i = v := by
      intro hc
      obtain ⟨lo', h1, p', hp', hpc', hb'⟩ := hf.lo_some hxm hc
      rw [hcinj p' hp' p hp hpc', hbnd] at hb'
      simp only [Option.some.injEq, Prod.mk.injEq, decide_eq_false_iff_not] at hb'
      rw [hl1] at h1
      injection h1 with h1
      refine ⟨?_, by rw [h1, hb'.2.2]⟩
      cases hkd : p.c.kind with
      | equal => exact absurd hkd hne
      | lessEqual => exact absurd hkd hb'.1
      | greaterEqual => rfl
    have hmult : p.mult lam nu = 0 := by simp [Piece.mult, Piece.isLin, Piece.isNl, hkx]
    rw [hres p hp] at hev
    refine ⟨hmult, ?_⟩
    cases hkd : p.c.kind with
    | equal => exact absurd hkd hne
    | lessEqual =>
      have hy : y p.c = (if (upT comp x).2 = some p.c then mu i else 0) := by
        rcases hU p.c (hmemc p hp) hkd with ⟨i', hi', hyi⟩ | ⟨-, hno, hy0⟩
        · obtain ⟨z, hz, hz'⟩ := hf.uidx_col hi'
          obtain ⟨_, -, p', hp', hpc', hb'⟩ := hf.up_some (List.mem_of_getElem? hz) hz'
          rw [hcinj p' hp' p hp hpc', hbnd] at hb'
          simp only [Option.some.injEq, Prod.mk.injEq] at hb'
          rw [← hb'.2.1] at hz hz'
          rw [hcidx hz hi, hsm, vec_get hilt] at hyi
          rw [if_pos hz']
          simpa using hyi.symm
        · rw [if_neg, hy0]
          exact fun hc => hno i ((hf.uidx_iff hi).2 hc)
      refine ⟨?_, ?_, .inl ⟨rfl, hy, fun hc => ?_⟩⟩
      · rw [hy]; split <;> [exact hm0; exact le_refl _]
      · intro d hd
        rw [hev] at hd
        injection hd with hd
        rw [hy, ← hd]
        split
        · rename_i hc
          rw [← (hupv hc).2, ← hxt]; linarith
        · ring
      · rw [hkd] at hlov; cases (hlov hc).1
    | greaterEqual =>
      have hy : y p.c = (if (loT comp x).2 = some p.c then pi i else 0) := by
        rcases hL p.c (hmemc p hp) hkd with ⟨i', hi', hyi⟩ | ⟨-, hno, hy0⟩
        · obtain ⟨z, hz, hz'⟩ := hf.lidx_col hi'
          obtain ⟨_, -, p', hp', hpc', hb'⟩ := hf.lo_some (List.mem_of_getElem? hz) hz'
          rw [hcinj p' hp' p hp hpc', hbnd] at hb'
          simp only [Option.some.injEq, Prod.mk.injEq] at hb'
          rw [← hb'.2.1] at hz hz'
          rw [hcidx hz hi, hsp, vec_get hilt] at hyi
          rw [if_pos hz']
          simpa using hyi.symm
        · rw [if_neg, hy0]
          exact fun hc => hno i ((hf.lidx_iff hi).2 hc)
      refine ⟨?_, ?_, .inr ⟨rfl, hy, fun hc => ?_⟩⟩
      · rw [hy]; split <;> [exact hp0; exact le_refl _]
      · intro d hd
        rw [hev] at hd
        injection hd with hd
        rw [hy, ← hd]
        split
        · rename_i hc
          rw [← (hlov hc).2, ← hxt]; linarith
        · ring
      · rw [hkd] at hupv; cases (hupv hc).1
  -- every inequality
  have hineq : ∀ c ∈ mod.constraints, c.kind ≠ .equal → 0 ≤ y c ∧ ∀ d, c.residual σ = some d → y c * d = 0 := by
    intro c hc hne
    rw [← hf.mf.cs] at hc
    obtain ⟨p, hp, rfl⟩ := List.mem_map.1 hc
    cases hs : p.slack with
    | some s => exact (hslk p hp s hs).2.2
    | none =>
      obtain ⟨n', m', -, -, hok⟩ := hf.mf.piece hp
      have hb : ∃ x, p.kind = .bound x := Piece.bound_of hs fun hb => hne (hok.equal.2 hb)
      obtain ⟨x, hx⟩ := hb
      obtain ⟨hxc, -⟩ := hf.bound_piece hp hx (hpd p hp) hσn
      obtain ⟨i, -, hi⟩ := hcoln x hxc
      obtain ⟨-, h1, h2, -⟩ := hbd p hp x hx i hi
      exact ⟨h1, h2⟩
  refine ⟨hholds, fun c hc hne => (hineq c hc hne).1, fun c hc hne a b ha hb => ?_, fun x hx t ht => ?_⟩
  · refine (hineq c hc hne).2 (a - b) ?_
    unfold Constraint.residual; rw [ha, hb]; rfl
  -- stationarity
  have hxcol : x ∈ cols := (hf.mem x).2 (hf.mf.col_of_hasVar neg_one_ne hx)
  obtain ⟨i, hilt, hi⟩ := hcoln x hxcol
  have hxold := (hf.mf.old x hx).1
  have ht' : t = xv i := by
    rw [(hval i x hi).2] at ht
    injection ht with ht
    exact ht.symm
  have hσt : σ x.id = some (some t) := by rw [ht']; exact (hval i x hi).1
  have hmin : mod.minimised = rowVal e none := by
    funext τ
    exact (hf.mf.objVal τ).symm
  have hcder : ∀ p ∈ ps, HasDerivAt (alongVar (fun τ => p.c.lhs.evaluate τ -. p.c.rhs.evaluate τ) x σ) (numD σ x p.exp) t := by
    intro p hp
    have : (fun τ => p.c.lhs.evaluate τ -. p.c.rhs.evaluate τ) = rowVal p.exp none := by
      funext τ
      exact (hres p hp τ).symm
    rw [this]
    have := rowVal_hasDerivAt (s := none) (hf.cok.var _ hxcol) hσt (hpd p hp) (by simp)
    simpa [slackD] using this
  refine ⟨numD σ x e, fun c => deriv (alongVar (fun τ => c.lhs.evaluate τ -. c.rhs.evaluate τ) x σ) t, ?_, ?_, ?_⟩
  · rw [hmin]
    have := rowVal_hasDerivAt (s := none) (hf.cok.var _ hxcol) hσt hobj (by simp)
    simpa [slackD] using this
  · intro c hc
    rw [← hf.mf.cs] at hc
    obtain ⟨p, hp, rfl⟩ := List.mem_map.1 hc
    exact (hcder p hp).differentiableAt.hasDerivAt
  · rw [hstat i x hi, ← hf.mf.cs, List.map_map]
    have hD : ∀ p ∈ ps, D x p = numD σ x p.exp := by
      intro p hp
      simp only [D]
      have : slackD x p.slack = 0 := by
        cases hs : p.slack with
        | none => rfl
        | some s =>
          simp only [slackD]
          rw [if_neg]
          intro hid
          have h1 := (hf.newCol.2 ⟨p, hp, hs⟩).2
          omega
      rw [this, sub_zero]
    -- split each term into the row part and the two bound parts
    have hsplit : ∀ p ∈ ps, p.c.kind.sign * y p.c * deriv (alongVar (fun τ => p.c.lhs.evaluate τ -. p.c.rhs.evaluate τ) x σ) t =
        D x p * p.mult lam nu + ((if (upT comp x).2 = some p.c then - mu i else 0) + if (loT comp x).2 = some p.c then pi i else 0) := by
      intro p hp
      rw [(hcder p hp).deriv, hD p hp]
      have hnotb : (∀ z, p.kind ≠ .bound z) → (upT comp x).2 ≠ some p.c ∧ (loT comp x).2 ≠ some p.c := by
        intro hnb
        have key : ∀ d v, p.bnd = some (d, x, v) → False := by
          intro d v hb
          rcases Piece.bnd_or hb with ⟨h1, -⟩ | ⟨h1, -⟩
          · exact hnb x h1
          · have h1 := (hf.newCol.2 ⟨p, hp, h1⟩).2
            omega
        constructor
        · intro hc
          obtain ⟨_, -, p', hp', hpc', hb'⟩ := hf.up_some hxcol hc
          rw [hcinj p' hp' p hp hpc'] at hb'
          exact key _ _ hb'
        · intro hc
          obtain ⟨_, -, p', hp', hpc', hb'⟩ := hf.lo_some hxcol hc
          rw [hcinj p' hp' p hp hpc'] at hb'
          exact key _ _ hb'
      cases hs : p.slack with
      | some s =>
        obtain ⟨h1, h2⟩ := hnotb fun z hz => by simp [Piece.slack, hz] at hs
        rw [if_neg h1, if_neg h2, (hslk p hp s hs).2.1]; ring
      | none =>
        by_cases hkd : p.c.kind = .equal
        · obtain ⟨n', m', -, -, hok⟩ := hf.mf.piece hp
          have hb0 := hok.equal.1 hkd
          obtain ⟨h1, h2⟩ := hnotb fun z hz => by simp [Piece.bnd, hz] at hb0
          rw [if_neg h1, if_neg h2, (heq p hp hkd).2, hkd]; simp [CKind.sign]; ring
        · have hb : ∃ z, p.kind = .bound z := by
            obtain ⟨n', m', -, -, hok⟩ := hf.mf.piece hp
            exact Piece.bound_of hs fun hb => hkd (hok.equal.2 hb)
          obtain ⟨z, hz⟩ := hb
          obtain ⟨hzc, -, hnum, -⟩ := hf.bound_piece hp hz (hpd p hp) hσn
          obtain ⟨iz, -, hiz⟩ := hcoln z hzc
          obtain ⟨hm, -, -, hy⟩ := hbd p hp z hz iz hiz
          rw [hm, hnum x hxcol]
          by_cases hxz : x = z
          · subst hxz
            have := hcidx hiz hi
            subst this
            rcases hy with ⟨hk', hy, hno⟩ | ⟨hk', hy, hno⟩
            · rw [hy, hk', if_neg hno]
              split <;> simp [CKind.sign]
            · rw [hy, hk', if_neg hno]
              split <;> simp [CKind.sign]
          · have key : ∀ d v, p.bnd = some (d, x, v) → False := by
              intro d v hb
              simp only [Piece.bnd, hz, Option.some.injEq, Prod.mk.injEq] at hb
              exact hxz hb.2.1.symm
            rw [if_neg hxz, if_neg, if_neg]
            · ring
            · intro hc
              obtain ⟨_, -, p', hp', hpc', hb'⟩ := hf.lo_some hxcol hc
              rw [hcinj p' hp' p hp hpc'] at hb'
              exact key _ _ hb'
            · intro hc
              obtain ⟨_, -, p', hp', hpc', hb'⟩ := hf.up_some hxcol hc
              rw [hcinj p' hp' p hp hpc'] at hb'
              exact key _ _ hb'
    have hsum : (ps.map ((fun c => c.kind.sign * y c * deriv (alongVar (fun τ => c.lhs.evaluate τ -. c.rhs.evaluate τ) x σ) t) ∘ fun p => p.c)).sum =
        (ps.map fun p => D x p * p.mult lam nu).sum + ((ps.map fun p => if (upT comp x).2 = some p.c then - mu i else 0).sum +
          (ps.map fun p => if (loT comp x).2 = some p.c then pi i else 0).sum) := by
      rw [← sum_map_add', ← sum_map_add']
      congr 1
      exact List.map_congr_left fun p hp => hsplit p hp
    rw [hsum]
    obtain ⟨hm0, hp0, hmc, hpc, -⟩ := hcol i hilt
    obtain ⟨hu1, hl1⟩ := hup i x hi
    have hbx := hbox.vars x hx t ht
    rw [ht'] at hbx
    have hsu : (ps.map fun p => if (upT comp x).2 = some p.c then - mu i else 0).sum = - mu i := by
      cases hc : (upT comp x).2 with
      | some c0 =>
        obtain ⟨_, -, p0, hp0', hpc0, -⟩ := hf.up_some hxcol hc
        rw [sum_map_single hpnd hp0']
        · rw [if_pos (by rw [hpc0])]
        · intro p hp hne
          rw [if_neg]
          intro hcc
          injection hcc with hcc
          exact hne (hcinj p hp p0 hp0' (by rw [hpc0, hcc]))
      | none =>
        have : mu i = 0 := by
          rw [up_none hc] at hu1
          injection hu1 with hu1
          rcases mul_eq_zero.1 hmc with h' | h'
          · exact h'
          · rw [← hu1] at h'; linarith [hbx.2]
        rw [this]
        exact (sum_map_zero _ _ fun p _ => by simp).trans (by simp)
    have hsl' : (ps.map fun p => if (loT comp x).2 = some p.c then pi i else 0).sum = pi i := by
      cases hc : (loT comp x).2 with
      | some c0 =>
        obtain ⟨_, -, p0, hp0', hpc0, -⟩ := hf.lo_some hxcol hc
        rw [sum_map_single hpnd hp0']
        · rw [if_pos (by rw [hpc0])]
        · intro p hp hne
          rw [if_neg]
          intro hcc
          injection hcc with hcc
          exact hne (hcinj p hp p0 hp0' (by rw [hpc0, hcc]))
      | none =>
        have : pi i = 0 := by
          rw [lo_none hc] at hl1
          injection hl1 with hl1
          rcases mul_eq_zero.1 hpc with h' | h'
          · exact h'
          · rw [← hl1] at h'; linarith [hbx.1]
        rw [this]
        exact sum_map_zero _ _ fun p _ => by simp
    rw [hsu, hsl']
    ring

end

end Verif
