import Verif.Proofs.RoundingLp
import Verif.Proofs.RoundingSolve64

/-! # Optimality of linear models in double precision -/

set_option linter.unusedSectionVars false
set_option linter.unusedSimpArgs false

namespace Verif

variable [Libm] {H : HashOrder} {l : Level} {h : Heap F64} {n m : ℕ} {cols : List (Node F64)} {comp : ModelComp F64}
  {mod : Model F64} {e : Node F64} {ps : List (Piece F64)} {xes : List (Node F64 × F64)}
  {ves : List (Node F64 × ℕ)} {sp : StdProb F64}

/-- The value of the objective coefficients at a point. -/
theorem costs_sum64 (hc : ColsOk l h cols) (v : Node F64 → ℝ) : ∀ (m : List (Node F64 × F64)), NodupP (keysN m) → (∀ q ∈ m, q.1 ∈ cols) →
    (cols.map fun x => (valAt m zero x).toReal * v x).sum = (m.map fun q => q.2.toReal * v q.1).sum := by
  classical
  intro m
  induction m with
  | nil =>
    intro _ _
    have : (cols.map fun x => (valAt ([] : List (Node F64 × F64)) zero x).toReal * v x) = cols.map fun _ => (0 : ℝ) :=
      List.map_congr_left fun x _ => by show (zero : F64).toReal * _ = 0; rw [F64.is_zero.toReal, zero_mul]
    rw [this]
    simp
  | cons q m ih =>
    obtain ⟨k, w⟩ := q
    intro hn hm
    have hk : k ∈ cols := hm (k, w) (by simp)
    have hk0 : valAt m zero k = (zero : F64) := by
      unfold valAt
      rw [getN_none_of fun y hy => ?_]
      · rfl
      · have := (List.pairwise_cons.1 hn).1 y hy
        by_contra hne
        rw [Bool.not_eq_false] at hne
        obtain ⟨q, hq, rfl⟩ := List.mem_map.1 hy
        have heq := ((hc.good _ (hm q (by simp [hq]))).ptrEq_iff (hc.good _ hk)).1 hne
        rw [heq, ptrEq_refl] at this
        cases this
    have h1 : (cols.map fun x => (valAt ((k, w) :: m) zero x).toReal * v x) =
        cols.map fun x => if x = k then w.toReal * v k else (valAt m zero x).toReal * v x := by
      refine List.map_congr_left fun x hx => ?_
      unfold valAt
      simp only [getN]
      by_cases hxk : x = k
      · subst hxk; simp [ptrEq_refl]
      · have : k.ptrEq x = false := by
          by_contra hne
          rw [Bool.not_eq_false] at hne
          exact hxk (((hc.good _ hk).ptrEq_iff (hc.good _ hx)).1 hne).symm
        simp [this, hxk]
    rw [h1, sum_set hc.nodup' hk _ (fun x => (valAt m zero x).toReal * v x) (by rw [hk0, F64.is_zero.toReal, zero_mul]),
      ih (List.pairwise_cons.1 hn).2 fun q hq => hm q (by simp [hq])]
    simp

/-- The affine function that a constraint becomes, at an assignment. -/
noncomputable def Piece.residualAt64 (p : Piece F64) (τ : ℕ → ℝ) : ℝ := (p.comp.prop.a.map fun q => q.2.toReal * τ q.1.id).sum + p.comp.prop.b.toReal

open Classical in
/-- The values of the columns at an assignment: slacks get the value of their row. -/
noncomputable def liftVal64 (ps : List (Piece F64)) (τ : ℕ → ℝ) (x : Node F64) : ℝ :=
  if hx : ∃ p ∈ ps, p.slack = some x then hx.choose.residualAt64 τ else τ x.id

theorem liftVal64_slack (hf : SpFacts H l h n m mod comp e ps cols xes ves sp) {p : Piece F64} (hp : p ∈ ps) {s : Node F64} (hs : p.slack = some s)
    (τ : ℕ → ℝ) : liftVal64 ps τ s = p.residualAt64 τ := by
  have hx : ∃ p ∈ ps, p.slack = some s := ⟨p, hp, hs⟩
  unfold liftVal64
  rw [dif_pos hx, hf.slack_inj hx.choose_spec.1 hp hx.choose_spec.2 hs]

theorem liftVal64_var (hf : SpFacts H l h n m mod comp e ps cols xes ves sp) {x : Node F64} (hx : mod.HasVar x) (τ : ℕ → ℝ) :
    liftVal64 ps τ x = τ x.id := by
  unfold liftVal64
  rw [dif_neg]
  intro hh
  have h1 := (hf.newCol.2 hh).2
  have h2 := (hf.mf.old x hx).1
  omega

/-- At these values, the row of an inequality holds exactly. -/
theorem liftVal64_row (hf : SpFacts H l h n m mod comp e ps cols xes ves sp) {p : Piece F64} (hp : p ∈ ps) {s : Node F64} (hs : p.slack = some s)
    (hl : p.isLin = true) (τ : ℕ → ℝ) : (p.coefs.map fun q => q.2.toReal * liftVal64 ps τ q.1).sum + p.comp.prop.b.toReal = 0 := by
  obtain ⟨n1, m1, -, -, hok⟩ := hf.mf.piece hp
  cases hk : p.kind with
  | linIneq es s' =>
    have : s' = s := by simpa [Piece.slack, hk] using hs
    subst this
    have hperm := (hok.linIneq es s' hk).1
    simp only [Piece.coefs, hk, List.map_append, List.sum_append, List.map_cons, List.map_nil, List.sum_cons, List.sum_nil, add_zero]
    rw [(hperm.map fun q => q.2.toReal * liftVal64 ps τ q.1).sum_eq, liftVal64_slack hf hp hs]
    have hsum : (p.comp.prop.a.map fun q => q.2.toReal * liftVal64 ps τ q.1) = p.comp.prop.a.map fun q => q.2.toReal * τ q.1.id :=
      List.map_congr_left fun q hq => by
        have hkq := (stdProperties_keys p.exp).2.1 q.1 (by rw [← hok.prop.2]; exact List.mem_map_of_mem hq)
        rw [liftVal64_var hf (hf.mf.pieceVar hp hkq.1 hkq.2)]
    rw [hsum, show (negOne : F64).toReal = -1 from F64.is_negOne.toReal, Piece.residualAt64]
    ring
  | bound x => simp [Piece.isLin, hk] at hl
  | linEq es => simp [Piece.slack, hk] at hs
  | nlEq => simp [Piece.isLin, hk] at hl
  | nlIneq s f m => simp [Piece.isLin, hk] at hl

/-- An assignment that satisfies the formulas satisfies the standard problem up to the rounding errors. -/
theorem lift_facts64 (hf : SpFacts H l h n m mod comp e ps cols xes ves sp) {F G : Constraint F64 → LinForm}
    (hc : ∀ c ∈ mod.constraints, c.lhs.Says64 (F c) ∧ c.rhs.Says64 (G c)) (hRg : ∀ c ∈ mod.constraints, PairInRange (F c) (G c)) {τ : ℕ → ℝ} {E : ℝ}
    (hE0 : 0 ≤ E) (hE : ∀ c ∈ mod.constraints, pairErr uD (F c) (G c) τ ≤ E)
    (hτ : ∀ c ∈ mod.constraints, c.kind.Rel ((F c).value τ) ((G c).value τ))
    (hbox : ∀ x, mod.HasVar x → |τ x.id| ≤ 10 ^ 8)
    (hsbox : ∀ c ∈ mod.constraints, c.kind ≠ .equal → |(F c).value τ - (G c).value τ| ≤ 10 ^ 8) {η : ℝ}
    (hint : ∀ x, mod.HasVar x → x.isInteger = true → ∃ z : ℤ, |τ x.id - z| ≤ η) : PointFacts64 comp cols ps E E η (liftVal64 ps τ) := by
  have hps : ∀ p ∈ ps, p.c ∈ mod.constraints := fun p hp => by rw [← hf.mf.cs]; exact List.mem_map_of_mem hp
  have key : ∀ p ∈ ps, _ := fun p hp => hf.pieceErr64 hp (hc _ (hps p hp)).1 (hc _ (hps p hp)).2 (hRg _ (hps p hp)) (t := τ) (v := liftVal64 ps τ)
    fun x hx => liftVal64_var hf hx τ
  have hslack : ∀ p ∈ ps, ∀ s, p.slack = some s → |liftVal64 ps τ s - ((F p.c).value τ - (G p.c).value τ)| ≤ E := by
    intro p hp s hs
    obtain ⟨b, hb, hnum, ⟨x, hk, -⟩ | ⟨-, -, hs', -⟩ | ⟨s', hlin, hs', -, herr⟩⟩ := key p hp
    · simp [Piece.slack, hk] at hs
    · rw [hs] at hs'; cases hs'
    · rw [hs] at hs'
      injection hs' with hs'
      subst hs'
      have hrow := liftVal64_row hf hp hs hlin τ
      rw [hb.toReal] at hrow
      rw [hrow, zero_add] at herr
      exact herr.trans (hE _ (hps p hp))
  constructor
  · intro p hp hlin b' hb' hnum'
    obtain ⟨b, hb, hnum, ⟨x, hk, -⟩ | ⟨hk, -, hs', herr⟩ | ⟨s', -, hs', -, -⟩⟩ := key p hp
    · simp [Piece.isLin, hk] at hlin
    · have hb' := hb.unique hb'
      subst hb'
      have := hτ _ (hps p hp)
      rw [hk] at this
      simp only [CKind.Rel] at this
      rw [this, sub_self, sub_zero] at herr
      exact herr.trans (hE _ (hps p hp))
    · have hrow := liftVal64_row hf hp hs' hlin τ
      rw [hb'.toReal] at hrow
      rw [hrow, abs_zero]
      exact hE0
  · intro p hp d x b' hb'
    obtain ⟨n1, m1, -, -, hok⟩ := hf.mf.piece hp
    have hdir := hok.dir hb'
    have hrel := hτ _ (hps p hp)
    have he := hE _ (hps p hp)
    obtain ⟨b, hb, hnum, ⟨x', hk, hxv, hbnd, herr⟩ | ⟨hk, -⟩ | ⟨s', hlin, hs', hbnd, -⟩⟩ := key p hp
    · rw [hbnd] at hb'
      injection hb' with hb'
      injection hb' with hd hb'
      injection hb' with hx hb'
      subst hx hb'
      obtain ⟨h1, h2⟩ := abs_le.1 herr
      cases d <;> simp only [if_true, if_false, Bool.false_eq_true, F64.above_is (F64.is_neg hb), F64.below_is (F64.is_neg hb)] at hdir ⊢ <;>
        simp only [hdir, CKind.Rel] at hrel <;> linarith
    · rw [hok.equal, hb'] at hk
      cases hk
    · rw [hbnd] at hb'
      injection hb' with hb'
      injection hb' with hd hb'
      injection hb' with hx hb'
      subst hx hb'
      obtain ⟨h1, h2⟩ := abs_le.1 (hslack p hp _ hs')
      cases d <;> simp only [if_true, if_false, Bool.false_eq_true, F64.above_is F64.is_zero, F64.below_is F64.is_zero] at hdir ⊢ <;>
        simp only [hdir, CKind.Rel] at hrel <;> linarith
  · intro x hx
    rcases (hf.mem x).1 hx with hold | hsl
    · have hxv : mod.HasVar x := by
        obtain ⟨hv, ho | ⟨p, hp, ho⟩⟩ := hold
        · exact hf.mf.objVar hv ho
        · exact hf.mf.pieceVar hp hv ho
      rw [liftVal64_var hf hxv]
      obtain ⟨h1, h2⟩ := abs_le.1 (hbox x hxv)
      constructor <;> linarith
    · obtain ⟨p, hp, hs⟩ := List.mem_filterMap.1 hsl
      obtain ⟨n1, m1, -, -, hok⟩ := hf.mf.piece hp
      have hne : p.c.kind ≠ .equal := by rw [Ne, hok.equal, Piece.bnd_slack hs]; simp
      obtain ⟨h1, h2⟩ := abs_le.1 (hsbox _ (hps p hp) hne)
      obtain ⟨h3, h4⟩ := abs_le.1 (hslack p hp x hs)
      constructor <;> linarith
  · intro x hx hi
    rcases (hf.mem x).1 hx with hold | hsl
    · have hxv : mod.HasVar x := by
        obtain ⟨hv, ho | ⟨p, hp, ho⟩⟩ := hold
        · exact hf.mf.objVar hv ho
        · exact hf.mf.pieceVar hp hv ho
      rw [liftVal64_var hf hxv]
      exact hint x hxv hi
    · obtain ⟨p, hp, hs⟩ := List.mem_filterMap.1 hsl
      obtain ⟨n1, m1, -, -, hok⟩ := hf.mf.piece hp
      obtain ⟨-, i, str, rfl, -⟩ := hok.slack x hs
      cases hi

/-- The values of the columns, as a point. -/
theorem colVal64_map (hc : ColsOk l h cols) (v : Node F64 → ℝ) {x : Node F64} (hx : x ∈ cols) : colVal64 cols (cols.map v) x = v x := by
  rw [colVal64, List.getD_eq_getElem?_getD, List.getElem?_map, (hc.col hx).2]
  rfl

theorem PointFacts64.congr (hf : SpFacts H l h n m mod comp e ps cols xes ves sp) {δ ε η : ℝ} {v w : Node F64 → ℝ} (hvw : ∀ x ∈ cols, v x = w x)
    (hv : PointFacts64 comp cols ps δ ε η v) : PointFacts64 comp cols ps δ ε η w := by
  constructor
  · intro p hp hlin b hb hnum
    have hcoef : ∀ q ∈ p.coefs, q.1 ∈ cols := fun q hq => by
      refine hf.cmpOk.a (p.arow, q.1, q.2) ?_
      rw [hf.mf.constr]
      simp only [ConstrComp.concat, List.mem_flatMap, List.mem_map]
      exact ⟨p.out, ⟨p, hp, rfl⟩, by simp only [Piece.out, List.mem_map]; exact ⟨q, hq, rfl⟩⟩
    have : (p.coefs.map fun q => q.2.toReal * w q.1) = p.coefs.map fun q => q.2.toReal * v q.1 :=
      List.map_congr_left fun q hq => by rw [hvw _ (hcoef q hq)]
    rw [this]
    exact hv.rows p hp hlin b hb hnum
  · intro p hp d x b hb
    have hxc : x ∈ cols := by
      cases d
      · exact hf.cmpOk.l _ (hf.mf.lower.2 ⟨p, hp, hb, rfl⟩ : (x, b, p.c) ∈ comp.constr.l)
      · exact hf.cmpOk.u _ (hf.mf.upper.2 ⟨p, hp, hb, rfl⟩ : (x, b, p.c) ∈ comp.constr.u)
    rw [← hvw x hxc]
    exact hv.bounds p hp d x b hb
  · intro x hx
    rw [← hvw x hx]
    exact hv.box x hx
  · intro x hx hi
    rw [← hvw x hx]
    exact hv.integral x hx hi

/-- The formula that is minimised, with the sign that the library gives it. -/
theorem objective_says64 (hf : SpFacts H l h n m mod comp e ps cols xes ves sp) {o : LinForm} (ho : mod.ObjectiveSays64 o)
    (hne : mod.objective ≠ .empty) : ∃ o' : LinForm, e.Says64 o' ∧ (∀ t, o'.mag t = o.mag t) ∧ o'.ops ≤ o.ops + 1 ∧
      ((∃ f, mod.objective = .minimize f) ∧ (∀ t, o'.value t = o.value t) ∨ (∃ f, mod.objective = .maximize f) ∧ ∀ t, o'.value t = -o.value t) := by
  unfold Model.ObjectiveSays64 at ho
  cases hob : mod.objective with
  | empty => exact absurd hob hne
  | minimize f =>
    rw [hob] at ho
    rw [hf.mf.objMin f hob]
    exact ⟨o, ho, fun _ => rfl, by omega, .inl ⟨⟨f, rfl⟩, fun _ => rfl⟩⟩
  | maximize f =>
    rw [hob] at ho
    obtain ⟨k, k', hk⟩ := hf.mf.objMax f hob
    refine ⟨⟨o.vars, -o.coef, -o.const, o.size, o.sizeConst, o.ops + 1⟩, ⟨.neg ho.1.1 ho.2 hk, ho.1.2⟩, fun _ => rfl, le_rfl, .inr ⟨⟨f, rfl⟩, fun t => ?_⟩⟩
    simp only [LinForm.value, Pi.neg_apply, neg_mul, Finset.sum_neg_distrib]
    ring

/-- The library recognizes a model of linear formulas as linear. -/
theorem linear_prob64 (hf : SpFacts H l h n m mod comp e ps cols xes ves sp) {F G : Constraint F64 → LinForm}
    (hc : ∀ c ∈ mod.constraints, c.lhs.Says64 (F c) ∧ c.rhs.Says64 (G c)) (hRg : ∀ c ∈ mod.constraints, PairInRange (F c) (G c)) {o : LinForm} (ho : mod.ObjectiveSays64 o) :
    sp.prob.costs = some (stdC cols comp) ∧ ((∃ q, sp.prob = .lp q) ∨ ∃ q, sp.prob = .milp q) := by
  have haff : comp.obj.prop.affine = true := by
    rw [hf.mf.objProp.2]
    by_cases hob : mod.objective = .empty
    · obtain ⟨i, rfl⟩ := hf.mf.objEmpty hob
      rfl
    · obtain ⟨o', hs, -⟩ := objective_says64 hf ho hob
      exact (C80_coefficients hs.1).1
  have hnf : comp.constr.f = [] := by
    rw [hf.mf.constr]
    simp only [ConstrComp.concat, List.flatMap_map, List.flatMap_eq_nil_iff]
    intro p hp
    obtain ⟨n1, m1, -, -, hok⟩ := hf.mf.piece hp
    have hpc : p.c ∈ mod.constraints := by rw [← hf.mf.cs]; exact List.mem_map_of_mem hp
    obtain ⟨b, -, -, hnl, -⟩ := hok.linErr64 (hc _ hpc).1 (hc _ hpc).2 (hRg _ hpc) 0
    simp [Piece.out, hnl]
  rw [hf.prob]
  unfold stdProbOf
  rw [if_pos ⟨haff, hnf⟩]
  split
  · exact ⟨rfl, .inl ⟨_, rfl⟩⟩
  · exact ⟨rfl, .inr ⟨_, rfl⟩⟩

end Verif
