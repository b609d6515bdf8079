import Verif.Proofs.ExactSolve

/-! # Points and costs of linear models in double precision -/

set_option linter.unusedSectionVars false
set_option linter.unusedSimpArgs false

namespace Verif

variable [Libm]

theorem sum_setD {α : Type} [DecidableEq α] {cs : List α} (hn : cs.Nodup) {k : α} (hk : k ∈ cs) (a : ℚ) (f : α → ℚ) (hf : f k = 0) :
    (cs.map fun x => if x = k then a else f x).sum = a + (cs.map f).sum := by
  induction cs with
  | nil => cases hk
  | cons c cs ih =>
    rw [List.nodup_cons] at hn
    by_cases hc : c = k
    · subst hc
      have : (cs.map fun x => if x = c then a else f x) = cs.map f := List.map_congr_left fun x hx => by
        rw [if_neg]; rintro rfl; exact hn.1 hx
      simp [this, hf]
    · have hk' : k ∈ cs := by
        rcases List.mem_cons.1 hk with h | h
        · exact absurd h.symm hc
        · exact h
      simp only [List.map_cons, List.sum_cons, if_neg hc, ih hn.2 hk']
      ring

section
variable {H : HashOrder} {l : Level} {h : Heap F64} {n m : ℕ} {cols : List (Node F64)} {comp : ModelComp F64}
  {mod : Model F64} {e : Node F64} {ps : List (Piece F64)} {xes : List (Node F64 × F64)} {ves : List (Node F64 × ℕ)} {sp : StdProb F64}

/-- The value of the objective coefficients at a point. -/
theorem costs_sumD (hc : ColsOk l h cols) (v : Node F64 → ℚ) : ∀ (m : List (Node F64 × F64)), NodupP (keysN m) → (∀ q ∈ m, q.1 ∈ cols) →
    (cols.map fun x => (valAt m zero x).val * v x).sum = (m.map fun q => q.2.val * v q.1).sum := by
  classical
  intro m
  induction m with
  | nil =>
    intro _ _
    have : (cols.map fun x => (valAt ([] : List (Node F64 × F64)) zero x).val * v x) = cols.map fun _ => (0 : ℚ) :=
      List.map_congr_left fun x _ => by
        show (zero : F64).val * _ = 0
        rw [F64.val_zero, zero_mul]
    rw [this]
    simp
  | cons q m ih =>
    obtain ⟨k, w⟩ := q
    intro hn hm
    have hk : k ∈ cols := hm (k, w) (by simp)
    have hk0 : valAt m zero k = (zero : F64) := by
      unfold valAt
      rw [getN_none_of fun y hy => ?_]
      · rfl
      · have := (List.pairwise_cons.1 hn).1 y hy
        by_contra hne
        rw [Bool.not_eq_false] at hne
        obtain ⟨q, hq, rfl⟩ := List.mem_map.1 hy
        have heq := ((hc.good _ (hm q (by simp [hq]))).ptrEq_iff (hc.good _ hk)).1 hne
        rw [heq, ptrEq_refl] at this
        cases this
    have h1 : (cols.map fun x => (valAt ((k, w) :: m) zero x).val * v x) =
        cols.map fun x => if x = k then w.val * v k else (valAt m zero x).val * v x := by
      refine List.map_congr_left fun x hx => ?_
      unfold valAt
      simp only [getN]
      by_cases hxk : x = k
      · subst hxk; simp [ptrEq_refl]
      · have : k.ptrEq x = false := by
          by_contra hne
          rw [Bool.not_eq_false] at hne
          exact hxk (((hc.good _ hk).ptrEq_iff (hc.good _ hx)).1 hne).symm
        simp [this, hxk]
    rw [h1, sum_setD hc.nodup' hk _ (fun x => (valAt m zero x).val * v x) (by rw [hk0, F64.val_zero, zero_mul]),
      ih (List.pairwise_cons.1 hn).2 fun q hq => hm q (by simp [hq])]
    simp

/-- The affine function that a constraint becomes, at an assignment. -/
def Piece.residualD (p : Piece F64) (τ : ℕ → ℚ) : ℚ := (p.comp.prop.a.map fun q => q.2.val * τ q.1.id).sum + p.comp.prop.b.val

open Classical in
/-- The values of the columns at an assignment: slacks get the value of their row. -/
noncomputable def liftD (ps : List (Piece F64)) (τ : ℕ → ℚ) (x : Node F64) : ℚ :=
  if hx : ∃ p ∈ ps, p.slack = some x then hx.choose.residualD τ else τ x.id

theorem liftD_slack (hf : SpFacts H l h n m mod comp e ps cols xes ves sp) {p : Piece F64} (hp : p ∈ ps) {s : Node F64} (hs : p.slack = some s)
    (τ : ℕ → ℚ) : liftD ps τ s = p.residualD τ := by
  have hx : ∃ p ∈ ps, p.slack = some s := ⟨p, hp, hs⟩
  unfold liftD
  rw [dif_pos hx, hf.slack_inj hx.choose_spec.1 hp hx.choose_spec.2 hs]

theorem liftD_var (hf : SpFacts H l h n m mod comp e ps cols xes ves sp) {x : Node F64} (hx : mod.HasVar x) (τ : ℕ → ℚ) :
    liftD ps τ x = τ x.id := by
  unfold liftD
  rw [dif_neg]
  intro hh
  have h1 := (hf.newCol.2 hh).2
  have h2 := (hf.mf.old x hx).1
  omega

/-- At these values, the row of an inequality holds exactly. -/
theorem liftD_row (hf : SpFacts H l h n m mod comp e ps cols xes ves sp) {p : Piece F64} (hp : p ∈ ps) {s : Node F64} (hs : p.slack = some s)
    (hl : p.isLin = true) (τ : ℕ → ℚ) : (p.coefs.map fun q => q.2.val * liftD ps τ q.1).sum + p.comp.prop.b.val = 0 := by
  obtain ⟨n1, m1, -, -, hok⟩ := hf.mf.piece hp
  cases hk : p.kind with
  | linIneq es s' =>
    have : s' = s := by simpa [Piece.slack, hk] using hs
    subst this
    have hperm := (hok.linIneq es s' hk).1
    simp only [Piece.coefs, hk, List.map_append, List.sum_append, List.map_cons, List.map_nil, List.sum_cons, List.sum_nil, add_zero]
    rw [(hperm.map fun q => q.2.val * liftD ps τ q.1).sum_eq, liftD_slack hf hp hs]
    have hsum : (p.comp.prop.a.map fun q => q.2.val * liftD ps τ q.1) = p.comp.prop.a.map fun q => q.2.val * τ q.1.id :=
      List.map_congr_left fun q hq => by
        have hkq := (stdProperties_keys p.exp).2.1 q.1 (by rw [← hok.prop.2]; exact List.mem_map_of_mem hq)
        rw [liftD_var hf (hf.mf.pieceVar hp hkq.1 hkq.2)]
    rw [hsum, F64.val_negOne, Piece.residualD]
    ring
  | bound x => simp [Piece.isLin, hk] at hl
  | linEq es => simp [Piece.slack, hk] at hs
  | nlEq => simp [Piece.isLin, hk] at hl
  | nlIneq s f m => simp [Piece.isLin, hk] at hl

/-- An assignment that satisfies the formulas satisfies the standard problem. -/
theorem lift_pointD (hf : SpFacts H l h n m mod comp e ps cols xes ves sp) {F G : Constraint F64 → TermForm}
    (hc : ∀ c ∈ mod.constraints, c.SaysD (F c) (G c)) {τ : ℕ → ℚ}
    (hτ : ∀ c ∈ mod.constraints, c.kind.Rel ((F c).value τ) ((G c).value τ))
    (hbox : ∀ x, mod.HasVar x → |τ x.id| ≤ 10 ^ 8)
    (hsbox : ∀ c ∈ mod.constraints, c.kind ≠ .equal → |(F c).value τ - (G c).value τ| ≤ 10 ^ 8) {η : ℚ}
    (hint : ∀ x, mod.HasVar x → x.isInteger = true → ∃ z : ℤ, |τ x.id - z| ≤ η) : PointD comp cols ps 0 0 η (liftD ps τ) := by
  have hps : ∀ p ∈ ps, p.c ∈ mod.constraints := fun p hp => by rw [← hf.mf.cs]; exact List.mem_map_of_mem hp
  have key : ∀ p ∈ ps, _ := fun p hp => hf.pieceD hp (hc _ (hps p hp)) (t := τ) (v := liftD ps τ)
    fun x hx => liftD_var hf hx τ
  have hslack : ∀ p ∈ ps, ∀ s, p.slack = some s → liftD ps τ s = (F p.c).value τ - (G p.c).value τ := by
    intro p hp s hs
    obtain ⟨b, hb, hnum, ⟨x, a, hk, -⟩ | ⟨-, -, hs', -⟩ | ⟨s', hlin, hs', -, herr⟩⟩ := key p hp
    · simp [Piece.slack, hk] at hs
    · rw [hs] at hs'; cases hs'
    · rw [hs] at hs'
      injection hs' with hs'
      subst hs'
      have hrow := liftD_row hf hp hs hlin τ
      rw [F64.val_of hb] at hrow
      rw [hrow, zero_add] at herr
      exact herr
  constructor
  · intro p hp hlin b' hb' hnum'
    obtain ⟨b, hb, hnum, ⟨x, a, hk, -⟩ | ⟨hk, -, hs', herr⟩ | ⟨s', -, hs', -, -⟩⟩ := key p hp
    · simp [Piece.isLin, hk] at hlin
    · have := F64.value_unique hb hb'
      subst this
      have := hτ _ (hps p hp)
      rw [hk] at this
      simp only [CKind.Rel] at this
      rw [herr, this, sub_self, abs_zero]
    · have hrow := liftD_row hf hp hs' hlin τ
      rw [F64.val_of hb'] at hrow
      rw [hrow, abs_zero]
  · intro p hp d x b' hb'
    obtain ⟨n1, m1, -, -, hok⟩ := hf.mf.piece hp
    have hdir := hok.dir hb'
    have hrel := hτ _ (hps p hp)
    obtain ⟨b, hb, hnum, ⟨x', a, hk, hxv, hbnd, ha, herr⟩ | ⟨hk, -⟩ | ⟨s', hlin, hs', hbnd, -⟩⟩ := key p hp
    · rw [hbnd] at hb'
      injection hb' with hb'
      injection hb' with hd hb'
      injection hb' with hx hb'
      subst hx hb'
      cases d <;> simp only [if_true, if_false, Bool.false_eq_true] at hdir ⊢ <;> simp only [hdir, CKind.Rel] at hrel
      · rw [F64.atLeast_value ha]; linarith
      · rw [F64.atMost_value ha]; linarith
    · rw [hok.equal, hb'] at hk
      cases hk
    · rw [hbnd] at hb'
      injection hb' with hb'
      injection hb' with hd hb'
      injection hb' with hx hb'
      subst hx hb'
      have h1 := hslack p hp _ hs'
      cases d <;> simp only [if_true, if_false, Bool.false_eq_true] at hdir ⊢ <;> simp only [hdir, CKind.Rel] at hrel
      · rw [F64.atLeast_value F64.zero_value]; linarith
      · rw [F64.atMost_value F64.zero_value]; linarith
  · intro x hx
    rcases (hf.mem x).1 hx with hold | hsl
    · have hxv : mod.HasVar x := by
        obtain ⟨hv, ho | ⟨p, hp, ho⟩⟩ := hold
        · exact hf.mf.objVar hv ho
        · exact hf.mf.pieceVar hp hv ho
      rw [liftD_var hf hxv]
      obtain ⟨h1, h2⟩ := abs_le.1 (hbox x hxv)
      constructor <;> linarith
    · obtain ⟨p, hp, hs⟩ := List.mem_filterMap.1 hsl
      obtain ⟨n1, m1, -, -, hok⟩ := hf.mf.piece hp
      have hne : p.c.kind ≠ .equal := by rw [Ne, hok.equal, Piece.bnd_slack hs]; simp
      obtain ⟨h1, h2⟩ := abs_le.1 (hsbox _ (hps p hp) hne)
      rw [hslack p hp x hs]
      constructor <;> linarith
  · intro x hx hi
    rcases (hf.mem x).1 hx with hold | hsl
    · have hxv : mod.HasVar x := by
        obtain ⟨hv, ho | ⟨p, hp, ho⟩⟩ := hold
        · exact hf.mf.objVar hv ho
        · exact hf.mf.pieceVar hp hv ho
      rw [liftD_var hf hxv]
      exact hint x hxv hi
    · obtain ⟨p, hp, hs⟩ := List.mem_filterMap.1 hsl
      obtain ⟨n1, m1, -, -, hok⟩ := hf.mf.piece hp
      obtain ⟨-, i, str, rfl, -⟩ := hok.slack x hs
      cases hi

/-- The values of the columns, as a point. -/
theorem colValD_map (hc : ColsOk l h cols) (v : Node F64 → ℚ) {x : Node F64} (hx : x ∈ cols) : colValD cols (cols.map v) x = v x := by
  rw [colValD, List.getD_eq_getElem?_getD, List.getElem?_map, (hc.col hx).2]
  rfl

theorem PointD.congr (hf : SpFacts H l h n m mod comp e ps cols xes ves sp) {δ ε η : ℚ} {v w : Node F64 → ℚ} (hvw : ∀ x ∈ cols, v x = w x)
    (hv : PointD comp cols ps δ ε η v) : PointD comp cols ps δ ε η w := by
  constructor
  · intro p hp hlin b hb hnum
    have hcoef : ∀ q ∈ p.coefs, q.1 ∈ cols := fun q hq => by
      refine hf.cmpOk.a (p.arow, q.1, q.2) ?_
      rw [hf.mf.constr]
      simp only [ConstrComp.concat, List.mem_flatMap, List.mem_map]
      exact ⟨p.out, ⟨p, hp, rfl⟩, by simp only [Piece.out, List.mem_map]; exact ⟨q, hq, rfl⟩⟩
    have : (p.coefs.map fun q => q.2.val * w q.1) = p.coefs.map fun q => q.2.val * v q.1 :=
      List.map_congr_left fun q hq => by rw [hvw _ (hcoef q hq)]
    rw [this]
    exact hv.rows p hp hlin b hb hnum
  · intro p hp d x b hb
    have hxc : x ∈ cols := by
      cases d
      · exact hf.cmpOk.l _ (hf.mf.lower.2 ⟨p, hp, hb, rfl⟩ : (x, b, p.c) ∈ comp.constr.l)
      · exact hf.cmpOk.u _ (hf.mf.upper.2 ⟨p, hp, hb, rfl⟩ : (x, b, p.c) ∈ comp.constr.u)
    rw [← hvw x hxc]
    exact hv.bounds p hp d x b hb
  · intro x hx
    rw [← hvw x hx]
    exact hv.box x hx
  · intro x hx hi
    rw [← hvw x hx]
    exact hv.integral x hx hi

/-- The formula that is minimised, with the sign that the library gives it. -/
theorem objective_saysD (hf : SpFacts H l h n m mod comp e ps cols xes ves sp) {o : TermForm} (ho : mod.ObjectiveSaysD o)
    (hne : mod.objective ≠ .empty) : ∃ o' : TermForm, WritesTerms e o'.terms o'.const ∧ (∀ i, SumsExact o'.terms i) ∧
      ((∃ f, mod.objective = .minimize f) ∧ (∀ t, o'.value t = o.value t) ∨ (∃ f, mod.objective = .maximize f) ∧ ∀ t, o'.value t = -o.value t) := by
  unfold Model.ObjectiveSaysD at ho
  cases hob : mod.objective with
  | empty => exact absurd hob hne
  | minimize f =>
    rw [hob] at ho
    rw [hf.mf.objMin f hob]
    exact ⟨o, ho.1, ho.2, .inl ⟨⟨f, rfl⟩, fun _ => rfl⟩⟩
  | maximize f =>
    rw [hob] at ho
    obtain ⟨k, k', hk⟩ := hf.mf.objMax f hob
    refine ⟨⟨scaleTerms (-1) o.terms, -o.const⟩, .neg ho.1 hk, fun i => sumsExact_neg (ho.2 i), .inr ⟨⟨f, rfl⟩, fun t => ?_⟩⟩
    simp only [TermForm.value, scaleTerms_sum_neg]
    ring

/-- The library recognizes a model of linear formulas as linear. -/
theorem linear_probD (hf : SpFacts H l h n m mod comp e ps cols xes ves sp) {F G : Constraint F64 → TermForm}
    (hc : ∀ c ∈ mod.constraints, c.SaysD (F c) (G c)) {o : TermForm} (ho : mod.ObjectiveSaysD o) :
    sp.prob.costsD = some (stdC cols comp) ∧ ((∃ q, sp.prob = .lp q) ∨ ∃ q, sp.prob = .milp q) := by
  have haff : comp.obj.prop.affine = true := by
    rw [hf.mf.objProp.2]
    by_cases hob : mod.objective = .empty
    · obtain ⟨i, rfl⟩ := hf.mf.objEmpty hob
      rfl
    · obtain ⟨o', hs, -⟩ := objective_saysD hf ho hob
      exact (C75_coefficients hs).1
  have hnf : comp.constr.f = [] := by
    rw [hf.mf.constr]
    simp only [ConstrComp.concat, List.flatMap_map, List.flatMap_eq_nil_iff]
    intro p hp
    obtain ⟨n1, m1, -, -, hok⟩ := hf.mf.piece hp
    have hpc : p.c ∈ mod.constraints := by rw [← hf.mf.cs]; exact List.mem_map_of_mem hp
    obtain ⟨b, -, -, hnl, -⟩ := hok.linD (hc _ hpc) 0
    simp [Piece.out, hnl]
  rw [hf.prob]
  unfold stdProbOf
  rw [if_pos ⟨haff, hnf⟩]
  split
  · exact ⟨rfl, .inl ⟨_, rfl⟩⟩
  · exact ⟨rfl, .inr ⟨_, rfl⟩⟩

/-- The cost of a point is the value of the objective without its constant. -/
theorem cost_value (hf : SpFacts H l h n m mod comp e ps cols xes ves sp) {o : TermForm} (hw : WritesTerms e o.terms o.const)
    (hs : ∀ i, SumsExact o.terms i) {xs : List ℚ} (hlen : xs.length = cols.length) {t : ℕ → ℚ} (ht : ∀ x, mod.HasVar x → colValD cols xs x = t x.id) :
    costD (stdC cols comp) xs + o.const = o.value t := by
  have key := writesTerms_function hw hs t
  rw [F64.val_of (C75_coefficients hw).2.1] at key
  rw [TermForm.value, ← key]
  have h1 : costD (stdC cols comp) xs = (cols.map fun x => (valAt comp.obj.prop.a zero x).val * colValD cols xs x).sum := by
    unfold costD stdC
    congr 1
    apply List.ext_getElem?
    intro i
    by_cases hi : i < cols.length
    · have hcol := hf.cok.col_get hi
      have hx := colValD_get hf.cok hlen (List.getElem_mem hi)
      rw [hcol] at hx
      simp [List.getElem?_zip_eq_some, List.zip, List.getElem?_zipWith, hi, hx]
    · have h2 : xs[i]? = none := by rw [List.getElem?_eq_none]; omega
      simp [List.zip, List.getElem?_zipWith, hi, h2]
  rw [h1, hf.mf.objProp.2, costs_sumD hf.cok _ _ (stdProperties_keys e).1]
  · have hsum : (e.stdProperties.a.map fun q => q.2.val * colValD cols xs q.1) = e.stdProperties.a.map fun q => q.2.val * t q.1.id :=
      List.map_congr_left fun q hq => by
        have hk := (stdProperties_keys e).2.1 q.1 (List.mem_map_of_mem hq)
        rw [ht _ (hf.mf.objVar hk.1 hk.2)]
    rw [hsum]
  · intro q hq
    have hk := (stdProperties_keys e).2.1 q.1 (List.mem_map_of_mem hq)
    exact (hf.mem _).2 (.inl ⟨hk.1, .inl hk.2⟩)

end

end Verif
