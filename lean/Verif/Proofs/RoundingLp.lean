import Mathlib.Algebra.BigOperators.Ring.Finset
import Mathlib.Algebra.Order.BigOperators.Group.Finset
import Verif.Proofs.RoundingSolve

/-! # Optimality of linear models in arithmetic with rounding errors -/

set_option linter.unusedSectionVars false
set_option linter.unusedSimpArgs false

namespace Verif

theorem sum_group {α : Type} (N : ℕ) (T : List α) (key : α → ℕ) (F : α → ℝ) (y : ℕ → ℝ) (hk : ∀ e ∈ T, key e < N ∨ y (key e) = 0) :
    ∑ j ∈ Finset.range N, ((T.filter fun e => key e == j).map F).sum * y j = (T.map fun e => F e * y (key e)).sum := by
  induction T with
  | nil => simp
  | cons e T ih =>
    rw [List.map_cons, List.sum_cons, ← ih fun e' he' => hk e' (by simp [he'])]
    have h1 : ∀ j, (((e :: T).filter fun e => key e == j).map F).sum * y j =
        (if key e = j then F e * y j else 0) + ((T.filter fun e => key e == j).map F).sum * y j := by
      intro j
      rw [List.filter_cons]
      by_cases hj : key e = j
      · simp [hj, add_mul]
      · simp [hj]
    simp only [h1, Finset.sum_add_distrib, Finset.sum_ite_eq, Finset.mem_range]
    congr 1
    rcases hk e (by simp) with h | h
    · rw [if_pos h]
    · rw [h]; simp

/-- Weak duality up to tolerances. -/
theorem weak_duality {N m : ℕ} {T : List (ℕ × ℕ × ℝ)} (hT : ∀ e ∈ T, e.2.1 < N) {c x y mu pi lo up b lam : ℕ → ℝ} {δ E ρ κ D : ℝ}
    (hlam : ∀ i, m ≤ i → lam i = 0)
    (hx : ∀ i < m, |((T.filter fun e => e.1 == i).map fun e => e.2.2 * x e.2.1).sum - b i| ≤ δ)
    (hy : ∀ i < m, |((T.filter fun e => e.1 == i).map fun e => e.2.2 * y e.2.1).sum - b i| ≤ E)
    (hmu : ∀ j < N, 0 ≤ mu j) (hpi : ∀ j < N, 0 ≤ pi j) (hup : ∀ j < N, mu j * (up j - x j) ≤ κ) (hlo : ∀ j < N, pi j * (x j - lo j) ≤ κ)
    (hyu : ∀ j < N, y j ≤ up j + E) (hyl : ∀ j < N, lo j - E ≤ y j) (hD : ∀ j < N, |x j - y j| ≤ D)
    (hst : ∀ j < N, |c j - ((T.filter fun e => e.2.1 == j).map fun e => e.2.2 * lam e.1).sum + mu j - pi j| ≤ ρ) :
    ∑ j ∈ Finset.range N, c j * x j ≤ ∑ j ∈ Finset.range N, c j * y j +
      (N * (ρ * D + 2 * κ) + (δ + E) * ∑ i ∈ Finset.range m, |lam i| + E * ∑ j ∈ Finset.range N, (mu j + pi j)) := by
  have hcol : ∀ z : ℕ → ℝ, ∑ j ∈ Finset.range N, ((T.filter fun e => e.2.1 == j).map fun e => e.2.2 * lam e.1).sum * z j =
      ∑ i ∈ Finset.range m, ((T.filter fun e => e.1 == i).map fun e => e.2.2 * z e.2.1).sum * lam i := by
    intro z
    rw [sum_group N T (fun e => e.2.1) _ z fun e he => .inl (hT e he), sum_group m T (fun e => e.1) _ lam fun e he => ?_]
    · congr 1
      refine List.map_congr_left fun e _ => ?_
      ring
    · by_cases h : e.1 < m
      · exact .inl h
      · exact .inr (hlam _ (by omega))
  have hrow : ∑ j ∈ Finset.range N, ((T.filter fun e => e.2.1 == j).map fun e => e.2.2 * lam e.1).sum * (x j - y j) ≤
      (δ + E) * ∑ i ∈ Finset.range m, |lam i| := by
    simp only [mul_sub, Finset.sum_sub_distrib, hcol]
    rw [← Finset.sum_sub_distrib, Finset.mul_sum]
    refine Finset.sum_le_sum fun i hi => ?_
    rw [Finset.mem_range] at hi
    rw [← sub_mul]
    refine (le_abs_self _).trans ?_
    rw [abs_mul]
    refine mul_le_mul_of_nonneg_right ?_ (abs_nonneg _)
    obtain ⟨h1, h2⟩ := abs_le.1 (hx i hi)
    obtain ⟨h3, h4⟩ := abs_le.1 (hy i hi)
    rw [abs_le]
    constructor <;> linarith
  have hcolj : ∀ j ∈ Finset.range N, c j * (x j - y j) ≤
      ((T.filter fun e => e.2.1 == j).map fun e => e.2.2 * lam e.1).sum * (x j - y j) + ((ρ * D + 2 * κ) + E * (mu j + pi j)) := by
    intro j hj
    rw [Finset.mem_range] at hj
    have h1 : (c j - ((T.filter fun e => e.2.1 == j).map fun e => e.2.2 * lam e.1).sum + mu j - pi j) * (x j - y j) ≤ ρ * D := by
      refine (le_abs_self _).trans ?_
      rw [abs_mul]
      exact mul_le_mul (hst j hj) (hD j hj) (abs_nonneg _) (le_trans (abs_nonneg _) (hst j hj))
    have h2 : mu j * (y j - up j) ≤ mu j * E := mul_le_mul_of_nonneg_left (by linarith [hyu j hj]) (hmu j hj)
    have h3 : pi j * (lo j - y j) ≤ pi j * E := mul_le_mul_of_nonneg_left (by linarith [hyl j hj]) (hpi j hj)
    have h4 := hup j hj
    have h5 := hlo j hj
    nlinarith
  have := Finset.sum_le_sum hcolj
  rw [Finset.sum_add_distrib, Finset.sum_add_distrib, Finset.sum_const, Finset.card_range, nsmul_eq_mul, ← Finset.mul_sum] at this
  simp only [mul_sub, Finset.sum_sub_distrib] at this hrow
  linarith

variable {u : ℝ} {A : FlArith u} {H : HashOrder} {l : Level} {h : Heap (Fl A)} {n m : ℕ} {cols : List (Node (Fl A))} {comp : ModelComp (Fl A)}
  {mod : Model (Fl A)} {e : Node (Fl A)} {ps : List (Piece (Fl A))} {xes : List (Node (Fl A) × Fl A)}
  {ves : List (Node (Fl A) × ℕ)} {sp : StdProb (Fl A)}

theorem sum_set {α : Type} [DecidableEq α] {cs : List α} (hn : cs.Nodup) {k : α} (hk : k ∈ cs) (a : ℝ) (f : α → ℝ) (hf : f k = 0) :
    (cs.map fun x => if x = k then a else f x).sum = a + (cs.map f).sum := by
  induction cs with
  | nil => cases hk
  | cons c cs ih =>
    rw [List.nodup_cons] at hn
    by_cases hc : c = k
    · subst hc
      have : (cs.map fun x => if x = c then a else f x) = cs.map f := List.map_congr_left fun x hx => by
        rw [if_neg]; rintro rfl; exact hn.1 hx
      simp [this, hf]
    · have hk' : k ∈ cs := by
        rcases List.mem_cons.1 hk with h | h
        · exact absurd h.symm hc
        · exact h
      simp only [List.map_cons, List.sum_cons, if_neg hc, ih hn.2 hk']
      ring

/-- The value of the objective coefficients at a point. -/
theorem costs_sum (hc : ColsOk l h cols) (v : Node (Fl A) → ℝ) : ∀ (m : List (Node (Fl A) × Fl A)), NodupP (keysN m) → (∀ q ∈ m, q.1 ∈ cols) →
    (cols.map fun x => (valAt m zero x).val * v x).sum = (m.map fun q => q.2.val * v q.1).sum := by
  classical
  intro m
  induction m with
  | nil =>
    intro _ _
    have : (cols.map fun x => (valAt ([] : List (Node (Fl A) × Fl A)) zero x).val * v x) = cols.map fun _ => (0 : ℝ) :=
      List.map_congr_left fun x _ => by show (0 : ℝ) * _ = 0; rw [zero_mul]
    rw [this]
    simp
  | cons q m ih =>
    obtain ⟨k, w⟩ := q
    intro hn hm
    have hk : k ∈ cols := hm (k, w) (by simp)
    have hk0 : valAt m zero k = (zero : Fl A) := by
      unfold valAt
      rw [getN_none_of fun y hy => ?_]
      · rfl
      · have := (List.pairwise_cons.1 hn).1 y hy
        by_contra hne
        rw [Bool.not_eq_false] at hne
        obtain ⟨q, hq, rfl⟩ := List.mem_map.1 hy
        have heq := ((hc.good _ (hm q (by simp [hq]))).ptrEq_iff (hc.good _ hk)).1 hne
        rw [heq, ptrEq_refl] at this
        cases this
    have h1 : (cols.map fun x => (valAt ((k, w) :: m) zero x).val * v x) =
        cols.map fun x => if x = k then w.val * v k else (valAt m zero x).val * v x := by
      refine List.map_congr_left fun x hx => ?_
      unfold valAt
      simp only [getN]
      by_cases hxk : x = k
      · subst hxk; simp [ptrEq_refl]
      · have : k.ptrEq x = false := by
          by_contra hne
          rw [Bool.not_eq_false] at hne
          exact hxk (((hc.good _ hk).ptrEq_iff (hc.good _ hx)).1 hne).symm
        simp [this, hxk]
    rw [h1, sum_set hc.nodup' hk _ (fun x => (valAt m zero x).val * v x) (by rw [hk0]; show (0 : ℝ) * _ = 0; rw [zero_mul]),
      ih (List.pairwise_cons.1 hn).2 fun q hq => hm q (by simp [hq])]
    simp

/-- The affine function that a constraint becomes, at an assignment. -/
noncomputable def Piece.residualAt (p : Piece (Fl A)) (τ : ℕ → ℝ) : ℝ := (p.comp.prop.a.map fun q => q.2.val * τ q.1.id).sum + p.comp.prop.b.val

open Classical in
/-- The values of the columns at an assignment: slacks get the value of their row. -/
noncomputable def liftVal (ps : List (Piece (Fl A))) (τ : ℕ → ℝ) (x : Node (Fl A)) : ℝ :=
  if hx : ∃ p ∈ ps, p.slack = some x then hx.choose.residualAt τ else τ x.id

theorem liftVal_slack (hf : SpFacts H l h n m mod comp e ps cols xes ves sp) {p : Piece (Fl A)} (hp : p ∈ ps) {s : Node (Fl A)} (hs : p.slack = some s)
    (τ : ℕ → ℝ) : liftVal ps τ s = p.residualAt τ := by
  have hx : ∃ p ∈ ps, p.slack = some s := ⟨p, hp, hs⟩
  unfold liftVal
  rw [dif_pos hx, hf.slack_inj hx.choose_spec.1 hp hx.choose_spec.2 hs]

theorem liftVal_var (hf : SpFacts H l h n m mod comp e ps cols xes ves sp) {x : Node (Fl A)} (hx : mod.HasVar x) (τ : ℕ → ℝ) :
    liftVal ps τ x = τ x.id := by
  unfold liftVal
  rw [dif_neg]
  intro hh
  have h1 := (hf.newCol.2 hh).2
  have h2 := (hf.mf.old x hx).1
  omega

/-- At these values, the row of an inequality holds exactly. -/
theorem liftVal_row (hf : SpFacts H l h n m mod comp e ps cols xes ves sp) {p : Piece (Fl A)} (hp : p ∈ ps) {s : Node (Fl A)} (hs : p.slack = some s)
    (hl : p.isLin = true) (τ : ℕ → ℝ) : (p.coefs.map fun q => q.2.val * liftVal ps τ q.1).sum + p.comp.prop.b.val = 0 := by
  obtain ⟨n1, m1, -, -, hok⟩ := hf.mf.piece hp
  cases hk : p.kind with
  | linIneq es s' =>
    have : s' = s := by simpa [Piece.slack, hk] using hs
    subst this
    have hperm := (hok.linIneq es s' hk).1
    simp only [Piece.coefs, hk, List.map_append, List.sum_append, List.map_cons, List.map_nil, List.sum_cons, List.sum_nil, add_zero]
    rw [(hperm.map fun q => q.2.val * liftVal ps τ q.1).sum_eq, liftVal_slack hf hp hs]
    have hsum : (p.comp.prop.a.map fun q => q.2.val * liftVal ps τ q.1) = p.comp.prop.a.map fun q => q.2.val * τ q.1.id :=
      List.map_congr_left fun q hq => by
        have hkq := (stdProperties_keys p.exp).2.1 q.1 (by rw [← hok.prop.2]; exact List.mem_map_of_mem hq)
        rw [liftVal_var hf (hf.mf.pieceVar hp hkq.1 hkq.2)]
    rw [hsum, show (negOne : Fl A).val = -1 from rfl, Piece.residualAt]
    ring
  | bound x => simp [Piece.isLin, hk] at hl
  | linEq es => simp [Piece.slack, hk] at hs
  | nlEq => simp [Piece.isLin, hk] at hl
  | nlIneq s f m => simp [Piece.isLin, hk] at hl

/-- An assignment that satisfies the formulas satisfies the standard problem up to the rounding errors. -/
theorem lift_facts (hf : SpFacts H l h n m mod comp e ps cols xes ves sp) (hu : 0 ≤ u) {F G : Constraint (Fl A) → LinForm}
    (hc : ∀ c ∈ mod.constraints, c.lhs.Says (F c) ∧ c.rhs.Says (G c)) {τ : ℕ → ℝ} {E : ℝ}
    (hE0 : 0 ≤ E) (hE : ∀ c ∈ mod.constraints, pairErr u (F c) (G c) τ ≤ E)
    (hτ : ∀ c ∈ mod.constraints, c.kind.Rel ((F c).value τ) ((G c).value τ))
    (hbox : ∀ x, mod.HasVar x → |τ x.id| ≤ 10 ^ 8)
    (hsbox : ∀ c ∈ mod.constraints, c.kind ≠ .equal → |(F c).value τ - (G c).value τ| ≤ 10 ^ 8) {η : ℝ}
    (hint : ∀ x, mod.HasVar x → x.isInteger = true → ∃ z : ℤ, |τ x.id - z| ≤ η) : PointFacts comp cols ps E E η (liftVal ps τ) := by
  have hps : ∀ p ∈ ps, p.c ∈ mod.constraints := fun p hp => by rw [← hf.mf.cs]; exact List.mem_map_of_mem hp
  have key : ∀ p ∈ ps, _ := fun p hp => hf.pieceErr hp hu (hc _ (hps p hp)).1 (hc _ (hps p hp)).2 (t := τ) (v := liftVal ps τ)
    fun x hx => liftVal_var hf hx τ
  have hslack : ∀ p ∈ ps, ∀ s, p.slack = some s → |liftVal ps τ s - ((F p.c).value τ - (G p.c).value τ)| ≤ E := by
    intro p hp s hs
    obtain ⟨b, hb, hnum, ⟨x, hk, -⟩ | ⟨-, -, hs', -⟩ | ⟨s', hlin, hs', -, herr⟩⟩ := key p hp
    · simp [Piece.slack, hk] at hs
    · rw [hs] at hs'; cases hs'
    · rw [hs] at hs'
      injection hs' with hs'
      subst hs'
      have hrow := liftVal_row hf hp hs hlin τ
      rw [hb, Fl.val_num] at hrow
      rw [hrow, zero_add] at herr
      exact herr.trans (hE _ (hps p hp))
  constructor
  · intro p hp hlin b' hb' hnum'
    obtain ⟨b, hb, hnum, ⟨x, hk, -⟩ | ⟨hk, -, hs', herr⟩ | ⟨s', -, hs', -, -⟩⟩ := key p hp
    · simp [Piece.isLin, hk] at hlin
    · rw [hb, Fl.num_inj] at hb'
      subst hb'
      have := hτ _ (hps p hp)
      rw [hk] at this
      simp only [CKind.Rel] at this
      rw [this, sub_self, sub_zero] at herr
      exact herr.trans (hE _ (hps p hp))
    · have hrow := liftVal_row hf hp hs' hlin τ
      rw [hb', Fl.val_num] at hrow
      rw [hrow, abs_zero]
      exact hE0
  · intro p hp d x b' hb'
    obtain ⟨n1, m1, -, -, hok⟩ := hf.mf.piece hp
    have hdir := hok.dir hb'
    have hrel := hτ _ (hps p hp)
    have he := hE _ (hps p hp)
    obtain ⟨b, hb, hnum, ⟨x', hk, hxv, hbnd, herr⟩ | ⟨hk, -⟩ | ⟨s', hlin, hs', hbnd, -⟩⟩ := key p hp
    · rw [hbnd] at hb'
      injection hb' with hb'
      injection hb' with hd hb'
      injection hb' with hx hb'
      rw [Fl.num_inj] at hb'
      subst hx hb'
      obtain ⟨h1, h2⟩ := abs_le.1 herr
      cases d <;> simp only [if_true, if_false, Bool.false_eq_true] at hdir ⊢ <;> simp only [hdir, CKind.Rel] at hrel <;> linarith
    · rw [hok.equal, hb'] at hk
      cases hk
    · rw [hbnd] at hb'
      injection hb' with hb'
      injection hb' with hd hb'
      injection hb' with hx hb'
      rw [Fl.num_inj] at hb'
      subst hx hb'
      obtain ⟨h1, h2⟩ := abs_le.1 (hslack p hp _ hs')
      cases d <;> simp only [if_true, if_false, Bool.false_eq_true] at hdir ⊢ <;> simp only [hdir, CKind.Rel] at hrel <;> linarith
  · intro x hx
    rcases (hf.mem x).1 hx with hold | hsl
    · have hxv : mod.HasVar x := by
        obtain ⟨hv, ho | ⟨p, hp, ho⟩⟩ := hold
        · exact hf.mf.objVar hv ho
        · exact hf.mf.pieceVar hp hv ho
      rw [liftVal_var hf hxv]
      obtain ⟨h1, h2⟩ := abs_le.1 (hbox x hxv)
      constructor <;> linarith
    · obtain ⟨p, hp, hs⟩ := List.mem_filterMap.1 hsl
      obtain ⟨n1, m1, -, -, hok⟩ := hf.mf.piece hp
      have hne : p.c.kind ≠ .equal := by rw [Ne, hok.equal, Piece.bnd_slack hs]; simp
      obtain ⟨h1, h2⟩ := abs_le.1 (hsbox _ (hps p hp) hne)
      obtain ⟨h3, h4⟩ := abs_le.1 (hslack p hp x hs)
      constructor <;> linarith
  · intro x hx hi
    rcases (hf.mem x).1 hx with hold | hsl
    · have hxv : mod.HasVar x := by
        obtain ⟨hv, ho | ⟨p, hp, ho⟩⟩ := hold
        · exact hf.mf.objVar hv ho
        · exact hf.mf.pieceVar hp hv ho
      rw [liftVal_var hf hxv]
      exact hint x hxv hi
    · obtain ⟨p, hp, hs⟩ := List.mem_filterMap.1 hsl
      obtain ⟨n1, m1, -, -, hok⟩ := hf.mf.piece hp
      obtain ⟨-, i, str, rfl, -⟩ := hok.slack x hs
      cases hi

/-- The values of the columns, as a point. -/
theorem colVal_map (hc : ColsOk l h cols) (v : Node (Fl A) → ℝ) {x : Node (Fl A)} (hx : x ∈ cols) : colVal cols (cols.map v) x = v x := by
  rw [colVal, List.getD_eq_getElem?_getD, List.getElem?_map, (hc.col hx).2]
  rfl

theorem PointFacts.congr (hf : SpFacts H l h n m mod comp e ps cols xes ves sp) {δ ε η : ℝ} {v w : Node (Fl A) → ℝ} (hvw : ∀ x ∈ cols, v x = w x)
    (hv : PointFacts comp cols ps δ ε η v) : PointFacts comp cols ps δ ε η w := by
  constructor
  · intro p hp hlin b hb hnum
    have hcoef : ∀ q ∈ p.coefs, q.1 ∈ cols := fun q hq => by
      refine hf.cmpOk.a (p.arow, q.1, q.2) ?_
      rw [hf.mf.constr]
      simp only [ConstrComp.concat, List.mem_flatMap, List.mem_map]
      exact ⟨p.out, ⟨p, hp, rfl⟩, by simp only [Piece.out, List.mem_map]; exact ⟨q, hq, rfl⟩⟩
    have : (p.coefs.map fun q => q.2.val * w q.1) = p.coefs.map fun q => q.2.val * v q.1 :=
      List.map_congr_left fun q hq => by rw [hvw _ (hcoef q hq)]
    rw [this]
    exact hv.rows p hp hlin b hb hnum
  · intro p hp d x b hb
    have hxc : x ∈ cols := by
      cases d
      · exact hf.cmpOk.l _ (hf.mf.lower.2 ⟨p, hp, hb, rfl⟩ : (x, Fl.num A b, p.c) ∈ comp.constr.l)
      · exact hf.cmpOk.u _ (hf.mf.upper.2 ⟨p, hp, hb, rfl⟩ : (x, Fl.num A b, p.c) ∈ comp.constr.u)
    rw [← hvw x hxc]
    exact hv.bounds p hp d x b hb
  · intro x hx
    rw [← hvw x hx]
    exact hv.box x hx
  · intro x hx hi
    rw [← hvw x hx]
    exact hv.integral x hx hi

/-- The formula that is minimised, with the sign that the library gives it. -/
theorem objective_says (hf : SpFacts H l h n m mod comp e ps cols xes ves sp) (hu : 0 ≤ u) {o : LinForm} (ho : mod.ObjectiveSays o)
    (hne : mod.objective ≠ .empty) : ∃ o' : LinForm, e.Says o' ∧ (∀ t, o'.mag t = o.mag t) ∧ o'.ops ≤ o.ops + 1 ∧
      ((∃ f, mod.objective = .minimize f) ∧ (∀ t, o'.value t = o.value t) ∨ (∃ f, mod.objective = .maximize f) ∧ ∀ t, o'.value t = -o.value t) := by
  unfold Model.ObjectiveSays at ho
  cases hob : mod.objective with
  | empty => exact absurd hob hne
  | minimize f =>
    rw [hob] at ho
    rw [hf.mf.objMin f hob]
    exact ⟨o, ho, fun _ => rfl, by omega, .inl ⟨⟨f, rfl⟩, fun _ => rfl⟩⟩
  | maximize f =>
    rw [hob] at ho
    obtain ⟨k, k', hk⟩ := hf.mf.objMax f hob
    refine ⟨⟨o.vars, -o.coef, -o.const, o.size, o.sizeConst, o.ops + 1⟩, ⟨.neg ho.1 hk, ho.2⟩, fun _ => rfl, le_rfl, .inr ⟨⟨f, rfl⟩, fun t => ?_⟩⟩
    simp only [LinForm.value, Pi.neg_apply, neg_mul, Finset.sum_neg_distrib]
    ring

/-- The library recognizes a model of linear formulas as linear. -/
theorem linear_prob (hf : SpFacts H l h n m mod comp e ps cols xes ves sp) (hu : 0 ≤ u) {F G : Constraint (Fl A) → LinForm}
    (hc : ∀ c ∈ mod.constraints, c.lhs.Says (F c) ∧ c.rhs.Says (G c)) {o : LinForm} (ho : mod.ObjectiveSays o) :
    sp.prob.costs = some (stdC cols comp) ∧ ((∃ q, sp.prob = .lp q) ∨ ∃ q, sp.prob = .milp q) := by
  have haff : comp.obj.prop.affine = true := by
    rw [hf.mf.objProp.2]
    by_cases hob : mod.objective = .empty
    · obtain ⟨i, rfl⟩ := hf.mf.objEmpty hob
      rfl
    · obtain ⟨o', hs, -⟩ := objective_says hf hu ho hob
      exact (C71_coefficients hu hs.1).1
  have hnf : comp.constr.f = [] := by
    rw [hf.mf.constr]
    simp only [ConstrComp.concat, List.flatMap_map, List.flatMap_eq_nil_iff]
    intro p hp
    obtain ⟨n1, m1, -, -, hok⟩ := hf.mf.piece hp
    have hpc : p.c ∈ mod.constraints := by rw [← hf.mf.cs]; exact List.mem_map_of_mem hp
    obtain ⟨b, -, -, hnl, -⟩ := hok.linErr hu (hc _ hpc).1 (hc _ hpc).2 0
    simp [Piece.out, hnl]
  rw [hf.prob]
  unfold stdProbOf
  rw [if_pos ⟨haff, hnf⟩]
  split
  · exact ⟨rfl, .inl ⟨_, rfl⟩⟩
  · exact ⟨rfl, .inr ⟨_, rfl⟩⟩

end Verif
