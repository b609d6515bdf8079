import Verif.Spec.RoundingSolve
import Verif.Proofs.RoundingStd
import Verif.Proofs.Comp
import Verif.Proofs.Solve
import Verif.Proofs.Feas2
import Verif.Proofs.Bounds
import Verif.Props.RoundingStd
import Verif.Props.ModelStd

/-! # Linear models in arithmetic with rounding errors -/

set_option linter.unusedSectionVars false
set_option linter.unusedSimpArgs false

namespace Verif

variable {u : ℝ} {A : FlArith u}

theorem WritesLinear.coef_le (hu : 0 ≤ u) {e : Node (Fl A)} {α μ : ℕ → ℝ} {β ν : ℝ} {k : ℕ} (h : WritesLinear e α β μ ν k) (i : ℕ) :
    |α i| ≤ μ i := by
  obtain ⟨y, -, -, h3⟩ := writesLinear_coef hu h (x := .var i "" .continuous) rfl
  exact h3

/-- The value of a formula may be computed over more variables. -/
theorem LinForm.value_eq (hu : 0 ≤ u) {e : Node (Fl A)} {f : LinForm} (h : e.Says f) {S : Finset ℕ} (hS : f.vars ⊆ S) (t : ℕ → ℝ) :
    f.value t = ∑ i ∈ S, f.coef i * t i + f.const := by
  unfold LinForm.value
  congr 1
  refine Finset.sum_subset hS fun i _ hi => ?_
  have := h.1.coef_le hu i
  rw [h.2 i hi] at this
  rw [abs_eq_zero.1 (le_antisymm this (abs_nonneg _)), zero_mul]

theorem LinForm.mag_eq {e : Node (Fl A)} {f : LinForm} (h : e.Says f) {S : Finset ℕ} (hS : f.vars ⊆ S) (t : ℕ → ℝ) :
    f.mag t = ∑ i ∈ S, f.size i * |t i| + f.sizeConst := by
  unfold LinForm.mag
  congr 1
  refine Finset.sum_subset hS fun i _ hi => ?_
  rw [h.2 i hi, zero_mul]

theorem writesLinear_numeric (hu : 0 ≤ u) {e : Node (Fl A)} {α μ : ℕ → ℝ} {β ν : ℝ} {k : ℕ} (h : WritesLinear e α β μ ν k) :
    ∀ q ∈ e.stdProperties.a, ∃ v, q.2 = Fl.num A v := by
  intro q hq
  obtain ⟨hn, hv, -⟩ := stdProperties_keys e
  obtain ⟨y, h1, -⟩ := (C71_coefficients hu h).2 q.1 (hv q.1 (List.mem_map_of_mem hq)).1
  rw [getN_mem hn (show (q.1, q.2) ∈ _ from hq)] at h1
  exact ⟨y, h1⟩

section
variable {H : HashOrder} {l : Level} {h : Heap (Fl A)} {n m : ℕ}

/-- The affine function that a constraint becomes. -/
theorem Piece.Ok.linErr {p : Piece (Fl A)} (hp : p.Ok H l h n m) (hu : 0 ≤ u) {f g : LinForm} (hf : p.c.lhs.Says f) (hg : p.c.rhs.Says g)
    (t : ℕ → ℝ) : ∃ b, p.comp.prop.b = Fl.num A b ∧ (∀ q ∈ p.comp.prop.a, ∃ v, q.2 = Fl.num A v) ∧ p.isNl = false ∧
      |((p.comp.prop.a.map fun q => q.2.val * t q.1.id).sum + b) - (f.value t - g.value t)| ≤ pairErr u f g t := by
  obtain ⟨k, hk⟩ := hp.exp
  have hw : WritesLinear p.exp (f.coef - g.coef) (f.const - g.const) (f.size + g.size) (f.sizeConst + g.sizeConst) (f.ops + g.ops + 2) :=
    .sub hf.1 hg.1 hk
  obtain ⟨b, hb, -⟩ := C71_constant hu hw
  have hprop := hp.prop.2
  have haff := hp.affine
  rw [hprop, (C71_coefficients hu hw).1] at haff
  have hS : ∀ i ∉ f.vars ∪ g.vars, (f.size + g.size) i = 0 := by
    intro i hi
    rw [Finset.mem_union, not_or] at hi
    rw [Pi.add_apply, hf.2 i hi.1, hg.2 i hi.2, add_zero]
  have key := C71_function hu hw hS t
  rw [hprop]
  refine ⟨b, hb, writesLinear_numeric hu hw, by simpa using haff.symm, ?_⟩
  rw [hb, Fl.val_num] at key
  have e1 : ∑ i ∈ f.vars ∪ g.vars, (f.coef - g.coef) i * t i + (f.const - g.const) = f.value t - g.value t := by
    rw [LinForm.value_eq hu hf (S := f.vars ∪ g.vars) Finset.subset_union_left, LinForm.value_eq hu hg (S := f.vars ∪ g.vars) Finset.subset_union_right]
    have : ∀ i, (f.coef - g.coef) i * t i = f.coef i * t i - g.coef i * t i := fun i => by rw [Pi.sub_apply, sub_mul]
    simp only [this, Finset.sum_sub_distrib]
    ring
  have e2 : ∑ i ∈ f.vars ∪ g.vars, (f.size + g.size) i * |t i| + (f.sizeConst + g.sizeConst) = f.mag t + g.mag t := by
    rw [LinForm.mag_eq hf (S := f.vars ∪ g.vars) Finset.subset_union_left, LinForm.mag_eq hg (S := f.vars ∪ g.vars) Finset.subset_union_right]
    have : ∀ i, (f.size + g.size) i * |t i| = f.size i * |t i| + g.size i * |t i| := fun i => by rw [Pi.add_apply, add_mul]
    simp only [this, Finset.sum_add_distrib]
    ring
  rw [e1, e2] at key
  exact key

end

theorem Fl.le_num {x y : ℝ} : ((Fl.num A x <=. Fl.num A y) = true) ↔ x ≤ y := by
  show (decide (x ≤ y) = true) ↔ _
  rw [decide_eq_true_eq]

theorem Fl.le_some {a : Fl A} {y : ℝ} (h : (a <=. Fl.num A y) = true) : ∃ x, a = Fl.num A x := by
  cases a with
  | none => exact absurd h (by show ¬ (false = true); simp)
  | some x => exact ⟨x, rfl⟩

theorem Fl.some_le {a : Fl A} {y : ℝ} (h : (Fl.num A y <=. a) = true) : ∃ x, a = Fl.num A x := by
  cases a with
  | none => exact absurd h (by show ¬ (false = true); simp)
  | some x => exact ⟨x, rfl⟩

/-- The upper bound of a column: the least of the initial value and the numbers given. -/
theorem Fl.tightest_up (init : ℝ) (es : List (Node (Fl A) × Fl A × Constraint (Fl A))) (x : Node (Fl A)) :
    ∃ up, (tightest (fun v c => v <=. c) (Fl.num A init) es x).1 = Fl.num A up ∧
      ∀ t : ℝ, t ≤ up ↔ t ≤ init ∧ ∀ e ∈ es, e.1.ptrEq x = true → ∀ v, e.2.1 = Fl.num A v → t ≤ v := by
  induction es using List.reverseRecOn with
  | nil => exact ⟨init, rfl, by simp⟩
  | append_singleton es e ih =>
    obtain ⟨up, h1, h2⟩ := ih
    have hs : tightest (fun v c => v <=. c) (Fl.num A init) (es ++ [e]) x =
        if e.1.ptrEq x && (e.2.1 <=. (tightest (fun v c => v <=. c) (Fl.num A init) es x).1) then (e.2.1, some e.2.2)
        else tightest (fun v c => v <=. c) (Fl.num A init) es x := by simp [tightest, List.foldl_append]
    by_cases hb : (e.1.ptrEq x && (e.2.1 <=. (tightest (fun v c => v <=. c) (Fl.num A init) es x).1)) = true
    · rw [hs, if_pos hb]
      rw [Bool.and_eq_true, h1] at hb
      obtain ⟨w, hw⟩ := Fl.le_some hb.2
      rw [hw, Fl.le_num] at hb
      refine ⟨w, hw, fun t => ?_⟩
      constructor
      · intro ht
        obtain ⟨g1, g2⟩ := (h2 t).1 (le_trans ht hb.2)
        refine ⟨g1, fun e' he' hx v hv => ?_⟩
        rcases List.mem_append.1 he' with he' | he'
        · exact g2 e' he' hx v hv
        · rw [List.mem_singleton] at he'
          subst he'
          rw [hw, Fl.num_inj] at hv
          rw [← hv]; exact ht
      · rintro ⟨g1, g2⟩
        exact g2 e (by simp) hb.1 w hw
    · rw [hs, if_neg hb]
      refine ⟨up, h1, fun t => ?_⟩
      rw [h2 t]
      refine and_congr_right fun _ => ⟨fun hh e' he' hx v hv => ?_, fun hh e' he' => hh e' (by simp [he'])⟩
      rcases List.mem_append.1 he' with he' | he'
      · exact hh e' he' hx v hv
      · rw [List.mem_singleton] at he'
        subst he'
        rw [h1, hx, hv, Bool.true_and, Fl.le_num, not_le] at hb
        exact le_trans ((h2 t).2 ⟨by assumption, hh⟩) hb.le

/-- The lower bound of a column. -/
theorem Fl.tightest_lo (init : ℝ) (es : List (Node (Fl A) × Fl A × Constraint (Fl A))) (x : Node (Fl A)) :
    ∃ lo, (tightest (fun v c => c <=. v) (Fl.num A init) es x).1 = Fl.num A lo ∧
      ∀ t : ℝ, lo ≤ t ↔ init ≤ t ∧ ∀ e ∈ es, e.1.ptrEq x = true → ∀ v, e.2.1 = Fl.num A v → v ≤ t := by
  induction es using List.reverseRecOn with
  | nil => exact ⟨init, rfl, by simp⟩
  | append_singleton es e ih =>
    obtain ⟨lo, h1, h2⟩ := ih
    have hs : tightest (fun v c => c <=. v) (Fl.num A init) (es ++ [e]) x =
        if e.1.ptrEq x && ((tightest (fun v c => c <=. v) (Fl.num A init) es x).1 <=. e.2.1) then (e.2.1, some e.2.2)
        else tightest (fun v c => c <=. v) (Fl.num A init) es x := by simp [tightest, List.foldl_append]
    by_cases hb : (e.1.ptrEq x && ((tightest (fun v c => c <=. v) (Fl.num A init) es x).1 <=. e.2.1)) = true
    · rw [hs, if_pos hb]
      rw [Bool.and_eq_true, h1] at hb
      obtain ⟨w, hw⟩ := Fl.some_le hb.2
      rw [hw, Fl.le_num] at hb
      refine ⟨w, hw, fun t => ?_⟩
      constructor
      · intro ht
        obtain ⟨g1, g2⟩ := (h2 t).1 (le_trans hb.2 ht)
        refine ⟨g1, fun e' he' hx v hv => ?_⟩
        rcases List.mem_append.1 he' with he' | he'
        · exact g2 e' he' hx v hv
        · rw [List.mem_singleton] at he'
          subst he'
          rw [hw, Fl.num_inj] at hv
          rw [← hv]; exact ht
      · rintro ⟨g1, g2⟩
        exact g2 e (by simp) hb.1 w hw
    · rw [hs, if_neg hb]
      refine ⟨lo, h1, fun t => ?_⟩
      rw [h2 t]
      refine and_congr_right fun _ => ⟨fun hh e' he' hx v hv => ?_, fun hh e' he' => hh e' (by simp [he'])⟩
      rcases List.mem_append.1 he' with he' | he'
      · exact hh e' he' hx v hv
      · rw [List.mem_singleton] at he'
        subst he'
        rw [h1, hx, hv, Bool.true_and, Fl.le_num, not_le] at hb
        exact le_trans hb.le ((h2 t).2 ⟨by assumption, hh⟩)

section
variable {H : HashOrder} {l : Level} {h : Heap (Fl A)} {n m : ℕ} {cols : List (Node (Fl A))} {comp : ModelComp (Fl A)}
  {mod : Model (Fl A)} {e : Node (Fl A)} {ps : List (Piece (Fl A))} {xes : List (Node (Fl A) × Fl A)}
  {ves : List (Node (Fl A) × ℕ)} {sp : StdProb (Fl A)}

/-- The value of a column at a point. -/
noncomputable def colVal (cols : List (Node (Fl A))) (xs : List ℝ) (x : Node (Fl A)) : ℝ := xs.getD (colOf cols x) 0

theorem colVal_get (hc : ColsOk l h cols) {xs : List ℝ} (hx : xs.length = cols.length) {x : Node (Fl A)} (hm : x ∈ cols) :
    xs[colOf cols x]? = some (colVal cols xs x) := by
  have := (hc.col hm).1
  rw [colVal, List.getD_eq_getElem?_getD, List.getElem?_eq_getElem (by omega)]
  rfl

/-- A row of the standard matrix at a point. -/
theorem fl_row (cols : List (Node (Fl A))) (comp : ModelComp (Fl A)) (xs : List ℝ) (i : ℕ) :
    ((rowOf (stdA cols comp).triplets i).map fun e => e.2.val * xs.getD e.1 0).sum =
      ((entriesOf comp.constr.a i).map fun q => q.2.val * colVal cols xs q.1).sum := by
  rw [rowOf_stdA, List.map_map]
  rfl

/-- What a point that satisfies the standard problem up to tolerances says about the pieces. -/
structure PointFacts (comp : ModelComp (Fl A)) (cols : List (Node (Fl A))) (ps : List (Piece (Fl A))) (δ ε η : ℝ) (v : Node (Fl A) → ℝ) : Prop where
  rows : ∀ p ∈ ps, p.isLin = true → ∀ b, p.comp.prop.b = Fl.num A b → (∀ q ∈ p.coefs, ∃ w, q.2 = Fl.num A w) →
    |(p.coefs.map fun q => q.2.val * v q.1).sum + b| ≤ δ
  bounds : ∀ p ∈ ps, ∀ d x b, p.bnd = some (d, x, Fl.num A b) → if d then v x ≤ b + ε else b - ε ≤ v x
  box : ∀ x ∈ cols, -(10 ^ 8) - ε ≤ v x ∧ v x ≤ 10 ^ 8 + ε
  integral : ∀ x ∈ cols, x.isInteger = true → ∃ z : ℤ, |v x - z| ≤ η

theorem SpFacts.pointFacts (hf : SpFacts H l h n m mod comp e ps cols xes ves sp) {q : Minlp (Fl A)} (hq : q ∈ sp.prob.views) {δ ε η : ℝ}
    {xs : List ℝ} : q.LinearWithin δ ε η xs ↔ xs.length = cols.length ∧ PointFacts comp cols ps δ ε η (colVal cols xs) := by
  have hv := hf.view hq
  have hnx : q.nx = cols.length := by simp [Minlp.nx, hv.a, stdA, Coo.cols]
  obtain ⟨k, -, hch⟩ := hf.mf.chain
  have hrows := hch.rows fun v es => ∀ y, v = Fl.num A y → (∀ e ∈ es, ∃ w, e.2 = Fl.num A w) →
    |(es.map fun q => q.2.val * colVal cols xs q.1).sum - y| ≤ δ
  have hrows' : (∀ i y, q.b[i]? = some (Fl.num A y) → (∀ e ∈ rowOf q.a.triplets i, ∃ v, e.2 = Fl.num A v) →
      |((rowOf q.a.triplets i).map fun e => e.2.val * xs.getD e.1 0).sum - y| ≤ δ) ↔
      ∀ p ∈ ps, p.isLin = true → ∀ b, p.comp.prop.b = Fl.num A b → (∀ q ∈ p.coefs, ∃ w, q.2 = Fl.num A w) →
        |(p.coefs.map fun q => q.2.val * colVal cols xs q.1).sum + b| ≤ δ := by
    have e1 : (∀ p ∈ ps, p.isLin = true → ∀ b, p.comp.prop.b = Fl.num A b → (∀ q ∈ p.coefs, ∃ w, q.2 = Fl.num A w) →
        |(p.coefs.map fun q => q.2.val * colVal cols xs q.1).sum + b| ≤ δ) ↔
        ∀ p ∈ ps, p.isLin = true → ∀ y, FloatOps.neg p.comp.prop.b = Fl.num A y → (∀ q ∈ p.coefs, ∃ w, q.2 = Fl.num A w) →
        |(p.coefs.map fun q => q.2.val * colVal cols xs q.1).sum - y| ≤ δ := by
      refine forall₃_congr fun p _ _ => ⟨fun hh y hy hn => ?_, fun hh b hb hn => ?_⟩
      · cases hb : p.comp.prop.b with
        | none => rw [hb] at hy; cases hy
        | some b =>
          rw [hb] at hy
          have : y = -b := by injection hy with hy; exact hy.symm
          have := hh b hb hn
          rwa [‹y = -b›, sub_neg_eq_add]
      · have := hh (-b) (by rw [hb]; rfl) hn
        rwa [sub_neg_eq_add] at this
    rw [e1, ← hrows, hv.a, hv.b, hf.mf.constr]
    have e3 : ∀ i, (rowOf (stdA cols comp).triplets i) = (entriesOf comp.constr.a i).map fun e => (colOf cols e.1, e.2) := rowOf_stdA cols comp
    have e4 : ∀ L : List (Node (Fl A) × Fl A), ((L.map fun e => (colOf cols e.1, e.2)).map fun e => e.2.val * xs.getD e.1 0) =
        L.map fun q => q.2.val * colVal cols xs q.1 := fun L => by rw [List.map_map]; rfl
    simp only [e3, e4, List.forall_mem_map, Nat.zero_add, hf.mf.constr, ConstrComp.concat, List.flatMap_map]
    exact ⟨fun hh i v hi y hy => hh i y (by rw [hi, hy]), fun hh i y hi => hh i _ hi y rfl⟩
  have hbnd : ∀ p ∈ ps, ∀ d x b, p.bnd = some (d, x, Fl.num A b) → x ∈ cols ∧ (x, Fl.num A b, p.c) ∈ (if d then comp.constr.u else comp.constr.l) := by
    intro p hp d x b hb
    cases d
    · have : (x, Fl.num A b, p.c) ∈ comp.constr.l := hf.mf.lower.2 ⟨p, hp, hb, rfl⟩
      exact ⟨hf.cmpOk.l _ this, this⟩
    · have : (x, Fl.num A b, p.c) ∈ comp.constr.u := hf.mf.upper.2 ⟨p, hp, hb, rfl⟩
      exact ⟨hf.cmpOk.u _ this, this⟩
  have hcolb : ∀ {i : ℕ} {x : Node (Fl A)}, cols[i]? = some x → x ∈ cols ∧ colOf cols x = i := by
    intro i x hi
    obtain ⟨hlt, rfl⟩ := List.getElem?_eq_some_iff.1 hi
    exact ⟨List.getElem_mem hlt, hf.cok.col_get hlt⟩
  constructor
  · rintro ⟨h1, h2, h3, h4, h5⟩
    rw [hnx] at h1
    refine ⟨h1, hrows'.1 h2, ?_, ?_, ?_⟩
    · intro p hp d x b hb
      obtain ⟨hxc, hmem⟩ := hbnd p hp d x b hb
      cases d
      · obtain ⟨lo, a1, a2⟩ := Fl.tightest_lo (A := A) (-(10 ^ 8)) comp.constr.l x
        have := h3 _ _ lo (colVal_get hf.cok h1 hxc) (by rw [hv.l, stdL, List.getElem?_map, (hf.cok.col hxc).2]; exact congrArg some a1)
        have hb' := ((a2 _).1 le_rfl).2 _ hmem (ptrEq_refl _) b rfl
        simp only [Bool.false_eq_true, if_false]
        linarith
      · obtain ⟨up, a1, a2⟩ := Fl.tightest_up (A := A) (10 ^ 8) comp.constr.u x
        have := h4 _ _ up (colVal_get hf.cok h1 hxc) (by rw [hv.u, stdU, List.getElem?_map, (hf.cok.col hxc).2]; exact congrArg some a1)
        have hb' := ((a2 _).1 le_rfl).2 _ hmem (ptrEq_refl _) b rfl
        simp only [if_true]
        linarith
    · intro x hxc
      obtain ⟨lo, a1, a2⟩ := Fl.tightest_lo (A := A) (-(10 ^ 8)) comp.constr.l x
      have g1 := h3 _ _ lo (colVal_get hf.cok h1 hxc) (by rw [hv.l, stdL, List.getElem?_map, (hf.cok.col hxc).2]; exact congrArg some a1)
      have g2 := ((a2 _).1 le_rfl).1
      obtain ⟨up, b1, b2⟩ := Fl.tightest_up (A := A) (10 ^ 8) comp.constr.u x
      have g3 := h4 _ _ up (colVal_get hf.cok h1 hxc) (by rw [hv.u, stdU, List.getElem?_map, (hf.cok.col hxc).2]; exact congrArg some b1)
      have g4 := ((b2 _).1 le_rfl).1
      exact ⟨by linarith, by linarith⟩
    · intro x hxc hi
      exact h5 _ _ (colVal_get hf.cok h1 hxc) (by rw [hv.p, stdP, List.getElem?_map, (hf.cok.col hxc).2]; simp [hi])
  · rintro ⟨h1, h2, h3, h4, h5⟩
    have hget : ∀ {i : ℕ} {x : Node (Fl A)} {y : ℝ}, cols[i]? = some x → xs[i]? = some y → y = colVal cols xs x := by
      intro i x y hi hy
      obtain ⟨hxc, hci⟩ := hcolb hi
      have := colVal_get hf.cok h1 hxc
      rw [hci, hy] at this
      injection this
    refine ⟨by rw [hnx, h1], hrows'.2 h2, ?_, ?_, ?_⟩
    · intro i y lo hy hlo
      rw [hv.l, stdL, List.getElem?_map, Option.map_eq_some_iff] at hlo
      obtain ⟨x, hx, hlo⟩ := hlo
      obtain ⟨lo', a1, a2⟩ := Fl.tightest_lo (A := A) (-(10 ^ 8)) comp.constr.l x
      have : lo' = lo := by
        have := a1.symm.trans hlo
        rwa [Fl.num_inj] at this
      subst this
      rw [hget hx hy]
      have : lo' ≤ colVal cols xs x + ε := by
        refine (a2 _).2 ⟨by linarith [(h4 x (hcolb hx).1).1], fun e he hex v hv' => ?_⟩
        obtain ⟨p, hp, hb, hc⟩ := hf.mf.lower.1 he
        have heq := ((hf.cok.good _ (hf.cmpOk.l e he)).ptrEq_iff (hf.cok.good _ (hcolb hx).1)).1 hex
        rw [heq, hv'] at hb
        have := h3 p hp _ _ _ hb
        simp only [Bool.false_eq_true, if_false] at this
        linarith
      linarith
    · intro i y up hy hup
      rw [hv.u, stdU, List.getElem?_map, Option.map_eq_some_iff] at hup
      obtain ⟨x, hx, hup⟩ := hup
      obtain ⟨up', a1, a2⟩ := Fl.tightest_up (A := A) (10 ^ 8) comp.constr.u x
      have : up' = up := by
        have := a1.symm.trans hup
        rwa [Fl.num_inj] at this
      subst this
      rw [hget hx hy]
      have : colVal cols xs x - ε ≤ up' := by
        refine (a2 _).2 ⟨by linarith [(h4 x (hcolb hx).1).2], fun e he hex v hv' => ?_⟩
        obtain ⟨p, hp, hb, hc⟩ := hf.mf.upper.1 he
        have heq := ((hf.cok.good _ (hf.cmpOk.u e he)).ptrEq_iff (hf.cok.good _ (hcolb hx).1)).1 hex
        rw [heq, hv'] at hb
        have := h3 p hp _ _ _ hb
        simp only [if_true] at this
        linarith
      linarith
    · intro i y hy hp
      rw [hv.p, stdP, List.getElem?_map, Option.map_eq_some_iff] at hp
      obtain ⟨x, hx, hi⟩ := hp
      rw [hget hx hy]
      exact h5 x (hcolb hx).1 hi

/-- The affine function that a constraint becomes, at values of the columns. -/
theorem SpFacts.pieceErr (hf : SpFacts H l h n m mod comp e ps cols xes ves sp) {p : Piece (Fl A)} (hpm : p ∈ ps) (hu : 0 ≤ u) {f g : LinForm}
    (hfs : p.c.lhs.Says f) (hgs : p.c.rhs.Says g) {t : ℕ → ℝ} {v : Node (Fl A) → ℝ} (hv : ∀ x, mod.HasVar x → v x = t x.id) :
    ∃ b, p.comp.prop.b = Fl.num A b ∧ (∀ q ∈ p.coefs, ∃ w, q.2 = Fl.num A w) ∧
      ((∃ x, p.kind = .bound x ∧ mod.HasVar x ∧ p.bnd = some (decide (p.c.kind = .lessEqual), x, Fl.num A (-b)) ∧
          |(v x + b) - (f.value t - g.value t)| ≤ pairErr u f g t) ∨
        (p.c.kind = .equal ∧ p.isLin = true ∧ p.slack = none ∧
          |((p.coefs.map fun q => q.2.val * v q.1).sum + b) - (f.value t - g.value t)| ≤ pairErr u f g t) ∨
        ∃ s, p.isLin = true ∧ p.slack = some s ∧ p.bnd = some (decide (p.c.kind = .lessEqual), s, Fl.num A 0) ∧
          |((p.coefs.map fun q => q.2.val * v q.1).sum + b + v s) - (f.value t - g.value t)| ≤ pairErr u f g t) := by
  obtain ⟨n1, m1, -, -, hok⟩ := hf.mf.piece hpm
  obtain ⟨b, hb, hnum, hnl, herr⟩ := hok.linErr hu hfs hgs t
  have hcv : ∀ q ∈ p.comp.prop.a, t q.1.id = v q.1 := by
    intro q hq
    have hk := (stdProperties_keys p.exp).2.1 q.1 (by rw [← hok.prop.2]; exact List.mem_map_of_mem hq)
    exact (hv _ (hf.mf.pieceVar hpm hk.1 hk.2)).symm
  have hsum : (p.comp.prop.a.map fun q => q.2.val * t q.1.id) = p.comp.prop.a.map fun q => q.2.val * v q.1 :=
    List.map_congr_left fun q hq => by rw [hcv q hq]
  rw [hsum] at herr
  refine ⟨b, hb, ?_, ?_⟩
  · intro q hq
    unfold Piece.coefs at hq
    split at hq
    · rename_i es hk
      exact hnum q ((hok.linEq es hk).mem_iff.1 hq)
    · rename_i es s hk
      rcases List.mem_append.1 hq with hq | hq
      · exact hnum q ((hok.linIneq es s hk).1.mem_iff.1 hq)
      · rw [List.mem_singleton] at hq
        subst hq
        exact ⟨-1, rfl⟩
    · cases hq
  · cases hk : p.kind with
    | bound x =>
      obtain ⟨w, hw, hw1⟩ := hok.bound x hk
      rw [Fl.one_def] at hw1
      have hw1 := Fl.eq_val hw1
      subst hw1
      refine .inl ⟨x, rfl, ?_, ?_, ?_⟩
      · have hkx := (stdProperties_keys p.exp).2.1 x (by rw [← hok.prop.2, hw]; simp [keysN])
        exact hf.mf.pieceVar hpm hkx.1 hkx.2
      · simp only [Piece.bnd, hk, hb]
        rfl
      · rw [hw] at herr
        simpa using herr
    | linEq es =>
      refine .inr (.inl ⟨hok.equal.2 (by simp [Piece.bnd, hk]), by simp [Piece.isLin, hk], by simp [Piece.slack, hk], ?_⟩)
      have hperm := hok.linEq es hk
      simp only [Piece.coefs, hk]
      rw [(hperm.map fun q => q.2.val * v q.1).sum_eq]
      exact herr
    | linIneq es s =>
      have hsl : p.slack = some s := by simp [Piece.slack, hk]
      refine .inr (.inr ⟨s, by simp [Piece.isLin, hk], hsl, Piece.bnd_slack hsl, ?_⟩)
      have hperm := (hok.linIneq es s hk).1
      simp only [Piece.coefs, hk, List.map_append, List.sum_append, List.map_cons, List.map_nil, List.sum_cons, List.sum_nil, add_zero]
      rw [(hperm.map fun q => q.2.val * v q.1).sum_eq]
      have e1 : (negOne : Fl A).val = -1 := rfl
      rw [e1]
      have e2 : ∀ X : ℝ, X + -1 * v s + b + v s = X + b := fun X => by ring
      rw [e2]
      exact herr
    | nlEq => simp [Piece.isNl, hk] at hnl
    | nlIneq s f' m1 => simp [Piece.isNl, hk] at hnl

end

end Verif
