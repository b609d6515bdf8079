import Verif.Spec.RoundingSolve64
import Verif.Proofs.Comp
import Verif.Proofs.Solve
import Verif.Proofs.Feas2
import Verif.Proofs.Bounds
import Verif.Props.RoundingStd64
import Verif.Props.ModelStd

/-! # Linear models in arithmetic with rounding errors -/

set_option linter.unusedSectionVars false
set_option linter.unusedSimpArgs false

namespace Verif

variable [Libm]

theorem WritesLinear64.coef_le64 {e : Node F64} {α μ : ℕ → ℝ} {β ν : ℝ} {k : ℕ} (h : WritesLinear64 e α β μ ν k) (i : ℕ) :
    |α i| ≤ μ i := by
  obtain ⟨y, -, -, h3⟩ := R64.writesLinear64_coef h (x := .var i "" .continuous) rfl
  exact h3

/-- The value of a formula may be computed over more variables. -/
theorem LinForm.value_eq64 {e : Node F64} {f : LinForm} (h : e.Says64 f) {S : Finset ℕ} (hS : f.vars ⊆ S) (t : ℕ → ℝ) :
    f.value t = ∑ i ∈ S, f.coef i * t i + f.const := by
  unfold LinForm.value
  congr 1
  refine Finset.sum_subset hS fun i _ hi => ?_
  have := h.1.coef_le64 i
  rw [h.2 i hi] at this
  rw [abs_eq_zero.1 (le_antisymm this (abs_nonneg _)), zero_mul]

theorem LinForm.mag_eq64 {e : Node F64} {f : LinForm} (h : e.Says64 f) {S : Finset ℕ} (hS : f.vars ⊆ S) (t : ℕ → ℝ) :
    f.mag t = ∑ i ∈ S, f.size i * |t i| + f.sizeConst := by
  unfold LinForm.mag
  congr 1
  refine Finset.sum_subset hS fun i _ hi => ?_
  rw [h.2 i hi, zero_mul]

theorem R64.writesLinear64_numeric {e : Node F64} {α μ : ℕ → ℝ} {β ν : ℝ} {k : ℕ} (h : WritesLinear64 e α β μ ν k) :
    ∀ q ∈ e.stdProperties.a, ∃ v, q.2.Is v := by
  intro q hq
  obtain ⟨hn, hv, -⟩ := stdProperties_keys e
  obtain ⟨y, h1, -⟩ := (C80_coefficients h).2 q.1 (hv q.1 (List.mem_map_of_mem hq)).1
  rw [getN_mem hn (show (q.1, q.2) ∈ _ from hq)] at h1
  exact ⟨y, h1⟩

section
variable {H : HashOrder} {l : Level} {h : Heap F64} {n m : ℕ}

/-- The affine function that a constraint becomes. -/
theorem Piece.Ok.linErr64 {p : Piece F64} (hp : p.Ok H l h n m) {f g : LinForm} (hf : p.c.lhs.Says64 f) (hg : p.c.rhs.Says64 g)
    (hR : PairInRange f g) (t : ℕ → ℝ) : ∃ b, p.comp.prop.b.Is b ∧ (∀ q ∈ p.comp.prop.a, ∃ v, q.2.Is v) ∧ p.isNl = false ∧
      |((p.comp.prop.a.map fun q => q.2.toReal * t q.1.id).sum + b) - (f.value t - g.value t)| ≤ pairErr uD f g t := by
  obtain ⟨k, hk⟩ := hp.exp
  have hw : WritesLinear64 p.exp (f.coef - g.coef) (f.const - g.const) (f.size + g.size) (f.sizeConst + g.sizeConst) (f.ops + g.ops + 2) :=
    .sub hf.1 hg.1 hR hk
  obtain ⟨b, hb, -⟩ := C80_constant hw
  have hprop := hp.prop.2
  have haff := hp.affine
  rw [hprop, (C80_coefficients hw).1] at haff
  have hS : ∀ i ∉ f.vars ∪ g.vars, (f.size + g.size) i = 0 := by
    intro i hi
    rw [Finset.mem_union, not_or] at hi
    rw [Pi.add_apply, hf.2 i hi.1, hg.2 i hi.2, add_zero]
  have key := C80_function hw hS t
  rw [hprop]
  refine ⟨b, hb, R64.writesLinear64_numeric hw, by simpa using haff.symm, ?_⟩
  rw [hb.toReal] at key
  have e1 : ∑ i ∈ f.vars ∪ g.vars, (f.coef - g.coef) i * t i + (f.const - g.const) = f.value t - g.value t := by
    rw [LinForm.value_eq64 hf (S := f.vars ∪ g.vars) Finset.subset_union_left, LinForm.value_eq64 hg (S := f.vars ∪ g.vars) Finset.subset_union_right]
    have : ∀ i, (f.coef - g.coef) i * t i = f.coef i * t i - g.coef i * t i := fun i => by rw [Pi.sub_apply, sub_mul]
    simp only [this, Finset.sum_sub_distrib]
    ring
  have e2 : ∑ i ∈ f.vars ∪ g.vars, (f.size + g.size) i * |t i| + (f.sizeConst + g.sizeConst) = f.mag t + g.mag t := by
    rw [LinForm.mag_eq64 hf (S := f.vars ∪ g.vars) Finset.subset_union_left, LinForm.mag_eq64 hg (S := f.vars ∪ g.vars) Finset.subset_union_right]
    have : ∀ i, (f.size + g.size) i * |t i| = f.size i * |t i| + g.size i * |t i| := fun i => by rw [Pi.add_apply, add_mul]
    simp only [this, Finset.sum_add_distrib]
    ring
  rw [e1, e2] at key
  exact key

end


theorem F64.is_toReal {a : F64} (h : a.isFinite = true) : a.Is a.toReal := by
  cases a <;> simp [F64.isFinite] at h
  exact ⟨_, rfl, rfl⟩

theorem F64.is_inf : (FloatOps.inf : F64).Is (10 ^ 8) := ⟨10 ^ 8, by show signedQ false _ = _; simp [signedQ], by norm_num⟩

theorem F64.above_is {b : F64} {y t : ℝ} (h : b.Is y) : b.Above t ↔ t ≤ y := by
  rw [← h.toReal]
  obtain ⟨q, h, -⟩ := h
  cases b <;> simp [F64.HasValue] at h
  exact Iff.rfl

theorem F64.below_is {b : F64} {y t : ℝ} (h : b.Is y) : b.Below t ↔ y ≤ t := by
  rw [← h.toReal]
  obtain ⟨q, h, -⟩ := h
  cases b <;> simp [F64.HasValue] at h
  exact Iff.rfl

theorem F64.le_fin {s t : Bool} {q r : ℚ} {hq hr} : ((F64.fin s q hq <=. F64.fin t r hr) = true) ↔ signedQ s q ≤ signedQ t r := by
  show (decide (signedQ s q < signedQ t r) || decide (signedQ s q = signedQ t r)) = true ↔ _
  rw [Bool.or_eq_true, decide_eq_true_eq, decide_eq_true_eq, le_iff_lt_or_eq]

theorem F64.above_of_le {a b : F64} {t : ℝ} (h : (a <=. b) = true) (ha : a.Above t) : b.Above t := by
  rcases a with _ | s | ⟨s, q, hq⟩ <;> rcases b with _ | s' | ⟨s', r, hr⟩
  · trivial
  · exact absurd h (by show ¬ (false = true); simp)
  · exact absurd h (by show ¬ (false = true); simp)
  · trivial
  · have ha : s = false := ha
    subst ha
    show s' = false
    have h : ((false && !s') || (false == s')) = true := h
    simpa using h
  · have ha : s = false := ha
    subst ha
    exact absurd h (by show ¬ (false = true); simp)
  · trivial
  · have h : ((!s') || false) = true := h
    show s' = false
    simpa using h
  · have h := F64.le_fin.1 h
    exact le_trans (show t ≤ ((signedQ s q : ℚ) : ℝ) from ha) (show ((signedQ s q : ℚ) : ℝ) ≤ (signedQ s' r : ℚ) from Rat.cast_le.2 h)

theorem F64.above_of_not_le {a b : F64} {t : ℝ} (hb : b ≠ .nan) (h : ¬ (a <=. b) = true) (hab : b.Above t) : a.Above t := by
  rcases a with _ | s | ⟨s, q, hq⟩ <;> rcases b with _ | s' | ⟨s', r, hr⟩
  · exact absurd rfl hb
  · trivial
  · trivial
  · exact absurd rfl hb
  · have h : ¬ ((s && !s') || (s == s')) = true := h
    show s = false
    have : s' = false := hab
    subst this
    simpa using h
  · have h : ¬ (s || false) = true := h
    show s = false
    simpa using h
  · exact absurd rfl hb
  · have : s' = false := hab
    subst this
    exact absurd (show (!false || false) = true by rfl) h
  · have h := (not_congr F64.le_fin).1 h
    exact le_trans (show t ≤ ((signedQ s' r : ℚ) : ℝ) from hab) (show ((signedQ s' r : ℚ) : ℝ) ≤ (signedQ s q : ℚ) from Rat.cast_le.2 (not_le.1 h).le)

theorem F64.below_of_le {a b : F64} {t : ℝ} (h : (a <=. b) = true) (ha : b.Below t) : a.Below t := by
  rcases a with _ | s | ⟨s, q, hq⟩ <;> rcases b with _ | s' | ⟨s', r, hr⟩
  · trivial
  · trivial
  · trivial
  · exact absurd h (by show ¬ (false = true); simp)
  · have ha : s' = true := ha
    subst ha
    show s = true
    have h : ((s && !true) || (s == true)) = true := h
    simpa using h
  · have h : (s || false) = true := h
    show s = true
    simpa using h
  · exact absurd h (by show ¬ (false = true); simp)
  · have ha : s' = true := ha
    subst ha
    exact absurd h (by show ¬ (false = true); simp)
  · have h := F64.le_fin.1 h
    exact le_trans (show ((signedQ s q : ℚ) : ℝ) ≤ (signedQ s' r : ℚ) from Rat.cast_le.2 h) (show ((signedQ s' r : ℚ) : ℝ) ≤ t from ha)

theorem F64.below_of_not_le {a b : F64} {t : ℝ} (ha : a ≠ .nan) (h : ¬ (a <=. b) = true) (hab : a.Below t) : b.Below t := by
  rcases a with _ | s | ⟨s, q, hq⟩ <;> rcases b with _ | s' | ⟨s', r, hr⟩
  · exact absurd rfl ha
  · exact absurd rfl ha
  · exact absurd rfl ha
  · trivial
  · have h : ¬ ((s && !s') || (s == s')) = true := h
    show s' = true
    have : s = true := hab
    subst this
    simpa using h
  · have : s = true := hab
    subst this
    exact absurd (show (true || false) = true by rfl) h
  · trivial
  · have h : ¬ ((!s') || false) = true := h
    show s' = true
    simpa using h
  · have h := (not_congr F64.le_fin).1 h
    exact le_trans (show ((signedQ s' r : ℚ) : ℝ) ≤ (signedQ s q : ℚ) from Rat.cast_le.2 (not_le.1 h).le) (show ((signedQ s q : ℚ) : ℝ) ≤ t from hab)

/-- The upper bound of a column: the least of the initial value and the numbers given. -/
theorem R64.tightest_up {init : F64} (hi : init ≠ .nan) (es : List (Node F64 × F64 × Constraint F64)) (x : Node F64) :
    (tightest (fun v c => v <=. c) init es x).1 ≠ .nan ∧
      ∀ t : ℝ, (tightest (fun v c => v <=. c) init es x).1.Above t ↔ init.Above t ∧ ∀ e ∈ es, e.1.ptrEq x = true → e.2.1.Above t := by
  induction es using List.reverseRecOn with
  | nil => exact ⟨hi, by simp [tightest]⟩
  | append_singleton es e ih =>
    obtain ⟨h1, h2⟩ := ih
    have hs : tightest (fun v c => v <=. c) init (es ++ [e]) x =
        if e.1.ptrEq x && (e.2.1 <=. (tightest (fun v c => v <=. c) init es x).1) then (e.2.1, some e.2.2)
        else tightest (fun v c => v <=. c) init es x := by simp [tightest, List.foldl_append]
    by_cases hb : (e.1.ptrEq x && (e.2.1 <=. (tightest (fun v c => v <=. c) init es x).1)) = true
    · rw [hs, if_pos hb]
      rw [Bool.and_eq_true] at hb
      refine ⟨fun hn => ?_, fun t => ?_⟩
      · rw [show e.2.1 = F64.nan from hn] at hb
        exact absurd hb.2 (by show ¬ (false = true); simp)
      constructor
      · intro ht
        obtain ⟨g1, g2⟩ := (h2 t).1 (F64.above_of_le hb.2 ht)
        refine ⟨g1, fun e' he' hx => ?_⟩
        rcases List.mem_append.1 he' with he' | he'
        · exact g2 e' he' hx
        · rw [List.mem_singleton] at he'
          subst he'
          exact ht
      · rintro ⟨g1, g2⟩
        exact g2 e (by simp) hb.1
    · rw [hs, if_neg hb]
      refine ⟨h1, fun t => ?_⟩
      rw [h2 t]
      refine and_congr_right fun hi' => ⟨fun hh e' he' hx => ?_, fun hh e' he' => hh e' (by simp [he'])⟩
      rcases List.mem_append.1 he' with he' | he'
      · exact hh e' he' hx
      · rw [List.mem_singleton] at he'
        subst he'
        rw [hx, Bool.true_and] at hb
        exact F64.above_of_not_le h1 hb ((h2 t).2 ⟨hi', hh⟩)

/-- The lower bound of a column. -/
theorem R64.tightest_lo {init : F64} (hi : init ≠ .nan) (es : List (Node F64 × F64 × Constraint F64)) (x : Node F64) :
    (tightest (fun v c => c <=. v) init es x).1 ≠ .nan ∧
      ∀ t : ℝ, (tightest (fun v c => c <=. v) init es x).1.Below t ↔ init.Below t ∧ ∀ e ∈ es, e.1.ptrEq x = true → e.2.1.Below t := by
  induction es using List.reverseRecOn with
  | nil => exact ⟨hi, by simp [tightest]⟩
  | append_singleton es e ih =>
    obtain ⟨h1, h2⟩ := ih
    have hs : tightest (fun v c => c <=. v) init (es ++ [e]) x =
        if e.1.ptrEq x && ((tightest (fun v c => c <=. v) init es x).1 <=. e.2.1) then (e.2.1, some e.2.2)
        else tightest (fun v c => c <=. v) init es x := by simp [tightest, List.foldl_append]
    by_cases hb : (e.1.ptrEq x && ((tightest (fun v c => c <=. v) init es x).1 <=. e.2.1)) = true
    · rw [hs, if_pos hb]
      rw [Bool.and_eq_true] at hb
      refine ⟨fun hn => ?_, fun t => ?_⟩
      · have hn : e.2.1 = F64.nan := hn
        rw [hn] at hb
        generalize (tightest (fun v c => c <=. v) init es x).1 = w at hb
        cases w <;> exact absurd hb.2 (by show ¬ (false = true); simp)
      constructor
      · intro ht
        obtain ⟨g1, g2⟩ := (h2 t).1 (F64.below_of_le hb.2 ht)
        refine ⟨g1, fun e' he' hx => ?_⟩
        rcases List.mem_append.1 he' with he' | he'
        · exact g2 e' he' hx
        · rw [List.mem_singleton] at he'
          subst he'
          exact ht
      · rintro ⟨g1, g2⟩
        exact g2 e (by simp) hb.1
    · rw [hs, if_neg hb]
      refine ⟨h1, fun t => ?_⟩
      rw [h2 t]
      refine and_congr_right fun hi' => ⟨fun hh e' he' hx => ?_, fun hh e' he' => hh e' (by simp [he'])⟩
      rcases List.mem_append.1 he' with he' | he'
      · exact hh e' he' hx
      · rw [List.mem_singleton] at he'
        subst he'
        rw [hx, Bool.true_and] at hb
        exact F64.below_of_not_le h1 hb ((h2 t).2 ⟨hi', hh⟩)

/-- The tightest of finite bounds is finite. -/
theorem R64.tightest_is {cmp : F64 → F64 → Bool} {init : F64} (hi : ∃ y, init.Is y) {es : List (Node F64 × F64 × Constraint F64)}
    (hes : ∀ e ∈ es, ∃ y, e.2.1.Is y) (x : Node F64) : ∃ y, (tightest cmp init es x).1.Is y := by
  induction es using List.reverseRecOn with
  | nil => exact hi
  | append_singleton es e ih =>
    have hs : tightest cmp init (es ++ [e]) x =
        if e.1.ptrEq x && cmp e.2.1 (tightest cmp init es x).1 then (e.2.1, some e.2.2)
        else tightest cmp init es x := by simp [tightest, List.foldl_append]
    rw [hs]
    split
    · exact hes e (by simp)
    · exact ih fun e he => hes e (by simp [he])

section
variable {H : HashOrder} {l : Level} {h : Heap F64} {n m : ℕ} {cols : List (Node F64)} {comp : ModelComp F64}
  {mod : Model F64} {e : Node F64} {ps : List (Piece F64)} {xes : List (Node F64 × F64)}
  {ves : List (Node F64 × ℕ)} {sp : StdProb F64}

/-- The value of a column at a point. -/
noncomputable def colVal64 (cols : List (Node F64)) (xs : List ℝ) (x : Node F64) : ℝ := xs.getD (colOf cols x) 0

theorem colVal64_get (hc : ColsOk l h cols) {xs : List ℝ} (hx : xs.length = cols.length) {x : Node F64} (hm : x ∈ cols) :
    xs[colOf cols x]? = some (colVal64 cols xs x) := by
  have := (hc.col hm).1
  rw [colVal64, List.getD_eq_getElem?_getD, List.getElem?_eq_getElem (by omega)]
  rfl

/-- What a point that satisfies the standard problem up to tolerances says about the pieces. -/
structure PointFacts64 (comp : ModelComp F64) (cols : List (Node F64)) (ps : List (Piece F64)) (δ ε η : ℝ) (v : Node F64 → ℝ) : Prop where
  rows : ∀ p ∈ ps, p.isLin = true → ∀ b, p.comp.prop.b.Is b → (∀ q ∈ p.coefs, ∃ w, q.2.Is w) →
    |(p.coefs.map fun q => q.2.toReal * v q.1).sum + b| ≤ δ
  bounds : ∀ p ∈ ps, ∀ d x b, p.bnd = some (d, x, b) → if d = true then b.Above (v x - ε) else b.Below (v x + ε)
  box : ∀ x ∈ cols, -(10 ^ 8) - ε ≤ v x ∧ v x ≤ 10 ^ 8 + ε
  integral : ∀ x ∈ cols, x.isInteger = true → ∃ z : ℤ, |v x - z| ≤ η

theorem F64.is_neg_iff {a : F64} {x : ℝ} : (FloatOps.neg a).Is x ↔ a.Is (-x) := by
  constructor
  · rintro ⟨q, h, rfl⟩
    cases a with
    | nan => exact absurd h (by simp [FloatOps.neg, F64.neg, F64.HasValue])
    | inf s => exact absurd h (by simp [FloatOps.neg, F64.neg, F64.HasValue])
    | fin s r hr =>
      refine ⟨signedQ s r, rfl, ?_⟩
      have h : signedQ (!s) r = q := h
      rw [← h]
      cases s <;> simp [signedQ]
  · intro h
    have := F64.is_neg h
    rwa [neg_neg] at this

theorem SpFacts.pointFacts64 (hf : SpFacts H l h n m mod comp e ps cols xes ves sp) {q : Minlp F64} (hq : q ∈ sp.prob.views) {δ ε η : ℝ}
    {xs : List ℝ} : q.LinearWithin64 δ ε η xs ↔ xs.length = cols.length ∧ PointFacts64 comp cols ps δ ε η (colVal64 cols xs) := by
  have hv := hf.view hq
  have hnx : q.nx = cols.length := by simp [Minlp.nx, hv.a, stdA, Coo.cols]
  obtain ⟨k, -, hch⟩ := hf.mf.chain
  have hrows := hch.rows fun v es => ∀ y, v.Is y → (∀ e ∈ es, ∃ w, e.2.Is w) →
    |(es.map fun q => q.2.toReal * colVal64 cols xs q.1).sum - y| ≤ δ
  have hrows' : (∀ (i : ℕ) b y, q.b[i]? = some b → b.Is y → (∀ e ∈ rowOf q.a.triplets i, ∃ v, e.2.Is v) →
      |((rowOf q.a.triplets i).map fun e => e.2.toReal * xs.getD e.1 0).sum - y| ≤ δ) ↔
      ∀ p ∈ ps, p.isLin = true → ∀ b, p.comp.prop.b.Is b → (∀ q ∈ p.coefs, ∃ w, q.2.Is w) →
        |(p.coefs.map fun q => q.2.toReal * colVal64 cols xs q.1).sum + b| ≤ δ := by
    have e1 : (∀ p ∈ ps, p.isLin = true → ∀ b, p.comp.prop.b.Is b → (∀ q ∈ p.coefs, ∃ w, q.2.Is w) →
        |(p.coefs.map fun q => q.2.toReal * colVal64 cols xs q.1).sum + b| ≤ δ) ↔
        ∀ p ∈ ps, p.isLin = true → ∀ y, (FloatOps.neg p.comp.prop.b).Is y → (∀ q ∈ p.coefs, ∃ w, q.2.Is w) →
        |(p.coefs.map fun q => q.2.toReal * colVal64 cols xs q.1).sum - y| ≤ δ := by
      refine forall₃_congr fun p _ _ => ⟨fun hh y hy hn => ?_, fun hh b hb hn => ?_⟩
      · have := hh (-y) (F64.is_neg_iff.1 hy) hn
        rwa [← sub_eq_add_neg] at this
      · have := hh (-b) (F64.is_neg hb) hn
        rwa [sub_neg_eq_add] at this
    rw [e1, ← hrows, hv.a, hv.b, hf.mf.constr]
    have e3 : ∀ i, (rowOf (stdA cols comp).triplets i) = (entriesOf comp.constr.a i).map fun e => (colOf cols e.1, e.2) := rowOf_stdA cols comp
    have e4 : ∀ L : List (Node F64 × F64), ((L.map fun e => (colOf cols e.1, e.2)).map fun e => e.2.toReal * xs.getD e.1 0) =
        L.map fun q => q.2.toReal * colVal64 cols xs q.1 := fun L => by rw [List.map_map]; rfl
    simp only [e3, e4, List.forall_mem_map, Nat.zero_add, hf.mf.constr, ConstrComp.concat, List.flatMap_map]
    exact ⟨fun hh i v hi y hy => hh i v y hi hy, fun hh i b y hi hy => hh i b hi y hy⟩
  have hbnd : ∀ p ∈ ps, ∀ d x b, p.bnd = some (d, x, b) → x ∈ cols ∧ (x, b, p.c) ∈ (if d = true then comp.constr.u else comp.constr.l) := by
    intro p hp d x b hb
    cases d
    · have : (x, b, p.c) ∈ comp.constr.l := hf.mf.lower.2 ⟨p, hp, hb, rfl⟩
      exact ⟨hf.cmpOk.l _ this, this⟩
    · have : (x, b, p.c) ∈ comp.constr.u := hf.mf.upper.2 ⟨p, hp, hb, rfl⟩
      exact ⟨hf.cmpOk.u _ this, this⟩
  have hcolb : ∀ {i : ℕ} {x : Node F64}, cols[i]? = some x → x ∈ cols ∧ colOf cols x = i := by
    intro i x hi
    obtain ⟨hlt, rfl⟩ := List.getElem?_eq_some_iff.1 hi
    exact ⟨List.getElem_mem hlt, hf.cok.col_get hlt⟩
  have hpi : (FloatOps.inf : F64) ≠ .nan := fun h => by cases h
  have hni : (FloatOps.neg FloatOps.inf : F64) ≠ .nan := fun h => by cases h
  have hlo := fun x => (R64.tightest_lo hni comp.constr.l x).2
  have hup := fun x => (R64.tightest_up hpi comp.constr.u x).2
  simp only [F64.above_is F64.is_inf] at hup
  simp only [F64.below_is (F64.is_neg F64.is_inf)] at hlo
  constructor
  · rintro ⟨h1, h2, h3, h4, h5⟩
    rw [hnx] at h1
    refine ⟨h1, hrows'.1 h2, ?_, ?_, ?_⟩
    · intro p hp d x b hb
      obtain ⟨hxc, hmem⟩ := hbnd p hp d x b hb
      cases d
      · have := h3 _ _ _ (colVal64_get hf.cok h1 hxc) (by rw [hv.l, stdL, List.getElem?_map, (hf.cok.col hxc).2]; rfl)
        exact ((hlo x _).1 this).2 _ hmem (ptrEq_refl _)
      · have := h4 _ _ _ (colVal64_get hf.cok h1 hxc) (by rw [hv.u, stdU, List.getElem?_map, (hf.cok.col hxc).2]; rfl)
        exact ((hup x _).1 this).2 _ hmem (ptrEq_refl _)
    · intro x hxc
      have g1 := h3 _ _ _ (colVal64_get hf.cok h1 hxc) (by rw [hv.l, stdL, List.getElem?_map, (hf.cok.col hxc).2]; rfl)
      have g2 := ((hlo x _).1 g1).1
      have g3 := h4 _ _ _ (colVal64_get hf.cok h1 hxc) (by rw [hv.u, stdU, List.getElem?_map, (hf.cok.col hxc).2]; rfl)
      have g4 := ((hup x _).1 g3).1
      exact ⟨by linarith, by linarith⟩
    · intro x hxc hi
      exact h5 _ _ (colVal64_get hf.cok h1 hxc) (by rw [hv.p, stdP, List.getElem?_map, (hf.cok.col hxc).2]; simp [hi])
  · rintro ⟨h1, h2, h3, h4, h5⟩
    have hget : ∀ {i : ℕ} {x : Node F64} {y : ℝ}, cols[i]? = some x → xs[i]? = some y → y = colVal64 cols xs x := by
      intro i x y hi hy
      obtain ⟨hxc, hci⟩ := hcolb hi
      have := colVal64_get hf.cok h1 hxc
      rw [hci, hy] at this
      injection this
    refine ⟨by rw [hnx, h1], hrows'.2 h2, ?_, ?_, ?_⟩
    · intro i y lo hy hlo'
      rw [hv.l, stdL, List.getElem?_map, Option.map_eq_some_iff] at hlo'
      obtain ⟨x, hx, rfl⟩ := hlo'
      rw [hget hx hy]
      refine (hlo x _).2 ⟨by linarith [(h4 x (hcolb hx).1).1], fun e he hex => ?_⟩
      obtain ⟨p, hp, hb, hc⟩ := hf.mf.lower.1 he
      have heq := ((hf.cok.good _ (hf.cmpOk.l e he)).ptrEq_iff (hf.cok.good _ (hcolb hx).1)).1 hex
      rw [heq] at hb
      exact h3 p hp _ _ _ hb
    · intro i y up hy hup'
      rw [hv.u, stdU, List.getElem?_map, Option.map_eq_some_iff] at hup'
      obtain ⟨x, hx, rfl⟩ := hup'
      rw [hget hx hy]
      refine (hup x _).2 ⟨by linarith [(h4 x (hcolb hx).1).2], fun e he hex => ?_⟩
      obtain ⟨p, hp, hb, hc⟩ := hf.mf.upper.1 he
      have heq := ((hf.cok.good _ (hf.cmpOk.u e he)).ptrEq_iff (hf.cok.good _ (hcolb hx).1)).1 hex
      rw [heq] at hb
      exact h3 p hp _ _ _ hb
    · intro i y hy hp
      rw [hv.p, stdP, List.getElem?_map, Option.map_eq_some_iff] at hp
      obtain ⟨x, hx, hi⟩ := hp
      rw [hget hx hy]
      exact h5 x (hcolb hx).1 hi

/-- The affine function that a constraint becomes, at values of the columns. -/
theorem SpFacts.pieceErr64 (hf : SpFacts H l h n m mod comp e ps cols xes ves sp) {p : Piece F64} (hpm : p ∈ ps) {f g : LinForm}
    (hfs : p.c.lhs.Says64 f) (hgs : p.c.rhs.Says64 g) (hR : PairInRange f g) {t : ℕ → ℝ} {v : Node F64 → ℝ} (hv : ∀ x, mod.HasVar x → v x = t x.id) :
    ∃ b, p.comp.prop.b.Is b ∧ (∀ q ∈ p.coefs, ∃ w, q.2.Is w) ∧
      ((∃ x, p.kind = .bound x ∧ mod.HasVar x ∧ p.bnd = some (decide (p.c.kind = .lessEqual), x, FloatOps.neg p.comp.prop.b) ∧
          |(v x + b) - (f.value t - g.value t)| ≤ pairErr uD f g t) ∨
        (p.c.kind = .equal ∧ p.isLin = true ∧ p.slack = none ∧
          |((p.coefs.map fun q => q.2.toReal * v q.1).sum + b) - (f.value t - g.value t)| ≤ pairErr uD f g t) ∨
        ∃ s, p.isLin = true ∧ p.slack = some s ∧ p.bnd = some (decide (p.c.kind = .lessEqual), s, zero) ∧
          |((p.coefs.map fun q => q.2.toReal * v q.1).sum + b + v s) - (f.value t - g.value t)| ≤ pairErr uD f g t) := by
  obtain ⟨n1, m1, -, -, hok⟩ := hf.mf.piece hpm
  obtain ⟨b, hb, hnum, hnl, herr⟩ := hok.linErr64 hfs hgs hR t
  have hcv : ∀ q ∈ p.comp.prop.a, t q.1.id = v q.1 := by
    intro q hq
    have hk := (stdProperties_keys p.exp).2.1 q.1 (by rw [← hok.prop.2]; exact List.mem_map_of_mem hq)
    exact (hv _ (hf.mf.pieceVar hpm hk.1 hk.2)).symm
  have hsum : (p.comp.prop.a.map fun q => q.2.toReal * t q.1.id) = p.comp.prop.a.map fun q => q.2.toReal * v q.1 :=
    List.map_congr_left fun q hq => by rw [hcv q hq]
  rw [hsum] at herr
  refine ⟨b, hb, ?_, ?_⟩
  · intro q hq
    unfold Piece.coefs at hq
    split at hq
    · rename_i es hk
      exact hnum q ((hok.linEq es hk).mem_iff.1 hq)
    · rename_i es s hk
      rcases List.mem_append.1 hq with hq | hq
      · exact hnum q ((hok.linIneq es s hk).1.mem_iff.1 hq)
      · rw [List.mem_singleton] at hq
        subst hq
        exact ⟨-1, F64.is_negOne⟩
    · cases hq
  · cases hk : p.kind with
    | bound x =>
      obtain ⟨w, hw, hw1⟩ := hok.bound x hk
      have hw1 := (F64.is_eqo.1 hw1).toReal
      refine .inl ⟨x, rfl, ?_, ?_, ?_⟩
      · have hkx := (stdProperties_keys p.exp).2.1 x (by rw [← hok.prop.2, hw]; simp [keysN])
        exact hf.mf.pieceVar hpm hkx.1 hkx.2
      · simp only [Piece.bnd, hk]
      · rw [hw] at herr
        simpa [hw1] using herr
    | linEq es =>
      refine .inr (.inl ⟨hok.equal.2 (by simp [Piece.bnd, hk]), by simp [Piece.isLin, hk], by simp [Piece.slack, hk], ?_⟩)
      have hperm := hok.linEq es hk
      simp only [Piece.coefs, hk]
      rw [(hperm.map fun q => q.2.toReal * v q.1).sum_eq]
      exact herr
    | linIneq es s =>
      have hsl : p.slack = some s := by simp [Piece.slack, hk]
      refine .inr (.inr ⟨s, by simp [Piece.isLin, hk], hsl, Piece.bnd_slack hsl, ?_⟩)
      have hperm := (hok.linIneq es s hk).1
      simp only [Piece.coefs, hk, List.map_append, List.sum_append, List.map_cons, List.map_nil, List.sum_cons, List.sum_nil, add_zero]
      rw [(hperm.map fun q => q.2.toReal * v q.1).sum_eq]
      have e1 : (negOne : F64).toReal = -1 := F64.is_negOne.toReal
      rw [e1]
      have e2 : ∀ X : ℝ, X + -1 * v s + b + v s = X + b := fun X => by ring
      rw [e2]
      exact herr
    | nlEq => simp [Piece.isNl, hk] at hnl
    | nlIneq s f' m1 => simp [Piece.isNl, hk] at hnl

end

end Verif
