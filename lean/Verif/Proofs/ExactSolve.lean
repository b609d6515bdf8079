import Verif.Spec.ExactSolve
import Verif.Proofs.ExactData
import Verif.Proofs.Comp
import Verif.Proofs.Solve
import Verif.Proofs.Feas2
import Verif.Proofs.Bounds
import Verif.Props.ExactData
import Verif.Props.ModelStd
import Mathlib.Algebra.BigOperators.Ring.Finset

/-! # Linear models in double precision, without rounding -/

set_option linter.unusedSectionVars false
set_option linter.unusedSimpArgs false

namespace Verif

variable [Libm]

theorem F64.val_of {a : F64} {x : ℚ} (h : a.HasValue x) : a.val = x := by
  rw [F64.val, F64.value_iff.2 h]
  rfl

theorem F64.val_zero : (zero : F64).val = 0 := F64.val_of F64.zero_value

theorem F64.val_negOne : (negOne : F64).val = -1 := F64.val_of F64.negOne_value

theorem ptrEq_var_iffD {x : Node F64} (hx : x.isVar = true) {y : Node F64} (hy : y.isVar = true) : x.ptrEq y = true ↔ x.id = y.id := by
  cases x <;> simp [Node.isVar] at hx
  cases y <;> simp [Node.isVar] at hy
  simp [Node.ptrEq, Node.tag, Node.id]

/-- The value of a list of coefficients at a point. -/
theorem list_sumD (S : Finset ℕ) (t : ℕ → ℚ) : ∀ (m : List (Node F64 × F64)), NodupP (keysN m) → (∀ q ∈ m, q.1.isVar = true) →
    (∀ q ∈ m, q.1.id ∉ S → q.2.val = 0) →
    (m.map fun q => q.2.val * t q.1.id).sum = ∑ i ∈ S, ((getN m (.var i "" .continuous)).getD zero).val * t i := by
  intro m
  induction m with
  | nil => intro _ _ _; simp [getN, F64.val_zero]
  | cons q m ih =>
    intro hn hv hS
    obtain ⟨x, c⟩ := q
    have hxv : x.isVar = true := hv (x, c) (by simp)
    rw [List.map_cons, List.sum_cons, ih (List.pairwise_cons.1 hn).2 (fun q hq => hv q (by simp [hq])) fun q hq => hS q (by simp [hq])]
    have hself : getN m (.var x.id "" .continuous) = none := getN_none_of fun y hy => by
      have h1 := (List.pairwise_cons.1 hn).1 y hy
      obtain ⟨q, hq, rfl⟩ := List.mem_map.1 hy
      have hyv : q.1.isVar = true := hv q (by simp [hq])
      by_contra hne
      rw [Bool.not_eq_false, ptrEq_var_iffD hyv rfl] at hne
      rw [(ptrEq_var_iffD hxv hyv).2 hne.symm] at h1
      cases h1
    have hget : ∀ i : ℕ, getN ((x, c) :: m) (.var i "" .continuous) = if x.id = i then some c else getN m (.var i "" .continuous) := by
      intro i
      simp only [getN]
      by_cases hi : x.id = i
      · rw [if_pos hi, if_pos ((ptrEq_var_iffD hxv (y := .var i "" .continuous) rfl).2 hi)]
      · rw [if_neg hi, if_neg (fun h => hi ((ptrEq_var_iffD hxv (y := .var i "" .continuous) rfl).1 h))]
    have hsplit : ∀ i ∈ S, ((getN ((x, c) :: m) (.var i "" .continuous)).getD zero).val * t i =
        (if i = x.id then c.val * t x.id else 0) + ((getN m (.var i "" .continuous)).getD zero).val * t i := by
      intro i _
      rw [hget]
      by_cases hi : x.id = i
      · subst hi
        simp [hself, F64.val_zero]
      · simp [hi, Ne.symm hi]
    rw [Finset.sum_congr rfl hsplit, Finset.sum_add_distrib, Finset.sum_ite_eq']
    by_cases hxS : x.id ∈ S
    · simp [hxS]
    · have hc0 : c.val = 0 := hS (x, c) (by simp) hxS
      simp [hxS, hc0]

/-- The sum of the terms, by variable. -/
theorem terms_sum (t : ℕ → ℚ) : ∀ (L : List (ℕ × ℚ)) (S : Finset ℕ), (∀ a ∈ L, a.1 ∈ S) →
    (L.map fun a => a.2 * t a.1).sum = ∑ i ∈ S, termCoef i L * t i := by
  intro L
  induction L with
  | nil => intro S _; simp [termCoef]
  | cons a L ih =>
    intro S hS
    have h1 : ∀ i, termCoef i (a :: L) * t i = (if i = a.1 then a.2 * t a.1 else 0) + termCoef i L * t i := by
      intro i
      unfold termCoef
      by_cases hi : a.1 = i
      · subst hi; simp [add_mul]
      · simp [hi, Ne.symm hi]
    rw [List.map_cons, List.sum_cons, ih S fun b hb => hS b (by simp [hb])]
    simp only [h1, Finset.sum_add_distrib, Finset.sum_ite_eq', hS a (by simp), if_true]

theorem writesTerms_numeric {e : Node F64} {L : List (ℕ × ℚ)} {q : ℚ} (h : WritesTerms e L q) (hs : ∀ i, SumsExact L i) :
    ∀ p ∈ e.stdProperties.a, p.2.HasValue (termCoef p.1.id L) := by
  intro p hp
  obtain ⟨hn, hv, -⟩ := stdProperties_keys e
  have := (C75_coefficients h).2.2 p.1 (hv p.1 (List.mem_map_of_mem hp)).1 (hs _)
  rwa [getN_mem hn (show (p.1, p.2) ∈ _ from hp)] at this

/-- The linear function with the extracted coefficients. -/
theorem writesTerms_function {e : Node F64} {L : List (ℕ × ℚ)} {q : ℚ} (h : WritesTerms e L q) (hs : ∀ i, SumsExact L i) (t : ℕ → ℚ) :
    (e.stdProperties.a.map fun p => p.2.val * t p.1.id).sum + e.stdProperties.b.val = (L.map fun a => a.2 * t a.1).sum + q := by
  obtain ⟨hn, hv, -⟩ := stdProperties_keys e
  have hvar : ∀ p ∈ e.stdProperties.a, p.1.isVar = true := fun p hp => (hv p.1 (List.mem_map_of_mem hp)).1
  rw [F64.val_of (C75_coefficients h).2.1, list_sumD (L.map Prod.fst).toFinset t _ hn hvar, terms_sum t L (L.map Prod.fst).toFinset]
  · congr 1
    refine Finset.sum_congr rfl fun i _ => ?_
    rw [F64.val_of ((C75_coefficients h).2.2 (.var i "" .continuous) rfl (hs i))]
    rfl
  · intro a ha
    rw [List.mem_toFinset]
    exact List.mem_map_of_mem ha
  · intro p hp hps
    rw [F64.val_of (writesTerms_numeric h hs p hp)]
    rw [List.mem_toFinset] at hps
    unfold termCoef
    rw [List.filter_eq_nil_iff.2]
    · rfl
    · intro a ha
      simp only [decide_eq_true_eq]
      intro he
      exact hps (he ▸ List.mem_map_of_mem ha)

section
variable {H : HashOrder} {l : Level} {h : Heap F64} {n m : ℕ}

theorem scaleTerms_sum_neg (L : List (ℕ × ℚ)) (t : ℕ → ℚ) :
    ((scaleTerms (-1) L).map fun a => a.2 * t a.1).sum = -(L.map fun a => a.2 * t a.1).sum := by
  induction L with
  | nil => simp [scaleTerms]
  | cons a L ih =>
    have h1 : scaleTerms (-1) (a :: L) = (a.1, -1 * a.2) :: scaleTerms (-1) L := rfl
    rw [h1, List.map_cons, List.sum_cons, List.map_cons, List.sum_cons, ih]
    ring

theorem sumsExact_neg {L : List (ℕ × ℚ)} {i : ℕ} (h : SumsExact L i) : SumsExact (scaleTerms (-1) L) i := by
  intro l hl
  obtain ⟨l', hl', rfl⟩ : ∃ l', l' <+: L ∧ l = scaleTerms (-1) l' := by
    refine ⟨L.take l.length, List.take_prefix _ _, ?_⟩
    have h1 := List.prefix_iff_eq_take.1 hl
    rw [scaleTerms, ← List.map_take] at h1
    exact h1
  rw [termCoef_scale, neg_one_mul]
  exact (h l' hl').neg

/-- The affine function that a constraint becomes. -/
theorem Piece.Ok.linD {p : Piece F64} (hp : p.Ok H l h n m) {f g : TermForm} (hc : p.c.SaysD f g) (t : ℕ → ℚ) :
    ∃ b, p.comp.prop.b.HasValue b ∧ (∀ q ∈ p.comp.prop.a, ∃ v, q.2.HasValue v) ∧ p.isNl = false ∧
      (p.comp.prop.a.map fun q => q.2.val * t q.1.id).sum + b = f.value t - g.value t := by
  obtain ⟨k, hk⟩ := hp.exp
  have hw : WritesTerms p.exp (f.terms ++ scaleTerms (-1) g.terms) (f.const - g.const) := .sub hc.lhs hc.rhs hc.const hk
  have hb := (C75_coefficients hw).2.1
  have hprop := hp.prop.2
  have haff := hp.affine
  rw [hprop, (C75_coefficients hw).1] at haff
  have key := writesTerms_function hw hc.sums t
  rw [hprop]
  refine ⟨_, hb, fun q hq => ⟨_, writesTerms_numeric hw hc.sums q hq⟩, by simpa using haff.symm, ?_⟩
  rw [F64.val_of hb] at key
  rw [key]
  unfold TermForm.value
  rw [List.map_append, List.sum_append, scaleTerms_sum_neg]
  ring

end

/-! ## Bounds -/

theorem F64.atMost_le {a b : F64} {x : ℚ} (h : (a <=. b) = true) (hx : F64.AtMost x a) : F64.AtMost x b := by
  have h' : (F64.lt a b || F64.eq a b) = true := h
  cases a with
  | nan => cases b <;> simp [F64.lt, F64.eq] at h'
  | inf s =>
    have hs : s = false := hx
    subst hs
    cases b <;> simp_all [F64.lt, F64.eq, F64.AtMost]
  | fin s q hq =>
    have hx : x ≤ signedQ s q := hx
    cases b with
    | nan => trivial
    | inf t => cases t <;> simp_all [F64.lt, F64.eq, F64.AtMost]
    | fin t r hr =>
      simp only [F64.lt, F64.eq, Bool.or_eq_true, decide_eq_true_eq] at h'
      show x ≤ signedQ t r
      rcases h' with h' | h' <;> linarith

theorem F64.atMost_of_not_le {a b : F64} {x : ℚ} (hb : b ≠ .nan) (h : ¬ (a <=. b) = true) (hx : F64.AtMost x b) : F64.AtMost x a := by
  have h' : ¬ (F64.lt a b || F64.eq a b) = true := h
  cases a with
  | nan => trivial
  | inf s =>
    cases s
    · rfl
    · cases b with
      | nan => exact absurd rfl hb
      | inf t => cases t <;> simp [F64.lt, F64.eq] at h'
      | fin t r hr => simp [F64.lt] at h'
  | fin s q hq =>
    cases b with
    | nan => exact absurd rfl hb
    | inf t =>
      have ht : t = false := hx
      subst ht
      simp [F64.lt] at h'
    | fin t r hr =>
      have hx : x ≤ signedQ t r := hx
      simp only [F64.lt, F64.eq, Bool.or_eq_true, decide_eq_true_eq, not_or, not_lt] at h'
      show x ≤ signedQ s q
      linarith [h'.1]

theorem F64.atLeast_le {a b : F64} {x : ℚ} (h : (a <=. b) = true) (hx : F64.AtLeast x b) : F64.AtLeast x a := by
  have h' : (F64.lt a b || F64.eq a b) = true := h
  cases b with
  | nan => cases a <;> simp [F64.lt, F64.eq] at h'
  | inf s =>
    have hs : s = true := hx
    subst hs
    cases a <;> simp_all [F64.lt, F64.eq, F64.AtLeast]
  | fin s q hq =>
    have hx : signedQ s q ≤ x := hx
    cases a with
    | nan => trivial
    | inf t => cases t <;> simp_all [F64.lt, F64.eq, F64.AtLeast]
    | fin t r hr =>
      simp only [F64.lt, F64.eq, Bool.or_eq_true, decide_eq_true_eq] at h'
      show signedQ t r ≤ x
      rcases h' with h' | h' <;> linarith

theorem F64.atLeast_of_not_le {a b : F64} {x : ℚ} (ha : a ≠ .nan) (h : ¬ (a <=. b) = true) (hx : F64.AtLeast x a) : F64.AtLeast x b := by
  have h' : ¬ (F64.lt a b || F64.eq a b) = true := h
  cases b with
  | nan => trivial
  | inf s =>
    cases s
    · cases a with
      | nan => exact absurd rfl ha
      | inf t => cases t <;> simp [F64.lt, F64.eq] at h'
      | fin t r hr => simp [F64.lt] at h'
    · rfl
  | fin s q hq =>
    cases a with
    | nan => exact absurd rfl ha
    | inf t =>
      have ht : t = true := hx
      subst ht
      simp [F64.lt] at h'
    | fin t r hr =>
      have hx : signedQ t r ≤ x := hx
      simp only [F64.lt, F64.eq, Bool.or_eq_true, decide_eq_true_eq, not_or, not_lt] at h'
      show signedQ s q ≤ x
      linarith [h'.1]

theorem F64.atMost_value {a : F64} {x y : ℚ} (h : a.HasValue y) : F64.AtMost x a ↔ x ≤ y := by
  cases a with
  | nan => exact h.elim
  | inf => exact h.elim
  | fin s q hq => rw [← show signedQ s q = y from h]; rfl

theorem F64.atLeast_value {a : F64} {x y : ℚ} (h : a.HasValue y) : F64.AtLeast x a ↔ y ≤ x := by
  cases a with
  | nan => exact h.elim
  | inf => exact h.elim
  | fin s q hq => rw [← show signedQ s q = y from h]; rfl

theorem F64.nan_le {a b : F64} (h : (a <=. b) = true) : a ≠ .nan ∧ b ≠ .nan := by
  have h' : (F64.lt a b || F64.eq a b) = true := h
  constructor <;> rintro rfl
  · cases b <;> simp [F64.lt, F64.eq] at h'
  · cases a <;> simp [F64.lt, F64.eq] at h'

/-- The upper bound of a column: the least of the initial value and the numbers given. -/
theorem F64.tightest_up {init : F64} (hi : init ≠ .nan) (es : List (Node F64 × F64 × Constraint F64)) (x : Node F64) :
    (tightest (fun v c => v <=. c) init es x).1 ≠ .nan ∧
      ∀ t : ℚ, F64.AtMost t (tightest (fun v c => v <=. c) init es x).1 ↔ F64.AtMost t init ∧ ∀ e ∈ es, e.1.ptrEq x = true → F64.AtMost t e.2.1 := by
  induction es using List.reverseRecOn with
  | nil => exact ⟨hi, by simp [tightest]⟩
  | append_singleton es e ih =>
    obtain ⟨h1, h2⟩ := ih
    have hs : tightest (fun v c => v <=. c) init (es ++ [e]) x =
        if e.1.ptrEq x && (e.2.1 <=. (tightest (fun v c => v <=. c) init es x).1) then (e.2.1, some e.2.2)
        else tightest (fun v c => v <=. c) init es x := by simp [tightest, List.foldl_append]
    by_cases hb : (e.1.ptrEq x && (e.2.1 <=. (tightest (fun v c => v <=. c) init es x).1)) = true
    · rw [hs, if_pos hb]
      rw [Bool.and_eq_true] at hb
      refine ⟨(F64.nan_le hb.2).1, fun t => ?_⟩
      constructor
      · intro ht
        obtain ⟨g1, g2⟩ := (h2 t).1 (F64.atMost_le hb.2 ht)
        refine ⟨g1, fun e' he' hx => ?_⟩
        rcases List.mem_append.1 he' with he' | he'
        · exact g2 e' he' hx
        · rw [List.mem_singleton] at he'
          subst he'
          exact ht
      · rintro ⟨g1, g2⟩
        exact g2 e (by simp) hb.1
    · rw [hs, if_neg hb]
      refine ⟨h1, fun t => ?_⟩
      constructor
      · intro ht
        obtain ⟨g1, g2⟩ := (h2 t).1 ht
        refine ⟨g1, fun e' he' hx => ?_⟩
        rcases List.mem_append.1 he' with he' | he'
        · exact g2 e' he' hx
        · rw [List.mem_singleton] at he'
          subst he'
          rw [hx, Bool.true_and] at hb
          exact F64.atMost_of_not_le h1 hb ht
      · rintro ⟨g1, g2⟩
        exact (h2 t).2 ⟨g1, fun e' he' => g2 e' (by simp [he'])⟩

/-- The lower bound of a column. -/
theorem F64.tightest_lo {init : F64} (hi : init ≠ .nan) (es : List (Node F64 × F64 × Constraint F64)) (x : Node F64) :
    (tightest (fun v c => c <=. v) init es x).1 ≠ .nan ∧
      ∀ t : ℚ, F64.AtLeast t (tightest (fun v c => c <=. v) init es x).1 ↔ F64.AtLeast t init ∧ ∀ e ∈ es, e.1.ptrEq x = true → F64.AtLeast t e.2.1 := by
  induction es using List.reverseRecOn with
  | nil => exact ⟨hi, by simp [tightest]⟩
  | append_singleton es e ih =>
    obtain ⟨h1, h2⟩ := ih
    have hs : tightest (fun v c => c <=. v) init (es ++ [e]) x =
        if e.1.ptrEq x && ((tightest (fun v c => c <=. v) init es x).1 <=. e.2.1) then (e.2.1, some e.2.2)
        else tightest (fun v c => c <=. v) init es x := by simp [tightest, List.foldl_append]
    by_cases hb : (e.1.ptrEq x && ((tightest (fun v c => c <=. v) init es x).1 <=. e.2.1)) = true
    · rw [hs, if_pos hb]
      rw [Bool.and_eq_true] at hb
      refine ⟨(F64.nan_le hb.2).2, fun t => ?_⟩
      constructor
      · intro ht
        obtain ⟨g1, g2⟩ := (h2 t).1 (F64.atLeast_le hb.2 ht)
        refine ⟨g1, fun e' he' hx => ?_⟩
        rcases List.mem_append.1 he' with he' | he'
        · exact g2 e' he' hx
        · rw [List.mem_singleton] at he'
          subst he'
          exact ht
      · rintro ⟨g1, g2⟩
        exact g2 e (by simp) hb.1
    · rw [hs, if_neg hb]
      refine ⟨h1, fun t => ?_⟩
      constructor
      · intro ht
        obtain ⟨g1, g2⟩ := (h2 t).1 ht
        refine ⟨g1, fun e' he' hx => ?_⟩
        rcases List.mem_append.1 he' with he' | he'
        · exact g2 e' he' hx
        · rw [List.mem_singleton] at he'
          subst he'
          rw [hx, Bool.true_and] at hb
          exact F64.atLeast_of_not_le h1 hb ht
      · rintro ⟨g1, g2⟩
        exact (h2 t).2 ⟨g1, fun e' he' => g2 e' (by simp [he'])⟩

theorem F64.inf_value : (FloatOps.inf : F64).HasValue (10 ^ 8) := by show signedQ false (10 ^ 8) = _; rfl

theorem F64.negInf_value : (FloatOps.neg (FloatOps.inf : F64)).HasValue (-(10 ^ 8)) := F64.neg_value F64.inf_value

theorem F64.ne_nan {a : F64} {x : ℚ} (h : a.HasValue x) : a ≠ .nan := by rintro rfl; exact h

section
variable {H : HashOrder} {l : Level} {h : Heap F64} {n m : ℕ} {cols : List (Node F64)} {comp : ModelComp F64}
  {mod : Model F64} {e : Node F64} {ps : List (Piece F64)} {xes : List (Node F64 × F64)} {ves : List (Node F64 × ℕ)} {sp : StdProb F64}

/-- The value of a column at a point. -/
def colValD (cols : List (Node F64)) (xs : List ℚ) (x : Node F64) : ℚ := xs.getD (colOf cols x) 0

theorem colValD_get (hc : ColsOk l h cols) {xs : List ℚ} (hx : xs.length = cols.length) {x : Node F64} (hm : x ∈ cols) :
    xs[colOf cols x]? = some (colValD cols xs x) := by
  have := (hc.col hm).1
  rw [colValD, List.getD_eq_getElem?_getD, List.getElem?_eq_getElem (by omega)]
  rfl

/-- What a point that satisfies the standard problem up to tolerances says about the pieces. -/
structure PointD (comp : ModelComp F64) (cols : List (Node F64)) (ps : List (Piece F64)) (δ ε η : ℚ) (v : Node F64 → ℚ) : Prop where
  rows : ∀ p ∈ ps, p.isLin = true → ∀ b, p.comp.prop.b.HasValue b → (∀ q ∈ p.coefs, ∃ w, q.2.HasValue w) →
    |(p.coefs.map fun q => q.2.val * v q.1).sum + b| ≤ δ
  bounds : ∀ p ∈ ps, ∀ d x a, p.bnd = some (d, x, a) → if d then F64.AtMost (v x - ε) a else F64.AtLeast (v x + ε) a
  box : ∀ x ∈ cols, -(10 ^ 8) - ε ≤ v x ∧ v x ≤ 10 ^ 8 + ε
  integral : ∀ x ∈ cols, x.isInteger = true → ∃ z : ℤ, |v x - z| ≤ η

theorem SpFacts.pointD (hf : SpFacts H l h n m mod comp e ps cols xes ves sp) {q : Minlp F64} (hq : q ∈ sp.prob.views) {δ ε η : ℚ}
    {xs : List ℚ} : q.WithinD δ ε η xs ↔ xs.length = cols.length ∧ PointD comp cols ps δ ε η (colValD cols xs) := by
  have hv := hf.view hq
  have hnx : q.nx = cols.length := by simp [Minlp.nx, hv.a, stdA, Coo.cols]
  obtain ⟨k, -, hch⟩ := hf.mf.chain
  have hrows := hch.rows fun v es => ∀ y, F64.HasValue v y → (∀ e ∈ es, ∃ w, e.2.HasValue w) →
    |(es.map fun q => q.2.val * colValD cols xs q.1).sum - y| ≤ δ
  have hneg : ∀ (a : F64) (y : ℚ), (FloatOps.neg a).HasValue y ↔ a.HasValue (-y) := by
    intro a y
    constructor
    · intro hy
      cases a with
      | nan => exact hy.elim
      | inf => exact hy.elim
      | fin s r hr =>
        have hy : signedQ (!s) r = y := hy
        show signedQ s r = -y
        rw [← hy]
        cases s <;> simp [signedQ]
    · intro hy
      have := F64.neg_value hy
      rwa [neg_neg] at this
  have hrows' : (∀ i a y, q.b[i]? = some a → a.HasValue y → (∀ e ∈ rowOf q.a.triplets i, ∃ v, e.2.HasValue v) →
      |((rowOf q.a.triplets i).map fun e => e.2.val * xs.getD e.1 0).sum - y| ≤ δ) ↔
      ∀ p ∈ ps, p.isLin = true → ∀ b, p.comp.prop.b.HasValue b → (∀ q ∈ p.coefs, ∃ w, q.2.HasValue w) →
        |(p.coefs.map fun q => q.2.val * colValD cols xs q.1).sum + b| ≤ δ := by
    have e1 : (∀ p ∈ ps, p.isLin = true → ∀ b, p.comp.prop.b.HasValue b → (∀ q ∈ p.coefs, ∃ w, q.2.HasValue w) →
        |(p.coefs.map fun q => q.2.val * colValD cols xs q.1).sum + b| ≤ δ) ↔
        ∀ p ∈ ps, p.isLin = true → ∀ y, (FloatOps.neg p.comp.prop.b).HasValue y → (∀ q ∈ p.coefs, ∃ w, q.2.HasValue w) →
        |(p.coefs.map fun q => q.2.val * colValD cols xs q.1).sum - y| ≤ δ := by
      refine forall₃_congr fun p _ _ => ⟨fun hh y hy hn => ?_, fun hh b hb hn => ?_⟩
      · have := hh (-y) ((hneg _ _).1 hy) hn
        rwa [← sub_eq_add_neg] at this
      · have := hh (-b) ((hneg _ _).2 (by rwa [neg_neg])) hn
        rwa [sub_neg_eq_add] at this
    rw [e1, ← hrows, hv.a, hv.b, hf.mf.constr]
    have e3 : ∀ i, (rowOf (stdA cols comp).triplets i) = (entriesOf comp.constr.a i).map fun e => (colOf cols e.1, e.2) := rowOf_stdA cols comp
    have e4 : ∀ L : List (Node F64 × F64), ((L.map fun e => (colOf cols e.1, e.2)).map fun e => e.2.val * xs.getD e.1 0) =
        L.map fun q => q.2.val * colValD cols xs q.1 := fun L => by rw [List.map_map]; rfl
    simp only [e3, e4, List.forall_mem_map, Nat.zero_add, hf.mf.constr, ConstrComp.concat, List.flatMap_map]
    exact ⟨fun hh i v hi y hy => hh i v y hi hy, fun hh i v y hi hy => hh i v hi y hy⟩
  have hbnd : ∀ p ∈ ps, ∀ d x a, p.bnd = some (d, x, a) → x ∈ cols ∧ (x, a, p.c) ∈ (if d then comp.constr.u else comp.constr.l) := by
    intro p hp d x b hb
    cases d
    · have : (x, b, p.c) ∈ comp.constr.l := hf.mf.lower.2 ⟨p, hp, hb, rfl⟩
      exact ⟨hf.cmpOk.l _ this, this⟩
    · have : (x, b, p.c) ∈ comp.constr.u := hf.mf.upper.2 ⟨p, hp, hb, rfl⟩
      exact ⟨hf.cmpOk.u _ this, this⟩
  have hcolb : ∀ {i : ℕ} {x : Node F64}, cols[i]? = some x → x ∈ cols ∧ colOf cols x = i := by
    intro i x hi
    obtain ⟨hlt, rfl⟩ := List.getElem?_eq_some_iff.1 hi
    exact ⟨List.getElem_mem hlt, hf.cok.col_get hlt⟩
  have hlow : ∀ x, (∀ t : ℚ, F64.AtLeast t (tightest (fun v c => c <=. v) (FloatOps.neg (inf : F64)) comp.constr.l x).1 ↔ -(10 ^ 8) ≤ t ∧
      ∀ e ∈ comp.constr.l, e.1.ptrEq x = true → F64.AtLeast t e.2.1) := by
    intro x t
    rw [(F64.tightest_lo (F64.ne_nan F64.negInf_value) comp.constr.l x).2 t, F64.atLeast_value F64.negInf_value]
  have hupp : ∀ x, (∀ t : ℚ, F64.AtMost t (tightest (fun v c => v <=. c) (inf : F64) comp.constr.u x).1 ↔ t ≤ 10 ^ 8 ∧
      ∀ e ∈ comp.constr.u, e.1.ptrEq x = true → F64.AtMost t e.2.1) := by
    intro x t
    rw [(F64.tightest_up (F64.ne_nan F64.inf_value) comp.constr.u x).2 t, F64.atMost_value F64.inf_value]
  constructor
  · rintro ⟨h1, h2, h3, h4, h5⟩
    rw [hnx] at h1
    have g3 : ∀ x ∈ cols, F64.AtLeast (colValD cols xs x + ε) (tightest (fun v c => c <=. v) (FloatOps.neg (inf : F64)) comp.constr.l x).1 :=
      fun x hxc => h3 _ _ _ (colValD_get hf.cok h1 hxc) (by rw [hv.l, stdL, List.getElem?_map, (hf.cok.col hxc).2]; rfl)
    have g4 : ∀ x ∈ cols, F64.AtMost (colValD cols xs x - ε) (tightest (fun v c => v <=. c) (inf : F64) comp.constr.u x).1 :=
      fun x hxc => h4 _ _ _ (colValD_get hf.cok h1 hxc) (by rw [hv.u, stdU, List.getElem?_map, (hf.cok.col hxc).2]; rfl)
    refine ⟨h1, hrows'.1 h2, ?_, ?_, ?_⟩
    · intro p hp d x b hb
      obtain ⟨hxc, hmem⟩ := hbnd p hp d x b hb
      cases d
      · exact ((hlow x _).1 (g3 x hxc)).2 _ hmem (ptrEq_refl _)
      · exact ((hupp x _).1 (g4 x hxc)).2 _ hmem (ptrEq_refl _)
    · intro x hxc
      have a1 := ((hlow x _).1 (g3 x hxc)).1
      have a2 := ((hupp x _).1 (g4 x hxc)).1
      exact ⟨by linarith, by linarith⟩
    · intro x hxc hi
      exact h5 _ _ (colValD_get hf.cok h1 hxc) (by rw [hv.p, stdP, List.getElem?_map, (hf.cok.col hxc).2]; simp [hi])
  · rintro ⟨h1, h2, h3, h4, h5⟩
    have hget : ∀ {i : ℕ} {x : Node F64} {y : ℚ}, cols[i]? = some x → xs[i]? = some y → y = colValD cols xs x := by
      intro i x y hi hy
      obtain ⟨hxc, hci⟩ := hcolb hi
      have := colValD_get hf.cok h1 hxc
      rw [hci, hy] at this
      injection this
    refine ⟨by rw [hnx, h1], hrows'.2 h2, ?_, ?_, ?_⟩
    · intro i y lo hy hlo
      rw [hv.l, stdL, List.getElem?_map, Option.map_eq_some_iff] at hlo
      obtain ⟨x, hx, rfl⟩ := hlo
      rw [hget hx hy]
      refine (hlow x _).2 ⟨by linarith [(h4 x (hcolb hx).1).1], fun e he hex => ?_⟩
      obtain ⟨p, hp, hb, hc⟩ := hf.mf.lower.1 he
      have heq := ((hf.cok.good _ (hf.cmpOk.l e he)).ptrEq_iff (hf.cok.good _ (hcolb hx).1)).1 hex
      rw [heq] at hb
      exact h3 p hp _ _ _ hb
    · intro i y up hy hup
      rw [hv.u, stdU, List.getElem?_map, Option.map_eq_some_iff] at hup
      obtain ⟨x, hx, rfl⟩ := hup
      rw [hget hx hy]
      refine (hupp x _).2 ⟨by linarith [(h4 x (hcolb hx).1).2], fun e he hex => ?_⟩
      obtain ⟨p, hp, hb, hc⟩ := hf.mf.upper.1 he
      have heq := ((hf.cok.good _ (hf.cmpOk.u e he)).ptrEq_iff (hf.cok.good _ (hcolb hx).1)).1 hex
      rw [heq] at hb
      exact h3 p hp _ _ _ hb
    · intro i y hy hp
      rw [hv.p, stdP, List.getElem?_map, Option.map_eq_some_iff] at hp
      obtain ⟨x, hx, hi⟩ := hp
      rw [hget hx hy]
      exact h5 x (hcolb hx).1 hi

/-- The affine function that a constraint becomes, at values of the columns. -/
theorem SpFacts.pieceD (hf : SpFacts H l h n m mod comp e ps cols xes ves sp) {p : Piece F64} (hpm : p ∈ ps) {f g : TermForm}
    (hc : p.c.SaysD f g) {t : ℕ → ℚ} {v : Node F64 → ℚ} (hv : ∀ x, mod.HasVar x → v x = t x.id) :
    ∃ b, p.comp.prop.b.HasValue b ∧ (∀ q ∈ p.coefs, ∃ w, q.2.HasValue w) ∧
      ((∃ x a, p.kind = .bound x ∧ mod.HasVar x ∧ p.bnd = some (decide (p.c.kind = .lessEqual), x, a) ∧ a.HasValue (-b) ∧
          v x + b = f.value t - g.value t) ∨
        (p.c.kind = .equal ∧ p.isLin = true ∧ p.slack = none ∧
          (p.coefs.map fun q => q.2.val * v q.1).sum + b = f.value t - g.value t) ∨
        ∃ s, p.isLin = true ∧ p.slack = some s ∧ p.bnd = some (decide (p.c.kind = .lessEqual), s, zero) ∧
          (p.coefs.map fun q => q.2.val * v q.1).sum + b + v s = f.value t - g.value t) := by
  obtain ⟨n1, m1, -, -, hok⟩ := hf.mf.piece hpm
  obtain ⟨b, hb, hnum, hnl, herr⟩ := hok.linD hc t
  have hcv : ∀ q ∈ p.comp.prop.a, t q.1.id = v q.1 := by
    intro q hq
    have hk := (stdProperties_keys p.exp).2.1 q.1 (by rw [← hok.prop.2]; exact List.mem_map_of_mem hq)
    exact (hv _ (hf.mf.pieceVar hpm hk.1 hk.2)).symm
  have hsum : (p.comp.prop.a.map fun q => q.2.val * t q.1.id) = p.comp.prop.a.map fun q => q.2.val * v q.1 :=
    List.map_congr_left fun q hq => by rw [hcv q hq]
  rw [hsum] at herr
  refine ⟨b, hb, ?_, ?_⟩
  · intro q hq
    unfold Piece.coefs at hq
    split at hq
    · rename_i es hk
      exact hnum q ((hok.linEq es hk).mem_iff.1 hq)
    · rename_i es s hk
      rcases List.mem_append.1 hq with hq | hq
      · exact hnum q ((hok.linIneq es s hk).1.mem_iff.1 hq)
      · rw [List.mem_singleton] at hq
        subst hq
        exact ⟨-1, F64.negOne_value⟩
    · cases hq
  · cases hk : p.kind with
    | bound x =>
      obtain ⟨w, hw, hw1⟩ := hok.bound x hk
      have hkx := (stdProperties_keys p.exp).2.1 x (by rw [← hok.prop.2, hw]; simp [keysN])
      refine .inl ⟨x, FloatOps.neg p.comp.prop.b, rfl, hf.mf.pieceVar hpm hkx.1 hkx.2, ?_, F64.neg_value hb, ?_⟩
      · simp only [Piece.bnd, hk]
      · rw [hw] at herr
        obtain ⟨w', hw'⟩ := hnum (x, w) (by rw [hw]; simp)
        have hw'' := (F64.eqo hw').1 hw1
        subst hw''
        have := F64.val_of hw'
        simp only at this
        simpa [this] using herr
    | linEq es =>
      refine .inr (.inl ⟨hok.equal.2 (by simp [Piece.bnd, hk]), by simp [Piece.isLin, hk], by simp [Piece.slack, hk], ?_⟩)
      have hperm := hok.linEq es hk
      simp only [Piece.coefs, hk]
      rw [(hperm.map fun q => q.2.val * v q.1).sum_eq]
      exact herr
    | linIneq es s =>
      have hsl : p.slack = some s := by simp [Piece.slack, hk]
      refine .inr (.inr ⟨s, by simp [Piece.isLin, hk], hsl, Piece.bnd_slack hsl, ?_⟩)
      have hperm := (hok.linIneq es s hk).1
      simp only [Piece.coefs, hk, List.map_append, List.sum_append, List.map_cons, List.map_nil, List.sum_cons, List.sum_nil, add_zero]
      rw [(hperm.map fun q => q.2.val * v q.1).sum_eq, F64.val_negOne]
      have e2 : ∀ X : ℚ, X + -1 * v s + b + v s = X + b := fun X => by ring
      rw [e2]
      exact herr
    | nlEq => simp [Piece.isNl, hk] at hnl
    | nlIneq s f' m1 => simp [Piece.isNl, hk] at hnl

end

end Verif
