import Verif.Proofs.RoundingDeriv64
import Verif.Proofs.SumFormW

/-! # Differences of expressions, in double precision: sizes and derivatives -/

set_option linter.unusedSectionVars false

namespace Verif.R64

variable [Libm]

/-- The terms that are not constants. -/
def nc (e : Node F64) : List (Node F64) := e.terms.filter fun a => !a.isConstant

/-- The terms that are constants. -/
def kc (e : Node F64) : List (Node F64) := e.terms.filter fun a => a.isConstant

/-- The number of a constant. -/
def cval : Node F64 → F64
  | .const _ c => c
  | _ => zero

theorem terms_eq {e : Node F64} (h : FlatSums e) : e.terms = nc e ++ kc e ∧ (kc e).length ≤ 1 ∧ ∀ a ∈ e.terms, sumB a = false := by
  have key : ∀ l : List (Node F64), (∀ a ∈ l.dropLast, a.isConstant = false) →
      l = (l.filter fun a => !a.isConstant) ++ (l.filter fun a => a.isConstant) ∧ (l.filter fun a => a.isConstant).length ≤ 1 := by
    intro l
    rcases List.eq_nil_or_concat l with rfl | ⟨l, a, rfl⟩
    · simp
    · intro h
      rw [List.concat_eq_append, List.dropLast_concat] at h
      have h1 : (l.filter fun a => !a.isConstant) = l := List.filter_eq_self.2 fun a ha => by simp [h a ha]
      have h2 : (l.filter fun a => a.isConstant) = [] := List.filter_eq_nil_iff.2 fun a ha => by simp [h a ha]
      rw [List.concat_eq_append, List.filter_append, List.filter_append, h1, h2]
      cases hc : a.isConstant <;> simp [List.filter, hc]
  cases e
  case add i args =>
    obtain ⟨⟨h1, h2⟩, -⟩ := flat_add.1 h
    exact ⟨(key args h2).1, (key args h2).2, h1⟩
  all_goals
    refine ⟨(key _ (by simp [Node.terms])).1, (key _ (by simp [Node.terms])).2, ?_⟩
    intro a ha
    simp only [Node.terms, List.mem_singleton] at ha
    rw [ha]
    rfl

theorem gatherArgs_eq (xs : List (Node F64)) : ∀ acc : F64 × List (Node F64),
    gatherArgs acc xs = ((xs.filter fun a => a.isConstant).foldl (fun c a => c +. cval a) acc.1, acc.2 ++ xs.filter fun a => !a.isConstant) := by
  induction xs with
  | nil => rintro ⟨c, l⟩; simp [gatherArgs]
  | cons x xs ih =>
    rintro ⟨c, l⟩
    cases x <;> simp [gatherArgs, ih, Node.isConstant, cval]

theorem gather_eq (acc : F64 × List (Node F64)) (x : Node F64) : gather acc x = ((kc x).foldl (fun c a => c +. cval a) acc.1, acc.2 ++ nc x) := by
  cases x
  case add i xs => exact gatherArgs_eq xs acc
  all_goals simp [gather, kc, nc, Node.terms, Node.isConstant, cval]

section
variable (t : ℕ → ℝ) (κ x : ℕ)

theorem gradVs_sum (as : List (Node F64)) : gradV t x (.add 0 as) = (as.map (gradV t x)).sum := by
  simp only [gradV]
  induction as with
  | nil => rfl
  | cons a as ih => simp [gradV.gradVs, ih]

theorem gradSize_sumL (as : List (Node F64)) : Node.gradSize.sumL t κ x as =
    ⟨(as.map fun a => (a.gradSize t κ x).size).sum, (as.map fun a => (a.gradSize t κ x).terms).sum,
      (as.map fun a => (a.gradSize t κ x).ops + 3 * (a.gradSize t κ x).terms).sum⟩ := by
  induction as with
  | nil => rfl
  | cons a as ih =>
    simp only [Node.gradSize.sumL, ih, GradSize.add, GradSize.times, List.map_cons, List.sum_cons, one_mul, GradSize.mk.injEq, true_and]
    ring

theorem sum_filter {α : Type} [AddCommMonoid α] (f : Node F64 → α) (h0 : ∀ i c, f (.const i c) = 0) (l : List (Node F64)) :
    (l.map f).sum = ((l.filter fun a => !a.isConstant).map f).sum := by
  induction l with
  | nil => rfl
  | cons a l ih =>
    cases hc : a.isConstant
    · simp [List.filter, hc, ih]
    · have : f a = 0 := by cases a <;> simp [Node.isConstant] at hc; exact h0 _ _
      simp [List.filter, hc, ih, this]

theorem gradV_nc (e : Node F64) : gradV t x e = ((nc e).map (gradV t x)).sum := by
  unfold nc
  rw [← sum_filter _ (fun _ _ => rfl)]
  cases e
  case add i args => exact gradVs_sum t x args
  all_goals simp [Node.terms]

theorem size_nc (e : Node F64) : (e.gradSize t κ x).size = ((nc e).map fun a => (a.gradSize t κ x).size).sum := by
  unfold nc
  rw [← sum_filter (fun a : Node F64 => (a.gradSize t κ x).size) (fun _ _ => rfl)]
  cases e
  case add i args => simp only [Node.gradSize, gradSize_sumL, Node.terms]
  all_goals simp [Node.terms]

theorem terms_nc (e : Node F64) : (e.gradSize t κ x).terms = ((nc e).map fun a => (a.gradSize t κ x).terms).sum := by
  unfold nc
  rw [← sum_filter (fun a : Node F64 => (a.gradSize t κ x).terms) (fun _ _ => rfl)]
  cases e
  case add i args => simp only [Node.gradSize, gradSize_sumL, Node.terms]
  all_goals simp [Node.terms]

theorem ops_nc (e : Node F64) : (e.gradSize t κ x).ops ≤ ((nc e).map fun a => (a.gradSize t κ x).ops + 3 * (a.gradSize t κ x).terms).sum ∧
    ((nc e).map fun a => (a.gradSize t κ x).ops + 3 * (a.gradSize t κ x).terms).sum ≤ (e.gradSize t κ x).ops + 3 * (e.gradSize t κ x).terms ∧
    ((nc e).map fun a => (a.gradSize t κ x).ops + 6 * (a.gradSize t κ x).terms).sum ≤ (e.gradSize t κ x).ops + 6 * (e.gradSize t κ x).terms := by
  unfold nc
  rw [← sum_filter (fun a : Node F64 => (a.gradSize t κ x).ops + 3 * (a.gradSize t κ x).terms) (fun _ _ => rfl),
    ← sum_filter (fun a : Node F64 => (a.gradSize t κ x).ops + 6 * (a.gradSize t κ x).terms) (fun _ _ => rfl)]
  cases e
  case add i args =>
    simp only [Node.gradSize, gradSize_sumL, Node.terms]
    have : ∀ l : List (Node F64), (l.map fun a => (a.gradSize t κ x).ops + 6 * (a.gradSize t κ x).terms).sum =
        (l.map fun a => (a.gradSize t κ x).ops + 3 * (a.gradSize t κ x).terms).sum + 3 * (l.map fun a => (a.gradSize t κ x).terms).sum := by
      intro l
      induction l with
      | nil => rfl
      | cons a l ih => simp only [List.map_cons, List.sum_cons, ih]; ring
    rw [this]
    omega
  all_goals simp [Node.terms]

theorem sizeAt_terms (e : Node F64) : (e.terms.map (Node.sizeAt t)).sum ≤ e.sizeAt t ∧ e.sizeAt t ≤ 1 + (e.terms.map (Node.sizeAt t)).sum := by
  cases e
  case add i args => simp only [Node.sizeAt, sizeAt_sumL, Node.terms]; constructor <;> linarith
  all_goals simp [Node.terms]

theorem opsAt_terms (e : Node F64) : (e.terms.map fun a => a.opsAt κ + 1).sum ≤ e.opsAt κ + 1 ∧ e.opsAt κ ≤ (e.terms.map fun a => a.opsAt κ + 1).sum := by
  have : ∀ l : List (Node F64), (l.map fun a => a.opsAt κ + 1).sum = (l.map (Node.opsAt κ)).sum + l.length := by
    intro l
    induction l with
    | nil => rfl
    | cons a l ih => simp only [List.map_cons, List.sum_cons, ih, List.length_cons]; omega
  cases e
  case add i args => simp only [Node.opsAt, opsAt_sumL, Node.terms, this]; omega
  all_goals simp [Node.terms]

end

section
variable {σ : Env F64} {t : ℕ → ℝ} {κ : ℕ}

theorem _root_.Verif.Node.Tame.terms {e : Node F64} (h : e.Tame σ t κ) : ∀ a ∈ e.terms, a.Tame σ t κ := by
  cases e
  case add i args => exact h.args
  all_goals
    intro a ha
    simp only [Node.terms, List.mem_singleton] at ha
    rw [ha]
    exact h

theorem tame_of_terms {e : Node F64} (h : ∀ a ∈ e.terms, a.Tame σ t κ) (hR : InRange (1 + (e.terms.map (Node.sizeAt t)).sum) ((e.terms.map fun a => a.opsAt κ + 1).sum + 1)) :
    e.Tame σ t κ := by
  cases e
  case add i args =>
    unfold Node.Tame
    refine ⟨hR.mono (sizeAt_terms t _).2 (by have := (opsAt_terms κ (Node.add i args)).2; omega), ?_⟩
    exact tameL_iff.2 h
  all_goals exact h _ (by simp [Node.terms])

theorem tame_const {i : ℕ} {c : F64} {z : ℝ} (hz : c.Is z) (hm : |z| ≤ maxSize) : (Node.const i c).Tame σ t κ := by
  unfold Node.Tame
  obtain ⟨q, hq, rfl⟩ := hz
  have h1 : c.toReal = q := (show c.Is q from ⟨q, hq, rfl⟩).toReal
  refine ⟨⟨?_, by simp [Node.opsAt]⟩, ?_⟩
  · simp only [Node.sizeAt, h1]
    exact max_le (by unfold maxSize; exact one_le_zpow₀ (by norm_num) (by norm_num)) hm
  · cases c <;> simp [F64.HasValue] at hq
    rfl

theorem negOne_nz : ((negOne : F64) ==. zero) = false := by
  rw [← Bool.not_eq_true, F64.eqz_num F64.is_negOne]; norm_num

theorem negOne_no : ((negOne : F64) ==. one) = false := by
  rw [← Bool.not_eq_true, F64.eqo_num F64.is_negOne]; norm_num

/-- How a term changes under negation. -/
def NegTerm (y z : Node F64) : Prop :=
  (∃ i j c, y = .const i c ∧ z = .const j (negOne *. c)) ∨ (y.isConstant = false ∧ ∃ i j, z = .mul i (.const j negOne) y)

theorem neg_single {y z : Node F64} {n m : ℕ} (hs : sumB y = false) (h : sMul negOne y n = .ok (z, m)) : NegTerm y z := by
  have h0 : ((negOne : F64) ==. zero) = false := negOne_nz
  have h1 : ((negOne : F64) ==. one) = false := negOne_no
  cases y
  case add => simp [sumB] at hs
  case const i c =>
    simp only [sMul] at h
    rw [newConst_ok] at h
    exact .inl ⟨_, _, _, rfl, h.1⟩
  all_goals
    simp only [sMul, h0, h1] at h
    rw [if_neg (by simp), if_neg (by simp), M.bind_ok] at h
    obtain ⟨k, n1, hk, h⟩ := h
    rw [newConst_ok] at hk
    rw [newMul_eq] at h
    cases h
    rw [hk.1]
    exact .inr ⟨rfl, _, _, rfl⟩

theorem neg_terms {b nb : Node F64} {n m : ℕ} (hb : FlatSums b) (h : sMul negOne b n = .ok (nb, m)) : List.Forall₂ NegTerm b.terms nb.terms := by
  have h0 : ((negOne : F64) ==. zero) = false := negOne_nz
  have h1 : ((negOne : F64) ==. one) = false := negOne_no
  by_cases hs : sumB b = false
  · have hnb := (flat_sMul negOne b hb _ _ _ h).2.1 hs
    have e1 : ∀ {y : Node F64}, sumB y = false → y.terms = [y] := fun {y} hy => by cases y <;> first | rfl | simp [sumB] at hy
    rw [e1 hs, e1 hnb]
    exact .cons (neg_single hs h) .nil
  · cases b <;> simp [sumB] at hs
    rename_i i args
    have h' := h
    rw [sMul_unfold] at h'
    rw [if_neg (by simp [h0, Node.isConstant]), if_neg (by simp [h1]), if_neg (by simp [Node.isConstVal]), M.bind_ok] at h'
    obtain ⟨bs, k, h2, h3⟩ := h'
    rw [newAdd_ok] at h3
    rw [h3.2.1]
    exact M.mapL_ok_forall h2 fun a ha c n m hc => neg_single ((flat_add.1 hb).1.1 a ha) hc

theorem negMul_is {c : F64} {z : ℝ} (h : c.Is z) : (negOne *. c).Is (-z) := by
  obtain ⟨q, hq, rfl⟩ := h
  refine ⟨-1 * q, F64.mul_exact F64.negOne_value hq ?_, by push_cast; ring⟩
  rw [neg_one_mul]
  exact (F64.double_of_value hq).neg

theorem tame_const_is {i : ℕ} {c : F64} (h : (Node.const i c).Tame σ t κ) : c.Is c.toReal ∧ |c.toReal| ≤ maxSize := by
  have hr := h.range
  unfold Node.Tame at h
  exact ⟨F64.is_toReal h.2, (le_max_right _ _).trans hr.1⟩

theorem negTerm_tame {y z : Node F64} (h : NegTerm y z) (hy : y.Tame σ t κ) (hk : y.opsAt κ + 4 ≤ 2 ^ 52) :
    z.Tame σ t κ ∧ z.sizeAt t = y.sizeAt t ∧ z.opsAt κ ≤ y.opsAt κ + 3 ∧ z.isConstant = y.isConstant := by
  rcases h with ⟨i, j, c, rfl, rfl⟩ | ⟨hc, i, j, rfl⟩
  · obtain ⟨h1, h2⟩ := tame_const_is hy
    have h3 := negMul_is h1
    refine ⟨tame_const h3 (by rwa [abs_neg]), ?_, by simp [Node.opsAt], rfl⟩
    simp only [Node.sizeAt, h3.toReal, abs_neg]
  · have hs : (Node.mul i (.const j negOne) y).sizeAt t = y.sizeAt t := by
      simp only [Node.sizeAt, F64.is_negOne.toReal]; norm_num
    have ho : (Node.mul i (.const j negOne) y).opsAt κ = y.opsAt κ + 3 := by simp only [Node.opsAt]; omega
    refine ⟨?_, hs, ho.le, by rw [hc]; rfl⟩
    unfold Node.Tame
    refine ⟨?_, tame_const F64.is_negOne ?_, hy⟩
    · rw [hs, ho]; exact ⟨hy.range.1, hk⟩
    · rw [abs_neg, abs_one]; unfold maxSize; exact one_le_zpow₀ (by norm_num) (by norm_num)

theorem negTerm_grad {y z : Node F64} (x : ℕ) (h : NegTerm y z) : gradV t x z = - gradV t x y ∧ (z.gradSize t κ x).size = (y.gradSize t κ x).size ∧
    (z.gradSize t κ x).terms = (y.gradSize t κ x).terms ∧ (z.gradSize t κ x).ops = (y.gradSize t κ x).ops + 3 * (y.gradSize t κ x).terms := by
  rcases h with ⟨i, j, c, rfl, rfl⟩ | ⟨hc, i, j, rfl⟩
  · simp [gradV, Node.gradSize, GradSize.none]
  · simp only [gradV, Node.gradSize, Node.realAt, Node.sizeAt, Node.opsAt, GradSize.times, GradSize.add, GradSize.none, F64.is_negOne.toReal]
    refine ⟨by ring, by norm_num, by ring, by ring⟩

/-- What negation does with all terms. -/
structure Negd (σ : Env F64) (t : ℕ → ℝ) (κ : ℕ) (b nb : Node F64) : Prop where
  flat : FlatSums nb
  tame : ∀ a ∈ nb.terms, a.Tame σ t κ
  size : (nb.terms.map (Node.sizeAt t)).sum = (b.terms.map (Node.sizeAt t)).sum
  ops : (nb.terms.map fun a => a.opsAt κ + 1).sum ≤ 4 * (b.terms.map fun a => a.opsAt κ + 1).sum
  val : ∀ x, gradV t x nb = - gradV t x b
  gsize : ∀ x, (nb.gradSize t κ x).size = (b.gradSize t κ x).size
  gops : ∀ x, ((nc nb).map fun a => (a.gradSize t κ x).ops + 3 * (a.gradSize t κ x).terms).sum ≤ (b.gradSize t κ x).ops + 6 * (b.gradSize t κ x).terms

theorem forall₂_filter {y z : List (Node F64)} {P : Node F64 → Node F64 → Prop} (h : List.Forall₂ P y z) (hc : ∀ a b, P a b → b.isConstant = a.isConstant) :
    List.Forall₂ P (y.filter fun a => !a.isConstant) (z.filter fun a => !a.isConstant) := by
  induction h with
  | nil => exact .nil
  | cons h _ ih =>
    simp only [List.filter]
    rw [hc _ _ h]
    split
    · exact .cons h ih
    · exact ih

theorem forall₂_sum {α : Type} [AddCommMonoid α] {y z : List (Node F64)} {P : Node F64 → Node F64 → Prop} (h : List.Forall₂ P y z) {f g : Node F64 → α}
    (hfg : ∀ a b, P a b → g b = f a) : (z.map g).sum = (y.map f).sum := by
  induction h with
  | nil => rfl
  | cons h _ ih => simp [hfg _ _ h, ih]

theorem negd {b nb : Node F64} {n m : ℕ} (hb : FlatSums b) (htb : b.Tame σ t κ) (hk : b.opsAt κ + 4 ≤ 2 ^ 52) (h : sMul negOne b n = .ok (nb, m)) :
    Negd σ t κ b nb := by
  have hT := neg_terms hb h
  have hmem : ∀ y ∈ b.terms, y.opsAt κ ≤ b.opsAt κ := by
    intro y hy
    have h1 := (opsAt_terms κ b).1
    have h2 := List.single_le_sum (fun x _ => Nat.zero_le x) _ (List.mem_map.2 ⟨y, hy, rfl⟩ : y.opsAt κ + 1 ∈ b.terms.map fun a => a.opsAt κ + 1)
    omega
  have hT2 : List.Forall₂ (fun y z => NegTerm y z ∧ z.Tame σ t κ ∧ z.sizeAt t = y.sizeAt t ∧ z.opsAt κ ≤ y.opsAt κ + 3 ∧ z.isConstant = y.isConstant) b.terms nb.terms := by
    have htt := htb.terms
    generalize b.terms = l at hT hmem htt
    generalize nb.terms = l' at hT
    clear h
    induction hT with
    | nil => exact .nil
    | cons h _ ih =>
      exact .cons ⟨h, negTerm_tame h (htt _ (by simp)) (by have := hmem _ List.mem_cons_self; omega)⟩
        (ih (fun y hy => hmem y (by simp [hy])) fun y hy => htt y (by simp [hy]))
  have hN := forall₂_filter hT2 fun _ _ h => h.2.2.2.2
  change List.Forall₂ _ (nc b) (nc nb) at hN
  refine ⟨(flat_sMul _ _ hb _ _ _ h).1, fun a ha => ?_, forall₂_sum hT2 fun _ _ h => h.2.2.1, ?_, fun x => ?_, fun x => ?_, fun x => ?_⟩
  · obtain ⟨y, -, hy⟩ := forall₂_right hT2 a ha
    exact hy.2.1
  · clear hN hmem hT
    generalize b.terms = l at hT2
    generalize nb.terms = l' at hT2
    induction hT2 with
    | nil => simp
    | cons h _ ih => simp only [List.map_cons, List.sum_cons]; have := h.2.2.2.1; omega
  · rw [gradV_nc, gradV_nc t x b]
    have : ∀ l : List (Node F64), (l.map fun a => - gradV t x a).sum = - (l.map (gradV t x)).sum := by
      intro l
      induction l with
      | nil => simp
      | cons a l ih => simp only [List.map_cons, List.sum_cons, ih]; ring
    rw [← this]
    exact forall₂_sum hN fun _ _ h => (negTerm_grad (κ := κ) x h.1).1
  · rw [size_nc, size_nc t κ x b]
    exact forall₂_sum hN fun _ _ h => (negTerm_grad x h.1).2.1
  · refine le_trans (le_of_eq ?_) (ops_nc t κ x b).2.2
    refine forall₂_sum hN fun _ _ h => ?_
    obtain ⟨-, -, h1, h2⟩ := negTerm_grad (t := t) (κ := κ) x h.1
    rw [h1, h2]
    ring

/-- The constant part of a sum. -/
theorem fold_is {l : List (Node F64)} (hl : l.length ≤ 1) (hc : ∀ a ∈ l, a.isConstant = true) (ht : ∀ a ∈ l, a.Tame σ t κ) {acc : F64} {z : ℝ} (hz : acc.Is z)
    (hm : |z| + (l.map (Node.sizeAt t)).sum ≤ 2 * maxSize) :
    ∃ z', (l.foldl (fun c a => c +. cval a) acc).Is z' ∧ |z'| ≤ (1 + uD) * (|z| + (l.map (Node.sizeAt t)).sum) := by
  have hu := uD_nonneg
  match l, hl with
  | [], _ => exact ⟨z, hz, by simp; nlinarith [abs_nonneg z]⟩
  | [a], _ =>
    have ha := hc a (by simp)
    obtain ⟨i, c, rfl⟩ : ∃ i c, a = .const i c := by
      cases a <;> simp [Node.isConstant] at ha
      exact ⟨_, _, rfl⟩
    obtain ⟨h1, -⟩ := tame_const_is (ht (.const i c) (by simp))
    have h2 : |c.toReal| ≤ (Node.const i c).sizeAt t := le_max_right _ _
    simp only [List.map_cons, List.map_nil, List.sum_cons, List.sum_nil, add_zero] at hm ⊢
    have h3 := abs_add_le z c.toReal
    obtain ⟨z', h4, h5⟩ := F64.is_add hz h1 (by linarith)
    refine ⟨z', h4, ?_⟩
    have h6 : |z'| ≤ |z' - (z + c.toReal)| + |z + c.toReal| := by
      have := abs_add_le (z' - (z + c.toReal)) (z + c.toReal)
      simpa using this
    nlinarith

theorem nc_const {i : ℕ} {c : F64} : nc (.const i c) = [] := rfl
theorem kc_const {i : ℕ} {c : F64} : kc (.const i c) = [.const i c] := rfl

theorem isConstVal_const {a : Node F64} {c : F64} (h : a.isConstVal c = true) : ∃ i v, a = .const i v := by
  cases a <;> simp [Node.isConstVal] at h
  exact ⟨_, _, rfl⟩

/-- The terms of a sum of two expressions. -/
theorem addN_terms {a b e : Node F64} {n m : ℕ} (ha : FlatSums a) (hb : FlatSums b) (hta : ∀ y ∈ a.terms, y.Tame σ t κ) (htb : ∀ y ∈ b.terms, y.Tame σ t κ)
    (hm : 4 * ((a.terms.map (Node.sizeAt t)).sum + (b.terms.map (Node.sizeAt t)).sum) ≤ maxSize) (h : addN a b n = .ok (e, m)) :
    nc e = nc a ++ nc b ∧ (∀ y ∈ kc e, y.Tame σ t κ) ∧
      ((kc e).map (Node.sizeAt t)).sum ≤ 1 + 2 * (((kc a).map (Node.sizeAt t)).sum + ((kc b).map (Node.sizeAt t)).sum) ∧ (kc e).length ≤ 1 := by
  obtain ⟨ea, la, -⟩ := terms_eq ha
  obtain ⟨eb, lb, -⟩ := terms_eq hb
  have hpos : ∀ l : List (Node F64), 0 ≤ (l.map (Node.sizeAt t)).sum := fun l => List.sum_nonneg fun r hr => by
    obtain ⟨y, -, rfl⟩ := List.mem_map.1 hr
    linarith [sizeAt_one t y]
  have hka := hpos (kc a)
  have hkb := hpos (kc b)
  have hsa : (a.terms.map (Node.sizeAt t)).sum = ((nc a).map (Node.sizeAt t)).sum + ((kc a).map (Node.sizeAt t)).sum := by
    conv_lhs => rw [ea]
    simp
  have hsb : (b.terms.map (Node.sizeAt t)).sum = ((nc b).map (Node.sizeAt t)).sum + ((kc b).map (Node.sizeAt t)).sum := by
    conv_lhs => rw [eb]
    simp
  have hna := hpos (nc a)
  have hnb := hpos (nc b)
  have hkta : ∀ y ∈ kc a, y.Tame σ t κ := fun y hy => hta y (List.mem_filter.1 hy).1
  have hktb : ∀ y ∈ kc b, y.Tame σ t κ := fun y hy => htb y (List.mem_filter.1 hy).1
  unfold addN at h
  split at h
  · rename_i h0
    rw [M.pure_ok] at h
    obtain ⟨i, v, rfl⟩ := isConstVal_const h0
    rw [h.1]
    exact ⟨by simp [nc_const], hktb, by linarith, lb⟩
  split at h
  · rename_i _ h0
    rw [M.pure_ok] at h
    obtain ⟨i, v, rfl⟩ := isConstVal_const h0
    rw [h.1]
    exact ⟨by simp [nc_const], hkta, by linarith, la⟩
  rw [gather_eq, gather_eq] at h
  simp only [List.nil_append] at h
  obtain ⟨z1, hz1, hb1⟩ := fold_is la (fun y hy => by simpa using (List.mem_filter.1 hy).2) hkta F64.is_zero (by rw [abs_zero]; linarith)
  have hu1 : 1 + uD ≤ 1.1 := by unfold uD; norm_num
  have hu0 := uD_nonneg
  rw [abs_zero, zero_add] at hb1
  have hb1' : |z1| ≤ 1.1 * ((kc a).map (Node.sizeAt t)).sum := by nlinarith
  obtain ⟨z2, hz2, hb2⟩ := fold_is lb (fun y hy => by simpa using (List.mem_filter.1 hy).2) hktb hz1 (by linarith)
  have hb2' : |z2| ≤ 1.1 * (1.1 * ((kc a).map (Node.sizeAt t)).sum + ((kc b).map (Node.sizeAt t)).sum) := by
    refine hb2.trans (mul_le_mul hu1 (by linarith) (by positivity) (by norm_num))
  generalize (kc b).foldl (fun c a => c +. cval a) ((kc a).foldl (fun c a => c +. cval a) zero) = c at h hz2
  have hct : ∀ i, (Node.const i c).Tame σ t κ := fun i => tame_const hz2 (by linarith)
  have hcs : ∀ i, (Node.const i c).sizeAt t ≤ 1 + 2 * (((kc a).map (Node.sizeAt t)).sum + ((kc b).map (Node.sizeAt t)).sum) := fun i => by
    simp only [Node.sizeAt, hz2.toReal]
    exact max_le (by linarith) (by linarith)
  have hf1 : ∀ l : List (Node F64), (∀ y ∈ l, y.isConstant = false) → l.filter (fun a => !a.isConstant) = l ∧ l.filter (fun a => a.isConstant) = [] := fun l hl =>
    ⟨List.filter_eq_self.2 fun y hy => by simp [hl y hy], List.filter_eq_nil_iff.2 fun y hy => by simp [hl y hy]⟩
  have hl : ∀ y ∈ nc a ++ nc b, y.isConstant = false := by
    intro y hy
    rcases List.mem_append.1 hy with hy | hy <;> simpa using (List.mem_filter.1 hy).2
  obtain ⟨f1, f2⟩ := hf1 _ hl
  unfold finishAdd at h
  split at h
  · rename_i h0
    rw [newConst_ok] at h
    rw [h.1, nc_const, kc_const]
    simp only [List.isEmpty_iff] at h0
    exact ⟨h0.symm, by simpa using hct _, by simpa using hcs _, by simp⟩
  split at h
  · rw [M.bind_ok] at h
    obtain ⟨k, j, h1, h2⟩ := h
    rw [newConst_ok] at h1
    rw [newAdd_ok] at h2
    rw [h2.2.1, h1.1]
    refine ⟨?_, ?_, ?_, ?_⟩
    · show List.filter _ (nc a ++ nc b ++ [_]) = _
      rw [List.filter_append, f1]
      simp [Node.isConstant]
    all_goals
      have e1 : kc (.add j (nc a ++ nc b ++ [.const n c])) = [.const n c] := by
        show List.filter _ (nc a ++ nc b ++ [_]) = _
        rw [List.filter_append, f2]
        simp [Node.isConstant]
      simp only [e1]
    · simpa using hct _
    · simpa using hcs _
    · simp
  · rw [newAdd_ok] at h
    rw [h.2.1]
    have e1 : kc (.add n (nc a ++ nc b)) = [] := f2
    refine ⟨f1, by simp [e1], by simp [e1]; linarith, by simp [e1]⟩

/-- What the difference of two expressions is. -/
theorem subN_tame {a b e : Node F64} {n m : ℕ} (ha : FlatSums a) (hb : FlatSums b) (hta : a.Tame σ t κ) (htb : b.Tame σ t κ)
    (hR : InRange (4 * (a.sizeAt t + b.sizeAt t)) (a.opsAt κ + 4 * b.opsAt κ + 8)) (h : subN a b n = .ok (e, m)) :
    FlatSums e ∧ e.Tame σ t κ ∧ ∀ x, gradV t x e = gradV t x a - gradV t x b ∧ (e.gradSize t κ x).size = (a.gradSize t κ x).size + (b.gradSize t κ x).size ∧
      (e.gradSize t κ x).ops ≤ (a.gradSize t κ x).ops + 3 * (a.gradSize t κ x).terms + ((b.gradSize t κ x).ops + 6 * (b.gradSize t κ x).terms) := by
  have hfe := flat_subN ha hb _ _ _ h
  unfold subN at h
  rw [M.bind_ok] at h
  obtain ⟨nb, k, h1, h2⟩ := h
  obtain ⟨hR1, hR2⟩ := hR
  have hN := negd hb htb (by omega) h1
  have sa := (sizeAt_terms t a).1
  have sb := (sizeAt_terms t b).1
  obtain ⟨t1, t2, t3, t4⟩ := addN_terms ha hN.flat hta.terms hN.tame (by rw [hN.size]; linarith) h2
  refine ⟨hfe, ?_, fun x => ⟨?_, ?_, ?_⟩⟩
  · obtain ⟨ee, -, -⟩ := terms_eq hfe
    obtain ⟨ea, -, -⟩ := terms_eq ha
    obtain ⟨eb, -, -⟩ := terms_eq hN.flat
    have one_a := sizeAt_one t a
    refine tame_of_terms (fun y hy => ?_) ⟨?_, ?_⟩
    · rw [ee] at hy
      rcases List.mem_append.1 hy with hy | hy
      · rw [t1] at hy
        rcases List.mem_append.1 hy with hy | hy
        · exact hta.terms _ (List.mem_filter.1 hy).1
        · exact hN.tame _ (List.mem_filter.1 hy).1
      · exact t2 y hy
    · rw [ee, t1]
      have e2 := hN.size
      rw [eb] at e2
      rw [ea] at sa
      simp only [List.map_append, List.sum_append] at e2 sa ⊢
      have hpos : ∀ l : List (Node F64), 0 ≤ (l.map (Node.sizeAt t)).sum := fun l => List.sum_nonneg fun r hr => by
        obtain ⟨y, -, rfl⟩ := List.mem_map.1 hr
        linarith [sizeAt_one t y]
      have := hpos (nc a)
      have := hpos (nc nb)
      linarith [sizeAt_one t b]
    · rw [ee, t1]
      have oa := (opsAt_terms κ a).1
      have ob := (opsAt_terms κ b).1
      have e2 := hN.ops
      rw [eb] at e2
      rw [ea] at oa
      simp only [List.map_append, List.sum_append] at e2 oa ⊢
      have e3 : ((kc e).map fun a => a.opsAt κ + 1).sum ≤ 2 := by
        have hc : ∀ y ∈ kc e, y.isConstant = true := fun y hy => by simpa using (List.mem_filter.1 hy).2
        generalize kc e = l at t4 hc
        match l, t4 with
        | [], _ => simp
        | [y], _ =>
          have := hc y (by simp)
          cases y <;> simp [Node.isConstant] at this
          simp [Node.opsAt]
      omega
  · rw [gradV_nc, t1, List.map_append, List.sum_append, ← gradV_nc, ← gradV_nc, hN.val]
    ring
  · rw [size_nc, t1, List.map_append, List.sum_append, ← size_nc, ← size_nc, hN.gsize]
  · refine (ops_nc t κ x e).1.trans ?_
    rw [t1, List.map_append, List.sum_append]
    exact Nat.add_le_add (ops_nc t κ x a).2.1 (hN.gops x)

/-- What the negation of an expression is. -/
theorem negN_tame {b e : Node F64} {n m : ℕ} (hb : FlatSums b) (htb : b.Tame σ t κ) (hk : 4 * b.opsAt κ + 5 ≤ 2 ^ 52) (hs : b.sizeAt t + 1 ≤ maxSize)
    (h : negN b n = .ok (e, m)) :
    FlatSums e ∧ e.Tame σ t κ ∧ ∀ x, gradV t x e = - gradV t x b ∧ (e.gradSize t κ x).size = (b.gradSize t κ x).size ∧
      (e.gradSize t κ x).ops ≤ (b.gradSize t κ x).ops + 6 * (b.gradSize t κ x).terms := by
  have h' : sMul negOne b n = .ok (e, m) := by cases b <;> exact h
  have hN := negd hb htb (by omega) h'
  have sb := (sizeAt_terms t b).1
  have ob := (opsAt_terms κ b).1
  have := hN.ops
  refine ⟨hN.flat, tame_of_terms hN.tame ⟨by rw [hN.size]; linarith, by omega⟩, fun x => ⟨hN.val x, hN.gsize x, (ops_nc t κ x e).1.trans (hN.gops x)⟩⟩

end

end Verif.R64
