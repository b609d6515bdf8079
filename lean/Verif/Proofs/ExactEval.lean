import Verif.Proofs.ExactData
import Verif.Spec.ExactEval

/-! # Exact evaluation in double precision -/

set_option linter.unusedSectionVars false

namespace Verif

variable [Libm] {σ : Env F64}

theorem sumFrom_exact {as : List (Node F64)} {ts : List ℚ} (h : List.Forall₂ (fun a t => (Node.evaluate σ a).HasValue t) as ts) :
    ∀ {acc : F64} {y : ℚ}, acc.HasValue y → (∀ l, l <+: ts → IsDouble (y + l.sum)) → (Node.evaluate.sumFrom σ acc as).HasValue (y + ts.sum) := by
  induction h with
  | nil =>
    intro acc y hy _
    simpa [Node.evaluate.sumFrom] using hy
  | @cons a t as ts ht _ ih =>
    intro acc y hy hp
    have h1 := F64.add_exact hy ht (by simpa using hp [t] (by simp))
    have := ih h1 fun l hl => by
      have := hp (t :: l) (by simpa using hl)
      rwa [List.sum_cons, ← add_assoc] at this
    rw [List.sum_cons, ← add_assoc]
    exact this

instance evalEx (σ : Env F64) : ExEv (Node.evaluate σ) where
  κ q := q
  κ_zero := rfl
  κ_mul _ _ := rfl
  const _ {_ _} h := h
  sum i {as ts} h hp := by
    have := sumFrom_exact h (acc := zero) (y := 0) F64.zero_value (by simpa using hp)
    rwa [zero_add] at this
  mulL i j {c a k x} hc ha hd := F64.mul_exact hc ha hd
  mulR i j {c a k x} hc ha hd := by
    rw [mul_comm] at hd ⊢
    exact F64.mul_exact ha hc hd
  divR i j {c a k x} hc hk ha hd := F64.div_exact ha hc hk hd

/-- Terms counted in units of `2^g`. -/
def units (g : ℤ) (ts : List ℤ) : List ℚ := ts.map fun t : ℤ => ((t : ℤ) : ℚ) * 2 ^ g

/-- The sum of the absolute values. -/
def absSumZ (ts : List ℤ) : ℕ := (ts.map Int.natAbs).sum

theorem units_sum (g : ℤ) : ∀ ts, (units g ts).sum = (ts.sum : ℤ) * 2 ^ g
  | [] => by simp [units]
  | t :: ts => by
    have := units_sum g ts
    unfold units at this ⊢
    rw [List.map_cons, List.sum_cons, this, List.sum_cons]
    push_cast
    ring

theorem absSumZ_append (ts us : List ℤ) : absSumZ (ts ++ us) = absSumZ ts + absSumZ us := by simp [absSumZ]

theorem natAbs_sum_le : ∀ ts : List ℤ, ts.sum.natAbs ≤ absSumZ ts
  | [] => by simp [absSumZ]
  | t :: ts => by
    have := natAbs_sum_le ts
    have := Int.natAbs_add_le t ts.sum
    simp only [absSumZ, List.map_cons, List.sum_cons] at *
    omega

theorem absSumZ_prefix {l ts : List ℤ} (h : l <+: ts) : absSumZ l ≤ absSumZ ts := by
  obtain ⟨r, rfl⟩ := h
  rw [absSumZ_append]
  omega

theorem absSumZ_mem {t : ℤ} {ts : List ℤ} (h : t ∈ ts) : t.natAbs ≤ absSumZ ts := by
  induction ts with
  | nil => cases h
  | cons a ts ih =>
    simp only [absSumZ, List.map_cons, List.sum_cons]
    rcases List.mem_cons.1 h with rfl | h
    · omega
    · have := ih h
      simp only [absSumZ] at this
      omega

theorem absSumZ_scale (k : ℤ) (ts : List ℤ) : absSumZ (ts.map (k * ·)) = k.natAbs * absSumZ ts := by
  simp only [absSumZ, List.map_map]
  induction ts with
  | nil => simp
  | cons a ts ih =>
    simp only [List.map_cons, List.sum_cons, Function.comp, Int.natAbs_mul] at ih ⊢
    rw [ih]
    ring

theorem Fits.double {g : ℤ} {m : ℕ} (h : Fits g m) {z : ℤ} (hz : z.natAbs ≤ m) : IsDouble (z * 2 ^ g) := by
  refine isDouble_fixed h.1 h.2.1 ?_
  have := h.2.2
  rw [Int.abs_eq_natAbs]
  have h1 : z.natAbs ≤ 2 ^ 53 := le_trans hz this
  exact_mod_cast h1

/-- The expression is a sum of terms and a constant, counted in units of `2^g`, with the value `z` and the size `m`. -/
def FixRep (σ : Env F64) (e : Node F64) (z : ℤ) (g : ℤ) (m : ℕ) : Prop :=
  Fits g m ∧ ∃ (ts : List ℤ) (q : ℤ), ExRep (Node.evaluate σ) e (units g ts) (q * 2 ^ g) ∧ ts.sum + q = z ∧ absSumZ ts + q.natAbs ≤ m

theorem FixRep.eval {e : Node F64} {z g : ℤ} {m : ℕ} (h : FixRep σ e z g m) : (e.evaluate σ).HasValue (z * 2 ^ g) := by
  obtain ⟨hm, ts, q, h1, rfl, h3⟩ := h
  have := h1.eval (by
    intro l hl
    change l <+: units g ts ++ [(q : ℚ) * 2 ^ g] at hl
    have e1 : units g ts ++ [(q : ℚ) * 2 ^ g] = units g (ts ++ [q]) := by simp [units]
    rw [e1] at hl
    obtain ⟨l', h4, rfl⟩ : ∃ l', l' <+: ts ++ [q] ∧ l = units g l' := by
      refine ⟨(ts ++ [q]).take l.length, List.take_prefix _ _, ?_⟩
      have := List.prefix_iff_eq_take.1 hl
      rw [units, ← List.map_take] at this
      exact this
    rw [units_sum]
    refine hm.double (le_trans (natAbs_sum_le l') (le_trans (absSumZ_prefix h4) ?_))
    rw [absSumZ_append]
    simpa [absSumZ] using h3)
  rw [units_sum] at this
  change (e.evaluate σ).HasValue ((ts.sum : ℤ) * 2 ^ g + (q : ℚ) * 2 ^ g) at this
  rw [← add_mul] at this
  rw [Int.cast_add]
  exact this

theorem FixRep.abs_le {e : Node F64} {z g : ℤ} {m : ℕ} (h : FixRep σ e z g m) : z.natAbs ≤ m := by
  obtain ⟨-, ts, q, -, rfl, h3⟩ := h
  have h1 := Int.natAbs_add_le ts.sum q
  have h2 := natAbs_sum_le ts
  omega

theorem FixRep.ofConst {i : ℕ} {c : F64} {z g : ℤ} (hc : c.HasValue (z * 2 ^ g)) (hm : Fits g z.natAbs) : FixRep σ (.const i c) z g z.natAbs :=
  ⟨hm, [], z, .const hc, by simp, by simp [absSumZ]⟩

theorem FixRep.ofAtom {e : Node F64} {z g : ℤ} {m : ℕ} (ha : isAtom e = true) (hv : (e.evaluate σ).HasValue (z * 2 ^ g)) (hm : Fits g m)
    (hz : z.natAbs ≤ m) : FixRep σ e z g m := by
  refine ⟨hm, [z], 0, ?_, by simp, by simpa [absSumZ] using hz⟩
  have := ExRep.atom ha hv
  simpa [units] using this

theorem FixRep.add {a b e : Node F64} {z w g : ℤ} {m m' : ℕ} (ha : FixRep σ a z g m) (hb : FixRep σ b w g m') (hm : Fits g (m + m'))
    (h : ∀ {T T' : List ℚ} {q q' : ℚ}, ExRep (Node.evaluate σ) a T q → ExRep (Node.evaluate σ) b T' q' → IsDouble (q + q') →
      ExRep (Node.evaluate σ) e (T ++ T') (q + q')) : FixRep σ e (z + w) g (m + m') := by
  obtain ⟨-, ts, q, h1, rfl, h3⟩ := ha
  obtain ⟨-, us, r, h4, rfl, h6⟩ := hb
  have e1 : (q : ℚ) * 2 ^ g + r * 2 ^ g = ((q + r : ℤ) : ℚ) * 2 ^ g := by push_cast; ring
  have hq := Int.natAbs_add_le q r
  have := h h1 h4 (by rw [e1]; exact hm.double (by omega))
  refine ⟨hm, ts ++ us, q + r, ?_, by rw [List.sum_append]; ring, by rw [absSumZ_append]; omega⟩
  rw [e1] at this
  simpa [units] using this

theorem FixRep.scale {a e : Node F64} {f : Node F64 → M (Node F64)} {z g g' k : ℤ} {m m' : ℕ} (ha : FixRep σ a z g m)
    (hf : ScalesD (Node.evaluate σ) f ((k : ℚ) * 2 ^ g')) (hk : k.natAbs ≤ m') (hm : Fits (g + g') (m * m')) {n n' : ℕ} (h : f a n = .ok (e, n')) :
    FixRep σ e (z * k) (g + g') (m * m') := by
  obtain ⟨-, ts, q, h1, rfl, h3⟩ := ha
  have hz : (2 : ℚ) ^ (g + g') = 2 ^ g * 2 ^ g' := zpow_add₀ (by norm_num) _ _
  have e1 : ∀ t : ℤ, (k : ℚ) * 2 ^ g' * (t * 2 ^ g) = ((k * t : ℤ) : ℚ) * 2 ^ (g + g') := by
    intro t; rw [hz]; push_cast; ring
  have hle : ∀ t : ℤ, t.natAbs ≤ m → (k * t).natAbs ≤ m * m' := by
    intro t ht
    rw [Int.natAbs_mul, mul_comm]
    exact Nat.mul_le_mul ht hk
  have := exrep_scale hf h1 (by
      intro t ht
      obtain ⟨t', ht', rfl⟩ := List.mem_map.1 ht
      rw [e1]
      exact hm.double (hle t' (by have := absSumZ_mem ht'; omega))) (by rw [e1]; exact hm.double (hle q (by omega))) h
  rw [e1] at this
  by_cases h0 : k = 0
  · subst h0
    refine ⟨hm, [], 0, ?_, by simp, by simp [absSumZ]⟩
    simpa [units] using this
  · have hne : (k : ℚ) * 2 ^ g' ≠ 0 := mul_ne_zero (by exact_mod_cast h0) (two_zpow_pos g').ne'
    rw [if_neg hne] at this
    refine ⟨hm, ts.map (k * ·), k * q, ?_, ?_, ?_⟩
    · have e2 : (units g ts).map (fun x => (k : ℚ) * 2 ^ g' * x) = units (g + g') (ts.map (k * ·)) := by
        simp only [units, List.map_map]
        refine List.map_congr_left fun t _ => ?_
        simp only [Function.comp]
        rw [e1]
      rw [e2] at this
      exact this
    · rw [List.sum_map_mul_left]
      simp
      ring
    · rw [absSumZ_scale, Int.natAbs_mul, ← Nat.mul_add, mul_comm]
      exact Nat.mul_le_mul h3 hk

theorem fits_neg {g : ℤ} {m : ℕ} (h : Fits g m) : Fits (g + 0) (m * 1) := by simpa using h

theorem negOne_units : F64.HasValue (negOne : F64) (((-1 : ℤ) : ℚ) * 2 ^ (0 : ℤ)) := by
  have := F64.negOne_value
  simpa using this

theorem FixRep.neg {a e : Node F64} {z g : ℤ} {m : ℕ} (ha : FixRep σ a z g m) {n n' : ℕ} (h : sMul negOne a n = .ok (e, n')) : FixRep σ e (-z) g m := by
  have := ha.scale (sMul_scalesD _ negOne_units) (m' := 1) (by simp) (fits_neg ha.1) h
  simpa using this

theorem mulN_general {a b : Node F64} (ha : ∀ i c, a ≠ .const i c) (hb : ∀ i c, b ≠ .const i c) : mulN a b = newMul a b := by
  cases a <;> cases b <;> first | rfl | exact absurd rfl (ha _ _) | exact absurd rfl (hb _ _)

theorem computes_rep {e : Node F64} {z g : ℤ} {m : ℕ} (h : Computes σ e z g m) : FixRep σ e z g m := by
  induction h with
  | const hc hm h =>
    rw [newConst_ok] at h
    obtain ⟨rfl, -⟩ := h
    exact .ofConst hc hm
  | var h ha hv hm =>
    rw [newVar_eq] at h
    cases h
    refine .ofAtom rfl ?_ hm le_rfl
    simpa [Node.evaluate, ha] using hv
  | @finer e m z g j _ hm ih =>
    obtain ⟨-, ts, q, h1, rfl, h3⟩ := ih
    have hz : (2 : ℚ) ^ g = 2 ^ j * 2 ^ (g - j) := by
      rw [← zpow_natCast, ← zpow_add₀ (by norm_num)]
      congr 1
      ring
    have e1 : ∀ t : ℤ, (t : ℚ) * 2 ^ g = ((2 ^ j * t : ℤ) : ℚ) * 2 ^ (g - j) := by
      intro t; rw [hz]; push_cast; ring
    refine ⟨hm, ts.map (2 ^ j * ·), 2 ^ j * q, ?_, ?_, ?_⟩
    · rw [e1] at h1
      have e2 : units g ts = units (g - j) (ts.map (2 ^ j * ·)) := by
        simp only [units, List.map_map]
        refine List.map_congr_left fun t _ => ?_
        simp only [Function.comp]
        rw [e1]
      rw [e2] at h1
      exact h1
    · rw [List.sum_map_mul_left]
      simp
      ring
    · rw [absSumZ_scale, Int.natAbs_mul, ← Nat.mul_add, mul_comm]
      refine Nat.mul_le_mul h3 ?_
      rw [Int.natAbs_pow]
      norm_num
  | add _ _ hm h iha ihb => exact iha.add ihb hm fun h1 h2 hq => exrep_addN h1 h2 hq h
  | @addScalar a e m c n n' z g k _ hc hm h ih =>
    refine ih.add (.ofConst (i := 0) hc ⟨hm.1, hm.2.1, by have := hm.2.2; omega⟩) hm fun h1 h2 hq => ?_
    obtain ⟨rfl, hc'⟩ := h2.of_const
    rw [List.append_nil]
    exact exrep_addS h1 hc' hq h
  | @scalarAdd a e m c n n' z g k _ hc hm h ih =>
    refine FixRep.add (.ofConst (i := 0) hc ⟨hm.1, hm.2.1, by have := hm.2.2; omega⟩) ih hm fun h2 h1 hq => ?_
    obtain ⟨rfl, hc'⟩ := h2.of_const
    exact exrep_sAdd h1 hc' hq h
  | sub _ _ hm h iha ihb =>
    unfold subN at h
    rw [M.bind_ok] at h
    obtain ⟨nb, n1, hnb, h⟩ := h
    rw [sub_eq_add_neg]
    exact iha.add (ihb.neg hnb) hm fun h1 h2 hq => exrep_addN h1 h2 hq h
  | @subScalar a e m c n n' z g k _ hc hm h ih =>
    unfold subS at h
    rw [M.bind_ok] at h
    obtain ⟨kn, n1, hk, h⟩ := h
    rw [newConst_ok] at hk
    obtain ⟨rfl, -⟩ := hk
    rw [M.bind_ok] at h
    obtain ⟨nb, n2, hnb, h⟩ := h
    rw [sub_eq_add_neg]
    exact ih.add ((FixRep.ofConst (i := n) hc ⟨hm.1, hm.2.1, by have := hm.2.2; omega⟩).neg hnb) hm fun h1 h2 hq => exrep_addN h1 h2 hq h
  | @scalarSub a e m c n n' z g k _ hc hm h ih =>
    unfold sSub at h
    rw [M.bind_ok] at h
    obtain ⟨kn, n1, hk, h⟩ := h
    rw [newConst_ok] at hk
    obtain ⟨rfl, -⟩ := hk
    rw [M.bind_ok] at h
    obtain ⟨nb, n2, hnb, h⟩ := h
    rw [sub_eq_add_neg]
    exact (FixRep.ofConst (i := n) hc ⟨hm.1, hm.2.1, by have := hm.2.2; omega⟩).add (ih.neg hnb) hm fun h1 h2 hq => exrep_addN h1 h2 hq h
  | neg _ h ih =>
    rw [negN_sMul] at h
    exact ih.neg h
  | @mul a b e m m' n n' z w g g' _ _ hm h iha ihb =>
    by_cases hca : ∃ i c, a = .const i c
    · obtain ⟨i, c, rfl⟩ := hca
      rw [mulN_const_leftD] at h
      have hv : F64.HasValue c ((z : ℚ) * 2 ^ g) := iha.eval
      rw [add_comm g, mul_comm m] at hm ⊢
      rw [mul_comm z]
      exact ihb.scale (mulCL_scalesD _ i hv) iha.abs_le hm h
    · by_cases hcb : ∃ i c, b = .const i c
      · obtain ⟨i, c, rfl⟩ := hcb
        have : mulN a (.const i c) = mulCR i c a := by
          cases a <;> first | rfl | exact absurd ⟨_, _, rfl⟩ hca
        rw [this] at h
        have hv : F64.HasValue c ((w : ℚ) * 2 ^ g') := ihb.eval
        exact iha.scale (mulCR_scalesD _ i hv) ihb.abs_le hm h
      · rw [mulN_general (fun i c hc => hca ⟨i, c, hc⟩) (fun i c hc => hcb ⟨i, c, hc⟩), newMul_eq] at h
        cases h
        have hz : (2 : ℚ) ^ (g + g') = 2 ^ g * 2 ^ g' := zpow_add₀ (by norm_num) _ _
        have hle : (z * w).natAbs ≤ m * m' := by
          rw [Int.natAbs_mul]
          exact Nat.mul_le_mul iha.abs_le ihb.abs_le
        refine .ofAtom rfl ?_ hm hle
        have e1 : ((z * w : ℤ) : ℚ) * 2 ^ (g + g') = z * 2 ^ g * (w * 2 ^ g') := by rw [hz]; push_cast; ring
        have hd := hm.double hle
        rw [e1] at hd ⊢
        exact F64.mul_exact iha.eval ihb.eval hd
  | @mulScalar a e m c n n' z g g' k _ hc hm h ih => exact ih.scale (mulS_scalesD _ hc) le_rfl hm h
  | @scalarMul a e m c n n' z g g' k _ hc hm h ih =>
    rw [add_comm g', mul_comm k.natAbs] at hm ⊢
    rw [mul_comm k]
    exact ih.scale (sMul_scalesD _ hc) le_rfl hm h

end Verif
