import Verif.Proofs.Rounding64Rep

/-! # Rounding errors in double precision: the operators -/

set_option linter.unusedSectionVars false

namespace Verif.R64

variable [Libm]

theorem rep_const {ev : Node F64 → F64} [LinEv ev] {e : Node F64} {c' : F64} {c : ℝ} (hc : c'.Is c) {n n' : ℕ} (h : newConst c' n = .ok (e, n')) :
    Rep ev e (LinEv.κ ev c) |LinEv.κ ev c| 1 := by
  rw [newConst_ok] at h
  obtain ⟨rfl, -⟩ := h
  exact Rep.single rfl (by rw [LinEv.const (ev := ev)]; exact LinEv.K_num hc) (.exact _)

theorem rep_addS {ev : Node F64 → F64} [LinEv ev] {a e : Node F64} {c' : F64} {v m c : ℝ} {k n n' : ℕ} (ha : Rep ev a v m k) (hc : c'.Is c)
    (hR : InRange (m + |LinEv.κ ev c|) (k + 2))
    (h : addS a c' n = .ok (e, n')) : Rep ev e (v + LinEv.κ ev c) (m + |LinEv.κ ev c|) (k + 2) := by
  unfold addS at h
  split at h
  · rename_i h0
    rw [F64.eqz_num hc] at h0
    rw [M.pure_ok] at h
    obtain ⟨rfl, -⟩ := h
    simpa [h0, LinEv.κ_zero] using ha.mono (show k ≤ k + 2 by omega)
  · rw [M.bind_ok] at h
    obtain ⟨cn, n1, hk, h⟩ := h
    exact rep_sum ha (rep_const hc hk) hR h

theorem rep_sAdd {ev : Node F64 → F64} [LinEv ev] {a e : Node F64} {c' : F64} {v m c : ℝ} {k n n' : ℕ} (ha : Rep ev a v m k) (hc : c'.Is c)
    (hR : InRange (|LinEv.κ ev c| + m) (k + 2))
    (h : sAdd c' a n = .ok (e, n')) : Rep ev e (LinEv.κ ev c + v) (|LinEv.κ ev c| + m) (k + 2) := by
  unfold sAdd at h
  split at h
  · rename_i h0
    rw [F64.eqz_num hc] at h0
    rw [M.pure_ok] at h
    obtain ⟨rfl, -⟩ := h
    simpa [h0, LinEv.κ_zero] using ha.mono (show k ≤ k + 2 by omega)
  · rw [M.bind_ok] at h
    obtain ⟨cn, n1, hk, h⟩ := h
    exact (rep_sum (rep_const hc hk) ha (hR.mono le_rfl (by omega)) h).mono (by omega)

theorem rep_sMul {ev : Node F64 → F64} [LinEv ev] {a e : Node F64} {c' : F64} {v m c : ℝ} {k n n' : ℕ} (ha : Rep ev a v m k) (hRa : InRange m k) (hc : c'.Is c)
    (hR : InRange (|c| * m + lost c m k) (k + 1))
    (h : sMul c' a n = .ok (e, n')) : Rep ev e (c * v) (|c| * m + lost c m k) (k + 1) := by
  have := rep_scale (.exact c) (sMul_scales ev hc).1 (sMul_scales ev hc).2 ha hRa (by rwa [Nat.zero_add]) h
  rwa [Nat.zero_add] at this

theorem rep_mulS {ev : Node F64 → F64} [LinEv ev] {a e : Node F64} {c' : F64} {v m c : ℝ} {k n n' : ℕ} (ha : Rep ev a v m k) (hRa : InRange m k) (hc : c'.Is c)
    (hR : InRange (m * |c| + lost c m k) (k + 1))
    (h : mulS c' a n = .ok (e, n')) : Rep ev e (v * c) (m * |c| + lost c m k) (k + 1) := by
  have := rep_scale (.exact c) (mulS_scales ev hc).1 (mulS_scales ev hc).2 ha hRa (by rwa [Nat.zero_add, mul_comm |c|]) h
  rwa [Nat.zero_add, mul_comm c, mul_comm |c|] at this

theorem rep_minus {ev : Node F64 → F64} [LinEv ev] {a e : Node F64} {v m : ℝ} {k n n' : ℕ} (ha : Rep ev a v m k) (hR : InRange m (k + 1))
    (h : sMul negOne a n = .ok (e, n')) : Rep ev e (-v) m (k + 1) := by
  have ht : tiny (-1) = 0 := by have := tiny_int (-1); push_cast at this; exact this
  have e0 : |(-1 : ℝ)| * m + lost (-1) m k = m := by simp [lost, ht]
  have := rep_sMul ha (hR.mono le_rfl (by omega)) F64.is_negOne (by rwa [e0]) h
  rwa [e0, neg_one_mul] at this

theorem rep_subN {ev : Node F64 → F64} [LinEv ev] {a b e : Node F64} {v w m m' : ℝ} {k k' n n' : ℕ} (ha : Rep ev a v m k) (hb : Rep ev b w m' k')
    (hR : InRange (m + m') (k + k' + 2)) (h : subN a b n = .ok (e, n')) : Rep ev e (v - w) (m + m') (k + k' + 2) := by
  have n1 := ha.nonneg
  unfold subN at h
  rw [M.bind_ok] at h
  obtain ⟨nb, n1, hn, h⟩ := h
  rw [sub_eq_add_neg]
  exact (rep_addN ha (rep_minus hb (hR.mono (by linarith) (by omega)) hn) (hR.mono le_rfl (by omega)) h).mono (by omega)

theorem rep_subS {ev : Node F64 → F64} [LinEv ev] {a e : Node F64} {c' : F64} {v m c : ℝ} {k n n' : ℕ} (ha : Rep ev a v m k) (hc : c'.Is c)
    (hR : InRange (m + |LinEv.κ ev c|) (k + 3))
    (h : subS a c' n = .ok (e, n')) : Rep ev e (v - LinEv.κ ev c) (m + |LinEv.κ ev c|) (k + 3) := by
  have n1 := ha.nonneg
  unfold subS at h
  rw [M.bind_ok] at h
  obtain ⟨kc, n0, hk, h⟩ := h
  rw [M.bind_ok] at h
  obtain ⟨nb, n1, hn, h⟩ := h
  rw [sub_eq_add_neg]
  exact rep_addN ha (rep_minus (rep_const hc hk) (hR.mono (by linarith) (by omega)) hn) hR h

theorem rep_sSub {ev : Node F64 → F64} [LinEv ev] {a e : Node F64} {c' : F64} {v m c : ℝ} {k n n' : ℕ} (ha : Rep ev a v m k) (hc : c'.Is c)
    (hR : InRange (|LinEv.κ ev c| + m) (k + 3))
    (h : sSub c' a n = .ok (e, n')) : Rep ev e (LinEv.κ ev c - v) (|LinEv.κ ev c| + m) (k + 3) := by
  have n1 := abs_nonneg (LinEv.κ ev c)
  unfold sSub at h
  rw [M.bind_ok] at h
  obtain ⟨kc, n0, hk, h⟩ := h
  rw [M.bind_ok] at h
  obtain ⟨nb, n1, hn, h⟩ := h
  rw [sub_eq_add_neg]
  exact (rep_addN (rep_const hc hk) (rep_minus ha (hR.mono (by linarith) (by omega)) hn) (hR.mono le_rfl (by omega)) h).mono (by omega)

theorem rep_negN {ev : Node F64 → F64} [LinEv ev] {a e : Node F64} {v m : ℝ} {k n n' : ℕ} (ha : Rep ev a v m k) (hR : InRange m (k + 1))
    (h : negN a n = .ok (e, n')) : Rep ev e (-v) m (k + 1) := by
  cases a
  case const i w =>
    apply rep_minus ha hR
    exact h
  all_goals exact rep_minus ha hR h

/-- What a quotient of something of size `m` can lose by underflow. -/
noncomputable def lostD (m : ℝ) : ℝ := if m = 0 then 0 else tauD

theorem lostD_nonneg (m : ℝ) : 0 ≤ lostD m := by unfold lostD; split_ifs; exacts [le_rfl, tauD_nonneg]
theorem lostD_le (m : ℝ) : lostD m ≤ tauD := by unfold lostD; split_ifs; exacts [tauD_nonneg, le_rfl]

theorem tauAt_lostD {x v m : ℝ} {j : ℕ} (h : Approx uD x v m j) : tauAt x ≤ lostD m := by
  unfold lostD
  split_ifs with hm
  · subst hm
    rw [Approx.eq_zero h]
    simp [tauAt]
  · exact tauAt_le x

/-- A quotient with a number `c` that stands for the inverse of `vc`. -/
theorem rep_quot {ev : Node F64 → F64} [LinEv ev] {a e : Node F64} {c' : F64} {v m c vc mc : ℝ} {k kc : ℕ} (ha : Rep ev a v m k) (hRa : InRange m k)
    (hc' : c'.Is c) (hc : c ≠ 0) (hinv : Approx uD c⁻¹ vc mc kc) (hR : InRange (m * mc + lostD m) (k + kc + 2))
    (h : (c = 1 ∧ e = a) ∨ ((∃ i z, a = .const i z ∧ z.Is 0) ∧ ∃ i z, e = .const i z ∧ z.Is 0) ∨
      (∃ i j w, a = .const i w ∧ e = .const j (w /. c')) ∨ ∃ i j, e = .div i a (.const j c')) :
    Rep ev e (v * vc) (m * mc + lostD m) (k + kc + 2) := by
  obtain ⟨x, hx, hax, -⟩ := ha.eval hRa
  have hp := hax.mul uD_nonneg hinv
  rw [← div_eq_mul_inv] at hp
  have ht := lostD_nonneg m
  have ht' := tauAt_lostD hax
  have hn := hp.nonneg
  have hb := hp.bound (hR.mono (by linarith) (by omega))
  have hg := hp.grow uD_nonneg (show m * mc ≤ m * mc + lostD m by linarith)
  rcases h with ⟨rfl, rfl⟩ | ⟨⟨i, z0, rfl, hz0⟩, j, z, rfl, hz⟩ | ⟨i, j, w, rfl, rfl⟩ | ⟨i, j, rfl⟩
  · rw [inv_one] at hinv
    exact ((rep_one ha hinv).mono (by omega)).grow (by linarith)
  · have hx0 := hx.unique (LinEv.constZero ev i hz0)
    subst hx0
    rw [zero_div] at hg
    exact (Rep.single rfl (LinEv.constZero ev j hz) hg).mono (by omega)
  · rw [LinEv.const (ev := ev)] at hx
    obtain ⟨z, hz, hz'⟩ := LinEv.K_div hc' hc hx hb
    exact (Rep.single rfl (by rw [LinEv.const (ev := ev)]; exact hz) (hg.roundT uD_nonneg (by linarith) hz')).mono (by omega)
  · obtain ⟨z, hz, hz'⟩ := LinEv.divR i j hc' hc hx hb
    exact (Rep.single rfl hz (hg.roundT uD_nonneg (by linarith) hz')).mono (by omega)

theorem divS_cases {a e : Node F64} {c' : F64} {c : ℝ} (hc : c'.Is c) {n n' : ℕ} (h : divS a c' n = .ok (e, n')) :
    c ≠ 0 ∧ ((c = 1 ∧ e = a) ∨ ((∃ i z, a = .const i z ∧ z.Is 0) ∧ ∃ i z, e = .const i z ∧ z.Is 0) ∨
      (∃ i j w, a = .const i w ∧ e = .const j (w /. c')) ∨ ∃ i j, e = .div i a (.const j c')) := by
  unfold divS at h
  split at h
  · exact absurd h (by simp [M.panic])
  rename_i h0
  rw [F64.eqz_num hc] at h0
  refine ⟨h0, ?_⟩
  split at h
  · rename_i h1
    rw [F64.eqo_num hc] at h1
    rw [M.pure_ok] at h
    exact .inl ⟨h1, h.1⟩
  split at h
  · rename_i h1
    rw [newConst_ok] at h
    exact .inr (.inl ⟨isConst_zero h1, n, _, h.1, F64.is_zero⟩)
  split at h
  · rename_i h1
    cases a <;> simp [Node.isConstant] at h1
    simp only [Node.evaluate] at h
    rw [newConst_ok] at h
    exact .inr (.inr (.inl ⟨_, n, _, rfl, h.1⟩))
  · rw [M.bind_ok] at h
    obtain ⟨cn, n1, hk, h⟩ := h
    rw [newConst_ok] at hk
    obtain ⟨rfl, -⟩ := hk
    rw [newDiv_eq] at h
    cases h
    exact .inr (.inr (.inr ⟨_, _, rfl⟩))

theorem rep_divS {ev : Node F64 → F64} [LinEv ev] {a e : Node F64} {c' : F64} {v m c : ℝ} {k n n' : ℕ} (ha : Rep ev a v m k) (hRa : InRange m k) (hc : c'.Is c)
    (hR : InRange (m / |c| + lostD m) (k + 2))
    (h : divS a c' n = .ok (e, n')) : Rep ev e (v / c) (m / |c| + lostD m) (k + 2) := by
  obtain ⟨h0, h⟩ := divS_cases hc h
  have hinv : Approx uD c⁻¹ c⁻¹ |c|⁻¹ 0 := by rw [← abs_inv]; exact .exact _
  rw [div_eq_mul_inv m] at hR
  rw [div_eq_mul_inv v, div_eq_mul_inv m]
  exact rep_quot ha hRa hc h0 hinv hR h

/-- A quotient with a handle of a constant. -/
theorem rep_divC {ev : Node F64 → F64} [LinEv ev] {a e : Node F64} {c' : F64} {v m c vc mc : ℝ} {k kc j n n' : ℕ} (ha : Rep ev a v m k) (hRa : InRange m k)
    (hc' : c'.Is c) (hc : c ≠ 0) (hinv : Approx uD c⁻¹ vc mc kc) (hR : InRange (m * mc + lostD m) (k + kc + 2)) (h : divN a (.const j c') n = .ok (e, n')) :
    Rep ev e (v * vc) (m * mc + lostD m) (k + kc + 2) := by
  refine rep_quot ha hRa hc' hc hinv hR ?_
  unfold divN at h
  split at h
  · exact absurd h (by simp [M.panic])
  split at h
  · rename_i h1
    rw [M.pure_ok] at h
    exact .inl ⟨(F64.eqo_num hc').1 h1, h.1⟩
  split at h
  · rename_i h1
    rw [newConst_ok] at h
    exact .inr (.inl ⟨isConst_zero h1, n, _, h.1, F64.is_zero⟩)
  split at h
  · rename_i h1
    cases a <;> simp [Node.isConstant] at h1
    simp only [Node.evaluate] at h
    rw [newConst_ok] at h
    exact .inr (.inr (.inl ⟨_, n, _, rfl, h.1⟩))
  · rw [newDiv_eq] at h
    cases h
    exact .inr (.inr (.inr ⟨_, _, rfl⟩))

/-- A product with a handle of a constant. -/
theorem rep_mulC {ev : Node F64 → F64} [LinEv ev] {a e : Node F64} {c' : F64} {v m c vc mc : ℝ} {k kc j n n' : ℕ} (ha : Rep ev a v m k) (hRa : InRange m k)
    (hc' : c'.Is c) (hc : Approx uD c vc mc kc) (hR : InRange (mc * m + lost c m k) (kc + k + 1))
    (h : mulN a (.const j c') n = .ok (e, n') ∨ mulN (.const j c') a n = .ok (e, n')) :
    Rep ev e (vc * v) (mc * m + lost c m k) (kc + k + 1) := by
  have hR' : mulCR j c' a n = .ok (e, n') ∨ mulCL j c' a n = .ok (e, n') ∨ ∃ i w, a = .const i w ∧ mulCL i w (.const j c') n = .ok (e, n') := by
    rcases h with h | h
    · cases a
      case const i w => exact .inr (.inr ⟨i, w, rfl, h⟩)
      all_goals exact .inl h
    · exact .inr (.inl (by simpa [mulN] using h))
  rcases hR' with h | h | ⟨i, w, rfl, hw⟩
  · exact rep_scale hc (mulCR_scales ev j hc').1 (mulCR_scales ev j hc').2 ha hRa hR h
  · exact rep_scale hc (mulCL_scales ev j hc').1 (mulCL_scales ev j hc').2 ha hRa hR h
  · -- two constants: the left factor is treated first, with the same outcome as from the right
    have h' : mulCR j c' (.const i w) n = .ok (e, n') := by simpa only [mulCL, mulCR] using hw
    exact rep_scale hc (mulCR_scales ev j hc').1 (mulCR_scales ev j hc').2 ha hRa hR h'

/-! ## The value of an expression -/

theorem sumFrom_approx {σ : Env F64} {k : ℕ} {as : List (Node F64)} {ts : List (ℝ × ℝ)}
    (h : List.Forall₂ (fun a t => ∃ x, (a.evaluate σ).Is x ∧ Approx uD x t.1 t.2 k) as ts) :
    ∀ {acc : F64} {xa va ma : ℝ} {j : ℕ}, k ≤ j → acc.Is xa → Approx uD xa va ma j → InRange (ma + (ts.map Prod.snd).sum) (j + as.length) →
    ∃ x, (Node.evaluate.sumFrom σ acc as).Is x ∧
      Approx uD x (va + (ts.map Prod.fst).sum) (ma + (ts.map Prod.snd).sum) (j + as.length) := by
  induction h with
  | nil =>
    intro acc xa va ma j _ hacc ha _
    exact ⟨xa, hacc, by simpa using ha⟩
  | @cons a t as ts ht hts ih =>
    intro acc xa va ma j hj hacc ha hR
    simp only [List.map_cons, List.sum_cons, List.length_cons] at hR ⊢
    rw [← add_assoc, show j + (as.length + 1) = j + 1 + as.length by omega] at hR ⊢
    rw [← add_assoc]
    obtain ⟨y, hy, hay⟩ := ht
    have hnn : 0 ≤ (ts.map Prod.snd).sum := by
      clear ih hR
      induction hts with
      | nil => simp
      | cons h _ ih =>
        simp only [List.map_cons, List.sum_cons]
        obtain ⟨x, -, h⟩ := h
        have := h.nonneg
        linarith
    have hs := ha.add (hay.mono uD_nonneg hj)
    obtain ⟨z, hz, hz'⟩ := F64.is_add hacc hy (hs.bound (hR.mono (by linarith) (by omega)))
    exact ih (by omega) hz (hs.round uD_nonneg hz') hR

instance evalLin (σ : Env F64) : LinEv (Node.evaluate σ) where
  K a := a
  κ c := c
  const _ _ := rfl
  K_num h := h
  κ_lin c := (mul_one c).symm
  K_add ha hb hR := F64.is_add ha hb hR
  K_mulL hc ha hR := (F64.is_scale hc ha hR).1
  K_mulR hc ha hR := (F64.is_scale hc ha hR).2
  K_div hc' hc ha hR := F64.is_div ha hc' hc hR
  sum i {k as ts v0 m0} h h0 hR := sumFrom_approx h le_rfl F64.is_zero h0 hR
  mulL i j {c' c a x} hc ha hR := by rw [Node.evaluate, Node.evaluate]; exact (F64.is_scale hc ha hR).1
  mulR i j {c' c a x} hc ha hR := by rw [Node.evaluate, Node.evaluate]; exact (F64.is_scale hc ha hR).2
  divR i j {c' c a x} hc' hc ha hR := by rw [Node.evaluate, Node.evaluate]; exact F64.is_div ha hc' hc hR

theorem rep_mulN {σ : Env F64} {a b e : Node F64} {v w m m' : ℝ} {k k' n n' : ℕ} (ha : Rep (Node.evaluate σ) a v m k) (hb : Rep (Node.evaluate σ) b w m' k')
    (hRa : InRange m k) (hRb : InRange m' k') (hR : InRange (m * m' + (k + k' + 1) * tauD) (k + k' + 2))
    (h : mulN a b n = .ok (e, n')) : Rep (Node.evaluate σ) e (v * w) (m * m' + (k + k' + 1) * tauD) (k + k' + 2) := by
  obtain ⟨x, hx, hax, hx'⟩ := ha.eval hRa
  obtain ⟨y, hy, hay, hy'⟩ := hb.eval hRb
  have ht := tauD_nonneg
  have hmm := mul_nonneg hax.nonneg hay.nonneg
  have hk0 : (0 : ℝ) ≤ k := Nat.cast_nonneg k
  have hk0' : (0 : ℝ) ≤ k' := Nat.cast_nonneg k'
  have hl : ∀ c, lost c m k ≤ (k + k' + 1) * tauD := fun c =>
    le_trans (lost_le c m k) <| le_trans (mul_le_mul_of_nonneg_left (tiny_le c) hk0) (mul_le_mul_of_nonneg_right (by linarith) ht)
  have hl' : ∀ c, lost c m' k' ≤ (k + k' + 1) * tauD := fun c =>
    le_trans (lost_le c m' k') <| le_trans (mul_le_mul_of_nonneg_left (tiny_le c) hk0') (mul_le_mul_of_nonneg_right (by linarith) ht)
  have hl1 : tauD ≤ (k + k' + 1) * tauD := by nlinarith
  by_cases hca : ∃ i c, a = .const i c
  · obtain ⟨i, c, rfl⟩ := hca
    simp only [Node.evaluate] at hx
    have h : mulCL i c b n = .ok (e, n') := by simpa [mulN] using h
    have := hl' x
    exact ((rep_scale hax (mulCL_scales (Node.evaluate σ) i hx).1 (mulCL_scales (Node.evaluate σ) i hx).2 hb hRb
      (hR.mono (by linarith) (by omega)) h).mono (by omega)).grow (by linarith)
  by_cases hcb : ∃ i c, b = .const i c
  · obtain ⟨i, c, rfl⟩ := hcb
    simp only [Node.evaluate] at hy
    have h : mulCR i c a n = .ok (e, n') := by
      cases a <;> first | exact h | exact absurd ⟨_, _, rfl⟩ hca
    have hly := hl y
    have := (rep_scale hay (mulCR_scales (Node.evaluate σ) i hy).1 (mulCR_scales (Node.evaluate σ) i hy).2 ha hRa
      (hR.mono (by rw [mul_comm m']; linarith) (by omega)) h).mono (show _ ≤ k + k' + 2 by omega)
    rw [mul_comm w, mul_comm m'] at this
    exact this.grow (by linarith)
  · have h : newMul a b n = .ok (e, n') := by
      cases a <;> first | (cases b <;> first | exact h | exact absurd ⟨_, _, rfl⟩ hcb) | exact absurd ⟨_, _, rfl⟩ hca
    rw [newMul_eq] at h
    cases h
    have hp := hax.mul uD_nonneg hay
    obtain ⟨z, hz, hz'⟩ := F64.is_mul hx hy (hp.bound (hR.mono (by linarith) (by omega)))
    exact Rep.single (x := z) rfl (by simpa only [Node.evaluate] using hz)
      ((hp.grow uD_nonneg (show m * m' ≤ m * m' + (k + k' + 1) * tauD by linarith)).roundT uD_nonneg (by linarith) hz')

/-! ## Division, sine, cosine -/

theorem rep_divN {σ : Env F64} {a b e : Node F64} {v w m m' : ℝ} {k k' κ n n' : ℕ} (ha : Rep (Node.evaluate σ) a v m k) (hb : Rep (Node.evaluate σ) b w m' k')
    (hRa : InRange m k) (hRb : InRange m' k') (hw : w ≠ 0) (hκ : m' ≤ κ * |w|) (hs : κ * k' ≤ 2 ^ 51) (hR : InRange (m / |w| + tauD) (k + 2 * (κ * k') + 2))
    (h : divN a b n = .ok (e, n')) :
    Rep (Node.evaluate σ) e (v / w) (m / |w| + tauD) (k + 2 * (κ * k') + 2) := by
  obtain ⟨x, hx, hax, -⟩ := ha.eval hRa
  obtain ⟨y, hy, hay, -⟩ := hb.eval hRb
  obtain ⟨hy0, hinv⟩ := hay.inv uD_nonneg hw hκ (uD_pow_le' hs)
  have ht := tauD_nonneg
  have hp := hax.mul uD_nonneg hinv
  rw [← div_eq_mul_inv, ← div_eq_mul_inv v, ← div_eq_mul_inv m] at hp
  have hn := hp.nonneg
  have hg := hp.grow uD_nonneg (show m / |w| ≤ m / |w| + tauD by linarith)
  obtain ⟨z, hz, hz'⟩ := F64.is_div hx hy hy0 (hp.bound (hR.mono (by linarith) (by omega)))
  have ht' := tauAt_le x
  have hq := hg.roundT uD_nonneg (by linarith) hz'
  unfold divN at h
  split at h
  · exact absurd h (by simp [M.panic])
  split at h
  · rename_i h1
    obtain ⟨i, o, rfl, ho⟩ := isConst_one h1
    simp only [Node.evaluate] at hy
    have := hy.unique ho
    subst this
    have hinv' := hinv
    rw [inv_one] at hinv'
    rw [M.pure_ok] at h
    obtain ⟨rfl, -⟩ := h
    have := rep_one ha hinv'
    rw [← div_eq_mul_inv, ← div_eq_mul_inv] at this
    exact (this.mono (by omega)).grow (by linarith)
  split at h
  · rename_i h1
    obtain ⟨i, o, rfl, ho⟩ := isConst_zero h1
    simp only [Node.evaluate] at hx
    have := hx.unique ho
    subst this
    rw [newConst_ok] at h
    obtain ⟨rfl, -⟩ := h
    rw [zero_div] at hg
    exact (Rep.single (x := 0) rfl F64.is_zero hg).mono (by omega)
  split at h
  · rename_i h1
    rw [Bool.and_eq_true] at h1
    cases a <;> simp [Node.isConstant] at h1
    cases b <;> simp [Node.isConstant] at h1
    simp only [Node.evaluate] at hz h
    rw [newConst_ok] at h
    obtain ⟨rfl, -⟩ := h
    exact (Rep.single (x := z) rfl hz hq).mono (by omega)
  · rw [newDiv_eq] at h
    cases h
    exact (Rep.single (x := z) rfl (by simpa only [Node.evaluate] using hz) hq).mono (by omega)

theorem rep_sDiv {σ : Env F64} {b e : Node F64} {c' : F64} {w m' c : ℝ} {k' κ n n' : ℕ} (hb : Rep (Node.evaluate σ) b w m' k') (hc : c'.Is c)
    (hRb : InRange m' k') (hw : w ≠ 0) (hκ : m' ≤ κ * |w|) (hs : κ * k' ≤ 2 ^ 51) (hR : InRange (|c| / |w| + tauD) (2 * (κ * k') + 2))
    (h : sDiv c' b n = .ok (e, n')) :
    Rep (Node.evaluate σ) e (c / w) (|c| / |w| + tauD) (2 * (κ * k') + 2) := by
  obtain ⟨y, hy, hay, -⟩ := hb.eval hRb
  obtain ⟨hy0, hinv⟩ := hay.inv uD_nonneg hw hκ (uD_pow_le' hs)
  have ht := tauD_nonneg
  have hp := (Approx.exact (u := uD) c).mul uD_nonneg hinv
  rw [← div_eq_mul_inv, ← div_eq_mul_inv c, ← div_eq_mul_inv |c|, Nat.zero_add] at hp
  have hn := hp.nonneg
  have hg := hp.grow uD_nonneg (show |c| / |w| ≤ |c| / |w| + tauD by linarith)
  obtain ⟨z, hz, hz'⟩ := F64.is_div hc hy hy0 (hp.bound (hR.mono (by linarith) (by omega)))
  have ht' := tauAt_le c
  have hq := hg.roundT uD_nonneg (by linarith) hz'
  unfold sDiv at h
  split at h
  · exact absurd h (by simp [M.panic])
  split at h
  · rename_i h1
    obtain ⟨i, o, rfl, ho⟩ := isConst_one h1
    simp only [Node.evaluate] at hy
    have := hy.unique ho
    subst this
    rw [div_one] at hg
    rw [newConst_ok] at h
    obtain ⟨rfl, -⟩ := h
    exact (Rep.single (x := c) rfl (by simpa only [Node.evaluate] using hc) hg).mono (by omega)
  split at h
  · rename_i h1
    rw [F64.eqz_num hc] at h1
    rw [newConst_ok] at h
    obtain ⟨rfl, -⟩ := h
    subst h1
    rw [zero_div] at hg
    exact (Rep.single (x := 0) rfl F64.is_zero hg).mono (by omega)
  split at h
  · rename_i h1
    cases b <;> simp [Node.isConstant] at h1
    simp only [Node.evaluate] at hy h hz
    rw [newConst_ok] at h
    obtain ⟨rfl, -⟩ := h
    exact (Rep.single (x := z) rfl hz hq).mono (by omega)
  · rw [M.bind_ok] at h
    obtain ⟨cn, n1, hk, h⟩ := h
    rw [newConst_ok] at hk
    obtain ⟨rfl, -⟩ := hk
    rw [newDiv_eq] at h
    cases h
    exact (Rep.single (x := z) rfl (by simpa only [Node.evaluate] using hz) hq).mono (by omega)

/-- An absolute error of two roundoffs. -/
theorem _root_.Verif.Approx.twice {x z v m : ℝ} {k : ℕ} (h : Approx uD x v m k) (hm : 1 ≤ m) (hz : |z - x| ≤ 2 ^ (-52 : ℤ)) : Approx uD z v m (k + 2) := by
  have e0 : (2 : ℝ) ^ (-52 : ℤ) = 2 * uD := by unfold uD; norm_num
  rw [e0] at hz
  refine ⟨?_, h.2⟩
  have e1 : z - v = (z - x) + (x - v) := by ring
  have e3 := h.1
  have e5 : (1 : ℝ) ≤ (1 + uD) ^ k := one_le_pow₀ (by have := uD_nonneg; linarith)
  have hu := uD_pos
  have e6 : 2 * uD ≤ (1 + uD) ^ k * (2 * uD + uD ^ 2) := by nlinarith
  have e7 : 2 * uD ≤ (1 + uD) ^ k * (2 * uD + uD ^ 2) * m := by nlinarith
  calc |z - v| ≤ |z - x| + |x - v| := by rw [e1]; exact abs_add_le _ _
    _ ≤ 2 * uD + ((1 + uD) ^ k - 1) * m := by linarith
    _ ≤ (1 + uD) ^ k * (2 * uD + uD ^ 2) * m + ((1 + uD) ^ k - 1) * m := by linarith
    _ = ((1 + uD) ^ (k + 2) - 1) * m := by ring

theorem rep_sinN (hL : GoodLibm) {σ : Env F64} {a e : Node F64} {v m : ℝ} {k n n' : ℕ} (ha : Rep (Node.evaluate σ) a v m k) (hR : InRange m k)
    (h : sinN a n = .ok (e, n')) : Rep (Node.evaluate σ) e (Real.sin v) (1 + m) (k + 3) := by
  obtain ⟨x, hx, hax, -⟩ := ha.eval hR
  have hm := hax.nonneg
  obtain ⟨⟨z, hz, hz'⟩, -⟩ := hL _ x hx
  have hq := (hax.lipschitz uD_nonneg (f := Real.sin) Real.abs_sin_sub_sin_le Real.abs_sin_le_one).twice (by linarith) hz'
  unfold sinN at h
  split at h
  · simp only [Node.evaluate] at hz
    rw [newConst_ok] at h
    obtain ⟨rfl, -⟩ := h
    exact Rep.single (x := z) rfl hz hq
  · rw [newSin_eq] at h
    cases h
    exact Rep.single (x := z) rfl (by simp only [Node.evaluate]; exact hz) hq

theorem rep_cosN (hL : GoodLibm) {σ : Env F64} {a e : Node F64} {v m : ℝ} {k n n' : ℕ} (ha : Rep (Node.evaluate σ) a v m k) (hR : InRange m k)
    (h : cosN a n = .ok (e, n')) : Rep (Node.evaluate σ) e (Real.cos v) (1 + m) (k + 3) := by
  obtain ⟨x, hx, hax, -⟩ := ha.eval hR
  have hm := hax.nonneg
  obtain ⟨-, z, hz, hz'⟩ := hL _ x hx
  have hq := (hax.lipschitz uD_nonneg (f := Real.cos) Real.abs_cos_sub_cos_le Real.abs_cos_le_one).twice (by linarith) hz'
  unfold cosN at h
  split at h
  · simp only [Node.evaluate] at hz
    rw [newConst_ok] at h
    obtain ⟨rfl, -⟩ := h
    exact Rep.single (x := z) rfl hz hq
  · rw [newCos_eq] at h
    cases h
    exact Rep.single (x := z) rfl (by simp only [Node.evaluate]; exact hz) hq

theorem writes_grow {ev : Node F64 → F64} {e : Node F64} {v m l l' : ℝ} {k : ℕ} (hl : l ≤ l') (hR : InRange (m + l') k)
    (h : InRange (m + l) k → Rep ev e v (m + l) k) : Rep ev e v (m + l') k ∧ InRange (m + l') k :=
  ⟨(h (hR.mono (by linarith) le_rfl)).grow (by linarith), hR⟩

theorem writes64_rep {σ : Env F64} {e : Node F64} {v m : ℝ} {k : ℕ} (h : Writes64 σ e v m k) :
    Rep (Node.evaluate σ) e v m k ∧ InRange m k := by
  induction h with
  | const hc hR h => exact ⟨rep_const (ev := Node.evaluate σ) hc h, hR⟩
  | @var e n n' s kind c x h hv hc hR =>
    rw [newVar_eq] at h
    cases h
    exact ⟨Rep.single (x := x) rfl (by simpa [Node.evaluate, hv] using hc) (.exact x), hR⟩
  | add _ _ hR h iha ihb => exact ⟨rep_addN iha.1 ihb.1 hR h, hR⟩
  | addScalar _ hc hR h ih => exact ⟨rep_addS ih.1 hc hR h, hR⟩
  | scalarAdd _ hc hR h ih => exact ⟨rep_sAdd ih.1 hc hR h, hR⟩
  | sub _ _ hR h iha ihb => exact ⟨rep_subN iha.1 ihb.1 hR h, hR⟩
  | subScalar _ hc hR h ih => exact ⟨rep_subS ih.1 hc hR h, hR⟩
  | scalarSub _ hc hR h ih => exact ⟨rep_sSub ih.1 hc hR h, hR⟩
  | neg _ hR h ih => exact ⟨rep_negN ih.1 hR h, hR⟩
  | mul _ _ hR h iha ihb => exact ⟨rep_mulN iha.1 ihb.1 iha.2 ihb.2 hR h, hR⟩
  | mulScalar _ hc hR h ih => exact writes_grow (lost_le _ _ _) hR fun hR' => rep_mulS ih.1 ih.2 hc hR' h
  | scalarMul _ hc hR h ih => exact writes_grow (lost_le _ _ _) hR fun hR' => rep_sMul ih.1 ih.2 hc hR' h
  | divScalar _ hc hR h ih => exact writes_grow (lostD_le _) hR fun hR' => rep_divS ih.1 ih.2 hc hR' h
  | div κ _ _ hw hκ hs hR h iha ihb => exact ⟨rep_divN iha.1 ihb.1 iha.2 ihb.2 hw hκ hs hR h, hR⟩
  | scalarDiv κ _ hc hw hκ hs hR h ih => exact ⟨rep_sDiv ih.1 hc ih.2 hw hκ hs hR h, hR⟩
  | sin hL _ hR h ih => exact ⟨rep_sinN hL ih.1 ih.2 h, hR⟩
  | cos hL _ hR h ih => exact ⟨rep_cosN hL ih.1 ih.2 h, hR⟩

end Verif.R64
