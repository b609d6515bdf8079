import Verif.Proofs.LinearValues64
import Verif.Props.Matrix
import Verif.Props.Ipopt
import Verif.Proofs.RoundingSolve64

/-!
# C87: values of linear objectives, rows and matrices in double precision
-/

namespace Verif

set_option linter.unusedSectionVars false

section
variable [Libm]

/-- **C87.** Adding up doubles: whatever the order and the parentheses, the result differs from the exact sum by at most `((1 + 2^-53)^(n-1) - 1)` times the
sum of the absolute values. -/
theorem C87_sum {l : List F64} {vs : List ℝ} (hl : List.Forall₂ F64.Is l vs) {v : F64} (h : SumOf l v)
    (hm : (vs.map abs).sum ≤ 2 ^ (1022 : ℤ)) (hn : l.length ≤ 2 ^ 52) :
    ∃ z, v.Is z ∧ |z - vs.sum| ≤ ((1 + 2 ^ (-53 : ℤ)) ^ (l.length - 1) - 1) * (vs.map abs).sum := by
  have hf : List.Forall₂ (ApproxIs 0) l (vs.map fun v => (v, |v|)) := by
    rw [List.forall₂_map_right_iff]
    exact hl.imp fun a v ha => ⟨v, ha, Approx.exact v⟩
  have e1 : sumV (vs.map fun v => (v, |v|)) = vs.sum := by simp [sumV, Function.comp_def]
  have e2 : sumM (vs.map fun v => (v, |v|)) = (vs.map abs).sum := by simp [sumM, Function.comp_def]
  obtain ⟨z, hz, ha⟩ := sumOf_approx h _ hf (by rw [e2]; exact ⟨hm, by omega⟩)
  rw [e1, e2, Nat.zero_add] at ha
  exact ⟨z, hz, ha.1⟩

/-- **C87.** The objective value of a linear problem (with or without integer variables), after any history of calls: the number that `evaluate` computes at a
point of doubles differs from the exact value of the sum of the products of coefficients and values by at most `((1 + 2^-53)^n - 1)` times the sum of the
absolute values of the products (counting each product that underflows as `2^-1022`), for `n` variables. -/
theorem C87_objective {c : List F64} {cs : List ℝ} (hc : List.Forall₂ F64.Is c cs) {a : Coo F64} {b l u : List F64} {p : List Bool}
    {x0 : Option (List F64)} {v v' : Minlp F64} (hlen : c.length = a.cols)
    (hv : (∃ q, Milp.new c a b l u p x0 = .ok q ∧ v = q.base) ∨ ∃ q, Lp.new c a b l u x0 = .ok q ∧ (v = q.baseMilp.base ∨ v = q.baseNlp.base))
    {ops : List (ProbOp F64)} (hops : runProb v ops = .ok v') {x : List F64} {xs : List ℝ} (hx : List.Forall₂ F64.Is x xs) (hl : x.length = c.length)
    (hsize : ∑ j ∈ Finset.range c.length, max |cs.getD j 0 * xs.getD j 0| (2 ^ (-1022 : ℤ)) ≤ 2 ^ (1022 : ℤ)) (hn : c.length < 2 ^ 52) :
    ∃ v'' z, v'.evaluate x = .ok v'' ∧ v''.buf.phi.Is z ∧ v''.buf.gphi = c ∧
      |z - ∑ j ∈ Finset.range c.length, cs.getD j 0 * xs.getD j 0| ≤
        ((1 + 2 ^ (-53 : ℤ)) ^ c.length - 1) * ∑ j ∈ Finset.range c.length, max |cs.getD j 0 * xs.getD j 0| (2 ^ (-1022 : ℤ)) := by
  obtain ⟨p', hi⟩ : ∃ p', LinInv c a b l u p' x0 v := by
    rcases hv with ⟨q, hq, rfl⟩ | ⟨q, hq, hv⟩
    · have hd : b.length = a.rows ∧ l.length = a.cols ∧ u.length = a.cols ∧ p.length = a.cols := by
        by_contra hd
        rw [(C41_milp_partial (c := c) (x0 := x0)).1 hd] at hq
        cases hq
      have hd' : DimsOk (Coo.fromNnz (a.cols, a.cols) 0) a b (Coo.fromNnz (0, a.cols) 0) [] l u p :=
        ⟨⟨rfl, rfl⟩, hd.1, rfl, rfl, by simp, hd.2.1, hd.2.2.1, hd.2.2.2⟩
      simp only [Milp.new, Minlp.new_ok (by simp) hd', R.ok_bind, Except.ok.injEq] at hq
      subst hq
      exact ⟨p, LinInv.initial hlen⟩
    · by_cases hd : c.length = a.cols ∧ b.length = a.rows ∧ l.length = a.cols ∧ u.length = a.cols
      swap
      · rw [C41_lp_partial.1 hd] at hq; cases hq
      rw [Lp.new_ok hd] at hq
      injection hq with hq
      subst hq
      rcases hv with rfl | rfl
      · exact ⟨_, LinInv.initial hlen⟩
      · exact ⟨_, LinInv.initial hlen⟩
  obtain ⟨z, hz, ha⟩ := dot_is hc hx hl ⟨hsize, by omega⟩
  exact ⟨_, z, (hi.run hops).evaluate hl, hz, rfl, ha.1⟩

/-- **C87.** If the coefficients are integer multiples of `2^g` and the values integer multiples of `2^h` (for instance both integers), and the absolute
values of the products sum up to at most `2^53` units, the objective value is exact. -/
theorem C87_objective_exact {c : List F64} {a : Coo F64} {b l u : List F64} {x0 : Option (List F64)} {q : Lp F64} (hq : Lp.new c a b l u x0 = .ok q)
    {v v' : Minlp F64} (hv : v = q.baseMilp.base ∨ v = q.baseNlp.base) {ops : List (ProbOp F64)} (hops : runProb v ops = .ok v') {g h : ℤ}
    {zs ws : List ℤ} (hc : List.Forall₂ (fun (a : F64) (z : ℤ) => a.HasValue ((z : ℚ) * 2 ^ g)) c zs) {x : List F64}
    (hx : List.Forall₂ (fun (a : F64) (z : ℤ) => a.HasValue ((z : ℚ) * 2 ^ h)) x ws) (hl : x.length = c.length) (h1 : -1074 ≤ g + h) (h2 : g + h ≤ 970)
    (hs : ((zs.zip ws).map fun e => (e.1 * e.2).natAbs).sum ≤ 2 ^ 53) :
    ∃ v'', v'.evaluate x = .ok v'' ∧ v''.buf.phi.HasValue ((((zs.zip ws).map fun e => e.1 * e.2).sum : ℤ) * 2 ^ (g + h)) := by
  obtain ⟨_, _, _, _, _, _, _, he⟩ := (C43_views hq).2 v hv
  obtain ⟨v'', e1, e2, -⟩ := he ops v' hops x hl
  refine ⟨v'', e1, ?_⟩
  have hsum : absSumZ ((zs.zip ws).map fun e => e.1 * e.2) ≤ 2 ^ 53 := by
    unfold absSumZ
    rw [List.map_map]
    exact hs
  refine sumOf_exact e2 _ ?_ ⟨h1, h2, hsum⟩
  have key : ∀ (c : List F64) (zs : List ℤ), List.Forall₂ (fun (a : F64) (z : ℤ) => a.HasValue ((z : ℚ) * 2 ^ g)) c zs → ∀ (x : List F64) (ws : List ℤ),
      List.Forall₂ (fun (a : F64) (z : ℤ) => a.HasValue ((z : ℚ) * 2 ^ h)) x ws → absSumZ ((zs.zip ws).map fun e => e.1 * e.2) ≤ 2 ^ 53 →
      List.Forall₂ (fun (a : F64) (z : ℤ) => a.HasValue ((z : ℚ) * 2 ^ (g + h))) ((c.zip x).map fun e => e.1 *. e.2) ((zs.zip ws).map fun e => e.1 * e.2) := by
    intro c zs hc
    induction hc with
    | nil => intro x ws _ _; exact .nil
    | @cons a z c zs ha _ ih =>
      intro x ws hx hs
      cases hx with
      | nil => exact .nil
      | @cons b w x ws hb hx =>
        have hs' : (z * w).natAbs + absSumZ ((zs.zip ws).map fun e => e.1 * e.2) ≤ 2 ^ 53 := by
          simpa [absSumZ] using hs
        refine .cons ?_ (ih x ws hx (by omega))
        have e : (z : ℚ) * 2 ^ g * ((w : ℚ) * 2 ^ h) = ((z * w : ℤ) : ℚ) * 2 ^ (g + h) := by
          rw [zpow_add₀ (by norm_num)]; push_cast; ring
        rw [← e]
        refine F64.mul_exact ha hb ?_
        rw [e]
        exact Fits.double (m := (z * w).natAbs) ⟨h1, h2, by omega⟩ le_rfl
  exact key c zs hc x ws hx hsum

/-- **C87.** Matrix times vector: each entry of the product differs from the exact value by at most `((1 + 2^-53)^k - 1)` times the sum of the absolute values
of the products (counting each product that underflows as `2^-1022`), if the row has `k` entries. -/
theorem C87_product {m : Coo F64} (h : m.WF) (hi : ∀ t ∈ m.triplets, t.1 < m.rows ∧ t.2.1 < m.cols) {x : List F64} {xs : List ℝ}
    (hx : List.Forall₂ F64.Is x xs) (hl : x.length = m.cols) :
    ∃ y, m.mulVec x = .ok y ∧ y.length = m.rows ∧ ∀ i < m.rows, (∀ e ∈ rowOf m.triplets i, e.2.isFinite = true) →
      prodSize (rowProducts m i xs) ≤ 2 ^ (1022 : ℤ) → (rowOf m.triplets i).length < 2 ^ 52 →
      ∃ w z, y[i]? = some w ∧ w.Is z ∧ |z - ((rowOf m.triplets i).map fun e => xs.getD e.1 0 * e.2.toReal).sum| ≤
        ((1 + 2 ^ (-53 : ℤ)) ^ (rowOf m.triplets i).length - 1) * prodSize (rowProducts m i xs) := by
  obtain ⟨y, e1, e2, e3⟩ := (C40_mul h x).2.2 hl hi
  refine ⟨y, e1, e2, fun i hin hfin hs hn => ?_⟩
  obtain ⟨z, hz, ha⟩ := row_is (fun e he => F64.is_toReal (hfin e he)) hx ⟨hs, by omega⟩
  refine ⟨_, z, e3 i hin, hz, ?_⟩
  have := ha.1
  rw [rowProducts, List.map_map] at this
  exact this

/-- **C87.** What Ipopt is told about the linear rows `A x - b`, after any sequence of callbacks that respects the protocol: the answer of `eval_g` begins
with doubles that differ from the exact values by at most `((1 + 2^-53)^(k+1) - 1)` times the sum of the absolute values of the products and of `b`. -/
theorem C87_rows {q0 : Minlp F64} {val : List F64 → EvalBuf F64} {calls : List (Call F64)} {p : Option (List F64)} (hs : q0.Sound) (hsm : q0.Small)
    (hv : EvalsTo q0 val) (hp : Protocol q0 none calls p) {x : List F64} {xs : List ℝ} (hx : List.Forall₂ F64.Is x xs) (hl : x.length = q0.nx)
    {newX : Int} (hnew : newX = 1 ∨ p = some x) :
    ∃ q q' g, runCalls q0 calls = .ok q ∧ evalGCb q q0.nx (some x) newX (q0.na + q0.nf : Nat) true true = .ok (q', ⟨true, g, [], []⟩) ∧
      g.length = q0.na + q0.nf ∧ ∀ (i : ℕ) b y, q0.b[i]? = some b → b.Is y → (∀ e ∈ rowOf q0.a.triplets i, e.2.isFinite = true) →
        prodSize (rowProducts q0.a i xs) + |y| ≤ 2 ^ (1022 : ℤ) → (rowOf q0.a.triplets i).length + 1 < 2 ^ 52 →
        ∃ w z, g[i]? = some w ∧ w.Is z ∧ |z - (((rowOf q0.a.triplets i).map fun e => xs.getD e.1 0 * e.2.toReal).sum - y)| ≤
          ((1 + 2 ^ (-53 : ℤ)) ^ ((rowOf q0.a.triplets i).length + 1) - 1) * (prodSize (rowProducts q0.a i xs) + |y|) := by
  obtain ⟨q, h1, -, -, ⟨q', h2⟩, -⟩ := C51_answers hs hsm hv hp hl hnew
  refine ⟨q, q', _, h1, h2, ?_, ?_⟩
  · have := (hv.shape x hl).f
    simp [constraintValues, Minlp.na, Minlp.nf, this]
  · intro i b y hb hy hfin hsz hn
    have hpos : 0 ≤ |y| := abs_nonneg y
    obtain ⟨z, hz, ha⟩ := row_is (fun e he => F64.is_toReal (hfin e he)) hx ⟨le_trans (by linarith) hsz, by omega⟩
    have a' := ha.sub (Approx.exactIn uD_nonneg (le_refl |y|) (rowOf q0.a.triplets i).length)
    obtain ⟨w, hw, ew⟩ := F64.is_sub hz hy (a'.bound ⟨hsz, by omega⟩)
    refine ⟨_, w, ?_, hw, ?_⟩
    · unfold constraintValues
      rw [List.getElem?_append_left (by simpa using (List.getElem?_eq_some_iff.1 hb).1), List.getElem?_map, List.getElem?_zipIdx, hb]
      simp
    · have := (a'.round uD_nonneg ew).1
      rw [rowProducts, List.map_map] at this
      exact this

/-- **C87.** After `sum_duplicates`, each entry differs from the exact sum of the entries that it replaces by at most `((1 + 2^-53)^(k-1) - 1)` times the sum
of their absolute values, if there are `k` of them; so an entry without duplicates is unchanged. -/
theorem C87_duplicates {m : Csr F64} (h : m.Valid) :
    ∃ m', m.sumDuplicates = .ok m' ∧ ∀ i < m.rows, ∀ e ∈ m'.rowOf i, ∀ vs : List ℝ, List.Forall₂ F64.Is (valuesAt e.1 (m.rowOf i)) vs →
      (vs.map abs).sum ≤ 2 ^ (1022 : ℤ) → vs.length ≤ 2 ^ 52 →
      ∃ z, e.2.Is z ∧ |z - vs.sum| ≤ ((1 + 2 ^ (-53 : ℤ)) ^ (vs.length - 1) - 1) * (vs.map abs).sum := by
  obtain ⟨m', h1, -, -, h4⟩ := C38_sum_duplicates h
  refine ⟨m', h1, fun i hi e he vs hvs hs hn => ?_⟩
  have hv := (h4 i hi).2.2.2 e he
  have hl := hvs.length_eq
  have key : ∀ (l : List F64) (ws : List F64) (v : F64), SumOf ws v → SumOf (ws ++ l) (l.foldl (· +. ·) v) := by
    intro l
    induction l with
    | nil => intro ws v h; simpa using h
    | cons a l ih => intro ws v h; simpa using ih _ _ (h.add (.single a) (.refl _))
  have hsum : SumOf (valuesAt e.1 (m.rowOf i)) e.2 := by
    rw [hv]
    cases valuesAt e.1 (m.rowOf i) with
    | nil => exact .zero
    | cons a l => simpa [total] using key l [a] a (.single a)
  have := C87_sum hvs hsum hs (by omega)
  rwa [hl] at this

end

/-! ## Concrete cases -/

section
attribute [local instance] exLibm

/-- C87: the order matters: `1 + 2^-53 + 2^-53` is `1` if it is added up from the left and more if it is added up from the right. Both are results of adding up. -/
example : SumOf [dbl 1, dbl (2 ^ (-53 : ℤ)), dbl (2 ^ (-53 : ℤ))] ((dbl 1 +. dbl (2 ^ (-53 : ℤ))) +. dbl (2 ^ (-53 : ℤ))) ∧
    SumOf [dbl 1, dbl (2 ^ (-53 : ℤ)), dbl (2 ^ (-53 : ℤ))] (dbl 1 +. (dbl (2 ^ (-53 : ℤ)) +. dbl (2 ^ (-53 : ℤ)))) ∧
    ((dbl 1 +. dbl (2 ^ (-53 : ℤ))) +. dbl (2 ^ (-53 : ℤ))).value = some 1 ∧
    (dbl 1 +. (dbl (2 ^ (-53 : ℤ)) +. dbl (2 ^ (-53 : ℤ)))).value = some (1 + 2 ^ (-52 : ℤ)) :=
  ⟨((SumOf.single _).add (.single _) (.refl _)).add (.single _) (.refl _), (SumOf.single _).add ((SumOf.single _).add (.single _) (.refl _)) (.refl _),
    by decide +kernel, by decide +kernel⟩

/-- A linear problem in doubles: minimise `0.1 x + 3 y` subject to `0.1 x + 0.1 x + 7 y = 1`. -/
def exLinA : Coo F64 := ⟨(1, 2), [0, 0, 0], [0, 0, 1], [dbl (1 / 10), dbl (1 / 10), dbl 7]⟩

/-- C87: it is accepted, and the sizes at the point (0.1, 2) are in range. -/
example : (∃ q, Lp.new [dbl (1 / 10), dbl 3] exLinA [dbl 1] [dbl 0, dbl 0] [dbl 9, dbl 9] none = .ok q) ∧
    List.Forall₂ F64.Is [dbl (1 / 10), dbl 3] [tenth, 3] ∧ List.Forall₂ F64.Is [dbl (1 / 10), dbl 2] [tenth, 2] ∧
    ∑ j ∈ Finset.range 2, max |[tenth, 3].getD j 0 * [tenth, 2].getD j 0| (2 ^ (-1022 : ℤ)) ≤ 2 ^ (1022 : ℤ) := by
  have h3 : (dbl 3).Is 3 := F64.is_lit (q := 3) (by decide +kernel) (by norm_num)
  have h2 : (dbl 2).Is 2 := F64.is_lit (q := 2) (by decide +kernel) (by norm_num)
  refine ⟨⟨_, Lp.new_ok (by decide)⟩, .cons tenth_lit (.cons h3 .nil), .cons tenth_lit (.cons h2 .nil), ?_⟩
  have hτ : (2 : ℝ) ^ (-1022 : ℤ) ≤ 1 := zpow_le_one_of_nonpos₀ (by norm_num) (by norm_num)
  have ht := abs_tenth
  have e0 : max |tenth * tenth| (2 ^ (-1022 : ℤ)) ≤ 1 := max_le (by rw [abs_mul]; exact mul_le_one₀ ht (abs_nonneg _) ht) hτ
  have e1 : max |(3 : ℝ) * 2| (2 ^ (-1022 : ℤ)) ≤ 6 := max_le (by norm_num) (by linarith)
  have e2 : (7 : ℝ) ≤ maxSize := (inRange_small (m := 7) (k := 0) (by norm_num) (by norm_num)).1
  unfold maxSize at e2
  rw [Finset.sum_range_succ, Finset.sum_range_succ, Finset.sum_range_zero]
  simp only [List.getD_cons_zero, List.getD_cons_succ, zero_add]
  exact ((add_le_add e0 e1).trans (by norm_num)).trans e2

/-- C87: `3·7 + 5·(-2)` is computed exactly. -/
example : List.Forall₂ (fun (a : F64) (z : ℤ) => a.HasValue ((z : ℚ) * 2 ^ (0 : ℤ))) [dbl 3, dbl 5] [3, 5] ∧
    (([3, 5].zip [7, -2]).map fun e : ℤ × ℤ => (e.1 * e.2).natAbs).sum ≤ 2 ^ 53 :=
  ⟨.cons (F64.value_iff.1 (by decide +kernel)) (.cons (F64.value_iff.1 (by decide +kernel)) .nil), by decide⟩

end

end Verif
