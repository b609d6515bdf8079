import Verif.Proofs.Rounding64

/-! # Rounding errors in double precision: sums and products as the operators write them -/

set_option linter.unusedSectionVars false

namespace Verif.R64

variable [Libm]

/-- Is the expression a sum? -/
def isAdd : Node F64 → Bool
  | .add .. => true
  | _ => false

/-- The terms of a sum; an expression that is no sum is its only term. -/
def addends : Node F64 → List (Node F64)
  | .add _ args => args
  | e => [e]

theorem addends_of_not {e : Node F64} (h : isAdd e = false) : addends e = [e] := by
  cases e <;> simp_all [isAdd, addends]

/-- What the operators' way of writing sums and products needs to know about a number `ev e` that is computed from an expression: constants give their
value or nothing (`K`), sums are added up in some order and products and quotients with a constant are rounded once. -/
class LinEv (ev : Node F64 → F64) where
  K : F64 → F64
  κ : ℝ → ℝ
  const : ∀ i c, ev (.const i c) = K c
  K_num : ∀ {a c}, F64.Is a c → (K a).Is (κ c)
  κ_lin : ∀ c, κ c = c * κ 1
  K_add : ∀ {a b x y}, (K a).Is x → (K b).Is y → |x + y| ≤ 2 * maxSize → ∃ z, (K (a +. b)).Is z ∧ |z - (x + y)| ≤ uD * |x + y|
  K_mulL : ∀ {c' c a x}, F64.Is c' c → (K a).Is x → |c * x| ≤ 2 * maxSize → ∃ z, (K (c' *. a)).Is z ∧ |z - c * x| ≤ uD * max |c * x| (tinyAt c x)
  K_mulR : ∀ {c' c a x}, F64.Is c' c → (K a).Is x → |c * x| ≤ 2 * maxSize → ∃ z, (K (a *. c')).Is z ∧ |z - c * x| ≤ uD * max |c * x| (tinyAt c x)
  K_div : ∀ {c' c a x}, F64.Is c' c → c ≠ 0 → (K a).Is x → |x / c| ≤ 2 * maxSize → ∃ z, (K (a /. c')).Is z ∧ |z - x / c| ≤ uD * max |x / c| (tauAt x)
  sum : ∀ (i : ℕ) {k : ℕ} {as : List (Node F64)} {ts : List (ℝ × ℝ)} {v0 m0 : ℝ},
    List.Forall₂ (fun a t => ∃ x, (ev a).Is x ∧ Approx uD x t.1 t.2 k) as ts → Approx uD 0 v0 m0 k → InRange (m0 + (ts.map Prod.snd).sum) (k + as.length) →
    ∃ x, (ev (.add i as)).Is x ∧ Approx uD x (v0 + (ts.map Prod.fst).sum) (m0 + (ts.map Prod.snd).sum) (k + as.length)
  mulL : ∀ i j {c' c a x}, F64.Is c' c → (ev a).Is x → |c * x| ≤ 2 * maxSize →
    ∃ z, (ev (.mul i (.const j c') a)).Is z ∧ |z - c * x| ≤ uD * max |c * x| (tinyAt c x)
  mulR : ∀ i j {c' c a x}, F64.Is c' c → (ev a).Is x → |c * x| ≤ 2 * maxSize →
    ∃ z, (ev (.mul i a (.const j c'))).Is z ∧ |z - c * x| ≤ uD * max |c * x| (tinyAt c x)
  divR : ∀ i j {c' c a x}, F64.Is c' c → c ≠ 0 → (ev a).Is x → |x / c| ≤ 2 * maxSize →
    ∃ z, (ev (.div i a (.const j c'))).Is z ∧ |z - x / c| ≤ uD * max |x / c| (tauAt x)

theorem LinEv.κ_zero (ev : Node F64 → F64) [LinEv ev] : LinEv.κ ev 0 = 0 := by rw [LinEv.κ_lin, zero_mul]

theorem LinEv.constZero (ev : Node F64 → F64) [LinEv ev] (i : ℕ) {z : F64} (hz : z.Is 0) : (ev (.const i z)).Is 0 := by
  rw [LinEv.const (ev := ev)]
  have := LinEv.K_num (ev := ev) hz
  rwa [LinEv.κ_zero] at this

/-- A term that is no sum, with a value that is close to the exact one. -/
def TermOk (ev : Node F64 → F64) (k : ℕ) (a : Node F64) (t : ℝ × ℝ) : Prop :=
  isAdd a = false ∧ ∃ x, (ev a).Is x ∧ Approx uD x t.1 t.2 k

theorem TermOk.mono {ev : Node F64 → F64} {j k : ℕ} (h : j ≤ k) {a : Node F64} {t : ℝ × ℝ} (ht : TermOk ev j a t) : TermOk ev k a t := by
  obtain ⟨h1, x, h2, h3⟩ := ht
  exact ⟨h1, x, h2, h3.mono uD_nonneg h⟩

theorem TermOk.nonneg {ev : Node F64 → F64} {k : ℕ} {a : Node F64} {t : ℝ × ℝ} (ht : TermOk ev k a t) : 0 ≤ t.2 := by
  obtain ⟨-, x, -, h⟩ := ht
  exact h.nonneg

theorem termsMono {ev : Node F64 → F64} {j k : ℕ} (h : j ≤ k) {as : List (Node F64)} {ts : List (ℝ × ℝ)}
    (ht : List.Forall₂ (TermOk ev j) as ts) : List.Forall₂ (TermOk ev k) as ts :=
  ht.imp fun _ _ => TermOk.mono h

theorem terms_nonneg {ev : Node F64 → F64} {k : ℕ} {as : List (Node F64)} {ts : List (ℝ × ℝ)} (ht : List.Forall₂ (TermOk ev k) as ts) :
    0 ≤ (ts.map Prod.snd).sum := by
  induction ht with
  | nil => simp
  | cons h _ ih =>
    simp only [List.map_cons, List.sum_cons]
    have := h.nonneg
    linarith

/-- The expression is a sum of terms with values close to exact ones; `v0` is what has been rounded away entirely. -/
def Rep (ev : Node F64 → F64) (e : Node F64) (v m : ℝ) (k : ℕ) : Prop :=
  ∃ (ts : List (ℝ × ℝ)) (v0 m0 : ℝ) (k' : ℕ), List.Forall₂ (TermOk ev k') (addends e) ts ∧ Approx uD 0 v0 m0 k' ∧
    v = v0 + (ts.map Prod.fst).sum ∧ m0 + (ts.map Prod.snd).sum ≤ m ∧ k' + (addends e).length ≤ k

theorem Rep.mono {ev : Node F64 → F64} {e : Node F64} {v m : ℝ} {j k : ℕ} (h : Rep ev e v m j) (hk : j ≤ k) : Rep ev e v m k := by
  obtain ⟨ts, v0, m0, k', h1, h2, h3, h4, h5⟩ := h
  exact ⟨ts, v0, m0, k', h1, h2, h3, h4, le_trans h5 hk⟩

theorem Rep.grow {ev : Node F64 → F64} {e : Node F64} {v m m' : ℝ} {k : ℕ} (h : Rep ev e v m k) (hm : m ≤ m') : Rep ev e v m' k := by
  obtain ⟨ts, v0, m0, k', h1, h2, h3, h4, h5⟩ := h
  exact ⟨ts, v0, m0, k', h1, h2, h3, le_trans h4 hm, h5⟩

theorem Rep.nonneg {ev : Node F64 → F64} {e : Node F64} {v m : ℝ} {k : ℕ} (h : Rep ev e v m k) : 0 ≤ m := by
  obtain ⟨ts, v0, m0, k', h1, h2, h3, h4, h5⟩ := h
  have := terms_nonneg h1
  have := h2.nonneg
  linarith

/-- An expression that is no sum. -/
theorem Rep.single {ev : Node F64 → F64} {e : Node F64} {x v m : ℝ} {k : ℕ} (he : isAdd e = false) (hx : (ev e).Is x)
    (h : Approx uD x v m k) : Rep ev e v m (k + 1) := by
  refine ⟨[(v, m)], 0, 0, k, ?_, .zero uD_nonneg _, by simp, by simp, ?_⟩
  · rw [addends_of_not he]; exact .cons ⟨he, x, hx, h⟩ .nil
  · rw [addends_of_not he]; simp

/-- The value of an expression. -/
theorem Rep.eval {ev : Node F64 → F64} [LinEv ev] {e : Node F64} {v m : ℝ} {k : ℕ} (h : Rep ev e v m k) (hR : InRange m k) :
    ∃ x, (ev e).Is x ∧ Approx uD x v m k ∧ (isAdd e = false → ∃ j, j + 1 ≤ k ∧ Approx uD x v m j) := by
  obtain ⟨ts, v0, m0, k', h1, h2, rfl, h4, h5⟩ := h
  by_cases he : isAdd e = true
  · cases e <;> simp [isAdd] at he
    rename_i i args
    obtain ⟨x, hx, hax⟩ := LinEv.sum (ev := ev) i (h1.imp fun _ _ h => h.2) h2 (hR.mono h4 h5)
    refine ⟨x, hx, (hax.mono uD_nonneg h5).grow uD_nonneg h4, fun h => by simp [isAdd] at h⟩
  · have he : isAdd e = false := by simpa using he
    rw [addends_of_not he] at h1 h5
    cases h1 with
    | @cons _ t _ ts ht hnil =>
      cases hnil
      obtain ⟨-, x, hx, hax⟩ := ht
      have hA : Approx uD x (v0 + ([t].map Prod.fst).sum) (m0 + ([t].map Prod.snd).sum) k' := by
        have := h2.add hax
        simpa using this
      have hA := hA.grow uD_nonneg h4
      exact ⟨x, hx, hA.mono uD_nonneg (by simp at h5; omega), fun _ => ⟨k', by simpa using h5, hA⟩⟩

/-! ## Sums -/

/-- The state of the loop that collects terms. -/
def Gath (ev : Node F64 → F64) [LinEv ev] (acc : F64 × List (Node F64)) (v m : ℝ) (k N : ℕ) : Prop :=
  ∃ (c vc mc : ℝ) (ts : List (ℝ × ℝ)) (t : ℕ), (LinEv.K ev acc.1).Is c ∧ Approx uD c vc mc (k + t) ∧ List.Forall₂ (TermOk ev k) acc.2 ts ∧
    v = vc + (ts.map Prod.fst).sum ∧ m = mc + (ts.map Prod.snd).sum ∧ t + acc.2.length = N

theorem Gath.const {ev : Node F64 → F64} [LinEv ev] {acc : F64 × List (Node F64)} {v m : ℝ} {k N i : ℕ} {c : F64} {t : ℝ × ℝ}
    (h : Gath ev acc v m k N) (ht : TermOk ev k (.const i c) t) (hR : InRange (m + t.2) (k + N)) : Gath ev (acc.1 +. c, acc.2) (v + t.1) (m + t.2) k (N + 1) := by
  obtain ⟨c1, vc, mc, ts, j, h1, h2, h3, rfl, rfl, h6⟩ := h
  obtain ⟨-, x, hx, hax⟩ := ht
  rw [LinEv.const (ev := ev)] at hx
  have hs := h2.add (hax.mono uD_nonneg (show k ≤ k + j by omega))
  have h0 := terms_nonneg h3
  obtain ⟨z, hz, hz'⟩ := LinEv.K_add h1 hx (hs.bound (hR.mono (by linarith) (by omega)))
  exact ⟨z, vc + t.1, mc + t.2, ts, j + 1, hz, hs.round uD_nonneg hz', h3, by ring, by ring, by simp only; omega⟩

theorem Gath.term {ev : Node F64 → F64} [LinEv ev] {acc : F64 × List (Node F64)} {v m : ℝ} {k N : ℕ} {a : Node F64} {t : ℝ × ℝ}
    (h : Gath ev acc v m k N) (ht : TermOk ev k a t) : Gath ev (acc.1, acc.2 ++ [a]) (v + t.1) (m + t.2) k (N + 1) := by
  obtain ⟨c1, vc, mc, ts, j, h1, h2, h3, rfl, rfl, h6⟩ := h
  refine ⟨c1, vc, mc, ts ++ [t], j, h1, h2, forall₂_append_single h3 ht, by simp; ring, by simp; ring, by simp; omega⟩

theorem Gath.args {ev : Node F64 → F64} [LinEv ev] {k : ℕ} {xs : List (Node F64)} {ts : List (ℝ × ℝ)} (ht : List.Forall₂ (TermOk ev k) xs ts) :
    ∀ {acc : F64 × List (Node F64)} {v m : ℝ} {N : ℕ}, Gath ev acc v m k N → InRange (m + (ts.map Prod.snd).sum) (k + N + xs.length) →
      Gath ev (gatherArgs acc xs) (v + (ts.map Prod.fst).sum) (m + (ts.map Prod.snd).sum) k (N + xs.length) := by
  induction ht with
  | nil => intro acc v m N h _; simpa [gatherArgs] using h
  | @cons a t as ts ht hts ih =>
    intro acc v m N h hR
    simp only [List.map_cons, List.sum_cons, List.length_cons] at hR ⊢
    rw [← add_assoc, ← add_assoc, show N + (as.length + 1) = N + 1 + as.length by omega]
    rw [← add_assoc, show k + N + (as.length + 1) = k + (N + 1) + as.length by omega] at hR
    have h0 := terms_nonneg hts
    have hR' : InRange (m + t.2) (k + N) := hR.mono (by linarith) (by omega)
    obtain ⟨c, args⟩ := acc
    cases a
    case const i c' => exact ih (h.const ht hR') hR
    all_goals exact ih (h.term ht) hR

theorem Gath.gather {ev : Node F64 → F64} [LinEv ev] {k : ℕ} {e : Node F64} {ts : List (ℝ × ℝ)} (ht : List.Forall₂ (TermOk ev k) (addends e) ts)
    {acc : F64 × List (Node F64)} {v m : ℝ} {N : ℕ} (h : Gath ev acc v m k N) (hR : InRange (m + (ts.map Prod.snd).sum) (k + N + (addends e).length)) :
    Gath ev (gather acc e) (v + (ts.map Prod.fst).sum) (m + (ts.map Prod.snd).sum) k (N + (addends e).length) := by
  by_cases he : isAdd e = true
  · cases e <;> simp [isAdd] at he
    exact Gath.args ht h hR
  · have he : isAdd e = false := by simpa using he
    rw [addends_of_not he] at ht hR ⊢
    cases ht with
    | @cons _ t _ ts ht hnil =>
      cases hnil
      simp only [List.map_cons, List.map_nil, List.sum_cons, List.sum_nil, add_zero, List.length_singleton] at hR ⊢
      cases e
      case const i c' => exact h.const ht (hR.mono le_rfl (by omega))
      case add => simp [isAdd] at he
      all_goals exact h.term ht

theorem Gath.finish {ev : Node F64 → F64} [LinEv ev] {acc : F64 × List (Node F64)} {v m : ℝ} {k N : ℕ} (h : Gath ev acc v m k N)
    {e : Node F64} {n n' : ℕ} (he : finishAdd acc n = .ok (e, n')) : Rep ev e v m (k + N + 1) := by
  obtain ⟨c, vc, mc, ts, t, h1, h2, h3, rfl, rfl, h6⟩ := h
  unfold finishAdd at he
  split at he
  · rename_i hempty
    rw [newConst_ok] at he
    obtain ⟨rfl, -⟩ := he
    have hl : acc.2 = [] := by simpa using hempty
    rw [hl] at h3 h6
    cases h3
    have hR : Rep ev (.const n acc.1) vc mc (k + t + 1) := Rep.single (x := c) rfl (by rw [LinEv.const (ev := ev)]; exact h1) h2
    have := hR.mono (show k + t + 1 ≤ k + N + 1 by simp at h6; omega)
    simpa using this
  · split at he
    · rw [M.bind_ok] at he
      obtain ⟨kn, n1, hk, he⟩ := he
      rw [newConst_ok] at hk
      obtain ⟨rfl, -⟩ := hk
      rw [newAdd_ok] at he
      obtain ⟨-, rfl, -⟩ := he
      refine ⟨ts ++ [(vc, mc)], 0, 0, k + t, ?_, .zero uD_nonneg _, by simp; ring, by simp; linarith, by simp [addends]; omega⟩
      exact forall₂_append_single (termsMono (by omega) h3) ⟨rfl, c, by rw [LinEv.const (ev := ev)]; exact h1, h2⟩
    · rename_i hz
      rw [newAdd_ok] at he
      obtain ⟨-, rfl, -⟩ := he
      simp only [Bool.not_eq_true', Bool.not_eq_false] at hz
      have hz := LinEv.K_num (ev := ev) (F64.is_eqz.1 hz)
      rw [LinEv.κ_zero] at hz
      have hc := h1.unique hz
      subst hc
      exact ⟨ts, vc, mc, k + t, termsMono (by omega) h3, h2, rfl, le_rfl, by simp [addends]; omega⟩

theorem isConst_zero {e : Node F64} (h : e.isConstVal zero = true) : ∃ i z, e = .const i z ∧ z.Is 0 := by
  cases e <;> simp [Node.isConstVal] at h
  exact ⟨_, _, rfl, F64.is_eqz.1 h⟩

theorem isConst_one {e : Node F64} (h : e.isConstVal one = true) : ∃ i z, e = .const i z ∧ z.Is 1 := by
  cases e <;> simp [Node.isConstVal] at h
  exact ⟨_, _, rfl, F64.is_eqo.1 h⟩

/-- A handle with value zero stands for something that has been rounded away. -/
theorem Rep.vanish {ev : Node F64 → F64} [LinEv ev] {a e : Node F64} {v w m m' : ℝ} {k k' : ℕ} {i : ℕ} {z : F64}
    (ha : Rep ev a v m k) (hR : InRange m k) (h0 : a = .const i z) (hz : z.Is 0) (he : Rep ev e w m' k') : Rep ev e (v + w) (m + m') (k + k') := by
  obtain ⟨x, hx, -, hj⟩ := ha.eval hR
  obtain ⟨j, hj1, hj2⟩ := hj (by rw [h0]; rfl)
  rw [h0] at hx
  have hx0 := hx.unique (LinEv.constZero ev i hz)
  subst hx0
  obtain ⟨ts, v0, m0, j', h1, h2, rfl, h4, h5⟩ := he
  refine ⟨ts, v + v0, m + m0, j + j', termsMono (by omega) h1, ?_, by ring, by linarith, by omega⟩
  have := (hj2.mono uD_nonneg (show j ≤ j + j' by omega)).add (h2.mono uD_nonneg (show j' ≤ j + j' by omega))
  simpa using this

/-- The sum of two expressions, term by term. -/
theorem rep_sum {ev : Node F64 → F64} [LinEv ev] {a b e : Node F64} {v w m m' : ℝ} {k k' n n' : ℕ} (ha : Rep ev a v m k) (hb : Rep ev b w m' k')
    (hR : InRange (m + m') (k + k' + 1)) (h : finishAdd (gather (gather (zero, []) a) b) n = .ok (e, n')) : Rep ev e (v + w) (m + m') (k + k' + 1) := by
  obtain ⟨ts, v0, m0, j, h1, h2, rfl, h4, h5⟩ := ha
  obtain ⟨ts', v0', m0', j', h1', h2', rfl, h4', h5'⟩ := hb
  have hs : Gath ev (zero, []) (v0 + v0') (m0 + m0') (max j j') 0 :=
    ⟨0, v0 + v0', m0 + m0', [], 0, by have := LinEv.K_num (ev := ev) F64.is_zero; rwa [LinEv.κ_zero] at this, by
      have := (h2.mono uD_nonneg (le_max_left j j')).add (h2'.mono uD_nonneg (le_max_right j j'))
      simpa using this, .nil, by simp, by simp, by simp⟩
  have hjj := max_le (show j ≤ j + j' by omega) (show j' ≤ j + j' by omega)
  have n1 := terms_nonneg h1
  have n2 := terms_nonneg h1'
  have n3 := h2.nonneg
  have n4 := h2'.nonneg
  have g1 := Gath.gather (termsMono (le_max_left j j') h1) hs (hR.mono (by linarith) (by omega))
  have g2 := Gath.gather (termsMono (le_max_right j j') h1') g1 (hR.mono (by linarith) (by omega))
  have g3 := (g2.finish h).mono (show _ ≤ k + k' + 1 by omega)
  have e1 : v0 + v0' + (ts.map Prod.fst).sum + (ts'.map Prod.fst).sum = v0 + (ts.map Prod.fst).sum + (v0' + (ts'.map Prod.fst).sum) := by ring
  rw [e1] at g3
  exact g3.grow (by linarith)

theorem rep_addN {ev : Node F64 → F64} [LinEv ev] {a b e : Node F64} {v w m m' : ℝ} {k k' n n' : ℕ} (ha : Rep ev a v m k) (hb : Rep ev b w m' k')
    (hR : InRange (m + m') (k + k' + 1)) (h : addN a b n = .ok (e, n')) : Rep ev e (v + w) (m + m') (k + k' + 1) := by
  have n1 := ha.nonneg
  have n2 := hb.nonneg
  unfold addN at h
  split at h
  · rename_i h0
    obtain ⟨i, z, h0, hz⟩ := isConst_zero h0
    rw [M.pure_ok] at h
    obtain ⟨rfl, -⟩ := h
    exact (ha.vanish (hR.mono (by linarith) (by omega)) h0 hz hb).mono (by omega)
  split at h
  · rename_i h0
    obtain ⟨i, z, h0, hz⟩ := isConst_zero h0
    rw [M.pure_ok] at h
    obtain ⟨rfl, -⟩ := h
    have := (hb.vanish (hR.mono (by linarith) (by omega)) h0 hz ha).mono (show k' + k ≤ k + k' + 1 by omega)
    rwa [add_comm w v, add_comm m' m] at this
  · exact rep_sum ha hb hR h

/-! ## Products with a number -/

/-- On expressions that are no sums, `f` multiplies with `c`, with at most one rounding. -/
def Scales (ev : Node F64 → F64) (f : Node F64 → M (Node F64)) (c : ℝ) : Prop :=
  ∀ a x n b n', isAdd a = false → (ev a).Is x → |c * x| ≤ 2 * maxSize → f a n = .ok (b, n') →
    isAdd b = false ∧ ∃ z, (ev b).Is z ∧ |z - c * x| ≤ uD * max |c * x| (tinyAt c x)

/-- On sums, `f` works on the terms. -/
def ScalesSum (f : Node F64 → M (Node F64)) (c : ℝ) : Prop :=
  ∀ i args n e n', f (.add i args) n = .ok (e, n') →
    (c = 0 ∧ ∃ j z, e = .const j z ∧ z.Is 0) ∨ (c = 1 ∧ e = .add i args) ∨ ∃ bs n1 j, M.mapL f args n = .ok (bs, n1) ∧ e = .add j bs

theorem scaled_fst (c d θ : ℝ) (ts : List (ℝ × ℝ)) : ((ts.map fun t => (c * t.1, d * t.2 + θ)).map Prod.fst).sum = c * (ts.map Prod.fst).sum := by
  induction ts with
  | nil => simp
  | cons t ts ih =>
    simp only [List.map_cons, List.sum_cons, ih]
    ring

theorem scaled_snd (c d θ : ℝ) (ts : List (ℝ × ℝ)) :
    ((ts.map fun t => (c * t.1, d * t.2 + θ)).map Prod.snd).sum = d * (ts.map Prod.snd).sum + ts.length * θ := by
  induction ts with
  | nil => simp
  | cons t ts ih =>
    simp only [List.map_cons, List.sum_cons, ih, List.length_cons]
    push_cast
    ring

/-- A factor that is rounded to one. -/
theorem rep_one {ev : Node F64 → F64} {a : Node F64} {v m vc mc : ℝ} {k kc : ℕ} (ha : Rep ev a v m k) (hc : Approx uD 1 vc mc kc) :
    Rep ev a (v * vc) (m * mc) (kc + k) := by
  obtain ⟨ts, v0, m0, k', g1, g2, rfl, g4, g5⟩ := ha
  refine ⟨ts.map fun t => (vc * t.1, mc * t.2 + 0), vc * v0, mc * m0, kc + k', ?_, ?_, ?_, ?_, by omega⟩
  · rw [List.forall₂_map_right_iff]
    refine g1.imp fun b t hb => ?_
    obtain ⟨b1, x, b2, b3⟩ := hb
    have := hc.mul uD_nonneg b3
    rw [one_mul] at this
    exact ⟨b1, x, b2, by simpa using this⟩
  · have := hc.mul uD_nonneg g2
    rwa [mul_zero] at this
  · rw [scaled_fst]; ring
  · rw [scaled_snd]
    have := mul_le_mul_of_nonneg_left g4 hc.nonneg
    rw [mul_zero, mul_comm m]
    linarith

/-- What the products of `k` terms of total size `m` with `c` can lose by underflow. -/
noncomputable def lost (c m : ℝ) (k : ℕ) : ℝ := if m = 0 then 0 else k * tiny c

theorem lost_nonneg (c m : ℝ) (k : ℕ) : 0 ≤ lost c m k := by
  unfold lost; split_ifs; exacts [le_rfl, mul_nonneg (Nat.cast_nonneg k) (tiny_nonneg c)]

theorem lost_le (c m : ℝ) (k : ℕ) : lost c m k ≤ k * tiny c := by
  unfold lost; split_ifs; exacts [mul_nonneg (Nat.cast_nonneg k) (tiny_nonneg c), le_rfl]

theorem Approx.eq_zero {x v : ℝ} {k : ℕ} (h : Approx uD x v 0 k) : x = 0 := by
  have h1 := h.1
  have h2 : v = 0 := abs_eq_zero.1 (le_antisymm h.2 (abs_nonneg _))
  rw [h2, mul_zero, sub_zero] at h1
  exact abs_eq_zero.1 (le_antisymm h1 (abs_nonneg _))

theorem tinyAt_lost {c x v m : ℝ} {j k : ℕ} (h : Approx uD x v m j) (hk : 1 ≤ k) : tinyAt c x ≤ lost c m k := by
  unfold lost
  split_ifs with hm
  · subst hm
    rw [Approx.eq_zero h]
    simp [tinyAt]
  · have h1 : (1 : ℝ) ≤ k := by exact_mod_cast hk
    have := mul_le_mul_of_nonneg_right h1 (tiny_nonneg c)
    have := tinyAt_le c x
    linarith

/-- The sizes of scaled terms. -/
theorem lost_sum {ev : Node F64 → F64} {k : ℕ} {as : List (Node F64)} {ts : List (ℝ × ℝ)} (ht : List.Forall₂ (TermOk ev k) as ts) (vc mc c : ℝ) :
    ((ts.map fun t => (vc * t.1, mc * t.2 + lost c t.2 1)).map Prod.fst).sum = vc * (ts.map Prod.fst).sum ∧
    ((ts.map fun t => (vc * t.1, mc * t.2 + lost c t.2 1)).map Prod.snd).sum ≤ mc * (ts.map Prod.snd).sum + lost c (ts.map Prod.snd).sum ts.length := by
  induction ht with
  | nil => simp [lost]
  | @cons a t as ts h hts ih =>
    simp only [List.map_cons, List.sum_cons, List.length_cons]
    have n1 := h.nonneg
    have n2 := terms_nonneg hts
    have n3 := tiny_nonneg c
    refine ⟨by rw [ih.1]; ring, ?_⟩
    have key : lost c t.2 1 + lost c (ts.map Prod.snd).sum ts.length ≤ lost c (t.2 + (ts.map Prod.snd).sum) (ts.length + 1) := by
      by_cases h0 : t.2 + (ts.map Prod.snd).sum = 0
      · have e1 : t.2 = 0 := by linarith
        have e2 : (ts.map Prod.snd).sum = 0 := by linarith
        simp [lost, e1, e2]
      · have e1 := lost_le c t.2 1
        have e2 := lost_le c (ts.map Prod.snd).sum ts.length
        simp only [lost, if_neg h0] at e1 e2 ⊢
        push_cast at e1 ⊢
        linarith
    linarith [ih.2]

theorem lost_mono {c m m' : ℝ} {k k' : ℕ} (hm : 0 ≤ m) (h : m ≤ m') (hk : k ≤ k') : lost c m k ≤ lost c m' k' := by
  by_cases h0 : m = 0
  · rw [h0, show lost c 0 k = 0 by simp [lost]]; exact lost_nonneg _ _ _
  · have : m' ≠ 0 := fun h1 => h0 (le_antisymm (h1 ▸ h) hm)
    simp only [lost, if_neg h0, if_neg this]
    exact mul_le_mul_of_nonneg_right (by exact_mod_cast hk) (tiny_nonneg c)

theorem rep_scale {ev : Node F64 → F64} [LinEv ev] {f : Node F64 → M (Node F64)} {c vc mc : ℝ} {kc : ℕ} (hc : Approx uD c vc mc kc)
    (h1 : Scales ev f c) (h2 : ScalesSum f c) {a e : Node F64} {v m : ℝ} {k n n' : ℕ} (ha : Rep ev a v m k) (hRa : InRange m k)
    (hR : InRange (mc * m + lost c m k) (kc + k + 1)) (h : f a n = .ok (e, n')) :
    Rep ev e (vc * v) (mc * m + lost c m k) (kc + k + 1) := by
  have hkθ := lost_nonneg c m k
  by_cases hs : isAdd a = true
  · cases a <;> simp [isAdd] at hs
    rename_i i args
    rcases h2 i args n e n' h with ⟨rfl, j, z, rfl, hz⟩ | ⟨rfl, rfl⟩ | ⟨bs, n1, j, hm, rfl⟩
    · obtain ⟨x, -, hx, -⟩ := ha.eval hRa
      have := hc.mul uD_nonneg hx
      rw [zero_mul] at this
      exact (Rep.single (x := 0) rfl (LinEv.constZero ev j hz) this).grow (by linarith)
    · have := (rep_one ha hc).mono (show kc + k ≤ kc + k + 1 by omega)
      rw [mul_comm v, mul_comm m] at this
      exact this.grow (by linarith)
    · obtain ⟨ts, v0, m0, k', g1, g2, rfl, g4, g5⟩ := ha
      have n0 := g2.nonneg
      have hF := M.mapL_ok_forall (P := fun a b => ∃ n n', f a n = .ok (b, n')) hm fun a _ b n m h => ⟨n, m, h⟩
      have hmc := hc.nonneg
      have g4' := mul_le_mul_of_nonneg_left g4 hmc
      have hT : ∀ {as bs : List (Node F64)} {ts : List (ℝ × ℝ)}, List.Forall₂ (TermOk ev k') as ts →
          mc * (ts.map Prod.snd).sum ≤ mc * m →
          List.Forall₂ (fun a b => ∃ n n', f a n = .ok (b, n')) as bs →
          List.Forall₂ (TermOk ev (kc + k' + 1)) bs (ts.map fun t => (vc * t.1, mc * t.2 + lost c t.2 1)) := by
        intro as bs ts g hle hF
        induction g generalizing bs with
        | nil => cases hF; exact .nil
        | @cons b t as ts hb hbs ih =>
          have n1 := hb.nonneg
          have n2 := terms_nonneg hbs
          simp only [List.map_cons, List.sum_cons] at hle
          have n3 := mul_nonneg hmc n1
          have n4 := mul_nonneg hmc n2
          cases hF with
          | cons hF1 hF2 =>
            refine .cons ?_ (ih (by linarith) hF2)
            obtain ⟨b1, x, b2, b3⟩ := hb
            obtain ⟨n, n', hf⟩ := hF1
            have hp := hc.mul uD_nonneg b3
            obtain ⟨e1, z, e2, e3⟩ := h1 _ x n _ n' b1 b2 (hp.bound (hR.mono (by linarith) (by omega))) hf
            have n5 := tinyAt_lost (c := c) b3 le_rfl
            have n6 := lost_nonneg c t.2 1
            exact ⟨e1, z, e2, (hp.grow uD_nonneg (show mc * t.2 ≤ mc * t.2 + lost c t.2 1 by linarith)).roundT uD_nonneg (by linarith) e3⟩
      have hlen : args.length = bs.length := hF.length_eq
      have hlen' : args.length = ts.length := g1.length_eq
      obtain ⟨s1, s2⟩ := lost_sum g1 vc mc c
      refine ⟨ts.map fun t => (vc * t.1, mc * t.2 + lost c t.2 1), vc * v0, mc * m0, kc + k' + 1, hT g1 ?_ hF, ?_, ?_, ?_, ?_⟩
      · have := mul_nonneg hmc n0
        linarith
      · have := (hc.mul uD_nonneg g2).mono uD_nonneg (show kc + k' ≤ kc + k' + 1 by omega)
        rwa [mul_zero] at this
      · rw [s1]; ring
      · have := lost_mono (c := c) (k := ts.length) (k' := k) (terms_nonneg g1) (show (ts.map Prod.snd).sum ≤ m by linarith) (by
          simp only [addends] at g5; omega)
        linarith
      · simp only [addends] at g5 ⊢; omega
  · have hs : isAdd a = false := by simpa using hs
    obtain ⟨x, hx, -, hj⟩ := ha.eval hRa
    obtain ⟨j, hj1, hj2⟩ := hj hs
    have hp := hc.mul uD_nonneg hj2
    have hk1 := tinyAt_lost (c := c) (k := k) hj2 (by omega)
    have n1 := hp.nonneg
    obtain ⟨e1, z, e2, e3⟩ := h1 _ x n _ n' hs hx (hp.bound (hR.mono (by linarith) (by omega))) h
    exact (Rep.single e1 e2 ((hp.grow uD_nonneg (show mc * m ≤ mc * m + lost c m k by linarith)).roundT uD_nonneg (by linarith) e3)).mono (by omega)

theorem exact_scale (t : ℝ) (θ : ℝ) : |t - t| ≤ uD * max |t| θ := by
  rw [sub_self, abs_zero]; exact mul_nonneg uD_nonneg (le_trans (abs_nonneg _) (le_max_left _ _))

theorem zero_scale {t : ℝ} (h : t = 0) (θ : ℝ) : |0 - t| ≤ uD * max |t| θ := by
  rw [h, sub_zero, abs_zero]; exact mul_nonneg uD_nonneg (le_max_left _ _)

theorem sMulL_mapL (c : F64) : ∀ as : List (Node F64), sMul.sMulL c as = M.mapL (sMul c) as
  | [] => rfl
  | a :: as => by simp only [sMul.sMulL, M.mapL, sMulL_mapL c as]

theorem mulSL_mapL (c : F64) : ∀ as : List (Node F64), mulS.mulSL c as = M.mapL (mulS c) as
  | [] => rfl
  | a :: as => by simp only [mulS.mulSL, M.mapL, mulSL_mapL c as]

theorem mulCLL_mapL (i : ℕ) (c : F64) : ∀ as : List (Node F64), mulCL.mulCLL i c as = M.mapL (mulCL i c) as
  | [] => rfl
  | a :: as => by simp only [mulCL.mulCLL, M.mapL, mulCLL_mapL i c as]

theorem mulCRL_mapL (i : ℕ) (c : F64) : ∀ as : List (Node F64), mulCR.mulCRL i c as = M.mapL (mulCR i c) as
  | [] => rfl
  | a :: as => by simp only [mulCR.mulCRL, M.mapL, mulCRL_mapL i c as]

/-- The three cases of a product with a number that is no constant. -/
theorem factor_cases {ev : Node F64 → F64} [LinEv ev] {c' : F64} {c x : ℝ} (hc : c'.Is c) {r b : Node F64} {n n' : ℕ} {g : M (Node F64)} (hx : (ev r).Is x)
    (hr : isAdd r = false) (h : (if c' ==. zero then newConst zero else if c' ==. one then M.pure r else g) n = .ok (b, n'))
    (hg : g n = .ok (b, n') → isAdd b = false ∧ ∃ z, (ev b).Is z ∧ |z - c * x| ≤ uD * max |c * x| (tinyAt c x)) :
    isAdd b = false ∧ ∃ z, (ev b).Is z ∧ |z - c * x| ≤ uD * max |c * x| (tinyAt c x) := by
  split at h
  · rename_i h0
    rw [F64.eqz_num hc] at h0
    rw [newConst_ok] at h
    obtain ⟨rfl, -⟩ := h
    exact ⟨rfl, 0, LinEv.constZero ev _ F64.is_zero, zero_scale (by rw [h0, zero_mul]) _⟩
  split at h
  · rename_i h0
    rw [F64.eqo_num hc] at h0
    rw [M.pure_ok] at h
    obtain ⟨rfl, -⟩ := h
    exact ⟨hr, x, hx, by rw [h0, one_mul]; exact exact_scale x _⟩
  · exact hg h

theorem sum_cases {f : Node F64 → M (Node F64)} {c' : F64} {c : ℝ} (hc : c'.Is c) {i : ℕ} {args : List (Node F64)} {e : Node F64} {n n' : ℕ}
    (h : (if c' ==. zero then newConst zero else if c' ==. one then M.pure (.add i args) else M.bind (M.mapL f args) fun bs => newAdd bs) n = .ok (e, n')) :
    (c = 0 ∧ ∃ j z, e = .const j z ∧ z.Is 0) ∨ (c = 1 ∧ e = .add i args) ∨ ∃ bs n1 j, M.mapL f args n = .ok (bs, n1) ∧ e = .add j bs := by
  split at h
  · rename_i h0
    rw [newConst_ok] at h
    exact .inl ⟨(F64.eqz_num hc).1 h0, n, _, h.1, F64.is_zero⟩
  split at h
  · rename_i h0
    rw [M.pure_ok] at h
    exact .inr (.inl ⟨(F64.eqo_num hc).1 h0, h.1⟩)
  · rw [M.bind_ok] at h
    obtain ⟨bs, n1, hm, h⟩ := h
    rw [newAdd_ok] at h
    exact .inr (.inr ⟨bs, n1, n1, hm, h.2.1⟩)

theorem sMul_scales (ev : Node F64 → F64) [LinEv ev] {c' : F64} {c : ℝ} (hc : c'.Is c) : Scales ev (sMul c') c ∧ ScalesSum (sMul c') c := by
  constructor
  · intro a x n b n' ha hx hR hf
    have key : ∀ r : Node F64, (ev r).Is x → isAdd r = false →
        (if c' ==. zero then newConst zero else if c' ==. one then M.pure r else M.bind (newConst c') fun k => newMul k r) n = .ok (b, n') →
        isAdd b = false ∧ ∃ z, (ev b).Is z ∧ |z - c * x| ≤ uD * max |c * x| (tinyAt c x) := by
      intro r hx hr h
      refine factor_cases hc hx hr h fun h => ?_
      rw [M.bind_ok] at h
      obtain ⟨kn, n1, hk, h⟩ := h
      rw [newConst_ok] at hk
      obtain ⟨rfl, -⟩ := hk
      rw [newMul_eq] at h
      cases h
      exact ⟨rfl, LinEv.mulL _ _ hc hx hR⟩
    cases a
    case const i w =>
      simp only [sMul, newConst_ok] at hf
      obtain ⟨rfl, -⟩ := hf
      rw [LinEv.const (ev := ev)] at hx
      rw [LinEv.const (ev := ev)]
      exact ⟨rfl, LinEv.K_mulL hc hx hR⟩
    case add => simp [isAdd] at ha
    all_goals exact key _ hx ha hf
  · intro i args n e n' h
    simp only [sMul, sMulL_mapL] at h
    exact sum_cases hc h

theorem mulS_scales (ev : Node F64 → F64) [LinEv ev] {c' : F64} {c : ℝ} (hc : c'.Is c) : Scales ev (mulS c') c ∧ ScalesSum (mulS c') c := by
  constructor
  · intro a x n b n' ha hx hR hf
    have key : ∀ r : Node F64, (ev r).Is x → isAdd r = false →
        (if c' ==. zero then newConst zero else if c' ==. one then M.pure r else M.bind (newConst c') fun k => newMul r k) n = .ok (b, n') →
        isAdd b = false ∧ ∃ z, (ev b).Is z ∧ |z - c * x| ≤ uD * max |c * x| (tinyAt c x) := by
      intro r hx hr h
      refine factor_cases hc hx hr h fun h => ?_
      rw [M.bind_ok] at h
      obtain ⟨kn, n1, hk, h⟩ := h
      rw [newConst_ok] at hk
      obtain ⟨rfl, -⟩ := hk
      rw [newMul_eq] at h
      cases h
      exact ⟨rfl, LinEv.mulR _ _ hc hx hR⟩
    cases a
    case const i w =>
      simp only [mulS, newConst_ok] at hf
      obtain ⟨rfl, -⟩ := hf
      rw [LinEv.const (ev := ev)] at hx
      rw [LinEv.const (ev := ev)]
      exact ⟨rfl, LinEv.K_mulR hc hx hR⟩
    case add => simp [isAdd] at ha
    all_goals exact key _ hx ha hf
  · intro i args n e n' h
    simp only [mulS, mulSL_mapL] at h
    exact sum_cases hc h

/-- What a product of two constants may be. -/
theorem constProd {ev : Node F64 → F64} [LinEv ev] {j : ℕ} {c x : ℝ} {c' w pr : F64} {b : Node F64} (hc : c'.Is c)
    (hw : (ev (.const j w)).Is x) (hpr : ∃ z, (LinEv.K ev pr).Is z ∧ |z - c * x| ≤ uD * max |c * x| (tinyAt c x))
    (h : ((c = 0 ∨ w.Is 0) ∧ ∃ i z, b = .const i z ∧ z.Is 0) ∨ (w.Is 1 ∧ ∃ i, b = .const i c') ∨
      (c = 1 ∧ b = .const j w) ∨ ∃ i, b = .const i pr) :
    isAdd b = false ∧ ∃ z, (ev b).Is z ∧ |z - c * x| ≤ uD * max |c * x| (tinyAt c x) := by
  rcases h with ⟨h0, i, z, rfl, hz⟩ | ⟨h0, i, rfl⟩ | ⟨rfl, rfl⟩ | ⟨i, rfl⟩
  · refine ⟨rfl, 0, LinEv.constZero ev _ hz, ?_⟩
    have : c * x = 0 := by
      rcases h0 with rfl | h0
      · simp
      · rw [hw.unique (LinEv.constZero ev j h0), mul_zero]
    exact zero_scale this _
  · rw [LinEv.const (ev := ev)] at hw
    have hx := hw.unique (LinEv.K_num (ev := ev) h0)
    refine ⟨rfl, c * x, ?_, exact_scale _ _⟩
    rw [LinEv.const (ev := ev), hx, ← LinEv.κ_lin]
    exact LinEv.K_num (ev := ev) hc
  · exact ⟨rfl, x, hw, by rw [one_mul]; exact exact_scale x _⟩
  · obtain ⟨z, hz, hz'⟩ := hpr
    exact ⟨rfl, z, by rw [LinEv.const (ev := ev)]; exact hz, hz'⟩

theorem mulCL_scales (ev : Node F64 → F64) [LinEv ev] (i : ℕ) {c' : F64} {c : ℝ} (hc : c'.Is c) : Scales ev (mulCL i c') c ∧ ScalesSum (mulCL i c') c := by
  constructor
  · intro a x n b n' ha hx hR hf
    have key : ∀ r : Node F64, (ev r).Is x → isAdd r = false →
        (if c' ==. zero then newConst zero else if c' ==. one then M.pure r else newMul (.const i c') r) n = .ok (b, n') →
        isAdd b = false ∧ ∃ z, (ev b).Is z ∧ |z - c * x| ≤ uD * max |c * x| (tinyAt c x) := by
      intro r hx hr h
      refine factor_cases hc hx hr h fun h => ?_
      rw [newMul_eq] at h
      cases h
      exact ⟨rfl, LinEv.mulL _ _ hc hx hR⟩
    cases a
    case const j w =>
      have hK := hx
      rw [LinEv.const (ev := ev)] at hK
      refine constProd hc hx (LinEv.K_mulL hc hK hR) ?_
      simp only [mulCL] at hf
      split at hf
      · rename_i h0
        rw [Bool.or_eq_true] at h0
        rw [newConst_ok] at hf
        exact .inl ⟨h0.imp (F64.eqz_num hc).1 F64.is_eqz.1, n, _, hf.1, F64.is_zero⟩
      split at hf
      · rename_i h0
        rw [M.pure_ok] at hf
        exact .inr (.inr (.inl ⟨(F64.eqo_num hc).1 h0, hf.1⟩))
      split at hf
      · rename_i h0
        rw [M.pure_ok] at hf
        exact .inr (.inl ⟨F64.is_eqo.1 h0, _, hf.1⟩)
      · rw [newConst_ok] at hf
        exact .inr (.inr (.inr ⟨n, hf.1⟩))
    case add => simp [isAdd] at ha
    all_goals exact key _ hx ha hf
  · intro j args n e n' h
    simp only [mulCL, mulCLL_mapL] at h
    exact sum_cases hc h

theorem mulCR_scales (ev : Node F64 → F64) [LinEv ev] (i : ℕ) {c' : F64} {c : ℝ} (hc : c'.Is c) : Scales ev (mulCR i c') c ∧ ScalesSum (mulCR i c') c := by
  constructor
  · intro a x n b n' ha hx hR hf
    have key : ∀ r : Node F64, (ev r).Is x → isAdd r = false →
        (if c' ==. zero then newConst zero else if c' ==. one then M.pure r else newMul r (.const i c')) n = .ok (b, n') →
        isAdd b = false ∧ ∃ z, (ev b).Is z ∧ |z - c * x| ≤ uD * max |c * x| (tinyAt c x) := by
      intro r hx hr h
      refine factor_cases hc hx hr h fun h => ?_
      rw [newMul_eq] at h
      cases h
      exact ⟨rfl, LinEv.mulR _ _ hc hx hR⟩
    cases a
    case const j w =>
      have hK := hx
      rw [LinEv.const (ev := ev)] at hK
      refine constProd hc hx (LinEv.K_mulR hc hK hR) ?_
      simp only [mulCR] at hf
      split at hf
      · rename_i h0
        rw [Bool.or_eq_true] at h0
        rw [newConst_ok] at hf
        exact .inl ⟨(h0.imp F64.is_eqz.1 (F64.eqz_num hc).1).symm, n, _, hf.1, F64.is_zero⟩
      split at hf
      · rename_i h0
        rw [M.pure_ok] at hf
        exact .inr (.inl ⟨F64.is_eqo.1 h0, _, hf.1⟩)
      split at hf
      · rename_i h0
        rw [M.pure_ok] at hf
        exact .inr (.inr (.inl ⟨(F64.eqo_num hc).1 h0, hf.1⟩))
      · rw [newConst_ok] at hf
        exact .inr (.inr (.inr ⟨n, hf.1⟩))
    case add => simp [isAdd] at ha
    all_goals exact key _ hx ha hf
  · intro j args n e n' h
    simp only [mulCR, mulCRL_mapL] at h
    exact sum_cases hc h

end Verif.R64
