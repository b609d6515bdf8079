import Verif.Spec.Rounding
import Verif.Proofs.Node
import Mathlib.Tactic.Linarith
import Mathlib.Tactic.Ring

/-! # Rounding errors of sums and products -/

namespace Verif

set_option linter.unusedSectionVars false

variable {u : ℝ} {A : FlArith u}

namespace Fl

@[simp] theorem zero_def : (zero : Fl A) = Fl.num A 0 := rfl
@[simp] theorem one_def : (one : Fl A) = Fl.num A 1 := rfl
@[simp] theorem negOne_def : (negOne : Fl A) = Fl.num A (-1) := rfl
@[simp] theorem add_num (x y : ℝ) : (Fl.num A x +. Fl.num A y) = Fl.num A (A.add x y) := rfl
@[simp] theorem mul_num (x y : ℝ) : (Fl.num A x *. Fl.num A y) = Fl.num A (A.mul x y) := rfl
theorem div_num {x y : ℝ} (h : y ≠ 0) : (Fl.num A x /. Fl.num A y) = Fl.num A (A.div x y) := if_neg h
@[simp] theorem sin_num (x : ℝ) : FloatOps.sin (Fl.num A x) = Fl.num A (A.sin x) := rfl
@[simp] theorem cos_num (x : ℝ) : FloatOps.cos (Fl.num A x) = Fl.num A (A.cos x) := rfl
theorem eq_num {x y : ℝ} : (Fl.num A x ==. Fl.num A y) = true ↔ x = y := by
  show decide (x = y) = true ↔ _
  simp
theorem eq_val {a : Fl A} {y : ℝ} (h : (a ==. Fl.num A y) = true) : a = Fl.num A y := by
  cases a with
  | none => cases h
  | some w => rw [show w = y from eq_num.1 h]; rfl
theorem num_inj {x y : ℝ} : Fl.num A x = Fl.num A y ↔ x = y := by
  unfold Fl.num
  exact Option.some_inj

end Fl

/-- `x` is `v` up to `k` roundings of something of size `m`. -/
def Approx (u x v m : ℝ) (k : ℕ) : Prop := |x - v| ≤ ((1 + u) ^ k - 1) * m ∧ |v| ≤ m

theorem Approx.nonneg {x v m : ℝ} {k : ℕ} (h : Approx u x v m k) : 0 ≤ m := le_trans (abs_nonneg _) h.2

theorem eps_nonneg (hu : 0 ≤ u) (k : ℕ) : 0 ≤ (1 + u) ^ k - 1 := by
  have := one_le_pow₀ (show 1 ≤ 1 + u by linarith) (n := k)
  linarith

theorem eps_mono (hu : 0 ≤ u) {j k : ℕ} (h : j ≤ k) : (1 + u) ^ j - 1 ≤ (1 + u) ^ k - 1 := by
  have := pow_le_pow_right₀ (show 1 ≤ 1 + u by linarith) h
  linarith

theorem Approx.mono (hu : 0 ≤ u) {x v m : ℝ} {j k : ℕ} (h : Approx u x v m j) (hk : j ≤ k) : Approx u x v m k :=
  ⟨le_trans h.1 (mul_le_mul_of_nonneg_right (eps_mono hu hk) h.nonneg), h.2⟩

theorem Approx.exact (v : ℝ) : Approx u v v |v| 0 := by simp [Approx]

theorem Approx.exactIn (hu : 0 ≤ u) {v m : ℝ} (h : |v| ≤ m) (k : ℕ) : Approx u v v m k :=
  ⟨by rw [sub_self, abs_zero]; exact mul_nonneg (eps_nonneg hu k) (le_trans (abs_nonneg _) h), h⟩

theorem Approx.zero (hu : 0 ≤ u) (k : ℕ) : Approx u 0 0 0 k := .exactIn hu (by simp) k

theorem Approx.add {x y v w m m' : ℝ} {k : ℕ} (h : Approx u x v m k) (h' : Approx u y w m' k) : Approx u (x + y) (v + w) (m + m') k := by
  refine ⟨?_, le_trans (abs_add_le _ _) (add_le_add h.2 h'.2)⟩
  have : x + y - (v + w) = (x - v) + (y - w) := by ring
  rw [this, mul_add]
  exact le_trans (abs_add_le _ _) (add_le_add h.1 h'.1)

theorem Approx.sub {x y v w m m' : ℝ} {k : ℕ} (h : Approx u x v m k) (h' : Approx u y w m' k) : Approx u (x - y) (v - w) (m + m') k := by
  have h1 : Approx u (-y) (-w) m' k := ⟨by rw [show -y - -w = -(y - w) by ring, abs_neg]; exact h'.1, by rw [abs_neg]; exact h'.2⟩
  rw [sub_eq_add_neg, sub_eq_add_neg]
  exact h.add h1

theorem Approx.round (hu : 0 ≤ u) {x z v m : ℝ} {k : ℕ} (h : Approx u x v m k) (hz : |z - x| ≤ u * |x|) : Approx u z v m (k + 1) := by
  refine ⟨?_, h.2⟩
  have e1 : z - v = (z - x) + (x - v) := by ring
  have e2 : |x| ≤ |x - v| + |v| := by
    have : x = (x - v) + v := by ring
    calc |x| = |(x - v) + v| := by rw [← this]
      _ ≤ _ := abs_add_le _ _
  have e3 := h.1
  have e4 := h.2
  have e5 : u * |x| ≤ u * (((1 + u) ^ k - 1) * m + m) := mul_le_mul_of_nonneg_left (by linarith) hu
  calc |z - v| ≤ |z - x| + |x - v| := by rw [e1]; exact abs_add_le _ _
    _ ≤ u * (((1 + u) ^ k - 1) * m + m) + ((1 + u) ^ k - 1) * m := by linarith
    _ = ((1 + u) ^ (k + 1) - 1) * m := by ring

theorem Approx.mul (hu : 0 ≤ u) {x y v w m m' : ℝ} {k k' : ℕ} (h : Approx u x v m k) (h' : Approx u y w m' k') :
    Approx u (x * y) (v * w) (m * m') (k + k') := by
  have hm := h.nonneg
  have hm' := h'.nonneg
  refine ⟨?_, by rw [abs_mul]; exact mul_le_mul h.2 h'.2 (abs_nonneg _) hm⟩
  have e1 : x * y - v * w = (x - v) * (y - w) + ((x - v) * w + v * (y - w)) := by ring
  have a1 : |(x - v) * (y - w)| ≤ (((1 + u) ^ k - 1) * m) * (((1 + u) ^ k' - 1) * m') := by
    rw [abs_mul]; exact mul_le_mul h.1 h'.1 (abs_nonneg _) (mul_nonneg (eps_nonneg hu k) hm)
  have a2 : |(x - v) * w| ≤ (((1 + u) ^ k - 1) * m) * m' := by
    rw [abs_mul]; exact mul_le_mul h.1 h'.2 (abs_nonneg _) (mul_nonneg (eps_nonneg hu k) hm)
  have a3 : |v * (y - w)| ≤ m * (((1 + u) ^ k' - 1) * m') := by
    rw [abs_mul]; exact mul_le_mul h.2 h'.1 (abs_nonneg _) hm
  calc |x * y - v * w| ≤ |(x - v) * (y - w)| + (|(x - v) * w| + |v * (y - w)|) := by
        rw [e1]; exact le_trans (abs_add_le _ _) (add_le_add_right (abs_add_le _ _) _)
    _ ≤ _ := add_le_add a1 (add_le_add a2 a3)
    _ = ((1 + u) ^ (k + k') - 1) * (m * m') := by rw [pow_add]; ring

/-- Not a sum. -/
def isAdd : Node (Fl A) → Bool
  | .add .. => true
  | _ => false

/-- The terms of a sum; an expression that is no sum is its only term. -/
def addends : Node (Fl A) → List (Node (Fl A))
  | .add _ args => args
  | e => [e]

theorem addends_of_not {e : Node (Fl A)} (h : isAdd e = false) : addends e = [e] := by
  cases e <;> simp_all [isAdd, addends]

/-- What the operators' way of writing sums and products needs to know about a number `ev e` that is computed from an expression: constants give their
value or nothing (`K`), sums are added up in some order and products and quotients with a constant are rounded once. -/
class LinEv (ev : Node (Fl A) → Fl A) where
  K : Fl A → Fl A
  κ : ℝ → ℝ
  const : ∀ i c, ev (.const i c) = K c
  K_num : ∀ c, K (Fl.num A c) = Fl.num A (κ c)
  κ_lin : ∀ c, κ c = c * κ 1
  K_add : ∀ {a b x y}, K a = Fl.num A x → K b = Fl.num A y → ∃ z, K (a +. b) = Fl.num A z ∧ |z - (x + y)| ≤ u * |x + y|
  K_mulL : ∀ c {a x}, K a = Fl.num A x → ∃ z, K (Fl.num A c *. a) = Fl.num A z ∧ |z - c * x| ≤ u * |c * x|
  K_mulR : ∀ c {a x}, K a = Fl.num A x → ∃ z, K (a *. Fl.num A c) = Fl.num A z ∧ |z - c * x| ≤ u * |c * x|
  K_div : ∀ {c a x}, c ≠ 0 → K a = Fl.num A x → ∃ z, K (a /. Fl.num A c) = Fl.num A z ∧ |z - x / c| ≤ u * |x / c|
  sum : 0 ≤ u → ∀ (i : ℕ) {k : ℕ} {as : List (Node (Fl A))} {ts : List (ℝ × ℝ)} {v0 m0 : ℝ},
    List.Forall₂ (fun a t => ∃ x, ev a = Fl.num A x ∧ Approx u x t.1 t.2 k) as ts → Approx u 0 v0 m0 k →
    ∃ x, ev (.add i as) = Fl.num A x ∧ Approx u x (v0 + (ts.map Prod.fst).sum) (m0 + (ts.map Prod.snd).sum) (k + as.length)
  mulL : ∀ i j c {a x}, ev a = Fl.num A x → ∃ z, ev (.mul i (.const j (Fl.num A c)) a) = Fl.num A z ∧ |z - c * x| ≤ u * |c * x|
  mulR : ∀ i j c {a x}, ev a = Fl.num A x → ∃ z, ev (.mul i a (.const j (Fl.num A c))) = Fl.num A z ∧ |z - c * x| ≤ u * |c * x|
  divR : ∀ i j {c a x}, c ≠ 0 → ev a = Fl.num A x → ∃ z, ev (.div i a (.const j (Fl.num A c))) = Fl.num A z ∧ |z - x / c| ≤ u * |x / c|

theorem LinEv.κ_zero (ev : Node (Fl A) → Fl A) [LinEv ev] : LinEv.κ ev 0 = 0 := by rw [LinEv.κ_lin, zero_mul]

theorem LinEv.constZero (ev : Node (Fl A) → Fl A) [LinEv ev] (i : ℕ) : ev (.const i (Fl.num A 0)) = Fl.num A 0 := by
  rw [LinEv.const (ev := ev), LinEv.K_num, LinEv.κ_zero]

/-- A term that is no sum, with a value that is close to the exact one. -/
def TermOk (ev : Node (Fl A) → Fl A) (k : ℕ) (a : Node (Fl A)) (t : ℝ × ℝ) : Prop :=
  isAdd a = false ∧ ∃ x, ev a = Fl.num A x ∧ Approx u x t.1 t.2 k

theorem TermOk.mono (hu : 0 ≤ u) {ev : Node (Fl A) → Fl A} [LinEv ev] {j k : ℕ} (h : j ≤ k) {a : Node (Fl A)} {t : ℝ × ℝ} (ht : TermOk ev j a t) : TermOk ev k a t := by
  obtain ⟨h1, x, h2, h3⟩ := ht
  exact ⟨h1, x, h2, h3.mono hu h⟩

theorem termsMono (hu : 0 ≤ u) {ev : Node (Fl A) → Fl A} [LinEv ev] {j k : ℕ} (h : j ≤ k) {as : List (Node (Fl A))} {ts : List (ℝ × ℝ)}
    (ht : List.Forall₂ (TermOk ev j) as ts) : List.Forall₂ (TermOk ev k) as ts :=
  ht.imp fun _ _ => TermOk.mono hu h

/-- The expression is a sum of terms with values close to exact ones; `v0` is what has been rounded away entirely. -/
def Rep (ev : Node (Fl A) → Fl A) (e : Node (Fl A)) (v m : ℝ) (k : ℕ) : Prop :=
  ∃ (ts : List (ℝ × ℝ)) (v0 m0 : ℝ) (k' : ℕ), List.Forall₂ (TermOk ev k') (addends e) ts ∧ Approx u 0 v0 m0 k' ∧
    v = v0 + (ts.map Prod.fst).sum ∧ m = m0 + (ts.map Prod.snd).sum ∧ k' + (addends e).length ≤ k

theorem Rep.mono {ev : Node (Fl A) → Fl A} [LinEv ev] {e : Node (Fl A)} {v m : ℝ} {j k : ℕ} (h : Rep ev e v m j) (hk : j ≤ k) : Rep ev e v m k := by
  obtain ⟨ts, v0, m0, k', h1, h2, h3, h4, h5⟩ := h
  exact ⟨ts, v0, m0, k', h1, h2, h3, h4, le_trans h5 hk⟩

/-- An expression that is no sum. -/
theorem Rep.single (hu : 0 ≤ u) {ev : Node (Fl A) → Fl A} [LinEv ev] {e : Node (Fl A)} {x v m : ℝ} {k : ℕ} (he : isAdd e = false) (hx : ev e = Fl.num A x)
    (h : Approx u x v m k) : Rep ev e v m (k + 1) := by
  refine ⟨[(v, m)], 0, 0, k, ?_, .zero hu _, by simp, by simp, ?_⟩
  · rw [addends_of_not he]; exact .cons ⟨he, x, hx, h⟩ .nil
  · rw [addends_of_not he]; simp

/-- The value of an expression. -/
theorem Rep.eval (hu : 0 ≤ u) {ev : Node (Fl A) → Fl A} [LinEv ev] {e : Node (Fl A)} {v m : ℝ} {k : ℕ} (h : Rep ev e v m k) :
    ∃ x, ev e = Fl.num A x ∧ Approx u x v m k ∧ (isAdd e = false → ∃ j, j + 1 ≤ k ∧ Approx u x v m j) := by
  obtain ⟨ts, v0, m0, k', h1, h2, rfl, rfl, h5⟩ := h
  by_cases he : isAdd e = true
  · cases e <;> simp [isAdd] at he
    rename_i i args
    obtain ⟨x, hx, hax⟩ := LinEv.sum (ev := ev) hu i (h1.imp fun _ _ h => h.2) h2
    refine ⟨x, hx, hax.mono hu h5, fun h => by simp [isAdd] at h⟩
  · have he : isAdd e = false := by simpa using he
    rw [addends_of_not he] at h1 h5
    cases h1 with
    | @cons _ t _ ts ht hnil =>
      cases hnil
      obtain ⟨-, x, hx, hax⟩ := ht
      have hA : Approx u x (v0 + ([t].map Prod.fst).sum) (m0 + ([t].map Prod.snd).sum) k' := by
        have := h2.add hax
        simpa using this
      exact ⟨x, hx, hA.mono hu (by simp at h5; omega), fun _ => ⟨k', by simpa using h5, hA⟩⟩

/-! ## Sums -/

/-- The state of the loop that collects terms. -/
def Gath (ev : Node (Fl A) → Fl A) [LinEv ev] (acc : Fl A × List (Node (Fl A))) (v m : ℝ) (k N : ℕ) : Prop :=
  ∃ (c vc mc : ℝ) (ts : List (ℝ × ℝ)) (t : ℕ), LinEv.K ev acc.1 = Fl.num A c ∧ Approx u c vc mc (k + t) ∧ List.Forall₂ (TermOk ev k) acc.2 ts ∧
    v = vc + (ts.map Prod.fst).sum ∧ m = mc + (ts.map Prod.snd).sum ∧ t + acc.2.length = N

theorem Gath.const (hu : 0 ≤ u) {ev : Node (Fl A) → Fl A} [LinEv ev] {acc : Fl A × List (Node (Fl A))} {v m : ℝ} {k N i : ℕ} {c : Fl A} {t : ℝ × ℝ}
    (h : Gath ev acc v m k N) (ht : TermOk ev k (.const i c) t) : Gath ev (acc.1 +. c, acc.2) (v + t.1) (m + t.2) k (N + 1) := by
  obtain ⟨c1, vc, mc, ts, j, h1, h2, h3, rfl, rfl, h6⟩ := h
  obtain ⟨-, x, hx, hax⟩ := ht
  rw [LinEv.const (ev := ev)] at hx
  obtain ⟨z, hz, hz'⟩ := LinEv.K_add h1 hx
  refine ⟨z, vc + t.1, mc + t.2, ts, j + 1, hz, ?_, h3, by ring, by ring, by simp only; omega⟩
  exact (h2.add (hax.mono hu (by omega))).round hu hz'

theorem forall₂_append_single {α β : Type} {P : α → β → Prop} {as : List α} {bs : List β} {a : α} {b : β} (h : List.Forall₂ P as bs) (hp : P a b) :
    List.Forall₂ P (as ++ [a]) (bs ++ [b]) := by
  induction h with
  | nil => exact .cons hp .nil
  | cons h1 _ ih => exact .cons h1 ih

theorem Gath.term {ev : Node (Fl A) → Fl A} [LinEv ev] {acc : Fl A × List (Node (Fl A))} {v m : ℝ} {k N : ℕ} {a : Node (Fl A)} {t : ℝ × ℝ}
    (h : Gath ev acc v m k N) (ht : TermOk ev k a t) : Gath ev (acc.1, acc.2 ++ [a]) (v + t.1) (m + t.2) k (N + 1) := by
  obtain ⟨c1, vc, mc, ts, j, h1, h2, h3, rfl, rfl, h6⟩ := h
  refine ⟨c1, vc, mc, ts ++ [t], j, h1, h2, forall₂_append_single h3 ht, by simp; ring, by simp; ring, by simp; omega⟩

theorem Gath.args (hu : 0 ≤ u) {ev : Node (Fl A) → Fl A} [LinEv ev] {k : ℕ} {xs : List (Node (Fl A))} {ts : List (ℝ × ℝ)} (ht : List.Forall₂ (TermOk ev k) xs ts) :
    ∀ {acc : Fl A × List (Node (Fl A))} {v m : ℝ} {N : ℕ}, Gath ev acc v m k N →
      Gath ev (gatherArgs acc xs) (v + (ts.map Prod.fst).sum) (m + (ts.map Prod.snd).sum) k (N + xs.length) := by
  induction ht with
  | nil => intro acc v m N h; simpa [gatherArgs] using h
  | @cons a t as ts ht _ ih =>
    intro acc v m N h
    simp only [List.map_cons, List.sum_cons, List.length_cons]
    rw [← add_assoc, ← add_assoc, show N + (as.length + 1) = N + 1 + as.length by omega]
    obtain ⟨c, args⟩ := acc
    cases a
    case const i c' => exact ih (h.const hu ht)
    all_goals exact ih (h.term ht)

theorem Gath.gather (hu : 0 ≤ u) {ev : Node (Fl A) → Fl A} [LinEv ev] {k : ℕ} {e : Node (Fl A)} {ts : List (ℝ × ℝ)} (ht : List.Forall₂ (TermOk ev k) (addends e) ts)
    {acc : Fl A × List (Node (Fl A))} {v m : ℝ} {N : ℕ} (h : Gath ev acc v m k N) :
    Gath ev (gather acc e) (v + (ts.map Prod.fst).sum) (m + (ts.map Prod.snd).sum) k (N + (addends e).length) := by
  by_cases he : isAdd e = true
  · cases e <;> simp [isAdd] at he
    exact Gath.args hu ht h
  · have he : isAdd e = false := by simpa using he
    rw [addends_of_not he] at ht ⊢
    cases ht with
    | @cons _ t _ ts ht hnil =>
      cases hnil
      simp only [List.map_cons, List.map_nil, List.sum_cons, List.sum_nil, add_zero, List.length_singleton]
      cases e
      case const i c' => exact h.const hu ht
      case add => simp [isAdd] at he
      all_goals exact h.term ht

theorem Gath.finish (hu : 0 ≤ u) {ev : Node (Fl A) → Fl A} [LinEv ev] {acc : Fl A × List (Node (Fl A))} {v m : ℝ} {k N : ℕ} (h : Gath ev acc v m k N)
    {e : Node (Fl A)} {n n' : ℕ} (he : finishAdd acc n = .ok (e, n')) : Rep ev e v m (k + N + 1) := by
  obtain ⟨c, vc, mc, ts, t, h1, h2, h3, rfl, rfl, h6⟩ := h
  unfold finishAdd at he
  split at he
  · rename_i hempty
    rw [newConst_ok] at he
    obtain ⟨rfl, -⟩ := he
    have hl : acc.2 = [] := by simpa using hempty
    rw [hl] at h3 h6
    cases h3
    have hR : Rep ev (.const n acc.1) vc mc (k + t + 1) := Rep.single hu (x := c) rfl (by rw [LinEv.const (ev := ev), h1]) h2
    have := hR.mono (show k + t + 1 ≤ k + N + 1 by simp at h6; omega)
    simpa using this
  · split at he
    · rw [M.bind_ok] at he
      obtain ⟨kn, n1, hk, he⟩ := he
      rw [newConst_ok] at hk
      obtain ⟨rfl, -⟩ := hk
      rw [newAdd_ok] at he
      obtain ⟨-, rfl, -⟩ := he
      refine ⟨ts ++ [(vc, mc)], 0, 0, k + t, ?_, .zero hu _, by simp; ring, by simp; ring, by simp [addends]; omega⟩
      exact forall₂_append_single (termsMono hu (by omega) h3) ⟨rfl, c, by rw [LinEv.const (ev := ev), h1], h2⟩
    · rename_i hz
      rw [newAdd_ok] at he
      obtain ⟨-, rfl, -⟩ := he
      simp only [Bool.not_eq_true', Bool.not_eq_false] at hz
      rw [Fl.zero_def] at hz
      rw [Fl.eq_val hz, LinEv.K_num, LinEv.κ_zero, Fl.num_inj] at h1
      subst h1
      exact ⟨ts, vc, mc, k + t, termsMono hu (by omega) h3, h2, rfl, rfl, by simp [addends]; omega⟩

theorem isConstVal_inv {e : Node (Fl A)} {c : ℝ} (h : e.isConstVal (Fl.num A c) = true) : ∃ i, e = .const i (Fl.num A c) := by
  cases e <;> simp [Node.isConstVal] at h
  rename_i i w
  cases w with
  | none => cases h
  | some w => exact ⟨i, by rw [show w = c from Fl.eq_num.1 h]; rfl⟩

/-- A handle with value zero stands for something that has been rounded away. -/
theorem Rep.vanish {ev : Node (Fl A) → Fl A} [LinEv ev] {a e : Node (Fl A)} {v w m m' : ℝ} {k k' : ℕ} {i : ℕ} (hu : 0 ≤ u)
    (ha : Rep ev a v m k) (h0 : a = .const i (Fl.num A 0)) (he : Rep ev e w m' k') : Rep ev e (v + w) (m + m') (k + k') := by
  obtain ⟨x, hx, -, hj⟩ := ha.eval hu
  obtain ⟨j, hj1, hj2⟩ := hj (by rw [h0]; rfl)
  rw [h0, LinEv.constZero (ev := ev), Fl.num_inj] at hx
  subst hx
  obtain ⟨ts, v0, m0, j', h1, h2, rfl, rfl, h5⟩ := he
  refine ⟨ts, v + v0, m + m0, j + j', termsMono hu (by omega) h1, ?_, by ring, by ring, by omega⟩
  have := (hj2.mono hu (show j ≤ j + j' by omega)).add (h2.mono hu (show j' ≤ j + j' by omega))
  simpa using this

/-- The sum of two expressions, term by term. -/
theorem rep_sum (hu : 0 ≤ u) {ev : Node (Fl A) → Fl A} [LinEv ev] {a b e : Node (Fl A)} {v w m m' : ℝ} {k k' n n' : ℕ} (ha : Rep ev a v m k) (hb : Rep ev b w m' k')
    (h : finishAdd (gather (gather (Fl.num A 0, []) a) b) n = .ok (e, n')) : Rep ev e (v + w) (m + m') (k + k' + 1) := by
  obtain ⟨ts, v0, m0, j, h1, h2, rfl, rfl, h5⟩ := ha
  obtain ⟨ts', v0', m0', j', h1', h2', rfl, rfl, h5'⟩ := hb
  have hs : Gath ev (Fl.num A 0, []) (v0 + v0') (m0 + m0') (max j j') 0 :=
    ⟨0, v0 + v0', m0 + m0', [], 0, by rw [LinEv.K_num, LinEv.κ_zero], by
      have := (h2.mono hu (le_max_left j j')).add (h2'.mono hu (le_max_right j j'))
      simpa using this, .nil, by simp, by simp, by simp⟩
  have g1 := Gath.gather hu (termsMono hu (le_max_left j j') h1) hs
  have g2 := Gath.gather hu (termsMono hu (le_max_right j j') h1') g1
  have g3 := (g2.finish hu h).mono (show _ ≤ k + k' + 1 by
    have := max_le (show j ≤ j + j' by omega) (show j' ≤ j + j' by omega)
    omega)
  have e1 : v0 + v0' + (ts.map Prod.fst).sum + (ts'.map Prod.fst).sum = v0 + (ts.map Prod.fst).sum + (v0' + (ts'.map Prod.fst).sum) := by ring
  have e2 : m0 + m0' + (ts.map Prod.snd).sum + (ts'.map Prod.snd).sum = m0 + (ts.map Prod.snd).sum + (m0' + (ts'.map Prod.snd).sum) := by ring
  rwa [e1, e2] at g3

theorem rep_addN (hu : 0 ≤ u) {ev : Node (Fl A) → Fl A} [LinEv ev] {a b e : Node (Fl A)} {v w m m' : ℝ} {k k' n n' : ℕ} (ha : Rep ev a v m k) (hb : Rep ev b w m' k')
    (h : addN a b n = .ok (e, n')) : Rep ev e (v + w) (m + m') (k + k' + 1) := by
  unfold addN at h
  rw [Fl.zero_def] at h
  split at h
  · rename_i h0
    obtain ⟨i, h0⟩ := isConstVal_inv h0
    rw [M.pure_ok] at h
    obtain ⟨rfl, -⟩ := h
    exact (ha.vanish hu h0 hb).mono (by omega)
  split at h
  · rename_i h0
    obtain ⟨i, h0⟩ := isConstVal_inv h0
    rw [M.pure_ok] at h
    obtain ⟨rfl, -⟩ := h
    have := (hb.vanish hu h0 ha).mono (show k' + k ≤ k + k' + 1 by omega)
    rwa [add_comm w v, add_comm m' m] at this
  · exact rep_sum hu ha hb h

/-! ## Products with a number -/

/-- On expressions that are no sums, `f` multiplies with `c`, with at most one rounding. -/
def Scales (ev : Node (Fl A) → Fl A) (f : Node (Fl A) → M (Node (Fl A))) (c : ℝ) : Prop :=
  ∀ a x n b n', isAdd a = false → ev a = Fl.num A x → f a n = .ok (b, n') →
    isAdd b = false ∧ ∃ z, ev b = Fl.num A z ∧ |z - c * x| ≤ u * |c * x|

/-- On sums, `f` works on the terms. -/
def ScalesSum (f : Node (Fl A) → M (Node (Fl A))) (c : ℝ) : Prop :=
  ∀ i args n e n', f (.add i args) n = .ok (e, n') →
    (c = 0 ∧ ∃ j, e = .const j (Fl.num A 0)) ∨ (c = 1 ∧ e = .add i args) ∨ ∃ bs n1 j, M.mapL f args n = .ok (bs, n1) ∧ e = .add j bs

theorem scaled_sums (c d : ℝ) (ts : List (ℝ × ℝ)) :
    ((ts.map fun t => (c * t.1, d * t.2)).map Prod.fst).sum = c * (ts.map Prod.fst).sum ∧
    ((ts.map fun t => (c * t.1, d * t.2)).map Prod.snd).sum = d * (ts.map Prod.snd).sum := by
  induction ts with
  | nil => simp
  | cons t ts ih =>
    simp only [List.map_cons, List.sum_cons, ih.1, ih.2]
    constructor <;> ring

theorem rep_scale (hu : 0 ≤ u) {ev : Node (Fl A) → Fl A} [LinEv ev] {f : Node (Fl A) → M (Node (Fl A))} {c vc mc : ℝ} {kc : ℕ} (hc : Approx u c vc mc kc)
    (h1 : Scales ev f c) (h2 : ScalesSum f c) {a e : Node (Fl A)} {v m : ℝ} {k n n' : ℕ} (ha : Rep ev a v m k) (h : f a n = .ok (e, n')) :
    Rep ev e (vc * v) (mc * m) (kc + k + 1) := by
  by_cases hs : isAdd a = true
  · cases a <;> simp [isAdd] at hs
    rename_i i args
    rcases h2 i args n e n' h with ⟨rfl, j, rfl⟩ | ⟨rfl, rfl⟩ | ⟨bs, n1, j, hm, rfl⟩
    · obtain ⟨x, -, hx, -⟩ := ha.eval hu
      have := hc.mul hu hx
      rw [zero_mul] at this
      exact Rep.single hu (x := 0) rfl (LinEv.constZero ev j) this
    · obtain ⟨ts, v0, m0, k', g1, g2, rfl, rfl, g5⟩ := ha
      refine ⟨ts.map fun t => (vc * t.1, mc * t.2), vc * v0, mc * m0, kc + k', ?_, ?_, ?_, ?_, by omega⟩
      · rw [List.forall₂_map_right_iff]
        refine g1.imp fun b t hb => ?_
        obtain ⟨b1, x, b2, b3⟩ := hb
        have := hc.mul hu b3
        rw [one_mul] at this
        exact ⟨b1, x, b2, this⟩
      · have := hc.mul hu g2
        rwa [mul_zero] at this
      · rw [(scaled_sums vc mc ts).1]; ring
      · rw [(scaled_sums vc mc ts).2]; ring
    · obtain ⟨ts, v0, m0, k', g1, g2, rfl, rfl, g5⟩ := ha
      have hF := M.mapL_ok_forall (P := fun a b => ∃ n n', f a n = .ok (b, n')) hm fun a _ b n m h => ⟨n, m, h⟩
      have hT : ∀ {as bs : List (Node (Fl A))} {ts : List (ℝ × ℝ)}, List.Forall₂ (TermOk ev k') as ts →
          List.Forall₂ (fun a b => ∃ n n', f a n = .ok (b, n')) as bs →
          List.Forall₂ (TermOk ev (kc + k' + 1)) bs (ts.map fun t => (vc * t.1, mc * t.2)) := by
        intro as bs ts g hF
        induction g generalizing bs with
        | nil => cases hF; exact .nil
        | @cons b t as ts hb _ ih =>
          cases hF with
          | cons hF1 hF2 =>
            refine .cons ?_ (ih hF2)
            obtain ⟨b1, x, b2, b3⟩ := hb
            obtain ⟨n, n', hf⟩ := hF1
            obtain ⟨e1, z, e2, e3⟩ := h1 _ x n _ n' b1 b2 hf
            exact ⟨e1, z, e2, (hc.mul hu b3).round hu e3⟩
      have hlen : args.length = bs.length := hF.length_eq
      refine ⟨ts.map fun t => (vc * t.1, mc * t.2), vc * v0, mc * m0, kc + k' + 1, hT g1 hF, ?_, ?_, ?_, ?_⟩
      · have := (hc.mul hu g2).mono hu (show kc + k' ≤ kc + k' + 1 by omega)
        rwa [mul_zero] at this
      · rw [(scaled_sums vc mc ts).1]; ring
      · rw [(scaled_sums vc mc ts).2]; ring
      · simp only [addends] at g5 ⊢; omega
  · have hs : isAdd a = false := by simpa using hs
    obtain ⟨x, hx, -, hj⟩ := ha.eval hu
    obtain ⟨j, hj1, hj2⟩ := hj hs
    obtain ⟨e1, z, e2, e3⟩ := h1 _ x n _ n' hs hx h
    exact (Rep.single hu e1 e2 ((hc.mul hu hj2).round hu e3)).mono (by omega)

theorem exact_scale (hu : 0 ≤ u) (t : ℝ) : |t - t| ≤ u * |t| := by
  rw [sub_self, abs_zero]; exact mul_nonneg hu (abs_nonneg _)

theorem sMulL_mapL (c : Fl A) : ∀ as : List (Node (Fl A)), sMul.sMulL c as = M.mapL (sMul c) as
  | [] => rfl
  | a :: as => by simp only [sMul.sMulL, M.mapL, sMulL_mapL c as]

theorem mulSL_mapL (c : Fl A) : ∀ as : List (Node (Fl A)), mulS.mulSL c as = M.mapL (mulS c) as
  | [] => rfl
  | a :: as => by simp only [mulS.mulSL, M.mapL, mulSL_mapL c as]

theorem mulCLL_mapL (i : ℕ) (c : Fl A) : ∀ as : List (Node (Fl A)), mulCL.mulCLL i c as = M.mapL (mulCL i c) as
  | [] => rfl
  | a :: as => by simp only [mulCL.mulCLL, M.mapL, mulCLL_mapL i c as]

theorem mulCRL_mapL (i : ℕ) (c : Fl A) : ∀ as : List (Node (Fl A)), mulCR.mulCRL i c as = M.mapL (mulCR i c) as
  | [] => rfl
  | a :: as => by simp only [mulCR.mulCRL, M.mapL, mulCRL_mapL i c as]

theorem sMul_scales (hu : 0 ≤ u) (ev : Node (Fl A) → Fl A) [LinEv ev] (c : ℝ) : Scales ev (sMul (Fl.num A c)) c ∧ ScalesSum (sMul (Fl.num A c)) c := by
  constructor
  · intro a x n b n' ha hx hf
    have key : ∀ r : Node (Fl A), ev r = Fl.num A x → isAdd r = false →
        (if (Fl.num A c) ==. zero then newConst zero else if (Fl.num A c) ==. one then M.pure r
          else M.bind (newConst (Fl.num A c)) fun k => newMul k r) n = .ok (b, n') →
        isAdd b = false ∧ ∃ z, ev b = Fl.num A z ∧ |z - c * x| ≤ u * |c * x| := by
      intro r hx hr h
      rw [Fl.zero_def, Fl.one_def] at h
      split at h
      · rename_i h0
        rw [Fl.eq_num] at h0
        rw [newConst_ok] at h
        obtain ⟨rfl, -⟩ := h
        exact ⟨rfl, 0, LinEv.constZero ev _, by simp [h0]⟩
      split at h
      · rename_i h0
        rw [Fl.eq_num] at h0
        rw [M.pure_ok] at h
        obtain ⟨rfl, -⟩ := h
        exact ⟨hr, x, hx, by rw [h0, one_mul]; exact exact_scale hu x⟩
      · rw [M.bind_ok] at h
        obtain ⟨kn, n1, hk, h⟩ := h
        rw [newConst_ok] at hk
        obtain ⟨rfl, -⟩ := hk
        rw [newMul_eq] at h
        cases h
        exact ⟨rfl, LinEv.mulL _ _ c hx⟩
    cases a
    case const i w =>
      simp only [sMul, newConst_ok] at hf
      obtain ⟨rfl, -⟩ := hf
      rw [LinEv.const (ev := ev)] at hx
      rw [LinEv.const (ev := ev)]
      exact ⟨rfl, LinEv.K_mulL c hx⟩
    case add => simp [isAdd] at ha
    all_goals exact key _ hx ha hf
  · intro i args n e n' h
    simp only [sMul, sMulL_mapL] at h
    rw [Fl.zero_def, Fl.one_def] at h
    split at h
    · rename_i h0
      rw [newConst_ok] at h
      exact .inl ⟨Fl.eq_num.1 h0, n, h.1⟩
    split at h
    · rename_i h0
      rw [M.pure_ok] at h
      exact .inr (.inl ⟨Fl.eq_num.1 h0, h.1⟩)
    · rw [M.bind_ok] at h
      obtain ⟨bs, n1, hm, h⟩ := h
      rw [newAdd_ok] at h
      exact .inr (.inr ⟨bs, n1, n1, hm, h.2.1⟩)

theorem mulS_scales (hu : 0 ≤ u) (ev : Node (Fl A) → Fl A) [LinEv ev] (c : ℝ) : Scales ev (mulS (Fl.num A c)) c ∧ ScalesSum (mulS (Fl.num A c)) c := by
  constructor
  · intro a x n b n' ha hx hf
    have key : ∀ r : Node (Fl A), ev r = Fl.num A x → isAdd r = false →
        (if (Fl.num A c) ==. zero then newConst zero else if (Fl.num A c) ==. one then M.pure r
          else M.bind (newConst (Fl.num A c)) fun k => newMul r k) n = .ok (b, n') →
        isAdd b = false ∧ ∃ z, ev b = Fl.num A z ∧ |z - c * x| ≤ u * |c * x| := by
      intro r hx hr h
      rw [Fl.zero_def, Fl.one_def] at h
      split at h
      · rename_i h0
        rw [Fl.eq_num] at h0
        rw [newConst_ok] at h
        obtain ⟨rfl, -⟩ := h
        exact ⟨rfl, 0, LinEv.constZero ev _, by simp [h0]⟩
      split at h
      · rename_i h0
        rw [Fl.eq_num] at h0
        rw [M.pure_ok] at h
        obtain ⟨rfl, -⟩ := h
        exact ⟨hr, x, hx, by rw [h0, one_mul]; exact exact_scale hu x⟩
      · rw [M.bind_ok] at h
        obtain ⟨kn, n1, hk, h⟩ := h
        rw [newConst_ok] at hk
        obtain ⟨rfl, -⟩ := hk
        rw [newMul_eq] at h
        cases h
        exact ⟨rfl, LinEv.mulR _ _ c hx⟩
    cases a
    case const i w =>
      simp only [mulS, newConst_ok] at hf
      obtain ⟨rfl, -⟩ := hf
      rw [LinEv.const (ev := ev)] at hx
      rw [LinEv.const (ev := ev)]
      exact ⟨rfl, LinEv.K_mulR c hx⟩
    case add => simp [isAdd] at ha
    all_goals exact key _ hx ha hf
  · intro i args n e n' h
    simp only [mulS, mulSL_mapL] at h
    rw [Fl.zero_def, Fl.one_def] at h
    split at h
    · rename_i h0
      rw [newConst_ok] at h
      exact .inl ⟨Fl.eq_num.1 h0, n, h.1⟩
    split at h
    · rename_i h0
      rw [M.pure_ok] at h
      exact .inr (.inl ⟨Fl.eq_num.1 h0, h.1⟩)
    · rw [M.bind_ok] at h
      obtain ⟨bs, n1, hm, h⟩ := h
      rw [newAdd_ok] at h
      exact .inr (.inr ⟨bs, n1, n1, hm, h.2.1⟩)

/-- What a product of two constants may be. -/
theorem constProd (hu : 0 ≤ u) {ev : Node (Fl A) → Fl A} [LinEv ev] {j : ℕ} {c x : ℝ} {w pr : Fl A} {b : Node (Fl A)}
    (hw : ev (.const j w) = Fl.num A x) (hpr : ∃ z, LinEv.K ev pr = Fl.num A z ∧ |z - c * x| ≤ u * |c * x|)
    (h : ((c = 0 ∨ w = Fl.num A 0) ∧ ∃ i, b = .const i (Fl.num A 0)) ∨ (w = Fl.num A 1 ∧ ∃ i, b = .const i (Fl.num A c)) ∨
      (c = 1 ∧ b = .const j w) ∨ ∃ i, b = .const i pr) :
    isAdd b = false ∧ ∃ z, ev b = Fl.num A z ∧ |z - c * x| ≤ u * |c * x| := by
  rcases h with ⟨h0, i, rfl⟩ | ⟨h0, i, rfl⟩ | ⟨rfl, rfl⟩ | ⟨i, rfl⟩
  · refine ⟨rfl, 0, LinEv.constZero ev _, ?_⟩
    have : c * x = 0 := by
      rcases h0 with rfl | rfl
      · simp
      · rw [LinEv.constZero (ev := ev), Fl.num_inj] at hw; simp [← hw]
    simp [this]
  · rw [h0, LinEv.const (ev := ev), LinEv.K_num, Fl.num_inj] at hw
    exact ⟨rfl, c * x, by rw [LinEv.const (ev := ev), LinEv.K_num, LinEv.κ_lin, hw], exact_scale hu _⟩
  · exact ⟨rfl, x, hw, by rw [one_mul]; exact exact_scale hu x⟩
  · obtain ⟨z, hz, hz'⟩ := hpr
    exact ⟨rfl, z, by rw [LinEv.const (ev := ev), hz], hz'⟩

theorem mulCL_scales (hu : 0 ≤ u) (ev : Node (Fl A) → Fl A) [LinEv ev] (i : ℕ) (c : ℝ) : Scales ev (mulCL i (Fl.num A c)) c ∧ ScalesSum (mulCL i (Fl.num A c)) c := by
  constructor
  · intro a x n b n' ha hx hf
    have key : ∀ r : Node (Fl A), ev r = Fl.num A x → isAdd r = false →
        (if (Fl.num A c) ==. zero then newConst zero else if (Fl.num A c) ==. one then M.pure r
          else newMul (.const i (Fl.num A c)) r) n = .ok (b, n') →
        isAdd b = false ∧ ∃ z, ev b = Fl.num A z ∧ |z - c * x| ≤ u * |c * x| := by
      intro r hx hr h
      rw [Fl.zero_def, Fl.one_def] at h
      split at h
      · rename_i h0
        rw [Fl.eq_num] at h0
        rw [newConst_ok] at h
        obtain ⟨rfl, -⟩ := h
        exact ⟨rfl, 0, LinEv.constZero ev _, by simp [h0]⟩
      split at h
      · rename_i h0
        rw [Fl.eq_num] at h0
        rw [M.pure_ok] at h
        obtain ⟨rfl, -⟩ := h
        exact ⟨hr, x, hx, by rw [h0, one_mul]; exact exact_scale hu x⟩
      · rw [newMul_eq] at h
        cases h
        exact ⟨rfl, LinEv.mulL _ _ c hx⟩
    cases a
    case const j w =>
      have hK := hx
      rw [LinEv.const (ev := ev)] at hK
      refine constProd hu hx (LinEv.K_mulL c hK) ?_
      simp only [mulCL] at hf
      rw [Fl.zero_def, Fl.one_def] at hf
      split at hf
      · rename_i h0
        rw [Bool.or_eq_true] at h0
        rw [newConst_ok] at hf
        exact .inl ⟨h0.imp Fl.eq_num.1 Fl.eq_val, n, hf.1⟩
      split at hf
      · rename_i h0
        rw [M.pure_ok] at hf
        exact .inr (.inr (.inl ⟨Fl.eq_num.1 h0, hf.1⟩))
      split at hf
      · rename_i h0
        rw [M.pure_ok] at hf
        exact .inr (.inl ⟨Fl.eq_val h0, _, hf.1⟩)
      · rw [newConst_ok] at hf
        exact .inr (.inr (.inr ⟨n, hf.1⟩))
    case add => simp [isAdd] at ha
    all_goals exact key _ hx ha hf
  · intro j args n e n' h
    simp only [mulCL, mulCLL_mapL] at h
    rw [Fl.zero_def, Fl.one_def] at h
    split at h
    · rename_i h0
      rw [newConst_ok] at h
      exact .inl ⟨Fl.eq_num.1 h0, n, h.1⟩
    split at h
    · rename_i h0
      rw [M.pure_ok] at h
      exact .inr (.inl ⟨Fl.eq_num.1 h0, h.1⟩)
    · rw [M.bind_ok] at h
      obtain ⟨bs, n1, hm, h⟩ := h
      rw [newAdd_ok] at h
      exact .inr (.inr ⟨bs, n1, n1, hm, h.2.1⟩)

theorem mulCR_scales (hu : 0 ≤ u) (ev : Node (Fl A) → Fl A) [LinEv ev] (i : ℕ) (c : ℝ) : Scales ev (mulCR i (Fl.num A c)) c ∧ ScalesSum (mulCR i (Fl.num A c)) c := by
  constructor
  · intro a x n b n' ha hx hf
    have key : ∀ r : Node (Fl A), ev r = Fl.num A x → isAdd r = false →
        (if (Fl.num A c) ==. zero then newConst zero else if (Fl.num A c) ==. one then M.pure r
          else newMul r (.const i (Fl.num A c))) n = .ok (b, n') →
        isAdd b = false ∧ ∃ z, ev b = Fl.num A z ∧ |z - c * x| ≤ u * |c * x| := by
      intro r hx hr h
      rw [Fl.zero_def, Fl.one_def] at h
      split at h
      · rename_i h0
        rw [Fl.eq_num] at h0
        rw [newConst_ok] at h
        obtain ⟨rfl, -⟩ := h
        exact ⟨rfl, 0, LinEv.constZero ev _, by simp [h0]⟩
      split at h
      · rename_i h0
        rw [Fl.eq_num] at h0
        rw [M.pure_ok] at h
        obtain ⟨rfl, -⟩ := h
        exact ⟨hr, x, hx, by rw [h0, one_mul]; exact exact_scale hu x⟩
      · rw [newMul_eq] at h
        cases h
        exact ⟨rfl, LinEv.mulR _ _ c hx⟩
    cases a
    case const j w =>
      have hK := hx
      rw [LinEv.const (ev := ev)] at hK
      refine constProd hu hx (LinEv.K_mulR c hK) ?_
      simp only [mulCR] at hf
      rw [Fl.zero_def, Fl.one_def] at hf
      split at hf
      · rename_i h0
        rw [Bool.or_eq_true] at h0
        rw [newConst_ok] at hf
        exact .inl ⟨(h0.imp Fl.eq_val Fl.eq_num.1).symm, n, hf.1⟩
      split at hf
      · rename_i h0
        rw [M.pure_ok] at hf
        exact .inr (.inl ⟨Fl.eq_val h0, _, hf.1⟩)
      split at hf
      · rename_i h0
        rw [M.pure_ok] at hf
        exact .inr (.inr (.inl ⟨Fl.eq_num.1 h0, hf.1⟩))
      · rw [newConst_ok] at hf
        exact .inr (.inr (.inr ⟨n, hf.1⟩))
    case add => simp [isAdd] at ha
    all_goals exact key _ hx ha hf
  · intro j args n e n' h
    simp only [mulCR, mulCRL_mapL] at h
    rw [Fl.zero_def, Fl.one_def] at h
    split at h
    · rename_i h0
      rw [newConst_ok] at h
      exact .inl ⟨Fl.eq_num.1 h0, n, h.1⟩
    split at h
    · rename_i h0
      rw [M.pure_ok] at h
      exact .inr (.inl ⟨Fl.eq_num.1 h0, h.1⟩)
    · rw [M.bind_ok] at h
      obtain ⟨bs, n1, hm, h⟩ := h
      rw [newAdd_ok] at h
      exact .inr (.inr ⟨bs, n1, n1, hm, h.2.1⟩)

/-! ## The operators -/

theorem rep_const (hu : 0 ≤ u) {ev : Node (Fl A) → Fl A} [LinEv ev] {e : Node (Fl A)} {c : ℝ} {n n' : ℕ} (h : newConst (Fl.num A c) n = .ok (e, n')) :
    Rep ev e (LinEv.κ ev c) |LinEv.κ ev c| 1 := by
  rw [newConst_ok] at h
  obtain ⟨rfl, -⟩ := h
  exact Rep.single hu rfl (by rw [LinEv.const (ev := ev), LinEv.K_num]) (.exact _)

theorem rep_addS (hu : 0 ≤ u) {ev : Node (Fl A) → Fl A} [LinEv ev] {a e : Node (Fl A)} {v m c : ℝ} {k n n' : ℕ} (ha : Rep ev a v m k)
    (h : addS a (Fl.num A c) n = .ok (e, n')) : Rep ev e (v + LinEv.κ ev c) (m + |LinEv.κ ev c|) (k + 2) := by
  unfold addS at h
  rw [Fl.zero_def] at h
  split at h
  · rename_i h0
    rw [Fl.eq_num] at h0
    rw [M.pure_ok] at h
    obtain ⟨rfl, -⟩ := h
    simpa [h0, LinEv.κ_zero] using ha.mono (show k ≤ k + 2 by omega)
  · rw [M.bind_ok] at h
    obtain ⟨c', n1, hc, h⟩ := h
    exact rep_sum hu ha (rep_const hu hc) h

theorem rep_sAdd (hu : 0 ≤ u) {ev : Node (Fl A) → Fl A} [LinEv ev] {a e : Node (Fl A)} {v m c : ℝ} {k n n' : ℕ} (ha : Rep ev a v m k)
    (h : sAdd (Fl.num A c) a n = .ok (e, n')) : Rep ev e (LinEv.κ ev c + v) (|LinEv.κ ev c| + m) (k + 2) := by
  unfold sAdd at h
  rw [Fl.zero_def] at h
  split at h
  · rename_i h0
    rw [Fl.eq_num] at h0
    rw [M.pure_ok] at h
    obtain ⟨rfl, -⟩ := h
    simpa [h0, LinEv.κ_zero] using ha.mono (show k ≤ k + 2 by omega)
  · rw [M.bind_ok] at h
    obtain ⟨c', n1, hc, h⟩ := h
    exact (rep_sum hu (rep_const hu hc) ha h).mono (by omega)

theorem rep_sMul (hu : 0 ≤ u) {ev : Node (Fl A) → Fl A} [LinEv ev] {a e : Node (Fl A)} {v m c : ℝ} {k n n' : ℕ} (ha : Rep ev a v m k)
    (h : sMul (Fl.num A c) a n = .ok (e, n')) : Rep ev e (c * v) (|c| * m) (k + 1) := by
  have := rep_scale hu (.exact c) (sMul_scales hu ev c).1 (sMul_scales hu ev c).2 ha h
  rwa [Nat.zero_add] at this

theorem rep_mulS (hu : 0 ≤ u) {ev : Node (Fl A) → Fl A} [LinEv ev] {a e : Node (Fl A)} {v m c : ℝ} {k n n' : ℕ} (ha : Rep ev a v m k)
    (h : mulS (Fl.num A c) a n = .ok (e, n')) : Rep ev e (v * c) (m * |c|) (k + 1) := by
  have := rep_scale hu (.exact c) (mulS_scales hu ev c).1 (mulS_scales hu ev c).2 ha h
  rwa [Nat.zero_add, mul_comm c, mul_comm |c|] at this

theorem rep_minus (hu : 0 ≤ u) {ev : Node (Fl A) → Fl A} [LinEv ev] {a e : Node (Fl A)} {v m : ℝ} {k n n' : ℕ} (ha : Rep ev a v m k)
    (h : sMul negOne a n = .ok (e, n')) : Rep ev e (-v) m (k + 1) := by
  have := rep_sMul hu ha h
  simpa using this

theorem rep_subN (hu : 0 ≤ u) {ev : Node (Fl A) → Fl A} [LinEv ev] {a b e : Node (Fl A)} {v w m m' : ℝ} {k k' n n' : ℕ} (ha : Rep ev a v m k) (hb : Rep ev b w m' k')
    (h : subN a b n = .ok (e, n')) : Rep ev e (v - w) (m + m') (k + k' + 2) := by
  unfold subN at h
  rw [M.bind_ok] at h
  obtain ⟨nb, n1, hn, h⟩ := h
  rw [sub_eq_add_neg]
  exact (rep_addN hu ha (rep_minus hu hb hn) h).mono (by omega)

theorem rep_subS (hu : 0 ≤ u) {ev : Node (Fl A) → Fl A} [LinEv ev] {a e : Node (Fl A)} {v m c : ℝ} {k n n' : ℕ} (ha : Rep ev a v m k)
    (h : subS a (Fl.num A c) n = .ok (e, n')) : Rep ev e (v - LinEv.κ ev c) (m + |LinEv.κ ev c|) (k + 3) := by
  unfold subS at h
  rw [M.bind_ok] at h
  obtain ⟨kc, n0, hk, h⟩ := h
  rw [M.bind_ok] at h
  obtain ⟨nb, n1, hn, h⟩ := h
  rw [sub_eq_add_neg]
  exact rep_addN hu ha (rep_minus hu (rep_const hu hk) hn) h

theorem rep_sSub (hu : 0 ≤ u) {ev : Node (Fl A) → Fl A} [LinEv ev] {a e : Node (Fl A)} {v m c : ℝ} {k n n' : ℕ} (ha : Rep ev a v m k)
    (h : sSub (Fl.num A c) a n = .ok (e, n')) : Rep ev e (LinEv.κ ev c - v) (|LinEv.κ ev c| + m) (k + 3) := by
  unfold sSub at h
  rw [M.bind_ok] at h
  obtain ⟨kc, n0, hk, h⟩ := h
  rw [M.bind_ok] at h
  obtain ⟨nb, n1, hn, h⟩ := h
  rw [sub_eq_add_neg]
  exact (rep_addN hu (rep_const hu hk) (rep_minus hu ha hn) h).mono (by omega)

theorem rep_negN (hu : 0 ≤ u) {ev : Node (Fl A) → Fl A} [LinEv ev] {a e : Node (Fl A)} {v m : ℝ} {k n n' : ℕ} (ha : Rep ev a v m k)
    (h : negN a n = .ok (e, n')) : Rep ev e (-v) m (k + 1) := by
  cases a
  case const i w =>
    apply rep_minus hu ha
    exact h
  all_goals exact rep_minus hu ha h

/-- A factor that is rounded to one. -/
theorem rep_one (hu : 0 ≤ u) {ev : Node (Fl A) → Fl A} [LinEv ev] {a : Node (Fl A)} {v m vc mc : ℝ} {k kc : ℕ} (ha : Rep ev a v m k) (hc : Approx u 1 vc mc kc) :
    Rep ev a (v * vc) (m * mc) (kc + k) := by
  obtain ⟨ts, v0, m0, k', g1, g2, rfl, rfl, g5⟩ := ha
  refine ⟨ts.map fun t => (vc * t.1, mc * t.2), vc * v0, mc * m0, kc + k', ?_, ?_, ?_, ?_, by omega⟩
  · rw [List.forall₂_map_right_iff]
    refine g1.imp fun b t hb => ?_
    obtain ⟨b1, x, b2, b3⟩ := hb
    have := hc.mul hu b3
    rw [one_mul] at this
    exact ⟨b1, x, b2, this⟩
  · have := hc.mul hu g2
    rwa [mul_zero] at this
  · rw [(scaled_sums vc mc ts).1]; ring
  · rw [(scaled_sums vc mc ts).2]; ring

/-- A quotient with a number `c` that stands for the inverse of `vc`. -/
theorem rep_quot (hu : 0 ≤ u) {ev : Node (Fl A) → Fl A} [LinEv ev] {a e : Node (Fl A)} {v m c vc mc : ℝ} {k kc : ℕ} (ha : Rep ev a v m k)
    (hc : c ≠ 0) (hinv : Approx u c⁻¹ vc mc kc)
    (h : (c = 1 ∧ e = a) ∨ ((∃ i, a = .const i (Fl.num A 0)) ∧ ∃ i, e = .const i (Fl.num A 0)) ∨
      (∃ i j w, a = .const i w ∧ e = .const j (w /. Fl.num A c)) ∨ ∃ i j, e = .div i a (.const j (Fl.num A c))) :
    Rep ev e (v * vc) (m * mc) (k + kc + 2) := by
  obtain ⟨x, hx, hax, -⟩ := ha.eval hu
  have hp := hax.mul hu hinv
  rw [← div_eq_mul_inv] at hp
  rcases h with ⟨rfl, rfl⟩ | ⟨⟨i, rfl⟩, j, rfl⟩ | ⟨i, j, w, rfl, rfl⟩ | ⟨i, j, rfl⟩
  · rw [inv_one] at hinv
    exact (rep_one hu ha hinv).mono (by omega)
  · rw [LinEv.constZero (ev := ev), Fl.num_inj] at hx
    subst hx
    rw [zero_div] at hp
    exact (Rep.single hu rfl (LinEv.constZero ev j) hp).mono (by omega)
  · rw [LinEv.const (ev := ev)] at hx
    obtain ⟨z, hz, hz'⟩ := LinEv.K_div hc hx
    exact (Rep.single hu rfl (by rw [LinEv.const (ev := ev), hz]) (hp.round hu hz')).mono (by omega)
  · obtain ⟨z, hz, hz'⟩ := LinEv.divR i j hc hx
    exact (Rep.single hu rfl hz (hp.round hu hz')).mono (by omega)

theorem divS_cases {a e : Node (Fl A)} {c : ℝ} {n n' : ℕ} (h : divS a (Fl.num A c) n = .ok (e, n')) :
    c ≠ 0 ∧ ((c = 1 ∧ e = a) ∨ ((∃ i, a = .const i (Fl.num A 0)) ∧ ∃ i, e = .const i (Fl.num A 0)) ∨
      (∃ i j w, a = .const i w ∧ e = .const j (w /. Fl.num A c)) ∨ ∃ i j, e = .div i a (.const j (Fl.num A c))) := by
  unfold divS at h
  rw [Fl.zero_def, Fl.one_def] at h
  split at h
  · exact absurd h (by simp [M.panic])
  rename_i h0
  rw [Fl.eq_num] at h0
  refine ⟨h0, ?_⟩
  split at h
  · rename_i h1
    rw [Fl.eq_num] at h1
    rw [M.pure_ok] at h
    exact .inl ⟨h1, h.1⟩
  split at h
  · rename_i h1
    rw [newConst_ok] at h
    exact .inr (.inl ⟨isConstVal_inv h1, n, h.1⟩)
  split at h
  · rename_i h1
    cases a <;> simp [Node.isConstant] at h1
    simp only [Node.evaluate] at h
    rw [newConst_ok] at h
    exact .inr (.inr (.inl ⟨_, n, _, rfl, h.1⟩))
  · rw [M.bind_ok] at h
    obtain ⟨c', n1, hc, h⟩ := h
    rw [newConst_ok] at hc
    obtain ⟨rfl, -⟩ := hc
    rw [newDiv_eq] at h
    cases h
    exact .inr (.inr (.inr ⟨_, _, rfl⟩))

theorem rep_divS (hu : 0 ≤ u) {ev : Node (Fl A) → Fl A} [LinEv ev] {a e : Node (Fl A)} {v m c : ℝ} {k n n' : ℕ} (ha : Rep ev a v m k)
    (h : divS a (Fl.num A c) n = .ok (e, n')) : Rep ev e (v / c) (m / |c|) (k + 2) := by
  obtain ⟨h0, h⟩ := divS_cases h
  have hinv : Approx u c⁻¹ c⁻¹ |c|⁻¹ 0 := by rw [← abs_inv]; exact .exact _
  rw [div_eq_mul_inv v, div_eq_mul_inv m]
  exact rep_quot hu ha h0 hinv h

/-- A quotient with a handle of a constant. -/
theorem rep_divC (hu : 0 ≤ u) {ev : Node (Fl A) → Fl A} [LinEv ev] {a e : Node (Fl A)} {v m c vc mc : ℝ} {k kc j n n' : ℕ} (ha : Rep ev a v m k)
    (hc : c ≠ 0) (hinv : Approx u c⁻¹ vc mc kc) (h : divN a (.const j (Fl.num A c)) n = .ok (e, n')) :
    Rep ev e (v * vc) (m * mc) (k + kc + 2) := by
  refine rep_quot hu ha hc hinv ?_
  unfold divN at h
  rw [Fl.zero_def, Fl.one_def] at h
  split at h
  · exact absurd h (by simp [M.panic])
  split at h
  · rename_i h1
    rw [M.pure_ok] at h
    exact .inl ⟨Fl.eq_num.1 h1, h.1⟩
  split at h
  · rename_i h1
    rw [newConst_ok] at h
    exact .inr (.inl ⟨isConstVal_inv h1, n, h.1⟩)
  split at h
  · rename_i h1
    cases a <;> simp [Node.isConstant] at h1
    simp only [Node.evaluate] at h
    rw [newConst_ok] at h
    exact .inr (.inr (.inl ⟨_, n, _, rfl, h.1⟩))
  · rw [newDiv_eq] at h
    cases h
    exact .inr (.inr (.inr ⟨_, _, rfl⟩))

/-- A product with a handle of a constant. -/
theorem rep_mulC (hu : 0 ≤ u) {ev : Node (Fl A) → Fl A} [LinEv ev] {a e : Node (Fl A)} {v m c vc mc : ℝ} {k kc j n n' : ℕ} (ha : Rep ev a v m k)
    (hc : Approx u c vc mc kc) (h : mulN a (.const j (Fl.num A c)) n = .ok (e, n') ∨ mulN (.const j (Fl.num A c)) a n = .ok (e, n')) :
    Rep ev e (vc * v) (mc * m) (kc + k + 1) := by
  have hR : mulCR j (Fl.num A c) a n = .ok (e, n') ∨ mulCL j (Fl.num A c) a n = .ok (e, n') ∨ ∃ i w, a = .const i w ∧ mulCL i w (.const j (Fl.num A c)) n = .ok (e, n') := by
    rcases h with h | h
    · cases a
      case const i w => exact .inr (.inr ⟨i, w, rfl, h⟩)
      all_goals exact .inl h
    · exact .inr (.inl (by simpa [mulN] using h))
  rcases hR with h | h | ⟨i, w, rfl, hw⟩
  · exact rep_scale hu hc (mulCR_scales hu ev j c).1 (mulCR_scales hu ev j c).2 ha h
  · exact rep_scale hu hc (mulCL_scales hu ev j c).1 (mulCL_scales hu ev j c).2 ha h
  · -- two constants: the left factor is treated first, with the same outcome as from the right
    have h' : mulCR j (Fl.num A c) (.const i w) n = .ok (e, n') := by simpa only [mulCL, mulCR] using hw
    exact rep_scale hu hc (mulCR_scales hu ev j c).1 (mulCR_scales hu ev j c).2 ha h'

/-! ## The value of an expression -/

theorem sumFrom_approx (hu : 0 ≤ u) {σ : Env (Fl A)} {k : ℕ} {as : List (Node (Fl A))} {ts : List (ℝ × ℝ)}
    (h : List.Forall₂ (fun a t => ∃ x, a.evaluate σ = Fl.num A x ∧ Approx u x t.1 t.2 k) as ts) :
    ∀ {acc va ma : ℝ} {j : ℕ}, k ≤ j → Approx u acc va ma j →
    ∃ x, Node.evaluate.sumFrom σ (Fl.num A acc) as = Fl.num A x ∧
      Approx u x (va + (ts.map Prod.fst).sum) (ma + (ts.map Prod.snd).sum) (j + as.length) := by
  induction h with
  | nil =>
    intro acc va ma j _ ha
    exact ⟨acc, rfl, by simpa using ha⟩
  | @cons a t as ts ht _ ih =>
    intro acc va ma j hj ha
    obtain ⟨y, hy, hay⟩ := ht
    obtain ⟨x, hx, hax⟩ := ih (acc := A.add acc y) (va := va + t.1) (ma := ma + t.2) (j := j + 1) (by omega)
      ((ha.add (hay.mono hu hj)).round hu (A.add_err _ _))
    refine ⟨x, ?_, ?_⟩
    · simp only [Node.evaluate.sumFrom, hy, Fl.add_num]; exact hx
    · simp only [List.map_cons, List.sum_cons, List.length_cons]
      rw [← add_assoc, ← add_assoc, show j + (as.length + 1) = j + 1 + as.length by omega]
      exact hax

instance evalLin (σ : Env (Fl A)) : LinEv (Node.evaluate σ) where
  K a := a
  κ c := c
  const _ _ := rfl
  K_num _ := rfl
  κ_lin c := (mul_one c).symm
  K_add ha hb := by
    subst ha hb
    exact ⟨_, rfl, A.add_err _ _⟩
  K_mulL c {a x} ha := by
    subst ha
    exact ⟨_, rfl, A.mul_err _ _⟩
  K_mulR c {a x} ha := by
    subst ha
    exact ⟨_, rfl, by rw [mul_comm c x]; exact A.mul_err _ _⟩
  K_div {c a x} hc ha := by
    subst ha
    exact ⟨_, Fl.div_num hc, A.div_err _ _ hc⟩
  sum hu i {k as ts v0 m0} h h0 := sumFrom_approx hu h le_rfl h0
  mulL i j c {a x} ha := ⟨_, by rw [Node.evaluate, Node.evaluate, ha, Fl.mul_num], A.mul_err _ _⟩
  mulR i j c {a x} ha := ⟨_, by rw [Node.evaluate, Node.evaluate, ha, Fl.mul_num], by rw [mul_comm c x]; exact A.mul_err _ _⟩
  divR i j {c a x} hc ha := ⟨_, by rw [Node.evaluate, Node.evaluate, ha, Fl.div_num hc], A.div_err _ _ hc⟩

theorem rep_mulN (hu : 0 ≤ u) {σ : Env (Fl A)} {a b e : Node (Fl A)} {v w m m' : ℝ} {k k' n n' : ℕ} (ha : Rep (Node.evaluate σ) a v m k) (hb : Rep (Node.evaluate σ) b w m' k')
    (h : mulN a b n = .ok (e, n')) : Rep (Node.evaluate σ) e (v * w) (m * m') (k + k' + 2) := by
  obtain ⟨x, hx, hax, hx'⟩ := ha.eval hu
  obtain ⟨y, hy, hay, hy'⟩ := hb.eval hu
  by_cases hca : ∃ i c, a = .const i c
  · obtain ⟨i, c, rfl⟩ := hca
    simp only [Node.evaluate] at hx
    subst hx
    have h : mulCL i (Fl.num A x) b n = .ok (e, n') := by simpa [mulN] using h
    exact (rep_scale hu hax (mulCL_scales hu (Node.evaluate σ) i x).1 (mulCL_scales hu (Node.evaluate σ) i x).2 hb h).mono (by omega)
  by_cases hcb : ∃ i c, b = .const i c
  · obtain ⟨i, c, rfl⟩ := hcb
    simp only [Node.evaluate] at hy
    subst hy
    have h : mulCR i (Fl.num A y) a n = .ok (e, n') := by
      cases a <;> first | exact h | exact absurd ⟨_, _, rfl⟩ hca
    have := (rep_scale hu hay (mulCR_scales hu (Node.evaluate σ) i y).1 (mulCR_scales hu (Node.evaluate σ) i y).2 ha h).mono (show _ ≤ k + k' + 2 by omega)
    rwa [mul_comm w, mul_comm m'] at this
  · have h : newMul a b n = .ok (e, n') := by
      cases a <;> first | (cases b <;> first | exact h | exact absurd ⟨_, _, rfl⟩ hcb) | exact absurd ⟨_, _, rfl⟩ hca
    rw [newMul_eq] at h
    cases h
    exact Rep.single hu (x := A.mul x y) rfl (by simp [Node.evaluate, hx, hy]) ((hax.mul hu hay).round hu (A.mul_err x y))

/-! ## Division, sine, cosine -/

theorem bernoulli {t : ℝ} (ht : 1 ≤ t) (κ : ℕ) : κ * (t - 1) ≤ t ^ κ - 1 := by
  have := one_add_mul_le_pow (show (-2 : ℝ) ≤ t - 1 by linarith) κ
  rw [show 1 + (t - 1) = t by ring] at this
  linarith

/-- The inverse of something that is not lost in rounding errors. -/
theorem Approx.inv (hu : 0 ≤ u) {y w m : ℝ} {k κ : ℕ} (h : Approx u y w m k) (hw : w ≠ 0) (hκ : m ≤ κ * |w|) (hs : (1 + u) ^ (κ * k) ≤ 3 / 2) :
    y ≠ 0 ∧ Approx u y⁻¹ w⁻¹ |w|⁻¹ (2 * (κ * k)) := by
  have hw' : 0 < |w| := abs_pos.2 hw
  have ht : 1 ≤ (1 + u) ^ k := one_le_pow₀ (by linarith)
  set T := (1 + u) ^ (κ * k) with hT
  have hT1 : 1 ≤ T := one_le_pow₀ (by linarith)
  have hd : |y - w| ≤ (T - 1) * |w| := by
    have h1 := bernoulli ht κ
    rw [← pow_mul, mul_comm k κ, ← hT] at h1
    calc |y - w| ≤ ((1 + u) ^ k - 1) * m := h.1
      _ ≤ ((1 + u) ^ k - 1) * (κ * |w|) := mul_le_mul_of_nonneg_left hκ (by linarith)
      _ = (κ * ((1 + u) ^ k - 1)) * |w| := by ring
      _ ≤ (T - 1) * |w| := mul_le_mul_of_nonneg_right h1 hw'.le
  have hy : (2 - T) * |w| ≤ |y| := by
    have h1 : |w| ≤ |y| + |y - w| := by
      have : w = y + -(y - w) := by ring
      calc |w| = |y + -(y - w)| := by rw [← this]
        _ ≤ |y| + |-(y - w)| := abs_add_le _ _
        _ = _ := by rw [abs_neg]
    nlinarith
  have hy0 : 0 < |y| := lt_of_lt_of_le (mul_pos (by linarith) hw') hy
  have hy1 : y ≠ 0 := abs_pos.1 hy0
  refine ⟨hy1, ?_, by rw [abs_inv]⟩
  have e1 : y⁻¹ - w⁻¹ = (w - y) / (y * w) := by field_simp
  have e2 : (1 + u) ^ (2 * (κ * k)) = T ^ 2 := by rw [hT, ← pow_mul, mul_comm 2]
  rw [e1, e2, abs_div, abs_mul, abs_sub_comm w y, div_le_iff₀ (mul_pos hy0 hw')]
  have e3 : (T ^ 2 - 1) * |w|⁻¹ * (|y| * |w|) = (T ^ 2 - 1) * |y| := by
    field_simp
  rw [e3]
  have e4 : (T - 1) * |w| ≤ (T ^ 2 - 1) * ((2 - T) * |w|) := by
    have : (T - 1) ≤ (T ^ 2 - 1) * (2 - T) := by nlinarith [mul_nonneg (show 0 ≤ T - 1 by linarith) (show 0 ≤ 3 / 2 - T by linarith)]
    nlinarith
  calc |y - w| ≤ _ := hd
    _ ≤ _ := e4
    _ ≤ _ := mul_le_mul_of_nonneg_left hy (by nlinarith)

theorem rep_divN (hu : 0 ≤ u) {σ : Env (Fl A)} {a b e : Node (Fl A)} {v w m m' : ℝ} {k k' κ n n' : ℕ} (ha : Rep (Node.evaluate σ) a v m k) (hb : Rep (Node.evaluate σ) b w m' k')
    (hw : w ≠ 0) (hκ : m' ≤ κ * |w|) (hs : (1 + u) ^ (κ * k') ≤ 3 / 2) (h : divN a b n = .ok (e, n')) :
    Rep (Node.evaluate σ) e (v / w) (m / |w|) (k + 2 * (κ * k') + 2) := by
  obtain ⟨x, hx, hax, -⟩ := ha.eval hu
  obtain ⟨y, hy, hay, -⟩ := hb.eval hu
  obtain ⟨hy0, hinv⟩ := hay.inv hu hw hκ hs
  have hq := (hax.mul hu hinv).round hu (z := A.div x y) (by rw [← div_eq_mul_inv]; exact A.div_err x y hy0)
  unfold divN at h
  rw [Fl.zero_def, Fl.one_def] at h
  rw [div_eq_mul_inv v, div_eq_mul_inv m]
  split at h
  · exact absurd h (by simp [M.panic])
  split at h
  · rename_i h1
    obtain ⟨i, rfl⟩ := isConstVal_inv h1
    simp only [Node.evaluate, Fl.num_inj] at hy
    subst hy
    have hinv' := hinv
    rw [inv_one] at hinv'
    rw [M.pure_ok] at h
    obtain ⟨rfl, -⟩ := h
    exact (rep_one hu ha hinv').mono (by omega)
  split at h
  · rename_i h1
    obtain ⟨i, rfl⟩ := isConstVal_inv h1
    simp only [Node.evaluate, Fl.num_inj] at hx
    subst hx
    rw [newConst_ok] at h
    obtain ⟨rfl, -⟩ := h
    have := hax.mul hu hinv
    rw [zero_mul] at this
    exact (Rep.single hu (x := 0) rfl rfl this).mono (by omega)
  split at h
  · rename_i h1
    rw [Bool.and_eq_true] at h1
    cases a <;> simp [Node.isConstant] at h1
    cases b <;> simp [Node.isConstant] at h1
    simp only [Node.evaluate] at hx hy h
    subst hx hy
    rw [Fl.div_num hy0, newConst_ok] at h
    obtain ⟨rfl, -⟩ := h
    exact (Rep.single hu (x := A.div x y) rfl rfl hq).mono (by omega)
  · rw [newDiv_eq] at h
    cases h
    exact (Rep.single hu (x := A.div x y) rfl (by simp [Node.evaluate, hx, hy, Fl.div_num hy0]) hq).mono (by omega)

theorem rep_sDiv (hu : 0 ≤ u) {σ : Env (Fl A)} {b e : Node (Fl A)} {w m' c : ℝ} {k' κ n n' : ℕ} (hb : Rep (Node.evaluate σ) b w m' k')
    (hw : w ≠ 0) (hκ : m' ≤ κ * |w|) (hs : (1 + u) ^ (κ * k') ≤ 3 / 2) (h : sDiv (Fl.num A c) b n = .ok (e, n')) :
    Rep (Node.evaluate σ) e (c / w) (|c| / |w|) (2 * (κ * k') + 2) := by
  obtain ⟨y, hy, hay, -⟩ := hb.eval hu
  obtain ⟨hy0, hinv⟩ := hay.inv hu hw hκ hs
  have hp := (Approx.exact (u := u) c).mul hu hinv
  have hq := hp.round hu (z := A.div c y) (by rw [← div_eq_mul_inv]; exact A.div_err c y hy0)
  unfold sDiv at h
  rw [Fl.zero_def, Fl.one_def] at h
  rw [div_eq_mul_inv c, div_eq_mul_inv |c|]
  split at h
  · exact absurd h (by simp [M.panic])
  split at h
  · rename_i h1
    obtain ⟨i, rfl⟩ := isConstVal_inv h1
    simp only [Node.evaluate, Fl.num_inj] at hy
    subst hy
    rw [inv_one, mul_one] at hp
    rw [newConst_ok] at h
    obtain ⟨rfl, -⟩ := h
    exact (Rep.single hu (x := c) rfl rfl hp).mono (by omega)
  split at h
  · rename_i h1
    rw [Fl.eq_num] at h1
    rw [newConst_ok] at h
    obtain ⟨rfl, -⟩ := h
    rw [h1] at hp ⊢
    rw [zero_mul] at hp
    have := (Rep.single (A := A) (ev := Node.evaluate σ) (e := .const n (Fl.num A 0)) hu (x := 0) rfl rfl hp).mono (show _ ≤ 2 * (κ * k') + 2 by omega)
    simpa using this
  split at h
  · rename_i h1
    cases b <;> simp [Node.isConstant] at h1
    simp only [Node.evaluate] at hy h
    subst hy
    rw [Fl.div_num hy0, newConst_ok] at h
    obtain ⟨rfl, -⟩ := h
    exact (Rep.single hu (x := A.div c y) rfl rfl hq).mono (by omega)
  · rw [M.bind_ok] at h
    obtain ⟨c', n1, hc, h⟩ := h
    rw [newConst_ok] at hc
    obtain ⟨rfl, -⟩ := hc
    rw [newDiv_eq] at h
    cases h
    exact (Rep.single hu (x := A.div c y) rfl (by simp [Node.evaluate, hy, Fl.div_num hy0]) hq).mono (by omega)

theorem Approx.lipschitz (hu : 0 ≤ u) {f : ℝ → ℝ} (hf : ∀ a b, |f a - f b| ≤ |a - b|) (hb : ∀ a, |f a| ≤ 1) {x v m : ℝ} {k : ℕ}
    (h : Approx u x v m k) : Approx u (f x) (f v) (1 + m) k := by
  have := h.nonneg
  refine ⟨le_trans (hf _ _) (le_trans h.1 (mul_le_mul_of_nonneg_left (by linarith) (eps_nonneg hu k))), by have := hb v; linarith⟩

theorem rep_sinN (hu : 0 ≤ u) {σ : Env (Fl A)} {a e : Node (Fl A)} {v m : ℝ} {k n n' : ℕ} (ha : Rep (Node.evaluate σ) a v m k)
    (h : sinN a n = .ok (e, n')) : Rep (Node.evaluate σ) e (Real.sin v) (1 + m) (k + 2) := by
  obtain ⟨x, hx, hax, -⟩ := ha.eval hu
  have hq := (hax.lipschitz hu (f := Real.sin) Real.abs_sin_sub_sin_le Real.abs_sin_le_one).round hu (A.sin_err x)
  unfold sinN at h
  split at h
  · simp only [Node.evaluate] at hx
    subst hx
    rw [newConst_ok] at h
    obtain ⟨rfl, -⟩ := h
    exact Rep.single hu (x := A.sin x) rfl rfl hq
  · rw [newSin_eq] at h
    cases h
    exact Rep.single hu (x := A.sin x) rfl (by simp [Node.evaluate, hx]) hq

theorem rep_cosN (hu : 0 ≤ u) {σ : Env (Fl A)} {a e : Node (Fl A)} {v m : ℝ} {k n n' : ℕ} (ha : Rep (Node.evaluate σ) a v m k)
    (h : cosN a n = .ok (e, n')) : Rep (Node.evaluate σ) e (Real.cos v) (1 + m) (k + 2) := by
  obtain ⟨x, hx, hax, -⟩ := ha.eval hu
  have hq := (hax.lipschitz hu (f := Real.cos) Real.abs_cos_sub_cos_le Real.abs_cos_le_one).round hu (A.cos_err x)
  unfold cosN at h
  split at h
  · simp only [Node.evaluate] at hx
    subst hx
    rw [newConst_ok] at h
    obtain ⟨rfl, -⟩ := h
    exact Rep.single hu (x := A.cos x) rfl rfl hq
  · rw [newCos_eq] at h
    cases h
    exact Rep.single hu (x := A.cos x) rfl (by simp [Node.evaluate, hx]) hq

theorem writes_rep (hu : 0 ≤ u) {σ : Env (Fl A)} {e : Node (Fl A)} {v m : ℝ} {k : ℕ} (h : Writes σ e v m k) : Rep (Node.evaluate σ) e v m k := by
  induction h with
  | const c h => exact rep_const hu h
  | @var e n n' s kind t h ht =>
    rw [newVar_eq] at h
    cases h
    exact Rep.single hu (x := t) rfl (by simp [Node.evaluate, ht]) (.exact t)
  | add _ _ h iha ihb => exact rep_addN hu iha ihb h
  | addScalar c _ h ih => exact rep_addS hu ih h
  | scalarAdd c _ h ih => exact rep_sAdd hu ih h
  | sub _ _ h iha ihb => exact rep_subN hu iha ihb h
  | subScalar c _ h ih => exact rep_subS hu ih h
  | scalarSub c _ h ih => exact rep_sSub hu ih h
  | neg _ h ih => exact rep_negN hu ih h
  | mul _ _ h iha ihb => exact rep_mulN hu iha ihb h
  | mulScalar c _ h ih => exact rep_mulS hu ih h
  | scalarMul c _ h ih => exact rep_sMul hu ih h
  | divScalar c _ h ih => exact rep_divS hu ih h
  | div κ _ _ hw hκ hs h iha ihb => exact rep_divN hu iha ihb hw hκ hs h
  | scalarDiv c κ _ hw hκ hs h ih => exact rep_sDiv hu ih hw hκ hs h
  | sin _ h ih => exact rep_sinN hu ih h
  | cos _ h ih => exact rep_cosN hu ih h

end Verif
