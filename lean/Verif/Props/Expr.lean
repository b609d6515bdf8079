import Verif.Proofs.Sim
import Verif.Spec.Example
import Verif.Spec.Calculus

/-!
# Properties of expressions: C01 – C06

`Option K` is exact arithmetic over any ordered field `K`, with `none` for every non-finite value.
-/

set_option linter.unusedSectionVars false
set_option linter.unusedSimpArgs false

namespace Verif

open Exact

section
variable {K : Type} [Field K] [LinearOrder K] [Trig K]

/-! ## C01 sums, differences, negation -/

/-- C01: `a + b` evaluates to the sum of the values of `a` and `b`, at every assignment. -/
theorem C01_add {a b e : Node (Option K)} {n m : Nat} (h : addN a b n = .ok (e, m)) (σ : Env (Option K)) :
    e.evaluate σ = (a.evaluate σ +. b.evaluate σ) := addN_val h σ

/-- C01: `a + c` for a scalar `c`. -/
theorem C01_add_scalar {a e : Node (Option K)} {c : Option K} {n m : Nat} (h : addS a c n = .ok (e, m))
    (σ : Env (Option K)) : e.evaluate σ = (a.evaluate σ +. c) := addS_val h σ

/-- C01: `c + a` for a scalar `c`. -/
theorem C01_scalar_add {a e : Node (Option K)} {c : Option K} {n m : Nat} (h : sAdd c a n = .ok (e, m))
    (σ : Env (Option K)) : e.evaluate σ = (c +. a.evaluate σ) := sAdd_val h σ

/-- C01: `a - b`. -/
theorem C01_sub {a b e : Node (Option K)} {n m : Nat} (h : subN a b n = .ok (e, m)) (σ : Env (Option K)) :
    e.evaluate σ = (a.evaluate σ -. b.evaluate σ) := subN_val h σ

/-- C01: `a - c` for a scalar `c`. -/
theorem C01_sub_scalar {a e : Node (Option K)} {c : Option K} {n m : Nat} (h : subS a c n = .ok (e, m))
    (σ : Env (Option K)) : e.evaluate σ = (a.evaluate σ -. c) := subS_val h σ

/-- C01: `c - a` for a scalar `c`. -/
theorem C01_scalar_sub {a e : Node (Option K)} {c : Option K} {n m : Nat} (h : sSub c a n = .ok (e, m))
    (σ : Env (Option K)) : e.evaluate σ = (c -. a.evaluate σ) := sSub_val h σ

/-- C01: `-a`. -/
theorem C01_neg {a e : Node (Option K)} {n m : Nat} (h : negN a n = .ok (e, m)) (σ : Env (Option K)) :
    e.evaluate σ = FloatOps.neg (a.evaluate σ) := negN_val h σ

/-! ## C02 products, quotients, sine, cosine -/

/-- C02: `a * b` has the product value wherever both operands are finite. -/
theorem C02_mul {a b e : Node (Option K)} {n m : Nat} (h : mulN a b n = .ok (e, m)) {σ : Env (Option K)} {x y : K}
    (ha : a.evaluate σ = some x) (hb : b.evaluate σ = some y) : e.evaluate σ = some (x * y) := mulN_some h ha hb

/-- C02: `a * c`. -/
theorem C02_mul_scalar {c x : K} {a e : Node (Option K)} {n m : Nat} (h : mulS (some c) a n = .ok (e, m))
    {σ : Env (Option K)} (ha : a.evaluate σ = some x) : e.evaluate σ = some (x * c) := mulS_some h ha

/-- C02: `c * a`. -/
theorem C02_scalar_mul {c x : K} {a e : Node (Option K)} {n m : Nat} (h : sMul (some c) a n = .ok (e, m))
    {σ : Env (Option K)} (ha : a.evaluate σ = some x) : e.evaluate σ = some (c * x) := sMul_some h ha

/-- C02: `a / b` has the quotient value wherever both operands are finite and the divisor is not zero. -/
theorem C02_div {a b e : Node (Option K)} {n m : Nat} (h : divN a b n = .ok (e, m)) {σ : Env (Option K)} {x y : K}
    (ha : a.evaluate σ = some x) (hb : b.evaluate σ = some y) (hy : y ≠ 0) : e.evaluate σ = some (x / y) :=
  divN_some h ha hb hy

/-- C02: `a / c`; if the operator returns, `c` is not zero. -/
theorem C02_div_scalar {a e : Node (Option K)} {c : K} {n m : Nat} (h : divS a (some c) n = .ok (e, m)) {σ : Env (Option K)}
    {x : K} (ha : a.evaluate σ = some x) : c ≠ 0 ∧ e.evaluate σ = some (x / c) := divS_some h ha

/-- C02: `c / b`. -/
theorem C02_scalar_div {b e : Node (Option K)} {c y : K} {n m : Nat} (h : sDiv (some c) b n = .ok (e, m))
    {σ : Env (Option K)} (hb : b.evaluate σ = some y) (hy : y ≠ 0) : e.evaluate σ = some (c / y) := sDiv_some h hb hy

theorem osum_none_of_forall₂ {σ : Env (Option K)} {as bs : List (Node (Option K))}
    (h : List.Forall₂ (fun a b => a.isConstant = false → b.evaluate σ = none) as bs)
    (hne : ∃ a ∈ as, a.isConstant = false) : osum (bs.map (Node.evaluate σ)) = none := by
  induction h with
  | nil => simp at hne
  | cons hab _ ih2 =>
    simp only [List.map_cons, osum_cons]
    obtain ⟨a, ha, hc⟩ := hne
    simp only [List.mem_cons] at ha
    rcases ha with rfl | ha
    · simp [hab hc]
    · simp [ih2 ⟨a, ha, hc⟩]

/-- A constant that is not a number, times a non-constant expression. -/
theorem mul_nan_aux {f : Node (Option K) → M (Node (Option K))} {i : Nat}
    (hf : f = mulCL i none ∨ f = mulCR i none) {σ : Env (Option K)} (b : Node (Option K)) :
    ∀ {h : Heap (Option K)}, Good .api h b → b.isConstant = false → ∀ {e n m}, f b n = .ok (e, m) → e.evaluate σ = none := by
  induction b using Node.ind with
  | const j v => intro h _ hc; simp [Node.isConstant] at hc
  | add j args ih =>
    intro h hg _ e n m he
    have key : ∀ g, M.bind (M.mapL g args) newAdd n = .ok (e, m) →
        (∀ a ∈ args, a.isConstant = false → ∀ {e n m}, g a n = .ok (e, m) → e.evaluate σ = none) → e.evaluate σ = none := by
      intro g hb hg'
      rw [M.bind_ok] at hb
      obtain ⟨bs, k, h1, h2⟩ := hb
      rw [newAdd_ok] at h2
      rw [h2.2.1, evaluate_add]
      have hfa := M.mapL_ok_forall (P := fun a b => a.isConstant = false → b.evaluate σ = none) h1
        fun a ha b n m hab hc => hg' a ha hc hab
      exact osum_none_of_forall₂ hfa (hg.shape.2 (by simp))
    rcases hf with rfl | rfl
    · simp only [mulCL, mulCLL_eq_mapL] at he
      simp at he
      exact key _ he fun a ha hc e n m hab => ih a ha (hg.arg (by simpa [Node.arguments] using ha)) hc hab
    · simp only [mulCR, mulCRL_eq_mapL] at he
      simp at he
      exact key _ he fun a ha hc e n m hab => ih a ha (hg.arg (by simpa [Node.arguments] using ha)) hc hab
  | _ =>
    intro h _ _ e n m he
    rcases hf with rfl | rfl <;> simp [mulCL, mulCR] at he <;> rw [← he.1] <;> simp [Node.evaluate]

/-- C02: for expressions built with the operators, `a * b` differs from the product of the values (non-finite ones
included) only if an operand is the constant zero. -/
theorem C02_mul_exact {H : HashOrder} {regs : List (Node (Option K))} {n m : Nat} (hr : ReachableApi H regs n)
    {a b e : Node (Option K)} (ha : a ∈ regs) (hb : b ∈ regs) (h : mulN a b n = .ok (e, m))
    (ha0 : a.isConstVal zero = false) (hb0 : b.isConstVal zero = false) (σ : Env (Option K)) :
    e.evaluate σ = (a.evaluate σ *. b.evaluate σ) := by
  obtain ⟨hp, -, hg⟩ := hr.inv
  by_cases hna : ∃ i, a = .const i none
  · obtain ⟨i, rfl⟩ := hna
    simp only [Node.evaluate, mul_none_left]
    by_cases hbc : b.isConstant = true
    · obtain ⟨j, c, rfl⟩ := isConstant_iff.1 hbc
      rw [mulN_unfold] at h
      rw [if_neg (by rw [ha0, hb0]; simp)] at h
      by_cases hc1 : c = some 1
      · subst hc1
        simp [Node.isConstVal, M.pure_ok] at h
        rw [h.1]; rfl
      · have : (c ==. some 1) = false := by
          cases hh : (c ==. some 1)
          · rfl
          · exact absurd (eq_one_iff.1 hh) hc1
        simp [Node.isConstVal, this, Node.isConstant, Node.evaluate] at h
        rw [← h.1]; rfl
    · rw [mulN_const_left] at h
      exact mul_nan_aux (.inl rfl) b (hg b hb) (by simpa using hbc) h
  · by_cases hnb : ∃ i, b = .const i none
    · obtain ⟨j, rfl⟩ := hnb
      simp only [Node.evaluate, mul_none_right]
      by_cases hac : a.isConstant = true
      · obtain ⟨i, c, rfl⟩ := isConstant_iff.1 hac
        rw [mulN_unfold] at h
        rw [if_neg (by rw [ha0, hb0]; simp)] at h
        by_cases hc1 : c = some 1
        · subst hc1
          simp [Node.isConstVal, M.pure_ok] at h
          rw [h.1]; rfl
        · have : (c ==. some 1) = false := by
            cases hh : (c ==. some 1)
            · rfl
            · exact absurd (eq_one_iff.1 hh) hc1
          simp [Node.isConstVal, this, Node.isConstant, Node.evaluate] at h
          rw [← h.1]; rfl
      · rw [mulN_const_right] at h
        exact mul_nan_aux (.inr rfl) a (hg a ha) (by simpa using hac) h
    · refine mulN_val h ?_ ?_ σ
      · rintro i c rfl
        refine ⟨?_, fun hc => hna ⟨i, by rw [hc]⟩⟩
        rintro rfl; simp [Node.isConstVal] at ha0
      · rintro i c rfl
        refine ⟨?_, fun hc => hnb ⟨i, by rw [hc]⟩⟩
        rintro rfl; simp [Node.isConstVal] at hb0

/-- C02: `a / b` differs from the quotient of the values (non-finite ones included) only if `a` is the constant zero. -/
theorem C02_div_exact {a b e : Node (Option K)} {n m : Nat} (h : divN a b n = .ok (e, m))
    (ha : a.isConstVal zero = false) (σ : Env (Option K)) : e.evaluate σ = (a.evaluate σ /. b.evaluate σ) := divN_val h ha σ

/-- C02: `a * c` and `c * a` with a non-zero scalar, `a / c`, and `c / b` with a non-zero scalar are exact everywhere. -/
theorem C02_scalar_exact {a : Node (Option K)} {c : Option K} {n : Nat} (σ : Env (Option K)) :
    (c ≠ some 0 → ∀ e m, mulS c a n = .ok (e, m) → e.evaluate σ = (a.evaluate σ *. c)) ∧
    (c ≠ some 0 → ∀ e m, sMul c a n = .ok (e, m) → e.evaluate σ = (c *. a.evaluate σ)) ∧
    (a.isConstVal zero = false → ∀ e m, divS a c n = .ok (e, m) → e.evaluate σ = (a.evaluate σ /. c)) ∧
    (c ≠ some 0 → ∀ e m, sDiv c a n = .ok (e, m) → e.evaluate σ = (c /. a.evaluate σ)) :=
  ⟨fun hc _ _ h => mulS_val hc a σ h, fun hc _ _ h => sMul_val hc a σ h, fun ha _ _ h => divS_val h ha σ,
   fun hc _ _ h => sDiv_val h hc σ⟩

/-- C02: sine and cosine of an expression evaluate to the sine and cosine of its value. -/
theorem C02_trig {a e : Node (Option K)} {n m : Nat} (σ : Env (Option K)) :
    (cosN a n = .ok (e, m) → e.evaluate σ = FloatOps.cos (a.evaluate σ)) ∧
    (sinN a n = .ok (e, m) → e.evaluate σ = FloatOps.sin (a.evaluate σ)) :=
  ⟨fun h => cosN_val h σ, fun h => sinN_val h σ⟩

end

/-- The program used in the examples: `x`, `y`, `x + 5`, `y * 3`, `x + 5 - y*3`, `2 * (x + 5)`, `x / y`, `sin x`. -/
def exProg : List (Op Q) :=
  [.var "x" .continuous, .var "y" .continuous, .addScalar 0 (some 5), .mulScalar 1 (some 3), .sub 2 3,
   .scalarMul (some 2) 2, .div 0 1, .sin 0]

/-- The examples run, and results have the expected values: at x = 2, y = 4 the program computes 7, 12, -5, 14, 1/2. -/
example : runs exProg = true ∧
    (regsOf exProg).map (Node.evaluate (envOf [(0, 2), (1, 4)])) =
      [some 2, some 4, some 7, some 12, some (-5), some 14, some (1/2), some 2] := by decide +kernel

/-- Non-vacuity of `C02_mul_exact`: the hypotheses hold of the product of `x + 5` and `y * 3`. -/
example : ReachableApi HashOrder.listOrder (regsOf exProg) (countOf exProg) ∧
    (resultOf (mulN ((regsOf exProg)[2]!) ((regsOf exProg)[3]!)) (countOf exProg)).map
      (Node.evaluate (envOf [(0, 2), (1, 4)])) = some (some 84) :=
  ⟨runs_reachableApi (by decide +kernel) (by decide +kernel), by decide +kernel⟩

end Verif
