import Verif.Spec.DerivForm
import Verif.Proofs.PathCount
import Verif.Proofs.Arith

/-! # The form of the products of which a derivative is the sum -/

set_option linter.unusedSectionVars false
set_option linter.unusedSimpArgs false

namespace Verif

open Exact

variable {K : Type} [Field K] [LinearOrder K] [Trig K]

/-- No term is an undefined number. -/
def AllDef (as : List (Node (Option K))) : Prop := ∀ i, Node.const i none ∉ as

/-- No undefined numbers at the top, and a term that is not a number unless it is a number. -/
structure Fine (r : Node (Option K)) : Prop where
  self : ∀ i, r ≠ .const i none
  args : ∀ i as, r = .add i as → AllDef as
  pos : r.isConstant = false → 1 ≤ r.form.terms

theorem fine_const (i : Nat) (v : K) : Fine (.const i (some v)) := ⟨by simp, by simp, by simp [Node.isConstant]⟩

theorem form_const_iff {r : Node (Option K)} (h : Fine r) : r.form.terms = 0 ↔ r.isConstant = true := by
  constructor
  · intro h0
    by_contra hc
    have := h.pos (by simpa using hc)
    omega
  · intro hc; cases r <;> simp [Node.isConstant] at hc; rfl

theorem single_form {r : Node (Option K)} (h1 : r.isConstant = false) (h2 : ∀ i as, r ≠ .add i as) : Fine r ∧ r.form = ⟨1, 0⟩ := by
  cases r
  case const => simp [Node.isConstant] at h1
  case add i as => exact absurd rfl (h2 i as)
  all_goals exact ⟨⟨by simp, by simp, by simp [Node.form]⟩, rfl⟩

theorem zero_iff {r : Node (Option K)} (h : Fine r) : r.isConstVal zero = true ↔ r.form = ⟨0, 0⟩ := by
  cases r
  case const i v =>
    cases v with
    | none => exact absurd rfl (h.self i)
    | some v => simp [Node.isConstVal, Node.form]
  case add i as =>
    have := h.pos rfl
    simp only [Node.isConstVal, Bool.false_eq_true, false_iff]
    intro h'; rw [h'] at this; simp at this
  all_goals simp [Node.isConstVal, Node.form]

/-! ## Products -/

/-- What a product with the number `c` does to a term. -/
structure ScaledBy (c : K) (a b : Node (Option K)) : Prop where
  const : b.isConstant = a.isConstant
  num : b.numberOf = c * a.numberOf
  ok : ∀ i, b ≠ .const i none

theorem scaled_form {c : K} {as bs : List (Node (Option K))} (h : List.Forall₂ (ScaledBy c) as bs) :
    (bs.filter fun a => !a.isConstant).length = (as.filter fun a => !a.isConstant).length ∧ (bs.map Node.numberOf).sum = c * (as.map Node.numberOf).sum ∧ AllDef bs := by
  induction h with
  | nil => simp [AllDef]
  | @cons a b as bs h1 _ ih =>
    obtain ⟨i1, i2, i3⟩ := ih
    refine ⟨?_, ?_, ?_⟩
    · simp only [List.filter_cons, h1.const]
      split <;> simp [i1]
    · simp [i2, h1.num, mul_add]
    · intro i hi
      rcases List.mem_cons.1 hi with hi | hi
      · exact h1.ok i hi.symm
      · exact i3 i hi

theorem scaled_mulCL {i : Nat} {c : K} (hc : c ≠ 0) (hc1 : c ≠ 1) {a b : Node (Option K)} {n m : Nat} (ha : ∀ j, a ≠ .const j none)
    (h : mulCL i (some c) a n = .ok (b, m)) : ScaledBy c a b := by
  have hnc : ∀ {a b : Node (Option K)}, a.isConstant = false → b.isConstant = false → ScaledBy c a b := by
    intro a b h1 h2
    refine ⟨by rw [h1, h2], ?_, ?_⟩
    · cases a <;> cases b <;> simp_all [Node.numberOf, Node.isConstant]
    · rintro j rfl; simp [Node.isConstant] at h2
  cases a
  case const j v =>
    obtain ⟨v, rfl⟩ : ∃ w, v = some w := by
      cases v with
      | none => exact absurd rfl (ha j)
      | some w => exact ⟨w, rfl⟩
    simp only [mulCL, zero_def, one_def, eq_some, hc, hc1, decide_false, Bool.false_or, Bool.false_eq_true, if_false, decide_eq_true_eq] at h
    split at h
    · rename_i hv; subst hv; rw [newConst_ok] at h; rw [h.1]; exact ⟨rfl, by simp [Node.numberOf], by simp⟩
    · split at h
      · rename_i hv; subst hv; rw [M.pure_ok] at h; rw [h.1]; exact ⟨rfl, by simp [Node.numberOf], by simp⟩
      · rw [newConst_ok] at h; rw [h.1]; exact ⟨rfl, by simp [Node.numberOf], by simp⟩
  case add j args =>
    simp only [mulCL, zero_def, one_def, eq_some, hc, hc1, decide_false, Bool.false_eq_true, if_false, M.bind_ok] at h
    obtain ⟨_, _, -, h⟩ := h
    rw [newAdd_ok] at h
    exact hnc rfl (by rw [h.2.1]; rfl)
  all_goals
    simp only [mulCL, zero_def, one_def, eq_some, hc, hc1, decide_false, Bool.false_eq_true, if_false, newMul_eq] at h
    cases h
    exact hnc rfl rfl

theorem scaled_mulCR {i : Nat} {c : K} (hc : c ≠ 0) (hc1 : c ≠ 1) {a b : Node (Option K)} {n m : Nat} (ha : ∀ j, a ≠ .const j none)
    (h : mulCR i (some c) a n = .ok (b, m)) : ScaledBy c a b := by
  have hnc : ∀ {a b : Node (Option K)}, a.isConstant = false → b.isConstant = false → ScaledBy c a b := by
    intro a b h1 h2
    refine ⟨by rw [h1, h2], ?_, ?_⟩
    · cases a <;> cases b <;> simp_all [Node.numberOf, Node.isConstant]
    · rintro j rfl; simp [Node.isConstant] at h2
  cases a
  case const j v =>
    obtain ⟨v, rfl⟩ : ∃ w, v = some w := by
      cases v with
      | none => exact absurd rfl (ha j)
      | some w => exact ⟨w, rfl⟩
    simp only [mulCR, zero_def, one_def, eq_some, hc, hc1, decide_false, Bool.or_false, Bool.false_eq_true, if_false, decide_eq_true_eq] at h
    split at h
    · rename_i hv; subst hv; rw [newConst_ok] at h; rw [h.1]; exact ⟨rfl, by simp [Node.numberOf], by simp⟩
    · split at h
      · rename_i hv; subst hv; rw [M.pure_ok] at h; rw [h.1]; exact ⟨rfl, by simp [Node.numberOf], by simp⟩
      · rw [newConst_ok] at h; rw [h.1]; exact ⟨rfl, by simp [Node.numberOf, mul_comm], by simp⟩
  case add j args =>
    simp only [mulCR, zero_def, one_def, eq_some, hc, hc1, decide_false, Bool.false_eq_true, if_false, M.bind_ok] at h
    obtain ⟨_, _, -, h⟩ := h
    rw [newAdd_ok] at h
    exact hnc rfl (by rw [h.2.1]; rfl)
  all_goals
    simp only [mulCR, zero_def, one_def, eq_some, hc, hc1, decide_false, Bool.false_eq_true, if_false, newMul_eq] at h
    cases h
    exact hnc rfl rfl

theorem scaled_mulCLL {i : Nat} {c : K} (hc : c ≠ 0) (hc1 : c ≠ 1) : ∀ {as bs : List (Node (Option K))} {n m : Nat}, AllDef as →
    mulCL.mulCLL i (some c) as n = .ok (bs, m) → List.Forall₂ (ScaledBy c) as bs := by
  intro as
  induction as with
  | nil => intro bs n m _ h; simp only [mulCL.mulCLL, M.pure_ok] at h; rw [h.1]; exact .nil
  | cons a as ih =>
    intro bs n m hd h
    simp only [mulCL.mulCLL, M.bind_ok, M.pure_ok] at h
    obtain ⟨b, k, h1, bs', k', h2, rfl, -⟩ := h
    exact .cons (scaled_mulCL hc hc1 (fun j hj => hd j (by simp [hj])) h1) (ih (fun j hj => hd j (by simp [hj])) h2)

theorem scaled_mulCRL {i : Nat} {c : K} (hc : c ≠ 0) (hc1 : c ≠ 1) : ∀ {as bs : List (Node (Option K))} {n m : Nat}, AllDef as →
    mulCR.mulCRL i (some c) as n = .ok (bs, m) → List.Forall₂ (ScaledBy c) as bs := by
  intro as
  induction as with
  | nil => intro bs n m _ h; simp only [mulCR.mulCRL, M.pure_ok] at h; rw [h.1]; exact .nil
  | cons a as ih =>
    intro bs n m hd h
    simp only [mulCR.mulCRL, M.bind_ok, M.pure_ok] at h
    obtain ⟨b, k, h1, bs', k', h2, rfl, -⟩ := h
    exact .cons (scaled_mulCR hc hc1 (fun j hj => hd j (by simp [hj])) h1) (ih (fun j hj => hd j (by simp [hj])) h2)

theorem Form.mul_comm (p q : Form K) : p.mul q = q.mul p := by
  obtain ⟨a, b⟩ := p; obtain ⟨c, d⟩ := q
  simp only [Form.mul, Form.mk.injEq]
  split_ifs <;> simp_all [_root_.mul_comm]

theorem Form.mul_one (p : Form K) : p.mul ⟨0, 1⟩ = p := by
  obtain ⟨a, b⟩ := p
  simp only [Form.mul, Form.mk.injEq]
  split_ifs <;> simp_all

theorem Form.one_mul (p : Form K) : (⟨0, 1⟩ : Form K).mul p = p := by rw [Form.mul_comm, Form.mul_one]

theorem Form.mul_assoc (p q r : Form K) : (p.mul q).mul r = p.mul (q.mul r) := by
  obtain ⟨a, b⟩ := p; obtain ⟨c, d⟩ := q; obtain ⟨e, f⟩ := r
  rcases Nat.eq_zero_or_pos a with rfl | ha <;> rcases Nat.eq_zero_or_pos c with rfl | hc <;> rcases Nat.eq_zero_or_pos e with rfl | he <;>
    by_cases hb : b = 0 <;> by_cases hd : d = 0 <;> by_cases hf : f = 0 <;>
    simp_all [Form.mul, Nat.pos_iff_ne_zero, _root_.mul_assoc]

theorem form_mulCL {i : Nat} {c : K} {b r : Node (Option K)} {n m : Nat} (hb : Fine b) (h : mulCL i (some c) b n = .ok (r, m)) :
    Fine r ∧ r.form = (⟨0, c⟩ : Form K).mul b.form := by
  have hz : ∀ {k}, newConst (zero : Option K) k = .ok (r, m) → Fine r ∧ r.form = ⟨0, 0⟩ := by
    intro k h; rw [newConst_ok] at h; rw [h.1]; exact ⟨fine_const _ _, rfl⟩
  have h0 : c = 0 → (⟨0, c⟩ : Form K).mul b.form = ⟨0, 0⟩ := by rintro rfl; simp [Form.mul]
  have h1 : c = 1 → (⟨0, c⟩ : Form K).mul b.form = b.form := by
    rintro rfl; simp only [Form.mul, Form.mk.injEq, one_ne_zero, and_false, false_or, if_true, one_mul]
    split
    · rename_i h; rw [h]
    · rfl
  by_cases hc : c = 0
  · rw [h0 hc]; subst hc
    cases b <;> simp [mulCL, -newConst_eq] at h <;> exact hz h
  by_cases hc1 : c = 1
  · rw [h1 hc1]; subst hc1
    cases b
    case const j v =>
      cases v with
      | none => exact absurd rfl (hb.self j)
      | some v =>
        simp [mulCL, -newConst_eq, M.pure_ok] at h
        split at h
        · rename_i hv; subst hv; exact hz h
        · rw [M.pure_ok] at h; rw [h.1]; exact ⟨fine_const _ _, rfl⟩
    all_goals
      simp [mulCL, -newConst_eq, M.pure_ok] at h
      rw [h.1]; exact ⟨hb, rfl⟩
  by_cases hbc : b.isConstant = true
  · have hs := scaled_mulCL hc hc1 hb.self h
    obtain ⟨j, v, rfl⟩ : ∃ j v, b = .const j v := by cases b <;> simp_all [Node.isConstant]
    obtain ⟨k, w, rfl⟩ : ∃ k w, r = .const k w := by have := hs.const; cases r <;> simp_all [Node.isConstant]
    cases w with
    | none => exact absurd rfl (hs.ok k)
    | some w =>
      refine ⟨fine_const _ _, ?_⟩
      have := hs.num
      simp only [Node.numberOf, Option.getD_some] at this
      simp only [Node.form, Option.getD_some, Form.mul, Form.mk.injEq, hc, and_false, false_or, if_true, this, true_and]
      split
      · rename_i h; simp [h]
      · rfl
  · have hne : ¬ b.form = ⟨0, 0⟩ := fun h' => hbc ((form_const_iff hb).1 (by rw [h']))
    have hm : (⟨0, c⟩ : Form K).mul b.form = ⟨b.form.terms, c * b.form.number⟩ := by simp [Form.mul, hc, hne]
    rw [hm]
    cases b
    case const => simp [Node.isConstant] at hbc
    case add j args =>
      simp only [mulCL, zero_def, one_def, eq_some, hc, hc1, decide_false, Bool.false_eq_true, if_false, M.bind_ok] at h
      obtain ⟨bs, k, h2, h⟩ := h
      rw [newAdd_ok] at h
      obtain ⟨h3, h4, h5⟩ := scaled_form (scaled_mulCLL hc hc1 (hb.args _ _ rfl) h2)
      have hp := hb.pos rfl
      rw [h.2.1]
      simp only [Node.form] at hp ⊢
      rw [h3, h4]
      exact ⟨⟨by simp, fun _ _ e => by cases e; exact h5, fun _ => by simpa only [Node.form, h3] using hp⟩, rfl⟩
    all_goals
      simp only [mulCL, zero_def, one_def, eq_some, hc, hc1, decide_false, Bool.false_eq_true, if_false, newMul_eq] at h
      cases h
      exact ⟨(single_form rfl (by simp)).1, by simp [Node.form]⟩

theorem form_mulCR {i : Nat} {c : K} {b r : Node (Option K)} {n m : Nat} (hb : Fine b) (h : mulCR i (some c) b n = .ok (r, m)) :
    Fine r ∧ r.form = b.form.mul ⟨0, c⟩ := by
  rw [Form.mul_comm]
  have hz : ∀ {k}, newConst (zero : Option K) k = .ok (r, m) → Fine r ∧ r.form = ⟨0, 0⟩ := by
    intro k h; rw [newConst_ok] at h; rw [h.1]; exact ⟨fine_const _ _, rfl⟩
  have h0 : c = 0 → (⟨0, c⟩ : Form K).mul b.form = ⟨0, 0⟩ := by rintro rfl; simp [Form.mul]
  have h1 : c = 1 → (⟨0, c⟩ : Form K).mul b.form = b.form := by
    rintro rfl; simp only [Form.mul, Form.mk.injEq, one_ne_zero, and_false, false_or, if_true, one_mul]
    split
    · rename_i h; rw [h]
    · rfl
  by_cases hc : c = 0
  · rw [h0 hc]; subst hc
    cases b <;> simp [mulCR, -newConst_eq] at h <;> exact hz h
  by_cases hc1 : c = 1
  · rw [h1 hc1]; subst hc1
    cases b
    case const j v =>
      cases v with
      | none => exact absurd rfl (hb.self j)
      | some v =>
        simp [mulCR, -newConst_eq, M.pure_ok] at h
        split at h
        · rename_i hv; subst hv; exact hz h
        · split at h
          · rename_i hv; subst hv; rw [M.pure_ok] at h; rw [h.1]; exact ⟨fine_const _ _, rfl⟩
          · rw [M.pure_ok] at h; rw [h.1]; exact ⟨fine_const _ _, rfl⟩
    all_goals
      simp [mulCR, -newConst_eq, M.pure_ok] at h
      rw [h.1]; exact ⟨hb, rfl⟩
  by_cases hbc : b.isConstant = true
  · have hs := scaled_mulCR hc hc1 hb.self h
    obtain ⟨j, v, rfl⟩ : ∃ j v, b = .const j v := by cases b <;> simp_all [Node.isConstant]
    obtain ⟨k, w, rfl⟩ : ∃ k w, r = .const k w := by have := hs.const; cases r <;> simp_all [Node.isConstant]
    cases w with
    | none => exact absurd rfl (hs.ok k)
    | some w =>
      refine ⟨fine_const _ _, ?_⟩
      have := hs.num
      simp only [Node.numberOf, Option.getD_some] at this
      simp only [Node.form, Option.getD_some, Form.mul, Form.mk.injEq, hc, and_false, false_or, if_true, this, true_and]
      split
      · rename_i h; simp [h]
      · rfl
  · have hne : ¬ b.form = ⟨0, 0⟩ := fun h' => hbc ((form_const_iff hb).1 (by rw [h']))
    have hm : (⟨0, c⟩ : Form K).mul b.form = ⟨b.form.terms, c * b.form.number⟩ := by simp [Form.mul, hc, hne]
    rw [hm]
    cases b
    case const => simp [Node.isConstant] at hbc
    case add j args =>
      simp only [mulCR, zero_def, one_def, eq_some, hc, hc1, decide_false, Bool.false_eq_true, if_false, M.bind_ok] at h
      obtain ⟨bs, k, h2, h⟩ := h
      rw [newAdd_ok] at h
      obtain ⟨h3, h4, h5⟩ := scaled_form (scaled_mulCRL hc hc1 (hb.args _ _ rfl) h2)
      have hp := hb.pos rfl
      rw [h.2.1]
      simp only [Node.form] at hp ⊢
      rw [h3, h4]
      exact ⟨⟨by simp, fun _ _ e => by cases e; exact h5, fun _ => by simpa only [Node.form, h3] using hp⟩, rfl⟩
    all_goals
      simp only [mulCR, zero_def, one_def, eq_some, hc, hc1, decide_false, Bool.false_eq_true, if_false, newMul_eq] at h
      cases h
      exact ⟨(single_form rfl (by simp)).1, by simp [Node.form]⟩

theorem form_mulN {a b r : Node (Option K)} {n m : Nat} (ha : Fine a) (hb : Fine b) (h : mulN a b n = .ok (r, m)) : Fine r ∧ r.form = a.form.mul b.form := by
  rcases mulN_cases a b with ⟨i, c, rfl, he⟩ | ⟨i, c, rfl, he⟩ | ⟨h1, h2, he⟩
  · cases c with
    | none => exact absurd rfl (ha.self i)
    | some c => rw [he] at h; exact form_mulCL hb h
  · cases c with
    | none => exact absurd rfl (hb.self i)
    | some c => rw [he] at h; exact form_mulCR ha h
  · rw [he, newMul_eq] at h
    cases h
    have e1 := ha.pos h1
    have e2 := hb.pos h2
    refine ⟨(single_form rfl (by simp)).1, ?_⟩
    have n1 : ¬ a.form.terms = 0 := by omega
    have n2 : ¬ b.form.terms = 0 := by omega
    have m1 : a.form ≠ ⟨0, 0⟩ := fun h => n1 (by rw [h])
    have m2 : b.form ≠ ⟨0, 0⟩ := fun h => n2 (by rw [h])
    rw [Form.mul, if_neg (by simp [m1, m2]), if_neg n1, if_neg n2]
    rfl

/-! ## Partial derivatives -/

/-- The form of the partial derivative of a node by an argument. -/
def pform : Node (Option K) → Node (Option K) → Form K
  | .mul _ x y, b => if x.ptrEq b then y.form else x.form
  | .div _ x y, b => if x.ptrEq b then y.form.inv else if x.form = ⟨0, 0⟩ then ⟨0, 0⟩ else ⟨1, 0⟩
  | .cos .., _ => ⟨1, 0⟩
  | .sin .., _ => ⟨1, 0⟩
  | _, _ => ⟨0, 1⟩

theorem neg_nonconst {a r : Node (Option K)} {n m : Nat} (ha : a.isConstant = false) (h : negN a n = .ok (r, m)) : r.isConstant = false := by
  cases a
  case const => simp [Node.isConstant] at ha
  all_goals
    simp only [negN, sMul] at h
    split at h
    · rename_i h'; simp at h'
    · split at h
      · rw [M.pure_ok] at h; rw [h.1]; rfl
      · rw [M.bind_ok] at h
        obtain ⟨_, _, _, h⟩ := h
        first
        | (rw [newAdd_ok] at h; rw [h.2.1]; rfl)
        | (rw [newMul_eq] at h; cases h; rfl)

theorem form_partialN {a b r : Node (Option K)} {n m : Nat} (hb : b ∈ a.arguments) (hc : b.isConstant = false) (hf : ∀ x ∈ a.arguments, Fine x)
    (h : partialN a b n = .ok (r, m)) : Fine r ∧ r.form = pform a b := by
  have hz : ∀ {k}, newConst (zero : Option K) k = .ok (r, m) → Fine r ∧ r.form = ⟨0, 0⟩ := by
    intro k h; rw [newConst_ok] at h; rw [h.1]; exact ⟨fine_const _ _, rfl⟩
  have hs : r.isConstant = false → (∀ i as, r ≠ .add i as) → Fine r ∧ r.form = ⟨1, 0⟩ := single_form
  cases a <;> simp only [Node.arguments, List.mem_cons, List.not_mem_nil, or_false] at hb
  case add i args =>
    have hany : args.any (fun a => a.ptrEq b) = true := List.any_eq_true.2 ⟨b, hb, ptrEq_refl b⟩
    simp only [partialN, hany, if_true] at h
    rw [newConst_ok] at h; rw [h.1]; exact ⟨fine_const _ _, rfl⟩
  case cos i a =>
    subst hb
    simp only [partialN, ptrEq_refl, if_true, M.bind_ok] at h
    obtain ⟨s, k, h1, h2⟩ := h
    have hsin : ∃ j, s = .sin j b := by cases b <;> simp [Node.isConstant] at hc <;> · simp [sinN] at h1; exact ⟨_, h1.1.symm⟩
    obtain ⟨j, rfl⟩ := hsin
    refine single_form ?_ ?_ <;> (simp only [negN, sMul] at h2; split at h2; · (rw [newConst_ok] at h2; rename_i h'; simp at h'))
    · split at h2
      · rw [M.pure_ok] at h2; rw [h2.1]; rfl
      · simp only [M.bind_ok, newMul_eq] at h2; obtain ⟨_, _, _, h2⟩ := h2; cases h2; rfl
    · split at h2
      · rw [M.pure_ok] at h2; rw [h2.1]; simp
      · simp only [M.bind_ok, newMul_eq] at h2; obtain ⟨_, _, _, h2⟩ := h2; cases h2; simp
  case sin i a =>
    subst hb
    simp only [partialN, ptrEq_refl, if_true] at h
    cases b <;> simp [Node.isConstant] at hc <;> · simp [cosN] at h; rw [← h.1]; exact single_form rfl (by simp)
  case mul i a d =>
    simp only [Node.arguments, List.mem_cons, List.not_mem_nil, or_false, forall_eq_or_imp, forall_eq] at hf
    simp only [partialN] at h
    simp only [pform]
    split at h
    · rename_i h'; rw [M.pure_ok] at h; rw [h.1, if_pos h']; exact ⟨hf.2, rfl⟩
    · rename_i h'
      rw [if_neg h']
      have : d.ptrEq b = true := by
        rcases hb with rfl | rfl
        · exact absurd (ptrEq_refl _) h'
        · exact ptrEq_refl _
      rw [if_pos this, M.pure_ok] at h
      rw [h.1]; exact ⟨hf.1, rfl⟩
  case div i a d =>
    simp only [Node.arguments, List.mem_cons, List.not_mem_nil, or_false, forall_eq_or_imp, forall_eq] at hf
    simp only [partialN] at h
    simp only [pform]
    split at h
    · rename_i h'
      rw [if_pos h']
      unfold sDiv at h
      split at h
      · cases h
      · rename_i hd0
        split at h
        · rename_i hd1
          have : d.form = ⟨0, 1⟩ := by
            cases d
            case const j v =>
              cases v with
              | none => simp [Node.isConstVal] at hd1
              | some v => simp [Node.isConstVal] at hd1; subst hd1; rfl
            all_goals simp [Node.isConstVal] at hd1
          rw [newConst_ok] at h; rw [h.1, this]; exact ⟨fine_const _ _, by simp [Form.inv, Node.form]⟩
        · rw [if_neg (by simp)] at h
          split at h
          · rename_i hdc
            obtain ⟨j, v, rfl⟩ : ∃ j v, d = .const j v := by cases d <;> simp_all [Node.isConstant]
            cases v with
            | none => exact absurd rfl (hf.2.self j)
            | some v =>
              have hv : v ≠ 0 := by rintro rfl; simp [Node.isConstVal] at hd0
              rw [newConst_ok] at h; rw [h.1]
              have : ((one : Option K) /. some v) = some (1 / v) := by
                show Exact.div (some 1) (some v) = _
                simp [Exact.div, hv]
              simp only [Node.evaluate, this]
              exact ⟨fine_const _ _, rfl⟩
          · rename_i hdc
            simp only [M.bind_ok, newDiv_eq] at h
            obtain ⟨_, _, _, h⟩ := h
            cases h
            have : d.form.terms ≠ 0 := fun h => hdc ((form_const_iff hf.2).1 h)
            simp only [Form.inv, this, if_false]
            exact single_form rfl (by simp)
    · rename_i h'
      rw [if_neg h']
      have hdb : b = d := by
        rcases hb with rfl | rfl
        · exact absurd (ptrEq_refl _) h'
        · rfl
      subst hdb
      rw [if_pos (ptrEq_refl _)] at h
      simp only [M.bind_ok] at h
      obtain ⟨na, k1, h1, bb, k2, h2, h3⟩ := h
      have hbb : ∃ j, bb = .mul j b b := by
        rcases mulN_cases b b with ⟨i, v, rfl, he⟩ | ⟨j, v, rfl, he⟩ | ⟨_, _, he⟩
        · simp [Node.isConstant] at hc
        · simp [Node.isConstant] at hc
        · rw [he, newMul_eq] at h2; cases h2; exact ⟨_, rfl⟩
      obtain ⟨j, rfl⟩ := hbb
      have hneg : (a.form = ⟨0, 0⟩ ↔ na.isConstVal zero = true) := by
        by_cases hac : a.isConstant = true
        · obtain ⟨i, v, rfl⟩ : ∃ i v, a = .const i v := by cases a <;> simp_all [Node.isConstant]
          cases v with
          | none => exact absurd rfl (hf.1.self i)
          | some v =>
            simp only [negN] at h1
            rw [newConst_ok] at h1; rw [h1.1]
            simp [Node.form, Node.isConstVal]
        · have h4 := neg_nonconst (by simpa using hac) h1
          constructor
          · intro h; exact absurd ((form_const_iff hf.1).1 (by rw [h])) hac
          · intro h; cases na <;> simp_all [Node.isConstVal, Node.isConstant]
      unfold divN at h3
      rw [if_neg (by simp [Node.isConstVal]), if_neg (by simp [Node.isConstVal])] at h3
      split at h3
      · rename_i h''; rw [if_pos (hneg.2 h'')]; exact hz h3
      · rename_i h''; rw [if_neg (fun h => h'' (hneg.1 h))]
        rw [if_neg (by simp [Node.isConstant]), newDiv_eq] at h3
        cases h3; exact single_form rfl (by simp)

/-! ## Products along the paths -/

/-- The form of the product of the partial derivatives along a path. -/
def pathForm : List (Node (Option K)) → Form K
  | a :: b :: rest => (pform a b).mul (pathForm (b :: rest))
  | _ => ⟨0, 1⟩

theorem form_pathProd {path : List (Node (Option K))} (hp : ArgPath path) : ∀ {n m : Nat} {prod r : Node (Option K)}, Fine prod →
    (∀ y ∈ path, ∀ x ∈ y.arguments, Fine x) → pathProd prod path n = .ok (r, m) → Fine r ∧ r.form = prod.form.mul (pathForm path) := by
  induction path with
  | nil => intro n m prod r hf _ h; simp only [pathProd, M.pure_ok] at h; rw [h.1]; exact ⟨hf, (Form.mul_one _).symm⟩
  | cons a path ih =>
    intro n m prod r hf hy h
    cases path with
    | nil => simp only [pathProd, M.pure_ok] at h; rw [h.1]; exact ⟨hf, (Form.mul_one _).symm⟩
    | cons b path =>
      obtain ⟨hb, hbc, hrest⟩ := hp
      simp only [pathProd, M.bind_ok] at h
      obtain ⟨p, k1, h1, q, k2, h2, h3⟩ := h
      obtain ⟨f1, e1⟩ := form_partialN hb hbc (hy a (by simp)) h1
      obtain ⟨f2, e2⟩ := form_mulN hf f1 h2
      obtain ⟨f3, e3⟩ := ih hrest f2 (fun y h => hy y (by simp [h])) h3
      exact ⟨f3, by rw [e3, e2, e1, Form.mul_assoc]; rfl⟩

theorem pathForm_cons {a t : Node (Option K)} {q : List (Node (Option K))} (hq : q ∈ dfs t) : pathForm (a :: q) = (pform a t).mul (pathForm q) := by
  obtain ⟨r, rfl⟩ := dfs_head hq
  rfl

theorem map_pathForm {a t x : Node (Option K)} {f : Form K} (h : f = pform a t) :
    (((dfs t).map (a :: ·)).filter (endsAt x)).map pathForm = (((dfs t).filter (endsAt x)).map pathForm).map f.mul := by
  subst h
  rw [List.filter_map, List.map_map, List.map_map]
  have e : (dfs t).filter (endsAt x ∘ (a :: ·)) = (dfs t).filter (endsAt x) := by
    apply List.filter_congr
    intro q hq
    exact endsAt_cons (dfs_ne_nil hq)
  rw [e]
  apply List.map_congr_left
  intro q hq
  exact pathForm_cons (List.mem_filter.1 hq).1

theorem places_eq (x : Node (Option K)) (e : Node (Option K)) (hc : ∀ y z, Occurs y e → Occurs z e → y.ptrEq z = true → y = z) :
    places x e = ((dfs e).filter (endsAt x)).map pathForm := by
  have sub : ∀ {a e : Node (Option K)}, a ∈ e.arguments → (∀ y z, Occurs y e → Occurs z e → y.ptrEq z = true → y = z) →
      ∀ y z, Occurs y a → Occurs z a → y.ptrEq z = true → y = z := fun ha h y z hy hz => h y z (.arg ha hy) (.arg ha hz)
  induction e using Node.ind with
  | const i v => rfl
  | var i s k =>
    simp only [places, dfs, List.filter_cons, List.filter_nil]
    have : endsAt x [Node.var i s k] = (Node.var i s k).ptrEq x := rfl
    rw [this]
    split <;> rfl
  | add i args ih =>
    have key : ∀ as : List (Node (Option K)), (∀ a ∈ as, a ∈ args) →
        places.terms x as = (((dfs.dfsL as).map (Node.add i args :: ·)).filter (endsAt x)).map pathForm := by
      intro as
      induction as with
      | nil => intro _; rfl
      | cons a as ih2 =>
        intro h
        have ha : a ∈ args := h a (by simp)
        simp only [places.terms, dfs.dfsL, List.map_append, List.filter_append]
        rw [ih2 (fun b hb => h b (by simp [hb])), ih a ha (sub (e := .add i args) ha hc), map_pathForm (f := ⟨0, 1⟩) rfl]
        congr 1
        rw [List.map_congr_left (g := id) (fun f _ => Form.one_mul f), List.map_id]
    simp only [places, dfs]
    exact key args (fun _ h => h)
  | cos i a ih =>
    simp only [places, dfs]
    rw [map_pathForm (f := ⟨1, 0⟩) rfl, ih (sub (e := .cos i a) (by simp [Node.arguments]) hc)]
  | sin i a ih =>
    simp only [places, dfs]
    rw [map_pathForm (f := ⟨1, 0⟩) rfl, ih (sub (e := .sin i a) (by simp [Node.arguments]) hc)]
  | mul i a b iha ihb =>
    simp only [places, dfs, List.map_append, List.filter_append]
    have hab : a.ptrEq b = true → a = b := hc a b (.arg (by simp [Node.arguments]) (.refl _)) (.arg (by simp [Node.arguments]) (.refl _))
    rw [map_pathForm (t := b) (f := a.form) ?_, map_pathForm (t := a) (f := b.form) ?_, ihb (sub (e := .mul i a b) (by simp [Node.arguments]) hc),
      iha (sub (e := .mul i a b) (by simp [Node.arguments]) hc)]
    · simp [pform, ptrEq_refl]
    · simp only [pform]; split
      · rename_i h; rw [hab h]
      · rfl
  | div i a b iha ihb =>
    simp only [places, dfs, List.map_append, List.filter_append]
    rw [map_pathForm (t := b) rfl, map_pathForm (t := a) (f := b.form.inv) ?_, ihb (sub (e := .div i a b) (by simp [Node.arguments]) hc),
      iha (sub (e := .div i a b) (by simp [Node.arguments]) hc)]
    · rfl
    · simp [pform, ptrEq_refl]

/-! ## Sums -/

theorem terms_length {a : Node (Option K)} : (terms a).length = a.form.terms := by cases a <;> rfl

theorem addConsts_form {a : Node (Option K)} (ha : Fine a) (c : K) : addConsts (some c) a = some (c + a.form.number) := by
  cases a
  case const i v =>
    cases v with
    | none => exact absurd rfl (ha.self i)
    | some v => simp [addConsts, Node.form]
  case add i args =>
    have hd := ha.args i args rfl
    simp only [addConsts, Node.form]
    clear ha
    induction args generalizing c with
    | nil => simp
    | cons a args ih =>
      have hd' : AllDef args := fun i hi => hd i (by simp [hi])
      simp only [List.foldl_cons, List.map_cons, List.sum_cons]
      cases a
      case const j v =>
        cases v with
        | none => exact absurd (by simp) (hd j)
        | some v => simp only [add_some, Node.numberOf, Option.getD_some]; rw [ih _ hd', add_assoc]
      all_goals (simp only [Node.numberOf, zero_add]; exact ih _ hd')
  all_goals simp [addConsts, Node.form]

theorem form_addN_error {a b : Node (Option K)} {n : Nat} (ha : Fine a) (hb : Fine b) :
    (∃ p, addN a b n = .error p) ↔ a.form.terms + b.form.terms = 1 ∧ a.form.number + b.form.number = 0 ∧ b.form.number ≠ 0 := by
  simp only [addN_error, List.length_append, terms_length, zero_def, addConsts_form ha, addConsts_form hb, eq_some, decide_eq_true_eq, zero_add]
  have hza := zero_iff ha
  have hzb := zero_iff hb
  simp only [zero_def] at hza hzb
  constructor
  · rintro ⟨p, h1, h2, h3, h4, -⟩
    refine ⟨h3, h4, fun h5 => ?_⟩
    have h6 : a.form.number = 0 := by simpa [h5] using h4
    have h7 : b.form.terms ≠ 0 := fun h => by
      have : b.form = ⟨0, 0⟩ := by cases hbf : b.form; simp_all
      rw [hzb.2 this] at h2; cases h2
    have h8 : a.form.terms ≠ 0 := fun h => by
      have : a.form = ⟨0, 0⟩ := by cases haf : a.form; simp_all
      rw [hza.2 this] at h1; cases h1
    omega
  · rintro ⟨h1, h2, h3⟩
    refine ⟨.addArgs, ?_, ?_, h1, h2, rfl⟩
    · by_contra h
      rw [hza.1 (by simpa using h)] at h2
      simp at h2; exact h3 h2
    · by_contra h
      rw [hzb.1 (by simpa using h)] at h3
      exact h3 rfl

theorem nonconst_terms (a : Node (Option K)) : ∀ t ∈ terms a, t.isConstant = false := by
  cases a <;> simp [terms, Node.isConstant]

theorem number_nonconst {t : Node (Option K)} (h : t.isConstant = false) : t.numberOf = 0 := by cases t <;> simp_all [Node.isConstant, Node.numberOf]

theorem form_addN {a b r : Node (Option K)} {n m : Nat} (ha : Fine a) (hb : Fine b) (h : addN a b n = .ok (r, m)) :
    Fine r ∧ r.form = ⟨a.form.terms + b.form.terms, a.form.number + b.form.number⟩ := by
  unfold addN at h
  split at h
  · rename_i hz
    rw [M.pure_ok] at h; rw [h.1, (zero_iff ha).1 hz]; exact ⟨hb, by simp⟩
  split at h
  · rename_i hz
    rw [M.pure_ok] at h; rw [h.1, (zero_iff hb).1 hz]; exact ⟨ha, by simp⟩
  rw [gather_terms, gather_terms] at h
  simp only [zero_def, addConsts_form ha, addConsts_form hb, List.nil_append, zero_add, finishAdd] at h
  have hlen : (terms a ++ terms b).length = a.form.terms + b.form.terms := by rw [List.length_append, terms_length, terms_length]
  have hnc : ∀ t ∈ terms a ++ terms b, t.isConstant = false := by
    intro t ht
    rcases List.mem_append.1 ht with ht | ht
    · exact nonconst_terms a t ht
    · exact nonconst_terms b t ht
  have hfil : (terms a ++ terms b).filter (fun t => !t.isConstant) = terms a ++ terms b := List.filter_eq_self.2 fun t ht => by simp [hnc t ht]
  have hsum : ((terms a ++ terms b).map Node.numberOf).sum = 0 := by
    have : ∀ l : List (Node (Option K)), (∀ t ∈ l, t.isConstant = false) → (l.map Node.numberOf).sum = 0 := by
      intro l
      induction l with
      | nil => intro _; rfl
      | cons t l ih => intro h; simp [number_nonconst (h t (by simp)), ih (fun t ht => h t (by simp [ht]))]
    exact this _ hnc
  have hdef : AllDef (terms a ++ terms b) := fun i hi => by have := hnc _ hi; simp [Node.isConstant] at this
  rw [← hlen]
  generalize terms a ++ terms b = ts at h hlen hnc hfil hsum hdef
  generalize a.form.number + b.form.number = c at h
  split at h
  · rename_i he
    rw [newConst_ok] at h
    have : ts = [] := by simpa using he
    subst this
    rw [h.1]; exact ⟨fine_const _ _, rfl⟩
  · rename_i he
    have hpos : 1 ≤ ts.length := by
      cases ts with
      | nil => simp at he
      | cons => simp
    split at h
    · simp only [M.bind_ok, newConst_ok] at h
      obtain ⟨k, m', ⟨rfl, -⟩, h⟩ := h
      rw [newAdd_ok] at h
      rw [h.2.1]
      have hf : (Node.add m' (ts ++ [Node.const n (some c)])).form = ⟨ts.length, c⟩ := by
        simp only [Node.form, List.filter_append, hfil, List.map_append, List.sum_append, hsum]
        simp [Node.isConstant, Node.numberOf]
      refine ⟨⟨by simp, ?_, fun _ => by rw [hf]; exact hpos⟩, hf⟩
      intro i as e
      cases e
      intro j hj
      rcases List.mem_append.1 hj with hj | hj
      · exact hdef j hj
      · simp at hj
    · rename_i hc
      have hc : c = 0 := by simpa using hc
      rw [newAdd_ok] at h
      rw [h.2.1]
      have hf : (Node.add n ts).form = ⟨ts.length, c⟩ := by simp only [Node.form, hfil, hsum, hc]
      exact ⟨⟨by simp, fun i as e => by cases e; exact hdef, fun _ => by rw [hf]; exact hpos⟩, hf⟩

/-! ## The sum over the paths -/

/-- As `NumbersCancel`, starting with a sum of that form. -/
def CancelsFrom (d : Form K) (ps : List (Form K)) : Prop :=
  ∃ before p after, ps = before ++ p :: after ∧ d.terms + ((before ++ [p]).map Form.terms).sum = 1 ∧ d.number + ((before ++ [p]).map Form.number).sum = 0 ∧ p.number ≠ 0

theorem cancelsFrom_nil (d : Form K) : ¬ CancelsFrom d [] := by rintro ⟨b, p, a, h, -⟩; cases b <;> cases h

theorem cancelsFrom_cons (d p : Form K) (ps : List (Form K)) :
    CancelsFrom d (p :: ps) ↔ (d.terms + p.terms = 1 ∧ d.number + p.number = 0 ∧ p.number ≠ 0) ∨ CancelsFrom ⟨d.terms + p.terms, d.number + p.number⟩ ps := by
  constructor
  · rintro ⟨b, q, a, h, h1, h2, h3⟩
    cases b with
    | nil =>
      simp only [List.nil_append, List.cons.injEq] at h
      obtain ⟨rfl, rfl⟩ := h
      left; exact ⟨by simpa using h1, by simpa using h2, h3⟩
    | cons b0 b =>
      simp only [List.cons_append, List.cons.injEq] at h
      obtain ⟨rfl, rfl⟩ := h
      right
      refine ⟨b, q, a, rfl, ?_, ?_, h3⟩
      · simpa [Nat.add_assoc] using h1
      · simpa [add_assoc] using h2
  · rintro (⟨h1, h2, h3⟩ | ⟨b, q, a, rfl, h1, h2, h3⟩)
    · exact ⟨[], p, ps, rfl, by simpa using h1, by simpa using h2, h3⟩
    · refine ⟨p :: b, q, a, rfl, ?_, ?_, h3⟩
      · simpa [Nat.add_assoc] using h1
      · simpa [add_assoc] using h2

theorem form_pathSum {ps : List (List (Node (Option K)))} (hp : ∀ p ∈ ps, ArgPath p) (hf : ∀ p ∈ ps, ∀ y ∈ p, ∀ x ∈ y.arguments, Fine x) :
    ∀ {h : Heap (Option K)} {n : Nat} {d : Node (Option K)}, HInv h n → Good .api h d → Fine d → (∀ p ∈ ps, ∀ y ∈ p, Good .api h y) →
      ((∃ p, pathSum d ps n = .error p) ↔ CancelsFrom d.form (ps.map pathForm)) := by
  induction ps with
  | nil =>
    intro h n d _ _ _ _
    simp only [pathSum, List.map_nil, cancelsFrom_nil, iff_false]
    rintro ⟨p, h⟩; cases h
  | cons p ps ih =>
    intro h n d hn hd hfd hps
    obtain ⟨hp1, hle1, hn1, _, hg1, -, -⟩ := spec_newConst (l := .api) (v := (one : Option K)) hn _ _ (newConst_eq one n)
    obtain ⟨⟨q, k2⟩, h2⟩ := onlyAdd_pathProd (l := .api) (by simp) (hp p (by simp)) hn1 hg1 fun y hy => (hps p (by simp) y hy).mono hle1
    obtain ⟨hp2, hle2, hn2, _, hg2⟩ := spec_pathProd hn1 hg1 (fun y hy => (hps p (by simp) y hy).mono hle1) q k2 h2
    obtain ⟨fq, eq⟩ := form_pathProd (hp p (by simp)) (fine_const n 1) (hf p (by simp)) h2
    have eq' : q.form = pathForm p := by rw [eq]; exact Form.one_mul _
    simp only [List.map_cons, cancelsFrom_cons, ← eq', pathSum]
    rw [M.bind_ok_eq (newConst_eq one n), M.bind_ok_eq h2, ← form_addN_error (n := k2) hfd fq]
    cases h3 : addN d q k2 with
    | error e =>
      constructor
      · rintro -; exact .inl ⟨_, rfl⟩
      · rintro -; exact ⟨e, by simp only [M.bind, h3]⟩
    | ok r =>
      obtain ⟨d', k3⟩ := r
      obtain ⟨hp3, hle3, hn3, _, hg3⟩ := spec_addN hn2 ((hd.mono hle1).mono hle2) hg2 d' k3 h3
      obtain ⟨fd, ed⟩ := form_addN hfd fq h3
      rw [M.bind_ok_eq h3, ih (fun p hp' => hp p (by simp [hp'])) (fun p hp' => hf p (by simp [hp'])) hn3 hg3 fd
        (fun p' hp' y hy => (((hps p' (by simp [hp']) y hy).mono hle1).mono hle2).mono hle3), ed]
      constructor
      · exact .inr
      · rintro (⟨p, h⟩ | h)
        · cases h
        · exact h

theorem form_pathSum_ok {ps : List (List (Node (Option K)))} (hp : ∀ p ∈ ps, ArgPath p) (hf : ∀ p ∈ ps, ∀ y ∈ p, ∀ x ∈ y.arguments, Fine x) :
    ∀ {n m : Nat} {d r : Node (Option K)}, Fine d → pathSum d ps n = .ok (r, m) →
      Fine r ∧ r.form = ⟨d.form.terms + ((ps.map pathForm).map Form.terms).sum, d.form.number + ((ps.map pathForm).map Form.number).sum⟩ := by
  induction ps with
  | nil => intro n m d r hd h; simp only [pathSum, M.pure_ok] at h; rw [h.1]; exact ⟨hd, by simp⟩
  | cons p ps ih =>
    intro n m d r hd h
    simp only [pathSum, M.bind_ok, newConst_ok] at h
    obtain ⟨k, k1, ⟨rfl, -⟩, q, k2, h2, d', k3, h3, h4⟩ := h
    obtain ⟨fq, eq⟩ := form_pathProd (hp p (by simp)) (fine_const n 1) (hf p (by simp)) h2
    have eq' : q.form = pathForm p := by rw [eq]; exact Form.one_mul _
    obtain ⟨fd, ed⟩ := form_addN hd fq h3
    obtain ⟨fr, er⟩ := ih (fun p hp' => hp p (by simp [hp'])) (fun p hp' => hf p (by simp [hp'])) fd h4
    refine ⟨fr, ?_⟩
    rw [er, ed, eq']
    simp [Nat.add_assoc, add_assoc]

end Verif
