import Verif.Proofs.PolyRep64
import Verif.Props.Diff

/-! # Polynomials with integer coefficients in double precision: products and derivatives -/

set_option linter.unusedSectionVars false

namespace Verif.P64

open MvPolynomial

variable [Libm]

/-! ## Products with a number -/

/-- `f` multiplies constants, terms and sums with `k`. -/
structure ScalesP (f : Node F64 → M (Node F64)) (k : ℤ) : Prop where
  atom : ∀ {a n b n'}, isAtom a = true → f a n = .ok (b, n') →
    (k = 0 ∧ IsZero b) ∨ (k = 1 ∧ b = a) ∨ (k ≠ 0 ∧ ∃ i j c, F64.HasValue c (k : ℚ) ∧ (b = .mul i (.const j c) a ∨ b = .mul i a (.const j c)))
  const : ∀ {i c n b n'} {q : ℤ}, F64.HasValue c (q : ℚ) → (k * q).natAbs ≤ 2 ^ 53 → f (.const i c) n = .ok (b, n') →
    ∃ j c', b = .const j c' ∧ c'.HasValue ((k * q : ℤ) : ℚ)
  sum : ∀ {i args n e n'}, f (.add i args) n = .ok (e, n') →
    (k = 0 ∧ IsZero e) ∨ (k = 1 ∧ e = .add i args) ∨ (k ≠ 0 ∧ ∃ bs n1 j, M.mapL f args n = .ok (bs, n1) ∧ e = .add j bs)

theorem eqz_int {c : F64} {k : ℤ} (hc : c.HasValue (k : ℚ)) : (c ==. zero) = true ↔ k = 0 := by rw [F64.eqz hc]; exact_mod_cast Iff.rfl
theorem eqo_int {c : F64} {k : ℤ} (hc : c.HasValue (k : ℚ)) : (c ==. one) = true ↔ k = 1 := by rw [F64.eqo hc]; exact_mod_cast Iff.rfl

theorem mul_int {c d : F64} {k q : ℤ} (hc : c.HasValue (k : ℚ)) (hd : d.HasValue (q : ℚ)) (h : (k * q).natAbs ≤ 2 ^ 53) :
    (c *. d).HasValue ((k * q : ℤ) : ℚ) := by
  have := isDouble_int h
  push_cast at this ⊢
  exact F64.mul_exact hc hd this

theorem isZero_zero (n : ℕ) : IsZero (.const n zero) := ⟨_, _, rfl, F64.zero_value⟩

theorem sMul_scalesP {c : F64} {k : ℤ} (hc : c.HasValue (k : ℚ)) : ScalesP (sMul c) k := by
  constructor
  · intro a n b n' ha hf
    have key : ∀ r : Node F64, (if c ==. zero then newConst zero else if c ==. one then M.pure r else M.bind (newConst c) fun k => newMul k r) n = .ok (b, n') →
        (k = 0 ∧ IsZero b) ∨ (k = 1 ∧ b = r) ∨ (k ≠ 0 ∧ ∃ i j c, F64.HasValue c (k : ℚ) ∧ (b = .mul i (.const j c) r ∨ b = .mul i r (.const j c))) := by
      intro r h
      split at h
      · rename_i h0
        rw [newConst_ok] at h
        exact .inl ⟨(eqz_int hc).1 h0, by rw [h.1]; exact isZero_zero _⟩
      have hk0 : k ≠ 0 := by rename_i h0; intro h1; exact h0 ((eqz_int hc).2 h1)
      split at h
      · rename_i h0
        rw [M.pure_ok] at h
        exact .inr (.inl ⟨(eqo_int hc).1 h0, h.1⟩)
      · rw [M.bind_ok] at h
        obtain ⟨kn, n1, hk, h⟩ := h
        rw [newConst_ok] at hk
        obtain ⟨rfl, -⟩ := hk
        rw [newMul_eq] at h
        cases h
        exact .inr (.inr ⟨hk0, _, _, c, hc, .inl rfl⟩)
    cases a <;> simp [isAtom] at ha
    all_goals exact key _ hf
  · intro j c' n b n' q hc' hd h
    simp only [sMul, newConst_ok] at h
    exact ⟨_, _, h.1, mul_int hc hc' hd⟩
  · intro j args n e n' h
    simp only [sMul, sMulL_mapLD] at h
    split at h
    · rename_i h0
      rw [newConst_ok] at h
      exact .inl ⟨(eqz_int hc).1 h0, by rw [h.1]; exact isZero_zero _⟩
    have hk0 : k ≠ 0 := by rename_i h0; intro h1; exact h0 ((eqz_int hc).2 h1)
    split at h
    · rename_i h0
      rw [M.pure_ok] at h
      exact .inr (.inl ⟨(eqo_int hc).1 h0, h.1⟩)
    · rw [M.bind_ok] at h
      obtain ⟨bs, n1, hm, h⟩ := h
      rw [newAdd_ok] at h
      exact .inr (.inr ⟨hk0, bs, n1, n1, hm, h.2.1⟩)

theorem mulS_scalesP {c : F64} {k : ℤ} (hc : c.HasValue (k : ℚ)) : ScalesP (mulS c) k := by
  constructor
  · intro a n b n' ha hf
    have key : ∀ r : Node F64, (if c ==. zero then newConst zero else if c ==. one then M.pure r else M.bind (newConst c) fun k => newMul r k) n = .ok (b, n') →
        (k = 0 ∧ IsZero b) ∨ (k = 1 ∧ b = r) ∨ (k ≠ 0 ∧ ∃ i j c, F64.HasValue c (k : ℚ) ∧ (b = .mul i (.const j c) r ∨ b = .mul i r (.const j c))) := by
      intro r h
      split at h
      · rename_i h0
        rw [newConst_ok] at h
        exact .inl ⟨(eqz_int hc).1 h0, by rw [h.1]; exact isZero_zero _⟩
      have hk0 : k ≠ 0 := by rename_i h0; intro h1; exact h0 ((eqz_int hc).2 h1)
      split at h
      · rename_i h0
        rw [M.pure_ok] at h
        exact .inr (.inl ⟨(eqo_int hc).1 h0, h.1⟩)
      · rw [M.bind_ok] at h
        obtain ⟨kn, n1, hk, h⟩ := h
        rw [newConst_ok] at hk
        obtain ⟨rfl, -⟩ := hk
        rw [newMul_eq] at h
        cases h
        exact .inr (.inr ⟨hk0, _, _, c, hc, .inr rfl⟩)
    cases a <;> simp [isAtom] at ha
    all_goals exact key _ hf
  · intro j c' n b n' q hc' hd h
    simp only [mulS, newConst_ok] at h
    exact ⟨_, _, h.1, by rw [mul_comm]; exact mul_int hc' hc (by rwa [mul_comm])⟩
  · intro j args n e n' h
    simp only [mulS, mulSL_mapLD] at h
    split at h
    · rename_i h0
      rw [newConst_ok] at h
      exact .inl ⟨(eqz_int hc).1 h0, by rw [h.1]; exact isZero_zero _⟩
    have hk0 : k ≠ 0 := by rename_i h0; intro h1; exact h0 ((eqz_int hc).2 h1)
    split at h
    · rename_i h0
      rw [M.pure_ok] at h
      exact .inr (.inl ⟨(eqo_int hc).1 h0, h.1⟩)
    · rw [M.bind_ok] at h
      obtain ⟨bs, n1, hm, h⟩ := h
      rw [newAdd_ok] at h
      exact .inr (.inr ⟨hk0, bs, n1, n1, hm, h.2.1⟩)

theorem mulCL_scalesP (i : ℕ) {c : F64} {k : ℤ} (hc : c.HasValue (k : ℚ)) : ScalesP (mulCL i c) k := by
  constructor
  · intro a n b n' ha hf
    have key : ∀ r : Node F64, (if c ==. zero then newConst zero else if c ==. one then M.pure r else newMul (.const i c) r) n = .ok (b, n') →
        (k = 0 ∧ IsZero b) ∨ (k = 1 ∧ b = r) ∨ (k ≠ 0 ∧ ∃ i j c, F64.HasValue c (k : ℚ) ∧ (b = .mul i (.const j c) r ∨ b = .mul i r (.const j c))) := by
      intro r h
      split at h
      · rename_i h0
        rw [newConst_ok] at h
        exact .inl ⟨(eqz_int hc).1 h0, by rw [h.1]; exact isZero_zero _⟩
      have hk0 : k ≠ 0 := by rename_i h0; intro h1; exact h0 ((eqz_int hc).2 h1)
      split at h
      · rename_i h0
        rw [M.pure_ok] at h
        exact .inr (.inl ⟨(eqo_int hc).1 h0, h.1⟩)
      · rw [newMul_eq] at h
        cases h
        exact .inr (.inr ⟨hk0, _, _, c, hc, .inl rfl⟩)
    cases a <;> simp [isAtom] at ha
    all_goals exact key _ hf
  · intro j c' n b n' q hc' hd h
    simp only [mulCL] at h
    split at h
    · rename_i h0
      rw [newConst_ok] at h
      refine ⟨_, _, h.1, ?_⟩
      have : k * q = 0 := by
        rw [Bool.or_eq_true] at h0
        rcases h0 with h0 | h0
        · simp [(eqz_int hc).1 h0]
        · simp [(eqz_int hc').1 h0]
      rw [this]
      simpa using F64.zero_value
    split at h
    · rename_i h0
      rw [M.pure_ok] at h
      exact ⟨_, _, h.1, by rw [(eqo_int hc).1 h0]; simpa using hc'⟩
    split at h
    · rename_i h0
      rw [M.pure_ok] at h
      exact ⟨_, _, h.1, by rw [(eqo_int hc').1 h0]; simpa using hc⟩
    · rw [newConst_ok] at h
      exact ⟨_, _, h.1, mul_int hc hc' hd⟩
  · intro j args n e n' h
    simp only [mulCL, mulCLL_mapLD] at h
    split at h
    · rename_i h0
      rw [newConst_ok] at h
      exact .inl ⟨(eqz_int hc).1 h0, by rw [h.1]; exact isZero_zero _⟩
    have hk0 : k ≠ 0 := by rename_i h0; intro h1; exact h0 ((eqz_int hc).2 h1)
    split at h
    · rename_i h0
      rw [M.pure_ok] at h
      exact .inr (.inl ⟨(eqo_int hc).1 h0, h.1⟩)
    · rw [M.bind_ok] at h
      obtain ⟨bs, n1, hm, h⟩ := h
      rw [newAdd_ok] at h
      exact .inr (.inr ⟨hk0, bs, n1, n1, hm, h.2.1⟩)

theorem mulCR_scalesP (i : ℕ) {c : F64} {k : ℤ} (hc : c.HasValue (k : ℚ)) : ScalesP (mulCR i c) k := by
  constructor
  · intro a n b n' ha hf
    have key : ∀ r : Node F64, (if c ==. zero then newConst zero else if c ==. one then M.pure r else newMul r (.const i c)) n = .ok (b, n') →
        (k = 0 ∧ IsZero b) ∨ (k = 1 ∧ b = r) ∨ (k ≠ 0 ∧ ∃ i j c, F64.HasValue c (k : ℚ) ∧ (b = .mul i (.const j c) r ∨ b = .mul i r (.const j c))) := by
      intro r h
      split at h
      · rename_i h0
        rw [newConst_ok] at h
        exact .inl ⟨(eqz_int hc).1 h0, by rw [h.1]; exact isZero_zero _⟩
      have hk0 : k ≠ 0 := by rename_i h0; intro h1; exact h0 ((eqz_int hc).2 h1)
      split at h
      · rename_i h0
        rw [M.pure_ok] at h
        exact .inr (.inl ⟨(eqo_int hc).1 h0, h.1⟩)
      · rw [newMul_eq] at h
        cases h
        exact .inr (.inr ⟨hk0, _, _, c, hc, .inr rfl⟩)
    cases a <;> simp [isAtom] at ha
    all_goals exact key _ hf
  · intro j c' n b n' q hc' hd h
    simp only [mulCR] at h
    split at h
    · rename_i h0
      rw [newConst_ok] at h
      refine ⟨_, _, h.1, ?_⟩
      have : k * q = 0 := by
        rw [Bool.or_eq_true] at h0
        rcases h0 with h0 | h0
        · simp [(eqz_int hc').1 h0]
        · simp [(eqz_int hc).1 h0]
      rw [this]
      simpa using F64.zero_value
    split at h
    · rename_i h0
      rw [M.pure_ok] at h
      exact ⟨_, _, h.1, by rw [(eqo_int hc').1 h0]; simpa using hc⟩
    split at h
    · rename_i h0
      rw [M.pure_ok] at h
      exact ⟨_, _, h.1, by rw [(eqo_int hc).1 h0]; simpa using hc'⟩
    · rw [newConst_ok] at h
      exact ⟨_, _, h.1, by rw [mul_comm]; exact mul_int hc' hc (by rwa [mul_comm])⟩
  · intro j args n e n' h
    simp only [mulCR, mulCRL_mapLD] at h
    split at h
    · rename_i h0
      rw [newConst_ok] at h
      exact .inl ⟨(eqz_int hc).1 h0, by rw [h.1]; exact isZero_zero _⟩
    have hk0 : k ≠ 0 := by rename_i h0; intro h1; exact h0 ((eqz_int hc).2 h1)
    split at h
    · rename_i h0
      rw [M.pure_ok] at h
      exact .inr (.inl ⟨(eqo_int hc).1 h0, h.1⟩)
    · rw [M.bind_ok] at h
      obtain ⟨bs, n1, hm, h⟩ := h
      rw [newAdd_ok] at h
      exact .inr (.inr ⟨hk0, bs, n1, n1, hm, h.2.1⟩)

theorem mapL_ne_nil {f : Node F64 → M (Node F64)} {as bs : List (Node F64)} (h : List.Forall₂ (fun a b => ∃ n n', f a n = .ok (b, n')) as bs) (ha : as ≠ []) :
    bs ≠ [] := by
  cases h with
  | nil => exact ha
  | cons _ _ => simp

/-- A product with a number that is not zero. -/
theorem scale_poly {f : Node F64 → M (Node F64)} {k : ℤ} (hf : ScalesP f k) (hk : k ≠ 0) (a : Node F64) :
    IntPoly a → SmallSum (C k.natAbs * absOf a) → ∀ {e : Node F64} {n n' : ℕ}, f a n = .ok (e, n') →
    IntPoly e ∧ polyOf e = C k * polyOf a ∧ absOf e = C k.natAbs * absOf a := by
  induction a using Node.ind_args with
  | step a ih =>
    intro ha hs e n n' h
    have harg := ha.arg
    have atom : isAtom a = true → IntPoly e ∧ polyOf e = C k * polyOf a ∧ absOf e = C k.natAbs * absOf a := by
      intro hat
      rcases hf.atom hat h with ⟨h0, -⟩ | ⟨rfl, rfl⟩ | ⟨-, i, j, c, hc, rfl | rfl⟩
      · exact absurd h0 hk
      · exact ⟨ha, by simp, by simp⟩
      · exact ⟨⟨⟨k, hk, hc⟩, ha⟩, by simp [polyOf, intOf_eq hc], by simp [absOf, intOf_eq hc]⟩
      · exact ⟨⟨ha, ⟨k, hk, hc⟩⟩, by simp [polyOf, intOf_eq hc, mul_comm], by simp [absOf, intOf_eq hc, mul_comm]⟩
    cases a
    case const i c =>
      obtain ⟨q, hq, hc⟩ := ha
      unfold SmallSum at hs
      simp only [absOf, intOf_eq hc, map_mul, eval_C, ← Int.natAbs_mul] at hs
      obtain ⟨j, c', rfl, hc'⟩ := hf.const hc hs h
      refine ⟨⟨k * q, mul_ne_zero hk hq, hc'⟩, ?_, ?_⟩
      · simp [polyOf, intOf_eq hc, intOf_eq hc']
      · simp [absOf, intOf_eq hc, intOf_eq hc', Int.natAbs_mul]
    case add i args =>
      rcases hf.sum h with ⟨h0, -⟩ | ⟨rfl, rfl⟩ | ⟨-, bs, n1, j, hm, rfl⟩
      · exact absurd h0 hk
      · exact ⟨ha, by simp, by simp⟩
      · have hF := M.mapL_ok_forall (P := fun a b => ∃ n n', f a n = .ok (b, n')) hm fun a _ b n m h => ⟨n, m, h⟩
        clear hm h atom
        have hne := mapL_ne_nil hF ha.1
        simp only [Node.arguments] at ih harg
        simp only [absOf, abss_eq] at hs
        have key : IntPoly.all bs ∧ polyOf.polys bs = C k * polyOf.polys args ∧ absOf.abss bs = C k.natAbs * absOf.abss args := by
          clear ha hne
          induction hF with
          | nil => exact ⟨trivial, by simp [polyOf.polys], by simp [absOf.abss]⟩
          | @cons a b as bs hb _ ihs =>
            obtain ⟨m, m', hb⟩ := hb
            simp only [List.map_cons, List.sum_cons, mul_add] at hs
            obtain ⟨h1, h2, h3⟩ := ih a (by simp) (harg a (by simp)) (Dom.small ⟨_, rfl⟩ hs) hb
            obtain ⟨g1, g2, g3⟩ := ihs (fun a ha => ih a (by simp [ha])) (fun a ha => harg a (by simp [ha])) (Dom.small ⟨_, add_comm _ _⟩ hs)
            exact ⟨⟨h1, g1⟩, by simp only [polyOf.polys, h2, g2]; ring, by simp only [absOf.abss, h3, g3]; ring⟩
        exact ⟨⟨hne, key.1⟩, key.2⟩
    all_goals exact atom rfl

/-- A product with a number. -/
theorem rep_scale {f : Node F64 → M (Node F64)} {k : ℤ} (hf : ScalesP f k) {a e : Node F64} {P : MvPolynomial ℕ ℤ} {A : MvPolynomial ℕ ℕ} {n n' : ℕ}
    (ha : Rep a P A) (hs : SmallSum (C k.natAbs * A)) (h : f a n = .ok (e, n')) : Rep e (C k * P) (C k.natAbs * A) := by
  rcases ha with ⟨⟨i, c, rfl, hc⟩, rfl⟩ | ⟨h1, rfl, h3⟩
  · obtain ⟨j, c', rfl, hc'⟩ := hf.const (q := 0) (by simpa using hc) (by simp) h
    exact .inl ⟨⟨j, c', rfl, by simpa using hc'⟩, by simp⟩
  · by_cases hk : k = 0
    · subst hk
      refine .inl ⟨?_, by simp⟩
      cases a
      case const i c =>
        obtain ⟨q, hq, hc⟩ := h1
        obtain ⟨j, c', rfl, hc'⟩ := hf.const hc (by simp) h
        exact ⟨j, c', rfl, by simpa using hc'⟩
      case add i args =>
        rcases hf.sum h with ⟨-, h0⟩ | ⟨h0, -⟩ | ⟨h0, -⟩
        · exact h0
        · exact absurd h0 (by norm_num)
        · exact absurd rfl h0
      all_goals
        rcases hf.atom rfl h with ⟨-, h0⟩ | ⟨h0, -⟩ | ⟨h0, -⟩
        · exact h0
        · exact absurd h0 (by norm_num)
        · exact absurd rfl h0
    · have hd := (Dom.refl (C k.natAbs)).mul h3
      obtain ⟨g1, g2, g3⟩ := scale_poly hf hk a h1 (hd.small hs) h
      exact .inr ⟨g1, g2, by rw [g3]; exact hd⟩

theorem negOne_int : F64.HasValue (negOne : F64) ((-1 : ℤ) : ℚ) := by simpa using F64.negOne_value

theorem rep_neg {a e : Node F64} {P : MvPolynomial ℕ ℤ} {A : MvPolynomial ℕ ℕ} {n n' : ℕ} (ha : Rep a P A) (hs : SmallSum A)
    (h : sMul negOne a n = .ok (e, n')) : Rep e (-P) A := by
  have := rep_scale (sMul_scalesP negOne_int) ha (by simpa using hs) h
  simpa using this

theorem mulN_const_right {a : Node F64} (ha : ∀ i c, a ≠ .const i c) (i : ℕ) (c : F64) : mulN a (.const i c) = mulCR i c a := by
  cases a <;> first | rfl | exact absurd rfl (ha _ _)

theorem rep_mulN {a b e : Node F64} {P Q : MvPolynomial ℕ ℤ} {A B : MvPolynomial ℕ ℕ} {n n' : ℕ} (ha : Rep a P A) (hb : Rep b Q B)
    (hs : SmallSum (A * B)) (h : mulN a b n = .ok (e, n')) : Rep e (P * Q) (A * B) := by
  by_cases hca : ∃ i c, a = .const i c
  · obtain ⟨i, c, rfl⟩ := hca
    obtain ⟨k, hc, rfl, hd⟩ := ha.of_const
    rw [mulN_const_leftD] at h
    have hd' := hd.mul (.refl B)
    exact (rep_scale (mulCL_scalesP i hc) hb (hd'.small hs) h).grow hd'
  · by_cases hcb : ∃ i c, b = .const i c
    · obtain ⟨i, c, rfl⟩ := hcb
      obtain ⟨k, hc, rfl, hd⟩ := hb.of_const
      rw [mulN_const_right (fun i c hc => hca ⟨i, c, hc⟩)] at h
      have hd' := hd.mul (.refl A)
      rw [mul_comm] at hs ⊢
      rw [mul_comm A B]
      exact (rep_scale (mulCR_scalesP i hc) ha (hd'.small hs) h).grow hd'
    · rw [mulN_general (fun i c hc => hca ⟨i, c, hc⟩) (fun i c hc => hcb ⟨i, c, hc⟩), newMul_eq] at h
      cases h
      rcases ha with ⟨⟨i, c, rfl, -⟩, -⟩ | ⟨h1, rfl, h3⟩
      · exact absurd ⟨i, c, rfl⟩ hca
      rcases hb with ⟨⟨i, c, rfl, -⟩, -⟩ | ⟨g1, rfl, g3⟩
      · exact absurd ⟨i, c, rfl⟩ hcb
      exact .inr ⟨⟨h1, g1⟩, rfl, h3.mul g3⟩

/-! ## Derivatives -/

/-- The partial derivative of a node by its argument `c`. -/
noncomputable def pP (e c : Node F64) : MvPolynomial ℕ ℤ :=
  match e with
  | .add .. => 1
  | .mul _ a b => if a.ptrEq c then polyOf b else polyOf a
  | _ => 0

/-- Its size. -/
noncomputable def pA (e c : Node F64) : MvPolynomial ℕ ℕ :=
  match e with
  | .add .. => 1
  | .mul _ a b => if a.ptrEq c then absOf b else absOf a
  | _ => 0

theorem pA_one {e c : Node F64} (he : IntPoly e) (hc : c ∈ e.arguments) : 1 ≤ eval (fun _ => 1) (pA e c) := by
  have harg := he.arg
  cases e
  case const => simp [Node.arguments] at hc
  case var => simp [Node.arguments] at hc
  case add => simp [pA]
  case cos => cases he
  case sin => cases he
  case mul i a b =>
    simp only [pA]
    split
    · exact one_le_abs (fun _ => le_rfl) b (harg b (by simp [Node.arguments]))
    · exact one_le_abs (fun _ => le_rfl) a (harg a (by simp [Node.arguments]))
  case div => cases he

theorem partialN_rep {e c p : Node F64} {n n' : ℕ} (he : IntPoly e) (hc : c ∈ e.arguments) (hp : partialN e c n = .ok (p, n')) :
    Rep p (pP e c) (pA e c) := by
  have harg := he.arg
  cases e
  case const => simp [Node.arguments] at hc
  case var => simp [Node.arguments] at hc
  case add i args =>
    simp only [Node.arguments] at hc
    have : args.any (fun a => a.ptrEq c) = true := List.any_eq_true.2 ⟨c, hc, ptrEq_refl c⟩
    simp only [partialN, this, if_true, newConst_ok] at hp
    obtain ⟨rfl, -⟩ := hp
    have := Rep.const (i := n) (c := one) (k := 1) (by simpa using F64.one_value)
    simpa [pP, pA] using this
  case cos => cases he
  case sin => cases he
  case mul i a b =>
    have ha : Rep a (polyOf a) (absOf a) := .inr ⟨harg a (by simp [Node.arguments]), rfl, .refl _⟩
    have hb : Rep b (polyOf b) (absOf b) := .inr ⟨harg b (by simp [Node.arguments]), rfl, .refl _⟩
    simp only [partialN] at hp
    simp only [pP, pA]
    split at hp
    · rename_i hpq
      rw [M.pure_ok] at hp
      simp only [hpq, if_true]
      rw [hp.1]
      exact hb
    · rename_i hpq
      split at hp
      · rw [M.pure_ok] at hp
        simp only [hpq]
        rw [hp.1]
        exact ha
      · rename_i hp'
        simp only [Node.arguments, List.mem_cons, List.not_mem_nil, or_false] at hc
        rcases hc with rfl | rfl
        · exact absurd (ptrEq_refl c) hpq
        · exact absurd (ptrEq_refl c) hp'
  case div => cases he

/-- The product along a path. -/
noncomputable def pathP : List (Node F64) → MvPolynomial ℕ ℤ
  | a :: b :: rest => pP a b * pathP (b :: rest)
  | _ => 1

/-- Its size. -/
noncomputable def pathA : List (Node F64) → MvPolynomial ℕ ℕ
  | a :: b :: rest => pA a b * pathA (b :: rest)
  | _ => 1

/-- Consecutive nodes of polynomials: the second is an argument of the first. -/
def PolyPath : List (Node F64) → Prop
  | a :: b :: rest => IntPoly a ∧ b ∈ a.arguments ∧ PolyPath (b :: rest)
  | _ => True

theorem pathA_one {p : List (Node F64)} (hp : PolyPath p) : 1 ≤ eval (fun _ => 1) (pathA p) := by
  induction p with
  | nil => simp [pathA]
  | cons a p ih =>
    cases p with
    | nil => simp [pathA]
    | cons b p =>
      obtain ⟨h1, h2, h3⟩ := hp
      simp only [pathA, map_mul]
      exact Nat.mul_pos (pA_one h1 h2) (ih h3)

theorem dfs_path (e : Node F64) (he : IntPoly e) : ∀ p ∈ dfs e, PolyPath p := by
  induction e using Node.ind_args with
  | step e ih =>
    intro p hp
    rw [dfs_eq] at hp
    split at hp
    · simp at hp; subst hp; trivial
    · simp only [List.mem_map, mem_dfsL] at hp
      obtain ⟨t, ⟨a, ha, ht⟩, rfl⟩ := hp
      have := ih a ha (he.arg a ha) t ht
      obtain ⟨t', rfl⟩ := dfs_head ht
      exact ⟨he, ha, this⟩

theorem pathProd_rep {path : List (Node F64)} (hp : PolyPath path) :
    ∀ {prod e : Node F64} {n m : ℕ} {P : MvPolynomial ℕ ℤ} {A : MvPolynomial ℕ ℕ}, Rep prod P A → SmallSum (A * pathA path) →
      pathProd prod path n = .ok (e, m) → Rep e (P * pathP path) (A * pathA path) := by
  induction path with
  | nil => intro prod e n m P A hr _ h; simp only [pathProd, M.pure_ok] at h; rw [h.1]; simpa [pathP, pathA] using hr
  | cons a path ih =>
    intro prod e n m P A hr hs h
    cases path with
    | nil => simp only [pathProd, M.pure_ok] at h; rw [h.1]; simpa [pathP, pathA] using hr
    | cons b path =>
      simp only [pathProd, M.bind_ok] at h
      obtain ⟨p, k1, h1, q, k2, h2, h3⟩ := h
      obtain ⟨ha, hb, hrest⟩ := hp
      simp only [pathP, pathA, ← mul_assoc] at hs ⊢
      have hone := pathA_one hrest
      have hs' : SmallSum (A * pA a b) := by
        unfold SmallSum at hs ⊢
        rw [map_mul] at hs
        exact le_trans (Nat.le_mul_of_pos_right _ hone) hs
      exact ih hrest (rep_mulN hr (partialN_rep ha hb h1) hs' h2) hs h3

theorem pathSum_rep {ps : List (List (Node F64))} (hp : ∀ p ∈ ps, PolyPath p) :
    ∀ {d e : Node F64} {n m : ℕ} {P : MvPolynomial ℕ ℤ} {A : MvPolynomial ℕ ℕ}, Rep d P A → SmallSum (A + (ps.map pathA).sum) →
      pathSum d ps n = .ok (e, m) → Rep e (P + (ps.map pathP).sum) (A + (ps.map pathA).sum) := by
  induction ps with
  | nil => intro d e n m P A hr _ h; simp only [pathSum, M.pure_ok] at h; rw [h.1]; simpa using hr
  | cons p ps ih =>
    intro d e n m P A hr hs h
    simp only [pathSum, M.bind_ok] at h
    obtain ⟨c, k0, h0, q, k1, h1, d', k2, h2, h3⟩ := h
    simp only [List.map_cons, List.sum_cons, ← add_assoc] at hs ⊢
    rw [newConst_ok] at h0
    obtain ⟨rfl, -⟩ := h0
    have hc := Rep.const (i := n) (c := one) (k := 1) (by simpa using F64.one_value)
    have hs1 : SmallSum (A + pathA p) := Dom.small ⟨_, rfl⟩ hs
    have hq := pathProd_rep (hp p (by simp)) hc (by simpa using (show Dom (pathA p) (A + pathA p) from ⟨A, add_comm _ _⟩).small hs1) h1
    simp only [Int.natAbs_one, C_1, one_mul] at hq
    exact ih (fun p' h' => hp p' (by simp [h'])) (rep_addN hr hq hs1 h2) hs h3

/-- Sums over the paths to `x`. -/
noncomputable def paths (x : Node F64) (ps : List (List (Node F64))) : MvPolynomial ℕ ℤ × MvPolynomial ℕ ℕ :=
  (((ps.filter (endsAt x)).map pathP).sum, ((ps.filter (endsAt x)).map pathA).sum)

/-- A further factor. -/
noncomputable def edge (e a : Node F64) (g : MvPolynomial ℕ ℤ × MvPolynomial ℕ ℕ) : MvPolynomial ℕ ℤ × MvPolynomial ℕ ℕ := (pP e a * g.1, pA e a * g.2)

theorem paths_append (x : Node F64) (ps qs : List (List (Node F64))) : paths x (ps ++ qs) = paths x ps + paths x qs := by simp [paths]

theorem paths_edge (x e a : Node F64) : paths x ((dfs a).map (e :: ·)) = edge e a (paths x (dfs a)) := by
  have : ∀ ps : List (List (Node F64)), (∀ p ∈ ps, ∃ t, p = a :: t) → paths x (ps.map (e :: ·)) = edge e a (paths x ps) := by
    intro ps
    induction ps with
    | nil => simp [paths, edge]
    | cons p ps ih =>
      intro h
      obtain ⟨r, rfl⟩ := h p (by simp)
      have ih' := ih fun p' h' => h p' (by simp [h'])
      simp only [paths, edge, List.map_cons, List.filter_cons, Prod.mk.injEq] at ih' ⊢
      obtain ⟨i1, i2⟩ := ih'
      rw [endsAt_cons (by simp)]
      cases endsAt x (a :: r)
      · exact ⟨i1, i2⟩
      · simp only [if_true, List.map_cons, List.sum_cons, pathP, pathA, i1, i2]
        exact ⟨by ring, by ring⟩
  exact this _ fun p hp => dfs_head hp

theorem paths_args (x e : Node F64) (as : List (Node F64)) :
    paths x ((dfs.dfsL as).map (e :: ·)) = (as.map fun a => edge e a (paths x (dfs a))).sum := by
  induction as with
  | nil => simp [dfs.dfsL, paths]
  | cons a as ih => simp only [dfs.dfsL, List.map_append, paths_append, ih, paths_edge, List.map_cons, List.sum_cons]; exact add_comm _ _

/-- The sum over the paths is the formal derivative. -/
theorem paths_eq {l : Level} {h : Heap F64} {x : Node F64} (hxv : x.isVar = true) (e : Node F64) (hg : Good l h e) (he : IntPoly e) :
    paths x (dfs e) = (pderiv x.id (polyOf e), pderiv x.id (absOf e)) := by
  induction e using Node.ind_args with
  | step e ih =>
    have ih' : ∀ a ∈ e.arguments, paths x (dfs a) = (pderiv x.id (polyOf a), pderiv x.id (absOf a)) := fun a ha => ih a ha (hg.arg ha) (he.arg a ha)
    clear ih
    rw [dfs_eq]
    cases e
    case const i v => simp [Node.isVar, Node.arguments, dfs.dfsL, paths, polyOf, absOf]
    case var i s k =>
      simp only [Node.isVar, if_true, paths]
      rw [List.filter_cons]
      simp only [endsAt, List.getLast?_singleton]
      cases x <;> simp only [Node.isVar, Bool.false_eq_true] at hxv
      rename_i j s' k'
      by_cases hx : i = j
      · subst hx
        simp [Node.ptrEq, Node.id, Node.tag, pathP, pathA, polyOf, absOf]
      · simp [Node.ptrEq, Node.id, Node.tag, polyOf, absOf, hx]
    case add i args =>
      simp only [Node.isVar, Bool.false_eq_true, if_false]
      rw [paths_args]
      simp only [Node.arguments] at ih' ⊢
      simp only [polyOf, absOf]
      have : ∀ as : List (Node F64), (∀ a ∈ as, paths x (dfs a) = (pderiv x.id (polyOf a), pderiv x.id (absOf a))) →
          (as.map fun a => edge (.add i args) a (paths x (dfs a))).sum = (pderiv x.id (polyOf.polys as), pderiv x.id (absOf.abss as)) := by
        intro as
        induction as with
        | nil => intro _; simp [polyOf.polys, absOf.abss]; rfl
        | cons a as ih =>
          intro hh
          rw [List.map_cons, List.sum_cons, ih fun a ha => hh a (by simp [ha]), hh a (by simp)]
          simp [edge, pP, pA, polyOf.polys, absOf.abss]
      exact this args ih'
    case cos => cases he
    case sin => cases he
    case mul i a b =>
      simp only [Node.isVar, Bool.false_eq_true, if_false]
      rw [paths_args]
      have hga : Good l h a := hg.arg (by simp [Node.arguments])
      have hgb : Good l h b := hg.arg (by simp [Node.arguments])
      simp [Node.arguments] at ih' ⊢
      simp only [ih', edge, polyOf, absOf, pP, pA, ptrEq_refl, if_true, pderiv_mul]
      by_cases hab : a.ptrEq b = true
      · have := (hga.ptrEq_iff hgb).1 hab
        subst this
        simp only [ptrEq_refl, if_true, Prod.mk_add_mk, Prod.mk.injEq]
        exact ⟨by ring, by ring⟩
      · simp only [hab, Bool.false_eq_true, if_false, Prod.mk_add_mk, Prod.mk.injEq]
        exact ⟨by ring, by ring⟩
    case div => cases he

/-- The derivative that the library builds. -/
theorem rep_derivative {l : Level} {h : Heap F64} {H : HashOrder} {e x d : Node F64} {n m : ℕ} {P : MvPolynomial ℕ ℤ} {A : MvPolynomial ℕ ℕ}
    (hg : Good l h e) (he : Rep e P A) (hs : SmallSum (pderiv x.id A)) (hd : derivative H e x n = .ok (d, m)) :
    Rep d (pderiv x.id P) (pderiv x.id A) := by
  have hx := derivative_isVar hd
  rw [derivative_eq hx] at hd
  rcases he with ⟨⟨i, c, rfl, hc⟩, rfl⟩ | ⟨h1, rfl, h3⟩
  · have : (dfs (.const i c : Node F64)).filter (endsAt x) = [] := by simp [dfs_eq, Node.isVar, Node.arguments, dfs.dfsL]
    rw [this] at hd
    simp only [pathSum, M.pure_ok] at hd
    exact .inl ⟨by rw [hd.1]; exact isZero_zero _, by simp⟩
  · have hp := paths_eq hx e hg h1
    simp only [paths, Prod.mk.injEq] at hp
    have hd' := h3.pderiv x.id
    have := pathSum_rep (fun p hp => dfs_path e h1 p (List.mem_filter.1 hp).1) (P := 0) (A := 0) (.inl ⟨isZero_zero _, rfl⟩)
      (by rw [hp.2, zero_add]; exact hd'.small hs) hd
    rw [hp.1, hp.2, zero_add, zero_add] at this
    exact this.grow hd'

theorem writes_rep {H : HashOrder} {e : Node F64} {P : MvPolynomial ℕ ℤ} {A : MvPolynomial ℕ ℕ} (h : WritesPoly H e P A) : Rep e P A := by
  induction h with
  | const hc h =>
    rw [newConst_ok] at h
    obtain ⟨rfl, -⟩ := h
    exact .const hc
  | var h =>
    rw [newVar_eq] at h
    cases h
    exact .inr ⟨trivial, rfl, .refl _⟩
  | add _ _ hm h iha ihb => exact rep_addN iha ihb hm h
  | addScalar _ hc hm h ih => exact rep_addS ih hc hm h
  | scalarAdd _ hc hm h ih => exact rep_sAdd ih hc hm h
  | @sub a b e P Q A B n n' _ _ hm h iha ihb =>
    unfold subN at h
    rw [M.bind_ok] at h
    obtain ⟨nb, n1, hnb, h⟩ := h
    rw [sub_eq_add_neg]
    exact rep_addN iha (rep_neg ihb ((show Dom B (A + B) from ⟨A, add_comm _ _⟩).small hm) hnb) hm h
  | @subScalar a e P A c n n' k _ hc hm h ih =>
    unfold subS at h
    rw [M.bind_ok] at h
    obtain ⟨kn, n1, hk, h⟩ := h
    rw [newConst_ok] at hk
    obtain ⟨rfl, -⟩ := hk
    rw [M.bind_ok] at h
    obtain ⟨nb, n2, hnb, h⟩ := h
    rw [sub_eq_add_neg]
    exact rep_addN ih (rep_neg (.const hc) ((show Dom (C k.natAbs) (A + C k.natAbs) from ⟨A, add_comm _ _⟩).small hm) hnb) hm h
  | @scalarSub a e P A c n n' k _ hc hm h ih =>
    unfold sSub at h
    rw [M.bind_ok] at h
    obtain ⟨kn, n1, hk, h⟩ := h
    rw [newConst_ok] at hk
    obtain ⟨rfl, -⟩ := hk
    rw [M.bind_ok] at h
    obtain ⟨nb, n2, hnb, h⟩ := h
    rw [sub_eq_add_neg]
    exact rep_addN (.const hc) (rep_neg ih ((show Dom A (C k.natAbs + A) from ⟨C k.natAbs, add_comm _ _⟩).small hm) hnb) hm h
  | neg _ hm h ih =>
    rw [negN_sMul] at h
    exact rep_neg ih hm h
  | mul _ _ hm h iha ihb => exact rep_mulN iha ihb hm h
  | @mulScalar a e P A c n n' k _ hc hm h ih =>
    rw [mul_comm A] at hm ⊢
    rw [mul_comm P]
    exact rep_scale (mulS_scalesP hc) ih hm h
  | scalarMul _ hc hm h ih => exact rep_scale (sMul_scalesP hc) ih hm h
  | derivative hr hreg _ hm h ih =>
    obtain ⟨hp, -, hg⟩ := hr.inv
    exact rep_derivative (hg _ hreg) ih hm h

end Verif.P64
