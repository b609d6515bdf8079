import Verif.Proofs.PolyDeriv64
import Verif.Proofs.RoundingGradStd64
import Verif.Proofs.ExactData

/-! # Integer polynomials in the standard problem: gradients, Jacobians and Hessians without rounding -/

set_option linter.unusedSectionVars false
set_option linter.unusedSimpArgs false

namespace Verif.P64

open MvPolynomial

variable [Libm]

theorem mem_vars_pderiv {i x : ℕ} {A : MvPolynomial ℕ ℕ} (h : i ∈ (pderiv x A).vars) : i ∈ A.vars := by
  rw [mem_vars] at h ⊢
  obtain ⟨d, hd, hi⟩ := h
  rw [mem_support_iff, coeff_pderiv] at hd
  refine ⟨d + Finsupp.single x 1, ?_, ?_⟩
  · rw [mem_support_iff]
    intro h0
    rw [h0] at hd
    simp at hd
  · rw [Finsupp.mem_support_iff] at hi ⊢
    rw [Finsupp.add_apply]
    omega

theorem pderiv_swap {R : Type} [CommSemiring R] (x y : ℕ) (B : MvPolynomial ℕ R) : pderiv y (pderiv x B) = pderiv x (pderiv y B) := by
  ext d
  rw [coeff_pderiv, coeff_pderiv, coeff_pderiv, coeff_pderiv, add_right_comm]
  by_cases h : x = y
  · subst h; rfl
  · have h' : y ≠ x := fun h' => h h'.symm
    simp only [Finsupp.add_apply, Finsupp.single_eq_of_ne h, Finsupp.single_eq_of_ne h', add_zero]
    ring

/-- The variables of the size occur. -/
theorem vars_absOf (e : Node F64) : ∀ i ∈ (absOf e).vars, ∃ y, y.isVar = true ∧ Occurs y e ∧ y.id = i := by
  induction e using Node.ind_args with
  | step e ih =>
    intro i hi
    cases e with
    | const j c =>
      simp only [absOf, vars_C] at hi
      simp at hi
    | var j s k =>
      simp only [absOf, vars_X, Finset.mem_singleton] at hi
      exact ⟨_, rfl, .refl _, hi.symm⟩
    | add j args =>
      simp only [absOf, abss_eq] at hi
      have : ∃ a ∈ args, i ∈ (absOf a).vars := by
        clear ih
        induction args with
        | nil => simp at hi
        | cons a as ih' =>
          simp only [List.map_cons, List.sum_cons] at hi
          rcases Finset.mem_union.1 (vars_add_subset _ _ hi) with h | h
          · exact ⟨a, by simp, h⟩
          · obtain ⟨b, hb, hb'⟩ := ih' h
            exact ⟨b, by simp [hb], hb'⟩
      obtain ⟨a, ha, hia⟩ := this
      obtain ⟨y, h1, h2, h3⟩ := ih a (by simpa [Node.arguments] using ha) i hia
      exact ⟨y, h1, .arg (by simpa [Node.arguments] using ha) h2, h3⟩
    | mul j a b =>
      simp only [absOf] at hi
      rcases Finset.mem_union.1 (vars_mul _ _ hi) with h | h
      · obtain ⟨y, h1, h2, h3⟩ := ih a (by simp [Node.arguments]) i h
        exact ⟨y, h1, .arg (by simp [Node.arguments]) h2, h3⟩
      · obtain ⟨y, h1, h2, h3⟩ := ih b (by simp [Node.arguments]) i h
        exact ⟨y, h1, .arg (by simp [Node.arguments]) h2, h3⟩
    | cos => simp [absOf] at hi
    | sin => simp [absOf] at hi
    | div => simp [absOf] at hi

/-- A size in which only the variables occur that occur in the expression. -/
theorem Rep.tight {e : Node F64} {P : MvPolynomial ℕ ℤ} {A : MvPolynomial ℕ ℕ} (h : Rep e P A) :
    ∃ B, Dom B A ∧ Rep e P B ∧ ∀ i ∈ B.vars, ∃ y, y.isVar = true ∧ Occurs y e ∧ y.id = i := by
  rcases h with ⟨h1, h2⟩ | ⟨h1, h2, h3⟩
  · exact ⟨0, .zero _, .inl ⟨h1, h2⟩, by simp⟩
  · exact ⟨absOf e, h3, .inr ⟨h1, h2, .refl _⟩, vars_absOf e⟩

/-- A variable that does not occur. -/
theorem pderiv_absent {x : ℕ} (e : Node F64) (h : ∀ y, y.isVar = true → Occurs y e → y.id ≠ x) : pderiv x (polyOf e) = 0 := by
  induction e using Node.ind_args with
  | step e ih =>
    have ih' : ∀ a ∈ e.arguments, pderiv x (polyOf a) = 0 := fun a ha => ih a ha fun y hy ho => h y hy (.arg ha ho)
    cases e with
    | const => simp [polyOf]
    | var i s k =>
      have := h _ rfl (.refl _)
      simp only [Node.id] at this
      simp only [polyOf]
      exact pderiv_X_of_ne this
    | add i args =>
      simp only [Node.arguments] at ih'
      simp only [polyOf, polys_eq]
      clear h ih
      induction args with
      | nil => simp
      | cons a as ih2 =>
        simp only [List.map_cons, List.sum_cons, map_add]
        rw [ih' a (by simp), ih2 fun b hb => ih' b (by simp [hb]), add_zero]
    | mul i a b => simp only [polyOf, pderiv_mul, ih' a (by simp [Node.arguments]), ih' b (by simp [Node.arguments])]; simp
    | cos => simp [polyOf]
    | sin => simp [polyOf]
    | div => simp [polyOf]

theorem Rep.absent {e : Node F64} {P : MvPolynomial ℕ ℤ} {A : MvPolynomial ℕ ℕ} (hr : Rep e P A) {x : ℕ}
    (h : ∀ y, y.isVar = true → Occurs y e → y.id ≠ x) : pderiv x P = 0 := by
  rcases hr with ⟨-, rfl⟩ | ⟨-, rfl, -⟩
  · simp
  · exact pderiv_absent e h

/-- The coefficient of a variable in an affine expression. -/
theorem coef_exact {l : Level} (hl : l ≠ .raw) {hp : Heap F64} {x : Node F64} (hx : x.isVar = true) (hgx : Good l hp x) (e : Node F64) :
    Good l hp e → Aff e → IntPoly e → SmallSum (pderiv x.id (absOf e)) →
    ∃ k : ℤ, (coefInD x e).HasValue (k : ℚ) ∧ pderiv x.id (polyOf e) = C k ∧ Dom (C k.natAbs) (pderiv x.id (absOf e)) := by
  induction e using Node.ind_args with
  | step e ih =>
    intro hg ha hi hs
    have hconst : ∀ b ∈ e.arguments, b.stdProperties.a = [] → ∃ i c, b = .const i c := fun b hb h0 => by
      have := ((hg.arg hb).empty_iff hl).1 h0
      cases b <;> simp [Node.isConstant] at this
      exact ⟨_, _, rfl⟩
    unfold Aff at ha
    cases e
    case const i c => exact ⟨0, by rw [Int.cast_zero]; exact F64.zero_value, by simp [polyOf], by simpa using Dom.zero _⟩
    case var i s k =>
      by_cases hid : i = x.id
      · have : (Node.var i s k : Node F64) = x := Good.eq_of_id hg hgx hid
        subst this
        refine ⟨1, ?_, by simp [polyOf, Node.id], by simp [absOf, Node.id]; exact .refl _⟩
        show F64.HasValue ((getN (Node.stdProperties (.var i s k : Node F64)).a (.var i s k)).getD zero) _
        simp [Node.stdProperties, getN, ptrEq_refl]
        exact F64.one_value
      · refine ⟨0, ?_, ?_, by simpa using Dom.zero _⟩
        · show F64.HasValue ((getN (Node.stdProperties (.var i s k : Node F64)).a x).getD zero) _
          have : (Node.var i s k : Node F64).ptrEq x = false := by
            rw [← Bool.not_eq_true, hg.ptrEq_iff hgx]
            rintro rfl
            exact hid rfl
          simp [Node.stdProperties, getN, this]
          exact F64.zero_value
        · simp only [polyOf, C_0]
          exact pderiv_X_of_ne hid
    case add i args =>
      have hall := all_iff.1 hi.2
      simp only [Node.arguments] at ih
      simp only [absOf, polyOf, abss_eq, polys_eq] at hs ⊢
      have key : ∀ as : List (Node F64), (∀ a ∈ as, a ∈ args) → ∀ {acc : Prop' F64} {k0 : ℤ} {A0 : MvPolynomial ℕ ℕ}, (acc.coefD x).HasValue (k0 : ℚ) → Dom (C k0.natAbs) A0 →
          SmallSum (A0 + pderiv x.id (as.map absOf).sum) →
          ∃ k : ℤ, ((Node.stdProperties.addProps acc as).coefD x).HasValue ((k0 + k : ℤ) : ℚ) ∧ pderiv x.id (as.map polyOf).sum = C k ∧
            Dom (C k.natAbs) (pderiv x.id (as.map absOf).sum) := by
        intro as
        induction as with
        | nil => intro _ acc k0 A0 h0 _ _; exact ⟨0, by simpa [Node.stdProperties.addProps] using h0, by simp, by simpa using Dom.zero _⟩
        | cons a as ih2 =>
          intro hm acc k0 A0 h0 hd hsm
          simp only [List.map_cons, List.sum_cons, map_add] at hsm ⊢
          have ham := hm a (by simp)
          have hda : Dom (pderiv x.id (absOf a)) (A0 + (pderiv x.id (absOf a) + pderiv x.id (as.map absOf).sum)) :=
            ⟨A0 + pderiv x.id (as.map absOf).sum, by ring⟩
          obtain ⟨k1, h1, h2, h3⟩ := ih a ham (hg.arg (by simpa [Node.arguments] using ham)) (aff_add.1 ha a ham) (hall a ham) (hda.small hsm)
          have hle : (k0 + k1).natAbs ≤ k0.natAbs + k1.natAbs := Int.natAbs_add_le _ _
          have hd01 : Dom (C (k0 + k1).natAbs) (A0 + pderiv x.id (absOf a)) := by
            refine Dom.trans (Dom.ofLe hle) ?_
            rw [C_add]
            exact hd.add h3
          have hsm' : SmallSum (A0 + pderiv x.id (absOf a) + pderiv x.id (as.map absOf).sum) := by rw [add_assoc]; exact hsm
          have hdbl : IsDouble ((k0 : ℚ) + k1) := by
            have := isDouble_int (k := k0 + k1) (by
              have := (hd01.trans ⟨_, rfl⟩ : Dom _ _).small hsm'
              simpa [SmallSum] using this)
            push_cast at this
            exact this
          have hnew : (Prop'.coefD ⟨acc.affine && a.stdProperties.affine, a.stdProperties.a.foldl (fun m e => addToN m e.1 e.2) acc.a, acc.b +. a.stdProperties.b⟩ x).HasValue
              ((k0 + k1 : ℤ) : ℚ) := by
            unfold Prop'.coefD
            simp only
            rw [foldl_addToN, getN_foldUpd (stdProperties_keys a).1]
            push_cast
            exact merge_exact h0 h1 hdbl
          obtain ⟨k2, h4, h5, h6⟩ := ih2 (fun b hb => hm b (by simp [hb])) hnew hd01 hsm'
          refine ⟨k1 + k2, ?_, by rw [h2, h5, C_add], ?_⟩
          · simp only [Node.stdProperties.addProps]
            rw [← add_assoc]
            exact h4
          · refine Dom.trans (Dom.ofLe (Int.natAbs_add_le _ _)) ?_
            rw [C_add]
            exact h3.add h6
      obtain ⟨k, h1, h2, h3⟩ := key args (fun _ h => h) (acc := ⟨true, [], zero⟩) (k0 := 0) (A0 := 0) (by rw [Int.cast_zero]; exact F64.zero_value) (by simpa using Dom.refl 0)
        (by rw [zero_add]; exact hs)
      rw [zero_add] at h1
      exact ⟨k, h1, h2, h3⟩
    case cos => cases hi
    case sin => cases hi
    case div => cases hi
    case mul i a b =>
      simp only [Node.stdProperties, Bool.or_eq_true, Bool.and_eq_true, List.isEmpty_iff] at ha
      simp only [Node.arguments, List.mem_cons, List.not_mem_nil, or_false] at hconst ih
      obtain ⟨hia, hib⟩ := hi
      simp only [absOf, polyOf] at hs ⊢
      have key : ∀ {d : Node F64} {c : F64} {j : ℕ}, IntPoly (.const j c) → SmallSum (C (intOf c).natAbs * pderiv x.id (absOf d)) →
          (SmallSum (pderiv x.id (absOf d)) → ∃ k : ℤ, (coefInD x d).HasValue (k : ℚ) ∧ pderiv x.id (polyOf d) = C k ∧ Dom (C k.natAbs) (pderiv x.id (absOf d))) →
          ∃ k : ℤ, c.HasValue ((intOf c : ℤ) : ℚ) ∧ (coefInD x d).HasValue (k : ℚ) ∧ IsDouble (((intOf c : ℤ) : ℚ) * (k : ℚ)) ∧
            C (intOf c) * pderiv x.id (polyOf d) = C (intOf c * k) ∧ Dom (C (intOf c * k).natAbs) (C (intOf c).natAbs * pderiv x.id (absOf d)) := by
        intro d c j ⟨q, hq0, hq⟩ hsm h
        have hqe : intOf c = q := intOf_eq hq
        rw [hqe] at hsm ⊢
        obtain ⟨k, h1, h2, h3⟩ := h (by
          refine Dom.small ?_ hsm
          have : 1 ≤ q.natAbs := by omega
          refine ⟨C (q.natAbs - 1) * pderiv x.id (absOf d), ?_⟩
          nth_rw 2 [← one_mul (pderiv x.id (absOf d))]
          rw [← add_mul, ← C_1, ← C_add]
          congr 2
          omega)
        have hd : Dom (C (q * k).natAbs) (C q.natAbs * pderiv x.id (absOf d)) := by
          rw [Int.natAbs_mul, C_mul]
          exact (Dom.refl _).mul h3
        refine ⟨k, hq, h1, ?_, by rw [h2, C_mul], hd⟩
        have := isDouble_int (k := q * k) (by
          have := hd.small hsm
          simpa [SmallSum] using this)
        push_cast at this
        exact this
      rcases ha with ⟨ha, hb⟩ | ⟨hb, ha⟩
      · obtain ⟨j, c, rfl⟩ := hconst b (.inr rfl) hb
        simp only [absOf, polyOf, pderiv_mul, pderiv_C, mul_zero, add_zero] at hs ⊢
        obtain ⟨k, h1, h2, h3, h4, h5⟩ := key (d := a) hib (by rw [mul_comm]; exact hs) (ih a (.inl rfl) (hg.arg (by simp [Node.arguments])) ha hia)
        refine ⟨intOf c * k, ?_, by rw [mul_comm]; exact h4, by rw [mul_comm (pderiv _ _)]; exact h5⟩
        push_cast
        exact ExEv.mulR (ev := coefInD x) i j h1 h2 h3
      · obtain ⟨j, c, rfl⟩ := hconst a (.inl rfl) ha
        simp only [absOf, polyOf, pderiv_mul, pderiv_C, zero_mul, zero_add] at hs ⊢
        obtain ⟨k, h1, h2, h3, h4, h5⟩ := key (d := b) hia hs (ih b (.inr rfl) (hg.arg (by simp [Node.arguments])) hb hib)
        refine ⟨intOf c * k, ?_, h4, h5⟩
        push_cast
        exact ExEv.mulL (ev := coefInD x) i j h1 h2 h3

/-- The derivatives that the library builds. -/
theorem rep_derivatives {l : Level} {hp : Heap F64} {H : HashOrder} {e : Node F64} {vars : List (Node F64)} {ds : List (Node F64 × Node F64)} {n m : ℕ}
    {P : MvPolynomial ℕ ℤ} {A : MvPolynomial ℕ ℕ} (hg : Good l hp e) (he : Rep e P A) (h : derivatives H e vars n = .ok (ds, m)) {p : Node F64 × Node F64} (hp' : p ∈ ds)
    (hs : SmallSum (pderiv p.1.id A)) : Rep p.2 (pderiv p.1.id P) (pderiv p.1.id A) := by
  obtain ⟨hvars, vs, hvs, hmap⟩ := derivatives_ok h
  have hall := M.mapL_ok_forall hmap (P := fun v q => q.1 = v ∧ ∃ n0 k k', pathSum (.const n0 zero) ((dfs e).filter (endsAt v)) k = .ok (q.2, k')) (by
    intro v _ q n m hq
    simp only [M.bind_ok, newConst_ok, M.pure_ok] at hq
    obtain ⟨d0, k, ⟨rfl, rfl⟩, d, k', hd, rfl, rfl⟩ := hq
    exact ⟨rfl, _, _, _, hd⟩)
  obtain ⟨v, hvv, h1, n0, k, k', hd⟩ := derivatives_val.forall₂_mem_right hall _ hp'
  subst h1
  have hx : p.1.isVar = true := hvars p.1 (setOf_mem (hvs.mem_iff.1 hvv))
  rcases he with ⟨⟨i, c, rfl, hc⟩, rfl⟩ | ⟨h1, rfl, h3⟩
  · have : (dfs (.const i c : Node F64)).filter (endsAt p.1) = [] := by simp [dfs_eq, Node.isVar, Node.arguments, dfs.dfsL]
    rw [this] at hd
    simp only [pathSum, M.pure_ok] at hd
    exact .inl ⟨by rw [hd.1]; exact isZero_zero _, by simp⟩
  · have hpe := paths_eq hx e hg h1
    simp only [paths, Prod.mk.injEq] at hpe
    have hd' := h3.pderiv p.1.id
    have := pathSum_rep (fun p hp => dfs_path e h1 p (List.mem_filter.1 hp).1) (P := 0) (A := 0) (.inl ⟨isZero_zero _, rfl⟩)
      (by rw [hpe.2, zero_add]; exact hd'.small hs) hd
    rw [hpe.1, hpe.2, zero_add, zero_add] at this
    exact this.grow hd'

section
variable {H : HashOrder} {l : Level} {hp : Heap F64} {e : Node F64} {P : MvPolynomial ℕ ℤ} {A : MvPolynomial ℕ ℕ} {n m : ℕ} {c : NodeComp F64}

theorem getN_id {ds : List (Node F64 × Node F64)} {x d : Node F64} (h : getN ds x = some d) : ∃ p ∈ ds, p.2 = d ∧ p.1.id = x.id := by
  obtain ⟨y, hy, hyx⟩ := getN_some_iff h
  refine ⟨_, hy, rfl, ?_⟩
  simp only [Node.ptrEq, Bool.and_eq_true, beq_iff_eq] at hyx
  exact hyx.2

/-- The first derivatives among the components. -/
theorem gphi_exact (hl : l ≠ .raw) (hg : Good l hp e) (he : Rep e P A) (h : e.stdComponents H n = .ok (c, m)) {p : Node F64 × Node F64} (hp' : p ∈ c.gphi)
    (hs : SmallSum (pderiv p.1.id A)) : Rep p.2 (pderiv p.1.id P) (pderiv p.1.id A) := by
  have hkeys := stdProperties_keys e
  have hmem : p.1 ∈ keysN e.stdProperties.a := (stdComponents_gphi h).mem_iff.1 (List.mem_map.2 ⟨p, hp', rfl⟩)
  obtain ⟨hv, ho⟩ := hkeys.2.1 p.1 hmem
  by_cases ha : Aff e
  · obtain ⟨-, -, -, es, hpe, hf⟩ := stdComponents_affine h ha
    obtain ⟨kv, hkv, h1, i, h2⟩ := derivatives_val.forall₂_mem_right hf p hp'
    have hin := hpe.mem_iff.1 hkv
    rcases he with ⟨⟨j, v, rfl, -⟩, -⟩ | ⟨he1, rfl, he3⟩
    · simp [Node.stdProperties] at hin
    · have hd := he3.pderiv p.1.id
      obtain ⟨k, h3, h4, h5⟩ := coef_exact hl hv (hg.sub ho) e hg ha he1 (hd.small hs)
      rw [h2, h4]
      have : getN e.stdProperties.a p.1 = some kv.2 := getN_mem hkeys.1 (by rw [h1]; exact hin)
      have hc : coefInD p.1 e = kv.2 := by
        unfold coefInD Prop'.coefD
        rw [this]; rfl
      rw [hc] at h3
      exact (Rep.const h3).grow (h5.trans hd)
  · obtain ⟨-, -, vars, derivs, k1, k2, hpe, hdv, h3⟩ := stdComponents_nonaffine h ha
    obtain ⟨q, hq, h1, h2⟩ := getN_id ((hessLoop_ok h3).2.1 p hp')
    rw [← h2] at hs ⊢
    rw [← h1]
    exact rep_derivatives hg he hdv hq hs

/-- A variable without an entry. -/
theorem gphi_absent (hg : Good l hp e) (he : Rep e P A) (h : e.stdComponents H n = .ok (c, m)) {x : Node F64} (hgx : Good l hp x)
    (hno : ∀ q ∈ c.gphi, q.1 ≠ x) (hgk : ∀ q ∈ c.gphi, Good l hp q.1) : pderiv x.id P = 0 := by
  refine he.absent fun y hy ho hid => ?_
  have : y = x := Good.eq_of_id (hg.sub ho) hgx hid
  subst this
  obtain ⟨z, hz, hzy⟩ := (stdProperties_keys e).2.2 y hy ho
  obtain ⟨q, hq, rfl⟩ := List.mem_map.1 ((stdComponents_gphi h).mem_iff.2 hz)
  exact hno q hq (((hgk q hq).ptrEq_iff hgx).1 hzy)

/-- The second derivatives among the components. -/
theorem hphi_exact (hg : Good l hp e) (he : Rep e P A) (h : e.stdComponents H n = .ok (c, m)) (hgg : ∀ q ∈ c.gphi, Good l hp q.2)
    {p : Node F64 × Node F64 × Node F64} (hp' : p ∈ c.hphi) (hs1 : SmallSum (pderiv p.1.id A)) (hs2 : SmallSum (pderiv p.2.1.id (pderiv p.1.id A))) :
    Rep p.2.2 (pderiv p.2.1.id (pderiv p.1.id P)) (pderiv p.2.1.id (pderiv p.1.id A)) := by
  by_cases ha : Aff e
  · rw [(stdComponents_affine h ha).2.2.1] at hp'; simp at hp'
  · obtain ⟨-, -, vars, derivs, k1, k2, hpe, hdv, h3⟩ := stdComponents_nonaffine h ha
    obtain ⟨l1, l2, l3, -, -⟩ := hessLoop_ok h3
    obtain ⟨hv1, -, d, dd, vs', k, k', hd1, hd2, hd3⟩ := l3 p hp'
    obtain ⟨q, hq, rfl, hq2⟩ := getN_id hd1
    have hrep : Rep q.2 (pderiv p.1.id P) (pderiv p.1.id A) := by
      rw [← hq2] at hs1 ⊢
      exact rep_derivatives hg he hdv hq hs1
    have hgood : Good l hp q.2 := by
      rw [← l1] at hv1
      obtain ⟨g, hg1, hg2⟩ := List.mem_map.1 hv1
      have := l2 g hg1
      rw [hg2, hd1, Option.some.injEq] at this
      rw [this]
      exact hgg g hg1
    obtain ⟨s, hs, h1, h2⟩ := getN_id hd3
    rw [← h2] at hs2 ⊢
    rw [← h1]
    exact rep_derivatives hgood hrep hd2 hs hs2

/-- A pair of variables without an entry. -/
theorem hphi_absent (hl : l ≠ .raw) (hg : Good l hp e) (he : Rep e P A) (h : e.stdComponents H n = .ok (c, m)) (hgg : ∀ q ∈ c.gphi, Good l hp q.2)
    {x y : Node F64} (hgx : Good l hp x) (hgy : Good l hp y) (hno : ∀ q ∈ c.hphi, ¬ ((q.1 = x ∧ q.2.1 = y) ∨ (q.1 = y ∧ q.2.1 = x)))
    (hgk : ∀ q ∈ c.gphi, Good l hp q.1) (hsx : SmallSum (pderiv x.id A)) (hsy : SmallSum (pderiv y.id A)) (hs : SmallSum (pderiv y.id (pderiv x.id A))) :
    pderiv y.id (pderiv x.id P) = 0 := by
  have comm : ∀ {R : Type} [CommSemiring R] (B : MvPolynomial ℕ R), pderiv y.id (pderiv x.id B) = pderiv x.id (pderiv y.id B) := by
    intro R _ B
    exact pderiv_swap _ _ _
  by_cases hx : ∃ q ∈ c.gphi, q.1 = x
  swap
  · rw [gphi_absent hg he h hgx (fun q hq hqx => hx ⟨q, hq, hqx⟩) hgk, map_zero]
  by_cases hy : ∃ q ∈ c.gphi, q.1 = y
  swap
  · rw [comm, gphi_absent hg he h hgy (fun q hq hqy => hy ⟨q, hq, hqy⟩) hgk, map_zero]
  by_cases ha : Aff e
  · have : ∃ k : ℤ, pderiv x.id P = C k := by
      obtain ⟨q, hq, rfl⟩ := hx
      have hmem : q.1 ∈ keysN e.stdProperties.a := (stdComponents_gphi h).mem_iff.1 (List.mem_map.2 ⟨q, hq, rfl⟩)
      obtain ⟨hv, ho⟩ := (stdProperties_keys e).2.1 q.1 hmem
      rcases he with ⟨-, rfl⟩ | ⟨he1, rfl, he3⟩
      · exact ⟨0, by simp⟩
      · obtain ⟨k, -, h4, -⟩ := coef_exact hl hv (hg.sub ho) e hg ha he1 ((he3.pderiv _).small hsx)
        exact ⟨k, h4⟩
    obtain ⟨k, hk⟩ := this
    rw [hk, pderiv_C]
  · obtain ⟨-, -, vars, derivs, k1, k2, hpe, hdv, h3⟩ := stdComponents_nonaffine h ha
    obtain ⟨l1, l2, -, l4, -⟩ := hessLoop_ok h3
    have hmem : ∀ {z : Node F64}, (∃ q ∈ c.gphi, q.1 = z) → z ∈ vars := by
      rintro z ⟨q, hq, rfl⟩
      rw [← l1]
      exact List.mem_map_of_mem hq
    obtain ⟨w1, w2, d, dd, vs', k, k', f, hw, hd1, hd2, hd3, hd4⟩ := l4 x y (hmem hx) (hmem hy)
    have hz : f.isConstVal zero = true := hd4.resolve_right fun hin => hno _ hin hw
    have hs1 : SmallSum (pderiv w1.id A) := by rcases hw with ⟨rfl, -⟩ | ⟨rfl, -⟩ <;> assumption
    have hs2 : SmallSum (pderiv w2.id (pderiv w1.id A)) := by
      rcases hw with ⟨rfl, rfl⟩ | ⟨rfl, rfl⟩
      · exact hs
      · rw [← comm]; exact hs
    have hv1 : w1 ∈ vars := by rcases hw with ⟨rfl, -⟩ | ⟨rfl, -⟩ <;> exact hmem (by assumption)
    obtain ⟨q, hq, rfl, hq2⟩ := getN_id hd1
    have hrep : Rep q.2 (pderiv w1.id P) (pderiv w1.id A) := by
      rw [← hq2] at hs1 ⊢
      exact rep_derivatives hg he hdv hq hs1
    have hgood : Good l hp q.2 := by
      rw [← l1] at hv1
      obtain ⟨g, hg1, hg2⟩ := List.mem_map.1 hv1
      have := l2 g hg1
      rw [hg2, hd1, Option.some.injEq] at this
      rw [this]
      exact hgg g hg1
    obtain ⟨s, hs', h1, h2⟩ := getN_id hd3
    have hfin : Rep f (pderiv w2.id (pderiv w1.id P)) (pderiv w2.id (pderiv w1.id A)) := by
      rw [← h2] at hs2 ⊢
      rw [← h1]
      exact rep_derivatives hgood hrep hd2 hs' hs2
    have h0 := isZero_of hfin hz
    rcases hw with ⟨rfl, rfl⟩ | ⟨rfl, rfl⟩
    · exact h0
    · rw [comm]; exact h0

end

end Verif.P64
