import Verif.Proofs.RoundingGrad64
import Verif.Proofs.RoundingStd64

/-! # Coefficients of affine expressions are derivatives, in double precision -/

set_option linter.unusedSectionVars false

namespace Verif.R64

variable [Libm] {σ : Env F64} {t : ℕ → ℝ} {κ : ℕ}

/-- Every product has at least size one. -/
def GOk (g : GradSize) : Prop := (g.terms : ℝ) ≤ g.size ∧ (g.terms = 0 → g.size = 0 ∧ g.ops = 0)

theorem GOk.none : GOk .none := by simp [GOk, GradSize.none]

theorem GOk.nonneg {g : GradSize} (h : GOk g) : 0 ≤ g.size := le_trans (Nat.cast_nonneg _) h.1

theorem GOk.add {a b : GradSize} (ha : GOk a) (hb : GOk b) : GOk (a.add b) := by
  refine ⟨by simp only [GradSize.add]; push_cast; linarith [ha.1, hb.1], fun h => ?_⟩
  simp only [GradSize.add, Nat.add_eq_zero_iff] at h ⊢
  obtain ⟨h1, h2⟩ := ha.2 h.1
  obtain ⟨h3, h4⟩ := hb.2 h.2
  exact ⟨by rw [h1, h3, add_zero], h2, h4⟩

theorem GOk.times {a : GradSize} (ha : GOk a) {s : ℝ} (hs : 1 ≤ s) (k : ℕ) : GOk (a.times s k) := by
  refine ⟨?_, fun h => ?_⟩
  · simp only [GradSize.times]; nlinarith [ha.1, ha.nonneg]
  · simp only [GradSize.times] at h ⊢
    obtain ⟨h1, h2⟩ := ha.2 h
    rw [h1, h2, h]
    simp

theorem gok (x : ℕ) (e : Node F64) : GOk (e.gradSize t κ x) := by
  induction e using Node.ind_args with
  | step e ih =>
    cases e with
    | const => exact .none
    | var i s k =>
      simp only [Node.gradSize]
      split
      · simp [GOk]
      · exact .none
    | add i args =>
      simp only [Node.gradSize]
      simp only [Node.arguments] at ih
      induction args with
      | nil => exact .none
      | cons a as ih' => exact ((ih a (by simp)).times le_rfl 1).add (ih' fun b hb => ih b (by simp [hb]))
    | cos i a => exact (ih a (by simp [Node.arguments])).times (by linarith [sizeAt_one t a]) _
    | sin i a => exact (ih a (by simp [Node.arguments])).times (by linarith [sizeAt_one t a]) _
    | mul i a b => exact ((ih a (by simp [Node.arguments])).times (sizeAt_one t b) _).add ((ih b (by simp [Node.arguments])).times (sizeAt_one t a) _)
    | div i a b =>
      refine ((ih a (by simp [Node.arguments])).times ?_ _).add ((ih b (by simp [Node.arguments])).times ?_ _)
      · have : 0 ≤ 1 / |b.realAt t| := by positivity
        linarith
      · have h1 : 0 ≤ a.sizeAt t / (b.realAt t * b.realAt t) := div_nonneg (by linarith [sizeAt_one t a]) (mul_self_nonneg _)
        linarith

/-- What is known about the coefficient of a variable. -/
def CoefOk (t : ℕ → ℝ) (κ : ℕ) (x e : Node F64) : Prop :=
  ∃ y, (coefIn x e).Is y ∧ Approx uD y (gradV t x.id e) (e.gradSize t κ x.id).size (e.gradSize t κ x.id).ops

theorem merge_exact0 {o p : Option F64} {y : ℝ} (ho : (o.getD zero).Is y) (hp : (p.getD zero).Is 0) :
    ((optMerge (fun a b : F64 => a +. b) o p).getD zero).Is y := by
  cases o with
  | none =>
    have hy : 0 = y := F64.is_zero.unique ho
    subst hy
    cases p <;> exact hp
  | some a =>
    cases p with
    | none => exact ho
    | some b =>
      obtain ⟨q, hq, rfl⟩ := ho
      obtain ⟨r, hr, hr0⟩ := hp
      have hr0 : r = 0 := by exact_mod_cast hr0
      subst hr0
      refine ⟨q + 0, F64.add_exact hq hr ?_, by simp⟩
      rw [add_zero]
      exact F64.double_of_value hq

theorem coefs_sum {x : Node F64} {as : List (Node F64)} (h : ∀ a ∈ as, CoefOk t κ x a) :
    ∀ {acc : Prop' F64} {y va ma : ℝ} {j : ℕ}, (acc.coefD x).Is y → Approx uD y va ma j →
    InRange (ma + (Node.gradSize.sumL t κ x.id as).size) (j + (Node.gradSize.sumL t κ x.id as).ops) →
    ∃ z, ((Node.stdProperties.addProps acc as).coefD x).Is z ∧
      Approx uD z (va + gradV.gradVs t x.id as) (ma + (Node.gradSize.sumL t κ x.id as).size) (j + (Node.gradSize.sumL t κ x.id as).ops) := by
  induction as with
  | nil =>
    intro acc y va ma j hy ha _
    exact ⟨y, hy, by simpa [gradV.gradVs, Node.gradSize.sumL, GradSize.none] using ha⟩
  | cons a as ih =>
    intro acc y va ma j hy ha hR
    obtain ⟨w, hw, haw⟩ := h a (by simp)
    have hg := gok (t := t) (κ := κ) x.id a
    have hgs : 0 ≤ (Node.gradSize.sumL t κ x.id as).size := (gok (t := t) (κ := κ) x.id (.add 0 as)).nonneg
    simp only [Node.gradSize.sumL, GradSize.add, GradSize.times, gradV.gradVs, one_mul] at hR ⊢
    rw [← add_assoc, ← add_assoc] at hR ⊢
    rw [← add_assoc]
    have hnew : ∀ {r}, ((optMerge (fun a b : F64 => a +. b) (getN acc.a x) (getN a.stdProperties.a x)).getD zero).Is r →
        (Prop'.coefD ⟨acc.affine && a.stdProperties.affine, a.stdProperties.a.foldl (fun m e => addToN m e.1 e.2) acc.a, acc.b +. a.stdProperties.b⟩ x).Is r := by
      intro r hr
      unfold Prop'.coefD
      simp only
      rw [foldl_addToN, getN_foldUpd (stdProperties_keys a).1]
      exact hr
    by_cases ht : (a.gradSize t κ x.id).terms = 0
    · obtain ⟨h1, h2⟩ := hg.2 ht
      rw [h1, h2, ht] at hR ⊢
      rw [h1, h2] at haw
      have hv : gradV t x.id a = 0 := abs_eq_zero.1 (le_antisymm haw.2 (abs_nonneg _))
      have hw0 := Approx.eq_zero haw
      rw [hw0] at hw
      rw [hv]
      simp only [add_zero, zero_mul] at hR ⊢
      obtain ⟨z, hz, haz⟩ := ih (fun b hb => h b (by simp [hb])) (hnew (merge_exact0 hy hw)) ha hR
      exact ⟨z, by simp only [Node.stdProperties.addProps]; exact hz, haz⟩
    · have hs := (ha.mono uD_nonneg (Nat.le_add_right j (a.gradSize t κ x.id).ops)).add (haw.mono uD_nonneg (Nat.le_add_left _ j))
      obtain ⟨r, hr, hr'⟩ := merge_err hy hw (hs.bound (hR.mono (by linarith) (by omega)))
      have hs' := (hs.round uD_nonneg hr').mono uD_nonneg (show j + (a.gradSize t κ x.id).ops + 1 ≤ j + ((a.gradSize t κ x.id).ops + (a.gradSize t κ x.id).terms * (1 + 2)) by omega)
      obtain ⟨z, hz, haz⟩ := ih (fun b hb => h b (by simp [hb])) (hnew hr) hs' hR
      exact ⟨z, by simp only [Node.stdProperties.addProps]; exact hz, haz⟩

/-- A coefficient that is multiplied. -/
theorem coef_scaled {g : GradSize} (hg : GOk g) {y v c z θ s : ℝ} (h : Approx uD y v g.size g.ops) (hs : 1 ≤ s) (hc : |c| ≤ s) (hz : |z - c * y| ≤ uD * max |c * y| θ)
    (hθ : θ ≤ tauD) (hθ0 : y = 0 → θ = 0) (k : ℕ) : Approx uD z (c * v) (g.times s k).size (g.times s k).ops := by
  simp only [GradSize.times]
  have h1 : Approx uD (c * y) (c * v) (s * g.size) g.ops := by
    have := Approx.mul uD_nonneg (Approx.exactIn uD_nonneg hc 0) h
    simpa using this
  by_cases ht : g.terms = 0
  · obtain ⟨h2, h3⟩ := hg.2 ht
    rw [h2, h3] at h
    have hy := Approx.eq_zero h
    rw [hθ0 hy, hy] at hz
    have hz0 : z = 0 := by simpa using hz
    rw [hy, mul_zero] at h1
    rw [hz0]
    exact h1.mono uD_nonneg (by omega)
  · have h4 : 1 ≤ g.size := le_trans (by exact_mod_cast Nat.one_le_iff_ne_zero.2 ht) hg.1
    have h5 : (1 : ℝ) ≤ s * g.size := by nlinarith
    refine (h1.roundT uD_nonneg (hθ.trans (tauD_le_one'.trans h5)) hz).mono uD_nonneg ?_
    have : 1 ≤ g.terms := Nat.one_le_iff_ne_zero.2 ht
    nlinarith

theorem tinyAt_tau (c x : ℝ) : tinyAt c x ≤ tauD := by
  refine (tinyAt_le c x).trans ?_
  unfold tiny
  split
  · exact tauD_nonneg
  · exact le_rfl

theorem aff_coef {hp : Heap F64} {x : Node F64} (hx : x.isVar = true) (e : Node F64) : Good .noSelf hp e → Good .noSelf hp x → Aff e → e.Tame σ t κ →
    2 * (e.gradSize t κ x.id).size ≤ maxSize → (e.gradSize t κ x.id).ops ≤ 2 ^ 52 → CoefOk t κ x e := by
  induction e using Node.ind_args with
  | step e ih =>
    intro hg hgx ha ht hS hO
    have hconst : ∀ b ∈ e.arguments, b.stdProperties.a = [] → ∃ i c, b = .const i c := fun b hb h0 => by
      have := ((hg.arg hb).empty_iff (by simp)).1 h0
      cases b <;> simp [Node.isConstant] at this
      exact ⟨_, _, rfl⟩
    have hargs := ht.args
    unfold Aff at ha
    cases e
    case const i c => exact ⟨0, F64.is_zero, by simpa [gradV, Node.gradSize, GradSize.none] using Approx.zero uD_nonneg 0⟩
    case var i s k =>
      by_cases hi : i = x.id
      · have : (Node.var i s k : Node F64) = x := Good.eq_of_id hg hgx hi
        subst this
        refine ⟨1, ?_, ?_⟩
        · show F64.Is ((getN (Node.stdProperties (.var i s k : Node F64)).a (.var i s k)).getD zero) 1
          simp [Node.stdProperties, getN, ptrEq_refl]
          exact F64.is_one
        · simp only [gradV, Node.gradSize, Node.id, if_true]
          exact .exactIn uD_nonneg (by simp) _
      · refine ⟨0, ?_, ?_⟩
        · show F64.Is ((getN (Node.stdProperties (.var i s k : Node F64)).a x).getD zero) 0
          have : (Node.var i s k : Node F64).ptrEq x = false := by
            rw [← Bool.not_eq_true, hg.ptrEq_iff hgx]
            rintro rfl
            exact hi rfl
          simp [Node.stdProperties, getN, this]
          exact F64.is_zero
        · simp only [gradV, Node.gradSize, if_neg hi, GradSize.none]
          exact .zero uD_nonneg 0
    case add i args =>
      simp only [Node.arguments] at ih hargs
      have hmem : ∀ as : List (Node F64), ∀ a ∈ as, (a.gradSize t κ x.id).size ≤ (Node.gradSize.sumL t κ x.id as).size ∧
          (a.gradSize t κ x.id).ops ≤ (Node.gradSize.sumL t κ x.id as).ops := by
        intro as
        induction as with
        | nil => simp
        | cons b as ih' =>
          intro a ha'
          have hgs : 0 ≤ (Node.gradSize.sumL t κ x.id as).size := (gok (t := t) (κ := κ) x.id (.add 0 as)).nonneg
          have hgb := (gok (t := t) (κ := κ) x.id b).nonneg
          simp only [Node.gradSize.sumL, GradSize.add, GradSize.times, one_mul]
          rcases List.mem_cons.1 ha' with rfl | ha'
          · exact ⟨by linarith, by omega⟩
          · obtain ⟨h1, h2⟩ := ih' a ha'
            exact ⟨by linarith, by omega⟩
      simp only [Node.gradSize] at hS hO
      have hco : ∀ a ∈ args, CoefOk t κ x a := fun a ha' =>
        ih a ha' (hg.arg (by simpa [Node.arguments] using ha')) hgx (aff_add.1 ha a ha') (hargs a ha') (by linarith [(hmem args a ha').1]) ((hmem args a ha').2.trans hO)
      have hnn : 0 ≤ (Node.gradSize.sumL t κ x.id args).size := (gok (t := t) (κ := κ) x.id (.add 0 args)).nonneg
      obtain ⟨z, hz, haz⟩ := coefs_sum hco (acc := ⟨true, [], zero⟩) (y := 0) (va := 0) (ma := 0) (j := 0) F64.is_zero (.zero uD_nonneg 0)
        (by rw [zero_add, zero_add]; exact ⟨by linarith, hO⟩)
      refine ⟨z, hz, ?_⟩
      simpa [gradV, Node.gradSize] using haz
    case cos => simp [Node.stdProperties] at ha
    case sin => simp [Node.stdProperties] at ha
    case mul i a b =>
      simp only [Node.stdProperties, Bool.or_eq_true, Bool.and_eq_true, List.isEmpty_iff] at ha
      simp only [Node.arguments, List.mem_cons, List.not_mem_nil, or_false] at hargs hconst ih
      have key : ∀ {d : Node F64} {c : F64} {s : ℝ} {k j : ℕ}, CoefOk t κ x d → (Node.const j c).Tame σ t κ → s = (Node.const j c).sizeAt t →
          2 * ((d.gradSize t κ x.id).times s k).size ≤ maxSize → ((d.gradSize t κ x.id).times s k).ops ≤ 2 ^ 52 →
          ∃ y z, (coefIn x d).Is y ∧ |c.toReal * y| ≤ 2 * maxSize ∧ c.Is c.toReal ∧ (∀ z, |z - c.toReal * y| ≤ uD * max |c.toReal * y| (tinyAt c.toReal y) →
            Approx uD z (c.toReal * gradV t x.id d) ((d.gradSize t κ x.id).times s k).size ((d.gradSize t κ x.id).times s k).ops) ∧ z = (0 : ℝ) := by
        intro d c s k j ⟨y, hy, hay⟩ htc hs h1 h2
        obtain ⟨hci, -⟩ := tame_const_is htc
        have hcs : |c.toReal| ≤ s := by rw [hs]; exact le_max_right _ _
        have hs1 : 1 ≤ s := by rw [hs]; exact sizeAt_one _ _
        have hgd := gok (t := t) (κ := κ) x.id d
        refine ⟨y, 0, hy, ?_, hci, fun z hz => coef_scaled hgd hay hs1 hcs hz (tinyAt_tau _ _) (fun h0 => by simp [tinyAt, h0]) k, rfl⟩
        have h3 : Approx uD (c.toReal * y) (c.toReal * gradV t x.id d) (s * (d.gradSize t κ x.id).size) (d.gradSize t κ x.id).ops := by
          have := Approx.mul uD_nonneg (Approx.exactIn uD_nonneg hcs 0) hay
          simpa using this
        simp only [GradSize.times] at h1 h2
        have := mul_nonneg (show 0 ≤ s by linarith) hgd.nonneg
        exact h3.bound ⟨by linarith, by omega⟩
      simp only [Node.gradSize] at hS hO
      have hsub : ∀ {s : ℝ} {k : ℕ} {d : Node F64}, 1 ≤ s → 2 * ((d.gradSize t κ x.id).times s k).size ≤ maxSize → ((d.gradSize t κ x.id).times s k).ops ≤ 2 ^ 52 →
          2 * (d.gradSize t κ x.id).size ≤ maxSize ∧ (d.gradSize t κ x.id).ops ≤ 2 ^ 52 := by
        intro s k d h1 h2 h3
        simp only [GradSize.times] at h2 h3
        have := (gok (t := t) (κ := κ) x.id d).nonneg
        exact ⟨by nlinarith, by omega⟩
      have hn : ∀ (s : ℝ) (k : ℕ), GradSize.none.times s k = GradSize.none := fun s k => by simp [GradSize.times, GradSize.none]
      have hna : ∀ g : GradSize, GradSize.none.add g = g := fun g => by simp [GradSize.add, GradSize.none]
      have han : ∀ g : GradSize, g.add GradSize.none = g := fun g => by simp [GradSize.add, GradSize.none]
      rcases ha with ⟨ha, hb⟩ | ⟨hb, ha⟩
      · obtain ⟨j, c, rfl⟩ := hconst b (.inr rfl) hb
        have hcg : (Node.const j c : Node F64).gradSize t κ x.id = .none := rfl
        rw [hcg, hn, han] at hS hO
        obtain ⟨h1, h2⟩ := hsub (sizeAt_one t _) hS hO
        obtain ⟨y, -, hy, hby, hci, hz, -⟩ := key (ih a (.inl rfl) (hg.arg (by simp [Node.arguments])) hgx ha (hargs a (.inl rfl)) h1 h2) (hargs _ (.inr rfl)) rfl hS hO
        obtain ⟨z, hz1, hz2⟩ := LinEv.mulR (ev := coefIn x) i j hci hy hby
        refine ⟨z, hz1, ?_⟩
        have := hz z hz2
        simp only [Node.gradSize] at this ⊢
        rw [hn, han]
        simpa [gradV, Node.realAt] using this
      · obtain ⟨j, c, rfl⟩ := hconst a (.inl rfl) ha
        have hcg : (Node.const j c : Node F64).gradSize t κ x.id = .none := rfl
        rw [hcg, hn, hna] at hS hO
        obtain ⟨h1, h2⟩ := hsub (sizeAt_one t _) hS hO
        obtain ⟨y, -, hy, hby, hci, hz, -⟩ := key (ih b (.inr rfl) (hg.arg (by simp [Node.arguments])) hgx hb (hargs b (.inr rfl)) h1 h2) (hargs _ (.inl rfl)) rfl hS hO
        obtain ⟨z, hz1, hz2⟩ := LinEv.mulL (ev := coefIn x) i j hci hy hby
        refine ⟨z, hz1, ?_⟩
        have := hz z hz2
        simp only [Node.gradSize] at this ⊢
        rw [hn, hna]
        simpa [gradV, Node.realAt] using this
    case div i a b =>
      simp only [Node.stdProperties, Bool.and_eq_true, List.isEmpty_iff] at ha
      simp only [Node.arguments, List.mem_cons, List.not_mem_nil, or_false] at hargs hconst ih
      have hn : ∀ (s : ℝ) (k : ℕ), GradSize.none.times s k = GradSize.none := fun s k => by simp [GradSize.times, GradSize.none]
      have han : ∀ g : GradSize, g.add GradSize.none = g := fun g => by simp [GradSize.add, GradSize.none]
      obtain ⟨j, c, rfl⟩ := hconst b (.inr rfl) ha.2
      have hcg : (Node.const j c : Node F64).gradSize t κ x.id = .none := rfl
      simp only [Node.gradSize] at hS hO
      rw [hn, han] at hS hO
      have hne : (Node.const j c : Node F64).realAt t ≠ 0 := by
        unfold Node.Tame at ht
        exact ht.2.2.2.1
      simp only [Node.realAt] at hne hS hO
      have hcs : |1 / c.toReal| ≤ 1 + 1 / |c.toReal| := by rw [abs_div, abs_one]; linarith
      have hs1 : 1 ≤ 1 + 1 / |c.toReal| := by have : 0 ≤ 1 / |c.toReal| := by positivity
                                              linarith
      have hgd := gok (t := t) (κ := κ) x.id a
      have hS' : 2 * (a.gradSize t κ x.id).size ≤ maxSize := by
        simp only [GradSize.times] at hS
        nlinarith [hgd.nonneg]
      have hO' : (a.gradSize t κ x.id).ops ≤ 2 ^ 52 := by
        simp only [GradSize.times] at hO
        omega
      obtain ⟨y, hy, hay⟩ := ih a (.inl rfl) (hg.arg (by simp [Node.arguments])) hgx ha.1 (hargs a (.inl rfl)) hS' hO'
      obtain ⟨hci, -⟩ := tame_const_is (hargs _ (.inr rfl))
      have h3 : Approx uD (1 / c.toReal * y) (1 / c.toReal * gradV t x.id a) ((1 + 1 / |c.toReal|) * (a.gradSize t κ x.id).size) (a.gradSize t κ x.id).ops := by
        have := Approx.mul uD_nonneg (Approx.exactIn uD_nonneg hcs 0) hay
        simpa using this
      have e1 : 1 / c.toReal * y = y / c.toReal := by ring
      have hby : |y / c.toReal| ≤ 2 * maxSize := by
        rw [← e1]
        simp only [GradSize.times] at hS hO
        have := mul_nonneg (show 0 ≤ 1 + 1 / |c.toReal| by linarith) hgd.nonneg
        exact h3.bound ⟨by linarith, by omega⟩
      obtain ⟨z, hz1, hz2⟩ := LinEv.divR (ev := coefIn x) i j hci hne hy hby
      refine ⟨z, hz1, ?_⟩
      rw [← e1] at hz2
      have := coef_scaled hgd hay hs1 hcs hz2 (tauAt_le _) (fun h0 => by simp [tauAt, h0]) (2 * (κ * (Node.const j c : Node F64).opsAt κ) + 2)
      simp only [Node.gradSize] at this ⊢
      rw [hn, han]
      simpa [gradV, Node.realAt] using this

end Verif.R64
