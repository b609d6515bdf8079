import Verif.Proofs.Hess

/-! # Lemmas about the standard components of an expression -/

set_option linter.unusedSectionVars false
set_option linter.unusedSimpArgs false

namespace Verif

open Exact Filter Topology

section
variable {F : Type} [FloatOps F]

theorem hessRow_ok {v1 : Node F} {dd : List (Node F × Node F)} {vs : List (Node F)} {row : List (Node F × Node F × Node F)} {n m : Nat}
    (h : hessRow v1 dd vs n = .ok (row, m)) :
    m = n ∧ (∀ p ∈ row, p.1 = v1 ∧ p.2.1 ∈ vs ∧ getN dd p.2.1 = some p.2.2) ∧
    (∀ v2 ∈ vs, ∃ e, getN dd v2 = some e ∧ (e.isConstVal zero = true ∨ (v1, v2, e) ∈ row)) ∧
    (row.map fun p => p.2.1).Sublist vs := by
  induction vs generalizing row n m with
  | nil =>
    simp only [hessRow, M.pure_ok] at h
    obtain ⟨rfl, rfl⟩ := h
    simp
  | cons v vs ih =>
    simp only [hessRow, M.bind_ok, unwrapM_ok, M.pure_ok] at h
    obtain ⟨e, k, ⟨h1, rfl⟩, rest, k2, h2, h3, rfl⟩ := h
    obtain ⟨rfl, i1, i2, i3⟩ := ih h2
    subst h3
    refine ⟨rfl, ?_, ?_, ?_⟩
    · intro p hp
      split at hp
      · obtain ⟨a, b, c⟩ := i1 p hp
        exact ⟨a, by simp [b], c⟩
      · rcases List.mem_cons.1 hp with rfl | hp
        · exact ⟨rfl, by simp, h1⟩
        · obtain ⟨a, b, c⟩ := i1 p hp
          exact ⟨a, by simp [b], c⟩
    · intro v2 hv2
      rcases List.mem_cons.1 hv2 with rfl | hv2
      · refine ⟨e, h1, ?_⟩
        split
        · exact .inl (by assumption)
        · exact .inr (by simp)
      · obtain ⟨e', a, b⟩ := i2 v2 hv2
        refine ⟨e', a, ?_⟩
        split
        · exact b
        · exact b.imp_right fun b => by simp [b]
    · split
      · exact i3.cons _
      · exact i3.cons_cons _

theorem hessLoop_ok {H : HashOrder} {derivs : List (Node F × Node F)} {vs : List (Node F)}
    {r : List (Node F × Node F) × List (Node F × Node F × Node F)} {n m : Nat} (h : hessLoop H derivs vs n = .ok (r, m)) :
    r.1.map Prod.fst = vs ∧ (∀ p ∈ r.1, getN derivs p.1 = some p.2) ∧
    (∀ p ∈ r.2, p.1 ∈ vs ∧ p.2.1 ∈ vs ∧ ∃ d dd vs' k k', getN derivs p.1 = some d ∧ derivatives H d vs' k = .ok (dd, k') ∧
      getN dd p.2.1 = some p.2.2) ∧
    (∀ v1 v2, v1 ∈ vs → v2 ∈ vs → ∃ w1 w2 d dd vs' k k' e, ((w1 = v1 ∧ w2 = v2) ∨ (w1 = v2 ∧ w2 = v1)) ∧
      getN derivs w1 = some d ∧ derivatives H d vs' k = .ok (dd, k') ∧ getN dd w2 = some e ∧
      (e.isConstVal zero = true ∨ (w1, w2, e) ∈ r.2)) ∧
    (NodupP vs → r.2.Pairwise fun p q => ¬ samePair p.1 p.2.1 q.1 q.2.1) := by
  induction vs generalizing r n m with
  | nil =>
    simp only [hessLoop, M.pure_ok] at h
    obtain ⟨rfl, rfl⟩ := h
    simp
  | cons v1 vs ih =>
    simp only [hessLoop, M.bind_ok, unwrapM_ok, M.pure_ok] at h
    obtain ⟨d, k, ⟨h1, rfl⟩, dd, k2, h2, row, k3, h3, rest, k4, h4, rfl, rfl⟩ := h
    obtain ⟨rfl, j1, j2, j3⟩ := hessRow_ok h3
    obtain ⟨i1, i2, i3, i4, i5⟩ := ih h4
    refine ⟨by simp [i1], ?_, ?_, ?_, ?_⟩
    · intro p hp
      rcases List.mem_cons.1 hp with rfl | hp
      · exact h1
      · exact i2 p hp
    · intro p hp
      rcases List.mem_append.1 hp with hp | hp
      · obtain ⟨a, b, c⟩ := j1 p hp
        exact ⟨by simp [a], b, d, dd, _, _, _, by rw [a]; exact h1, h2, c⟩
      · obtain ⟨a, b, c⟩ := i3 p hp
        exact ⟨by simp [a], by simp [b], c⟩
    · have key : ∀ v2, v2 ∈ v1 :: vs → ∃ d dd vs' k k' e, getN derivs v1 = some d ∧ derivatives H d vs' k = .ok (dd, k') ∧
          getN dd v2 = some e ∧ (e.isConstVal zero = true ∨ (v1, v2, e) ∈ row ++ rest.2) := by
        intro v2 hv2
        obtain ⟨e, a, b⟩ := j2 v2 hv2
        exact ⟨d, dd, _, _, _, e, h1, h2, a, b.imp_right fun b => by simp [b]⟩
      intro a b ha hb
      rcases List.mem_cons.1 ha with rfl | ha'
      · obtain ⟨d, dd, vs', k, k', e, x1, x2, x3, x4⟩ := key b hb
        exact ⟨_, _, d, dd, vs', k, k', e, .inl ⟨rfl, rfl⟩, x1, x2, x3, x4⟩
      · rcases List.mem_cons.1 hb with rfl | hb'
        · obtain ⟨d, dd, vs', k, k', e, x1, x2, x3, x4⟩ := key a ha
          exact ⟨_, _, d, dd, vs', k, k', e, .inr ⟨rfl, rfl⟩, x1, x2, x3, x4⟩
        · obtain ⟨w1, w2, d, dd, vs', k, k', e, x0, x1, x2, x3, x4⟩ := i4 a b ha' hb'
          exact ⟨w1, w2, d, dd, vs', k, k', e, x0, x1, x2, x3, x4.imp_right fun x => by simp [x]⟩
    · intro hnd
      have hnd' := List.pairwise_cons.1 hnd
      rw [List.pairwise_append]
      refine ⟨?_, i5 hnd'.2, ?_⟩
      · -- within one row the second variables differ
        have hsub : NodupP (row.map fun p => p.2.1) := List.Pairwise.sublist j3 hnd
        have := List.pairwise_map.1 hsub
        refine this.imp_of_mem ?_
        intro p q hp hq hpq hs
        have e1 := (j1 p hp).1
        have e2 := (j1 q hq).1
        rcases hs with ⟨_, h⟩ | ⟨h, h'⟩
        · rw [h] at hpq; cases hpq
        · rw [e1] at h; rw [e2] at h'
          rw [ptrEq_trans h' h] at hpq; cases hpq
      · intro p hp q hq hs
        have e1 := (j1 p hp).1
        obtain ⟨q1, q2, _⟩ := i3 q hq
        rcases hs with ⟨h, _⟩ | ⟨h, _⟩
        · rw [e1, hnd'.1 _ q1] at h; cases h
        · rw [e1, hnd'.1 _ q2] at h; cases h

/-- What `std_components` returns for an affine expression. -/
theorem stdComponents_affine {H : HashOrder} {e : Node F} {c : NodeComp F} {n m : Nat} (h : e.stdComponents H n = .ok (c, m))
    (ha : Aff e) : c.phi = e ∧ c.prop = e.stdProperties ∧ c.hphi = [] ∧ ∃ es : List (Node F × F), es.Perm e.stdProperties.a ∧
      List.Forall₂ (fun kv p => p.1 = kv.1 ∧ ∃ i, p.2 = .const i kv.2) es c.gphi := by
  simp only [Node.stdComponents, ha, if_true, M.bind_ok, M.pure_ok] at h
  obtain ⟨es, k, h1, g, k2, h2, rfl, rfl⟩ := h
  refine ⟨rfl, rfl, rfl, es, HashOrder.iter_perm h1, ?_⟩
  refine M.mapL_ok_forall h2 ?_
  intro a _ b n m hb
  simp only [M.bind_ok, newConst_ok, M.pure_ok] at hb
  obtain ⟨x, k, ⟨rfl, rfl⟩, rfl, rfl⟩ := hb
  exact ⟨rfl, _, rfl⟩

/-- What `std_components` returns for an expression that is not affine. -/
theorem stdComponents_nonaffine {H : HashOrder} {e : Node F} {c : NodeComp F} {n m : Nat} (h : e.stdComponents H n = .ok (c, m))
    (ha : ¬ Aff e) : c.phi = e ∧ c.prop = e.stdProperties ∧ ∃ vars derivs k1 k2, vars.Perm (keysN e.stdProperties.a) ∧
      derivatives H e vars (n + 1) = .ok (derivs, k1) ∧ hessLoop H derivs vars k1 = .ok ((c.gphi, c.hphi), k2) := by
  simp only [Node.stdComponents, ha, M.bind_ok, M.pure_ok] at h
  simp only [Bool.false_eq_true, if_false, M.bind_ok, M.pure_ok] at h
  obtain ⟨vars, k, h1, derivs, k2, h2, gh, k3, h3, rfl, rfl⟩ := h
  have hp := HashOrder.iter_perm h1
  rw [HashOrder.iter_ok] at h1
  rw [h1.2] at h2
  exact ⟨rfl, rfl, vars, derivs, _, _, hp, h2, h3⟩

theorem stdComponents_prop {H : HashOrder} {e : Node F} {c : NodeComp F} {n m : Nat} (h : e.stdComponents H n = .ok (c, m)) :
    c.phi = e ∧ c.prop = e.stdProperties := by
  by_cases ha : Aff e
  · exact ⟨(stdComponents_affine h ha).1, (stdComponents_affine h ha).2.1⟩
  · exact ⟨(stdComponents_nonaffine h ha).1, (stdComponents_nonaffine h ha).2.1⟩

theorem stdComponents_gphi {H : HashOrder} {e : Node F} {c : NodeComp F} {n m : Nat} (h : e.stdComponents H n = .ok (c, m)) :
    (c.gphi.map Prod.fst).Perm (keysN e.stdProperties.a) := by
  by_cases ha : Aff e
  · obtain ⟨-, -, -, es, hp, hf⟩ := stdComponents_affine h ha
    have : c.gphi.map Prod.fst = es.map Prod.fst := by
      clear h hp
      generalize c.gphi = g at hf
      induction hf with
      | nil => rfl
      | cons h1 _ ih => simp [h1.1, ih]
    rw [this]; exact hp.map _
  · obtain ⟨-, -, vars, derivs, k1, k2, hp, -, h3⟩ := stdComponents_nonaffine h ha
    rw [(hessLoop_ok h3).1]; exact hp

theorem stdComponents_hphi_mem {H : HashOrder} {e : Node F} {c : NodeComp F} {n m : Nat} (h : e.stdComponents H n = .ok (c, m)) :
    ∀ p ∈ c.hphi, p.1 ∈ keysN e.stdProperties.a ∧ p.2.1 ∈ keysN e.stdProperties.a := by
  by_cases ha : Aff e
  · rw [(stdComponents_affine h ha).2.2.1]; simp
  · obtain ⟨-, -, vars, derivs, k1, k2, hp, -, h3⟩ := stdComponents_nonaffine h ha
    intro p hp'
    obtain ⟨h1, h2, -⟩ := (hessLoop_ok h3).2.2.1 p hp'
    exact ⟨hp.mem_iff.1 h1, hp.mem_iff.1 h2⟩

end

/-- The derivative of a derivative expression is the second derivative. -/
theorem numD_of_deriv {e d v1 v2 : Node (Option ℝ)} {σ : Env (Option ℝ)} (h2 : v2.isVar = true) {t0 : ℝ}
    (ht : σ v2.id = some (some t0)) (hd : Defined e σ) (hdd : ∀ τ, Defined e τ → d.evaluate τ = some (numD τ v1 e)) :
    numD σ v2 d = numD2 σ v1 v2 e := by
  have hd1 : Defined d σ := ⟨_, hdd σ hd⟩
  have a := (numD_hasDerivAt h2 ht d hd1).2
  have b := numD2_hasDerivAt h2 ht v1 e hd
  refine a.unique (b.congr_of_eventuallyEq ?_)
  filter_upwards [(numD_hasDerivAt h2 ht e hd).1] with t hdt
  exact val_eq (hdd _ hdt)

end Verif
