import Mathlib.Data.List.Perm.Basic
import Verif.Spec.LinearValues64
import Verif.Proofs.Rounding64
import Verif.Proofs.Rounding64Rep
import Verif.Props.Problem
import Verif.Props.RoundingStd64
import Verif.Proofs.ExactEval

/-! # Sums and sums of products in double precision -/

namespace Verif

set_option linter.unusedSectionVars false

variable [Libm]

/-- The double is an approximation of the first number, with respect to the size that is the second one. -/
def ApproxIs (k : ℕ) (a : F64) (p : ℝ × ℝ) : Prop := ∃ x, a.Is x ∧ Approx uD x p.1 p.2 k

def sumV (ps : List (ℝ × ℝ)) : ℝ := (ps.map Prod.fst).sum
def sumM (ps : List (ℝ × ℝ)) : ℝ := (ps.map Prod.snd).sum

theorem forall₂_split {α β : Type*} {R : α → β → Prop} {l l' : List α} {ps : List β} (h : List.Forall₂ R (l ++ l') ps) :
    ∃ p1 p2, List.Forall₂ R l p1 ∧ List.Forall₂ R l' p2 ∧ ps = p1 ++ p2 := by
  induction l generalizing ps with
  | nil => exact ⟨[], ps, .nil, h, rfl⟩
  | cons a l ih =>
    cases h with
    | cons h1 h2 =>
      obtain ⟨p1, p2, g1, g2, rfl⟩ := ih h2
      exact ⟨_ :: p1, p2, .cons h1 g1, g2, rfl⟩

theorem sum_sizes_nonneg {k : ℕ} {l : List F64} {ps : List (ℝ × ℝ)} (h : List.Forall₂ (ApproxIs k) l ps) : 0 ≤ sumM ps := by
  induction h with
  | nil => simp [sumM]
  | cons h _ ih =>
    obtain ⟨x, -, hx⟩ := h
    have := hx.nonneg
    simp only [sumM, List.map_cons, List.sum_cons] at ih ⊢
    linarith

theorem F64.zero_add_is {a b : F64} {x : ℝ} (ha : a.Is 0) (hb : b.Is x) : (a +. b).Is x ∧ (b +. a).Is x := by
  obtain ⟨q, hq, h0⟩ := ha
  obtain ⟨r, hr, rfl⟩ := hb
  have h0' : q = 0 := by exact_mod_cast h0
  subst h0'
  have hd : IsDouble r := F64.double_of_value hr
  have e1 := F64.add_exact hq hr (by rwa [zero_add])
  have e2 := F64.add_exact hr hq (by rwa [add_zero])
  rw [zero_add] at e1
  rw [add_zero] at e2
  exact ⟨⟨_, e1, rfl⟩, ⟨_, e2, rfl⟩⟩

theorem sumOf_approx {k : ℕ} {l : List F64} {v : F64} (h : SumOf l v) : ∀ ps : List (ℝ × ℝ), List.Forall₂ (ApproxIs k) l ps →
    InRange (sumM ps) (k + l.length) → ∃ x, v.Is x ∧ Approx uD x (sumV ps) (sumM ps) (k + (l.length - 1)) := by
  induction h with
  | zero =>
    intro ps hp _
    cases hp
    exact ⟨0, F64.is_zero, Approx.zero uD_nonneg _⟩
  | single v =>
    intro ps hp _
    obtain ⟨p, hp1, rfl⟩ : ∃ p, ApproxIs k v p ∧ ps = [p] := by
      cases hp with
      | cons h1 h2 => cases h2; exact ⟨_, h1, rfl⟩
    obtain ⟨x, hx, ha⟩ := hp1
    exact ⟨x, hx, by simpa [sumV, sumM] using ha⟩
  | @add l l' l'' v w h h' hp ih ih' =>
    intro ps hf hR
    obtain ⟨ps', hf', hp'⟩ := List.perm_comp_forall₂ hp.symm hf
    have eV : sumV ps' = sumV ps := (hp'.map Prod.fst).sum_eq
    have eM : sumM ps' = sumM ps := (hp'.map Prod.snd).sum_eq
    have eL : l''.length = l.length + l'.length := by rw [hp.length_eq, List.length_append]
    rw [← eV, ← eM]
    rw [← eM] at hR
    obtain ⟨p1, p2, hf1, hf2, rfl⟩ : ∃ p1 p2, List.Forall₂ (ApproxIs k) l p1 ∧ List.Forall₂ (ApproxIs k) l' p2 ∧ ps' = p1 ++ p2 :=
      forall₂_split hf'
    have sV : sumV (p1 ++ p2) = sumV p1 + sumV p2 := by simp [sumV]
    have sM : sumM (p1 ++ p2) = sumM p1 + sumM p2 := by simp [sumM]
    have n1 := sum_sizes_nonneg hf1
    have n2 := sum_sizes_nonneg hf2
    rw [sM] at hR
    obtain ⟨x, hx, ax⟩ := ih p1 hf1 (hR.mono (by linarith) (by omega))
    obtain ⟨y, hy, ay⟩ := ih' p2 hf2 (hR.mono (by linarith) (by omega))
    rw [sV, sM]
    by_cases hl : l = []
    · subst hl
      cases hf1
      have e0 : x = 0 := by
        have : sumM [] = 0 := by simp [sumM]
        rw [this] at ax
        exact R64.Approx.eq_zero ax
      subst e0
      refine ⟨y, (F64.zero_add_is hx hy).1, ?_⟩
      have : l''.length - 1 = l'.length - 1 := by rw [eL]; simp
      rw [this]
      simpa [sumV, sumM] using ay
    by_cases hl' : l' = []
    · subst hl'
      cases hf2
      have e0 : y = 0 := by
        have : sumM [] = 0 := by simp [sumM]
        rw [this] at ay
        exact R64.Approx.eq_zero ay
      subst e0
      refine ⟨x, (F64.zero_add_is hy hx).2, ?_⟩
      have : l''.length - 1 = l.length - 1 := by rw [eL]; simp
      rw [this]
      simpa [sumV, sumM] using ax
    have g1 := List.length_pos_iff.2 hl
    have g2 := List.length_pos_iff.2 hl'
    have a := (ax.mono uD_nonneg (show k + (l.length - 1) ≤ k + (l''.length - 2) by omega)).add
      (ay.mono uD_nonneg (show k + (l'.length - 1) ≤ k + (l''.length - 2) by omega))
    obtain ⟨z, hz, ez⟩ := F64.is_add hx hy (a.bound (hR.mono le_rfl (by omega)))
    refine ⟨z, hz, ?_⟩
    have := a.round uD_nonneg ez
    rwa [show k + (l''.length - 2) + 1 = k + (l''.length - 1) by omega] at this

/-- A sum of products of doubles, in any order. -/
theorem sumOf_products {es : List (F64 × F64)} {rs : List (ℝ × ℝ)} (hf : List.Forall₂ (fun (e : F64 × F64) (r : ℝ × ℝ) => e.1.Is r.1 ∧ e.2.Is r.2) es rs)
    {v : F64} (h : SumOf (es.map fun e => e.1 *. e.2) v) (hR : InRange (prodSize rs) (es.length + 1)) :
    ∃ x, v.Is x ∧ Approx uD x (rs.map fun r => r.1 * r.2).sum (prodSize rs) es.length := by
  have hpos : ∀ rs : List (ℝ × ℝ), 0 ≤ prodSize rs := by
    intro rs
    refine List.sum_nonneg fun x hx => ?_
    obtain ⟨r, -, rfl⟩ := List.mem_map.1 hx
    exact le_trans (abs_nonneg _) (le_max_left _ _)
  have key : ∀ (es : List (F64 × F64)) (rs : List (ℝ × ℝ)), List.Forall₂ (fun (e : F64 × F64) (r : ℝ × ℝ) => e.1.Is r.1 ∧ e.2.Is r.2) es rs →
      prodSize rs ≤ maxSize →
      List.Forall₂ (ApproxIs 1) (es.map fun e => e.1 *. e.2) (rs.map fun r => (r.1 * r.2, max |r.1 * r.2| (2 ^ (-1022 : ℤ)))) := by
    intro es rs hf
    induction hf with
    | nil => intro _; exact .nil
    | @cons e r es rs he hf ih =>
      intro hm
      have hm' : prodSize (r :: rs) = max |r.1 * r.2| (2 ^ (-1022 : ℤ)) + prodSize rs := by simp [prodSize]
      have h1 := hpos rs
      have h2 := le_max_left |r.1 * r.2| (2 ^ (-1022 : ℤ))
      have h3 := abs_nonneg (r.1 * r.2)
      rw [hm'] at hm
      refine .cons ?_ (ih (by linarith))
      obtain ⟨z, hz, ez⟩ := F64.is_mul he.1 he.2 (by linarith)
      refine ⟨z, hz, ?_⟩
      have := (Approx.exactIn uD_nonneg (le_max_left |r.1 * r.2| (2 ^ (-1022 : ℤ))) 0).roundT uD_nonneg (le_max_right _ _) ez
      exact this
  have e1 : sumV (rs.map fun r => (r.1 * r.2, max |r.1 * r.2| (2 ^ (-1022 : ℤ)))) = (rs.map fun r => r.1 * r.2).sum := by
    simp only [sumV, List.map_map]; rfl
  have e2 : sumM (rs.map fun r => (r.1 * r.2, max |r.1 * r.2| (2 ^ (-1022 : ℤ)))) = prodSize rs := by
    simp only [sumM, List.map_map]; rfl
  obtain ⟨x, hx, ha⟩ := sumOf_approx h _ (key es rs hf hR.1) (by rw [e2, List.length_map]; exact hR.mono le_rfl (by omega))
  rw [e1, e2, List.length_map] at ha
  refine ⟨x, hx, ?_⟩
  by_cases hn : es.length = 0
  · have : es = [] := List.length_eq_zero_iff.1 hn
    subst this
    cases hf
    have e0 : prodSize [] = 0 := by simp [prodSize]
    rw [e0] at ha ⊢
    have := R64.Approx.eq_zero ha
    subst this
    exact Approx.zero uD_nonneg _
  · exact ha.mono uD_nonneg (by omega)

theorem forall₂_getD {x : List F64} {xs : List ℝ} (hx : List.Forall₂ F64.Is x xs) (j : ℕ) : ((x[j]?).getD zero).Is (xs.getD j 0) := by
  induction hx generalizing j with
  | nil => simpa using F64.is_zero
  | cons h _ ih =>
    cases j with
    | zero => simpa using h
    | succ j => simpa using ih j

/-- A list of columns and coefficients times a vector. -/
theorem entries_is {L : List (ℕ × F64)} (hm : ∀ e ∈ L, e.2.Is e.2.toReal) {x : List F64} {xs : List ℝ} (hx : List.Forall₂ F64.Is x xs)
    (hR : InRange (prodSize (L.map fun e => (xs.getD e.1 0, e.2.toReal))) (L.length + 1)) :
    ∃ y, (L.foldl (fun (s : F64) (e : ℕ × F64) => s +. ((x[e.1]?).getD zero *. e.2)) zero).Is y ∧
      Approx uD y ((L.map fun e => (xs.getD e.1 0, e.2.toReal)).map fun r => r.1 * r.2).sum (prodSize (L.map fun e => (xs.getD e.1 0, e.2.toReal))) L.length := by
  have hs := SumOf.foldl (fun e : F64 × F64 => e.1 *. e.2) SumOf.zero (L.map fun e => ((x[e.1]?).getD zero, e.2))
  rw [List.nil_append, List.foldl_map] at hs
  have hf : List.Forall₂ (fun (e : F64 × F64) (r : ℝ × ℝ) => e.1.Is r.1 ∧ e.2.Is r.2) (L.map fun e => ((x[e.1]?).getD zero, e.2))
      (L.map fun e => (xs.getD e.1 0, e.2.toReal)) := by
    rw [List.forall₂_map_left_iff, List.forall₂_map_right_iff]
    exact List.forall₂_same.2 fun e he => ⟨forall₂_getD hx e.1, hm e he⟩
  have := sumOf_products hf hs (by rw [List.length_map]; exact hR)
  rw [List.length_map] at this
  exact this

/-- A row of a matrix of doubles times a vector. -/
theorem row_is {m : Coo F64} {i : ℕ} (hm : ∀ e ∈ rowOf m.triplets i, e.2.Is e.2.toReal) {x : List F64} {xs : List ℝ} (hx : List.Forall₂ F64.Is x xs)
    (hR : InRange (prodSize (rowProducts m i xs)) ((rowOf m.triplets i).length + 1)) :
    ∃ y, ((rowOf m.triplets i).foldl (fun (s : F64) (e : ℕ × F64) => s +. ((x[e.1]?).getD zero *. e.2)) zero).Is y ∧
      Approx uD y ((rowProducts m i xs).map fun r => r.1 * r.2).sum (prodSize (rowProducts m i xs)) (rowOf m.triplets i).length :=
  entries_is hm hx hR

theorem zip_sum {α : Type*} [AddCommMonoid α] (f : ℝ × ℝ → α) (c x : List ℝ) (hx : x.length = c.length) :
    ((c.zip x).map f).sum = ∑ j ∈ Finset.range c.length, f (c.getD j 0, x.getD j 0) := by
  induction c generalizing x with
  | nil => rfl
  | cons d c ih =>
    cases x with
    | nil => simp at hx
    | cons y x =>
      rw [List.zip_cons_cons, List.map_cons, List.sum_cons, List.length_cons, Finset.sum_range_succ', ih x (by simpa using hx), add_comm]
      simp only [List.getD_cons_succ, List.getD_cons_zero]

theorem forall₂_zip {c x : List F64} {cs xs : List ℝ} (hc : List.Forall₂ F64.Is c cs) (hx : List.Forall₂ F64.Is x xs) :
    List.Forall₂ (fun (e : F64 × F64) (r : ℝ × ℝ) => e.1.Is r.1 ∧ e.2.Is r.2) (c.zip x) (cs.zip xs) := by
  induction hc generalizing x xs with
  | nil => exact .nil
  | cons h _ ih =>
    cases hx with
    | nil => exact .nil
    | cons g g' => exact .cons ⟨h, g⟩ (ih g')

/-- The objective of a linear problem. -/
theorem dot_is {c x : List F64} {cs xs : List ℝ} (hc : List.Forall₂ F64.Is c cs) (hx : List.Forall₂ F64.Is x xs) (hl : x.length = c.length)
    (hR : InRange (∑ j ∈ Finset.range c.length, max |cs.getD j 0 * xs.getD j 0| (2 ^ (-1022 : ℤ))) (c.length + 1)) :
    ∃ y, (unrolledDot zero zero zero zero zero zero zero zero (c.zip x)).Is y ∧
      Approx uD y (∑ j ∈ Finset.range c.length, cs.getD j 0 * xs.getD j 0)
        (∑ j ∈ Finset.range c.length, max |cs.getD j 0 * xs.getD j 0| (2 ^ (-1022 : ℤ))) c.length := by
  have l1 := hc.length_eq
  have l2 := hx.length_eq
  have e1 : prodSize (cs.zip xs) = ∑ j ∈ Finset.range c.length, max |cs.getD j 0 * xs.getD j 0| (2 ^ (-1022 : ℤ)) := by
    unfold prodSize
    rw [zip_sum _ _ _ (by omega), l1]
  have e2 : ((cs.zip xs).map fun r => r.1 * r.2).sum = ∑ j ∈ Finset.range c.length, cs.getD j 0 * xs.getD j 0 := by
    rw [zip_sum _ _ _ (by omega), l1]
  have hlen : (c.zip x).length = c.length := by rw [List.length_zip]; omega
  have := sumOf_products (forall₂_zip hc hx) (dot_sumOf (c.zip x)) (by rw [e1, hlen]; exact hR)
  rwa [e1, e2, hlen] at this

/-- Sums of numbers of a fixed-point grid are exact in any order, if they are not too large. -/
theorem sumOf_exact {g : ℤ} {l : List F64} {v : F64} (h : SumOf l v) : ∀ zs : List ℤ,
    List.Forall₂ (fun (a : F64) (z : ℤ) => a.HasValue ((z : ℚ) * 2 ^ g)) l zs → Fits g (absSumZ zs) → v.HasValue ((zs.sum : ℤ) * 2 ^ g) := by
  induction h with
  | zero =>
    intro zs hz _
    cases hz
    simpa using F64.zero_value
  | single v =>
    intro zs hz _
    cases hz with
    | cons h1 h2 => cases h2; simpa using h1
  | @add l l' l'' v w h h' hp ih ih' =>
    intro zs hf hR
    obtain ⟨zs', hf', hp'⟩ := List.perm_comp_forall₂ hp.symm hf
    have eV : zs'.sum = zs.sum := hp'.sum_eq
    have eM : absSumZ zs' = absSumZ zs := by unfold absSumZ; exact (hp'.map _).sum_eq
    rw [← eV]
    rw [← eM] at hR
    obtain ⟨z1, z2, hf1, hf2, rfl⟩ := forall₂_split hf'
    rw [absSumZ_append] at hR
    have g1 := ih z1 hf1 ⟨hR.1, hR.2.1, by have := hR.2.2; omega⟩
    have g2 := ih' z2 hf2 ⟨hR.1, hR.2.1, by have := hR.2.2; omega⟩
    have e : ((z1.sum : ℤ) : ℚ) * 2 ^ g + ((z2.sum : ℤ) : ℚ) * 2 ^ g = (((z1 ++ z2).sum : ℤ) : ℚ) * 2 ^ g := by
      rw [List.sum_append]; push_cast; ring
    rw [← e]
    refine F64.add_exact g1 g2 ?_
    rw [e]
    refine hR.double ?_
    rw [← absSumZ_append]
    exact natAbs_sum_le _

end Verif
