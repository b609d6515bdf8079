import Mathlib.Algebra.BigOperators.Group.Finset.Basic
import Mathlib.Algebra.BigOperators.Ring.Finset
import Verif.Proofs.SumDup
import Verif.Proofs.Arith

/-! # Matrix-vector product -/

namespace Verif

set_option linter.unusedSectionVars false
set_option linter.unusedSimpArgs false

section
variable {F : Type} [FloatOps F]

/-- Row times vector, in the order of the code. -/
def dotRow (x : List F) (row : List (Nat × F)) : F := row.foldl (fun s e => s +. ((x[e.1]?).getD zero *. e.2)) zero

theorem mulVec_loop {n : Nat} {x : List F} {items : List (Nat × Nat × F)} (h : ∀ t ∈ items, t.1 < n ∧ t.2.1 < x.length) :
    foldR (fun (y : List F) (e : Nat × Nat × F) => do
      let xc ← idx x e.2.1
      setIdx y e.1 ((← idx y e.1) +. (xc *. e.2.2))) (List.replicate n zero) items =
    .ok (tab n fun i => dotRow x (rowOf items i)) := by
  obtain ⟨s, h1, h2⟩ := foldR_inv (l := items) (b := List.replicate n (zero : F))
    (f := fun (y : List F) (e : Nat × Nat × F) => do
      let xc ← idx x e.2.1
      setIdx y e.1 ((← idx y e.1) +. (xc *. e.2.2)))
    (fun pre s => s = tab n fun i => dotRow x (rowOf pre i))
    (by simp [replicate_tab, rowOf, dotRow])
    (by
      rintro pre e post s hl rfl
      obtain ⟨he1, he2⟩ := h e (by simp [hl])
      simp only [idx_of_lt he2, R.ok_bind, idx_tab he1, setIdx_tab he1]
      refine ⟨_, rfl, ?_⟩
      apply tab_congr
      intro i _
      rw [rowOf_append, rowOf_single, Function.update_apply]
      by_cases hi : i = e.1
      · subst hi
        simp [dotRow, he2]
      · simp [hi, Ne.symm hi])
  rw [h1, h2]

theorem mulVec_loop_error {n : Nat} {x : List F} {items : List (Nat × Nat × F)} (h : ∃ t ∈ items, n ≤ t.1 ∨ x.length ≤ t.2.1) :
    foldR (fun (y : List F) (e : Nat × Nat × F) => do
      let xc ← idx x e.2.1
      setIdx y e.1 ((← idx y e.1) +. (xc *. e.2.2))) (List.replicate n zero) items = .error .index := by
  refine foldR_error (fun s => s.length = n) (fun t => n ≤ t.1 ∨ x.length ≤ t.2.1) (by simp) ?_ ?_ h
  · intro s t hs ht
    rw [not_or, Nat.not_le, Nat.not_le] at ht
    have h1 : t.1 < s.length := by omega
    simp only [idx_of_lt ht.2, R.ok_bind, idx_of_lt h1, setIdx_of_lt h1]
    exact ⟨_, rfl, by simpa using hs⟩
  · intro s t hs ht
    rcases Nat.lt_or_ge t.2.1 x.length with h1 | h1
    · have h2 : s.length ≤ t.1 := by rcases ht with h | h <;> omega
      simp only [idx_of_lt h1, R.ok_bind, idx_of_ge h2]
      rfl
    · simp only [idx_of_ge h1]
      rfl

end

section
variable {K : Type} [Field K] [LinearOrder K] [Trig K]

theorem dotRow_some (x : List K) (row : List (Nat × K)) (hc : ∀ e ∈ row, e.1 < x.length) :
    dotRow (x.map some) (row.map fun e => (e.1, some e.2)) = some ((row.map fun e => (x[e.1]?).getD 0 * e.2).sum) := by
  unfold dotRow
  suffices H : ∀ (s : K), (row.map fun e => (e.1, some e.2)).foldl
      (fun (s : Option K) e => s +. (((x.map some)[e.1]?).getD zero *. e.2)) (some s) =
      some (s + (row.map fun e => (x[e.1]?).getD 0 * e.2).sum) by
    have := H 0
    simpa using this
  induction row with
  | nil => intro s; simp
  | cons e row ih =>
    intro s
    have he : e.1 < x.length := hc e (by simp)
    simp only [List.map_cons, List.foldl_cons, List.sum_cons]
    have : ((some s : Option K) +. (((x.map some)[e.1]?).getD zero *. some e.2)) = some (s + x[e.1] * e.2) := by
      simp [he]
    rw [this, ih fun e he => hc e (by simp [he])]
    simp [he, add_assoc]

theorem total_some (l : List K) : total (l.map some) = some l.sum := by
  cases l with
  | nil => rfl
  | cons v l =>
    simp only [List.map_cons, total, List.sum_cons]
    induction l generalizing v with
    | nil => simp
    | cons w l ih =>
      simp only [List.map_cons, List.foldl_cons, List.sum_cons]
      have : ((some v : Option K) +. some w) = some (v + w) := rfl
      rw [this, ih, add_assoc]

theorem valuesAt_some (j : Nat) (row : List (Nat × K)) :
    valuesAt j (row.map fun e => (e.1, some e.2)) = (valuesAt j row).map some := by
  simp only [valuesAt, List.filter_map, List.map_map]
  rfl

theorem sum_dense (x : Nat → K) (n : Nat) (row : List (Nat × K)) (hc : ∀ e ∈ row, e.1 < n) :
    ∑ j ∈ Finset.range n, (valuesAt j row).sum * x j = (row.map fun e => x e.1 * e.2).sum := by
  induction row with
  | nil => simp [valuesAt]
  | cons e row ih =>
    have : ∀ j, (valuesAt j (e :: row)).sum = (if e.1 = j then e.2 else 0) + (valuesAt j row).sum := by
      intro j
      simp only [valuesAt, List.filter_cons]
      by_cases h : e.1 = j
      · simp [h]
      · have : (e.1 == j) = false := by simpa using h
        simp [h, this]
    simp only [this, add_mul, Finset.sum_add_distrib, ih fun e he => hc e (by simp [he])]
    simp [Finset.sum_ite_eq, hc e (by simp), mul_comm]

end

end Verif
