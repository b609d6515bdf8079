import Verif.Spec.DualReport
import Verif.Spec.Kkt
import Verif.Proofs.Kkt
import Verif.Props.EndToEnd

/-! # Multipliers through files -/

namespace Verif

open Exact

set_option linter.unusedSectionVars false
set_option linter.unusedSimpArgs false

section
variable {K : Type} [Field K] [LinearOrder K] [IsStrictOrderedRing K] [Trig K]

/-- The entries of a matrix of numbers are numbers. -/
theorem dense_some {a : Coo (Option K)} {d : List K} (hd : a.data = d.map some) (i j : Nat) : ∃ w, a.dense i j = some w := by
  unfold Coo.dense
  rw [total_osum]
  have hall : ∀ x ∈ valuesAt j (rowOf a.triplets i), ∃ w, x = some w := by
    intro x hx
    simp only [valuesAt, List.mem_map, List.mem_filter, rowOf] at hx
    obtain ⟨e', ⟨⟨t, ⟨ht, -⟩, rfl⟩, -⟩, rfl⟩ := hx
    have := (List.of_mem_zip (List.of_mem_zip ht).2).2
    rw [hd] at this
    obtain ⟨v, -, hv⟩ := List.mem_map.1 this
    exact ⟨v, hv.symm⟩
  generalize valuesAt j (rowOf a.triplets i) = vs at hall
  induction vs with
  | nil => exact ⟨0, rfl⟩
  | cons x vs ih =>
    obtain ⟨w, rfl⟩ := hall x (by simp)
    obtain ⟨w', hw'⟩ := ih fun y hy => hall y (by simp [hy])
    exact ⟨w + w', by rw [osum_cons, hw']; rfl⟩

/-- The coefficients in the file are those of the problem. -/
theorem milp_coefs {r : K → K} (hr : Rounding r) {readNum : List Char → Option (Option K)} {fmtE : Option K → List Char}
    (hf : LpFmt readNum fmtE (Option.map r)) {c : List K} {a : Coo (Option K)} {d : List K} {b l u : List (Option K)} {p : List Bool}
    {x0 : Option (List (Option K))} {q : Milp (Option K)} (hq : Milp.new (c.map some) a b l u p x0 = .ok q) (hw : a.WF)
    (hd : a.data = d.map some) (hri : ∀ i ∈ a.rowInds, i < a.rows) (hci : ∀ j ∈ a.colInds, j < a.cols) (hlen : c.length = a.cols)
    (hex : q.PrintsExactly r) {text : List Char} {file : LpContent (Option K)} (htext : q.lpText fmtE = .ok text)
    (hfile : readLp readNum text = some file) :
    LinInv (c.map some) a b l u p x0 q.base ∧
    (∀ j < a.cols, coefOf file.obj (xName j) = some ((c[j]?).getD 0)) ∧
    (∃ T : Nat → List (Option K × List Char), file.rows.map (fun r => (r.1, r.2.1)) = (List.range a.rows).map (fun i => (cName i, T i)) ∧
      ∀ i < a.rows, ∀ j, ∃ w, coefOf (T i) (xName j) = some w ∧ a.dense i j = some w) ∧
    ∀ j < a.cols, ∃ lo hi, l[j]? = some lo ∧ u[j]? = some hi ∧ (lo, xName j, hi) ∈ file.bounds := by
  obtain ⟨text', file', h1, h2, hobj, -, hrl, hrows, -, hbounds, -⟩ := C44_problem hr hf hq hw hd hri hci hlen
  rw [htext] at h1
  injection h1 with h1
  subst h1
  rw [hfile] at h2
  injection h2 with h2
  subst h2
  have hdim : b.length = a.rows ∧ l.length = a.cols ∧ u.length = a.cols ∧ p.length = a.cols := by
    by_contra hcon
    rw [C41_milp_partial.1 hcon] at hq
    cases hq
  have hq' : q = ⟨c.map some, Minlp.initial (Coo.fromNnz (a.cols, a.cols) 0) a b (Coo.fromNnz (0, a.cols) 0) [] l u p x0 (linearEval (c.map some))⟩ := by
    have : DimsOk (Coo.fromNnz (a.cols, a.cols) 0) a b (Coo.fromNnz (0, a.cols) 0) [] l u p := dims_linear.2 ⟨rfl, hdim⟩
    simp only [Milp.new, Minlp.new_ok (by simp) this, R.ok_bind, Except.ok.injEq] at hq
    exact hq.symm
  have hlin : LinInv (c.map some) a b l u p x0 q.base := by
    rw [hq']; exact LinInv.initial (by simpa using hlen)
  obtain ⟨da, db, dl, du, dp, -⟩ := hlin.data
  have hcol : ∀ i j, (a.dense i j).map r = a.dense i j := fun i j => by
    obtain ⟨w, hw'⟩ := dense_some hd i j
    rw [hw', Option.map_some, hex.a i j w (by rw [da]; exact hw')]
  have hmap : ∀ (L : List (Option K)) (j : Nat) (v : Option K), (∀ w, some w ∈ L → r w = w) → L[j]? = some v → v.map r = v := by
    intro L j v hL hj
    cases v with
    | none => rfl
    | some v => rw [Option.map_some, hL v (List.mem_of_getElem? hj)]
  refine ⟨hlin, fun j hj => ?_, ⟨fun i => ((file.rows[i]?).map fun r => r.2.1).getD [], ?_, fun i hi j => ?_⟩, fun j hj => ?_⟩
  · rw [hobj j]
    have hjc : j < c.length := by omega
    have : r c[j] = c[j] := hex.c _ (by rw [hq']; exact List.mem_map.2 ⟨c[j], List.getElem_mem hjc, rfl⟩)
    simp [hjc, this]
  · refine List.ext_getElem? fun i => ?_
    by_cases hi : i < a.rows
    · obtain ⟨ts, rhs, he, -⟩ := hrows i hi
      simp [he, List.getElem?_range hi]
    · rw [List.getElem?_eq_none (by simp; omega), List.getElem?_eq_none (by simp; omega)]
  · obtain ⟨ts, rhs, he, -, hco, -⟩ := hrows i hi
    obtain ⟨w, hw'⟩ := dense_some hd i j
    refine ⟨w, ?_, hw'⟩
    simp only [he, Option.map_some, Option.getD_some]
    rw [hco j, hcol, hw']
  · obtain ⟨lo, hi, hlo, hhi, he⟩ := hbounds j hj
    refine ⟨lo, hi, hlo, hhi, ?_⟩
    have := List.mem_of_getElem? he
    rwa [hmap l j lo (fun w hw => hex.l w (by rw [dl]; exact hw)) hlo, hmap u j hi (fun w hw => hex.u w (by rw [du]; exact hw)) hhi] at this

end

end Verif
