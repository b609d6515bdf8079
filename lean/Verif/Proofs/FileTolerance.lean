import Mathlib.Algebra.Order.BigOperators.Group.Finset
import Mathlib.Algebra.Order.BigOperators.Ring.Finset
import Mathlib.Tactic.Linarith
import Verif.Spec.FileTolerance
import Verif.Proofs.EndToEnd

/-! # The file says the problem up to rounding -/

namespace Verif

set_option linter.unusedSectionVars false
set_option linter.unusedSimpArgs false

section
variable {K : Type} [Field K] [LinearOrder K] [IsStrictOrderedRing K] [Trig K]

/-- Values that satisfy the file up to tolerances satisfy the problem up to larger ones. -/
theorem milp_file_within {r : K → K} (hr : Rounding r)
    {readNum : List Char → Option (Option K)} {fmtE : Option K → List Char}
    (hf : LpFmt readNum fmtE (Option.map r)) {c : List K} {a : Coo (Option K)} {d : List K} {b l u : List (Option K)} {p : List Bool}
    {x0 : Option (List (Option K))} {q : Milp (Option K)} (hq : Milp.new (c.map some) a b l u p x0 = .ok q) (hw : a.WF)
    (hd : a.data = d.map some) (hri : ∀ i ∈ a.rowInds, i < a.rows) (hci : ∀ j ∈ a.colInds, j < a.cols) (hlen : c.length = a.cols) :
    ∃ text file, q.lpText fmtE = .ok text ∧ readLp readNum text = some file ∧
      (∀ j < a.cols, ∃ e ∈ file.bounds, e.2.1 = xName j) ∧ (∀ e ∈ file.bounds, ∃ j < a.cols, e.2.1 = xName j) ∧
      (∀ e ∈ file.rows, ∃ i < a.rows, e.1 = cName i) ∧
      ∀ (v : List Char → K) (ts : List K), ts.length = a.cols → (∀ j < a.cols, ts[j]? = some (v (xName j))) →
        ∀ δ ε η γ β, file.SatWithin δ ε η v → q.base.PrintsWithin r γ β ts →
          q.base.FeasibleWithin (δ + γ) (ε + β) η (ts.map some) := by
  obtain ⟨text, file, h1, h2, hobj, hobjn, hrl, hrows, hbl, hbounds, hgen⟩ := C44_problem hr hf hq hw hd hri hci hlen
  have hdim : b.length = a.rows ∧ l.length = a.cols ∧ u.length = a.cols ∧ p.length = a.cols := by
    by_contra hcon
    rw [C41_milp_partial.1 hcon] at hq
    cases hq
  have hq' : q = ⟨c.map some, Minlp.initial (Coo.fromNnz (a.cols, a.cols) 0) a b (Coo.fromNnz (0, a.cols) 0) [] l u p x0 (linearEval (c.map some))⟩ := by
    have : DimsOk (Coo.fromNnz (a.cols, a.cols) 0) a b (Coo.fromNnz (0, a.cols) 0) [] l u p := dims_linear.2 ⟨rfl, hdim⟩
    simp only [Milp.new, Minlp.new_ok (by simp) this, R.ok_bind, Except.ok.injEq] at hq
    exact hq.symm
  have hlin : LinInv (c.map some) a b l u p x0 q.base := by
    rw [hq']; exact LinInv.initial (by simpa using hlen)
  obtain ⟨da, db, dl, du, dp, -⟩ := hlin.data
  obtain ⟨hb, hl, hu, hp⟩ := hdim
  have hnx : q.base.nx = a.cols := by rw [Minlp.nx, da]
  refine ⟨text, file, h1, h2, ?_, ?_, ?_, ?_⟩
  · intro j hj
    obtain ⟨lo, hi, -, -, he⟩ := hbounds j hj
    exact ⟨_, List.mem_of_getElem? he, rfl⟩
  · intro e he
    obtain ⟨j, hj⟩ := List.mem_iff_getElem?.1 he
    have hlt : j < a.cols := by
      rw [← hbl]; exact (List.getElem?_eq_some_iff.1 hj).1
    obtain ⟨lo, hi, -, -, he'⟩ := hbounds j hlt
    rw [he'] at hj
    injection hj with hj
    exact ⟨j, hlt, by rw [← hj]⟩
  · intro e he
    obtain ⟨j, hj⟩ := List.mem_iff_getElem?.1 he
    have hlt : j < a.rows := by
      rw [← hrl]; exact (List.getElem?_eq_some_iff.1 hj).1
    obtain ⟨_, _, he', -⟩ := hrows j hlt
    rw [he'] at hj
    injection hj with hj
    exact ⟨j, hlt, by rw [← hj]⟩
  · intro v ts htl hts δ ε η γ β hs hz
    have hdense : ∀ i j, ∃ w, a.dense i j = some w := by
      intro i j
      unfold Coo.dense
      rw [total_osum]
      have hall : ∀ x ∈ valuesAt j (rowOf a.triplets i), ∃ w, x = some w := by
        intro x hx
        simp only [valuesAt, List.mem_map, List.mem_filter, rowOf] at hx
        obtain ⟨e', ⟨⟨t, ⟨ht, -⟩, rfl⟩, -⟩, rfl⟩ := hx
        have := (List.of_mem_zip (List.of_mem_zip ht).2).2
        rw [hd] at this
        obtain ⟨v, -, hv⟩ := List.mem_map.1 this
        exact ⟨v, hv.symm⟩
      generalize valuesAt j (rowOf a.triplets i) = vs at hall
      induction vs with
      | nil => exact ⟨0, rfl⟩
      | cons x vs ih =>
        obtain ⟨w, rfl⟩ := hall x (by simp)
        obtain ⟨w', hw'⟩ := ih fun y hy => hall y (by simp [hy])
        exact ⟨w + w', by rw [osum_cons, hw']; rfl⟩
    have htd : ∀ j < a.cols, (ts[j]?).getD 0 = v (xName j) := fun j hj => by rw [hts j hj]; rfl
    have hC : ∀ i j, a.dense i j = some (((a.dense i j)).getD 0) := fun i j => by
      obtain ⟨w, hw⟩ := hdense i j; rw [hw]; rfl
    have hrowval : ∀ i < a.rows, total ((rowOf a.triplets i).map fun e => e.2 *. ((ts.map some)[e.1]?).getD none) =
        some (∑ j ∈ Finset.range a.cols, (a.dense i j).getD 0 * v (xName j)) := by
      intro i hi
      rw [row_by_key (C := fun j => (a.dense i j).getD 0) htl (fun e he => ?_) fun j _ => hC i j]
      · congr 1
        exact Finset.sum_congr rfl fun j hj => by rw [htd j (Finset.mem_range.1 hj)]
      · simp only [rowOf, List.mem_map, List.mem_filter] at he
        obtain ⟨t', ⟨ht', -⟩, rfl⟩ := he
        exact hci _ (List.of_mem_zip (List.of_mem_zip ht').2).1
    have hfileval : ∀ i < a.rows, ∀ ts' rhs, file.rows[i]? = some (cName i, ts', rhs) →
        termsValue ts' v = some (∑ j ∈ Finset.range a.cols, r ((a.dense i j).getD 0) * v (xName j)) := by
      intro i hi ts' rhs he
      obtain ⟨ts'', rhs', he', -, hco, hn⟩ := hrows i hi
      rw [he'] at he
      injection he with he
      simp only [Prod.mk.injEq] at he
      obtain ⟨-, rfl, rfl⟩ := he
      unfold termsValue
      refine total_by_key a.cols xName (fun _ _ => xName_inj.1) Prod.fst Prod.snd v (fun j => r ((a.dense i j).getD 0)) ts'' hn (fun j hj => ?_)
      have := hco j
      obtain ⟨w, hw⟩ := hdense i j
      rw [hw] at this ⊢
      unfold coefOf at this
      rw [this]
      rfl
    refine ⟨by rw [hnx]; simpa using htl, ?_, ?_, ?_, ?_⟩
    · intro i w hi
      rw [db] at hi
      have hia : i < a.rows := by rw [← hb]; exact (List.getElem?_eq_some_iff.1 hi).1
      obtain ⟨ts', rhs, he, ⟨w', hw', hrhs⟩, -⟩ := hrows i hia
      obtain ⟨t, y, ht, hval, hle⟩ := hs.rows _ (List.mem_of_getElem? he)
      rw [hi] at hw'
      injection hw' with hw'
      subst hw'
      simp only at ht hval
      rw [hrhs] at ht
      rw [hfileval i hia ts' rhs he] at hval
      injection hval with hval
      cases w with
      | none => simp at ht
      | some w =>
        simp only [Option.map_some, Option.some.injEq] at ht
        refine ⟨w, _, rfl, by rw [da]; exact hrowval i hia, ?_⟩
        have hsz := hz.row i w (by rw [db]; exact hi)
        rw [hnx, da] at hsz
        have hdiff : |(∑ j ∈ Finset.range a.cols, r ((a.dense i j).getD 0) * v (xName j)) -
            ∑ j ∈ Finset.range a.cols, (a.dense i j).getD 0 * v (xName j)| ≤
            ∑ j ∈ Finset.range a.cols, |r ((a.dense i j).getD 0) - (a.dense i j).getD 0| * |(ts[j]?).getD 0| := by
          rw [← Finset.sum_sub_distrib]
          refine (Finset.abs_sum_le_sum_abs _ _).trans (Finset.sum_le_sum fun j hj => ?_)
          rw [← sub_mul, abs_mul, htd j (Finset.mem_range.1 hj)]
        rw [hval] at hdiff
        rw [← ht] at hle
        rw [abs_le] at hle hdiff ⊢
        have hbw := neg_abs_le (r w - w)
        have hbw' := le_abs_self (r w - w)
        constructor <;> linarith [hle.1, hle.2, hdiff.1, hdiff.2, hbw, hbw']
    · exact ⟨_, hlin.evaluate (by simp [htl, hlen]), by simp [hlin.f]⟩
    · intro i x hi
      have hia : i < a.cols := by
        have := (List.getElem?_eq_some_iff.1 hi).1
        simpa [htl] using this
      obtain ⟨lo, up, hlo, hup, he⟩ := hbounds i hia
      obtain ⟨lo', up', e1, e2, h3, h4⟩ := hs.bounds _ (List.mem_of_getElem? he)
      simp only at e1 e2 h3 h4
      cases lo with
      | none => simp at e1
      | some lo =>
        cases up with
        | none => simp at e2
        | some up =>
          simp only [Option.map_some, Option.some.injEq] at e1 e2
          subst e1
          subst e2
          rw [List.getElem?_map, hts i hia] at hi
          simp only [Option.map_some, Option.some.injEq] at hi
          have r1 := hz.lower lo (by rw [dl]; exact List.mem_of_getElem? hlo)
          have r2 := hz.upper up (by rw [du]; exact List.mem_of_getElem? hup)
          have t1 := abs_le.1 r1
          have t2 := abs_le.1 r2
          exact ⟨_, _, _, hi.symm, by rw [dl]; exact hlo, by rw [du]; exact hup, by linarith [t1.1, t1.2], by linarith [t2.1, t2.2]⟩
    · intro i hi
      rw [dp] at hi
      have hia : i < a.cols := by rw [← hp]; exact (List.getElem?_eq_some_iff.1 hi).1
      obtain ⟨z, hz⟩ := hs.general (xName i) ((hgen _).2 ⟨i, hi, rfl⟩)
      exact ⟨_, z, by rw [List.getElem?_map, hts i hia]; rfl, hz⟩

end

end Verif
