import Verif.Spec.EndToEnd
import Verif.Props.LpFile
import Verif.Proofs.Feas2
import Mathlib.Algebra.BigOperators.Group.Finset.Basic
import Mathlib.Algebra.BigOperators.Ring.Finset

/-! # The file says the problem -/

namespace Verif

set_option linter.unusedSectionVars false
set_option linter.unusedSimpArgs false

section
variable {K : Type} [Field K] [LinearOrder K] [IsStrictOrderedRing K] [Trig K]

/-- Summing terms one by one or by name. -/
theorem sum_by_key {τ α : Type} [BEq α] [LawfulBEq α] (n : Nat) (key : Nat → α) (hk : ∀ i j, key i = key j → i = j) (co : τ → K) (nm : τ → α) (v : α → K) (ts : List τ)
    (h : ∀ t ∈ ts, ∃ j < n, nm t = key j) :
    (ts.map fun t => co t * v (nm t)).sum =
      ∑ j ∈ Finset.range n, ((ts.filter fun t => nm t == key j).map co).sum * v (key j) := by
  induction ts with
  | nil => simp
  | cons t ts ih =>
    obtain ⟨j0, hj0, hn⟩ := h t (by simp)
    rw [List.map_cons, List.sum_cons, ih fun t ht => h t (by simp [ht])]
    have : ∀ j, (((t :: ts).filter fun t => nm t == key j).map co).sum * v (key j) =
        (if j = j0 then co t * v (nm t) else 0) + ((ts.filter fun t => nm t == key j).map co).sum * v (key j) := by
      intro j
      by_cases hj : j = j0
      · subst hj
        simp [hn, add_mul]
      · have : (nm t == key j) = false := by
          rw [beq_eq_false_iff_ne, hn]
          intro he
          exact hj (hk _ _ he).symm
        simp [this, hj]
    rw [Finset.sum_congr rfl fun j _ => this j, Finset.sum_add_distrib]
    congr 1
    rw [Finset.sum_ite_eq' (Finset.range n) j0]
    simp [hj0]

theorem total_eq_some {l : List (Option K)} {t : K} (h : total l = some t) :
    ∃ l' : List K, l = l'.map some ∧ l'.sum = t := by
  rw [total_osum] at h
  obtain ⟨h1, h2⟩ := osum_eq_some h
  refine ⟨l.map (·.getD 0), ?_, h2.symm⟩
  rw [List.map_map]
  refine (List.map_id _).symm.trans (List.map_congr_left fun x hx => ?_)
  obtain ⟨y, rfl⟩ := h1 x hx
  rfl

/-- The value of terms whose coefficients, summed by name, are the numbers `C j`. -/
theorem total_by_key {τ α : Type} [BEq α] [LawfulBEq α] (n : Nat) (key : Nat → α) (hk : ∀ i j, key i = key j → i = j) (co : τ → Option K) (nm : τ → α) (v : α → K)
    (C : Nat → K) (ts : List τ) (h : ∀ t ∈ ts, ∃ j < n, nm t = key j)
    (hC : ∀ j < n, total ((ts.filter fun t => nm t == key j).map co) = some (C j)) :
    total (ts.map fun t => co t *. some (v (nm t))) = some (∑ j ∈ Finset.range n, C j * v (key j)) := by
  have hco : ∀ t ∈ ts, co t = some ((co t).getD 0) := by
    intro t ht
    obtain ⟨j, hj, hn⟩ := h t ht
    obtain ⟨l', hl', -⟩ := total_eq_some (hC j hj)
    have : co t ∈ (ts.filter fun t => nm t == key j).map co := List.mem_map.2 ⟨t, List.mem_filter.2 ⟨ht, by simp [hn]⟩, rfl⟩
    rw [hl'] at this
    obtain ⟨w, -, hw⟩ := List.mem_map.1 this
    rw [← hw]; rfl
  have e1 : (ts.map fun t => co t *. some (v (nm t))) = (ts.map fun t => (co t).getD 0 * v (nm t)).map some := by
    rw [List.map_map]
    refine List.map_congr_left fun t ht => ?_
    rw [hco t ht]; rfl
  rw [e1, total_some, sum_by_key n key hk (fun t => (co t).getD 0) nm v ts h]
  congr 1
  refine Finset.sum_congr rfl fun j hj => ?_
  congr 1
  have := hC j (Finset.mem_range.1 hj)
  have e2 : ((ts.filter fun t => nm t == key j).map co) = ((ts.filter fun t => nm t == key j).map fun t => (co t).getD 0).map some := by
    rw [List.map_map]
    exact List.map_congr_left fun t ht => hco t (List.mem_filter.1 ht).1
  rw [e2, total_some] at this
  injection this

/-- A matrix row applied to a vector, by columns. -/
theorem row_by_key {a : Coo (Option K)} {i n : Nat} {C : Nat → K} {ts : List K} (hlen : ts.length = n)
    (hc : ∀ e ∈ rowOf a.triplets i, e.1 < n) (hC : ∀ j < n, a.dense i j = some (C j)) :
    total ((rowOf a.triplets i).map fun e => e.2 *. ((ts.map some)[e.1]?).getD none) =
      some (∑ j ∈ Finset.range n, C j * (ts[j]?).getD 0) := by
  rw [← total_by_key n (fun j => j) (fun _ _ h => h) (fun e : Nat × Option K => e.2) Prod.fst (fun j => (ts[j]?).getD 0) C (rowOf a.triplets i)
    (fun t ht => ⟨t.1, hc t ht, rfl⟩) (fun j hj => by rw [← hC j hj]; rfl)]
  congr 1
  refine List.map_congr_left fun e he => ?_
  have : e.1 < ts.length := hlen ▸ hc e he
  simp [this]

theorem dot_range (c ts : List K) (h : ts.length = c.length) (s : K) :
    ((c.map some).zip (ts.map some)).foldl (fun s e => s +. (e.1 *. e.2)) (some s) =
      some (s + ∑ j ∈ Finset.range c.length, (c[j]?).getD 0 * (ts[j]?).getD 0) := by
  induction c generalizing ts s with
  | nil => simp
  | cons a c ih =>
    cases ts with
    | nil => simp at h
    | cons t ts =>
      simp only [List.map_cons, List.zip_cons_cons, List.foldl_cons, List.length_cons, Exact.mul_some, Exact.add_some]
      rw [ih ts (by simpa using h), Finset.sum_range_succ']
      simp only [List.getElem?_cons_succ, List.getElem?_cons_zero, Option.getD_some]
      congr 1
      ring

/-- For a problem with finite objective coefficients and finite matrix entries whose numbers are printed exactly: the file has a row
for each row and bounds for each variable, and values satisfy the file if and only if they are a feasible point of the problem, with
the same objective value. -/
theorem milp_file {r : K → K} (hr : Rounding r) {readNum : List Char → Option (Option K)} {fmtE : Option K → List Char}
    (hf : LpFmt readNum fmtE (Option.map r)) {c : List K} {a : Coo (Option K)} {d : List K} {b l u : List (Option K)} {p : List Bool}
    {x0 : Option (List (Option K))} {q : Milp (Option K)} (hq : Milp.new (c.map some) a b l u p x0 = .ok q) (hw : a.WF)
    (hd : a.data = d.map some) (hri : ∀ i ∈ a.rowInds, i < a.rows) (hci : ∀ j ∈ a.colInds, j < a.cols) (hlen : c.length = a.cols)
    (hex : q.PrintsExactly r) :
    ∃ text file, q.lpText fmtE = .ok text ∧ readLp readNum text = some file ∧
      (∀ j < a.cols, ∃ e ∈ file.bounds, e.2.1 = xName j) ∧ (∀ e ∈ file.bounds, ∃ j < a.cols, e.2.1 = xName j) ∧
      (∀ e ∈ file.rows, ∃ i < a.rows, e.1 = cName i) ∧
      ∀ (v : List Char → K) (ts : List K), ts.length = a.cols → (∀ j < a.cols, ts[j]? = some (v (xName j))) →
        (file.Sat v ↔ q.base.Feasible (ts.map some)) ∧
        ∃ w, termsValue file.obj v = some w ∧ q.base.objectiveAt (ts.map some) = some (some w) := by
  obtain ⟨text, file, h1, h2, hobj, hobjn, hrl, hrows, hbl, hbounds, hgen⟩ := C44_problem hr hf hq hw hd hri hci hlen
  have hdim : b.length = a.rows ∧ l.length = a.cols ∧ u.length = a.cols ∧ p.length = a.cols := by
    by_contra hcon
    rw [C41_milp_partial.1 hcon] at hq
    cases hq
  have hq' : q = ⟨c.map some, Minlp.initial (Coo.fromNnz (a.cols, a.cols) 0) a b (Coo.fromNnz (0, a.cols) 0) [] l u p x0 (linearEval (c.map some))⟩ := by
    have : DimsOk (Coo.fromNnz (a.cols, a.cols) 0) a b (Coo.fromNnz (0, a.cols) 0) [] l u p := dims_linear.2 ⟨rfl, hdim⟩
    simp only [Milp.new, Minlp.new_ok (by simp) this, R.ok_bind, Except.ok.injEq] at hq
    exact hq.symm
  have hlin : LinInv (c.map some) a b l u p x0 q.base := by
    rw [hq']; exact LinInv.initial (by simpa using hlen)
  obtain ⟨da, db, dl, du, dp, -⟩ := hlin.data
  obtain ⟨hb, hl, hu, hp⟩ := hdim
  have hnx : q.base.nx = a.cols := by rw [Minlp.nx, da]
  refine ⟨text, file, h1, h2, ?_, ?_, ?_, ?_⟩
  · intro j hj
    obtain ⟨lo, hi, -, -, he⟩ := hbounds j hj
    exact ⟨_, List.mem_of_getElem? he, rfl⟩
  · intro e he
    obtain ⟨j, hj⟩ := List.mem_iff_getElem?.1 he
    have hlt : j < a.cols := by
      rw [← hbl]; exact (List.getElem?_eq_some_iff.1 hj).1
    obtain ⟨lo, hi, -, -, he'⟩ := hbounds j hlt
    rw [he'] at hj
    injection hj with hj
    exact ⟨j, hlt, by rw [← hj]⟩
  · intro e he
    obtain ⟨j, hj⟩ := List.mem_iff_getElem?.1 he
    have hlt : j < a.rows := by
      rw [← hrl]; exact (List.getElem?_eq_some_iff.1 hj).1
    obtain ⟨_, _, he', -⟩ := hrows j hlt
    rw [he'] at hj
    injection hj with hj
    exact ⟨j, hlt, by rw [← hj]⟩
  · intro v ts htl hts
    have hdense : ∀ i j, ∃ w, a.dense i j = some w ∧ r w = w := by
      intro i j
      have : ∃ w, a.dense i j = some w := by
        unfold Coo.dense
        rw [total_osum]
        have hall : ∀ x ∈ valuesAt j (rowOf a.triplets i), ∃ w, x = some w := by
          intro x hx
          simp only [valuesAt, List.mem_map, List.mem_filter, rowOf] at hx
          obtain ⟨e', ⟨⟨t, ⟨ht, -⟩, rfl⟩, -⟩, rfl⟩ := hx
          have := (List.of_mem_zip (List.of_mem_zip ht).2).2
          rw [hd] at this
          obtain ⟨v, -, hv⟩ := List.mem_map.1 this
          exact ⟨v, hv.symm⟩
        generalize valuesAt j (rowOf a.triplets i) = vs at hall
        induction vs with
        | nil => exact ⟨0, rfl⟩
        | cons x vs ih =>
          obtain ⟨w, rfl⟩ := hall x (by simp)
          obtain ⟨w', hw'⟩ := ih fun y hy => hall y (by simp [hy])
          exact ⟨w + w', by rw [osum_cons, hw']; rfl⟩
      obtain ⟨w, hw⟩ := this
      exact ⟨w, hw, hex.a i j w (by rw [da]; exact hw)⟩
    have htd : ∀ j < a.cols, (ts[j]?).getD 0 = v (xName j) := fun j hj => by rw [hts j hj]; rfl
    have hrowval : ∀ i < a.rows, ∀ ts' rhs, file.rows[i]? = some (cName i, ts', rhs) →
        termsValue ts' v = total ((rowOf a.triplets i).map fun e => e.2 *. ((ts.map some)[e.1]?).getD none) := by
      intro i hi ts' rhs he
      obtain ⟨ts'', rhs', he', -, hco, hn⟩ := hrows i hi
      rw [he'] at he
      injection he with he
      simp only [Prod.mk.injEq] at he
      obtain ⟨-, rfl, rfl⟩ := he
      have hC : ∀ j, a.dense i j = some (((a.dense i j)).getD 0) := fun j => by
        obtain ⟨w, hw, -⟩ := hdense i j; rw [hw]; rfl
      rw [row_by_key (C := fun j => (a.dense i j).getD 0) htl (fun e he => ?_) fun j _ => hC j]
      · unfold termsValue
        rw [total_by_key a.cols xName (fun _ _ => xName_inj.1) Prod.fst Prod.snd v (fun j => (a.dense i j).getD 0) ts'' hn (fun j hj => ?_)]
        · congr 1
          exact Finset.sum_congr rfl fun j hj => by rw [htd j (Finset.mem_range.1 hj)]
        · have := hco j
          obtain ⟨w, hw, hrw⟩ := hdense i j
          rw [hw] at this ⊢
          unfold coefOf at this
          rw [this]
          simp [hrw]
      · simp only [rowOf, List.mem_map, List.mem_filter] at he
        obtain ⟨t', ⟨ht', -⟩, rfl⟩ := he
        exact hci _ (List.of_mem_zip (List.of_mem_zip ht').2).1
    refine ⟨⟨fun hs => ⟨by rw [hnx]; simpa using htl, ?_, ?_, ?_, ?_⟩, fun hs => ⟨?_, ?_, ?_⟩⟩, ?_⟩
    · intro i w hi
      rw [db] at hi
      have hia : i < a.rows := by rw [← hb]; exact (List.getElem?_eq_some_iff.1 hi).1
      obtain ⟨ts', rhs, he, ⟨w', hw', hrhs⟩, -⟩ := hrows i hia
      obtain ⟨t, ht, hval⟩ := hs.rows _ (List.mem_of_getElem? he)
      rw [hi] at hw'
      injection hw' with hw'
      subst hw'
      simp only at ht
      rw [hrhs] at ht
      cases w with
      | none => simp at ht
      | some w =>
        have hrw : r w = w := hex.b w (by rw [db]; exact List.mem_of_getElem? hi)
        simp only [Option.map_some, Option.some.injEq, hrw] at ht
        subst ht
        refine ⟨w, rfl, ?_⟩
        rw [da, ← hrowval i hia ts' rhs he]
        exact hval
    · exact ⟨_, hlin.evaluate (by simp [htl, hlen]), by simp [hlin.f]⟩
    · intro i x hi
      have hia : i < a.cols := by
        have := (List.getElem?_eq_some_iff.1 hi).1
        simpa [htl] using this
      obtain ⟨lo, up, hlo, hup, he⟩ := hbounds i hia
      obtain ⟨lo', up', e1, e2, h3, h4⟩ := hs.bounds _ (List.mem_of_getElem? he)
      simp only at e1 e2 h3 h4
      cases lo with
      | none => simp at e1
      | some lo =>
        cases up with
        | none => simp at e2
        | some up =>
          have r1 := hex.l lo (by rw [dl]; exact List.mem_of_getElem? hlo)
          have r2 := hex.u up (by rw [du]; exact List.mem_of_getElem? hup)
          simp only [Option.map_some, Option.some.injEq, r1, r2] at e1 e2
          subst e1
          subst e2
          rw [List.getElem?_map, hts i hia] at hi
          simp only [Option.map_some, Option.some.injEq] at hi
          exact ⟨_, _, _, hi.symm, by rw [dl]; exact hlo, by rw [du]; exact hup, h3, h4⟩
    · intro i hi
      rw [dp] at hi
      have hia : i < a.cols := by rw [← hp]; exact (List.getElem?_eq_some_iff.1 hi).1
      obtain ⟨z, hz⟩ := hs.general (xName i) ((hgen _).2 ⟨i, hi, rfl⟩)
      exact ⟨z, by rw [List.getElem?_map, hts i hia, hz]; rfl⟩
    · intro e he
      obtain ⟨i, hi⟩ := List.mem_iff_getElem?.1 he
      have hia : i < a.rows := by rw [← hrl]; exact (List.getElem?_eq_some_iff.1 hi).1
      obtain ⟨ts', rhs, he', ⟨w', hw', hrhs⟩, -⟩ := hrows i hia
      rw [he'] at hi
      injection hi with hi
      subst hi
      obtain ⟨t, rfl, hval⟩ := hs.linear i w' (by rw [db]; exact hw')
      have hrw : r t = t := hex.b t (by rw [db]; exact List.mem_of_getElem? hw')
      refine ⟨t, by simp [hrhs, hrw], ?_⟩
      rw [hrowval i hia ts' rhs he', ← da]
      exact hval
    · intro e he
      obtain ⟨j, hj⟩ := List.mem_iff_getElem?.1 he
      have hlt : j < a.cols := by rw [← hbl]; exact (List.getElem?_eq_some_iff.1 hj).1
      obtain ⟨lo, up, hlo, hup, he'⟩ := hbounds j hlt
      rw [he'] at hj
      injection hj with hj
      subst hj
      obtain ⟨t, lo', up', h3, h4, h5, h6, h7⟩ := hs.bounds j (some (v (xName j))) (by rw [List.getElem?_map, hts j hlt]; rfl)
      rw [dl, hlo] at h4
      rw [du, hup] at h5
      simp only [Option.some.injEq] at h3 h4 h5
      subst h4
      subst h5
      subst h3
      have r1 := hex.l lo' (by rw [dl]; exact List.mem_of_getElem? hlo)
      have r2 := hex.u up' (by rw [du]; exact List.mem_of_getElem? hup)
      exact ⟨lo', up', by simp [r1], by simp [r2], h6, h7⟩
    · intro x hx
      obtain ⟨j, hj, rfl⟩ := (hgen x).1 hx
      have hlt : j < a.cols := by rw [← hp]; exact (List.getElem?_eq_some_iff.1 hj).1
      obtain ⟨z, hz⟩ := hs.integral j (by rw [dp]; exact hj)
      rw [List.getElem?_map, hts j hlt] at hz
      simp only [Option.map_some, Option.some.injEq] at hz
      exact ⟨z, hz⟩
    · refine ⟨∑ j ∈ Finset.range a.cols, (c[j]?).getD 0 * v (xName j), ?_, ?_⟩
      · unfold termsValue
        refine total_by_key a.cols xName (fun _ _ => xName_inj.1) Prod.fst Prod.snd v (fun j => (c[j]?).getD 0) file.obj hobjn (fun j hj => ?_)
        have := hobj j
        unfold coefOf at this
        rw [this]
        have hjc : j < c.length := by omega
        have : r c[j] = c[j] := hex.c _ (by rw [hq']; exact List.mem_map.2 ⟨c[j], List.getElem_mem hjc, rfl⟩)
        simp [hjc, this]
      · unfold Minlp.objectiveAt
        rw [hlin.evaluate (by simp [htl, hlen])]
        simp only [Option.some.injEq]
        have hz : (zero : Option K) = some 0 := rfl
        rw [unrolledDot_exact, hz, dot_range c ts (by omega) 0]
        rw [zero_add, hlen]
        congr 1
        exact Finset.sum_congr rfl fun j hj => by rw [htd j (Finset.mem_range.1 hj)]

end

end Verif
