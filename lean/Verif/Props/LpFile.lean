import Verif.Proofs.LpFile
import Verif.Props.Matrix
import Verif.Props.Problem
import Mathlib.Algebra.Order.Ring.Defs
import Mathlib.Tactic.Linarith

/-! # Property C44: the LP file -/

namespace Verif

set_option linter.unusedSectionVars false
set_option linter.unusedSimpArgs false

section
variable {F G : Type} [FloatOps F] [FloatOps G] {readNum : List Char → Option G} {fmtE : F → List Char} {rnd : F → G}

/-- The text of the file, read by the rules of the LP format, for any arithmetic (such as doubles): the writer does not panic, the
text is well formed and states the terms of `c`, of the rows of the matrix with duplicates summed, the right-hand sides, the bounds
and the integer variables. -/
theorem C44_text (hf : LpFmt readNum fmtE rnd) {c : List F} {a : Coo F} {b l u : List F} {p : List Bool} {x0 : Option (List F)}
    {q : Milp F} (hq : Milp.new c a b l u p x0 = .ok q) (hw : a.WF) (hr : ∀ r ∈ a.rowInds, r < a.rows)
    (hc : ∀ j ∈ a.colInds, j < a.cols) (hlen : c.length = a.cols) :
    ∃ text, q.lpText fmtE = .ok text ∧ readLp readNum text = some
      ⟨((List.range c.length).zip c).filterMap (termVal rnd),
        (List.range a.rows).map (fun i =>
          (cName i, (sumRow (rowOf a.triplets i)).filterMap (termVal rnd), rnd ((b[i]?).getD zero))),
        (List.range c.length).map (fun i => (rnd ((l[i]?).getD zero), xName i, rnd ((u[i]?).getD zero))),
        (((List.range p.length).zip p).filter fun ip => ip.2).map fun ip => xName ip.1⟩ := by
  by_cases hd : b.length = a.rows ∧ l.length = a.cols ∧ u.length = a.cols ∧ p.length = a.cols
  swap
  · rw [C41_milp_partial.1 hd] at hq; cases hq
  obtain ⟨q', hq', e1, e2, e3, e4, e5, e6, -⟩ := C41_milp_partial (c := c) (x0 := x0) |>.2 hd
  rw [hq] at hq'
  injection hq' with hq'
  subst hq'
  obtain ⟨m, hm, hs, -, -, -, -, -, -, hrow⟩ := C36_to_csr hw hr
  have hmv := (C37_to_csr_dense hw hm).2 hc
  obtain ⟨m', hm', hv', hs', -, -, -, hrow'⟩ := sumDuplicates_ok hmv
  have hrows : m'.rows = a.rows := by simp [Csr.rows, Coo.rows, hs', hs]
  have hmrows : m.rows = a.rows := by simp [Csr.rows, Coo.rows, hs]
  have hok := lpText_ok (fmtE := fmtE) (q := q) ⟨m, e2 ▸ hm, hm'⟩ hv' (by rw [e3, hrows, hd.1]) (by rw [e4, e1, hd.2.1, hlen])
    (by rw [e5, e1, hd.2.2.1, hlen])
  refine ⟨_, hok, ?_⟩
  have hread := readLp_lpText hf c l u p
    ((List.range a.rows).map fun i => (i, sumRow (rowOf a.triplets i), (b[i]?).getD zero))
    ((List.range c.length).map fun i => (i, (l[i]?).getD zero, (u[i]?).getD zero))
  simp only [flatMap_map', List.map_map] at hread
  rw [e1, e3, e4, e5, e6, hrows]
  have hcongr : (List.range a.rows).flatMap (fun i => rowText fmtE i (m'.rowOf i) ((b[i]?).getD zero)) =
      (List.range a.rows).flatMap fun i => rowText fmtE i (sumRow (rowOf a.triplets i)) ((b[i]?).getD zero) := by
    rw [List.flatMap_def, List.flatMap_def]
    congr 1
    refine List.map_congr_left fun i hi => ?_
    rw [List.mem_range] at hi
    rw [hrow' i (by omega), hrow i hi]
  rw [hcongr]
  exact hread

theorem filter_terms (es : List (Nat × F)) (j : Nat) :
    ((es.filterMap (termVal rnd)).filter fun t => t.2 == xName j).map (fun t => t.1) =
      (valuesAt j es).filterMap fun v => (termVal rnd (j, v)).map Prod.fst := by
  induction es with
  | nil => rfl
  | cons e es ih =>
    by_cases hj : e.1 = j
    · have hv : valuesAt j (e :: es) = e.2 :: valuesAt j es := by simp [valuesAt, hj]
      have he : e = (j, e.2) := by rw [← hj]
      rw [hv, List.filterMap_cons, List.filterMap_cons, ← he]
      cases ht : termVal rnd e with
      | none => simpa using ih
      | some t =>
        have hname : t.2 = xName j := by
          unfold termVal at ht
          rw [← hj]
          split at ht
          · injection ht with ht; rw [← ht]
          · split at ht
            · injection ht with ht; rw [← ht]
            · cases ht
        simp [hname, ih]
    · have hv : valuesAt j (e :: es) = valuesAt j es := by simp [valuesAt, hj]
      rw [hv, List.filterMap_cons, ← ih]
      cases ht : termVal rnd e with
      | none => rfl
      | some t =>
        have hname : t.2 = xName e.1 := by
          unfold termVal at ht
          split at ht
          · injection ht with ht; rw [← ht]
          · split at ht
            · injection ht with ht; rw [← ht]
            · cases ht
        have : (t.2 == xName j) = false := by
          rw [hname]
          simpa [xName_inj] using hj
        simp [this]

theorem coefOf_terms (es : List (Nat × F)) (j : Nat) :
    coefOf (es.filterMap (termVal rnd)) (xName j) = total ((valuesAt j es).filterMap fun v => (termVal rnd (j, v)).map Prod.fst) := by
  rw [coefOf, filter_terms]

theorem terms_names {es : List (Nat × F)} {t : G × List Char} (h : t ∈ es.filterMap (termVal rnd)) : ∃ e ∈ es, t.2 = xName e.1 := by
  rw [List.mem_filterMap] at h
  obtain ⟨e, he, ht⟩ := h
  refine ⟨e, he, ?_⟩
  unfold termVal at ht
  split at ht
  · injection ht with ht; rw [← ht]
  · split at ht
    · injection ht with ht; rw [← ht]
    · cases ht

end

section
variable {K : Type} [Field K] [LinearOrder K] [IsStrictOrderedRing K] [Trig K]

theorem termVal_coef {r : K → K} (hr : Rounding r) (j : Nat) (v : K) :
    total (((termVal (Option.map r) (j, some v)).map Prod.fst).toList) = some (r v) := by
  unfold termVal
  simp only [Exact.zero_def, Exact.one_def, Exact.lt_some]
  have habs : (FloatOps.abs (some v) : Option K) = some (if 0 ≤ v then v else -v) := rfl
  rw [habs]
  by_cases h1 : 0 < v
  · have : 0 ≤ v := le_of_lt h1
    by_cases h3 : v = 1
    · simp [h3, total, hr.one]
    · simp [h1, this, h3, total]
  · by_cases h2 : v < 0
    · have : ¬ 0 ≤ v := not_le.2 h2
      by_cases h3 : -v = 1
      · have hv : v = -1 := by linarith
        have hn : ¬ (1 : K) < 0 := not_lt.2 zero_le_one
        simp [hv, total, hr.neg, hr.one, hn]
      · simp [h1, h2, this, h3, total, hr.neg]
    · have hv : v = 0 := le_antisymm (not_lt.1 h1) (not_lt.1 h2)
      simp [hv, total, hr.zero]

/-- C44: in exact arithmetic, for finite coefficients, what the file says is the problem with its numbers rounded as printed: each
variable has its objective coefficient; there is a row of the right name for each constraint, in order, in which each variable has
the (i, j) entry of the matrix as coefficient, with the right-hand side `b`; the bounds of each variable; and exactly the integer
variables. No other variable occurs. -/
theorem C44_problem {r : K → K} (hr : Rounding r) {readNum : List Char → Option (Option K)} {fmtE : Option K → List Char}
    (hf : LpFmt readNum fmtE (Option.map r)) {c : List K} {a : Coo (Option K)} {d : List K} {b l u : List (Option K)} {p : List Bool}
    {x0 : Option (List (Option K))} {q : Milp (Option K)} (hq : Milp.new (c.map some) a b l u p x0 = .ok q) (hw : a.WF)
    (hd : a.data = d.map some) (hri : ∀ i ∈ a.rowInds, i < a.rows) (hci : ∀ j ∈ a.colInds, j < a.cols) (hlen : c.length = a.cols) :
    ∃ text file, q.lpText fmtE = .ok text ∧ readLp readNum text = some file ∧
      (∀ j, coefOf file.obj (xName j) = some (r ((c[j]?).getD 0))) ∧ (∀ t ∈ file.obj, ∃ j < a.cols, t.2 = xName j) ∧
      file.rows.length = a.rows ∧ (∀ i < a.rows, ∃ ts rhs, file.rows[i]? = some (cName i, ts, rhs) ∧
        (∃ v, b[i]? = some v ∧ rhs = v.map r) ∧ (∀ j, coefOf ts (xName j) = (a.dense i j).map r) ∧
        ∀ t ∈ ts, ∃ j < a.cols, t.2 = xName j) ∧
      file.bounds.length = a.cols ∧ (∀ j < a.cols, ∃ lo hi, l[j]? = some lo ∧ u[j]? = some hi ∧
        file.bounds[j]? = some (lo.map r, xName j, hi.map r)) ∧
      (∀ w, w ∈ file.general ↔ ∃ j : Nat, p[j]? = some true ∧ w = xName j) := by
  have hdim : b.length = a.rows ∧ l.length = a.cols ∧ u.length = a.cols ∧ p.length = a.cols := by
    by_contra hcon
    rw [C41_milp_partial.1 hcon] at hq
    cases hq
  obtain ⟨hb, hl, hu, hp⟩ := hdim
  obtain ⟨text, h1, h2⟩ := C44_text hf hq hw hri hci (by simpa using hlen)
  refine ⟨text, _, h1, h2, ?_, ?_, by simp, ?_, by simp [hlen], ?_, ?_⟩
  · intro j
    rw [coefOf_terms]
    have : ∀ (c : List K) (n : Nat), valuesAt j ((List.range' n c.length).zip (c.map some)) =
        if n ≤ j then ((c[j - n]?).map some).toList else [] := by
      intro c
      induction c with
      | nil => intro n; simp [valuesAt]
      | cons v c ih =>
        intro n
        have ih := ih (n + 1)
        simp only [List.length_cons, List.range'_succ, List.map_cons, List.zip_cons_cons]
        by_cases hj : n = j
        · have : ¬ n + 1 ≤ j := by omega
          simp only [this, if_false] at ih
          subst hj
          have hv : valuesAt n ((n, some v) :: (List.range' (n + 1) c.length).zip (c.map some)) =
              some v :: valuesAt n ((List.range' (n + 1) c.length).zip (c.map some)) := by simp [valuesAt]
          rw [hv, ih]
          simp
        · have hv : valuesAt j ((n, some v) :: (List.range' (n + 1) c.length).zip (c.map some)) =
              valuesAt j ((List.range' (n + 1) c.length).zip (c.map some)) := by simp [valuesAt, hj]
          rw [hv, ih]
          by_cases hle : n + 1 ≤ j
          · have e : j - n = (j - (n + 1)) + 1 := by omega
            have : n ≤ j := by omega
            simp [hle, this, e]
          · have : ¬ n ≤ j := by omega
            simp [hle, this]
    have h0 := this c 0
    rw [← List.range_eq_range', ] at h0
    rw [List.length_map, h0]
    simp only [Nat.zero_le, if_true, Nat.sub_zero]
    cases hcj : c[j]? with
    | none => simp [total, hr.zero]
    | some v =>
      have := termVal_coef hr j v
      cases ht : termVal (Option.map r) (j, some v) <;> rw [ht] at this <;> simpa [ht] using this
  · intro t ht
    obtain ⟨e, he, hte⟩ := terms_names (F := Option K) ht
    refine ⟨e.1, ?_, hte⟩
    have := (List.of_mem_zip he).1
    simpa [hlen] using this
  · intro i hi
    refine ⟨_, _, by rw [List.getElem?_map, List.getElem?_range hi]; rfl, ?_, ?_, ?_⟩
    · have hib : i < b.length := by omega
      exact ⟨b[i], List.getElem?_eq_getElem hib, by simp [hib]⟩
    · intro j
      rw [coefOf_terms]
      have hdense : a.dense i j = total (valuesAt j (sumRow (rowOf a.triplets i))) := by rw [Coo.dense, total_sumRow]
      rw [hdense]
      by_cases hj : j ∈ (sumRow (rowOf a.triplets i)).map Prod.fst
      · obtain ⟨e, he, rfl⟩ := List.mem_map.1 hj
        rw [valuesAt_of_nodup (sumRow_nodup _) he]
        obtain ⟨v, hv⟩ : ∃ v, e.2 = some v := by
          rw [sumRow_val _ e he]
          have hall : ∀ w ∈ valuesAt e.1 (rowOf a.triplets i), ∃ v, w = some v := by
            intro w hwm
            simp only [valuesAt, List.mem_map, List.mem_filter, rowOf] at hwm
            obtain ⟨e', ⟨⟨t, ⟨ht, -⟩, rfl⟩, -⟩, rfl⟩ := hwm
            have := (List.of_mem_zip (List.of_mem_zip ht).2).2
            rw [hd] at this
            obtain ⟨v, -, hv⟩ := List.mem_map.1 this
            exact ⟨v, hv.symm⟩
          generalize valuesAt e.1 (rowOf a.triplets i) = vs at hall
          cases vs with
          | nil => exact ⟨0, rfl⟩
          | cons w vs =>
            rw [total]
            obtain ⟨w', hw'⟩ := hall w (by simp)
            have hall' : ∀ x ∈ vs, ∃ v, x = some v := fun x hx => hall x (by simp [hx])
            clear hall
            induction vs generalizing w w' with
            | nil => exact ⟨w', hw'⟩
            | cons x vs ih =>
              obtain ⟨x', hx'⟩ := hall' x (by simp)
              exact ih (w +. x) (w' + x') (by rw [hw', hx']; rfl) fun y hy => hall' y (by simp [hy])
        have := termVal_coef hr e.1 v
        rw [hv]
        cases ht : termVal (Option.map r) (e.1, some v) <;> rw [ht] at this <;> simpa [ht, total] using this
      · rw [valuesAt_eq_nil hj]
        simp [total, hr.zero]
    · intro t ht
      obtain ⟨e, he, hte⟩ := terms_names (F := Option K) ht
      refine ⟨e.1, ?_, hte⟩
      have : e.1 ∈ (rowOf a.triplets i).map Prod.fst := (sumRow_mem_fst _ _).1 (List.mem_map.2 ⟨e, he, rfl⟩)
      obtain ⟨e', he', h'⟩ := List.mem_map.1 this
      rw [← h']
      simp only [rowOf, List.mem_map, List.mem_filter] at he'
      obtain ⟨t', ⟨ht', -⟩, rfl⟩ := he'
      exact hci _ (List.of_mem_zip (List.of_mem_zip ht').2).1
  · intro j hj
    have h1 : j < l.length := by omega
    have h2 : j < u.length := by omega
    have h3 : j < (c.map some).length := by simpa [hlen] using hj
    refine ⟨l[j], u[j], List.getElem?_eq_getElem h1, List.getElem?_eq_getElem h2, ?_⟩
    rw [List.getElem?_map, List.getElem?_range h3]
    simp [h1, h2]
  · intro w
    simp only [List.mem_map, List.mem_filter]
    constructor
    · rintro ⟨⟨j, v⟩, ⟨hm, hv⟩, rfl⟩
      refine ⟨j, ?_, rfl⟩
      rw [List.mem_iff_getElem?] at hm
      obtain ⟨k, hk⟩ := hm
      rw [List.getElem?_zip_eq_some] at hk
      obtain ⟨hk1, hk2⟩ := hk
      obtain ⟨hlt, he⟩ := List.getElem?_eq_some_iff.1 hk1
      rw [List.getElem_range] at he
      subst he
      rw [hk2]
      exact congrArg some hv
    · rintro ⟨j, hj, rfl⟩
      obtain ⟨hlt, he⟩ := List.getElem?_eq_some_iff.1 hj
      refine ⟨(j, true), ⟨?_, rfl⟩, rfl⟩
      rw [List.mem_iff_getElem?]
      refine ⟨j, ?_⟩
      rw [List.getElem?_zip_eq_some]
      exact ⟨List.getElem?_range hlt, hj⟩

end

/-! ## A coefficient that is not a number -/

/-- A coefficient that is not a number is left out: the file says 0. -/
theorem C44_not_a_number {K : Type} [Field K] [LinearOrder K] [Trig K] {rnd : Option K → Option K} (es : List (Nat × Option K)) (j : Nat)
    (h : ∀ e ∈ es, e.1 = j → e.2 = none) : coefOf (es.filterMap (termVal rnd)) (xName j) = some 0 := by
  rw [coefOf_terms]
  have : (valuesAt j es).filterMap (fun v => (termVal rnd (j, v)).map Prod.fst) = [] := by
    rw [List.filterMap_eq_nil_iff]
    intro v hv
    simp only [valuesAt, List.mem_map, List.mem_filter] at hv
    obtain ⟨e, ⟨he, hj⟩, rfl⟩ := hv
    rw [h e he (by simpa using hj)]
    simp [termVal]
  rw [this]
  rfl

/-! ## Concrete case -/

/-- A format of rational numbers: sign, numerator, slash, denominator. -/
def fmtQ : Option ℚ → List Char
  | none => ['n', 'a', 'n']
  | some q => (if q.num < 0 then '-' else '+') :: (natText q.num.natAbs ++ '/' :: natText q.den)

/-- The reader of that format. -/
def readQ : List Char → Option (Option ℚ)
  | ['n', 'a', 'n'] => some none
  | '+' :: w => some (some ((Nat.ofDigitChars 10 (w.takeWhile (· != '/')) 0 : ℚ) / (Nat.ofDigitChars 10 ((w.dropWhile (· != '/')).tail) 0 : ℚ)))
  | '-' :: w => some (some (-(Nat.ofDigitChars 10 (w.takeWhile (· != '/')) 0 : ℚ) / (Nat.ofDigitChars 10 ((w.dropWhile (· != '/')).tail) 0 : ℚ)))
  | _ => none

theorem natText_takeWhile (n : Nat) (w : List Char) :
    (natText n ++ '/' :: w).takeWhile (· != '/') = natText n ∧ (natText n ++ '/' :: w).dropWhile (· != '/') = '/' :: w := by
  have h : ∀ c ∈ natText n, (c != '/') = true := by
    intro c hc
    have := natText_digits hc
    rw [bne_iff_ne]
    rintro rfl
    exact absurd this (by decide)
  constructor
  · rw [List.takeWhile_append_of_pos h]; simp
  · rw [List.dropWhile_append_of_pos h]; simp

theorem fmtQ_ok : LpFmt readQ fmtQ (Option.map id) := by
  refine ⟨?_, ?_, ?_, rfl⟩
  · rintro (_ | q)
    · exact ⟨by decide, by decide⟩
    · refine ⟨by simp [fmtQ], fun c hc => ?_⟩
      simp only [fmtQ, List.mem_cons, List.mem_append] at hc
      rcases hc with rfl | hc | rfl | hc
      · split <;> decide
      · exact (natText_plain _).2 c hc
      · decide
      · exact (natText_plain _).2 c hc
  · rintro (_ | q)
    · rfl
    · have hq := Rat.num_div_den q
      obtain ⟨h1, h2⟩ := natText_takeWhile q.num.natAbs (natText q.den)
      by_cases hn : q.num < 0
      · have hnum : (q.num.natAbs : ℚ) = -(q.num : ℚ) := by
          have : (q.num.natAbs : ℤ) = -q.num := by omega
          rw [← Int.cast_natCast (R := ℚ), this, Int.cast_neg]
        simp only [fmtQ, hn, if_true, readQ, h1, h2, List.tail_cons]
        simp only [natText, Nat.ofDigitChars_ten_toDigits, hnum, neg_neg, hq]
        rfl
      · have hnum : (q.num.natAbs : ℚ) = (q.num : ℚ) := by
          have : (q.num.natAbs : ℤ) = q.num := by omega
          rw [← Int.cast_natCast (R := ℚ), this]
        simp only [fmtQ, hn, if_false, readQ, h1, h2, List.tail_cons]
        simp only [natText, Nat.ofDigitChars_ten_toDigits, hnum, hq]
        rfl
  · intro i
    rfl

/-- Minimise `x0 - 2 x1` with `3 x1 + 1/2 x1 - x0 = 4`, bounds and `x1` integer. -/
def exMilp : Option (Milp (Option ℚ)) :=
  (Milp.new [some 1, some (-2)] ⟨(1, 2), [0, 0, 0], [1, 0, 1], [some 3, some (-1), some (1/2)]⟩ [some 4] [some 0, some (-5)] [some 7, some 5]
    [false, true] none).toOption

/-- Non-vacuity of C44: the problem exists, the rounding of the theorem can be none at all, and this is the file. -/
example : exMilp.isSome = true ∧ Rounding (id : ℚ → ℚ) ∧ LpFmt readQ fmtQ (Option.map id) ∧
    exMilp.bind (fun q => (q.lpText fmtQ).toOption) = some
      "Minimize\n obj:\n     + x_0\n     - +2/1 x_1\nSubject to\n  c_0:\n     + +7/2 x_1\n     - x_0\n     = +4/1\nBounds\n +0/1 <= x_0 <= +7/1\n -5/1 <= x_1 <= +5/1\nGeneral\n x_1\nEnd\n".toList :=
  ⟨by decide +kernel, ⟨rfl, rfl, fun _ => rfl⟩, fmtQ_ok, by decide +kernel⟩

end Verif
