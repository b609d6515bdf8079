import Verif.Proofs.MulVec

/-! # Properties C35 - C40: sparse matrices -/

namespace Verif

set_option linter.unusedSectionVars false

section
variable {F : Type}

/-- **C35.** `new` accepts three vectors of equal length, stores them as they are, and panics for all others. -/
theorem C35_new (shape : Nat × Nat) (r c : List Nat) (d : List F) :
    Coo.new shape r c d = if r.length = c.length ∧ r.length = d.length then .ok ⟨shape, r, c, d⟩ else .error .assert := by
  unfold Coo.new
  by_cases h1 : r.length = c.length
  · by_cases h2 : r.length = d.length
    · simp [h1, ← h2]
    · rw [if_neg (by tauto)]
      have : (r.length == d.length) = false := by simpa using h2
      simp only [h1, BEq.rfl, assertR_true, R.ok_bind]
      rw [h1] at this
      simp [this]
  · rw [if_neg (by tauto)]
    have : (r.length == c.length) = false := by simpa using h1
    simp [this]

/-- **C35.** `n` calls of `next` on the iterator of a matrix, for any `n`: never a panic, and the `t`-th answer is triplet number
`t` of the matrix, counting modulo `nnz + 1`, where number `nnz` is the end (`None`). So the first `nnz` calls give exactly the
triplets in storage order, the next one gives `None`, and then the iterator starts over. -/
theorem C35_iteration {m : Coo F} (h : m.WF) (n : Nat) :
    m.iter.nexts n = .ok ((List.range n).map fun t => m.triplets[t % (m.nnz + 1)]?) := by
  have := CooIter.nexts_eq h n 0 (Nat.zero_le _)
  simpa [Coo.iter] using this

/-- **C35.** A `for` loop over the iterator visits exactly the `nnz` triplets in storage order. -/
theorem C35_for_loop {m : Coo F} (h : m.WF) : m.iter.drain = .ok m.triplets ∧ m.triplets.length = m.nnz :=
  ⟨Coo.drain h, h.triplets_length⟩

end

section
variable {F : Type} [FloatOps F]

/-- **C35.** Whatever the API does to a matrix, its three vectors keep the same length; so the statements below hold for every matrix
that a user can have. -/
theorem C35_built {m : Coo F} (h : m.Built) : m.WF := by
  induction h with
  | @new shape r c d m h =>
    rw [C35_new] at h
    split at h
    · rename_i hl; injection h with h; subst h; exact hl
    · cases h
  | @pattern shape r c m h =>
    unfold Coo.fromPattern at h
    by_cases h1 : r.length = c.length
    · simp [h1] at h
      subst h
      exact ⟨h1, by simp [h1]⟩
    · have : (r.length == c.length) = false := by simpa using h1
      simp [this] at h
  | nnz shape n => simp [Coo.WF, Coo.fromNnz]
  | @row m m' k i _ h ih =>
    unfold Coo.setRowInd setIdx at h
    split at h
    · rw [R.ok_bind] at h; injection h with h; subst h; simpa [Coo.WF] using ih
    · cases h
  | @col m m' k i _ h ih =>
    unfold Coo.setColInd setIdx at h
    split at h
    · rw [R.ok_bind] at h; injection h with h; subst h; simpa [Coo.WF] using ih
    · cases h
  | data d _ hd ih => exact ⟨ih.1, by rw [hd]; exact ih.2⟩

/-- **C36.** If the row indices are in range, `to_csr` returns; the index pointers go from 0 to nnz without decreasing; row `i`
of the result is exactly the list of (col, value) pairs of row `i`, in their original order. -/
theorem C36_to_csr {m : Coo F} (h : m.WF) (hr : ∀ r ∈ m.rowInds, r < m.rows) :
    ∃ c, m.toCsr = .ok c ∧ c.shape = m.shape ∧ c.indptr.length = m.rows + 1 ∧ c.indptr[0]? = some 0 ∧
      c.indptr.Pairwise (· ≤ ·) ∧ c.indptr[m.rows]? = some m.nnz ∧ c.indices.length = m.nnz ∧ c.data.length = m.nnz ∧
      ∀ i < m.rows, c.rowOf i = rowOf m.triplets i := by
  obtain ⟨c, h1, h2, h3, h4, h5, h6, h7⟩ := toCsr_ok h hr
  refine ⟨c, h1, h2, by simp [h3], ?_, h3 ▸ tab_pairwise_psum _ _, ?_, h4, h5, h7⟩
  · rw [h3, List.getElem?_eq_getElem (by simp), tab_getElem]; rfl
  · rw [h3, List.getElem?_eq_getElem (by simp), tab_getElem, h6]

/-- **C36.** If some row index is out of range, `to_csr` panics. -/
theorem C36_panic {m : Coo F} (hr : ∃ r ∈ m.rowInds, m.rows ≤ r) : m.toCsr = .error .index := toCsr_error hr

/-- **C37.** `to_csr` does not change the represented matrix, and (when the column indices are in range too) the result is a
valid CSR matrix. -/
theorem C37_to_csr_dense {m : Coo F} (h : m.WF) {c : Csr F} (hc : m.toCsr = .ok c) :
    (∀ i < m.rows, ∀ j, c.dense i j = m.dense i j) ∧ ((∀ j ∈ m.colInds, j < m.cols) → c.Valid) := by
  have hr : ∀ r ∈ m.rowInds, r < m.rows := by
    intro r hr
    by_contra hcon
    rw [toCsr_error ⟨r, hr, Nat.not_lt.1 hcon⟩] at hc
    cases hc
  obtain ⟨c', h1, h2, h3, h4, h5, h6, h7⟩ := toCsr_ok h hr
  rw [hc] at h1
  injection h1 with h1
  subst h1
  refine ⟨fun i hi j => by rw [Csr.dense, Coo.dense, h7 i hi], fun hcol => ?_⟩
  have hrows : c.rows = m.rows := by simp [Csr.rows, Coo.rows, h2]
  have hcols : c.cols = m.cols := by simp [Csr.cols, Coo.cols, h2]
  refine ⟨by rw [h3, hrows]; simp, ?_, h3 ▸ tab_pairwise_psum _ _, ?_, by rw [h4, h5], ?_⟩
  · rw [h3, List.getElem?_eq_getElem (by simp), tab_getElem]; rfl
  · rw [h3, hrows, List.getElem?_eq_getElem (by simp), tab_getElem, h6, Csr.nnz, h4]
  · intro x hx
    rw [hcols]
    -- every stored column is the column of a triplet
    obtain ⟨k, hk, rfl⟩ := List.getElem_of_mem hx
    have hk' : k < psum (fun i => (rowOf m.triplets i).length) m.rows := by rw [h6, ← h4]; exact hk
    have key : ∀ n, n ≤ m.rows → k < psum (fun i => (rowOf m.triplets i).length) n →
        ∃ i < n, psum (fun i => (rowOf m.triplets i).length) i ≤ k ∧
          k < psum (fun i => (rowOf m.triplets i).length) (i + 1) := by
      intro n
      induction n with
      | zero => intro _ h; simp [psum_zero] at h
      | succ n ih =>
        intro hn hkn
        rcases Nat.lt_or_ge k (psum (fun i => (rowOf m.triplets i).length) n) with hlt | hge
        · obtain ⟨i, hi, h⟩ := ih (by omega) hlt
          exact ⟨i, by omega, h⟩
        · exact ⟨n, by omega, hge, hkn⟩
    obtain ⟨i, hi, hlo, hhi⟩ := key m.rows (Nat.le_refl _) hk'
    have hrow := h7 i hi
    simp only [Csr.rowOf, h3] at hrow
    rw [List.getElem?_eq_getElem (by simp; omega), List.getElem?_eq_getElem (by simp; omega), tab_getElem, tab_getElem] at hrow
    simp only [Option.getD_some] at hrow
    have hmem : (c.indices[k], c.data[k]'(by rw [h5, ← h4]; exact hk)) ∈ rowOf m.triplets i := by
      rw [← hrow, List.mem_iff_getElem]
      refine ⟨k - psum (fun i => (rowOf m.triplets i).length) i, ?_, ?_⟩
      · simp only [List.length_take, List.length_drop, List.length_zip, h4, h5]
        have : k < m.nnz := by rw [← h4]; exact hk
        omega
      · simp only [List.getElem_take, List.getElem_drop, List.getElem_zip]
        have e : psum (fun i => (rowOf m.triplets i).length) i + (k - psum (fun i => (rowOf m.triplets i).length) i) = k := by
          omega
        simp only [e]
    simp only [rowOf, List.mem_map, List.mem_filter] at hmem
    obtain ⟨t, ⟨ht, _⟩, hte⟩ := hmem
    have := (List.of_mem_zip (List.of_mem_zip ht).2).1
    have e : t.2.1 = c.indices[k] := by rw [hte]
    rw [e] at this
    exact hcol _ this

/-- **C38.** `sum_duplicates` of a valid matrix returns a valid matrix of the same shape in which row `i` has: each column of the
old row exactly once, in the order of first occurrence; and, for each column, the sum of all values that were stored for it. -/
theorem C38_sum_duplicates {m : Csr F} (h : m.Valid) :
    ∃ m', m.sumDuplicates = .ok m' ∧ m'.Valid ∧ m'.shape = m.shape ∧ ∀ i < m.rows,
      ((m'.rowOf i).map Prod.fst).Nodup ∧
      (∀ j, j ∈ (m'.rowOf i).map Prod.fst ↔ j ∈ (m.rowOf i).map Prod.fst) ∧
      ((m'.rowOf i).map Prod.fst).Pairwise (fun a b => ((m.rowOf i).map Prod.fst).idxOf a < ((m.rowOf i).map Prod.fst).idxOf b) ∧
      ∀ e ∈ m'.rowOf i, e.2 = total (valuesAt e.1 (m.rowOf i)) := by
  obtain ⟨m', h1, h2, h3, h4, h5, h6, h7⟩ := sumDuplicates_ok h
  refine ⟨m', h1, h2, h3, fun i hi => ?_⟩
  rw [h7 i hi]
  exact ⟨sumRow_nodup _, sumRow_mem_fst _, sumRow_order _, sumRow_val _⟩

/-- **C39.** `sum_duplicates` does not change the represented matrix, and doing it twice is the same as doing it once. -/
theorem C39_dense_idempotent {m : Csr F} (h : m.Valid) :
    ∃ m', m.sumDuplicates = .ok m' ∧ (∀ i < m.rows, ∀ j, m'.dense i j = m.dense i j) ∧ m'.sumDuplicates = .ok m' := by
  obtain ⟨m', h1, h2, h3, h4, h5, h6, h7⟩ := sumDuplicates_ok h
  refine ⟨m', h1, fun i hi j => by rw [Csr.dense, Csr.dense, h7 i hi, total_sumRow], ?_⟩
  obtain ⟨m'', g1, g2, g3, g4, g5, g6, g7⟩ := sumDuplicates_ok h2
  rw [g1]
  have hrows : m'.rows = m.rows := by simp [Csr.rows, h3]
  have hsum : ∀ i < m.rows, sumRow (m'.rowOf i) = sumRow (m.rowOf i) := by
    intro i hi
    rw [h7 i hi, sumRow_of_nodup (sumRow_nodup _)]
  have hflat : (List.range m.rows).flatMap (fun i => sumRow (m'.rowOf i)) =
      (List.range m.rows).flatMap fun i => sumRow (m.rowOf i) := by
    rw [List.flatMap_def, List.flatMap_def, List.map_congr_left fun i hi => hsum i (List.mem_range.1 hi)]
  congr 1
  cases m' with
  | mk shape indptr indices data =>
    cases m'' with
    | mk shape' indptr' indices' data' =>
      simp only at g3 g4 g5 g6 h3 h4 h5 h6
      rw [hrows, hflat] at g5 g6
      rw [Csr.mk.injEq]
      refine ⟨g3, ?_, by rw [g5, h5], by rw [g6, h6]⟩
      rw [g4, hrows, h4]
      apply tab_congr
      intro i hi
      exact psum_congr fun j hj => by rw [← hsum j (by omega), h4]

/-- **C40.** `A * x` panics if `x` has the wrong length (assertion) or an index is out of range, and otherwise returns the vector
whose entry `i` is the sum, in storage order, of `x[col] * value` over the entries of row `i`. -/
theorem C40_mul {m : Coo F} (h : m.WF) (x : List F) :
    (x.length ≠ m.cols → m.mulVec x = .error .assert) ∧
    (x.length = m.cols → (∃ t ∈ m.triplets, m.rows ≤ t.1 ∨ m.cols ≤ t.2.1) → m.mulVec x = .error .index) ∧
    (x.length = m.cols → (∀ t ∈ m.triplets, t.1 < m.rows ∧ t.2.1 < m.cols) →
      ∃ y, m.mulVec x = .ok y ∧ y.length = m.rows ∧ ∀ i < m.rows,
        y[i]? = some ((rowOf m.triplets i).foldl (fun s e => s +. ((x[e.1]?).getD zero *. e.2)) zero)) := by
  refine ⟨?_, ?_, ?_⟩
  · intro hx
    have : (m.cols == x.length) = false := by simpa using Ne.symm hx
    simp [Coo.mulVec, this]
  · intro hx hbad
    have : (m.cols == x.length) = true := by simpa using hx.symm
    simp only [Coo.mulVec, this, assertR_true, R.ok_bind, Coo.drain h]
    exact mulVec_loop_error (by rw [hx]; exact hbad)
  · intro hx hgood
    have : (m.cols == x.length) = true := by simpa using hx.symm
    refine ⟨tab m.rows fun i => dotRow x (rowOf m.triplets i), ?_, by simp, ?_⟩
    · simp only [Coo.mulVec, this, assertR_true, R.ok_bind, Coo.drain h]
      exact mulVec_loop (by rw [hx]; exact hgood)
    · intro i hi
      rw [List.getElem?_eq_getElem (by simpa using hi), tab_getElem]
      rfl

end

section
variable {K : Type} [Field K] [LinearOrder K] [Trig K]

/-- **C40.** In exact arithmetic, for a matrix and a vector with finite entries, `A * x` is the matrix-vector product: entry `i`
is the sum over the columns `j` of entry (i, j) of the represented matrix times `x[j]`. -/
theorem C40_mul_dense {m : Coo (Option K)} (h : m.WF) {d x : List K} (hd : m.data = d.map some) (hx : x.length = m.cols)
    (hi : ∀ t ∈ m.triplets, t.1 < m.rows ∧ t.2.1 < m.cols) :
    ∃ (y : List (Option K)) (a : Nat → Nat → K), m.mulVec (x.map some) = .ok y ∧ y.length = m.rows ∧ (∀ i j, m.dense i j = some (a i j)) ∧
      ∀ i < m.rows, y[i]? = some (some (∑ j ∈ Finset.range m.cols, a i j * (x[j]?).getD 0)) := by
  have hrow : ∀ i, ∃ row : List (Nat × K), rowOf m.triplets i = row.map (fun e => (e.1, some e.2)) := by
    intro i
    have ht : m.triplets = (m.rowInds.zip (m.colInds.zip d)).map fun t => (t.1, t.2.1, some t.2.2) := by
      rw [Coo.triplets, hd, List.zip_map_right, List.zip_map_right]
      rfl
    refine ⟨rowOf (m.rowInds.zip (m.colInds.zip d)) i, ?_⟩
    rw [ht]
    simp only [rowOf, List.filter_map, List.map_map]
    rfl
  choose row hrow using hrow
  have hcol : ∀ i, ∀ e ∈ row i, e.1 < x.length := by
    intro i e he
    have : (e.1, some e.2) ∈ rowOf m.triplets i := by rw [hrow]; exact List.mem_map.2 ⟨e, he, rfl⟩
    simp only [rowOf, List.mem_map, List.mem_filter] at this
    obtain ⟨t, ⟨ht, _⟩, hte⟩ := this
    have := (hi t ht).2
    have e' : t.2.1 = e.1 := by rw [hte]
    omega
  obtain ⟨y, h1, h2, h3⟩ := (C40_mul h (x.map some)).2.2 (by simpa using hx) hi
  refine ⟨y, fun i j => (valuesAt j (row i)).sum, h1, h2, ?_, ?_⟩
  · intro i j
    rw [Coo.dense, hrow, valuesAt_some, total_some]
  · intro i hi'
    rw [h3 i hi']
    congr 1
    have e := dotRow_some x (row i) (hcol i)
    rw [dotRow] at e
    rw [hrow, e, sum_dense (fun j => (x[j]?).getD 0) m.cols (row i) (fun e he => by rw [← hx]; exact hcol i e he)]

end

/-! ## Concrete cases -/

/-- A 3x4 matrix with duplicates, unsorted rows and an empty row. -/
def exCoo : Coo (Option ℚ) :=
  ⟨(3, 4), [2, 0, 2, 0, 2], [1, 3, 1, 0, 2], [some 5, some 6, some 7, some 8, some 9]⟩

/-- C35: six calls of `next` give the five triplets and the end, the seventh the first triplet again. -/
example : exCoo.WF ∧ (exCoo.triplets[6 % (exCoo.nnz + 1)]?).map (fun t => (t.1, t.2.1)) = some (2, 1) := ⟨⟨rfl, rfl⟩, rfl⟩

/-- C36 - C39: the hypotheses are met and the result is not trivial. -/
example : exCoo.WF ∧ (∀ r ∈ exCoo.rowInds, r < exCoo.rows) ∧ (∀ j ∈ exCoo.colInds, j < exCoo.cols) :=
  ⟨⟨rfl, rfl⟩, by decide, by decide⟩

/-- A matrix that was built in three steps. -/
example : (⟨(2, 3), [1, 0], [2, 2], [some 5, some 7]⟩ : Coo (Option ℚ)).Built :=
  .data (m := ⟨(2, 3), [1, 0], [2, 2], [some 0, some 0]⟩) [some 5, some 7]
    (.col (m := ⟨(2, 3), [1, 0], [2, 0], [some 0, some 0]⟩) (k := 1) (i := 2)
      (.pattern (shape := (2, 3)) (r := [1, 0]) (c := [2, 0]) rfl) rfl) rfl

/-- C36: a row index out of range. -/
example : ∃ r ∈ (⟨(2, 4), [2], [1], [some 5]⟩ : Coo (Option ℚ)).rowInds, (2 : Nat) ≤ r := ⟨2, by simp⟩

/-- C38: the hypothesis is met by `to_csr` of the matrix above, which has a duplicate position. -/
example : ∃ c : Csr (Option ℚ), c.Valid ∧ (c.rowOf 2).map Prod.fst = [1, 1, 2] := by
  have hw : exCoo.WF := ⟨rfl, rfl⟩
  obtain ⟨c, h1, h2, _⟩ := C36_to_csr hw (by decide)
  refine ⟨c, (C37_to_csr_dense hw h1).2 (by decide), ?_⟩
  obtain ⟨c', g1, _, _, _, _, _, _, _, g⟩ := C36_to_csr hw (by decide)
  rw [h1] at g1
  injection g1 with g1
  subst g1
  rw [g 2 (by decide)]
  rfl

/-- C40: all three cases occur. -/
example : (exCoo.triplets.all fun t => decide (t.1 < exCoo.rows ∧ t.2.1 < exCoo.cols)) = true ∧
    [(1 : ℚ), 2, 3, 4].length = exCoo.cols ∧ [(1 : ℚ)].length ≠ exCoo.cols := by decide

end Verif
