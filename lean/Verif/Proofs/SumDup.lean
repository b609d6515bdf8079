import Mathlib.Data.List.Forall2
import Verif.Proofs.Matrix

/-! # sum_duplicates -/

namespace Verif

set_option linter.unusedSectionVars false
set_option linter.unusedSimpArgs false

variable {F : Type} [FloatOps F]

theorem sumRow_snoc (p : List (Nat × F)) (e : Nat × F) : sumRow (p ++ [e]) = upsert (sumRow p) e := by
  simp [sumRow]

theorem upsert_fst (q : List (Nat × F)) (e : Nat × F) :
    (upsert q e).map Prod.fst = if e.1 ∈ q.map Prod.fst then q.map Prod.fst else q.map Prod.fst ++ [e.1] := by
  unfold upsert
  split
  · apply List.ext_getElem
    · simp
    · intro i h1 h2
      simp only [List.getElem_map, List.getElem_modify]
      split <;> rfl
  · simp

theorem valuesAt_snoc (j : Nat) (p : List (Nat × F)) (e : Nat × F) :
    valuesAt j (p ++ [e]) = valuesAt j p ++ if e.1 = j then [e.2] else [] := by
  simp only [valuesAt, List.filter_append, List.map_append, List.filter_cons, List.filter_nil]
  congr 1
  by_cases h : e.1 = j
  · simp [h]
  · have : (e.1 == j) = false := by simpa using h
    simp [h, this]

theorem total_snoc {l : List F} (h : l ≠ []) (v : F) : total (l ++ [v]) = total l +. v := by
  cases l with
  | nil => exact absurd rfl h
  | cons a l => simp [total]

theorem total_single (v : F) : total [v] = v := rfl

theorem valuesAt_eq_nil {j : Nat} {p : List (Nat × F)} (h : j ∉ p.map Prod.fst) : valuesAt j p = [] := by
  simp only [valuesAt, List.map_eq_nil_iff, List.filter_eq_nil_iff, beq_iff_eq]
  intro e he hj
  exact h (List.mem_map.2 ⟨e, he, hj⟩)

theorem valuesAt_ne_nil {j : Nat} {p : List (Nat × F)} (h : j ∈ p.map Prod.fst) : valuesAt j p ≠ [] := by
  obtain ⟨e, he, rfl⟩ := List.mem_map.1 h
  have : e.2 ∈ valuesAt e.1 p := by
    simp only [valuesAt, List.mem_map, List.mem_filter, beq_iff_eq]
    exact ⟨e, ⟨he, rfl⟩, rfl⟩
  intro h'
  rw [h'] at this
  simp at this

theorem list_snoc_ind {α : Type} {P : List α → Prop} (h0 : P []) (hs : ∀ l a, P l → P (l ++ [a])) (l : List α) : P l := by
  rw [← List.reverse_reverse l]
  induction l.reverse with
  | nil => exact h0
  | cons a l ih => rw [List.reverse_cons]; exact hs _ _ ih

theorem sumRow_mem_fst (p : List (Nat × F)) (c : Nat) : c ∈ (sumRow p).map Prod.fst ↔ c ∈ p.map Prod.fst := by
  induction p using list_snoc_ind with
  | h0 => simp [sumRow]
  | hs p e ih =>
    rw [sumRow_snoc, upsert_fst, List.map_append]
    split
    · rename_i h
      rw [List.mem_append, ← ih]
      simp only [List.map_cons, List.map_nil, List.mem_singleton]
      constructor
      · exact Or.inl
      · rintro (h' | rfl)
        · exact h'
        · exact h
    · simp only [List.mem_append, ih]
      simp

theorem sumRow_order (p : List (Nat × F)) :
    ((sumRow p).map Prod.fst).Pairwise fun a b => (p.map Prod.fst).idxOf a < (p.map Prod.fst).idxOf b := by
  induction p using list_snoc_ind with
  | h0 => simp [sumRow]
  | hs p e ih =>
    rw [sumRow_snoc, upsert_fst, List.map_append]
    have old : ∀ a ∈ (sumRow p).map Prod.fst, (p.map Prod.fst ++ [e].map Prod.fst).idxOf a = (p.map Prod.fst).idxOf a := by
      intro a ha
      exact List.idxOf_append_of_mem ((sumRow_mem_fst p a).1 ha)
    have ih' : ((sumRow p).map Prod.fst).Pairwise fun a b =>
        (p.map Prod.fst ++ [e].map Prod.fst).idxOf a < (p.map Prod.fst ++ [e].map Prod.fst).idxOf b := by
      refine List.Pairwise.imp_of_mem ?_ ih
      intro a b ha hb h
      rw [old a ha, old b hb]
      exact h
    split
    · exact ih'
    · rename_i h
      rw [List.pairwise_append]
      refine ⟨ih', by simp, ?_⟩
      intro a ha b hb
      simp only [List.mem_singleton] at hb
      subst hb
      rw [old a ha, List.idxOf_append_of_notMem (fun h' => h ((sumRow_mem_fst p _).2 h'))]
      have := List.idxOf_lt_length_of_mem ((sumRow_mem_fst p a).1 ha)
      omega

theorem sumRow_nodup (p : List (Nat × F)) : ((sumRow p).map Prod.fst).Nodup :=
  (sumRow_order p).imp fun h => by rintro rfl; omega

theorem sumRow_val (p : List (Nat × F)) : ∀ e ∈ sumRow p, e.2 = total (valuesAt e.1 p) := by
  induction p using list_snoc_ind with
  | h0 => simp [sumRow]
  | hs p e ih =>
    rw [sumRow_snoc]
    intro x hx
    rw [valuesAt_snoc]
    unfold upsert at hx
    split at hx
    · rename_i h
      obtain ⟨i, hi, rfl⟩ := List.getElem_of_mem hx
      simp only [List.length_modify] at hi
      rw [List.getElem_modify]
      have hmem := List.getElem_mem hi
      split
      · rename_i hidx
        have hcol : (sumRow p)[i].1 = e.1 := by
          have h1 : ((sumRow p).map Prod.fst)[(List.map Prod.fst (sumRow p)).idxOf e.1]'
              (List.idxOf_lt_length_of_mem h) = e.1 := List.getElem_idxOf _
          simp only [hidx] at h1
          simpa using h1
        simp only [hcol, if_true]
        rw [total_snoc (valuesAt_ne_nil ((sumRow_mem_fst p _).1 h)), ih _ hmem, hcol]
      · rename_i hidx
        have hcol : ¬ e.1 = (sumRow p)[i].1 := by
          intro hc
          apply hidx
          have : (List.map Prod.fst (sumRow p)).idxOf ((List.map Prod.fst (sumRow p))[i]'(by simpa using hi)) = i :=
            (sumRow_nodup p).idxOf_getElem i _
          simpa [hc] using this
        simp [hcol, ih _ hmem]
    · rename_i h
      rcases List.mem_append.1 hx with hx | hx
      · have hcol : ¬ e.1 = x.1 := fun hc => h (List.mem_map.2 ⟨x, hx, hc.symm⟩)
        simp [hcol, ih _ hx]
      · simp only [List.mem_singleton] at hx
        subst hx
        have : x.1 ∉ p.map Prod.fst := fun h' => h ((sumRow_mem_fst p _).2 h')
        simp [valuesAt_eq_nil this, total_single]

theorem valuesAt_of_nodup {p : List (Nat × F)} (h : (p.map Prod.fst).Nodup) {e : Nat × F} (he : e ∈ p) :
    valuesAt e.1 p = [e.2] := by
  induction p with
  | nil => simp at he
  | cons x p ih =>
    simp only [List.map_cons, List.nodup_cons] at h
    simp only [valuesAt, List.filter_cons]
    rcases List.mem_cons.1 he with rfl | he
    · have := valuesAt_eq_nil h.1
      simp only [valuesAt, List.map_eq_nil_iff] at this
      simp [this]
    · have hne : (x.1 == e.1) = false := by
        simp only [beq_eq_false_iff_ne, ne_eq]
        intro hc
        exact h.1 (hc ▸ List.mem_map.2 ⟨e, he, rfl⟩)
      simp only [hne]
      exact ih h.2 he

theorem total_sumRow (p : List (Nat × F)) (j : Nat) : total (valuesAt j (sumRow p)) = total (valuesAt j p) := by
  by_cases h : j ∈ (sumRow p).map Prod.fst
  · obtain ⟨e, he, rfl⟩ := List.mem_map.1 h
    rw [valuesAt_of_nodup (sumRow_nodup p) he, total_single, sumRow_val p e he]
  · rw [valuesAt_eq_nil h, valuesAt_eq_nil fun h' => h ((sumRow_mem_fst p j).2 h')]

theorem sumRow_of_nodup {p : List (Nat × F)} (h : (p.map Prod.fst).Nodup) : sumRow p = p := by
  induction p using list_snoc_ind with
  | h0 => rfl
  | hs p e ih =>
    rw [List.map_append, List.nodup_append] at h
    rw [sumRow_snoc, ih h.1]
    unfold upsert
    have : e.1 ∉ p.map Prod.fst := fun h' => h.2.2 _ h' e.1 (by simp) rfl
    simp [this]

/-! ## The loops -/

/-- Loop invariant inside row `r`, after the entries `p` of that row; `P` is what earlier rows produced. -/
structure SDInv (rows cols r : Nat) (rowLen : Nat → Nat) (P p : List (Nat × F)) (s : SumDup F) : Prop where
  ex : ∃ fs fr fk fc, s.colseen = tab cols fs ∧ s.colrow = tab cols fr ∧ s.colnewk = tab cols fk ∧
    s.newCounter = tab rows fc ∧
    (∀ c < cols, (fs c = true ∧ fr c = r) ↔ c ∈ (sumRow p).map Prod.fst) ∧
    (∀ c < cols, c ∈ (sumRow p).map Prod.fst → fk c = P.length + ((sumRow p).map Prod.fst).idxOf c) ∧
    (∀ c < cols, fs c = true → fr c ≤ r) ∧
    (∀ i < rows, fc i = if i < r then rowLen i else if i = r then (sumRow p).length else 0)
  inds : s.newIndices = (P ++ sumRow p).map Prod.fst
  vals : s.newData = (P ++ sumRow p).map Prod.snd
  len : s.newK = (P ++ sumRow p).length

theorem SDInv.step {m : Csr F} {rows cols r k : Nat} {rowLen : Nat → Nat} {P p : List (Nat × F)} {s : SumDup F}
    (h : SDInv rows cols r rowLen P p s) (hr : r < rows) {col : Nat} {d : F} (hc : col < cols)
    (h1 : idx m.indices k = .ok col) (h2 : idx m.data k = .ok d) :
    ∃ s', SumDup.step m r s k = .ok s' ∧ SDInv rows cols r rowLen P (p ++ [(col, d)]) s' := by
  obtain ⟨⟨fs, fr, fk, fc, e1, e2, e3, e4, i1, i2, i3, i4⟩, e5, e6, e7⟩ := h
  obtain ⟨s1, s2, s3, s4, s5, s6, s7⟩ := s
  simp only at e1 e2 e3 e4 e5 e6 e7
  subst e1 e2 e3 e4 e5 e6 e7
  simp only [SumDup.step, h1, h2, R.ok_bind, idx_tab hc]
  by_cases hnew : col ∈ (sumRow p).map Prod.fst
  · have hsr := (i1 col hc).2 hnew
    have hb : (!fs col || fr col != r) = false := by simp [hsr.1, hsr.2]
    simp only [hb, Bool.false_eq_true, if_false]
    have hk := i2 col hc hnew
    have hlt : ((sumRow p).map Prod.fst).idxOf col < (sumRow p).length := by
      simpa using List.idxOf_lt_length_of_mem hnew
    have hlt' : P.length + ((sumRow p).map Prod.fst).idxOf col < ((P ++ sumRow p).map Prod.snd).length := by
      simp only [List.length_map, List.length_append]
      omega
    simp only [hk, idx_of_lt hlt', setIdx_of_lt hlt', R.ok_bind, setIdx_tab hc]
    have hfst : (sumRow (p ++ [(col, d)])).map Prod.fst = (sumRow p).map Prod.fst := by
      rw [sumRow_snoc, upsert_fst]; simp only [if_pos hnew]
    have hlen : (sumRow (p ++ [(col, d)])).length = (sumRow p).length := by
      simpa using congrArg List.length hfst
    refine ⟨_, rfl, ⟨⟨_, _, fk, fc, rfl, rfl, rfl, rfl, ?_, ?_, ?_, ?_⟩, ?_, ?_, ?_⟩⟩
    · intro c hcc
      rw [hfst, ← i1 c hcc]
      by_cases hcc' : c = col
      · subst hcc'; simp [hsr.1, hsr.2]
      · simp [Function.update_apply, hcc']
    · intro c hcc hmem
      rw [hfst] at hmem ⊢
      exact i2 c hcc hmem
    · intro c hcc
      by_cases hcc' : c = col
      · subst hcc'; simp
      · simp only [Function.update_apply, hcc', if_false]; exact i3 c hcc
    · intro i hi
      rw [hlen]
      exact i4 i hi
    · simp only [List.map_append, hfst]
    · rw [sumRow_snoc]
      simp only [upsert, if_pos hnew]
      apply List.ext_getElem
      · simp
      · intro t g1 g2
        rw [List.getElem_set]
        by_cases ht : t < P.length
        · have : ¬ (P.length + ((sumRow p).map Prod.fst).idxOf col = t) := by omega
          rw [if_neg this]
          simp only [List.getElem_map]
          rw [List.getElem_append_left ht, List.getElem_append_left ht]
        · simp only [List.getElem_map]
          rw [List.getElem_append_right (bs := List.modify _ _ _) (by omega : P.length ≤ t)]
          simp only [List.getElem_modify]
          by_cases ht2 : (sumRow p |>.map Prod.fst).idxOf col = t - P.length
          · have : P.length + ((sumRow p).map Prod.fst).idxOf col = t := by omega
            have e : P.length + (t - P.length) = t := by omega
            simp only [ht2, e, if_true]
            rw [List.getElem_append_right (by omega : P.length ≤ t)]
          · have : ¬ (P.length + ((sumRow p).map Prod.fst).idxOf col = t) := by omega
            simp only [this, ht2, if_false]
            rw [List.getElem_append_right (by omega : P.length ≤ t)]
    · simp only [List.length_append, hlen]
  · have hb : (!fs col || fr col != r) = true := by
      have := mt (i1 col hc).1 hnew
      rw [not_and] at this
      cases hfs : fs col
      · simp
      · simp [this hfs]
    simp only [hb, if_true, setIdx_tab hc, incIdx_tab hr, R.ok_bind]
    have hsum : sumRow (p ++ [(col, d)]) = sumRow p ++ [(col, d)] := by
      rw [sumRow_snoc]; simp only [upsert, if_neg hnew]
    refine ⟨_, rfl, ⟨⟨_, _, _, _, rfl, rfl, rfl, rfl, ?_, ?_, ?_, ?_⟩, ?_, ?_, ?_⟩⟩
    · intro c hcc
      rw [hsum, List.map_append, List.mem_append, ← i1 c hcc]
      by_cases hcc' : c = col
      · subst hcc'; simp
      · simp [Function.update_apply, hcc']
    · intro c hcc hmem
      rw [hsum, List.map_append] at hmem ⊢
      by_cases hcc' : c = col
      · subst hcc'
        rw [List.idxOf_append_of_notMem hnew]
        simp
      · have hm : c ∈ (sumRow p).map Prod.fst := by
          rcases List.mem_append.1 hmem with hm | hm
          · exact hm
          · simp at hm; exact absurd hm hcc'
        rw [List.idxOf_append_of_mem hm]
        simp only [Function.update_apply, hcc', if_false]
        exact i2 c hcc hm
    · intro c hcc
      by_cases hcc' : c = col
      · subst hcc'; simp
      · simp only [Function.update_apply, hcc', if_false]; exact i3 c hcc
    · intro i hi
      simp only [Function.update_apply]
      have hi4 := i4 i hi
      by_cases hir : i = r
      · subst hir
        simp only [Nat.lt_irrefl, if_true, if_false] at hi4 ⊢
        rw [hi4, hsum]
        simp
      · simp only [hir, if_false] at hi4 ⊢
        exact hi4
    · simp [hsum]
    · simp [hsum]
    · simp [hsum]; omega

theorem SDInv.row {m : Csr F} {rows cols r : Nat} {rowLen : Nat → Nat} {P p' : List (Nat × F)} {s : SumDup F}
    (h : SDInv rows cols r rowLen P [] s) (hr : r < rows) (ks : List Nat)
    (hk : List.Forall₂ (fun k e => idx m.indices k = .ok e.1 ∧ idx m.data k = .ok e.2 ∧ e.1 < cols) ks p') :
    ∃ s', foldR (SumDup.step m r) s ks = .ok s' ∧ SDInv rows cols r rowLen P p' s' := by
  suffices H : ∀ (p q : List (Nat × F)) (ks : List Nat) (s : SumDup F), SDInv rows cols r rowLen P p s →
      List.Forall₂ (fun k (e : Nat × F) => idx m.indices k = .ok e.1 ∧ idx m.data k = .ok e.2 ∧ e.1 < cols) ks q →
      ∃ s', foldR (SumDup.step m r) s ks = .ok s' ∧ SDInv rows cols r rowLen P (p ++ q) s' by
    simpa using H [] p' ks s h hk
  intro p q ks s h hk
  induction hk generalizing p s with
  | nil => exact ⟨s, rfl, by simpa using h⟩
  | cons hd _ ih =>
    rename_i k e ks q _
    obtain ⟨s', h1, h2⟩ := SDInv.step (m := m) h hr hd.2.2 hd.1 hd.2.1
    obtain ⟨s'', h3, h4⟩ := ih (p ++ [(e.1, e.2)]) s' h2
    refine ⟨s'', by simp [foldR, h1, h3], ?_⟩
    simpa using h4

/-- Entering the next row. -/
theorem SDInv.next {rows cols r : Nat} {rowLen : Nat → Nat} {P p : List (Nat × F)} {s : SumDup F}
    (h : SDInv rows cols r rowLen P p s) (hl : rowLen r = (sumRow p).length) :
    SDInv rows cols (r + 1) rowLen (P ++ sumRow p) [] s := by
  obtain ⟨⟨fs, fr, fk, fc, e1, e2, e3, e4, i1, i2, i3, i4⟩, e5, e6, e7⟩ := h
  refine ⟨⟨fs, fr, fk, fc, e1, e2, e3, e4, ?_, ?_, ?_, ?_⟩, ?_, ?_, ?_⟩
  · intro c hc
    simp only [sumRow, List.foldl_nil, List.map_nil, List.not_mem_nil, iff_false, not_and]
    intro h1 h2
    have := i3 c hc h1
    omega
  · intro c hc h
    simp [sumRow] at h
  · intro c hc h
    have := i3 c hc h
    omega
  · intro i hi
    rw [i4 i hi]
    by_cases h1 : i < r
    · simp [h1, Nat.lt_succ_of_lt h1]
    · by_cases h2 : i = r
      · subst h2; simp [hl]
      · have h3 : ¬ i < r + 1 := by omega
        simp only [h1, h2, h3, if_false]
        by_cases h4 : i = r + 1
        · simp [h4, sumRow]
        · simp [h4]
  · simpa [sumRow] using e5
  · simpa [sumRow] using e6
  · simpa [sumRow] using e7

theorem Csr.Valid.ptr {m : Csr F} (h : m.Valid) {i : Nat} (hi : i ≤ m.rows) :
    ∃ a, m.indptr[i]? = some a ∧ a ≤ m.nnz := by
  have hi' : i < m.indptr.length := by rw [h.ptrLen]; omega
  refine ⟨m.indptr[i], List.getElem?_eq_getElem hi', ?_⟩
  have hl := h.last
  have hr : m.rows < m.indptr.length := by rw [h.ptrLen]; omega
  rw [List.getElem?_eq_getElem hr] at hl
  have hl' := Option.some.inj hl
  rcases Nat.lt_or_ge i m.rows with h' | h'
  · have := (List.pairwise_iff_getElem.1 h.mono) i m.rows hi' hr h'
    omega
  · have : i = m.rows := by omega
    subst this
    omega

theorem forall₂_slice {m : Csr F} (h : m.Valid) {lo hi : Nat} (hle : lo ≤ hi) (hn : hi ≤ m.nnz) :
    List.Forall₂ (fun k (e : Nat × F) => idx m.indices k = .ok e.1 ∧ idx m.data k = .ok e.2 ∧ e.1 < m.cols)
      (List.range' lo (hi - lo)) (((m.indices.zip m.data).drop lo).take (hi - lo)) := by
  rw [List.forall₂_iff_get]
  have hd := h.dataLen
  have hn' : hi ≤ m.indices.length := hn
  refine ⟨by simp; omega, ?_⟩
  intro i h1 h2
  simp only [List.get_eq_getElem, List.getElem_range', List.getElem_take, List.getElem_drop, List.getElem_zip]
  simp only [List.length_range'] at h1
  have e1 : lo + i < m.indices.length := by omega
  have e2 : lo + i < m.data.length := by omega
  rw [Nat.one_mul]
  exact ⟨idx_of_lt e1, idx_of_lt e2, h.cols _ (List.getElem_mem e1)⟩

theorem flatMap_range_succ {α : Type} (f : Nat → List α) (n : Nat) :
    (List.range (n + 1)).flatMap f = (List.range n).flatMap f ++ f n := by
  rw [List.range_succ, List.flatMap_append]
  simp

theorem length_flatMap_range {α : Type} (f : Nat → List α) (n : Nat) :
    ((List.range n).flatMap f).length = psum (fun i => (f i).length) n := by
  induction n with
  | zero => rfl
  | succ n ih => rw [flatMap_range_succ, List.length_append, ih, psum_succ]

theorem slice_flatMap {α : Type} (f : Nat → List α) {n i : Nat} (hi : i < n) :
    (((List.range n).flatMap f).drop (psum (fun j => (f j).length) i)).take (f i).length = f i := by
  induction n with
  | zero => omega
  | succ n ih =>
    rw [flatMap_range_succ]
    rcases Nat.lt_or_ge i n with h | h
    · have hle : psum (fun j => (f j).length) (i + 1) ≤ ((List.range n).flatMap f).length := by
        rw [length_flatMap_range]; exact psum_mono _ (by omega)
      rw [psum_succ] at hle
      rw [List.drop_append_of_le_length (by omega), List.take_append_of_le_length (by rw [List.length_drop]; omega)]
      exact ih h
    · have : i = n := by omega
      subst this
      rw [← length_flatMap_range, List.drop_left]
      simp

theorem sumDuplicates_ok {m : Csr F} (h : m.Valid) :
    ∃ m', m.sumDuplicates = .ok m' ∧ m'.Valid ∧ m'.shape = m.shape ∧
      m'.indptr = tab (m.rows + 1) (psum fun i => (sumRow (m.rowOf i)).length) ∧
      m'.indices = ((List.range m.rows).flatMap fun i => sumRow (m.rowOf i)).map Prod.fst ∧
      m'.data = ((List.range m.rows).flatMap fun i => sumRow (m.rowOf i)).map Prod.snd ∧
      ∀ i < m.rows, m'.rowOf i = sumRow (m.rowOf i) := by
  obtain ⟨s, h1, h2⟩ := foldR_range (f := SumDup.row m) (n := m.rows)
    (b := ⟨List.replicate m.cols false, List.replicate m.cols 0, List.replicate m.cols 0, 0, List.replicate m.rows 0, [], []⟩)
    (fun t s => SDInv m.rows m.cols t (fun i => (sumRow (m.rowOf i)).length)
      ((List.range t).flatMap fun i => sumRow (m.rowOf i)) [] s)
    (by
      refine ⟨⟨fun _ => false, fun _ => 0, fun _ => 0, fun _ => 0, by simp [replicate_tab], by simp [replicate_tab],
        by simp [replicate_tab], by simp [replicate_tab], ?_, ?_, ?_, ?_⟩, rfl, rfl, rfl⟩
      · simp [sumRow]
      · simp [sumRow]
      · simp
      · simp [sumRow])
    (by
      intro t s ht hi
      obtain ⟨lo, hlo, _⟩ := h.ptr (show t ≤ m.rows by omega)
      obtain ⟨hi', hhi, hhn⟩ := h.ptr (show t + 1 ≤ m.rows by omega)
      have hle : lo ≤ hi' := by
        have e1 : t < m.indptr.length := by rw [h.ptrLen]; omega
        have e2 : t + 1 < m.indptr.length := by rw [h.ptrLen]; omega
        rw [List.getElem?_eq_getElem e1] at hlo
        rw [List.getElem?_eq_getElem e2] at hhi
        have := (List.pairwise_iff_getElem.1 h.mono) t (t + 1) e1 e2 (by omega)
        have := Option.some.inj hlo
        have := Option.some.inj hhi
        omega
      have hrow : m.rowOf t = ((m.indices.zip m.data).drop lo).take (hi' - lo) := by
        simp [Csr.rowOf, hlo, hhi]
      obtain ⟨s', g1, g2⟩ := hi.row ht _ (hrow ▸ forall₂_slice h hle hhn)
      refine ⟨s', ?_, ?_⟩
      · simp only [SumDup.row, idx_ok.2 hlo, idx_ok.2 hhi, R.ok_bind]
        exact g1
      · rw [flatMap_range_succ]
        exact g2.next rfl)
  obtain ⟨⟨fs, fr, fk, fc, e1, e2, e3, e4, i1, i2, i3, i4⟩, e5, e6, e7⟩ := h2
  have hsn : sumRow ([] : List (Nat × F)) = [] := rfl
  rw [hsn, List.append_nil] at e5 e6 e7
  have hcnt : s.newCounter = tab m.rows fun i => (sumRow (m.rowOf i)).length := by
    rw [e4]
    apply tab_congr
    intro i hi
    rw [i4 i hi]
    simp [hi]
  have hlenI : s.newIndices.length = psum (fun i => (sumRow (m.rowOf i)).length) m.rows := by
    rw [e5, List.length_map, length_flatMap_range]
  have hlenD : s.newData.length = psum (fun i => (sumRow (m.rowOf i)).length) m.rows := by
    rw [e6, List.length_map, length_flatMap_range]
  let m' : Csr F := ⟨m.shape, tab (m.rows + 1) (psum fun i => (sumRow (m.rowOf i)).length), s.newIndices, s.newData⟩
  refine ⟨m', ?_, ?_, rfl, rfl, e5, e6, ?_⟩
  · simp only [Csr.sumDuplicates, h1, R.ok_bind]
    rw [hcnt, replicate_tab, fillPtr_tab rfl]
    simp only [R.ok_bind, tab_length, BEq.rfl, assertR_true, idx_tab (show m.rows < m.rows + 1 by omega), hlenI, hlenD]
    rfl
  · refine ⟨by simp [m', Csr.rows], ?_, tab_pairwise_psum _ _, ?_, by simp [m', hlenI, hlenD], ?_⟩
    · show (tab (m.rows + 1) _)[0]? = _
      rw [List.getElem?_eq_getElem (by simp), tab_getElem]
      rfl
    · show (tab (m.rows + 1) _)[m.rows]? = some s.newIndices.length
      rw [List.getElem?_eq_getElem (by simp), tab_getElem, hlenI]
    · intro c hc
      have hc' : c ∈ s.newIndices := hc
      rw [e5] at hc'
      obtain ⟨e, he, rfl⟩ := List.mem_map.1 hc'
      obtain ⟨i, hi, he⟩ := List.mem_flatMap.1 he
      have hmem := (sumRow_mem_fst (m.rowOf i) e.1).1 (List.mem_map.2 ⟨e, he, rfl⟩)
      obtain ⟨e', he', heq⟩ := List.mem_map.1 hmem
      have : e' ∈ m.indices.zip m.data := List.mem_of_mem_drop (List.mem_of_mem_take he')
      rw [← heq]
      exact h.cols _ (List.of_mem_zip this).1
  · intro i hi
    have hz : s.newIndices.zip s.newData = (List.range m.rows).flatMap fun i => sumRow (m.rowOf i) := by
      rw [e5, e6, List.zip_map']
      simp
    show Csr.rowOf m' i = _
    simp only [Csr.rowOf, m']
    rw [hz, List.getElem?_eq_getElem (by simp; omega), List.getElem?_eq_getElem (by simp; omega), tab_getElem, tab_getElem]
    simp only [Option.getD_some]
    rw [psum_succ, Nat.add_sub_cancel_left]
    exact slice_flatMap (fun i => sumRow (m.rowOf i)) hi

end Verif
