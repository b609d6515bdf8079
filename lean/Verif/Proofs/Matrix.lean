import Verif.Proofs.Loop
import Verif.Spec.Matrix

/-! # CooMat and CsrMat -/

namespace Verif

set_option linter.unusedSectionVars false
set_option linter.unusedSimpArgs false

variable {F : Type}

theorem Coo.WF.triplets_length {m : Coo F} (h : m.WF) : m.triplets.length = m.nnz := by
  simp only [Coo.triplets, List.length_zip, Coo.nnz]
  have := h.1
  have := h.2
  omega

theorem CooIter.next_of_lt {m : Coo F} (h : m.WF) {k : Nat} (hk : k < m.nnz) :
    (⟨k, m⟩ : CooIter F).next = .ok (some (m.triplets[k]'(by rw [h.triplets_length]; exact hk)), ⟨k + 1, m⟩) := by
  have h1 : k < m.colInds.length := by have := h.1; simp only [Coo.nnz] at hk; omega
  have h2 : k < m.data.length := by have := h.2; simp only [Coo.nnz] at hk; omega
  have h0 : k < m.rowInds.length := hk
  simp [CooIter.next, hk, idx_of_lt h0, idx_of_lt h1, idx_of_lt h2, Coo.triplets]

theorem CooIter.next_of_ge {m : Coo F} {k : Nat} (hk : ¬ k < m.nnz) :
    (⟨k, m⟩ : CooIter F).next = .ok (none, ⟨0, m⟩) := by
  simp [CooIter.next, hk]

theorem CooIter.drain_eq {m : Coo F} (h : m.WF) (d : Nat) : ∀ k, m.nnz - k = d →
    (⟨k, m⟩ : CooIter F).drain = .ok (m.triplets.drop k) := by
  induction d with
  | zero =>
    intro k hk
    have hk' : ¬ k < m.nnz := by omega
    unfold CooIter.drain
    split
    · rename_i e he; rw [CooIter.next_of_ge hk'] at he; cases he
    · rw [List.drop_eq_nil_of_le (by rw [h.triplets_length]; omega)]
    · rename_i t it he; rw [CooIter.next_of_ge hk'] at he; cases he
  | succ d ih =>
    intro k hk
    have hk' : k < m.nnz := by omega
    unfold CooIter.drain
    split
    · rename_i e he; rw [CooIter.next_of_lt h hk'] at he; cases he
    · rename_i he; rw [CooIter.next_of_lt h hk'] at he; cases he
    · rename_i t it he
      rw [CooIter.next_of_lt h hk'] at he
      injection he with he
      injection he with h1 h2
      injection h1 with h1
      subst h1 h2
      rw [ih (k + 1) (by omega)]
      simp only
      rw [List.drop_eq_getElem_cons (i := k) (by rw [h.triplets_length]; exact hk')]

theorem Coo.drain {m : Coo F} (h : m.WF) : m.iter.drain = .ok m.triplets := by
  have := CooIter.drain_eq h (m.nnz - 0) 0 rfl
  simpa [Coo.iter] using this

theorem CooIter.nexts_eq {m : Coo F} (h : m.WF) (n : Nat) : ∀ k, k ≤ m.nnz →
    (⟨k, m⟩ : CooIter F).nexts n = .ok ((List.range n).map fun t => m.triplets[(k + t) % (m.nnz + 1)]?) := by
  induction n with
  | zero => intro k _; rfl
  | succ n ih =>
    intro k hk
    rw [List.range_succ_eq_map, List.map_cons, List.map_map]
    by_cases hk' : k < m.nnz
    · have hm : (k + 0) % (m.nnz + 1) = k := by rw [Nat.add_zero]; exact Nat.mod_eq_of_lt (by omega)
      simp only [CooIter.nexts, CooIter.next_of_lt h hk', ih (k + 1) (by omega), hm]
      rw [List.getElem?_eq_getElem (by rw [h.triplets_length]; exact hk')]
      congr 2
      apply List.map_congr_left
      intro t _
      simp only [Function.comp]
      congr 2
      omega
    · have hkn : k = m.nnz := by omega
      have hm : (k + 0) % (m.nnz + 1) = m.nnz := by rw [Nat.add_zero, hkn]; exact Nat.mod_eq_of_lt (by omega)
      simp only [CooIter.nexts, CooIter.next_of_ge hk', ih 0 (by omega), hm]
      rw [List.getElem?_eq_none (Nat.le_of_eq h.triplets_length)]
      congr 2
      apply List.map_congr_left
      intro t _
      simp only [Function.comp]
      congr 1
      rw [hkn, show m.nnz + t.succ = 0 + t + (m.nnz + 1) by omega, Nat.add_mod_right]

/-! ## to_csr -/

theorem rowOf_append (a b : List (Nat × Nat × F)) (i : Nat) : rowOf (a ++ b) i = rowOf a i ++ rowOf b i := by
  simp [rowOf]

theorem rowOf_single (t : Nat × Nat × F) (i : Nat) : rowOf [t] i = if t.1 = i then [t.2] else [] := by
  simp only [rowOf, List.filter_cons, List.filter_nil]
  split <;> rename_i h <;> simp at h <;> simp [h]

theorem Coo.WF.count_row {m : Coo F} (h : m.WF) (i : Nat) : m.rowInds.count i = (rowOf m.triplets i).length := by
  have h1 : m.rowInds = m.triplets.map Prod.fst := by
    rw [Coo.triplets, List.map_fst_zip]
    have := h.1
    have := h.2
    simp only [List.length_zip]
    omega
  conv_lhs => rw [h1]
  simp only [rowOf, List.length_map, List.count]
  rw [List.countP_map, List.countP_eq_length_filter]
  rfl

theorem psum_count {n : Nat} {rs : List Nat} (h : ∀ r ∈ rs, r < n) : psum (fun i => rs.count i) n = rs.length := by
  induction rs with
  | nil => simp [psum]
  | cons r rs ih =>
    have key : ∀ m, psum (fun i => (r :: rs).count i) m = psum (fun i => rs.count i) m + if r < m then 1 else 0 := by
      intro m
      induction m with
      | zero => simp [psum]
      | succ m ihm =>
        rw [psum_succ, psum_succ, ihm, List.count_cons]
        by_cases h1 : r = m
        · subst h1; simp; omega
        · have h3 : (r == m) = false := by simpa using h1
          rw [h3]
          by_cases h2 : r < m
          · have : r < m + 1 := by omega
            simp [h2, this]; omega
          · have : ¬ r < m + 1 := by omega
            simp [h2, this]
    rw [key, ih fun r' hr' => h r' (by simp [hr'])]
    simp [h r (by simp)]

theorem tab_pairwise_psum (n : Nat) (c : Nat → Nat) : (tab n (psum c)).Pairwise (· ≤ ·) := by
  unfold tab
  rw [List.pairwise_map]
  exact List.pairwise_lt_range.imp fun h => psum_mono c (Nat.le_of_lt h)

variable [FloatOps F]

/-- The placement loop. -/
theorem place_loop {n : Nat} {items : List (Nat × Nat × F)} (h : ∀ t ∈ items, t.1 < n) :
    let c := fun i => (rowOf items i).length
    ∃ s gi gd, foldR (placeOne (tab (n + 1) (psum c)))
        ⟨List.replicate n 0, List.replicate (psum c n) 0, List.replicate (psum c n) (zero : F)⟩ items = .ok s ∧
      s.indices = tab (psum c n) gi ∧ s.data = tab (psum c n) gd ∧
      ∀ r < n, ∀ t (ht : t < (rowOf items r).length), (gi (psum c r + t), gd (psum c r + t)) = (rowOf items r)[t] := by
  intro c
  obtain ⟨s, h1, gi, gd, h2, h3, h4, h5⟩ := foldR_inv (f := placeOne (tab (n + 1) (psum c))) (l := items)
    (b := ⟨List.replicate n 0, List.replicate (psum c n) 0, List.replicate (psum c n) (zero : F)⟩)
    (fun pre s => ∃ gi gd, s.counter = tab n (fun i => (rowOf pre i).length) ∧
      s.indices = tab (psum c n) gi ∧ s.data = tab (psum c n) gd ∧
      ∀ r < n, ∀ t (ht : t < (rowOf pre r).length), (gi (psum c r + t), gd (psum c r + t)) = (rowOf pre r)[t])
    ⟨fun _ => 0, fun _ => zero, by simp [replicate_tab, rowOf], by simp [replicate_tab], by simp [replicate_tab],
      by simp [rowOf]⟩
    (by
      rintro pre e post ⟨cn, si, sd⟩ hl ⟨gi, gd, rfl, rfl, rfl, hinv⟩
      have he : e.1 < n := h e (by simp [hl])
      have hlt : (rowOf pre e.1).length < c e.1 := by
        simp only [c, hl, rowOf_append, List.length_append]
        have : rowOf (e :: post) e.1 = e.2 :: rowOf post e.1 := by
          rw [show e :: post = [e] ++ post from rfl, rowOf_append, rowOf_single]; simp
        rw [this]; simp
      have hk : psum c e.1 + (rowOf pre e.1).length < psum c n := by
        have := psum_mono c (show e.1 + 1 ≤ n by omega)
        rw [psum_succ] at this
        omega
      simp only [placeOne, idx_tab he, idx_tab (show e.1 < n + 1 by omega), R.ok_bind, setIdx_tab hk, incIdx_tab he]
      refine ⟨_, rfl, Function.update gi (psum c e.1 + (rowOf pre e.1).length) e.2.1,
        Function.update gd (psum c e.1 + (rowOf pre e.1).length) e.2.2, ?_, rfl, rfl, ?_⟩
      · apply tab_congr
        intro i _
        rw [rowOf_append, rowOf_single, Function.update_apply]
        by_cases hi : i = e.1
        · subst hi; simp
        · simp [hi, Ne.symm hi]
      · intro r hr t ht
        by_cases hre : r = e.1
        · subst hre
          have hro : rowOf (pre ++ [e]) e.1 = rowOf pre e.1 ++ [e.2] := by rw [rowOf_append, rowOf_single]; simp
          simp only [hro, List.length_append, List.length_singleton] at ht
          simp only [hro]
          by_cases htl : t < (rowOf pre e.1).length
          · rw [List.getElem_append_left htl, Function.update_of_ne (by omega), Function.update_of_ne (by omega)]
            exact hinv e.1 hr t htl
          · have htt : t = (rowOf pre e.1).length := by omega
            subst htt
            simp
        · have hro : rowOf (pre ++ [e]) r = rowOf pre r := by rw [rowOf_append, rowOf_single]; simp [Ne.symm hre]
          simp only [hro] at ht ⊢
          have hlt' : t < c r := by
            refine Nat.lt_of_lt_of_le ht ?_
            simp only [c, hl, rowOf_append, List.length_append]
            omega
          have hne : psum c r + t ≠ psum c e.1 + (rowOf pre e.1).length := by
            rcases Nat.lt_or_gt_of_ne hre with h' | h'
            · have := psum_mono c (show r + 1 ≤ e.1 by omega)
              rw [psum_succ] at this
              omega
            · have := psum_mono c (show e.1 + 1 ≤ r by omega)
              rw [psum_succ] at this
              omega
          rw [Function.update_of_ne hne, Function.update_of_ne hne]
          exact hinv r hr t ht)
  exact ⟨s, gi, gd, h1, h3, h4, h5⟩

theorem toCsr_ok {m : Coo F} (h : m.WF) (hr : ∀ r ∈ m.rowInds, r < m.rows) :
    ∃ c, m.toCsr = .ok c ∧ c.shape = m.shape ∧ c.indptr = tab (m.rows + 1) (psum fun i => (rowOf m.triplets i).length) ∧
      c.indices.length = m.nnz ∧ c.data.length = m.nnz ∧ psum (fun i => (rowOf m.triplets i).length) m.rows = m.nnz ∧
      ∀ i < m.rows, c.rowOf i = rowOf m.triplets i := by
  have hcnt : (fun i => (rowOf m.triplets i).length) = fun i => m.rowInds.count i := by
    funext i; rw [h.count_row]
  have hnn : psum (fun i => (rowOf m.triplets i).length) m.rows = m.nnz := by
    rw [hcnt, psum_count hr]; rfl
  have hitems : ∀ t ∈ m.triplets, t.1 < m.rows := by
    intro t ht
    exact hr _ (List.of_mem_zip ht).1
  obtain ⟨s, gi, gd, h1, h2, h3, h4⟩ := place_loop hitems
  rw [hnn] at h1 h2 h3
  refine ⟨⟨m.shape, tab (m.rows + 1) (psum fun i => (rowOf m.triplets i).length), s.indices, s.data⟩, ?_, rfl, rfl,
    by simp [h2], by simp [h3], hnn, ?_⟩
  · simp only [Coo.toCsr]
    rw [replicate_tab m.rows, foldR_incIdx hr]
    simp only [R.ok_bind]
    rw [replicate_tab, setIdx_tab (by omega)]
    simp only [R.ok_bind, Nat.zero_add]
    rw [fillPtr_tab (by simp)]
    simp only [R.ok_bind, idx_tab (show m.rows < m.rows + 1 by omega)]
    rw [← hcnt, hnn]
    simp only [BEq.rfl, assertR_true, R.ok_bind, Coo.drain h]
    rw [← replicate_tab, h1]
    simp only [R.ok_bind, Csr.new, tab_length]
    have hm : m.shape.1 = m.rows := rfl
    have hlast : (tab (m.rows + 1) (psum fun i => (rowOf m.triplets i).length)).getLast? = some m.nnz := by
      rw [tab, List.range_succ, List.map_append]
      simp [hnn]
    rw [hm, hlast, h2, h3]
    simp
  · intro i hi
    simp only [Csr.rowOf]
    rw [h2, h3]
    have e1 : (tab (m.rows + 1) (psum fun i => (rowOf m.triplets i).length))[i]? =
        some (psum (fun i => (rowOf m.triplets i).length) i) := by
      rw [List.getElem?_eq_getElem (by simp; omega), tab_getElem]
    have e2 : (tab (m.rows + 1) (psum fun i => (rowOf m.triplets i).length))[i + 1]? =
        some (psum (fun i => (rowOf m.triplets i).length) (i + 1)) := by
      rw [List.getElem?_eq_getElem (by simp; omega), tab_getElem]
    rw [e1, e2]
    simp only [Option.getD_some]
    rw [psum_succ]
    have hle : psum (fun i => (rowOf m.triplets i).length) i + (rowOf m.triplets i).length ≤ m.nnz := by
      rw [← psum_succ (fun i => (rowOf m.triplets i).length), ← hnn]
      exact psum_mono _ (by omega)
    apply List.ext_getElem
    · simp; omega
    · intro t h5 h6
      rw [List.getElem_take, List.getElem_drop, List.getElem_zip]
      simp only [tab_getElem]
      exact h4 i hi t h6

theorem toCsr_error {m : Coo F} (hr : ∃ r ∈ m.rowInds, m.rows ≤ r) : m.toCsr = .error .index := by
  simp only [Coo.toCsr]
  rw [replicate_tab m.rows, foldR_incIdx_error hr]
  rfl

end Verif
