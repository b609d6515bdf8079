import Verif.Code.Base

/-!
# Sparse matrices: src/matrix/coo.rs, src/matrix/csr.rs

Simplification: the element type `T: MatItem` is any type with the `f64` operations of `FloatOps` (the crate instantiates it
with `f64` only).  `usize` is `Nat` (no overflow: index vectors live in memory).
-/

namespace Verif

variable {F : Type}

/-- src/matrix/coo.rs:10-15 -/
structure Coo (F : Type) where
  shape : Nat × Nat
  rowInds : List Nat
  colInds : List Nat
  data : List F

/-- src/matrix/csr.rs:7-12 -/
structure Csr (F : Type) where
  shape : Nat × Nat
  indptr : List Nat
  indices : List Nat
  data : List F

/-- `assert!(b)` / `assert_eq!`. Code: e.g. src/matrix/coo.rs:26-38. -/
def assertR (b : Bool) : R Unit := if b then .ok () else .error .assert

/-- `CooMat::new`, src/matrix/coo.rs:26-38 -/
def Coo.new (shape : Nat × Nat) (rowInds colInds : List Nat) (data : List F) : R (Coo F) := do
  assertR (rowInds.length == colInds.length)
  assertR (rowInds.length == data.length)
  .ok ⟨shape, rowInds, colInds, data⟩

namespace Coo

/-- src/matrix/coo.rs:65 -/
def rows (m : Coo F) : Nat := m.shape.1

/-- src/matrix/coo.rs:68 -/
def cols (m : Coo F) : Nat := m.shape.2

/-- src/matrix/coo.rs:71 -/
def nnz (m : Coo F) : Nat := m.rowInds.length

/-- src/matrix/coo.rs:86 -/
def setRowInd (m : Coo F) (k row : Nat) : R (Coo F) := do .ok { m with rowInds := ← setIdx m.rowInds k row }

/-- src/matrix/coo.rs:89 -/
def setColInd (m : Coo F) (k col : Nat) : R (Coo F) := do .ok { m with colInds := ← setIdx m.colInds k col }

end Coo

/-- src/matrix/coo.rs:18-21 -/
structure CooIter (F : Type) where
  k : Nat
  mat : Coo F

/-- `CooMat::iter`, src/matrix/coo.rs:92, 152-157 -/
def Coo.iter (m : Coo F) : CooIter F := ⟨0, m⟩

/-- `CooMatIter::next`, src/matrix/coo.rs:162-174 -/
def CooIter.next (it : CooIter F) : R (Option (Nat × Nat × F) × CooIter F) :=
  if it.k < it.mat.nnz then do
    let row ← idx it.mat.rowInds it.k
    let col ← idx it.mat.colInds it.k
    let val ← idx it.mat.data it.k
    .ok (some (row, col, val), { it with k := it.k + 1 })
  else .ok (none, { it with k := 0 })

theorem CooIter.next_some {it it' : CooIter F} {t : Nat × Nat × F} (h : it.next = .ok (some t, it')) :
    it.k < it.mat.nnz ∧ it'.k = it.k + 1 ∧ it'.mat = it.mat := by
  unfold CooIter.next at h
  split at h
  · rename_i hk
    refine ⟨hk, ?_⟩
    simp only [bind, Except.bind] at h
    repeat' split at h
    all_goals simp at h
    simp [← h.2]
  · simp at h

/-- `for (row, col, val) in m.iter()`: the items up to the first `None`. Code: e.g. src/matrix/coo.rs:120-125. -/
def CooIter.drain (it : CooIter F) : R (List (Nat × Nat × F)) :=
  match _h : it.next with
  | .error e => .error e
  | .ok (none, _) => .ok []
  | .ok (some t, it') =>
    match it'.drain with
    | .error e => .error e
    | .ok ts => .ok (t :: ts)
termination_by it.mat.nnz - it.k
decreasing_by
  have := CooIter.next_some _h
  rw [this.2.2, this.2.1]
  omega

/-- `CsrMat::new`, src/matrix/csr.rs:17-30 -/
def Csr.new (shape : Nat × Nat) (indptr indices : List Nat) (data : List F) : R (Csr F) := do
  assertR (indptr.length == shape.1 + 1)
  assertR (indices.length == data.length)
  assertR (indptr.getLast? == some data.length)
  .ok ⟨shape, indptr, indices, data⟩

namespace Csr

/-- src/matrix/csr.rs:33 -/
def rows (m : Csr F) : Nat := m.shape.1

/-- src/matrix/csr.rs:36 -/
def cols (m : Csr F) : Nat := m.shape.2

/-- src/matrix/csr.rs:39 -/
def nnz (m : Csr F) : Nat := m.indices.length

end Csr

variable [FloatOps F]

/-- `CooMat::from_pattern`, src/matrix/coo.rs:41-52 -/
def Coo.fromPattern (shape : Nat × Nat) (rowInds colInds : List Nat) : R (Coo F) := do
  assertR (rowInds.length == colInds.length)
  .ok ⟨shape, rowInds, colInds, List.replicate rowInds.length zero⟩

/-- `CooMat::from_nnz`, src/matrix/coo.rs:55-63 -/
def Coo.fromNnz (shape : Nat × Nat) (nnz : Nat) : Coo F :=
  ⟨shape, List.replicate nnz 0, List.replicate nnz 0, List.replicate nnz zero⟩

/-- `v[i] += 1`. Code: e.g. src/matrix/coo.rs:95-134. -/
def incIdx (v : List Nat) (i : Nat) : R (List Nat) := do setIdx v i ((← idx v i) + 1)

/-- "Set indptr", src/matrix/coo.rs:110-114 and src/matrix/csr.rs:90-95: state is (indptr, offset) -/
def fillPtr (indptr : List Nat) (counter : List Nat) : R (List Nat) := do
  let r ← foldR (fun (s : List Nat × Nat) (ic : Nat × Nat) => do
    let p ← setIdx s.1 (ic.1 + 1) (s.2 + ic.2)
    .ok (p, s.2 + ic.2)) (indptr, 0) ((List.range counter.length).zip counter)
  .ok r.1

/-- State of the placement loop of `to_csr`: counter, indices, data. Code: src/matrix/coo.rs:117-125. -/
structure Place (F : Type) where
  counter : List Nat
  indices : List Nat
  data : List F

/-- Loop body, src/matrix/coo.rs:120-125 -/
def placeOne (indptr : List Nat) (s : Place F) (e : Nat × Nat × F) : R (Place F) := do
  let k := (← idx indptr e.1) + (← idx s.counter e.1)
  let indices ← setIdx s.indices k e.2.1
  let data ← setIdx s.data k e.2.2
  let counter ← incIdx s.counter e.1
  .ok ⟨counter, indices, data⟩

/-- `to_csr`, src/matrix/coo.rs:95-134 -/
def Coo.toCsr (m : Coo F) : R (Csr F) := do
  let indptr := List.replicate (m.rows + 1) 0
  let indices := List.replicate m.nnz 0
  let data : List F := List.replicate m.nnz zero
  let counter ← foldR incIdx (List.replicate m.rows 0) m.rowInds
  let indptr ← setIdx indptr 0 0
  let indptr ← fillPtr indptr counter
  assertR ((← idx indptr m.rows) == m.nnz)
  let items ← m.iter.drain
  let s ← foldR (placeOne indptr) ⟨List.replicate m.rows 0, indices, data⟩ items
  Csr.new m.shape indptr s.indices s.data

/-- `&CooMat * Vec`, src/matrix/coo.rs:141-148 -/
def Coo.mulVec (m : Coo F) (x : List F) : R (List F) := do
  assertR (m.cols == x.length)
  let items ← m.iter.drain
  foldR (fun (y : List F) (e : Nat × Nat × F) => do
    let xc ← idx x e.2.1
    setIdx y e.1 ((← idx y e.1) +. (xc *. e.2.2))) (List.replicate m.rows zero) items

/-- State of the loops of `sum_duplicates`, src/matrix/csr.rs:53-62 -/
structure SumDup (F : Type) where
  colseen : List Bool
  colrow : List Nat
  colnewk : List Nat
  newK : Nat
  newCounter : List Nat
  newIndices : List Nat
  newData : List F

/-- Inner loop body, src/matrix/csr.rs:66-85 -/
def SumDup.step (m : Csr F) (row : Nat) (s : SumDup F) (k : Nat) : R (SumDup F) := do
  let col ← idx m.indices k
  let d ← idx m.data k
  let seen ← idx s.colseen col
  -- `!colseen[col] || colrow[col] != row` (short-circuit: same panics, both vectors have the same length)
  let crow ← idx s.colrow col
  let s ← if !seen || crow != row then do
      let colnewk ← setIdx s.colnewk col s.newK
      let newCounter ← incIdx s.newCounter row
      (.ok { s with
        colnewk := colnewk
        newCounter := newCounter
        newIndices := s.newIndices ++ [col]
        newData := s.newData ++ [d]
        newK := s.newK + 1 } : R (SumDup F))
    else do
      let kk ← idx s.colnewk col
      let newData ← setIdx s.newData kk ((← idx s.newData kk) +. d)
      .ok { s with newData := newData }
  .ok { s with colseen := ← setIdx s.colseen col true, colrow := ← setIdx s.colrow col row }

/-- One row, src/matrix/csr.rs:63-88 -/
def SumDup.row (m : Csr F) (s : SumDup F) (row : Nat) : R (SumDup F) := do
  let lo ← idx m.indptr row
  let hi ← idx m.indptr (row + 1)
  foldR (SumDup.step m row) s (List.range' lo (hi - lo))

/-- `sum_duplicates`, src/matrix/csr.rs:51-104; the new content of the matrix -/
def Csr.sumDuplicates (m : Csr F) : R (Csr F) := do
  let init : SumDup F :=
    ⟨List.replicate m.cols false, List.replicate m.cols 0, List.replicate m.cols 0, 0, List.replicate m.rows 0, [], []⟩
  let s ← foldR (SumDup.row m) init (List.range m.rows)
  let indptr ← fillPtr (List.replicate (m.rows + 1) 0) s.newCounter
  assertR (indptr.length == m.rows + 1)
  assertR (s.newIndices.length == (← idx indptr m.rows))
  assertR (s.newIndices.length == s.newData.length)
  .ok ⟨m.shape, indptr, s.newIndices, s.newData⟩

end Verif
