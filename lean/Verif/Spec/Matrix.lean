import Verif.Code.Matrix

/-! # What a sparse matrix represents -/

namespace Verif

variable {F : Type}

/-- The three vectors have the same length (true of every `CooMat`: the constructors assert it). -/
def Coo.WF (m : Coo F) : Prop := m.rowInds.length = m.colInds.length ∧ m.rowInds.length = m.data.length

/-- The matrices that a user of the API can have: the three constructors, `set_row_ind`, `set_col_ind`, and writes through `data_mut`
(which cannot change the length). -/
inductive Coo.Built [FloatOps F] : Coo F → Prop
  | new {shape r c d m} (h : Coo.new shape r c d = .ok m) : Coo.Built m
  | pattern {shape r c m} (h : Coo.fromPattern shape r c = .ok m) : Coo.Built m
  | nnz (shape : Nat × Nat) (n : Nat) : Coo.Built (Coo.fromNnz shape n)
  | row {m m' k i} (hm : Coo.Built m) (h : m.setRowInd k i = .ok m') : Coo.Built m'
  | col {m m' k i} (hm : Coo.Built m) (h : m.setColInd k i = .ok m') : Coo.Built m'
  | data {m} (d : List F) (hm : Coo.Built m) (hd : d.length = m.data.length) : Coo.Built { m with data := d }

/-- The stored (row, col, value) triplets, in storage order. -/
def Coo.triplets (m : Coo F) : List (Nat × Nat × F) := m.rowInds.zip (m.colInds.zip m.data)

/-- The (col, value) pairs of row `i`, in storage order. -/
def rowOf (ts : List (Nat × Nat × F)) (i : Nat) : List (Nat × F) := (ts.filter fun t => t.1 == i).map fun t => t.2

/-- Row `i` of a CSR matrix: positions `indptr[i] .. indptr[i+1]` of (indices, data). -/
def Csr.rowOf (m : Csr F) (i : Nat) : List (Nat × F) :=
  let lo := (m.indptr[i]?).getD 0
  let hi := (m.indptr[i + 1]?).getD 0
  ((m.indices.zip m.data).drop lo).take (hi - lo)

/-- A valid CSR matrix: index pointers from 0 to nnz, non-decreasing; column indices in range. -/
structure Csr.Valid (m : Csr F) : Prop where
  ptrLen : m.indptr.length = m.rows + 1
  first : m.indptr[0]? = some 0
  mono : m.indptr.Pairwise (· ≤ ·)
  last : m.indptr[m.rows]? = some m.nnz
  dataLen : m.data.length = m.indices.length
  cols : ∀ c ∈ m.indices, c < m.cols

/-- Values stored for column `j` in a row, in order. -/
def valuesAt (j : Nat) (row : List (Nat × F)) : List F := (row.filter fun e => e.1 == j).map fun e => e.2

/-- Do `n` calls of `next`, collecting the results. -/
def CooIter.nexts : Nat → CooIter F → R (List (Option (Nat × Nat × F)))
  | 0, _ => .ok []
  | n + 1, it =>
    match it.next with
    | .error e => .error e
    | .ok (o, it') =>
      match nexts n it' with
      | .error e => .error e
      | .ok os => .ok (o :: os)

variable [FloatOps F]

/-- Sum of a list of numbers, from the left; 0 for the empty list. -/
def total : List F → F
  | [] => zero
  | v :: vs => vs.foldl (· +. ·) v

/-- Entry (i, j) of the matrix represented by a list of triplets (duplicates are summed, missing positions are 0). -/
def Coo.dense (m : Coo F) (i j : Nat) : F := total (valuesAt j (Verif.rowOf m.triplets i))

/-- Entry (i, j) of the matrix represented by a CSR matrix. -/
def Csr.dense (m : Csr F) (i j : Nat) : F := total (valuesAt j (m.rowOf i))

/-- Add a (col, value) pair to a row without repeated columns. -/
def upsert (q : List (Nat × F)) (e : Nat × F) : List (Nat × F) :=
  if e.1 ∈ q.map Prod.fst then q.modify ((q.map Prod.fst).idxOf e.1) (fun x => (x.1, x.2 +. e.2)) else q ++ [e]

/-- The row with duplicates summed. -/
def sumRow (p : List (Nat × F)) : List (Nat × F) := p.foldl upsert []

end Verif
