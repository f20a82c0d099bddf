/-
Model of the assembly of the global sparse operator from placed blocks
(src/components/DGOperatorFactory.h).

`int` is `Int`, `double` is an element of a commutative ring `K`.  Arrays are lists; every indexed
access goes through `rd`/`wr`, whose `none` is the undefined behaviour of an out-of-range index.
-/
import Mathlib.Algebra.Ring.Basic
import Mathlib.Algebra.BigOperators.Group.List.Basic
import Mathlib.Data.List.Basic

namespace Dgtd.Csr

variable {K : Type}

/-- `a[i]` on the right-hand side of an assignment; `none` when out of range. (src/components/DGOperatorFactory.h:178-236) -/
def rd {α : Type*} (a : List α) (i : Int) : Option α :=
  if i < 0 then none else a[i.toNat]?

/-- `a[i] = v`; `none` when out of range. (src/components/DGOperatorFactory.h:178-236) -/
def wr {α : Type*} (a : List α) (i : Int) (v : α) : Option (List α) :=
  if 0 ≤ i ∧ i.toNat < a.length then some (a.set i.toNat v) else none

/-- src/components/DGOperatorFactory.h:153-158 `CSRBlockPlacement`.  `rows` is the finalized CSR
block: for each local row its (column, value) entries in storage order. -/
structure Placement (K : Type) where
  rows : List (List (Int × K))
  rowOffset : Int
  colOffset : Int
  sign : K

/-- Lines 190-193 and 214-218: the entries of the block in global row `row`; the `continue` for rows
outside the block is the empty list. (src/components/DGOperatorFactory.h) -/
def rowOf (bp : Placement K) (row : Nat) : List (Int × K) :=
  let localRow : Int := row - bp.rowOffset
  if localRow < 0 ∨ (bp.rows.length : Int) ≤ localRow then []
  else (bp.rows[localRow.toNat]?).getD []

/-- Lines 194-200: one entry in pass 1; state is (marker, nnz). (src/components/DGOperatorFactory.h) -/
def p1Entry (row : Nat) (colOffset : Int) (st : List Int × Nat) (e : Int × K) :
    Option (List Int × Nat) := do
  let globalCol := e.1 + colOffset
  let m ← rd st.1 globalCol
  if m ≠ (row : Int) then
    let marker ← wr st.1 globalCol (row : Int)
    pure (marker, st.2 + 1)
  else pure st

/-- Lines 188-202: one global row in pass 1.  `C_i` grows by one entry (in the code it is
preallocated with `globalRows + 1` entries and entry `row + 1` is written). (src/components/DGOperatorFactory.h) -/
def p1Row (blocks : List (Placement K)) (st : List Int × List Nat) (row : Nat) :
    Option (List Int × List Nat) := do
  let (marker, nnz) ← blocks.foldlM
    (fun s bp => (rowOf bp row).foldlM (p1Entry row bp.colOffset) s) (st.1, 0)
  let last ← st.2[row]?
  pure (marker, st.2 ++ [last + nnz])

/-- State of pass 2: marker, `C_j`, `C_data`, `pos`. (src/components/DGOperatorFactory.h:204-233) -/
structure P2 (K : Type) where
  marker : List Int
  cj : List Int
  ca : List K
  pos : Int

/-- Lines 219-231: one entry in pass 2; `base` is `C_i[row]`. (src/components/DGOperatorFactory.h) -/
def p2Entry [Add K] [Mul K] (base : Nat) (colOffset : Int) (sign : K) (s : P2 K) (e : Int × K) :
    Option (P2 K) := do
  let globalCol := e.1 + colOffset
  let m ← rd s.marker globalCol
  if m < (base : Int) then
    let cj ← wr s.cj s.pos globalCol
    let ca ← wr s.ca s.pos (e.2 * sign)
    let marker ← wr s.marker globalCol s.pos
    pure { marker := marker, cj := cj, ca := ca, pos := s.pos + 1 }
  else
    let old ← rd s.ca m
    let ca ← wr s.ca m (old + e.2 * sign)
    pure { s with ca := ca }

/-- Lines 212-233: one global row in pass 2. (src/components/DGOperatorFactory.h) -/
def p2Row [Add K] [Mul K] (blocks : List (Placement K)) (ci : List Nat) (s : P2 K) (row : Nat) :
    Option (P2 K) := do
  let base ← ci[row]?
  blocks.foldlM
    (fun s bp => (rowOf bp row).foldlM (p2Entry base bp.colOffset bp.sign) s) s

/-- A finalized CSR matrix (the arguments of the `SparseMatrix` constructor, line 235). (src/components/DGOperatorFactory.h) -/
structure CSR (K : Type) where
  ci : List Nat
  cj : List Int
  ca : List K

/-- Lines 178-236 `mergeBlocksToCSR`.  `junkJ`/`junkA` are the unspecified contents of freshly
allocated memory. (src/components/DGOperatorFactory.h) -/
def merge [Add K] [Mul K] (junkJ : Int) (junkA : K) (blocks : List (Placement K))
    (globalRows globalCols : Nat) : Option (CSR K) := do
  let (_, ci) ← (List.range globalRows).foldlM (p1Row blocks)
    (List.replicate globalCols (-1), [0])
  let total ← ci[globalRows]?
  let s ← (List.range globalRows).foldlM (p2Row blocks ci)
    { marker := List.replicate globalCols (-1)
      cj := List.replicate total junkJ
      ca := List.replicate total junkA
      pos := 0 }
  pure { ci := ci, cj := s.cj, ca := s.ca }

/-- Lines 99-115 `loadBlockInGlobalAtIndices` on a destination seen as a function of (row, column):
`dst.Add` accumulates.  Only the first `expectedRows` rows are visited. (src/components/DGOperatorFactory.h) -/
def loadBlock [Add K] [Mul K] (expectedRows : Nat) (dst : Int → Int → K) (bp : Placement K) :
    Int → Int → K :=
  (List.range expectedRows).foldl (fun dst (r : Nat) =>
    ((bp.rows[r]?).getD []).foldl (fun dst e =>
      fun i j => if i = bp.rowOffset + r ∧ j = bp.colOffset + e.1 then dst i j + e.2 * bp.sign
        else dst i j) dst) dst

end Dgtd.Csr
