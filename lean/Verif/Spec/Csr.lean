/-
Specification of operator assembly: matrices as functions, a placed block contributes its signed
entries, the global operator is the sum.
-/
import Verif.Model.Csr

namespace Dgtd.Csr.Spec

variable {K : Type} [CommRing K]

/-- Entry `(r, c)` of a block given by rows of (column, value) pairs; rows outside are zero and
repeated columns add up. -/
def blockEntry (rows : List (List (Int × K))) (r c : Int) : K :=
  if 0 ≤ r then (((rows[r.toNat]?).getD []).map fun e => if e.1 = c then e.2 else 0).sum else 0

/-- Entry `(r, c)` of the sum of all placed, signed blocks. -/
def sumEntry (blocks : List (Placement K)) (r c : Int) : K :=
  (blocks.map fun bp => bp.sign * blockEntry bp.rows (r - bp.rowOffset) (c - bp.colOffset)).sum

/-- The (column, value) pairs stored in row `r` of a CSR matrix. -/
def csrRow (m : CSR K) (r : Nat) : List (Int × K) :=
  ((m.cj.zip m.ca).drop ((m.ci[r]?).getD 0)).take ((m.ci[r + 1]?).getD 0 - (m.ci[r]?).getD 0)

/-- Entry `(r, c)` of a CSR matrix. -/
def csrEntry (m : CSR K) (r : Nat) (c : Int) : K :=
  ((csrRow m r).map fun e => if e.1 = c then e.2 else 0).sum

/-- Row `r` of the product of a CSR matrix with a vector. -/
def csrMul (m : CSR K) (x : Int → K) (r : Nat) : K :=
  ((csrRow m r).map fun e => e.2 * x e.1).sum

/-- Row `r` of the product of a matrix given by its entries with a vector of `cols` entries. -/
def matMul (cols : Nat) (a : Int → Int → K) (x : Int → K) (r : Nat) : K :=
  ((List.range cols).map fun (c : Nat) => a r c * x c).sum

/-- A well-formed CSR structure of the given dimensions. -/
structure WellFormed (m : CSR K) (rows cols : Nat) : Prop where
  ptr_length : m.ci.length = rows + 1
  ptr_first : m.ci[0]? = some 0
  ptr_last : m.ci[rows]? = some m.cj.length
  data_length : m.ca.length = m.cj.length
  ptr_mono : m.ci.Pairwise (· ≤ ·)
  cols_range : ∀ c ∈ m.cj, 0 ≤ c ∧ c < cols
  no_dup : ∀ r < rows, ((csrRow m r).map Prod.fst).Nodup

/-- Every entry of every block that falls in a global row falls in a global column. -/
def InBounds (blocks : List (Placement K)) (rows cols : Nat) : Prop :=
  ∀ bp ∈ blocks, ∀ i, (h : i < bp.rows.length) → 0 ≤ bp.rowOffset + i → bp.rowOffset + i < rows →
    ∀ e ∈ bp.rows[i], 0 ≤ e.1 + bp.colOffset ∧ e.1 + bp.colOffset < cols

end Dgtd.Csr.Spec
