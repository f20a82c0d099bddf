/-
Reading the exported operator and snapshots outside the program.
-/
import Verif.Model.Export
import Verif.Spec.Csr

namespace Dgtd.Export.Spec

open Dgtd.Csr Dgtd.Csr.Spec Dgtd.Decimal

/-- Lines that are all whole numbers. -/
def counts : List Line → Option (List Nat)
  | [] => some []
  | .count n :: r => (counts r).map (n :: ·)
  | .num _ :: _ => none

/-- Lines that are all decimal numbers with `p` digits after the first one; the numbers they denote. -/
def nums (p : Nat) : List Line → Option (List ℚ)
  | [] => some []
  | .num d :: r => (nums p r).map (d.value p :: ·)
  | .count _ :: _ => none

/-- The matrix a file denotes: rows, columns, one pointer more than rows, and as many columns and values as the last
pointer says. -/
def readCsr : List Line → Option (Nat × Nat × CSR ℚ)
  | .count h :: .count w :: rest => do
    let ci ← counts (rest.take (h + 1))
    let nnz ← ci.getLast?
    let cj ← counts ((rest.drop (h + 1)).take nnz)
    let ca ← nums 5 (rest.drop (h + 1 + nnz))
    if ci.length = h + 1 ∧ cj.length = nnz ∧ ca.length = nnz then some (h, w, ⟨ci, cj.map Int.ofNat, ca⟩) else none
  | _ => none

/-- The vector a snapshot denotes: an instant, a count, and that many numbers. -/
def readState : List Line → Option (List ℚ)
  | .num _ :: .count n :: rest => (nums 16 rest).bind fun x => if x.length = n then some x else none
  | _ => none

/-- The vector a snapshot denotes according to the documentation: the count is on the first line. -/
def readStateAsDocumented : List Line → Option (List ℚ)
  | .count n :: rest => (nums 16 rest).bind fun x => if x.length = n then some x else none
  | _ => none

/-- A list as the entries `0, 1, …` of a vector. -/
def asVector (x : List ℚ) (k : Int) : ℚ := if 0 ≤ k then (x[k.toNat]?).getD 0 else 0

/-- What row `r` of the product is made of: the sum of the magnitudes of its terms. -/
def rowSize (m : CSR ℚ) (x : Int → ℚ) (r : Nat) : ℚ := ((csrRow m r).map fun e => |e.2 * x e.1|).sum

/-- The sum of the magnitudes of the values that row `r` of a matrix touches. -/
def touched {K : Type} [Field K] [LinearOrder K] (m : CSR K) (x : Int → K) (r : Nat) : K := ((csrRow m r).map fun e => |x e.1|).sum

end Dgtd.Export.Spec
