/-
Model of the export of the assembled operator: what is dropped from it and the text that is written.
-/
import Verif.Model.Csr
import Verif.Model.Decimal

namespace Dgtd.Export

open Dgtd.Csr Dgtd.Decimal

section
variable {K : Type} [Field K] [LinearOrder K]

/-- The (column, value) pairs of row `r`, which MFEM's `Threshold` visits.
(src/components/DGOperatorFactory.h:1569-1570) -/
def storedRow (m : CSR K) (r : Nat) : List (Int × K) :=
  ((m.cj.zip m.ca).drop ((m.ci[r]?).getD 0)).take ((m.ci[r + 1]?).getD 0 - (m.ci[r]?).getD 0)

/-- The arrays of a matrix with the given rows. (src/components/DGOperatorFactory.h:1569-1570, inside MFEM) -/
def ofRows (rows : List (List (Int × K))) : CSR K :=
  { ci := (List.range (rows.length + 1)).map fun r => ((rows.map List.length).take r).sum
    cj := rows.flatten.map Prod.fst
    ca := rows.flatten.map Prod.snd }

/-- `res->Threshold(1e-20)`: MFEM keeps the entries whose magnitude is larger.
(src/components/DGOperatorFactory.h:1569-1570) -/
def threshold (m : CSR K) (height : Nat) : CSR K :=
  ofRows ((List.range height).map fun r => (storedRow m r).filter fun e => decide (1 / 10 ^ 20 < |e.2|))

/-- `buildGlobalOperator` after the blocks are collected, without the file: the operator the run applies.
(src/components/DGOperatorFactory.h:1564-1570, 1600) -/
def builtOperator (junkJ : Int) (junkA : K) (blocks : List (Placement K)) (rows cols : Nat) : Option (CSR K) :=
  (merge junkJ junkA blocks rows cols).map fun m => threshold m rows

end

/-- `PrintCSR2` of MFEM: the numbers of rows and columns, the row pointers, the columns and the values, one to a
line.  The stream has its default format, six digits, which `sci 5` gives. (src/components/DGOperatorFactory.h:1589-1596) -/
def csr2 (height width : Nat) (m : CSR ℚ) : List Line :=
  .count height :: .count width :: (m.ci.map .count ++ m.cj.map (fun c => .count c.toNat) ++
    m.ca.map fun a => .num (sci 5 a))

/-- `buildGlobalOperator` after the blocks are collected: the operator the run applies, and the file it writes if
it is asked to and has one rank. (src/components/DGOperatorFactory.h:1564-1600) -/
def buildGlobal (junkJ : Int) (junkA : ℚ) (blocks : List (Placement ℚ)) (rows cols ranks : Nat) (wanted : Bool) :
    Option (CSR ℚ × Option (List Line)) := do
  let m ← merge junkJ junkA blocks rows cols
  let res := threshold m rows
  pure (res, if wanted ∧ ¬ 1 < ranks then some (csr2 rows cols res) else none)

end Dgtd.Export
