/-
Model of the lines printed by the partition post-processing, src/driver/driver.cpp:269-289.

`int` and `long long` are unbounded and `double` is exact (`ℚ`); the rounding of the printed numbers to one decimal is left out.
-/
import Verif.Model.Partition
import Mathlib.Data.Rat.Defs

namespace Dgtd.Partition

/-- The numbers of the three lines. (src/driver/driver.cpp:278-288) -/
structure Report where
  pairs : Nat
  comps : Nat
  ranks : Nat
  tfsfTags : Nat
  sgbcTags : Nat
  minLoad : Int
  maxLoad : Int
  ideal : ℚ
  imbalance : ℚ
  perRank : List Nat
  deriving DecidableEq

/-- `*std::max_element` of a vector that is not empty: the first of the largest. (src/driver/driver.cpp:272) -/
def maxElement (P : Nat) (load : Nat → Int) : Int := (List.range' 1 (P - 1)).foldl (fun best r => if best < load r then load r else best) (load 0)

/-- `*std::min_element`. (src/driver/driver.cpp:273) -/
def minElement (P : Nat) (load : Nat → Int) : Int := (List.range' 1 (P - 1)).foldl (fun best r => if load r < best then load r else best) (load 0)

/-- `std::accumulate(load.begin(), load.end(), 0LL)`. (src/driver/driver.cpp:274) -/
def accumulate (P : Nat) (load : Nat → Int) : Int := (List.range P).foldl (fun s r => s + load r) 0

/-- src/driver/driver.cpp:270-289, the branch of rank 0. -/
def report (P NE : Nat) (tfsf sgbc : List Int) (pairs : List (Int × Int)) (comps : List (List Nat)) (part load : Nat → Int) : Option Report := do
  let cnt ← countBoundaryPairsPerRank P NE part pairs
  let max := maxElement P load
  let ideal : ℚ := (accumulate P load : ℚ) / P
  pure {
    pairs := pairs.length, comps := comps.length, ranks := P, tfsfTags := tfsf.length, sgbcTags := sgbc.length
    minLoad := minElement P load, maxLoad := max, ideal := ideal
    imbalance := if 0 < ideal then (max - ideal) / ideal * 100 else 0
    perRank := (List.range P).map cnt }

/-- src/driver/driver.cpp:172-290 `applyPairwiseConstraintsPartitioning` on rank 0, as `run` but giving what is printed: nothing when it returns
early. -/
def printed (arrange : (Nat → Int) → List (List Nat) → List (List Nat)) (m : Mesh) (P : Nat) (part : Nat → Int)
    (tfsf sgbc : List Int) : Option (Option Report) :=
  if m.NE = 0 ∨ P ≤ 1 then some none
  else
    let pairs := gatherConstraintPairs m tfsf sgbc
    if pairs = [] then some none
    else do
      let weight := buildElementWeights m.NE pairs
      let load := computeWeightedLoad P m.NE part weight
      let d ← uniteAll m.NE pairs Dsu.init
      let comps ← components m.NE pairs d
      let comps := arrange weight comps
      let (part', load') ← assignAll m.NE P weight comps (part, load)
      let rep ← report P m.NE tfsf sgbc pairs comps part' load'
      pure (some rep)

end Dgtd.Partition
