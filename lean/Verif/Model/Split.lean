/-
Model of how the driver splits the mesh among the ranks: the tags come from the input file.
-/
import Verif.Model.Config
import Verif.Model.Partition

namespace Dgtd.Partition

open Config (SrcEntry BdrEntry getTFSFTags getSGBCTags)

/-- src/driver/driver.cpp:1269-1275, in `buildModel`: the partition `part` of `GeneratePartitioning` is corrected if the file has tags of
total-field sources or thin layers.  The load vector is dropped. -/
def split {K : Type} (arrange : (Nat → Int) → List (List Nat) → List (List Nat)) (m : Mesh) (P : Nat) (part : Nat → Int) (ss : List SrcEntry)
    (bs : List (BdrEntry K)) : Option (Nat → Int) :=
  let tfsf := getTFSFTags ss
  let sgbc := getSGBCTags bs
  if tfsf.length ≠ 0 ∨ sgbc.length ≠ 0 then (run arrange m P part tfsf sgbc).map Prod.fst else some part

end Dgtd.Partition
