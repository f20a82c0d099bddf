/-
Vocabulary for C183: what a reader of the lines printed by the partition post-processing takes them to say.
-/
import Verif.Spec.Partition
import Verif.Model.PartitionReport
import Mathlib.Data.Set.Card
import Mathlib.Order.Bounds.Basic

namespace Dgtd.Partition.Spec
open Dgtd.Partition

/-- Number of marked faces between two elements that satisfy `q`; a face is counted once for every mention of its tag in the two lists. -/
def faces (m : Mesh) (tfsf sgbc : List Int) (q : Int × Int → Bool) : Nat :=
  (m.bdr.map fun be => match be.inner with
    | none => 0
    | some p => if q p then tfsf.count be.attr + sgbc.count be.attr else 0).sum

/-- Both elements of a face are on a rank. -/
def onRank (part : Nat → Int) (r : Nat) (p : Int × Int) : Bool := decide (part p.1.toNat = r ∧ part p.2.toNat = r)

/-- The groups of linked elements. -/
def groups (m : Mesh) (tfsf sgbc : List Int) : Set (Set Nat) := {g | ∃ a, Touched m tfsf sgbc a ∧ g = {e | Linked m tfsf sgbc a e}}

/-- The costs of the ranks. -/
def costs (m : Mesh) (tfsf sgbc : List Int) (P : Nat) (part : Nat → Int) : Set Int := {c | ∃ r < P, c = rankCost m tfsf sgbc part r}

end Dgtd.Partition.Spec
