/-
Specification vocabulary for the partition post-processing.
-/
import Verif.Model.Partition
import Mathlib.Algebra.BigOperators.Group.Finset.Basic
import Mathlib.Algebra.BigOperators.Group.Finset.Piecewise
import Mathlib.Algebra.Order.BigOperators.Group.Finset
import Mathlib.Logic.Relation

namespace Dgtd.Partition.Spec

open Dgtd.Partition

/-- Elements `a` and `b` share an interior face whose attribute is a TFSF or an SGBC tag. -/
def Tied (m : Mesh) (tfsf sgbc : List Int) (a b : Nat) : Prop :=
  ∃ be ∈ m.bdr, (be.attr ∈ tfsf ∨ be.attr ∈ sgbc) ∧ be.inner = some ((a : Int), (b : Int))

/-- Tied directly or through a chain. -/
def Linked (m : Mesh) (tfsf sgbc : List Int) : Nat → Nat → Prop := Relation.EqvGen (Tied m tfsf sgbc)

/-- Some tied face touches the element. -/
def Touched (m : Mesh) (tfsf sgbc : List Int) (a : Nat) : Prop :=
  ∃ b, Tied m tfsf sgbc a b ∨ Tied m tfsf sgbc b a

/-- Every interior boundary face joins two existing elements. -/
def WellFormed (m : Mesh) : Prop :=
  ∀ be ∈ m.bdr, ∀ p, be.inner = some p → 0 ≤ p.1 ∧ p.1 < m.NE ∧ 0 ≤ p.2 ∧ p.2 < m.NE

open Classical in
/-- Cost of an element: five when a tied face touches it, one otherwise. -/
noncomputable def elemCost (m : Mesh) (tfsf sgbc : List Int) (e : Nat) : Int :=
  if Touched m tfsf sgbc e then 5 else 1

open Classical in
/-- Cost of the elements given to a rank. -/
noncomputable def rankCost (m : Mesh) (tfsf sgbc : List Int) (part : Nat → Int) (r : Nat) : Int :=
  ∑ e ∈ (Finset.range m.NE).filter (fun e => part e = r), elemCost m tfsf sgbc e

open Classical in
/-- Cost of a whole group of linked elements. -/
noncomputable def groupCost (m : Mesh) (tfsf sgbc : List Int) (a : Nat) : Int :=
  ∑ e ∈ (Finset.range m.NE).filter (fun e => Linked m tfsf sgbc a e), elemCost m tfsf sgbc e

/-- What the unspecified hash order and unstable sort may do: any rearrangement by descending cost. -/
def Arranges (arrange : (Nat → Int) → List (List Nat) → List (List Nat)) : Prop :=
  ∀ w l, (arrange w l).Perm l ∧ (arrange w l).Pairwise fun a b => (b.map w).sum ≤ (a.map w).sum

open Classical in
/-- Give all the elements of a group to a rank. -/
noncomputable def move (part : Nat → Int) (g : List Nat) (r : Nat) : Nat → Int :=
  fun x => if x ∈ g then (r : Int) else part x

/-- Groups are moved one after the other, each to a rank that has the least cost at that moment. -/
inductive Greedy (m : Mesh) (tfsf sgbc : List Int) (P : Nat) : List (List Nat) → (Nat → Int) → (Nat → Int) → Prop
  | nil (p) : Greedy m tfsf sgbc P [] p p
  | cons {g gs p q} (r : Nat) : r < P → (∀ r', r' < P → rankCost m tfsf sgbc p r ≤ rankCost m tfsf sgbc p r') →
      Greedy m tfsf sgbc P gs (move p g r) q → Greedy m tfsf sgbc P (g :: gs) p q

/-- `g` lists, without repetition, all the elements linked to `a`. -/
def IsGroup (m : Mesh) (tfsf sgbc : List Int) (g : List Nat) : Prop :=
  g.Nodup ∧ ∃ a, Touched m tfsf sgbc a ∧ ∀ e, e ∈ g ↔ Linked m tfsf sgbc a e

end Dgtd.Partition.Spec
