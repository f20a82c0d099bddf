import Verif.Model.Sources
import Mathlib.Algebra.BigOperators.Group.List.Basic

/-
Specification side of the sources.
-/
namespace Dgtd.Sources.Spec
open Dgtd.Config (FieldType Axis)

variable {K : Type} [Field K] [DecidableEq K]

/-- What an initial field means at a point: its function around its centre, along its polarisation, in its own field
only. -/
def initialValue (s : Initial K) (p : List K) (ft : FieldType) (d : Axis) : K :=
  if s.ftype = ft then s.fn (List.zipWith (· - ·) p s.center) * s.pol d else 0

/-- The value of a source at time zero; total fields do not set initial values. -/
def sourceValue (s : Source K) (p : List K) (ft : FieldType) (d : Axis) : K :=
  match s with
  | .initial i => initialValue i p ft d
  | .total _ => 0

/-- The centre of every initial field has enough coordinates. -/
def Centred (pos : Nat → List K) (n : Nat) (ss : List (Source K)) : Prop :=
  ∀ s, Source.initial s ∈ ss → ∀ i < n, (pos i).length ≤ s.center.length

/-- The incident field of a source at a point and time. -/
def incident (s : Source K) (p : List K) (t : K) (ft : FieldType) (d : Axis) : K :=
  match s with
  | .initial _ => 0
  | .total s => s.fn p t ft d

/-- A degree of freedom of an element on the scattered side. -/
def Scattered (r : Regions) (ids : List Int) (i : Nat) : Prop :=
  ∃ e p, r.parents[e]? = some p ∧ p ∈ ids ∧ i ∈ r.dofs e

open Classical in
/-- Weight of a degree of freedom of the sub-mesh: one if there is no scattered side, otherwise plus or minus one half
on the total and the scattered side. -/
noncomputable def weight (r : Regions) (i : Nat) : K :=
  match r.sf with
  | none => 1
  | some ids => if Scattered r ids i then -(1 / 2) else 1 / 2

/-- The two sides: every element of the sub-mesh is on exactly one of them, no element is listed twice, and the elements
do not share degrees of freedom (discontinuous spaces). -/
structure TwoSided (r : Regions) : Prop where
  distinct : r.parents.Nodup
  sides : ∀ ids, r.sf = some ids → (∀ p ∈ r.parents, p ∈ ids ↔ p ∉ r.tf.getD []) ∧ ∀ p ∈ ids, p ∈ r.parents
  known : ∀ p ∈ r.tf.getD [], p ∈ r.parents
  disjoint : ∀ e e' i, i ∈ r.dofs e → i ∈ r.dofs e' → e = e'

end Dgtd.Sources.Spec
