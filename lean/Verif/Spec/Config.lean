import Verif.Model.Config

/-
Specification side of the configuration properties: what a case description means, without maps, loops or
arrays.
-/
namespace Dgtd.Config.Spec

variable {K : Type} [Field K] [LinearOrder K]

/-- The material described by the members of an entry: missing members mean vacuum, conductivities are
multiplied by the impedance of vacuum. -/
def described (Z0 : K) (p : MatParams K) : Material K :=
  ⟨p.relPermittivity.getD 1, p.relPermeability.getD 1, (p.bulkConductivity.getD 0) * Z0⟩

/-- A physical material. -/
def Physical (m : Material K) : Prop := 1 ≤ m.eps ∧ 1 ≤ m.mu ∧ 0 ≤ m.sigma

/-- The first entry that lists a tag. -/
def firstMat (ms : List (MatEntry K)) (t : Int) : Option (MatEntry K) :=
  ms.find? fun e => decide (t ∈ e.tags)

/-- The first boundary with a material that lists a tag. -/
def firstBdrMat (bs : List (BdrEntry K)) (t : Int) : Option (MatParams K) :=
  (bs.filterMap fun b => b.material.map fun p => (b.tags, p)).findSome? fun x =>
    if t ∈ x.1 then some x.2 else none

/-- Keywords for boundary conditions. -/
def condTable : List (String × Cond) :=
  [("PEC", .pec), ("PMC", .pmc), ("SMA", .sma), ("SGBC", .sgbc)]

/-- Keywords for the ends of a thin layer. -/
def endTable : List (String × Cond) := [("PEC", .pec), ("PMC", .pmc), ("SMA", .sma)]

/-- Keywords for fields. -/
def fieldTable : List (String × FieldType) := [("electric", .E), ("magnetic", .H)]

/-- Keywords for directions. -/
def axisTable : List (String × Axis) := [("X", .X), ("Y", .Y), ("Z", .Z)]

/-- Keywords for evolution operators; a missing keyword means the global one. -/
def evolTable : List (Option String × EvolOp) :=
  [(none, .global), (some "maxwell", .maxwell), (some "global", .global), (some "hesthaven", .hesthaven)]

/-- A boundary entry that can be used: some tag, and a known type. -/
def UsableBdr (b : BdrEntry K) : Prop :=
  b.tags ≠ [] ∧ ∃ s c, b.type = some s ∧ (s, c) ∈ condTable

/-- The condition declared for a tag: the type of the first boundary that lists it. -/
def declared (bs : List (BdrEntry K)) (t : Int) : Option Cond :=
  (bs.find? fun b => decide (t ∈ b.tags)).bind fun b =>
    b.type.bind fun s => (condTable.find? fun p => p.1 = s).map Prod.snd

/-- Some face between two elements carries the attribute. -/
def Inside (faces : List Face) (t : Int) : Prop := ∃ f ∈ faces, f.attr = some t ∧ f.interior = true

/-- The marker array selecting exactly the attributes in `ts` among `1 … n`; no array when there are
none. -/
def markerOf (n : Nat) (ts : List Int) : List Int :=
  if ts = [] then [] else (List.range n).map fun i : Nat => if ((i : Int) + 1) ∈ ts then 1 else 0

/-- Conditions that have an array of their own. -/
def Supported (c : Cond) : Prop := c ≠ .surfaceCond ∧ c ≠ .nearToFarField

/-- The tags a map gives to a condition. -/
def tagsWith (gt : List (Int × Cond)) (c : Cond) : List Int :=
  gt.filterMap fun p => if p.2 = c then some p.1 else none

/-- What C22 asks for: every boundary attribute carrying the tag of some total-field source is marked. -/
def AllMarked (n : Nat) (bdrAttrs : List Int) (ss : List SrcEntry) (m : List (Cond × List Int)) : Prop :=
  ∀ s ∈ ss, s.totalField = true → ∀ i : Nat, i < n → ((i : Int) + 1) ∈ s.tags → ((i : Int) + 1) ∈ bdrAttrs →
    ∃ a, Assoc.find m .totalFieldIn = some a ∧ a[i]? = some 1

end Dgtd.Config.Spec
