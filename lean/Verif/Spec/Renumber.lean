/-
Vocabulary for C184: the same case with other numbers for the physical groups.
-/
import Verif.Spec.Config
import Verif.Model.SubMesh
import Verif.Model.NodalMaps

namespace Dgtd.Renumber.Spec
open Dgtd.Config

variable {K : Type}

/-- The entries of the case with the tags renumbered by `ρ`. -/
def mat (ρ : Int → Int) (e : MatEntry K) : MatEntry K := { e with tags := e.tags.map ρ }
def src (ρ : Int → Int) (s : SrcEntry) : SrcEntry := { s with tags := s.tags.map ρ }
def bdr (ρ : Int → Int) (b : BdrEntry K) : BdrEntry K := { b with tags := b.tags.map ρ }

/-- The faces and the elements of the mesh renumbered. -/
def face (ρ : Int → Int) (f : Face) : Face := { f with attr := f.attr.map ρ }
def mesh (ρ : Int → Int) (m : SubMesh.Mesh K) : SubMesh.Mesh K := { m with attr := fun e => ρ (m.attr e) }

variable [Field K] [LinearOrder K]

/-- The description of a case as far as materials and boundaries go: materials, boundaries, faces of the mesh, attributes
of its elements and of its boundary elements, and the largest of the latter. -/
structure Case (K : Type) where
  mats  : List (MatEntry K)
  bdrs  : List (BdrEntry K)
  faces : List Face
  atts  : List Int
  batts : List Int
  n     : Nat

/-- The model of a case. (src/driver/driver.cpp:1251-1258) -/
def built (Z0 : K) (c : Case K) : Except Err (ModelData K) :=
  match assembleAttributeToMaterial Z0 c.mats c.bdrs c.atts c.batts with
  | .error e => .error e
  | .ok (g, gb) => match assembleAttributeToBoundary c.bdrs c.faces with
    | .error e => .error e
    | .ok info => construct c.n g gb info

/-- The case with every group renumbered, in the file and in the mesh; `n` is the new largest number. -/
def renumber (ρ : Int → Int) (n : Nat) (c : Case K) : Case K where
  mats := c.mats.map (mat ρ)
  bdrs := c.bdrs.map (bdr ρ)
  faces := c.faces.map (face ρ)
  atts := c.atts.map ρ
  batts := c.batts.map ρ
  n := n

/-- Permittivity, permeability and conductivity that an element with an attribute gets. -/
def values (d : ModelData K) (a : Int) : Except Err (K × K × K) := do
  let ve ← epsMuVector d.materials .E
  let vm ← epsMuVector d.materials .H
  let vs ← sigmaVector d.materials
  pure (← pwEval ve a, ← pwEval vm a, ← pwEval vs a)

/-- A face with an attribute is marked for a condition. -/
def Marked (d : ModelData K) (c : Cond) (inner : Bool) (t : Int) : Prop := (d.markers.get (c, inner))[(t - 1).toNat]? = some 1

/-- A face with an attribute is marked for the incident fields, or for the thin layers. -/
def Lit (n : Nat) (batts : List Int) (ss : List SrcEntry) (t : Int) : Prop :=
  ∃ a, Assoc.find (tfsfLoop n batts ss []) .totalFieldIn = some a ∧ a[(t - 1).toNat]? = some 1
def Coated (n : Nat) (batts : List Int) (bs : List (BdrEntry K)) (t : Int) : Prop :=
  ∃ a, Assoc.find (sgbcLoop n batts bs bs []) .sgbc = some a ∧ a[(t - 1).toNat]? = some 1

/-- Numbers that the code uses for itself. -/
def Reserved (a : Int) : Prop := a = 777 ∨ a = 1000 ∨ a = 2000 ∨ a = 3000 ∨ a = 4000

end Dgtd.Renumber.Spec
