import Verif.Model.SubMesh
import Mathlib.Algebra.BigOperators.Group.List.Basic
import Mathlib.Algebra.BigOperators.Group.Finset.Basic

/-
Specification side of the sub-meshes.
-/
namespace Dgtd.SubMesh.Spec

variable {K : Type} [Field K] [LinearOrder K]

/-- The element is on one of the sides of the face. -/
def Touches (f : BFace) (e : Nat) : Prop := f.e1 = e ∨ f.e2 = some e

/-- The side of the face on which an element is: `true` is the total-field side. -/
def side (el1tf : Bool) (f : BFace) (e : Nat) : Bool := if f.e2 = some e then !el1tf else el1tf

/-- All the marked faces around an element put it on the same side. -/
def Consistent (ds : List (BFace × (Int × Int) × Bool)) : Prop :=
  ∀ d ∈ ds, ∀ d' ∈ ds, ∀ e, Touches d.1 e → Touches d'.1 e → side d.2.2 d.1 e = side d'.2.2 d'.1 e

/-- No element of the mesh already has one of the attributes used for marking. -/
def Free (m : Mesh K) : Prop := ∀ e < m.ne, m.attr e ≠ TF ∧ m.attr e ≠ SF ∧ m.attr e ≠ Global

/-- The elements of a region, none if the sub-mesh does not exist. -/
def elems (o : Option (List Nat)) : List Nat := o.getD []

/-- Mean of the vertices in a list. -/
def centre (m : Mesh K) (vs : List Nat) (d : Fin 3) : K := (vs.map fun v => m.coord v d).sum / (vs.length : K)

/-- The vertices of the marked faces. -/
def surface (m : Mesh K) : Finset Nat := ((m.bdr.filter fun f => f.marked).flatMap fun f => f.verts).toFinset

/-- Centre of the surface: the mean of its vertices, each counted once. -/
def middle (m : Mesh K) (d : Fin 3) : K := (∑ v ∈ surface m, m.coord v d) / ((surface m).card : K)

/-- Square of the distance between two points. -/
def dist2 (p q : Fin 3 → K) : K := (p 0 - q 0) ^ 2 + (p 1 - q 1) ^ 2 + (p 2 - q 2) ^ 2

/-- Where the other side of a face is: the centre of its second element or, if there is none, of the face itself. -/
def beyond (m : Mesh K) (f : BFace) : Fin 3 → K := centre m ((f.e2.map m.elemVerts).getD f.fverts)

/-- Square of the distance from a point to the centre of the surface. -/
def away (m : Mesh K) (p : Fin 3 → K) : K := dist2 p (middle m)

/-- Twice the signed area of the triangle `a b p`: positive if `p` is on the left of the line from `a` to `b`. -/
def left (a b p : Fin 3 → K) : K := (b 0 - a 0) * (p 1 - a 1) - (b 1 - a 1) * (p 0 - a 0)

/-- Six times the signed volume of `a b c p`: positive if `p` is on the side of the plane to which the normal of `a b c`
points. -/
def above (a b c p : Fin 3 → K) : K :=
  ((b 1 - a 1) * (c 2 - a 2) - (b 2 - a 2) * (c 1 - a 1)) * (p 0 - a 0) +
  ((b 2 - a 2) * (c 0 - a 0) - (b 0 - a 0) * (c 2 - a 2)) * (p 1 - a 1) +
  ((b 0 - a 0) * (c 1 - a 1) - (b 1 - a 1) * (c 0 - a 0)) * (p 2 - a 2)

/-- A face of a plane mesh as meshes are stored: its vertices in the counterclockwise order of its first element, which is
therefore on its left; its second element, if any, is on its right. -/
def Ordered2 (m : Mesh K) (f : BFace) : Prop :=
  ∃ a b, f.fverts = [a, b] ∧ 0 < left (m.coord a) (m.coord b) (centre m (m.elemVerts f.e1)) ∧
    ∀ e2, f.e2 = some e2 → left (m.coord a) (m.coord b) (centre m (m.elemVerts e2)) < 0

/-- A triangle of a mesh of space as meshes are stored: its normal points out of its first element. -/
def Ordered3 (m : Mesh K) (f : BFace) : Prop :=
  ∃ a b c, f.fverts = [a, b, c] ∧ above (m.coord a) (m.coord b) (m.coord c) (centre m (m.elemVerts f.e1)) < 0 ∧
    ∀ e2, f.e2 = some e2 → 0 < above (m.coord a) (m.coord b) (m.coord c) (centre m (m.elemVerts e2))

/-- The same face of a mesh in which its two elements are numbered the other way round: the second element becomes the first
one, and its order is used for the vertices. -/
def renumbered (f g : BFace) : Prop :=
  ∃ e2, f.e2 = some e2 ∧ g.e1 = e2 ∧ g.e2 = some f.e1 ∧ g.fverts = f.fverts.reverse ∧ g.verts = f.verts

end Dgtd.SubMesh.Spec
