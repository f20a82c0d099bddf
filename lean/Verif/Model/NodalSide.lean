import Verif.Model.SubMesh

/-
Which side of a total-field face the nodal operator takes as the scattered-field side.
-/
namespace Dgtd.SubMesh

variable {K : Type} [Field K] [LinearOrder K]

/-- src/components/SubMesher.cpp:217-237 `calculateCrossBaryVertexSign`: as `orientation2`, with the vertices in the order of
the boundary element instead of that of the face. -/
def crossSign (m : Mesh K) (f : BFace) : K :=
  let v0 := f.verts.getD 0 0
  let v1 := f.verts.getD 1 0
  baryVec m f 0 * (m.coord v1 1 - m.coord v0 1) - baryVec m f 1 * (m.coord v1 0 - m.coord v0 0)

/-- src/evolution/HesthavenEvolutionMethods.cpp:606 and 561-574 (`initIntFaceConnectivityMaps`, `loadIntBdrConditions`): whether
the first element is on the total-field side in the nodal operator. -/
def nodalFirstTotal (dim : Nat) (m : Mesh K) (f : BFace) : Bool :=
  !decide (0 ≤ (if dim = 2 then crossSign m f else orientation3 m f))

end Dgtd.SubMesh
