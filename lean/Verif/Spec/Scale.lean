/-
Specification of the change of the unit of length.  The speed of light is one, so the unit of time changes with it.
-/
import Verif.Spec.Op
import Verif.Model.TimeStep

namespace Dgtd.Op.Spec

open Dgtd.Op

variable {ι K : Type} [Field K]

/-- A point of a face after all lengths were multiplied by a number that multiplies areas by `k`. -/
def scaledPt (k : K) (p : Pt K) : Pt K := { p with W := k * p.W, nor := p.nor.map (k * ·) }

/-- A face after it. -/
def scaledFace (k : K) (F : Face ι K) : Face ι K := { F with pts := F.pts.map (scaledPt k) }

/-- The mesh with all lengths multiplied by `s`: volumes by `s ^ dim` and areas by `s ^ dim / s`.  Permittivity and permeability stay as
they are, conductivity is divided by `s`. -/
def scaledProb (s : K) (P : Prob ι K) : Prob ι K :=
  { P with
    interior := P.interior.map fun q => (q.1, scaledFace (s ^ P.dim / s) q.2)
    bdr := P.bdr.map fun q => (q.1, scaledFace (s ^ P.dim / s) q.2)
    Minv := fun f => (s ^ P.dim)⁻¹ • P.Minv f
    Msig := s ^ P.dim • s⁻¹ • P.Msig
    D := fun d => (s ^ P.dim / s) • P.D d }

end Dgtd.Op.Spec

namespace Dgtd.TimeStep.Spec

open Dgtd.TimeStep

/-- A point with all coordinates multiplied by `s`. -/
noncomputable def scaledPt (s : ℝ) (p : Pt) : Pt := ⟨s * p.x, s * p.y, s * p.z⟩

/-- A face. -/
noncomputable def scaledFace (s : ℝ) (f : Face) : Face := ⟨scaledPt s f.a, scaledPt s f.b, scaledPt s f.c, f.d.map (scaledPt s)⟩

/-- An element. -/
noncomputable def scaledElem (s : ℝ) (dim : Nat) (e : Elem) : Elem :=
  { shape := e.shape, volume := s ^ dim * e.volume, size := s * e.size
    edges := e.edges.map fun p => (scaledPt s p.1, scaledPt s p.2), faces := e.faces.map (scaledFace s), nodes := e.nodes.map (s * ·) }

/-- A mesh; the face scales of the nodal operator are areas over volumes. -/
noncomputable def scaledSetup (s : ℝ) (m : Setup) : Setup :=
  { dim := m.dim, elems := m.elems.map (scaledElem s m.dim), storage := m.storage.map (s⁻¹ * ·) }

end Dgtd.TimeStep.Spec
