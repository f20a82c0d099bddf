/-
Specification: how thin the elements of a mesh are, and what the automatic time step is told about them.
-/
import Verif.Spec.Convergence
import Verif.Spec.TimeStep

namespace Dgtd.Galerkin.Spec
open MvPolynomial Dgtd.Op Dgtd.Galerkin
open Dgtd.Config (Material)

variable {n : Nat} {ι : Type}

/-- No element is thinner than `τ`: the height of an element over one of its faces is the determinant of the element divided by the length of
the normal of the face.  The quadratures of the faces have no negative weights. -/
structure Thick (S : Setup n ι) (τ : ℝ) : Prop where
  pos : 0 < τ
  height : ∀ g e, Shares S g e → ∀ x y, InSimplex x → InSimplex y → τ * g.fem.W x ≤ eval y e.jac.det
  weights : ∀ q ∈ S.interior ++ S.bdr, ∀ x ∈ q.2.rule, 0 ≤ x.1

/-- The permittivities and permeabilities are at least `m0`, the conductivities at most `s1`. -/
def AtLeast (S : Setup n ι) (ms : List (Int × Material ℝ)) (m0 s1 : ℝ) : Prop :=
  ∀ c ∈ S.cells, m0 ≤ (materialOf ms c).eps ∧ m0 ≤ (materialOf ms c).mu ∧ (materialOf ms c).sigma ≤ s1

/-- Corner of the reference face; the first is the origin. -/
def faceCorner (j : Fin (n + 1)) : Fin n → ℝ := fun i => if j = i.succ then 1 else 0

/-- Position of a corner of a face; the coordinates the mesh does not have are zero. -/
noncomputable def spot (s : Side n ι ℝ) (j : Fin (n + 1)) : TimeStep.Pt :=
  { x := pos s (faceCorner j) 0
    y := if h : 1 < n + 1 then pos s (faceCorner j) ⟨1, h⟩ else 0
    z := if h : 2 < n + 1 then pos s (faceCorner j) ⟨2, h⟩ else 0 }

/-- The edges (in the plane) or faces (in space) of the element have one with these corners, in some order. -/
def Has : {n : Nat} → TimeStep.Elem → (Fin (n + 1) → TimeStep.Pt) → Prop
  | 0, _, _ => True
  | 1, el, v => ∃ σ : Equiv.Perm (Fin 2), (v (σ 0), v (σ 1)) ∈ el.edges
  | 2, el, v => ∃ σ : Equiv.Perm (Fin 3), ⟨v (σ 0), v (σ 1), v (σ 2), none⟩ ∈ el.faces
  | _ + 3, _, _ => False

/-- The geometry `m` the automatic time step looks at is that of the mesh: every element is there with its measure and all its edges or
faces; on a line with at least two nodes, which are points of the element. -/
structure Describes (m : TimeStep.Setup) (S : Setup n ι) : Prop where
  dim : m.dim = n + 1
  elems : ∀ c ∈ S.cells, ∃ el ∈ m.elems, el.volume = integral (n + 1) c.e.jac.det ∧ (∀ g, Shares S g c.e → Has el (spot g.s1)) ∧
    (n = 0 → 2 ≤ el.nodes.length ∧ ∀ x ∈ el.nodes, ∃ y, InElem c.e y ∧ x = y 0)

end Dgtd.Galerkin.Spec
