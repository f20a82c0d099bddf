/-
Specification: electromagnetic fields that are polynomials of the position on every element, Maxwell's equations, interfaces, boundary
conditions.
-/
import Verif.Spec.GalerkinMass

namespace Dgtd.Galerkin.Spec
open MvPolynomial Dgtd.Op Dgtd.Op.Spec Dgtd.Galerkin
open Dgtd.Config (Material)

variable {n : Nat} {ι : Type}

/-- Derivative of a polynomial of the position along `d`; nothing changes along the directions the mesh does not have. -/
noncomputable def ddx (d : Dir) (q : Poly (n + 1) ℝ) : Poly (n + 1) ℝ := if h : d.val < n + 1 then pderiv ⟨d.val, h⟩ q else 0

/-- Component `d` of the curl. -/
noncomputable def curl (a : Dir → Poly (n + 1) ℝ) (d : Dir) : Poly (n + 1) ℝ := ddx (d + 1) (a (d + 2)) - ddx (d + 2) (a (d + 1))

/-- Electric and magnetic field, on every element a polynomial of the position. -/
abbrev PField (n : Nat) (ι : Type) := Elem n ι ℝ → FieldT → Dir → Poly (n + 1) ℝ

/-- The unknowns `u` hold the field `Q`: on every element, at the position of every reference point. -/
def Carries (S : Setup n ι) (Q : PField n ι) (u : State ι ℝ) : Prop :=
  ∀ c ∈ S.cells, ∀ f d, onElem c.e (u f d) = bind₁ c.e.geom (Q c.e f d)

/-- Maxwell's equations: inside every element `Q` changes at the rate `R`. -/
def Maxwell (S : Setup n ι) (ms : List (Int × Material ℝ)) (Q R : PField n ι) : Prop :=
  ∀ c ∈ S.cells, ∀ d,
    C (materialOf ms c).eps * R c.e .E d = curl (Q c.e .H) d - C (materialOf ms c).sigma * Q c.e .E d ∧
    C (materialOf ms c).mu * R c.e .H d = -curl (Q c.e .E) d

/-- Position of a point of a face. -/
noncomputable def pos (s : Side n ι ℝ) (x : Fin n → ℝ) : Fin (n + 1) → ℝ := fun d => eval x (s.restrict (s.e.geom d))

/-- Value of the field on one side of a face. -/
noncomputable def onSide (Q : PField n ι) (s : Side n ι ℝ) (x : Fin n → ℝ) (f : FieldT) (d : Dir) : ℝ := eval (pos s x) (Q s.e f d)

/-- Its value on the other side. -/
noncomputable def onOther (Q : PField n ι) (g : MeshFace n ι) (x : Fin n → ℝ) (f : FieldT) (d : Dir) : ℝ :=
  match g.s2 with
  | some s => onSide Q s x f d
  | none => 0

/-- Unit normal of a face, out of its first element. -/
noncomputable def unitNormal (s : Side n ι ℝ) (x : Fin n → ℝ) (d : Dir) : ℝ :=
  ((normal s).map fun c => eval x c).getD d.val 0 / √(((normal s).map fun c => eval x c ^ 2).sum)

/-- Component `d` of the cross product. -/
def cross (a b : Dir → ℝ) (d : Dir) : ℝ := a (d + 1) * b (d + 2) - a (d + 2) * b (d + 1)

/-- What a boundary with normal `ν` out of the element asks of the fields: no tangential electric field on a perfect electric conductor, no
tangential magnetic field on a perfect magnetic one, on an absorbing boundary a wave leaving along the normal.  (Thin layers on the outer
boundary: no tangential field.) -/
def Obeys (c : BdrCond) (ν : Dir → ℝ) (v : FieldT → Dir → ℝ) : Prop :=
  match c with
  | .PEC => ∀ d, cross ν (v .E) d = 0
  | .PMC => ∀ d, cross ν (v .H) d = 0
  | .SMA => ∀ d, v .E d - ν d * ∑ k, ν k * v .E k = cross (v .H) ν d
  | .SGBC => ∀ f d, cross ν (v f) d = 0

/-- The field has continuous tangential components at the faces between elements and obeys the conditions of the others. -/
structure Admissible (S : Setup n ι) (Q : PField n ι) : Prop where
  inner : ∀ q ∈ S.interior, q.1 = none → ∀ x, InSimplex x → ∀ f d,
    cross (unitNormal q.2.s1 x) (fun k => onSide Q q.2.s1 x f k - onOther Q q.2 x f k) d = 0
  walls : ∀ q ∈ S.interior, ∀ c, q.1 = some c → ∀ x, InSimplex x →
    Obeys c (unitNormal q.2.s1 x) (onSide Q q.2.s1 x) ∧ Obeys c (fun d => -unitNormal q.2.s1 x d) (onOther Q q.2 x)
  outer : ∀ q ∈ S.bdr, ∀ c, q.1 = some c → ∀ x, InSimplex x → Obeys c (unitNormal q.2.s1 x) (onSide Q q.2.s1 x)

end Dgtd.Galerkin.Spec
