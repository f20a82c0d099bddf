/-
Specification: polynomial and smooth solutions of Maxwell's equations on straight meshes that may have quadrilaterals and hexahedra, and families
of such meshes that are refined.  Derivatives, curl, cross product and what boundaries ask for are those of `Verif.Spec.Polynomial` and
`Verif.Spec.Convergence`.
-/
import Verif.Spec.Straight
import Verif.Spec.Convergence
import Mathlib.Analysis.Convex.Hull

namespace Dgtd.Straight.Spec
open MvPolynomial Dgtd.Op Dgtd.Op.Spec Dgtd.Straight
open Dgtd.Galerkin (Poly Elem Rule)
open Dgtd.Galerkin.Spec (onElem materialOf PField curl cross Obeys Solution Event dt dxs curlAt)
open Dgtd.Config (Material)
open scoped ContDiff

variable {n : Nat} {ι : Type}

/-- The unknowns `u` hold the field `Q`: on every element, at the position of every reference point. -/
def Carries (S : Setup n ι) (Q : PField n ι) (u : State ι ℝ) : Prop :=
  ∀ c ∈ S.cells, ∀ f d, onElem c.e (u f d) = bind₁ c.e.geom (Q c.e f d)

/-- Maxwell's equations: inside every element `Q` changes at the rate `R`. -/
def Maxwell (S : Setup n ι) (ms : List (Int × Material ℝ)) (Q R : PField n ι) : Prop :=
  ∀ c ∈ S.cells, ∀ d,
    C (materialOf ms c.toCell).eps * R c.e .E d = curl (Q c.e .H) d - C (materialOf ms c.toCell).sigma * Q c.e .E d ∧
    C (materialOf ms c.toCell).mu * R c.e .H d = -curl (Q c.e .E) d

/-- Position of a point of a face. -/
noncomputable def pos (s : Side n ι) (x : Fin n → ℝ) : Fin (n + 1) → ℝ := fun d => eval x (s.restrict (s.e.geom d))

/-- Value of the field on one side of a face. -/
noncomputable def onSide (Q : PField n ι) (s : Side n ι) (x : Fin n → ℝ) (f : FieldT) (d : Dir) : ℝ := eval (pos s x) (Q s.e f d)

/-- Its value on the other side. -/
noncomputable def onOther (Q : PField n ι) (g : MeshFace n ι) (x : Fin n → ℝ) (f : FieldT) (d : Dir) : ℝ :=
  match g.s2 with
  | some s => onSide Q s x f d
  | none => 0

/-- Length of the normal of a face: its area relative to that of the reference face. -/
noncomputable def stretch (s : Side n ι) (x : Fin n → ℝ) : ℝ := √(((normal s).map fun c => eval x c ^ 2).sum)

/-- Unit normal of a face, out of its first element. -/
noncomputable def unitNormal (s : Side n ι) (x : Fin n → ℝ) (d : Dir) : ℝ := ((normal s).map fun c => eval x c).getD d.val 0 / stretch s x

/-- Points of the reference face. -/
def OnFace (g : MeshFace n ι) (x : Fin n → ℝ) : Prop := Inside g.s1.place.key.shape x

/-- The field has continuous tangential components at the faces between elements and obeys the conditions of the others. -/
structure Admissible (S : Setup n ι) (Q : PField n ι) : Prop where
  inner : ∀ q ∈ S.interior, q.1 = none → ∀ x, OnFace q.2 x → ∀ f d,
    cross (unitNormal q.2.s1 x) (fun k => onSide Q q.2.s1 x f k - onOther Q q.2 x f k) d = 0
  walls : ∀ q ∈ S.interior, ∀ c, q.1 = some c → ∀ x, OnFace q.2 x →
    Obeys c (unitNormal q.2.s1 x) (onSide Q q.2.s1 x) ∧ Obeys c (fun d => -unitNormal q.2.s1 x d) (onOther Q q.2 x)
  outer : ∀ q ∈ S.bdr, ∀ c, q.1 = some c → ∀ x, OnFace q.2 x → Obeys c (unitNormal q.2.s1 x) (onSide Q q.2.s1 x)

/-! ### smooth solutions -/

/-- Points of an element. -/
def InElem (sh : Shape) (e : Elem n ι ℝ) (y : Fin (n + 1) → ℝ) : Prop := ∃ x, Inside sh x ∧ y = fun d => eval x (e.geom d)

/-- The smallest convex region with an element in it (a segment, triangle or tetrahedron is that region itself). -/
def Hull (sh : Shape) (e : Elem n ι ℝ) : Set (Fin (n + 1) → ℝ) := convexHull ℝ {y | InElem sh e y}

/-- The fields have all derivatives and satisfy Maxwell's equations in the elements between the times 0 and `T`. -/
structure Solves (S : Setup n ι) (ms : List (Int × Material ℝ)) (T : ℝ) (F : Solution n ι) : Prop where
  smooth : ∀ a f d, ContDiff ℝ ∞ (F a f d)
  electric : ∀ c ∈ S.cells, ∀ t, 0 ≤ t → t ≤ T → ∀ y, InElem c.shape c.e y → ∀ d,
    (materialOf ms c.toCell).eps * dt (F c.e .E d) (t, y) = curlAt (F c.e .H) d (t, y) - (materialOf ms c.toCell).sigma * F c.e .E d (t, y)
  magnetic : ∀ c ∈ S.cells, ∀ t, 0 ≤ t → t ≤ T → ∀ y, InElem c.shape c.e y → ∀ d,
    (materialOf ms c.toCell).mu * dt (F c.e .H d) (t, y) = -curlAt (F c.e .E) d (t, y)

/-- Value of the fields on one side of a face. -/
noncomputable def beside (F : Solution n ι) (t : ℝ) (s : Side n ι) (x : Fin n → ℝ) (f : FieldT) (d : Dir) : ℝ := F s.e f d (t, pos s x)

/-- Tangential components are continuous between elements; walls and boundaries are obeyed. -/
structure Fits (S : Setup n ι) (T : ℝ) (F : Solution n ι) : Prop where
  inner : ∀ q ∈ S.interior, q.1 = none → ∀ s ∈ q.2.s2, ∀ t, 0 ≤ t → t ≤ T → ∀ x, OnFace q.2 x → ∀ f d,
    cross (unitNormal q.2.s1 x) (fun k => beside F t q.2.s1 x f k - beside F t s x f k) d = 0
  walls : ∀ q ∈ S.interior, ∀ c, q.1 = some c → ∀ t, 0 ≤ t → t ≤ T → ∀ x, OnFace q.2 x →
    Obeys c (unitNormal q.2.s1 x) (beside F t q.2.s1 x) ∧
    ∀ s ∈ q.2.s2, Obeys c (fun d => -unitNormal q.2.s1 x d) (beside F t s x)
  outer : ∀ q ∈ S.bdr, ∀ c, q.1 = some c → ∀ t, 0 ≤ t → t ≤ T → ∀ x, OnFace q.2 x → Obeys c (unitNormal q.2.s1 x) (beside F t q.2.s1 x)

/-- A mesh of elements no larger than `h` and no thinner than `h / ρ`: the height of an element over one of its faces is the determinant of the
element divided by the length of the normal of the face, wherever they are taken. -/
structure Fineness (S : Setup n ι) (h ρ : ℝ) : Prop where
  pos : 0 < h
  rho : 0 ≤ ρ
  size : ∀ c ∈ S.cells, ∀ y y', InElem c.shape c.e y → InElem c.shape c.e y' → ∀ i, |y i - y' i| ≤ h
  height : ∀ g ∈ faces S, ∀ s ∈ sides g, ∀ x y, OnFace g x → Inside s.2.shape y → h * stretch g.s1 x ≤ ρ * eval y s.1.jac.det
  two_sides : ∀ q ∈ S.interior, q.2.s2 ≠ none
  weights : ∀ f ∈ faces S, ∀ x ∈ f.rule, 0 ≤ x.1

/-- Volume of the mesh. -/
noncomputable def volume (S : Setup n ι) : ℝ := (S.cells.map fun c => integral c.shape c.e.jac.det).sum

/-- The materials lie between the bounds `m0` and `m1`. -/
def Between (S : Setup n ι) (ms : List (Int × Material ℝ)) (m0 m1 : ℝ) : Prop :=
  ∀ c ∈ S.cells, (m0 ≤ (materialOf ms c.toCell).eps ∧ (materialOf ms c.toCell).eps ≤ m1) ∧
    (m0 ≤ (materialOf ms c.toCell).mu ∧ (materialOf ms c.toCell).mu ≤ m1) ∧ (materialOf ms c.toCell).sigma ≤ m1

/-- The derivatives of order `k` along the coordinates, of the fields and of their rates of change, are bounded by `B` in (the convex hulls of) the
elements. -/
def Bounded (S : Setup n ι) (T : ℝ) (F : Solution n ι) (k : Nat) (B : ℝ) : Prop :=
  ∀ c ∈ S.cells, ∀ t, 0 ≤ t → t ≤ T → ∀ y ∈ Hull c.shape c.e, ∀ f d, ∀ l : List (Fin (n + 1)), l.length = k →
    |dxs l (F c.e f d) (t, y)| ≤ B ∧ |dxs l (dt (F c.e f d)) (t, y)| ≤ B

/-- Shape functions that span all polynomials of order `p` (of the total degree on simplices, of the degree in each variable on squares and cubes)
and belong to nodes: each is one at its node and zero at the others; the sum of their absolute values is at most `Λ`. -/
structure Nodal (S : Setup n ι) (p : Nat) (Λ : ℝ) (node : Elem n ι ℝ → Nat → Fin (n + 1) → ℝ) : Prop where
  complete : ∀ c ∈ S.cells, ∀ q : Poly (n + 1) ℝ, Order c.shape p q → ∃ a : Nat → ℝ, q = ∑ i ∈ Finset.range c.e.size, C (a i) * c.e.shape i
  inside : ∀ c ∈ S.cells, ∀ i < c.e.size, Inside c.shape (node c.e i)
  delta : ∀ c ∈ S.cells, ∀ i < c.e.size, ∀ j < c.e.size, eval (node c.e i) (c.e.shape j) = if i = j then 1 else 0
  lebesgue : ∀ c ∈ S.cells, ∀ x, Inside c.shape x → ∑ i ∈ Finset.range c.e.size, |eval x (c.e.shape i)| ≤ Λ

/-- The unknowns are the values of the fields at the nodes at the time `t`. -/
def Sampled (S : Setup n ι) (node : Elem n ι ℝ → Nat → Fin (n + 1) → ℝ) (F : Solution n ι) (t : ℝ) (u : State ι ℝ) : Prop :=
  ∀ c ∈ S.cells, ∀ i < c.e.size, ∀ f d, u f d (c.e.dof i) = F c.e f d (t, fun k => eval (node c.e i) (c.e.geom k))

/-- The unknowns are fields that differ from the solution by at most `a` anywhere at the time `t`. -/
def Close (S : Setup n ι) (F : Solution n ι) (t a : ℝ) (u : State ι ℝ) : Prop :=
  ∀ c ∈ S.cells, ∀ x, Inside c.shape x → ∀ f d, |eval x (onElem c.e (u f d)) - F c.e f d (t, fun k => eval x (c.e.geom k))| ≤ a

/-- A simulation on a straight mesh of order `p`, with elements no larger than `h` and no thinner than `h / ρ`, materials between `m0` and `m1`, nodal
shape functions, and fields that are smooth in every element, satisfy Maxwell's equations there, have derivatives bounded by `B`, tangential
components that are continuous, and obey walls and boundaries. -/
structure Resolves (S : Setup n ι) (ms : List (Int × Material ℝ)) (p : Nat) (ρ m0 m1 Λ h B T : ℝ) (F : Solution n ι)
    (node : Elem n ι ℝ → Nat → Fin (n + 1) → ℝ) : Prop where
  mesh : ValidMesh S p
  materials : ValidMaterials S ms
  between : Between S ms m0 m1
  fine : Fineness S h ρ
  small : h ≤ 1
  nodal : Nodal S p Λ node
  solves : Solves S ms T F
  bounded : Bounded S T F (p + 1) B
  bound : 0 ≤ B
  fits : Fits S T F

end Dgtd.Straight.Spec
