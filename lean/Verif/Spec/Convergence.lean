/-
Specification: smooth solutions of Maxwell's equations on meshes of straight elements, and families of meshes that are refined.
-/
import Verif.Spec.Polynomial
import Mathlib.Analysis.Calculus.ContDiff.Operations
import Mathlib.Analysis.Calculus.FDeriv.Basic

namespace Dgtd.Galerkin.Spec
open MvPolynomial Dgtd.Op Dgtd.Op.Spec Dgtd.Galerkin
open Dgtd.Config (Material)
open scoped ContDiff

variable {n : Nat} {ι : Type}

/-- Time and position. -/
abbrev Event (D : Nat) := ℝ × (Fin D → ℝ)

/-- Derivative of a function of time and position along a coordinate. -/
noncomputable def dx {D : Nat} (i : Fin D) (g : Event D → ℝ) : Event D → ℝ := fun z => fderiv ℝ g z (0, Pi.single i 1)

/-- Derivative in time. -/
noncomputable def dt {D : Nat} (g : Event D → ℝ) : Event D → ℝ := fun z => fderiv ℝ g z (1, 0)

/-- Repeated derivative along coordinates. -/
noncomputable def dxs {D : Nat} (l : List (Fin D)) (g : Event D → ℝ) : Event D → ℝ := l.foldr dx g

/-- Derivative along one of the three directions of space; nothing changes along those the mesh does not have. -/
noncomputable def dirDeriv (d : Dir) (g : Event (n + 1) → ℝ) : Event (n + 1) → ℝ := if h : d.val < n + 1 then dx ⟨d.val, h⟩ g else 0

/-- Electric and magnetic field in every element, as functions of time and position. -/
abbrev Solution (n : Nat) (ι : Type) := Elem n ι ℝ → FieldT → Dir → Event (n + 1) → ℝ

/-- Component `d` of the curl of a field. -/
noncomputable def curlAt (a : Dir → Event (n + 1) → ℝ) (d : Dir) (z : Event (n + 1)) : ℝ := dirDeriv (d + 1) (a (d + 2)) z - dirDeriv (d + 2) (a (d + 1)) z

/-- Points of an element. -/
def InElem (e : Elem n ι ℝ) (y : Fin (n + 1) → ℝ) : Prop := ∃ x, InSimplex x ∧ y = fun d => eval x (e.geom d)

/-- The fields have all derivatives and satisfy Maxwell's equations in the elements between the times 0 and `T`. -/
structure Solves (S : Setup n ι) (ms : List (Int × Material ℝ)) (T : ℝ) (F : Solution n ι) : Prop where
  smooth : ∀ a f d, ContDiff ℝ ∞ (F a f d)
  electric : ∀ c ∈ S.cells, ∀ t, 0 ≤ t → t ≤ T → ∀ y, InElem c.e y → ∀ d,
    (materialOf ms c).eps * dt (F c.e .E d) (t, y) = curlAt (F c.e .H) d (t, y) - (materialOf ms c).sigma * F c.e .E d (t, y)
  magnetic : ∀ c ∈ S.cells, ∀ t, 0 ≤ t → t ≤ T → ∀ y, InElem c.e y → ∀ d,
    (materialOf ms c).mu * dt (F c.e .H d) (t, y) = -curlAt (F c.e .E) d (t, y)

/-- Value of the fields on one side of a face. -/
noncomputable def beside (F : Solution n ι) (t : ℝ) (s : Side n ι ℝ) (x : Fin n → ℝ) (f : FieldT) (d : Dir) : ℝ :=
  F s.e f d (t, pos s x)

/-- Tangential components are continuous between elements; walls and boundaries are obeyed. -/
structure Fits (S : Setup n ι) (T : ℝ) (F : Solution n ι) : Prop where
  inner : ∀ q ∈ S.interior, q.1 = none → ∀ s ∈ q.2.s2, ∀ t, 0 ≤ t → t ≤ T → ∀ x, InSimplex x → ∀ f d,
    cross (unitNormal q.2.s1 x) (fun k => beside F t q.2.s1 x f k - beside F t s x f k) d = 0
  walls : ∀ q ∈ S.interior, ∀ c, q.1 = some c → ∀ t, 0 ≤ t → t ≤ T → ∀ x, InSimplex x →
    Obeys c (unitNormal q.2.s1 x) (beside F t q.2.s1 x) ∧
    ∀ s ∈ q.2.s2, Obeys c (fun d => -unitNormal q.2.s1 x d) (beside F t s x)
  outer : ∀ q ∈ S.bdr, ∀ c, q.1 = some c → ∀ t, 0 ≤ t → t ≤ T → ∀ x, InSimplex x → Obeys c (unitNormal q.2.s1 x) (beside F t q.2.s1 x)

/-- Elements that see each other through a face. -/
def Shares (S : Setup n ι) (g : MeshFace n ι) (e : Elem n ι ℝ) : Prop := (∃ o, (o, g) ∈ S.interior ++ S.bdr) ∧ (e = g.s1.e ∨ ∃ s ∈ g.s2, e = s.e)

/-- A mesh of elements no larger than `h` and no thinner than `h / ρ`: the height of an element over one of its faces is the determinant of
the element divided by the length of the normal of the face. -/
structure Fineness (S : Setup n ι) (h ρ : ℝ) : Prop where
  pos : 0 < h
  rho : 0 ≤ ρ
  size : ∀ c ∈ S.cells, ∀ y y', InElem c.e y → InElem c.e y' → ∀ i, |y i - y' i| ≤ h
  height : ∀ g e, Shares S g e → ∀ x y, InSimplex x → InSimplex y → h * g.fem.W x ≤ ρ * eval y e.jac.det
  two_sides : ∀ q ∈ S.interior, q.2.s2 ≠ none
  weights : ∀ q ∈ S.interior ++ S.bdr, ∀ x ∈ q.2.rule, 0 ≤ x.1

/-- Volume of the mesh. -/
noncomputable def volume (S : Setup n ι) : ℝ := (S.cells.map fun c => integral (n + 1) c.e.jac.det).sum

/-- The materials lie between the bounds `m0` and `m1`. -/
def Between (S : Setup n ι) (ms : List (Int × Material ℝ)) (m0 m1 : ℝ) : Prop :=
  ∀ c ∈ S.cells, (m0 ≤ (materialOf ms c).eps ∧ (materialOf ms c).eps ≤ m1) ∧ (m0 ≤ (materialOf ms c).mu ∧ (materialOf ms c).mu ≤ m1) ∧
    (materialOf ms c).sigma ≤ m1

/-- The derivatives of order `k` along the coordinates, of the fields and of their rates of change, are bounded by `B` in the elements. -/
def Bounded (S : Setup n ι) (T : ℝ) (F : Solution n ι) (k : Nat) (B : ℝ) : Prop :=
  ∀ c ∈ S.cells, ∀ t, 0 ≤ t → t ≤ T → ∀ y, InElem c.e y → ∀ f d, ∀ l : List (Fin (n + 1)), l.length = k →
    |dxs l (F c.e f d) (t, y)| ≤ B ∧ |dxs l (dt (F c.e f d)) (t, y)| ≤ B

/-- Shape functions that span all polynomials of degree `p` and belong to nodes: each is one at its node and zero at the others; the sum of
their absolute values is at most `Λ`. -/
structure Nodal (S : Setup n ι) (p : Nat) (Λ : ℝ) (node : Elem n ι ℝ → Nat → Fin (n + 1) → ℝ) : Prop where
  complete : ∀ c ∈ S.cells, ∀ q : Poly (n + 1) ℝ, q.totalDegree ≤ p → ∃ a : Nat → ℝ, q = ∑ i ∈ Finset.range c.e.size, C (a i) * c.e.shape i
  inside : ∀ c ∈ S.cells, ∀ i < c.e.size, InSimplex (node c.e i)
  delta : ∀ c ∈ S.cells, ∀ i < c.e.size, ∀ j < c.e.size, eval (node c.e i) (c.e.shape j) = if i = j then 1 else 0
  lebesgue : ∀ c ∈ S.cells, ∀ x, InSimplex x → ∑ i ∈ Finset.range c.e.size, |eval x (c.e.shape i)| ≤ Λ

/-- The unknowns are the values of the fields at the nodes at the time `t`. -/
def Sampled (S : Setup n ι) (node : Elem n ι ℝ → Nat → Fin (n + 1) → ℝ) (F : Solution n ι) (t : ℝ) (u : State ι ℝ) : Prop :=
  ∀ c ∈ S.cells, ∀ i < c.e.size, ∀ f d, u f d (c.e.dof i) = F c.e f d (t, fun k => eval (node c.e i) (c.e.geom k))

/-- The unknowns are fields that differ from the solution by at most `a` anywhere at the time `t`. -/
def Close (S : Setup n ι) (F : Solution n ι) (t a : ℝ) (u : State ι ℝ) : Prop :=
  ∀ c ∈ S.cells, ∀ x, InSimplex x → ∀ f d, |eval x (onElem c.e (u f d)) - F c.e f d (t, fun k => eval x (c.e.geom k))| ≤ a

/-- A simulation on a mesh of straight elements of order `p`, with elements no larger than `h` and no thinner than `h / ρ`, materials between
`m0` and `m1`, nodal shape functions, and fields that are smooth in every element, satisfy Maxwell's equations there and have derivatives bounded by `B`. -/
structure Smooth (S : Setup n ι) (ms : List (Int × Material ℝ)) (p : Nat) (ρ m0 m1 Λ h B T : ℝ) (F : Solution n ι) 
    (node : Elem n ι ℝ → Nat → Fin (n + 1) → ℝ) : Prop where
  mesh : ValidMesh S p 1
  materials : ValidMaterials S ms
  between : Between S ms m0 m1
  fine : Fineness S h ρ
  small : h ≤ 1
  nodal : Nodal S p Λ node
  solves : Solves S ms T F
  bounded : Bounded S T F (p + 1) B
  bound : 0 ≤ B

/-- The same with tangential components that are continuous, and walls and boundaries that are obeyed. -/
structure Resolves (S : Setup n ι) (ms : List (Int × Material ℝ)) (p : Nat) (ρ m0 m1 Λ h B T : ℝ) (F : Solution n ι)
    (node : Elem n ι ℝ → Nat → Fin (n + 1) → ℝ) : Prop extends Smooth S ms p ρ m0 m1 Λ h B T F node where
  fits : Fits S T F

end Dgtd.Galerkin.Spec
