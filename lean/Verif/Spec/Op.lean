/-
Specification of the semi-discrete energy balance.
-/
import Verif.Model.Op

namespace Dgtd.Op.Spec

open Dgtd.Op

variable {ι K : Type} [Fintype ι] [DecidableEq ι] [Field K] [LinearOrder K]

/-- Trace of a component on the first side of a face at a quadrature point. -/
def tr1 (f : Face ι K) (p : Pt K) (u : ι → K) : K := ∑ i ∈ Finset.range f.ndof1, p.sh1 i * u (f.dofs i)

/-- Trace on the second side. -/
def tr2 (f : Face ι K) (p : Pt K) (u : ι → K) : K :=
  ∑ i ∈ Finset.range f.ndof2, p.sh2 i * u (f.dofs (f.ndof1 + i))

/-- Squared length of the tangential part `n × v`, with `n = nor / W` the unit normal. -/
def tanSq (p : Pt K) (v : Dir → K) : K :=
  let n := fun d => normalTerm p.nor d / p.W
  (n 1 * v 2 - n 2 * v 1) ^ 2 + (n 2 * v 0 - n 0 * v 2) ^ 2 + (n 0 * v 1 - n 1 * v 0) ^ 2

/-- Geometry of a quadrature point: non-negative weight, positive surface Jacobian, and `CalcOrtho`
returning a normal of `dim` components and of length `Trans.Weight()`. -/
structure GoodPt (dim : Nat) (p : Pt K) : Prop where
  w_nonneg : 0 ≤ p.w
  W_pos : 0 < p.W
  size : p.nor.length = dim
  norm : normalTerm p.nor 0 ^ 2 + normalTerm p.nor 1 ^ 2 + normalTerm p.nor 2 ^ 2 = p.W ^ 2

/-- The same without a sign of the weight: some quadrature rules have negative weights. -/
structure GeoPt (dim : Nat) (p : Pt K) : Prop where
  W_pos : 0 < p.W
  size : p.nor.length = dim
  norm : normalTerm p.nor 0 ^ 2 + normalTerm p.nor 1 ^ 2 + normalTerm p.nor 2 ^ 2 = p.W ^ 2

/-- Surface integral of `nor_d u v` over the boundaries of all elements adjacent to a face (outward normal of
the first side is `nor`, of the second `-nor`). -/
def faceBoundary (f : Face ι K) (d : Dir) (v u : ι → K) : K :=
  (f.pts.map fun p => p.w * normalTerm p.nor d *
    (tr1 f p v * tr1 f p u - tr2 f p v * tr2 f p u)).sum

/-- All faces of the mesh. -/
def allFaces (P : Prob ι K) : List (Face ι K) := P.interior.map Prod.snd ++ P.bdr.map Prod.snd

/-- Discrete integration by parts: what exact quadrature of the volume and surface integrals gives. -/
def SBP (P : Prob ι K) : Prop :=
  ∀ d : Dir, d.val < P.dim → ∀ v u : ι → K,
    v ⬝ᵥ (P.D d).mulVec u + u ⬝ᵥ (P.D d).mulVec v =
      ((allFaces P).map fun f => faceBoundary f d v u).sum

/-- A well-posed source-free problem: one to three dimensions, all quadrature points good, exact
quadrature, every exterior face has a condition and has no second side, no interior SGBC wall (those are
driven by a separate solver), and `Minv` inverts the mass matrices `M`. -/
structure Good (P : Prob ι K) (M : FieldT → Matrix ι ι K) : Prop where
  dim_le : P.dim ≤ 3
  pts : ∀ f ∈ allFaces P, ∀ p ∈ f.pts, GoodPt P.dim p
  sbp : SBP P
  bdr_cond : ∀ q ∈ P.bdr, q.1 ≠ none
  bdr_one_side : ∀ q ∈ P.bdr, q.2.ndof2 = 0
  no_sgbc : ∀ q ∈ P.interior, q.1 ≠ some .SGBC
  inv : ∀ f, M f * P.Minv f = 1
  symm : ∀ f, (M f).transpose = M f

/-- As `Good`, but with nothing said about the signs of the weights or the exactness of the quadrature. -/
structure Regular (P : Prob ι K) (M : FieldT → Matrix ι ι K) : Prop where
  dim_le : P.dim ≤ 3
  pts : ∀ f ∈ allFaces P, ∀ p ∈ f.pts, GeoPt P.dim p
  bdr_cond : ∀ q ∈ P.bdr, q.1 ≠ none
  bdr_one_side : ∀ q ∈ P.bdr, q.2.ndof2 = 0
  no_sgbc : ∀ q ∈ P.interior, q.1 ≠ some .SGBC
  inv : ∀ f, M f * P.Minv f = 1
  symm : ∀ f, (M f).transpose = M f

/-- What is missing for discrete integration by parts in direction `d`. -/
def defect (P : Prob ι K) (d : Dir) (v u : ι → K) : K :=
  v ⬝ᵥ (P.D d).mulVec u + u ⬝ᵥ (P.D d).mulVec v - ((allFaces P).map fun f => faceBoundary f d v u).sum

/-- Power the quadrature feeds into the fields where it is not exact. -/
def gap (P : Prob ι K) (u : State ι K) : K :=
  ∑ x : Dir, if x.val < P.dim then defect P x (u .E (x + 2)) (u .H (x + 1)) - defect P x (u .E (x + 1)) (u .H (x + 2)) else 0

/-- Discrete electromagnetic energy `½ Σ_d (E_dᵀ M_ε E_d + H_dᵀ M_μ H_d)`. -/
def energy (M : FieldT → Matrix ι ι K) (u : State ι K) : K :=
  1 / 2 * ∑ d : Dir, (u .E d ⬝ᵥ (M .E).mulVec (u .E d) + u .H d ⬝ᵥ (M .H).mulVec (u .H d))

/-- Rate of change of the energy when the fields change at rate `r`. -/
def energyRate (M : FieldT → Matrix ι ι K) (u r : State ι K) : K :=
  ∑ d : Dir, (u .E d ⬝ᵥ (M .E).mulVec (r .E d) + u .H d ⬝ᵥ (M .H).mulVec (r .H d))

/-- Dissipation of an interior face: `½ α ∫ |n × [E]|² + |n × [H]|²`. -/
def dissInterior (alpha : K) (f : Face ι K) (u : State ι K) : K :=
  (f.pts.map fun p => 1 / 2 * alpha * p.w * p.W *
    (tanSq p (fun d => tr1 f p (u .E d) - tr2 f p (u .E d)) +
     tanSq p (fun d => tr1 f p (u .H d) - tr2 f p (u .H d)))).sum

/-- Weight of the electric and magnetic dissipation of a boundary: PEC `α |n×E|²`, PMC `α |n×H|²`,
SMA `½ (|n×E|² + |n×H|²)` whatever `α`, SGBC on the exterior `½ α (…)`. -/
def bdrWeight (alpha : K) : BdrCond → FieldT → K
  | .PEC, .E => alpha
  | .PEC, .H => 0
  | .PMC, .E => 0
  | .PMC, .H => alpha
  | .SMA, _ => 1 / 2
  | .SGBC, _ => 1 / 2 * alpha

/-- Dissipation of a boundary (one- or two-sided: each side sees the wall on its own). -/
def dissBdr (alpha : K) (c : BdrCond) (f : Face ι K) (u : State ι K) : K :=
  (f.pts.map fun p => p.w * p.W *
    (bdrWeight alpha c .E * (tanSq p (fun d => tr1 f p (u .E d)) + tanSq p (fun d => tr2 f p (u .E d))) +
     bdrWeight alpha c .H * (tanSq p (fun d => tr1 f p (u .H d)) + tanSq p (fun d => tr2 f p (u .H d))))).sum

/-- Total dissipation: faces without a condition, faces with a condition, conduction losses. -/
def dissipation (P : Prob ι K) (u : State ι K) : K :=
  (P.interior.map fun q => match q.1 with
    | none => dissInterior P.alpha q.2 u
    | some c => dissBdr P.alpha c q.2 u).sum +
  (P.bdr.map fun q => match q.1 with
    | none => 0
    | some c => dissBdr P.alpha c q.2 u).sum +
  ∑ d : Dir, u .E d ⬝ᵥ P.Msig.mulVec (u .E d)

/-- Sparse storage of a matrix: `n` rows of in-range columns whose entries add up to the matrix. -/
structure Represents {n m : Nat} (A : Matrix (Fin n) (Fin m) K) (rows : List (List (Int × K))) : Prop where
  height : rows.length = n
  cols : ∀ r ∈ rows, ∀ e ∈ r, 0 ≤ e.1 ∧ e.1 < (m : Int)
  entry : ∀ (i : Fin n) (j : Fin m),
    (((rows[i.val]?).getD []).map fun e => if e.1 = (j.val : Int) then e.2 else 0).sum = A i j

/-- The vector `x` holds the six components of `u` one after the other, `Ex Ey Ez Hx Hy Hz`, `n` values
each. -/
def Holds (n : Nat) (x : Int → K) (u : State (Fin n) K) : Prop :=
  ∀ (d : Dir) (i : Fin n),
    x ((d.val * n + i.val : Nat) : Int) = u .E d i ∧ x (((3 + d.val) * n + i.val : Nat) : Int) = u .H d i

end Dgtd.Op.Spec
