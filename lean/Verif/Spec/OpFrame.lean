/-
Specification: two descriptions of the same problem, with other axes, another numbering of the unknowns, of the faces and of their
quadrature points, and other first sides of the faces.
-/
import Verif.Spec.Op
import Verif.Spec.Integrators
import Mathlib.LinearAlgebra.Matrix.NonsingularInverse

namespace Dgtd.Op.Spec

open Dgtd.Op

variable {ι ι' K : Type} [Fintype ι] [DecidableEq ι] [Fintype ι'] [DecidableEq ι'] [Field K] [LinearOrder K]

/-- Orthogonal axes: the rows of `R` are the new axes, `s` is 1 for a rotation and -1 if the handedness changes. -/
structure Frame (R : Matrix Dir Dir K) (s : K) : Prop where
  orth : R * R.transpose = 1
  det  : R.det = s

/-- Component of a vector along a new axis. -/
def along (R : Matrix Dir Dir K) (t : Dir → K) (a : Dir) : K := ∑ b, R a b * t b

/-- The same fields in the other description: the electric field is a vector, the magnetic field a pseudo-vector. -/
def moved (R : Matrix Dir Dir K) (s : K) (e : ι ≃ ι') (u : State ι K) : State ι' K
  | .E => fun a i => along R (fun b => u .E b (e.symm i)) a
  | .H => fun a i => s * along R (fun b => u .H b (e.symm i)) a

/-- The same quadrature point; `flip`: the second side of the face is now the first. -/
structure SamePt (R : Matrix Dir Dir K) (e : ι ≃ ι') (flip : Bool) (f : Face ι K) (f' : Face ι' K) (p p' : Pt K) : Prop where
  weight  : p'.w = p.w
  surface : p'.W = p.W
  normal  : ∀ a, normalTerm p'.nor a = (if flip then -1 else 1) * along R (normalTerm p.nor) a
  first   : ∀ x : ι → K, tr1 f' p' (x ∘ e.symm) = if flip then tr2 f p x else tr1 f p x
  second  : ∀ x : ι → K, tr2 f' p' (x ∘ e.symm) = if flip then tr1 f p x else tr2 f p x

/-- The same face with the same condition; the points may come in another order. -/
def SameFace (R : Matrix Dir Dir K) (e : ι ≃ ι') (q : Option BdrCond × Face ι K) (q' : Option BdrCond × Face ι' K) : Prop :=
  q'.1 = q.1 ∧ ∃ flip l, List.Perm l q.2.pts ∧ List.Forall₂ (SamePt R e flip q.2 q'.2) l q'.2.pts

/-- The same faces; they may come in another order. -/
def SameFaces (R : Matrix Dir Dir K) (e : ι ≃ ι') (l : List (Option BdrCond × Face ι K)) (l' : List (Option BdrCond × Face ι' K)) : Prop :=
  ∃ k, List.Perm k l ∧ List.Forall₂ (SameFace R e) k l'

/-- `P'` describes the same problem as `P`. -/
structure Redescribed (R : Matrix Dir Dir K) (s : K) (e : ι ≃ ι') (P : Prob ι K) (P' : Prob ι' K) : Prop where
  frame    : Frame R s
  alpha    : P'.alpha = P.alpha
  interior : SameFaces R e P.interior P'.interior
  bdr      : SameFaces R e P.bdr P'.bdr
  minv     : ∀ f r c, P'.Minv f (e r) (e c) = P.Minv f r c
  msig     : ∀ r c, P'.Msig (e r) (e c) = P.Msig r c
  deriv    : ∀ a r c, partialD P' a (e r) (e c) = ∑ b, R a b * partialD P b r c
  size     : ∀ f ∈ allFaces P, ∀ p ∈ f.pts, p.nor.length = P.dim
  size'    : ∀ f ∈ allFaces P', ∀ p ∈ f.pts, p.nor.length = P'.dim

/-- A problem that can only lose energy: good, with non-negative upwinding and conductivity, and with positive energy. -/
structure Passive (P : Prob ι K) (M : FieldT → Matrix ι ι K) : Prop where
  good  : Good P M
  alpha : 0 ≤ P.alpha
  sig   : ∀ v : ι → K, 0 ≤ v ⬝ᵥ P.Msig.mulVec v
  pos   : ∀ u, u ≠ 0 → 0 < energy M u

/-- Only the components chosen by `S`. -/
def keep (S : FieldT → Dir → Bool) (u : State ι K) : State ι K := fun f d i => if S f d then u f d i else 0

/-- The sets of components that do not act on each other: on a line `E_y` with `H_z`, `E_z` with `H_y`, and the two components along
the line each alone; in the plane `E_z` with `H_x` and `H_y`, `H_z` with `E_x` and `E_y`. -/
def modes (dim : Nat) : List (FieldT → Dir → Bool) :=
  let pick (l : List (FieldT × Dir)) : FieldT → Dir → Bool := fun f d => decide ((f, d) ∈ l)
  if dim ≤ 1 then [pick [(.E, 1), (.H, 2)], pick [(.E, 2), (.H, 1)], pick [(.E, 0)], pick [(.H, 0)]]
  else if dim = 2 then [pick [(.E, 2), (.H, 0), (.H, 1)], pick [(.H, 2), (.E, 0), (.E, 1)]]
  else []

end Dgtd.Op.Spec
