/-
Specification: power that leaves a region through its surface.
-/
import Verif.Spec.OpLocal

namespace Dgtd.Op.Spec

open Dgtd.Op

variable {ι K ε : Type} [Fintype ι] [DecidableEq ι] [Field K] [LinearOrder K]

/-- `n · (a × b)` at a point of a face, times the Jacobian of the surface. -/
def flow (p : Pt K) (a b : Dir → K) : K :=
  normalTerm p.nor 0 * (a 1 * b 2 - a 2 * b 1) + normalTerm p.nor 1 * (a 2 * b 0 - a 0 * b 2) + normalTerm p.nor 2 * (a 0 * b 1 - a 1 * b 0)

/-- `(n × a) · (n × b)` with the unit normal. -/
def tanDot (p : Pt K) (a b : Dir → K) : K :=
  let n := fun d => normalTerm p.nor d / p.W
  (n 1 * a 2 - n 2 * a 1) * (n 1 * b 2 - n 2 * b 1) + (n 2 * a 0 - n 0 * a 2) * (n 2 * b 0 - n 0 * b 2) +
    (n 0 * a 1 - n 1 * a 0) * (n 0 * b 1 - n 1 * b 0)

/-- The Poynting flux `n · (E × H)` at a point of a face: the mean of the two ways of taking one field from each side. -/
def meanFlow (F : Face ι K) (u : State ι K) (p : Pt K) : K :=
  1 / 2 * (flow p (fun d => tr1 F p (u .E d)) (fun d => tr2 F p (u .H d)) + flow p (fun d => tr2 F p (u .E d)) (fun d => tr1 F p (u .H d)))

/-- Power that leaves the element on the first side of a face: the Poynting flux, and what the upwind terms take from the jump. -/
def outFirst (alpha : K) (F : Face ι K) (u : State ι K) : K :=
  (F.pts.map fun p => p.w * (meanFlow F u p + 1 / 2 * alpha * p.W *
    (tanDot p (fun d => tr1 F p (u .E d)) (fun d => tr1 F p (u .E d) - tr2 F p (u .E d)) +
     tanDot p (fun d => tr1 F p (u .H d)) (fun d => tr1 F p (u .H d) - tr2 F p (u .H d))))).sum

/-- Power that leaves the element on the second side. -/
def outSecond (alpha : K) (F : Face ι K) (u : State ι K) : K :=
  (F.pts.map fun p => p.w * (-meanFlow F u p + 1 / 2 * alpha * p.W *
    (tanDot p (fun d => tr2 F p (u .E d)) (fun d => tr2 F p (u .E d) - tr1 F p (u .E d)) +
     tanDot p (fun d => tr2 F p (u .H d)) (fun d => tr2 F p (u .H d) - tr1 F p (u .H d))))).sum

/-- Is the element on the first (second) side of a face in the region? -/
def firstIn (el : ι → ε) (col : ε → Bool) (F : Face ι K) : Bool := (List.range F.ndof1).any fun i => col (el (F.dofs i))
@[inherit_doc firstIn] def secondIn (el : ι → ε) (col : ε → Bool) (F : Face ι K) : Bool :=
  (List.range F.ndof2).any fun i => col (el (F.dofs (F.ndof1 + i)))

/-- Power that leaves the region at a face without a condition: nothing at faces outside, the upwind losses at faces inside, the flux at
faces of its surface. -/
def leaves (alpha : K) (el : ι → ε) (col : ε → Bool) (u : State ι K) (F : Face ι K) : K :=
  match firstIn el col F, secondIn el col F with
  | false, false => 0
  | true, true => dissInterior alpha F u
  | true, false => outFirst alpha F u
  | false, true => outSecond alpha F u

/-- Power that leaves the region: through faces without a condition, at walls and outer boundaries of the region, in conductors. -/
def powerOut (P : Prob ι K) (el : ι → ε) (col : ε → Bool) (u : State ι K) : K :=
  (P.interior.map fun q => match q.1 with
    | none => leaves P.alpha el col u q.2
    | some c => dissBdr P.alpha c q.2 (part el col true u)).sum +
  (P.bdr.map fun q => match q.1 with
    | none => 0
    | some c => dissBdr P.alpha c q.2 (part el col true u)).sum +
  ∑ d : Dir, part el col true u .E d ⬝ᵥ P.Msig.mulVec (part el col true u .E d)

end Dgtd.Op.Spec
