/-
Model of the face integrators of src/mfemExtension/BilinearIntegrators.cpp that the operators of the solver do not use themselves.
-/
import Verif.Model.Integrators

namespace Dgtd.Op

variable {ι K : Type} [Field K] [LinearOrder K]

/-- BilinearIntegrators.cpp:174-190: one point of the decoupled integrator without normals. -/
def decoupled0Pt (beta : K) (f : Face ι K) (m : EMat K) (p : Pt K) : EMat K :=
  let w := p.w * beta * (1 / 2) * p.W
  if w ≠ 0 then
    let m := buildFaceMatrix w f.ndof1 f.ndof1 0 0 p.sh1 p.sh1 m
    if f.ndof2 ≠ 0 then buildFaceMatrix w f.ndof2 f.ndof2 f.ndof1 f.ndof1 p.sh2 p.sh2 m else m
  else m

/-- BilinearIntegrators.cpp:151-191 `MaxwellDGDecoupledZeroNormalJumpIntegrator::AssembleFaceMatrix`. -/
def decoupled0 (beta : K) (f : Face ι K) : EMat K := f.pts.foldl (decoupled0Pt beta f) (fun _ _ => 0)

/-- BilinearIntegrators.cpp:216-234: one point of the decoupled integrator with one normal. -/
def decoupled1Pt (d : Dir) (beta : K) (f : Face ι K) (m : EMat K) (p : Pt K) : EMat K :=
  let b := beta * normalTerm p.nor d
  let w := p.w * b * (1 / 2)
  if w ≠ 0 then
    let m := buildFaceMatrix w f.ndof1 f.ndof1 0 0 p.sh1 p.sh1 m
    if f.ndof2 ≠ 0 then buildFaceMatrix (-w) f.ndof2 f.ndof2 f.ndof1 f.ndof1 p.sh2 p.sh2 m else m
  else m

/-- BilinearIntegrators.cpp:193-235 `MaxwellDGDecoupledOneNormalJumpIntegrator::AssembleFaceMatrix`. -/
def decoupled1 (d : Dir) (beta : K) (f : Face ι K) : EMat K := f.pts.foldl (decoupled1Pt d beta f) (fun _ _ => 0)

/-- BilinearIntegrators.cpp:260-279: one point of the decoupled integrator with two normals. -/
def decoupled2Pt (d d2 : Dir) (beta : K) (f : Face ι K) (m : EMat K) (p : Pt K) : EMat K :=
  let b := beta * normalTerm p.nor d * normalTerm p.nor d2
  let w := p.w * b * (1 / 2) / p.W
  if w ≠ 0 then
    let m := buildFaceMatrix w f.ndof1 f.ndof1 0 0 p.sh1 p.sh1 m
    if f.ndof2 ≠ 0 then buildFaceMatrix w f.ndof2 f.ndof2 f.ndof1 f.ndof1 p.sh2 p.sh2 m else m
  else m

/-- BilinearIntegrators.cpp:237-280 `MaxwellDGDecoupledTwoNormalJumpIntegrator::AssembleFaceMatrix`. -/
def decoupled2 (d d2 : Dir) (beta : K) (f : Face ι K) : EMat K := f.pts.foldl (decoupled2Pt d d2 beta f) (fun _ _ => 0)

/-- BilinearIntegrators.cpp:438-464: one point of the absorbing integrator; more than two directions throw and are not modelled. -/
def smaJumpPt (dirs : List Dir) (beta : K) (f : Face ι K) (m : EMat K) (p : Pt K) : EMat K :=
  let b := betaTerm p.nor dirs beta
  let w := p.w * b * (1 / 2)
  if w ≠ 0 then
    match dirs with
    | [] => buildFaceMatrix (w * p.W) f.ndof1 f.ndof1 0 0 p.sh1 p.sh1 m
    | [_] => buildFaceMatrix w f.ndof1 f.ndof1 0 0 p.sh1 p.sh1 m
    | _ :: _ :: _ => buildFaceMatrix (w / p.W) f.ndof1 f.ndof1 0 0 p.sh1 p.sh1 m
  else m

/-- BilinearIntegrators.cpp:414-465 `MaxwellSMAJumpIntegrator::AssembleFaceMatrix`. -/
def smaJump (dirs : List Dir) (beta : K) (f : Face ι K) : EMat K := f.pts.foldl (smaJumpPt dirs beta f) (fun _ _ => 0)

/-- BilinearIntegrators.cpp:489-512: one point of the one-normal total-field integrator. -/
def totalNormalPt (d : Dir) (beta : K) (f : Face ι K) (m : EMat K) (p : Pt K) : EMat K :=
  let b := beta * normalTerm p.nor d
  let w := p.w * b * (1 / 2)
  if w ≠ 0 then
    let m := buildFaceMatrix w f.ndof1 f.ndof1 0 0 p.sh1 p.sh1 m
    if f.ndof2 ≠ 0 then
      let m := buildFaceMatrix (-w) f.ndof1 f.ndof2 0 f.ndof1 p.sh1 p.sh2 m
      let m := buildFaceMatrix w f.ndof2 f.ndof1 f.ndof1 0 p.sh2 p.sh1 m
      buildFaceMatrix (-w) f.ndof2 f.ndof2 f.ndof1 f.ndof1 p.sh2 p.sh2 m
    else m
  else m

/-- BilinearIntegrators.cpp:467-513 `MaxwellDGOneNormalTotalFieldIntegrator::AssembleFaceMatrix`. -/
def totalNormal (d : Dir) (beta : K) (f : Face ι K) : EMat K := f.pts.foldl (totalNormalPt d beta f) (fun _ _ => 0)

/-- BilinearIntegrators.cpp:515-575 `MaxwellDGFluxTotalFieldIntegrator::AssembleFaceMatrix`: `elmat = 0.0` sits inside the quadrature loop. -/
def totalFlux (coeff : K) (f : Face ι K) : EMat K :=
  f.pts.foldl (fun _ p =>
    let w := p.w * (1 / 2)
    let m : EMat K := fun _ _ => 0
    let m := if w ≠ 0 then
        if coeff > 0 then buildFaceMatrix w f.ndof1 f.ndof1 0 0 p.sh1 p.sh1 m
        else buildFaceMatrix 0 f.ndof1 f.ndof1 0 0 p.sh1 p.sh1 m
      else m
    if f.ndof2 ≠ 0 then
      if w ≠ 0 then
        if coeff > 0 then
          let m := buildFaceMatrix 0 f.ndof1 f.ndof2 0 f.ndof1 p.sh1 p.sh2 m
          let m := buildFaceMatrix 0 f.ndof2 f.ndof1 f.ndof1 0 p.sh2 p.sh1 m
          buildFaceMatrix w f.ndof2 f.ndof2 f.ndof1 f.ndof1 p.sh2 p.sh2 m
        else
          let m := buildFaceMatrix w f.ndof1 f.ndof2 0 f.ndof1 p.sh1 p.sh2 m
          let m := buildFaceMatrix w f.ndof2 f.ndof1 f.ndof1 0 p.sh2 p.sh1 m
          buildFaceMatrix 0 f.ndof2 f.ndof2 f.ndof1 f.ndof1 p.sh2 p.sh2 m
      else m
    else m) (fun _ _ => 0)

/-- BilinearIntegrators.cpp:577-624 `MaxwellDGPenaltyTotalFieldIntegrator::AssembleFaceMatrix`: `elmat = 0.0` sits inside the quadrature
loop. -/
def totalPenalty (dirs : List Dir) (beta coeff : K) (f : Face ι K) : EMat K :=
  f.pts.foldl (fun _ p =>
    let w := p.w * betaTerm p.nor dirs beta * coeff
    let m : EMat K := fun _ _ => 0
    if f.ndof2 ≠ 0 then
      if w ≠ 0 then
        let m := buildFaceMatrix w f.ndof1 f.ndof2 0 f.ndof1 p.sh1 p.sh2 m
        buildFaceMatrix w f.ndof2 f.ndof2 f.ndof1 f.ndof1 p.sh2 p.sh2 m
      else m
    else m) (fun _ _ => 0)

end Dgtd.Op
