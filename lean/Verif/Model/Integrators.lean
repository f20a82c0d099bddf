/-
Model of the remaining face integrators of src/mfemExtension/BilinearIntegrators.cpp and of the interior
face part of src/mfemExtension/LinearIntegrators.cpp.
-/
import Verif.Model.Op

namespace Dgtd.Op

variable {ι K : Type} [Fintype ι] [DecidableEq ι] [Field K] [LinearOrder K]

/-- BilinearIntegrators.cpp:317-351: one point of the trace-jump integrator. -/
def traceJumpPt (dirs : List Dir) (beta : K) (f : Face ι K) (m : EMat K) (p : Pt K) : EMat K :=
  let b := betaTerm p.nor dirs beta
  let w := p.w * b * (1 / 2)
  if w ≠ 0 then
    match dirs with
    | [] =>
      let w := w * p.W
      let m := buildFaceMatrix w f.ndof1 f.ndof1 0 0 p.sh1 p.sh1 m
      if f.ndof2 ≠ 0 then
        let m := buildFaceMatrix w f.ndof1 f.ndof2 0 f.ndof1 p.sh1 p.sh2 m
        let m := buildFaceMatrix w f.ndof2 f.ndof1 f.ndof1 0 p.sh2 p.sh1 m
        buildFaceMatrix w f.ndof2 f.ndof2 f.ndof1 f.ndof1 p.sh2 p.sh2 m
      else m
    | [_] =>
      let m := buildFaceMatrix w f.ndof1 f.ndof1 0 0 p.sh1 p.sh1 m
      if f.ndof2 ≠ 0 then
        let m := buildFaceMatrix w f.ndof1 f.ndof2 0 f.ndof1 p.sh1 p.sh2 m
        let m := buildFaceMatrix (-w) f.ndof2 f.ndof1 f.ndof1 0 p.sh2 p.sh1 m
        buildFaceMatrix (-w) f.ndof2 f.ndof2 f.ndof1 f.ndof1 p.sh2 p.sh2 m
      else m
    | _ :: _ :: _ =>
      let w := w / p.W
      let m := buildFaceMatrix w f.ndof1 f.ndof1 0 0 p.sh1 p.sh1 m
      if f.ndof2 ≠ 0 then
        let m := buildFaceMatrix w f.ndof1 f.ndof2 0 f.ndof1 p.sh1 p.sh2 m
        let m := buildFaceMatrix w f.ndof2 f.ndof1 f.ndof1 0 p.sh2 p.sh1 m
        buildFaceMatrix w f.ndof2 f.ndof2 f.ndof1 f.ndof1 p.sh2 p.sh2 m
      else m
  else m

/-- BilinearIntegrators.cpp:282-353 `MaxwellDGTraceJumpIntegrator::AssembleFaceMatrix`. -/
def traceJump (dirs : List Dir) (beta : K) (f : Face ι K) : EMat K :=
  f.pts.foldl (traceJumpPt dirs beta f) (fun _ _ => 0)

/-- BilinearIntegrators.cpp:671-714 `HesthavenFluxIntegrator::AssembleFaceMatrix`. -/
def hesthavenFlux (f : Face ι K) : EMat K :=
  f.pts.foldl (fun m p =>
    let w := p.w * 2
    if w ≠ 0 then
      let m := buildFaceMatrix w f.ndof1 f.ndof1 0 0 p.sh1 p.sh1 m
      if f.ndof2 ≠ 0 then
        let m := buildFaceMatrix (-w) f.ndof1 f.ndof2 0 f.ndof1 p.sh1 p.sh2 m
        let m := buildFaceMatrix (-w) f.ndof2 f.ndof1 f.ndof1 0 p.sh2 p.sh1 m
        buildFaceMatrix w f.ndof2 f.ndof2 f.ndof1 f.ndof1 p.sh2 p.sh2 m
      else m
    else m) (fun _ _ => 0)

/-- BilinearIntegrators.cpp:638-669 `TotalFieldScatteredFieldIntegrator::AssembleFaceMatrix`: `elmat = 0.0`
sits inside the quadrature loop. -/
def totalFieldScattered (beta : K) (f : Face ι K) : EMat K :=
  f.pts.foldl (fun _ p => buildFaceMatrix (p.w * beta) f.ndof1 f.ndof1 0 0 p.sh1 p.sh1 (fun _ _ => 0))
    (fun _ _ => 0)

/-- LinearIntegrators.cpp:74-135 `BoundaryDGJumpIntegrator::AssembleRHSElementVect` (two elements): the
entries are assigned, not accumulated.  `un1`, `un2` are the values of `vu * nor` on the two sides. -/
def boundaryJump (beta : K) (f : Face ι K) (un1 un2 : Pt K → K) : Nat → K :=
  f.pts.foldl (fun v p => fun i =>
    if i < f.ndof1 then beta * un1 p * p.w * p.sh1 i
    else if i < f.ndof1 + f.ndof2 then beta * un2 p * p.w * p.sh2 (i - f.ndof1) else v i) (fun _ => 0)

end Dgtd.Op
