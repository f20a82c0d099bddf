/-
Model of what is printed about the resolution of thin layers (src/solver/SolverExtension.cpp).

The two function-local `static` flags are the state of the process.  Numbers printed along with the verdict (size, skin depth, loss tangent,
frequency) are not modelled; they do not decide anything.
-/
import Verif.Model.SgbcSub
import Verif.Model.Layer

namespace Dgtd.SgbcReport
open Dgtd.Sgbc (Layer subSteps recommendedDt)
open Dgtd.Config (Material)
open Dgtd.Layer (Consts)

/-- src/solver/SolverExtension.cpp:471-483: the last line printed about a layer. -/
inductive Verdict
  | excellent
  | info
  | warning
  | severe
  deriving DecidableEq, Repr

/-- A message: on layer number `i` (counted from one), the recommended step, and on the step taken against the recommended one.
(src/solver/SolverExtension.cpp:424-429, 464-484, 551-554) -/
inductive Line
  | layer (i : Nat) (v : Verdict)
  | recommended (dt : ℝ)
  | coarse (dt rec : ℝ)
  | ok (dt rec : ℝ)

/-- `temporal_warning_printed` and `resolutionChecked`. (src/solver/SolverExtension.cpp:415, 546) -/
structure Flags where
  temporal : Bool
  spatial : Bool

/-- Both flags as the process starts. (src/solver/SolverExtension.cpp:415, 546) -/
def Flags.start : Flags := ⟨false, false⟩

noncomputable section

/-- src/solver/SolverExtension.cpp:456-461 `f_max`. -/
def fMax (k : Consts) (l : Layer ℝ (Material ℝ)) : ℝ :=
  let sigma := l.material.sigma / k.Z0
  let mu := l.material.mu * k.mu0
  let dx := l.width / l.segs
  1 / (Real.pi * mu * sigma * dx * dx)

/-- src/solver/SolverExtension.cpp:471-483. -/
def verdict (f : ℝ) : Verdict :=
  if f > 10 ^ 10 then .excellent else if f > 10 ^ 9 then .info else if f > 10 ^ 6 then .warning else .severe

/-- src/solver/SolverExtension.cpp:444-486 `checkSkinDepthResolution`, from layer number `li` (counted from zero) on. -/
def checkSkinDepth (k : Consts) : Nat → List (Layer ℝ (Material ℝ)) → List Line
  | _, [] => []
  | li, l :: r => (if l.material.sigma ≤ 0 then [] else [Line.layer (li + 1) (verdict (fMax k l))]) ++ checkSkinDepth k (li + 1) r

/-- What the recommended step reads of a layer. (src/solver/SolverExtension.cpp:521-524) -/
def stepData (l : Layer ℝ (Material ℝ)) : Layer ℝ Dgtd.Sgbc.Mat := ⟨⟨l.material.eps, l.material.mu⟩, l.width, l.segs, l.order, l.nSkin⟩

/-- src/solver/SolverExtension.cpp:512-543: the recommended step of a wrapper; `c` is the speed of light, `big` the largest double. -/
def recommended (c big : ℝ) (ls : List (Layer ℝ (Material ℝ))) : ℝ := recommendedDt c big (ls.map stepData)

/-- src/solver/SolverExtension.cpp:544-557: the end of the constructor. -/
def build (k : Consts) (c big : ℝ) (ls : List (Layer ℝ (Material ℝ))) (s : Flags) : Flags × List Line :=
  if s.spatial then (s, [])
  else ({ s with spatial := true }, checkSkinDepth k 0 ls ++ [.recommended (recommended c big ls / c)])

/-- src/solver/SolverExtension.cpp:407-433: what `solve` prints; `root`: this is rank zero. -/
def solve (root : Bool) (c rec dt : ℝ) (s : Flags) : Flags × List Line :=
  if |dt| < 1 / 1000000000 then (s, [])
  else if s.temporal then (s, [])
  else ({ s with temporal := true },
    if root then (if dt / c > rec / c then [.coarse (dt / c) (rec / c)] else [.ok (dt / c) (rec / c)]) else [])

/-- The calls of `solve` for the sub-steps of a step. (src/evolution/GlobalEvolution.cpp:506-517, 531-543, 712-722, 733-748) -/
def solves (root : Bool) (c rec : ℝ) : List ℝ → Flags → Flags × List Line
  | [], s => (s, [])
  | d :: r, s =>
    let a := solve root c rec d s
    let b := solves root c rec r a.1
    (b.1, a.2 ++ b.2)

/-- What happens to layers in a process: a wrapper is built, or the wrapper of some layers takes a step of the parent solver (`base`: time at
its beginning). (src/evolution/GlobalEvolution.cpp:208, 506-517, 531-543, 712-722, 733-748) -/
inductive Event
  | build (ls : List (Layer ℝ (Material ℝ)))
  | step (ls : List (Layer ℝ (Material ℝ))) (base dt : ℝ)

/-- One event. (src/evolution/GlobalEvolution.cpp:208, 506-517) -/
def event (k : Consts) (c big : ℝ) (root : Bool) (e : Event) (s : Flags) : Option (Flags × List Line) :=
  match e with
  | .build ls => some (build k c big ls s)
  | .step ls base dt => (subSteps base dt (recommended c big ls)).map fun ss => solves root c (recommended c big ls) (ss.map fun x => x.len) s

/-- A history of a process and everything it prints about layers. (src/evolution/GlobalEvolution.cpp:208, 506-517) -/
def history (k : Consts) (c big : ℝ) (root : Bool) : List Event → Flags → Option (Flags × List Line)
  | [], s => some (s, [])
  | e :: r, s => do
    let a ← event k c big root e s
    let b ← history k c big root r a.1
    some (b.1, a.2 ++ b.2)

end

end Dgtd.SgbcReport
