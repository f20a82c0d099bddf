/-
Model of the initial fields: src/math/Function.h (`Gaussian`, `SinusoidalMode`, the `TM2D…` reference modes), their builders in
src/driver/driver.cpp and their evaluation in src/components/Sources.cpp.

`double` is a real number.  Reading a vector out of bounds is `none` (only `assert`s of MFEM and of the code, absent from release builds,
watch over it).
-/
import Verif.Model.SourceCfg
import Mathlib.Analysis.SpecialFunctions.Trigonometric.Basic
import Mathlib.Analysis.SpecialFunctions.Exp
import Mathlib.Analysis.SpecialFunctions.Sqrt

namespace Dgtd.Mode
open Dgtd.Config (FieldType Axis)

/-- src/math/Function.h:157-164 `SinusoidalMode::eval`: the loop over the modes from the entry `d` on. -/
noncomputable def sinLoop (pos : List ℝ) : Nat → List Nat → ℝ → Option ℝ
  | _, [], res => some res
  | d, m :: ms, res => do
    let x ← pos[d]?
    sinLoop pos (d + 1) ms (res * Real.sin (m * Real.pi * x))

/-- src/math/Function.h:145-168 `SinusoidalMode`. -/
noncomputable def sinMode (modes : List Nat) (pos : List ℝ) : Option ℝ := sinLoop pos 0 modes 1

/-- src/math/Function.h:71-94 `Gaussian::eval`; `none` also stands for the exception of other dimensions. -/
noncomputable def gaussian (spread : ℝ) (mean : List ℝ) (dim : Nat) (pos : List ℝ) : Option ℝ :=
  match dim with
  | 1 => do
    let x ← pos[0]?
    let a ← mean[0]?
    pure (Real.exp (-(x - a) ^ 2 / (2 * spread ^ 2)))
  | 2 => do
    let x ← pos[0]?
    let a ← mean[0]?
    let y ← pos[1]?
    let b ← mean[1]?
    pure (Real.exp (-((x - a) ^ 2 + (y - b) ^ 2) / (2 * spread ^ 2)))
  | 3 => do
    let x ← pos[0]?
    let a ← mean[0]?
    let y ← pos[1]?
    let b ← mean[1]?
    let z ← pos[2]?
    let c ← mean[2]?
    pure (Real.exp (-((x - a) ^ 2 + (y - b) ^ 2 + (z - c) ^ 2) / (2 * spread ^ 2)))
  | _ => none

/-- src/components/Sources.cpp:37-57 `InitialField::eval` with a function that may read out of bounds. -/
noncomputable def evalInitial (fn : List ℝ → Option ℝ) (own : FieldType) (pol : Axis → ℝ) (center : List ℝ) (p : List ℝ) (ft : FieldType)
    (d : Axis) : Option ℝ :=
  if ft ≠ own then some 0
  else if center.length < p.length then none
  else (fn (List.zipWith (· - ·) p center)).map fun v => v * pol d

/-- src/driver/driver.cpp:383-392 `buildResonantModeInitialField`. -/
noncomputable def resonant (own : FieldType) (pol : Axis → ℝ) (modes : List Nat) (p : List ℝ) (ft : FieldType) (d : Axis) : Option ℝ :=
  evalInitial (sinMode modes) own pol (List.replicate modes.length 0) p ft d

/-- src/driver/driver.cpp:368-381 `buildGaussianInitialField`. -/
noncomputable def gaussianField (own : FieldType) (spread : ℝ) (center : List ℝ) (pol : Axis → ℝ) (dim : Nat) (p : List ℝ) (ft : FieldType)
    (d : Axis) : Option ℝ :=
  evalInitial (gaussian spread (List.replicate dim 0) dim) own pol center p ft d

/-- src/math/Function.h:434-447, 479-492, 521-534: the constructors of the three reference modes.  The sizes compared are those of the
members, still empty, so the number of modes decides, and a shorter `box_size` is read out of bounds. -/
noncomputable def boxOf (modes : List Nat) (box : List ℝ) : Option (List ℝ) := (List.range modes.length).mapM fun d : Nat => box[d]?

/-- src/math/Function.h:455-460, 500-505, 542-547: the angular frequency of the reference modes. -/
noncomputable def modeFreq (modes : List Nat) (sides : List ℝ) : ℝ :=
  Real.pi * Real.sqrt ((List.zipWith (fun (m : Nat) (l : ℝ) => (m / l) ^ 2) modes sides).sum)

/-- src/math/Function.h:429-472 `TM2DSinusoidalMode`. -/
noncomputable def tm2d (modes : List Nat) (box : List ℝ) (pos : List ℝ) (t : ℝ) : Option ℝ := do
  let sides ← boxOf modes box
  let xs ← (List.range modes.length).mapM fun d : Nat => pos[d]?
  pure (Real.cos (modeFreq modes sides * t) *
    ((List.zipWith (fun (ml : Nat × ℝ) (x : ℝ) => Real.sin (ml.1 * Real.pi * x / ml.2)) (modes.zip sides) xs).prod))

/-- src/math/Function.h:474-514 `TM2D_Dx_SinusoidalMode`. -/
noncomputable def tm2dDx (modes : List Nat) (box : List ℝ) (pos : List ℝ) (t : ℝ) : Option ℝ := do
  let sides ← boxOf modes box
  let w := modeFreq modes sides
  let m : Nat ← modes[0]?
  let n : Nat ← modes[1]?
  let l ← sides[0]?
  let k ← sides[1]?
  let x ← pos[0]?
  let y ← pos[1]?
  pure ((m : ℝ) * Real.pi / (w * l) * Real.cos (w * t) * Real.cos (m * Real.pi * x / l) * Real.sin (n * Real.pi * y / k))

/-- src/math/Function.h:516-556 `TM2D_Dy_SinusoidalMode`. -/
noncomputable def tm2dDy (modes : List Nat) (box : List ℝ) (pos : List ℝ) (t : ℝ) : Option ℝ := do
  let sides ← boxOf modes box
  let w := modeFreq modes sides
  let m : Nat ← modes[0]?
  let n : Nat ← modes[1]?
  let l ← sides[0]?
  let k ← sides[1]?
  let x ← pos[0]?
  let y ← pos[1]?
  pure ((n : ℝ) * Real.pi / (w * k) * Real.cos (w * t) * Real.sin (m * Real.pi * x / l) * Real.cos (n * Real.pi * y / k))

end Dgtd.Mode
