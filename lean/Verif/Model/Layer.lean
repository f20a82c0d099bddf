import Verif.Model.Config
import Mathlib.Analysis.SpecialFunctions.Sqrt
import Mathlib.Analysis.Real.Pi.Bounds

/-
Model of wave quantities of materials, of the highest source frequency and of the automatic resolution of
thin layers.

/repo/src/components/Material.cpp 31-59; /repo/src/driver/driver.cpp 20-61, 1298-1454.

Doubles are real numbers.  Divisions by zero, which give infinities in the code, are excluded by hypotheses in
the theorems.
-/
namespace Dgtd.Layer

open Dgtd.Config

set_option linter.dupNamespace false

noncomputable section

/-! ### Materials -/

/-- `Material::getImpedance` (components/Material.cpp 31-39). -/
def impedance (m : Material ℝ) : Except Err ℝ :=
  if m.sigma = 0 then .ok (Real.sqrt (m.mu / m.eps)) else .error .throw

/-- `Material::getAdmittance` (components/Material.cpp 41-49). -/
def admittance (m : Material ℝ) : Except Err ℝ :=
  if m.sigma = 0 then .ok (Real.sqrt (m.eps / m.mu)) else .error .throw

/-- `Material::getSpeedOfWave` (components/Material.cpp 51-59). -/
def speedOfWave (m : Material ℝ) : Except Err ℝ :=
  if m.sigma = 0 then .ok (1 / Real.sqrt (m.mu * m.eps)) else .error .throw

/-! ### Highest frequency of the sources -/

/-- The members of `magnitude` that are read (driver.cpp 33-43); `gaussianType` says that `type` is present
and equal to `gaussian`. -/
structure Magnitude where
  spread : Option ℝ
  frequency : Option ℝ
  gaussianType : Bool

/-- The variables of `calculateMaximumSourceFrequency` (driver.cpp 23-26).  `minSpread = none` is the
initial value (the largest double) together with `found_gaussian = false`. -/
structure FreqState where
  minSpread : Option ℝ
  maxFreq : ℝ
  foundModulated : Bool

/-- The body of the loop (driver.cpp 29-49); a source without `magnitude` is `none`. -/
def freqStep (c : ℝ) (s : FreqState) (src : Option Magnitude) : FreqState :=
  match src with
  | none => s
  | some m =>
    match m.frequency, m.spread with
    | some f, some w =>
      if f + c / (2 * w) > s.maxFreq then { s with maxFreq := f + c / (2 * w), foundModulated := true } else s
    | _, some w =>
      if m.gaussianType then
        match s.minSpread with
        | none => if w > 0 then { s with minSpread := some w } else s
        | some w0 => if w > 0 ∧ w < w0 then { s with minSpread := some w } else s
      else s
    | _, none => s

/-- `calculateMaximumSourceFrequency` (driver.cpp 20-61). -/
def maxFrequency (c : ℝ) (sources : List (Option Magnitude)) : ℝ :=
  let s := sources.foldl (freqStep c) ⟨none, 0, false⟩
  if s.foundModulated then s.maxFreq
  else
    match s.minSpread with
    | some w => c / (2 * w)
    | none => 10 ^ 9

/-! ### Thin layers -/

/-- Physical constants (math/PhysicalConstants.h). (src/math/PhysicalConstants.h:8-17) -/
structure Consts where
  mu0 : ℝ
  eps0 : ℝ
  Z0 : ℝ
  mu0_pos : 0 < mu0
  eps0_pos : 0 < eps0
  Z0_pos : 0 < Z0

/-- The members of a layer that are read (driver.cpp 1300-1370). -/
structure LayerJson where
  relPermittivity : Option ℝ
  relPermeability : Option ℝ
  bulkConductivity : Option ℝ
  materialWidth : Option ℝ
  numOfSegments : Option Nat
  order : Option Nat

/-- `SGBCLayer` (components/Model.h 77-85). -/
structure Layer where
  material : Material ℝ
  width : ℝ
  segments : Nat
  order : Nat
  nSkinDepths : ℝ

/-- Ratio of conduction to displacement currents (driver.cpp 1331-1334). -/
def peclet (k : Consts) (f relEps sigma : ℝ) : ℝ :=
  if sigma > 0 then sigma / (f * (relEps * k.eps0)) else 0

/-- Order chosen for a layer (driver.cpp 1336-1343). -/
def autoOrder (k : Consts) (f relEps sigma : ℝ) : Nat :=
  if peclet k f relEps sigma > 100 then 2
  else if peclet k f relEps sigma < 1 / 10 ∧ sigma < 1 / 1000 then 4
  else 3

/-- Wavelength in the layer (driver.cpp 1348). -/
def wavelength (k : Consts) (f relEps relMu : ℝ) : ℝ :=
  1 / (f * Real.sqrt (relMu * k.mu0 * (relEps * k.eps0)))

/-- Segments per wavelength (driver.cpp 1349). -/
def segsPerWavelength (order : Nat) : Int := ⌈(20 : ℝ) / (order : ℝ)⌉

/-- Skin depth of a conducting layer (driver.cpp 1355). -/
def skinDepth (k : Consts) (f relMu sigma : ℝ) : ℝ :=
  1 / Real.sqrt (Real.pi * f * (relMu * k.mu0) * sigma)

/-- Target size of a segment (driver.cpp 1350-1359); the largest double, used without conductivity, is never
the minimum. -/
def targetDx (k : Consts) (f relEps relMu sigma : ℝ) (order : Nat) : ℝ :=
  if sigma > 0 then
    min (wavelength k f relEps relMu / (segsPerWavelength order : ℝ)) (skinDepth k f relMu sigma / 2)
  else wavelength k f relEps relMu / (segsPerWavelength order : ℝ)

/-- Conversion from `double` to `int` (driver.cpp 1360): undefined for values that do not fit. -/
def toInt (x : ℝ) : Except Err Int :=
  if -2147483648 ≤ ⌈x⌉ ∧ ⌈x⌉ ≤ 2147483647 then .ok ⌈x⌉ else .error .ub

/-- `std::clamp`. (src/driver/driver.cpp:1362) -/
def clamp (x lo hi : Int) : Int := if x < lo then lo else if hi < x then hi else x

/-- `parseSGBCLayer` (driver.cpp 1298-1410); messages are not modelled. -/
def parseLayer (k : Consts) (f : ℝ) (j : LayerJson) : Except Err Layer :=
  let relEps := j.relPermittivity.getD 1
  let relMu := j.relPermeability.getD 1
  match j.bulkConductivity with
  | none => .error .throw
  | some sigma =>
    match Material.make relEps relMu (sigma * k.Z0) with
    | .error e => .error e
    | .ok mat =>
      match j.materialWidth with
      | none => .error .throw
      | some width =>
        let order := autoOrder k f relEps sigma
        match toInt (width / targetDx k f relEps relMu sigma order) with
        | .error e => .error e
        | .ok n =>
          .ok
            { material := mat
              width := width
              segments := j.numOfSegments.getD (clamp n 4 1000).toNat
              order := j.order.getD order
              nSkinDepths :=
                if sigma > 0 ∧ skinDepth k f relMu sigma > 0 then width / skinDepth k f relMu sigma else 0 }

/-! ### Ends of a thin layer -/

/-- `sgbc_boundaries`: keywords for the two ends. (src/driver/driver.cpp:1435-1446) -/
structure EndsJson where
  left : Option String
  right : Option String

/-- `SGBCBoundaryInfo` for both ends (components/Model.h 69-75). -/
structure Ends where
  leftOn : Bool
  leftCond : Cond
  rightOn : Bool
  rightCond : Cond
deriving DecidableEq

/-- The lambda `parseBoundaries` (driver.cpp 1438-1449). -/
def parseEnds (src : Option EndsJson) (e : Ends) : Except Err Ends :=
  match src with
  | none => .ok e
  | some j =>
    let r1 : Except Err Ends :=
      match j.left with
      | none => .ok e
      | some s =>
        match assignBoundaryType s with
        | .error x => .error x
        | .ok c => .ok { e with leftOn := true, leftCond := c }
    match r1 with
    | .error x => .error x
    | .ok e1 =>
      match j.right with
      | none => .ok e1
      | some s =>
        match assignBoundaryType s with
        | .error x => .error x
        | .ok c => .ok { e1 with rightOn := true, rightCond := c }

/-- Ends of a boundary entry (driver.cpp 1436-1454): those at the level of the boundary, else those at the
level of its material; `material = none` when the entry has no `material`. -/
def layerEnds (bdr : Option EndsJson) (material : Option (Option EndsJson)) : Except Err Ends :=
  match parseEnds bdr ⟨false, .sma, false, .sma⟩ with
  | .error x => .error x
  | .ok e =>
    if !e.leftOn && !e.rightOn then
      match material with
      | none => .ok e
      | some m => parseEnds m e
    else .ok e

end

end Dgtd.Layer
