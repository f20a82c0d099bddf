/-
Model of the other far-field implementation: class `FarField` (src/components/FarField.cpp) and class `RCSManager`
(src/components/RCSManager.cpp), which work rank by rank on exported snapshots and merge the files.
-/
import Verif.Model.Rcs

namespace Dgtd.Rcs

noncomputable section

/-- src/components/FarField.cpp:354-365 `assembleComplexLinearForm`. -/
def complexForm (is3D : Bool) (freq : ℝ) (a : Angles) (dir : Fin 3) (faces : List Face) : Option (Nat → ℂ) := do
  let lfR ← linearForm is3D Real.cos freq a dir faces
  let lfI ← linearForm is3D Real.sin freq a dir faces
  some fun i => ⟨lfR i, lfI i⟩

/-- src/components/FarField.cpp:100-110 `complexInnerProduct`, sizes being equal. -/
def inner (n : Nat) (x y : Nat → ℂ) : ℂ := (List.range n).foldl (fun acc i => acc + x i * y i) 0

/-- src/components/FarField.cpp:386-397: cross product with the forms as normal, and change of sign for the electric field. -/
def dc (n : Nat) (lf : Fin 3 → Nat → ℂ) (FA : Fin 3 → Nat → ℂ) (isElectric : Bool) : Fin 3 → ℂ :=
  let v : Fin 3 → ℂ := ![inner n (lf 1) (FA 2) - inner n (lf 2) (FA 1), inner n (lf 2) (FA 0) - inner n (lf 0) (FA 2),
    inner n (lf 0) (FA 1) - inner n (lf 1) (FA 0)]
  if isElectric then fun i => v i * (-1) else v

/-- src/components/FarField.cpp:368-402 `calcNLpair`: components along theta and phi. -/
def nlPair (is3D : Bool) (R : Rank) (freq : ℝ) (a : Angles) (FA : Fin 3 → Nat → ℂ) (isElectric : Bool) : Option (ℂ × ℂ) := do
  let lx ← complexForm is3D freq a 0 R.faces
  let ly ← complexForm is3D freq a 1 R.faces
  let lz ← complexForm is3D freq a 2 R.faces
  let d := dc R.nDofs ![lx, ly, lz] FA isElectric
  some ((d 0 * Real.cos a.theta * Real.cos a.phi + d 1 * Real.cos a.theta * Real.sin a.phi - d 2 * Real.sin a.theta),
    (-d 0 * Real.sin a.phi + d 1 * Real.cos a.phi))

/-- src/components/FarField.cpp:459-469: the same constant in two and three dimensions. -/
def potPair (freq : ℝ) (N L : ℂ × ℂ) : ℝ :=
  let landa := c0 / freq
  let wavenumber := 2 * Real.pi / landa
  let const := wavenumber ^ 2 / (32 * Real.pi ^ 2 * Z0)
  const * (‖L.2 + (Z0 : ℂ) * N.1‖ ^ 2 + ‖L.1 - (Z0 : ℂ) * N.2‖ ^ 2)

/-- src/components/FarField.cpp:317-352, 438-472: the potential of one rank; the transform is that of the other implementation
(sum over snapshots, division by their number). -/
def potFarField (is3D : Bool) (R : Rank) (freq : ℝ) (a : Angles) : Option ℝ := do
  let F ← freqField R.snaps freq
  let N ← nlPair is3D R freq a (fun c => F ⟨3 + c.val, by omega⟩) false
  let L ← nlPair is3D R freq a (fun c => F ⟨c.val, by omega⟩) true
  some (potPair freq N L)

/-- src/components/FarField.cpp:281-288. -/
def gauss (pw : PlaneWave) (t : ℝ) : ℝ := Real.exp (-((t - |pw.mean|) ^ 2) / (2 * pw.spread ^ 2))

/-- src/components/RCSManager.cpp:18-47 `buildIncomingPowerTerm` for one frequency: no carrier, and the squared sum is divided
once by the number of snapshots. -/
def incomingPower (pw : PlaneWave) (times : List ℝ) (freq : ℝ) : Option ℝ :=
  if times.length = 0 ∨ pw.spread = 0 then none
  else
    let v := times.foldl (fun (acc : ℂ) t => acc + ((gauss pw t : ℝ) : ℂ) * kernel freq t) 0
    some (Complex.normSq v / (2 * Z0) / (times.length : ℝ))

/-- src/components/RCSManager.cpp:226-233. -/
def rcsManager (is3D : Bool) (pw : PlaneWave) (R : Rank) (freq : ℝ) (a : Angles) : Option ℝ := do
  let pot ← potFarField is3D R freq a
  let P ← incomingPower pw (R.snaps.map fun s => s.time / c0) freq
  if P = 0 then none else some (4 * Real.pi / P * pot)

/-! ### merging -/

/-- src/components/RCSManager.cpp:11-14 `RowData`. -/
structure RowData where
  theta : ℝ
  phi : ℝ
  frequency : ℝ
  pot : ℝ
  norm : ℝ

/-- src/components/RCSManager.cpp:125-133 `addRows`; `none` is the exception. -/
def addRows (base additional : List RowData) : Option (List RowData) :=
  if base.length ≠ additional.length then none
  else some (List.zipWith (fun b r => { b with pot := b.pot + r.pot, norm := b.norm + r.norm }) base additional)

/-- src/components/RCSManager.cpp:165-182: the file of the first rank, to which those of the others are added. -/
def mergeFiles : List (List RowData) → Option (List RowData)
  | [] => none
  | base :: others => others.foldlM addRows base

end

end Dgtd.Rcs
