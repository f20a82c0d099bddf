/-
Model of the reading of the sources of a case file, src/driver/driver.cpp:327-353, 531-641.  Members used by the builders
are already numbers or lists of numbers; a member that is read but absent is undefined behaviour (`operator[]` on a
constant json object).
-/
import Verif.Model.Config

namespace Dgtd.SourceCfg
open Dgtd.Config (Err FieldType assignFieldType)

/-- The members of one source that are read. (src/driver/driver.cpp:531-641) -/
structure Src (K : Type) where
  type         : Option String
  magType      : Option String := none
  fieldType    : Option String := none
  spread       : Option K := none
  length       : Option K := none
  frequency    : Option K := none
  hasMean      : Bool := false
  center       : Option (List K) := none
  polarization : Option (List K) := none
  propagation  : Option (List K) := none
  modes        : Option (List Nat) := none
  dimension    : Option Int := none

/-- A vector of three entries, some of which may never have been written. (src/driver/driver.cpp:346-353) -/
abbrev Vec (K : Type) := List (Option K)

/-- What is added to the list of sources. (src/driver/driver.cpp:531-641) -/
inductive Built (K : Type) where
  | gaussian (ft : FieldType) (spread : K) (center : List K) (pol : Vec K) (dim : Int)
  | resonant (ft : FieldType) (pol : Vec K) (modes : List Nat)
  | bessel2 (ft : FieldType) (pol : Vec K)
  | bessel3 (ft : FieldType) (pol : Vec K)
  | planewave (spread : K) (frequency : Option K) (pol prop : Vec K)
  | dipole (length spread : K)
  deriving DecidableEq

variable {K : Type}

/-- Reading an absent member of a constant json object. (src/driver/driver.cpp:534-641) -/
def member {α : Type} (x : Option α) : Except Err α :=
  match x with
  | some a => .ok a
  | none => .error .ub

/-- src/driver/driver.cpp:346-353 `assemble3DVector`: three entries that are not initialised, and as many assignments as
the input has entries, without a check. -/
def assemble3 (l : List K) : Except Err (Vec K) :=
  if 3 < l.length then .error .ub
  else .ok ((List.range 3).map fun i : Nat => l[i]?)

/-- src/driver/driver.cpp:535-564: a source of type `initial`; an unknown magnitude adds nothing. -/
def buildInitial (s : Src K) : Except Err (Option (Built K)) := do
  let m ← member s.magType
  if m = "gaussian" then
    let ft ← (member s.fieldType).bind assignFieldType
    let spread ← member s.spread
    let center ← member s.center
    let pol ← (member s.polarization).bind assemble3
    let dim ← member s.dimension
    pure (some (.gaussian ft spread center pol dim))
  else if m = "resonant" then
    let ft ← (member s.fieldType).bind assignFieldType
    let pol ← (member s.polarization).bind assemble3
    let modes ← member s.modes
    pure (some (.resonant ft pol modes))
  else if m = "besselj6_2D" then
    let ft ← (member s.fieldType).bind assignFieldType
    let pol ← (member s.polarization).bind assemble3
    pure (some (.bessel2 ft pol))
  else if m = "besselj6_3D" then
    let ft ← (member s.fieldType).bind assignFieldType
    let pol ← (member s.polarization).bind assemble3
    pure (some (.bessel3 ft pol))
  else pure none

/-- src/driver/driver.cpp:565-609: a plane wave.  The mean is left out (modelled in `Verif.Model.Wave`). -/
def buildWave (s : Src K) : Except Err (Option (Built K)) := do
  let spread ← member s.spread
  let pol ← (member s.polarization).bind assemble3
  let prop ← (member s.propagation).bind assemble3
  pure (some (.planewave spread s.frequency pol prop))

/-- src/driver/driver.cpp:610-635: a dipole, without its mean. -/
def buildDipole (s : Src K) : Except Err (Option (Built K)) := do
  let len ← member s.length
  let spread ← member s.spread
  pure (some (.dipole len spread))

/-- src/driver/driver.cpp:535-638: one entry. -/
def buildOne (s : Src K) : Except Err (Option (Built K)) :=
  (member s.type).bind fun t =>
    if t = "initial" then buildInitial s
    else if t = "planewave" then buildWave s
    else if t = "dipole" then buildDipole s
    else .error .throw

/-- src/driver/driver.cpp:531-641 `buildSources`. -/
def buildSources : List (Src K) → Except Err (List (Built K))
  | [] => .ok []
  | s :: ss => (buildOne s).bind fun b => (buildSources ss).bind fun bs => .ok (b.toList ++ bs)

end Dgtd.SourceCfg
