import Verif.Model.SourceCfg

/-
Specification side of the reading of sources.
-/
namespace Dgtd.SourceCfg.Spec
open Dgtd.Config (FieldType)

variable {K : Type}

/-- Types of sources that exist. -/
def knownTypes : List String := ["initial", "planewave", "dipole"]

/-- Magnitudes that an initial field can have. -/
def knownMagnitudes : List String := ["gaussian", "resonant", "besselj6_2D", "besselj6_3D"]

/-- The word for a field. -/
def word : FieldType → String
  | .E => "electric"
  | .H => "magnetic"

/-- The first entries of a description, as many as there are. -/
def Starts (l : List K) (v : Vec K) : Prop := v.length = 3 ∧ l.length ≤ 3 ∧ ∀ (i : Nat) (x : K), l[i]? = some x → v[i]? = some (some x)

/-- A source that says what its description says. -/
def Faithful (s : Src K) : Built K → Prop
  | .gaussian ft sp c pol dim => s.type = some "initial" ∧ s.magType = some "gaussian" ∧ s.fieldType = some (word ft) ∧
      s.spread = some sp ∧ s.center = some c ∧ s.dimension = some dim ∧ ∃ l, s.polarization = some l ∧ Starts l pol
  | .resonant ft pol modes => s.type = some "initial" ∧ s.magType = some "resonant" ∧ s.fieldType = some (word ft) ∧
      s.modes = some modes ∧ ∃ l, s.polarization = some l ∧ Starts l pol
  | .bessel2 ft pol => s.type = some "initial" ∧ s.magType = some "besselj6_2D" ∧ s.fieldType = some (word ft) ∧
      ∃ l, s.polarization = some l ∧ Starts l pol
  | .bessel3 ft pol => s.type = some "initial" ∧ s.magType = some "besselj6_3D" ∧ s.fieldType = some (word ft) ∧
      ∃ l, s.polarization = some l ∧ Starts l pol
  | .planewave sp f pol prop => s.type = some "planewave" ∧ s.spread = some sp ∧ s.frequency = f ∧
      (∃ l, s.polarization = some l ∧ Starts l pol) ∧ ∃ l, s.propagation = some l ∧ Starts l prop
  | .dipole len sp => s.type = some "dipole" ∧ s.length = some len ∧ s.spread = some sp

end Dgtd.SourceCfg.Spec
