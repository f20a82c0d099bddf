/-
Model of the numbers that the code writes as decimal text: `std::ostream << double` and `std::to_string`.

A finite `double` is a rational number.  A printed number is kept as sign, digits and exponent; the characters (decimal
point, letter `e`, padding of the exponent) are not modelled, nor is the sign of a negative zero.
-/
import Verif.Model.Assoc
import Mathlib.Data.Int.Log
import Mathlib.Algebra.Order.Field.Rat
import Mathlib.Data.Rat.Floor
import Mathlib.Tactic.Linarith
import Mathlib.Tactic.Ring
import Mathlib.Tactic.FieldSimp
import Mathlib.Tactic.NormNum

namespace Dgtd.Decimal

/-- Rounding of the exact value to an integer as the C library does when it prints: to nearest, ties to even.
(src/solver/ProbesManager.cpp:368-369, 404-407) -/
def roundEven (q : ℚ) : ℤ :=
  if q - ⌊q⌋ < 1 / 2 then ⌊q⌋
  else if 1 / 2 < q - ⌊q⌋ then ⌊q⌋ + 1
  else if ⌊q⌋ % 2 = 0 then ⌊q⌋ else ⌊q⌋ + 1

/-- A number printed with an exponent. (src/solver/ProbesManager.cpp:213, 251, 368, 404) -/
structure Sci where
  neg  : Bool
  mant : ℤ
  exp  : ℤ
deriving DecidableEq

/-- `std::scientific << std::setprecision(p)` (src/solver/ProbesManager.cpp:213, 251, 368, 404, 643; the default format of a
stream, used for `time.txt` in lines 453 and 495, prints the same digits for `p = 5`). -/
def sci (p : ℕ) (x : ℚ) : Sci :=
  if x = 0 then ⟨false, 0, 0⟩
  else
    let k := Int.log 10 |x|
    let n := roundEven (|x| / 10 ^ (k - p))
    if n = 10 ^ (p + 1) then ⟨decide (x < 0), 10 ^ p, k + 1⟩ else ⟨decide (x < 0), n, k⟩

/-- The number that a printed text denotes. (src/solver/ProbesManager.cpp:368-369, 404-407) -/
def Sci.value (p : ℕ) (d : Sci) : ℚ := (if d.neg then -1 else 1) * d.mant * 10 ^ (d.exp - p)

/-- `std::to_string(double)`: sign and number of millionths (src/components/RCSSurfacePostProcessor.cpp:458-459,
src/components/RCSManager.cpp:205, 234). -/
structure Fixed where
  neg   : Bool
  units : ℤ
deriving DecidableEq

/-- `std::to_string(double)`: six digits after the point. (src/solver/ProbesManager.cpp:214, 252) -/
def toStr (x : ℚ) : Fixed := ⟨decide (x < 0), roundEven (|x| * 1000000)⟩

/-- `std::round`: to nearest, ties away from zero. (src/solver/ProbesManager.cpp:331) -/
def roundAway (q : ℚ) : ℤ := if 0 ≤ q then ⌊q + 1 / 2⌋ else ⌈q - 1 / 2⌉

/-- src/solver/ProbesManager.cpp:331: the time of a visualisation frame. -/
def frameTime (t : ℚ) : ℚ := (roundAway (t * 1000) : ℚ) / 1000

/-! ### Snapshots for reduction -/

/-- A line of a snapshot: a number or a count. (src/solver/ProbesManager.cpp:641-650) -/
inductive Line where
  | num (d : Sci)
  | count (n : ℕ)
deriving DecidableEq

/-- src/solver/ProbesManager.cpp:641-650: the content of a snapshot. -/
def morFile (time : ℚ) (dofs : List ℚ) : List Line :=
  Line.num (sci 16 time) :: Line.count dofs.length :: dofs.map fun x => Line.num (sci 16 x)

/-- src/solver/ProbesManager.cpp:623, 639-641: the path of a snapshot does not mention the rank, and opening it truncates
it.  The ranks of a run write one after the other (writes that overlap in time are not modelled); `ranks` are the degrees
of freedom of the ranks in the order in which they write. -/
def morShared (time : ℚ) (ranks : List (List ℚ)) : Option (List Line) :=
  ranks.foldl (fun _ x => some (morFile time x)) none

/-! ### Result files -/

/-- src/components/RCSSurfacePostProcessor.cpp:456-481: the directions are written one after the other to files whose names carry
their angles; opening a file truncates it.  `rows` is the contents for a direction. -/
def resultFiles {α : Type} (angles : List (ℚ × ℚ)) (rows : ℚ × ℚ → α) : List ((Fixed × Fixed) × α) :=
  angles.foldl (fun fs a => Assoc.assign fs (toStr a.1, toStr a.2) (rows a)) []

end Dgtd.Decimal
