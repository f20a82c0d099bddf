/-
Vocabulary for numbers written as text.
-/
import Verif.Model.Decimal

namespace Dgtd.Decimal.Spec

/-- The finite numbers of IEEE 754 double precision. -/
def IsDouble (x : ℚ) : Prop := ∃ m e : ℤ, |m| < 2 ^ 53 ∧ -1074 ≤ e ∧ e ≤ 971 ∧ x = m * 2 ^ e

/-- A reader of decimal numbers that is correctly rounded: a number below the overflow threshold that is closer to one double
than to all the others is read as that double. -/
def Reads (read : ℚ → ℚ) : Prop :=
  ∀ D x, IsDouble x → |D| < 2 ^ 1024 - 2 ^ 970 → (∀ y, IsDouble y → y ≠ x → |D - x| < |D - y|) → read D = x

/-- Reads a snapshot: an instant, a count, and exactly that many numbers. -/
def readSnapshot (read : ℚ → ℚ) : List Line → Option (ℚ × List ℚ)
  | .num t :: .count n :: rest =>
    if rest.length = n then
      (rest.mapM fun (l : Line) => match l with
        | .num d => some (read (d.value 16))
        | .count _ => none).map fun xs => (read (t.value 16), xs)
    else none
  | _ => none

end Dgtd.Decimal.Spec
