/-
Vocabulary for C192: a case with thin layers that is set up properly.
-/
import Verif.Model.SimLayer
import Verif.Spec.SgbcEvol

namespace Dgtd.Finish.Spec
open Dgtd.SgbcEvol

variable {σ : Type}

/-- A layer between two nodes of this rank, or behind one, with room for its ghost nodes on both sides and a node between them; the number of
sub-steps of a step `dt` fits a 32-bit integer. -/
structure Fits (Y : Sys σ ℝ) (dt : ℝ) (st : St ℝ) : Prop where
  first  : 0 ≤ st.pair.1 ∧ st.pair.1 < Y.ndofs
  second : st.pair.2 ≠ -1 → 0 ≤ st.pair.2 ∧ st.pair.2 < Y.ndofs
  ghosts : 2 * (Y.layers st.tag).G < (Y.layers st.tag).n
  count  : 0 < (Y.layers st.tag).sub → dt / (Y.layers st.tag).sub ≤ 2 ^ 31 - 1

/-- The incident field enters at nodes of this rank or its neighbours. -/
def Enters (Y : Sys σ ℝ) : Prop := ∀ T, Y.tfsf = some T → ∀ i ∈ T.ids, 0 ≤ i ∧ i < Y.B

/-- The inner integrators of the layers always come to an end. -/
def Ends (p : Int → (Nat → ℝ) → ℝ → ℝ → Option (Nat → ℝ)) : Prop := ∀ tag x t d, 0 < d → ∃ y, p tag x t d = some y

end Dgtd.Finish.Spec
