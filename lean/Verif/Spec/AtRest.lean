/-
Vocabulary for C188: a simulation in which nothing has happened yet.
-/
import Verif.Model.SimLayer

namespace Dgtd.AtRest.Spec
open Dgtd.Simulate Dgtd.SgbcEvol

variable {σ R : Type}

/-- No light comes in: the incident field, if there is one, vanishes, and so does what the other ranks deliver while they hold nothing. -/
structure Dark (Y : Sys σ ℝ) : Prop where
  source   : ∀ T, Y.tfsf = some T → ∀ t c v, T.val t c v = 0
  exchange : ∀ c i, Y.nbrData (fun _ => 0) c i = 0

/-- A node of this rank. -/
def Node (Y : Sys σ ℝ) (n : Int) : Prop := 0 ≤ n ∧ n < Y.ndofs

/-- Thin layers without fields, each between two nodes, or behind one. -/
def Resting (Y : Sys σ ℝ) (l : List (St ℝ)) : Prop :=
  ∀ st ∈ l, (∀ k, st.fields k = 0) ∧ Node Y st.pair.1 ∧ (st.pair.2 = -1 ∨ Node Y st.pair.2)

/-- Nothing has happened: no fields outside or inside the layers, and no probe has seen any. -/
structure Empty (Y : Sys σ ℝ) (s : Sim (Nat → ℝ) (Ev σ ℝ) R) : Prop where
  fields : ∀ k, s.fields k = 0
  layers : Resting Y s.cache.states
  seen   : ∀ p ∈ s.probes, ∀ r ∈ p.recs, r.2.2 = p.read fun _ => 0

end Dgtd.AtRest.Spec
