/-
What it means that a run on several ranks ends, whatever the order in which the ranks move.
-/
import Verif.Model.Collective

namespace Dgtd.Coll.Spec

open Dgtd.Coll

variable {ι : Type*} [DecidableEq ι]

/-- A schedule: `n` things happen, one after the other, in some order of the ranks. -/
inductive Path (G : ι → ι → Prop) : ℕ → (ι → Rank) → (ι → Rank) → Prop
  | nil (σ : ι → Rank) : Path G 0 σ σ
  | snoc {n : ℕ} {σ τ τ' : ι → Rank} (h : Path G n σ τ) (hs : Step G τ τ') : Path G (n + 1) σ τ'

/-- All ranks have reached the end of their programs. -/
def Finished (σ : ι → Rank) : Prop := ∀ r, (σ r).prog = .done

/-- However the ranks are scheduled, the run ends: no schedule is longer than some bound, and where a
schedule cannot go on, all ranks have finished. -/
def Completes (G : ι → ι → Prop) (σ : ι → Rank) : Prop :=
  ∃ N, ∀ n τ, Path G n σ τ → n ≤ N ∧ (Finished τ ∨ ∃ τ', Step G τ τ')

/-- However the ranks are scheduled, some rank never reaches the end. -/
def NeverEnds (G : ι → ι → Prop) (σ : ι → Rank) : Prop := ∀ n τ, Path G n σ τ → ¬ Finished τ

/-- The calls a rank has completed. -/
def calls (r : Rank) : List Op := r.log.map Prod.fst

/-- The number a rank contributed to its call number `j`. -/
def gave (r : Rank) (j : ℕ) : ℚ := ((r.log[j]?).map fun e => e.2.1).getD 0

/-- The cadences of the probes are usable. -/
def Usable (c : Case) : Prop := ∀ n ∈ c.exporters ++ c.snapshots ++ c.others, n ≠ 0

/-- The operator offers what the integrator asks for. -/
def Offers (c : Case) : Prop := c.integrator = .rk4 ∨ c.op = .global

end Dgtd.Coll.Spec
