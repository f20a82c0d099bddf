import Verif.Model.Mor
import Verif.Spec.TimeLoop

/-
Specification side of the snapshots for model order reduction.
-/
namespace Dgtd.Mor.Spec

variable {K : Type} [Field K] [LinearOrder K] {σ : Type}

/-- Distance between two requested instants. -/
def spacing (p : Probe K) : K := (p.final - p.start) / ((p.saves : K) - 1)

/-- The `k`-th requested instant: equally spaced from the beginning to the end of the window. -/
def target (p : Probe K) (k : Nat) : K := if p.saves > 1 then p.start + (k : K) * spacing p else p.start

/-- How much earlier than requested a snapshot may be: a millionth of the spacing. -/
def early (p : Probe K) : K := if p.saves > 1 ∧ 0 < spacing p then spacing p / 1000000 else 1 / 1000000000000

/-- The window, up to `1e-12` at both ends. -/
def InWindow (p : Probe K) (t : K) : Prop :=
  p.start - 1 / 1000000000000 ≤ t ∧ t ≤ p.final + 1 / 1000000000000

/-- An instant at which the `k`-th snapshot may be taken. -/
def Fit (p : Probe K) (k : Nat) (t : K) : Prop := InWindow p t ∧ target p k - early p ≤ t

instance (p : Probe K) (k : Nat) (t : K) : Decidable (Fit p k t) := by unfold Fit InWindow; infer_instance

end Dgtd.Mor.Spec
