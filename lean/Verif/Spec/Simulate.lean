/-
Specification of a whole simulation: which fields the solver went through, and what its probes have recorded of them.
-/
import Verif.Model.Simulate
import Verif.Spec.TimeLoop
import Verif.Spec.Slot
import Verif.Spec.Uniform

namespace Dgtd.Simulate.Spec
open Dgtd.TimeLoop.Spec Dgtd.Simulate
open Dgtd.Op Dgtd.Galerkin Dgtd.Galerkin.Spec
open Dgtd.Config (Material)
open Dgtd.Implicit (flat unflat Slot)
open MvPolynomial

noncomputable section

variable {V S R : Type}

/-- Probes whose interval can be used: it is not zero, or the number of saves is given instead. -/
def Usable (ps : List (Probe V R)) : Prop := ∀ p ∈ ps, p.steps ≠ 0 ∨ 0 < p.saves

/-- What a probe records over the instants `0 … N` of a simulation whose fields are `x 0`, `x 1`, …: its reading of the fields at every instant
that is due. -/
def readings (dt final : ℝ) (x : Nat → V) (N : Nat) (p : Probe V R) : List (Nat × ℝ × R) :=
  if p.owned then (records dt final p.steps N).map fun r => (r.1, r.2, p.read (x r.1)) else []

/-- The probe after them. -/
def probeAfter (dt final : ℝ) (x : Nat → V) (N : Nat) (p : Probe V R) : Probe V R := { p with recs := p.recs ++ readings dt final x N p }

/-- The sizes of the steps between the instants `0 … k`. -/
def stepsTo (dt final : ℝ) (k : Nat) : List ℝ := (List.range k).map fun i => instant dt final (i + 1) - instant dt final i

/-- A solver that has finished, having gone through the fields `x 0`, `x 1`, …: time, fields and the records of the probes `ps`. -/
structure Finished (dt final : ℝ) (ps : List (Probe V R)) (x : Nat → V) (s : Sim V S R) : Prop where
  time : s.time = instant dt final (stepCount dt final)
  fields : s.fields = x (stepCount dt final)
  probes : s.probes = ps.map fun p => probeAfter dt final x (stepCount dt final) (recalculate final dt p)

/-- At every instant the fields are within `b t` of the solution `F` of Maxwell's equations, in the norm of the energy. -/
def Tracks {n : Nat} {ι : Type} [Fintype ι] (S : Setup n ι) (ms : List (Int × Material ℝ)) (node : Elem n ι ℝ → Nat → Fin (n + 1) → ℝ)
    (F : Solution n ι) (dt final : ℝ) (y : Nat → State ι ℝ) (b : ℝ → ℝ) : Prop :=
  ∀ k ≤ stepCount dt final, ∀ w, Sampled S node F (instant dt final k) w →
    √(fieldEnergy S ms (y k - w)) ≤ b (instant dt final k)

/-- Reading of one component of the fields at a point `x` of an element, in the coordinates of the reference element. -/
def point {n : Nat} {ι : Type} (c : Cell n ι) (x : Fin (n + 1) → ℝ) (f : FieldT) (d : Dir) : (Slot ι → ℝ) → ℝ :=
  fun v => eval x (onElem c.e (unflat v f d))

/-- Everything recorded by probes of a component at a point is within `b t` of the solution `F` of Maxwell's equations, at that point and at the
time `t` of the record. -/
def Right {n : Nat} {ι : Type} (S : Setup n ι) (F : Solution n ι) (b : ℝ → ℝ) {C : Type} (s : Sim (Slot ι → ℝ) C ℝ) : Prop :=
  ∀ pr ∈ s.probes, ∀ c ∈ S.cells, ∀ x, InSimplex x → ∀ f d, pr.read = point c x f d →
    ∀ r ∈ pr.recs, |r.2.2 - F c.e f d (r.2.1, fun k => eval x (c.e.geom k))| ≤ b r.2.1

end

end Dgtd.Simulate.Spec
