/-
The solver that keeps what its probes read goes through the states the integrator gives.
-/
import Verif.Spec.Simulate
import Verif.Lemmas.TimeLoopCount
import Verif.Props.TimeInt

set_option linter.unusedSectionVars false

namespace Dgtd.Simulate
open Dgtd.TimeLoop (gate trueDt keepGoing totalSteps stepsFromSaves Outcome instant_zero instant_succ trueDt_eq gate_eq_due keepGoing_iff
  mapM_some_map instant_of_keepGoing)
open Dgtd.TimeLoop.Spec Dgtd.Simulate.Spec
open Dgtd.TimeInt (Tdo Ode)
open Dgtd.Implicit (Sdirk)

noncomputable section

variable {V S R : Type}

lemma updateProbe_succ {dt final : ℝ} (x : Nat → V) (k : Nat) (p : Probe V R) (hk : p.steps ≠ 0) :
    updateProbe final (k + 1) (instant dt final (k + 1)) (x (k + 1)) (probeAfter dt final x k p) = some (probeAfter dt final x (k + 1) p) := by
  unfold updateProbe
  have : (probeAfter dt final x k p).steps = p.steps := rfl
  rw [this, gate_eq_due hk]
  cases ho : p.owned <;> cases hd : due dt final p.steps (k + 1) <;>
    simp [probeAfter, readings, ho, hd, TimeLoop.records_succ]

lemma updateProbe_zero {dt final : ℝ} (hF : 0 ≤ final) (x : Nat → V) (p : Probe V R) (hk : p.steps ≠ 0) :
    updateProbe final 0 0 (x 0) p = some (probeAfter dt final x 0 p) := by
  unfold updateProbe
  have := gate_eq_due (dt := dt) (final := final) hk 0
  rw [instant_zero hF] at this
  rw [this]
  rcases p with ⟨k, sv, o, rd, r⟩
  cases o <;> cases hd : due dt final k 0 <;>
    simp [probeAfter, readings, hd, records, instant_zero hF]

/-- The solver after `k` steps. -/
def simAt (dt final : ℝ) (x : Nat → V) (c : Nat → S) (ps : List (Probe V R)) (k : Nat) : Sim V S R :=
  { time := instant dt final k, fields := x k, cache := c k, cycle := k + 1, probes := ps.map (probeAfter dt final x k) }

lemma updateProbes_zero {dt final : ℝ} (hF : 0 ≤ final) (x : Nat → V) (c : Nat → S) (ps : List (Probe V R)) (hps : ∀ p ∈ ps, p.steps ≠ 0) :
    updateProbes final { time := 0, fields := x 0, cache := c 0, cycle := 0, probes := ps } = some (simAt dt final x c ps 0) := by
  unfold updateProbes simAt
  have := mapM_some_map (updateProbe final 0 0 (x 0)) id (probeAfter dt final x 0) ps (fun p hp => updateProbe_zero hF x p (hps p hp))
  simp only [List.map_id] at this
  simp [this, instant_zero hF]

variable [AddCommGroup V] [Module ℝ V]

lemma step_simAt {q : Sdirk ℝ} {o : Ode} {F : Tdo V S} {dt final : ℝ} (hdt : 0 < dt) (x : Nat → V) (c : Nat → S) (ps : List (Probe V R))
    (hps : ∀ p ∈ ps, p.steps ≠ 0) (k : Nat) (hgo : keepGoing dt final (instant dt final k) = true)
    (h : TimeInt.step q o F (x k) (instant dt final k) (instant dt final (k + 1) - instant dt final k) (c k) =
      some (x (k + 1), instant dt final (k + 1), c (k + 1))) :
    step q o F dt final (simAt dt final x c ps k) = some (simAt dt final x c ps (k + 1)) := by
  unfold step simAt
  simp only [trueDt_eq hdt hgo, h, updateProbes]
  rw [mapM_some_map _ _ (probeAfter dt final x (k + 1)) ps (fun p hp => updateProbe_succ x k p (hps p hp))]

lemma run_simAt {q : Sdirk ℝ} {o : Ode} {F : Tdo V S} {dt final : ℝ} (hdt : 0 < dt) (x : Nat → V) (c : Nat → S) (ps : List (Probe V R))
    (hps : ∀ p ∈ ps, p.steps ≠ 0)
    (h : ∀ k < stepCount dt final, TimeInt.step q o F (x k) (instant dt final k) (instant dt final (k + 1) - instant dt final k) (c k) =
      some (x (k + 1), instant dt final (k + 1), c (k + 1))) :
    ∀ (d k fuel : Nat), k + d = stepCount dt final → d ≤ fuel →
      run q o F dt final fuel (simAt dt final x c ps k) = .done (simAt dt final x c ps (stepCount dt final)) := by
  intro d
  induction d with
  | zero =>
    intro k fuel hk _
    obtain rfl : k = stepCount dt final := by omega
    have hs : keepGoing dt final (instant dt final (stepCount dt final)) = false := by
      rw [← Bool.not_eq_true, keepGoing_iff hdt]; omega
    unfold run
    have : keepGoing dt final (simAt dt final x c ps (stepCount dt final)).time = false := hs
    simp [this]
  | succ d ih =>
    intro k fuel hk hf
    obtain ⟨fuel, rfl⟩ : ∃ m, fuel = m + 1 := ⟨fuel - 1, by omega⟩
    have hg : keepGoing dt final (instant dt final k) = true := (keepGoing_iff hdt k).2 (by omega)
    unfold run
    have : keepGoing dt final (simAt dt final x c ps k).time = true := hg
    rw [if_pos this]
    simp only [step_simAt hdt x c ps hps k hg (h k (by omega))]
    exact ih (k + 1) fuel (by omega) (by omega)

lemma stepsTo_succ (dt final : ℝ) (k : Nat) :
    stepsTo dt final (k + 1) = stepsTo dt final k ++ [instant dt final (k + 1) - instant dt final k] := by
  simp [stepsTo, List.range_succ]

lemma instant_lt {dt final : ℝ} (hdt : 0 < dt) {k : Nat} (hk : k < stepCount dt final) : instant dt final k = k * dt :=
  instant_of_keepGoing hdt ((keepGoing_iff hdt k).2 hk)

/-- All the steps have the same size, except perhaps the last. -/
lemma stepsTo_eq {dt final : ℝ} (hdt : 0 < dt) {k : Nat} (hk : k < stepCount dt final) :
    stepsTo dt final (k + 1) = List.replicate k dt ++ [instant dt final (k + 1) - k * dt] := by
  rw [stepsTo_succ, instant_lt hdt hk]
  congr 1
  refine List.eq_replicate_iff.2 ⟨by simp [stepsTo], fun b hb => ?_⟩
  obtain ⟨i, hi, rfl⟩ := List.mem_map.1 hb
  have hi := List.mem_range.1 hi
  rw [instant_lt hdt (show i + 1 < stepCount dt final by omega), instant_lt hdt (show i < stepCount dt final by omega)]
  push_cast; ring

lemma stepsTo_sum {dt final : ℝ} (hF : 0 ≤ final) (k : Nat) : (stepsTo dt final k).sum = instant dt final k := by
  induction k with
  | zero => simp [stepsTo, instant_zero hF]
  | succ k ih => rw [stepsTo_succ, List.sum_append, ih]; simp

lemma last_bounds {dt final : ℝ} (hdt : 0 < dt) {k : Nat} (hk : k < stepCount dt final) :
    0 ≤ instant dt final (k + 1) - k * dt ∧ instant dt final (k + 1) - k * dt ≤ dt := by
  have h1 : (k : ℝ) * dt ≤ final := by
    have := instant_lt hdt hk
    unfold instant at this
    rw [← this]; exact min_le_right _ _
  have h2 : instant dt final (k + 1) ≤ (k + 1 : ℝ) * dt := by
    have : instant dt final (k + 1) ≤ ((k + 1 : Nat) : ℝ) * dt := min_le_left _ _
    push_cast at this; exact this
  have h3 : (k : ℝ) * dt ≤ instant dt final (k + 1) := le_min (by push_cast; nlinarith) h1
  constructor <;> linarith

lemma stepsTo_bounds {dt final : ℝ} (hdt : 0 < dt) {k : Nat} (hk : k ≤ stepCount dt final) : ∀ d ∈ stepsTo dt final k, 0 ≤ d ∧ d ≤ dt := by
  intro d hd
  obtain ⟨i, hi, rfl⟩ := List.mem_map.1 hd
  have hi := List.mem_range.1 hi
  have := last_bounds hdt (show i < stepCount dt final by omega)
  rw [instant_lt hdt (show i < stepCount dt final by omega)]
  exact this

/-- If the integrator gets through the steps up to every instant, the solver goes through the same states, whatever its probes are. -/
lemma run_of {q : Sdirk ℝ} {o : Ode} {F : Tdo V S} {dt final : ℝ} (hdt : 0 < dt) (hF : 0 ≤ final) (x : Nat → V) (c0 : S)
    (h : ∀ k ≤ stepCount dt final, ∃ c, TimeInt.run q o F (stepsTo dt final k) (x 0) 0 c0 = some (x k, instant dt final k, c)) :
    ∃ c : Nat → S, c 0 = c0 ∧ ∀ k < stepCount dt final,
      TimeInt.step q o F (x k) (instant dt final k) (instant dt final (k + 1) - instant dt final k) (c k) =
        some (x (k + 1), instant dt final (k + 1), c (k + 1)) := by
  classical
  have h' : ∀ k, ∃ c, k ≤ stepCount dt final → TimeInt.run q o F (stepsTo dt final k) (x 0) 0 c0 = some (x k, instant dt final k, c) := by
    intro k
    by_cases hk : k ≤ stepCount dt final
    · obtain ⟨c, hc⟩ := h k hk; exact ⟨c, fun _ => hc⟩
    · exact ⟨c0, fun h => absurd h hk⟩
  choose c hc using h'
  refine ⟨c, ?_, fun k hk => ?_⟩
  · have := hc 0 (Nat.zero_le _)
    simp only [stepsTo, List.range_zero, List.map_nil, TimeInt.run, Option.some.injEq, Prod.mk.injEq] at this
    exact this.2.2.symm
  · have h1 := hc (k + 1) hk
    rw [stepsTo_succ, TimeInt.run_append, hc k hk.le, Option.bind_some] at h1
    simp only [TimeInt.run] at h1
    cases e : TimeInt.step q o F (x k) (instant dt final k) (instant dt final (k + 1) - instant dt final k) (c k) with
    | none => rw [e] at h1; simp at h1
    | some r => rw [e] at h1; simpa using h1

end

end Dgtd.Simulate
