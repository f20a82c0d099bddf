/-
C07, C08, C09: the time loop and the cadence of the probes.
-/
import Verif.Lemmas.TimeLoopCount
import Mathlib.Data.Rat.Floor

set_option linter.unusedSectionVars false

namespace Dgtd.TimeLoop

open Spec

variable {K : Type*} [Field K] [LinearOrder K] [IsStrictOrderedRing K] [FloorRing K]

/-- **C07** (and the trace used by C08).  For every positive step, every non-negative final time,
every ODE integrator and every set of probes with a usable interval, construction succeeds and `run`
terminates after exactly `stepCount` steps — never earlier, never later, with any larger allowance
giving the same result.  On return the time is not beyond the final time and less than `1e-8` steps
short of it, and the fields are the result of consecutive ODE steps between consecutive instants. -/
theorem C07_run_reaches_final_time {σ : Type*} (ode : K → K → σ → σ) (dt final : K) (f0 : σ)
    (ps : List (Probe K)) (hdt : 0 < dt) (hF : 0 ≤ final)
    (hps : ∀ p ∈ ps, p.steps ≠ 0 ∨ 0 < p.saves) :
    ∃ s0 s, construct dt final f0 ps = some s0 ∧
      (∀ fuel, stepCount dt final ≤ fuel → run ode dt final fuel s0 = .done s) ∧
      (∀ fuel, fuel < stepCount dt final → run ode dt final fuel s0 = .outOfFuel) ∧
      s.time ≤ final ∧ final - s.time < 1 / 100000000 * dt ∧
      s.fields = fieldsAt ode dt final f0 (stepCount dt final) := by
  set ps' := ps.map (recalculate final dt) with hps'
  have hk : ∀ p ∈ ps', p.steps ≠ 0 := by
    intro p hp
    obtain ⟨q, hq, rfl⟩ := List.mem_map.mp hp
    unfold recalculate
    rw [if_neg (not_le.mpr hdt)]
    by_cases hs : q.saves > 0
    · rw [if_pos hs]
      simp only [stepsFromSaves, if_neg (not_le.mpr hs)]
      have := Int.le_max_left 1 ((totalSteps final dt).tdiv q.saves)
      omega
    · rw [if_neg hs]
      rcases hps q hq with h | h
      · exact h
      · exact absurd h hs
  refine ⟨simAt ode dt final f0 ps' 0, simAt ode dt final f0 ps' (stepCount dt final), ?_, ?_, ?_, ?_, ?_, rfl⟩
  · exact updateProbes_zero ode hF f0 ps' hk
  · intro fuel hf
    refine run_simAt ode hdt f0 ps' hk _ ?_ ?_ (stepCount dt final) 0 fuel (by omega) hf
    · rw [← Bool.not_eq_true, keepGoing_iff hdt]; omega
    · intro c hc; exact (keepGoing_iff hdt c).mpr hc
  · intro fuel hf
    suffices H : ∀ fuel n, fuel + n < stepCount dt final →
        run ode dt final fuel (simAt ode dt final f0 ps' n) = .outOfFuel from H fuel 0 (by omega)
    intro fuel
    induction fuel with
    | zero =>
      intro n hn
      have hg := (keepGoing_iff (final := final) hdt n).mpr (by omega)
      unfold run
      have : keepGoing dt final (simAt ode dt final f0 ps' n).time = true := hg
      rw [if_pos this]
    | succ m ih =>
      intro n hn
      have hg := (keepGoing_iff (final := final) hdt n).mpr (by omega)
      unfold run
      have : keepGoing dt final (simAt ode dt final f0 ps' n).time = true := hg
      rw [if_pos this]
      simp only [step_simAt ode hdt f0 ps' hk n hg]
      exact ih (n + 1) (by omega)
  · exact min_le_right _ _
  · have h : ¬ keepGoing dt final (instant dt final (stepCount dt final)) = true := by
      rw [keepGoing_iff hdt]; omega
    unfold keepGoing at h
    have h := of_decide_eq_false (Bool.not_eq_true _ ▸ h)
    have e : (slack : K) = 1 / 100000000 := rfl
    rw [e] at h
    change final - instant dt final (stepCount dt final) < _
    linarith [not_le.mp h]

/-- **C07** (violated for a negative step).  The options allow a negative `time_step` (no check in
`checkOptionsAreValid`); then `run` never returns, whatever the allowance. -/
theorem C07_negative_step_never_returns {σ : Type*} (ode : K → K → σ → σ) (dt final : K) (f0 : σ)
    (hdt : dt < 0) (hF : 0 ≤ final) (fuel : Nat) :
    ∃ s0, construct dt final f0 [] = some s0 ∧ run ode dt final fuel s0 = .outOfFuel := by
  refine ⟨{ time := 0, fields := f0, cycle := 1, probes := [] }, rfl, ?_⟩
  suffices H : ∀ fuel (s : Sim K σ), s.probes = [] → s.time ≤ 0 →
      run ode dt final fuel s = .outOfFuel from H fuel _ rfl (le_refl 0)
  have key : ∀ t : K, t ≤ 0 → keepGoing dt final t = true := by
    intro t ht
    apply decide_eq_true
    have := mul_neg_of_pos_of_neg (slack_pos (K := K)) hdt
    linarith
  intro fuel
  induction fuel with
  | zero => intro s _ ht; unfold run; rw [if_pos (key _ ht)]
  | succ n ih =>
    intro s hp ht
    unfold run
    rw [if_pos (key _ ht)]
    have : step ode dt final s = some
        { time := s.time + trueDt dt final s.time,
          fields := ode s.time (trueDt dt final s.time) s.fields, cycle := s.cycle + 1, probes := [] } := by
      simp [step, updateProbes, hp]
    rw [this]
    apply ih _ rfl
    have : trueDt dt final s.time ≤ dt := min_le_left _ _
    change s.time + trueDt dt final s.time ≤ 0
    linarith

/-- **C08**.  After construction and a whole run every probe has, after what it held before, exactly
the records of the instants that are due: those numbered by a multiple of its interval and the final
one.  (`steps` is the interval in force, after `saves` was converted.) -/
theorem C08_probe_records {σ : Type*} (ode : K → K → σ → σ) (dt final : K) (f0 : σ)
    (ps : List (Probe K)) (hdt : 0 < dt) (hF : 0 ≤ final)
    (hps : ∀ p ∈ ps, p.steps ≠ 0 ∨ 0 < p.saves) :
    ∃ s0 s, construct dt final f0 ps = some s0 ∧
      (∀ fuel, stepCount dt final ≤ fuel → run ode dt final fuel s0 = .done s) ∧
      s.probes = (ps.map (recalculate final dt)).map fun p =>
        { p with recs := p.recs ++
            if p.owned then records dt final p.steps (stepCount dt final) else [] } := by
  obtain ⟨s0, s, h1, h2, -⟩ := C07_run_reaches_final_time ode dt final f0 ps hdt hF hps
  refine ⟨s0, s, h1, h2, ?_⟩
  set ps' := ps.map (recalculate final dt) with hps'
  have hk : ∀ p ∈ ps', p.steps ≠ 0 := by
    intro p hp
    obtain ⟨q, hq, rfl⟩ := List.mem_map.mp hp
    unfold recalculate
    rw [if_neg (not_le.mpr hdt)]
    by_cases hs : q.saves > 0
    · rw [if_pos hs]
      simp only [stepsFromSaves, if_neg (not_le.mpr hs)]
      have := Int.le_max_left 1 ((totalSteps final dt).tdiv q.saves)
      omega
    · rw [if_neg hs]
      rcases hps q hq with h | h
      · exact h
      · exact absurd h hs
  have h0 := updateProbes_zero ode (dt := dt) hF f0 ps' hk
  have e0 : s0 = simAt ode dt final f0 ps' 0 := by
    have : construct dt final f0 ps = some (simAt ode dt final f0 ps' 0) := h0
    rw [this] at h1; exact (Option.some.inj h1).symm
  have h3 := run_simAt ode hdt f0 ps' hk (stepCount dt final)
    (by rw [← Bool.not_eq_true, keepGoing_iff hdt]; omega)
    (fun c hc => (keepGoing_iff hdt c).mpr hc) (stepCount dt final) 0 (stepCount dt final)
    (by omega) (le_refl _)
  have h4 := h2 (stepCount dt final) (le_refl _)
  rw [e0, h3] at h4
  have e1 : s = simAt ode dt final f0 ps' (stepCount dt final) := (Outcome.done.inj h4).symm
  rw [e1]; rfl

/-- **C08**, first instant: instant 0 is always recorded. -/
theorem C08_first_instant_recorded (dt final : K) (k : Int) (n : Nat) (hF : 0 ≤ final) :
    (0, (0 : K)) ∈ records dt final k n := by
  unfold records
  rw [List.mem_map]
  exact ⟨0, by simp [due], by rw [instant_zero hF]⟩

/-- **C08**, last instant: provided the step is at most one time unit, the last instant of the run
is recorded whatever the interval. -/
theorem C08_last_instant_recorded_partial (dt final : K) (k : Int) (hdt : 0 < dt) (h1 : dt ≤ 1) :
    (stepCount dt final, instant dt final (stepCount dt final)) ∈
      records dt final k (stepCount dt final) := by
  unfold records
  rw [List.mem_map]
  refine ⟨stepCount dt final, ?_, rfl⟩
  rw [List.mem_filter]
  refine ⟨by simp, ?_⟩
  have h : ¬ keepGoing dt final (instant dt final (stepCount dt final)) = true := by
    rw [keepGoing_iff hdt]; omega
  unfold keepGoing at h
  have h := not_le.mp (of_decide_eq_false (Bool.not_eq_true _ ▸ h))
  have e : (slack : K) = 1 / 100000000 := rfl
  rw [e] at h
  unfold due
  rw [Bool.or_eq_true]
  left
  apply decide_eq_true
  rw [abs_sub_comm, abs_of_nonneg (by unfold instant; linarith [min_le_right ((stepCount dt final : K) * dt) final])]
  have : (1 / 100000000 : K) * dt ≤ 1 / 100000000 := by
    have p : (0 : K) ≤ 1 / 100000000 := by positivity
    nlinarith
  linarith

/-- **C08** (violated for steps longer than one time unit): with a step of 10 and a final time of
`20 + 5e-8` the run ends after two steps and a probe of interval 100 has only its first record. -/
theorem C08_last_instant_missed :
    stepCount (10 : ℚ) (20 + 5 / 100000000) = 2 ∧
    records (10 : ℚ) (20 + 5 / 100000000) 100 2 = [(0, 0)] := by
  constructor <;> decide +kernel

/-- **C09**: a probe that asks for `s > 0` saves gets an interval of at least one; over a whole run
it makes at least `s` records if the run is at least `s` nominal steps long, and never more than
`2 s + 2`, provided the step is not shorter than the `1e-8` resolution of the final-time test. -/
theorem C09_saves_bounds (dt final : K) (p : Probe K) (hdt : 0 < dt) (hF : 0 ≤ final)
    (hs : 0 < p.saves) :
    1 ≤ (recalculate final dt p).steps ∧
    (p.saves ≤ ⌈final / dt⌉ →
      p.saves ≤ (records dt final (recalculate final dt p).steps (stepCount dt final)).length) ∧
    (1 / 100000000 ≤ dt →
      ((records dt final (recalculate final dt p).steps (stepCount dt final)).length : Int)
        ≤ 2 * p.saves + 2) := by
  set T := totalSteps final dt with hT
  have hT0 : 0 ≤ T := by
    rw [hT]; unfold totalSteps
    exact Int.ceil_nonneg (div_nonneg hF hdt.le)
  have hsteps : (recalculate final dt p).steps = max 1 (T / p.saves) := by
    unfold recalculate
    rw [if_neg (not_le.mpr hdt), if_pos hs]
    simp only [stepsFromSaves, if_neg (not_le.mpr hs)]
    rw [Int.tdiv_eq_ediv_of_nonneg hT0]
  rw [hsteps]
  set k := max 1 (T / p.saves) with hk
  have hk1 : 1 ≤ k := le_max_left _ _
  obtain ⟨k', hk'⟩ : ∃ k' : Nat, k = (k' : Int) := ⟨k.toNat, by omega⟩
  have hk'1 : 0 < k' := by omega
  set N := stepCount dt final with hN
  have hNT : (N : Int) ≤ T := by
    have := stepCount_le_total (dt := dt) (final := final); omega
  have hTN : T ≤ N + 1 := total_le_stepCount_succ
  have hlen : (records dt final k N).length =
      ((List.range (N + 1)).filter (due dt final k)).length := by simp [records]
  refine ⟨hk1, ?_, ?_⟩
  · intro hsT
    change p.saves ≤ T at hsT
    have hge := length_filter_or_ge
      (fun c => decide (|instant dt final c - final| < 1 / 100000000))
      (fun c => decide (k ∣ ((c : Nat) : Int))) (List.range (N + 1))
    rw [hlen]
    have hcount : ((List.range (N + 1)).filter fun c => decide (k ∣ ((c : Nat) : Int))).length
        = N / k' + 1 := by rw [hk']; exact length_filter_dvd k' N hk'1
    rw [hcount] at hge
    have hdue : (due dt final k) = fun c => decide (|instant dt final c - final| < 1 / 100000000) ||
        decide (k ∣ ((c : Nat) : Int)) := rfl
    rw [hdue]
    have h5 : p.saves ≤ (N / k' : Nat) + 1 := by
      have hks : k * p.saves ≤ T := by
        have : k = T / p.saves := by
          rw [hk]; apply max_eq_right
          exact (Int.le_ediv_iff_mul_le hs).mpr (by omega)
        rw [this]; exact Int.ediv_mul_le T (by omega)
      have : p.saves - 1 ≤ ((N : Int) / k) := by
        rw [Int.le_ediv_iff_mul_le (by omega)]
        nlinarith
      rw [hk'] at this
      push_cast
      omega
    push_cast at h5
    have := (Int.ofNat_le.mpr hge)
    push_cast at this
    omega
  · intro hres
    rw [hlen]
    have hle := length_filter_or_le
      (fun c => decide (|instant dt final c - final| < 1 / 100000000))
      (fun c => decide (k ∣ ((c : Nat) : Int))) (List.range (N + 1))
    have hcount : ((List.range (N + 1)).filter fun c => decide (k ∣ ((c : Nat) : Int))).length
        = N / k' + 1 := by rw [hk']; exact length_filter_dvd k' N hk'1
    have hnear : ((List.range (N + 1)).filter
        fun c => decide (|instant dt final c - final| < 1 / 100000000)).length ≤ 2 := by
      apply length_filter_range_le
      intro c hc
      apply decide_eq_false
      rw [not_lt]
      have hg : keepGoing dt final (instant dt final (c + 1)) = true :=
        (keepGoing_iff hdt (c + 1)).mpr (by omega)
      have h1 := lt_of_keepGoing hdt hg
      rw [instant_of_keepGoing hdt hg] at h1
      have h2 : instant dt final c ≤ c * dt := min_le_left _ _
      push_cast at h1
      rw [abs_sub_comm, abs_of_nonneg (by nlinarith)]
      nlinarith
    rw [hcount] at hle
    have hdue : (due dt final k) = fun c => decide (|instant dt final c - final| < 1 / 100000000) ||
        decide (k ∣ ((c : Nat) : Int)) := rfl
    rw [hdue]
    have h6 : ((N / k' : Nat) : Int) ≤ 2 * p.saves - 1 := by
      have hTk : T < k * (2 * p.saves) := by
        have a1 : T < (T / p.saves + 1) * p.saves := Int.lt_ediv_add_one_mul_self T hs
        have a2 : T / p.saves ≤ k := le_max_right _ _
        nlinarith
      have : (N : Int) / k < 2 * p.saves := by
        apply Int.ediv_lt_of_lt_mul (by omega)
        nlinarith
      rw [hk'] at this
      push_cast
      omega
    have := (Int.ofNat_le.mpr hle)
    push_cast at this
    push_cast at h6
    omega

/-! Non-vacuity: a step of 0.3 up to 1.0 with a probe of interval 2 and one asking for 2 saves. -/

example : (∀ p ∈ [(⟨2, 0, true, []⟩ : Probe ℚ), ⟨0, 2, true, []⟩], p.steps ≠ 0 ∨ 0 < p.saves) ∧
    stepCount (3 / 10 : ℚ) 1 = 4 ∧
    records (3 / 10 : ℚ) 1 2 4 = [(0, 0), (2, 6 / 10), (4, 1)] ∧
    (recalculate (1 : ℚ) (3 / 10) ⟨0, 2, true, []⟩).steps = 2 := by
  refine ⟨by decide, ?_, ?_, ?_⟩ <;> decide +kernel

/-- The same case run by the model itself. -/
example : (match construct (K := ℚ) (3 / 10) 1 (0 : Nat) [⟨2, 0, true, []⟩] with
    | none => none
    | some s0 => match run (fun _ _ n => n + 1) (3 / 10) 1 10 s0 with
      | .done s => some (s.time, s.fields, s.probes)
      | _ => none) = some (1, 4, [⟨2, 0, true, [(0, 0), (2, 6 / 10), (4, 1)]⟩]) := by
  decide +kernel

end Dgtd.TimeLoop
