import Verif.Spec.TimeLoop
import Mathlib.Data.List.Basic

set_option linter.unusedSectionVars false

namespace Dgtd.TimeLoop

open Spec

variable {K : Type*} [Field K] [LinearOrder K] [IsStrictOrderedRing K]

lemma slack_pos : (0 : K) < slack := by unfold slack; positivity

lemma slack_lt_one : (slack : K) < 1 := by unfold slack; norm_num

lemma lt_of_keepGoing {dt final t : K} (hdt : 0 < dt) (h : keepGoing dt final t = true) : t < final := by
  unfold keepGoing at h
  have h := of_decide_eq_true h
  have := mul_pos (slack_pos (K := K)) hdt
  linarith

lemma instant_of_keepGoing {dt final : K} (hdt : 0 < dt) {c : Nat}
    (h : keepGoing dt final (instant dt final c) = true) : instant dt final c = c * dt := by
  have := lt_of_keepGoing hdt h
  unfold instant at *
  rcases le_total ((c : K) * dt) final with h1 | h1
  · exact min_eq_left h1
  · rw [min_eq_right h1] at this; exact absurd this (lt_irrefl _)

lemma instant_succ {dt final : K} (hdt : 0 < dt) {c : Nat}
    (h : keepGoing dt final (instant dt final c) = true) :
    instant dt final c + trueDt dt final (instant dt final c) = instant dt final (c + 1) := by
  rw [instant_of_keepGoing hdt h]
  unfold trueDt instant
  rw [← min_add_add_left]
  push_cast
  congr 1 <;> ring

lemma instant_zero {dt final : K} (hF : 0 ≤ final) : instant dt final 0 = 0 := by
  simp [instant, hF]

lemma trueDt_eq {dt final : K} (hdt : 0 < dt) {c : Nat}
    (h : keepGoing dt final (instant dt final c) = true) :
    trueDt dt final (instant dt final c) = instant dt final (c + 1) - instant dt final c := by
  rw [← instant_succ hdt h]; ring

lemma gate_eq_due {dt final : K} {k : Int} (hk : k ≠ 0) (c : Nat) :
    gate final c k (instant dt final c) = some (due dt final k c) := by
  unfold gate due
  have e : (1 / 100000000 : K) = slack := rfl
  rw [e]
  by_cases h : slack ≤ |instant dt final c - final|
  · simp [h, hk, not_lt.mpr h, Int.dvd_iff_emod_eq_zero]
  · simp [h, not_le.mp h]

/-- What a probe looks like after the instants `0 … n`. -/
def probeAfter (dt final : K) (n : Nat) (p : Probe K) : Probe K :=
  { p with recs := p.recs ++ if p.owned then records dt final p.steps n else [] }

omit [IsStrictOrderedRing K] in
lemma records_succ (dt final : K) (k : Int) (n : Nat) :
    records dt final k (n + 1) = records dt final k n ++
      if due dt final k (n + 1) then [(n + 1, instant dt final (n + 1))] else [] := by
  unfold records
  rw [List.range_succ (n := n + 1), List.filter_append, List.map_append]
  by_cases h : due dt final k (n + 1) <;> simp [h]

lemma updateProbe_succ {dt final : K} (n : Nat) (p : Probe K) (hk : p.steps ≠ 0) :
    updateProbe final (n + 1) (instant dt final (n + 1)) (probeAfter dt final n p)
      = some (probeAfter dt final (n + 1) p) := by
  unfold updateProbe
  have : (probeAfter dt final n p).steps = p.steps := rfl
  rw [this, gate_eq_due hk]
  cases ho : p.owned <;> cases hd : due dt final p.steps (n + 1) <;>
    simp [probeAfter, ho, hd, records_succ]

lemma updateProbe_zero {dt final : K} (hF : 0 ≤ final) (p : Probe K) (hk : p.steps ≠ 0) :
    updateProbe final 0 0 p = some (probeAfter dt final 0 p) := by
  unfold updateProbe
  have := gate_eq_due (dt := dt) (final := final) hk 0
  rw [instant_zero hF] at this
  rw [this]
  rcases p with ⟨k, sv, o, r⟩
  cases o <;> cases hd : due dt final k 0 <;>
    simp [probeAfter, hd, records, instant_zero hF]

omit [Field K] [LinearOrder K] [IsStrictOrderedRing K] in
lemma mapM_some_map {α β : Type*} (f : β → Option β) (g h : α → β) (l : List α)
    (H : ∀ a ∈ l, f (g a) = some (h a)) : (l.map g).mapM f = some (l.map h) := by
  induction l with
  | nil => rfl
  | cons a l ih =>
    rw [List.map_cons, List.mapM_cons, H a (by simp), ih (fun b hb => H b (by simp [hb]))]
    rfl

/-- The solver after `n` steps. -/
def simAt {σ : Type*} (ode : K → K → σ → σ) (dt final : K) (f0 : σ) (ps : List (Probe K)) (n : Nat) :
    Sim K σ :=
  { time := instant dt final n
    fields := fieldsAt ode dt final f0 n
    cycle := n + 1
    probes := ps.map (probeAfter dt final n) }

lemma step_simAt {σ : Type*} (ode : K → K → σ → σ) {dt final : K} (hdt : 0 < dt) (f0 : σ)
    (ps : List (Probe K)) (hps : ∀ p ∈ ps, p.steps ≠ 0) (n : Nat)
    (h : keepGoing dt final (instant dt final n) = true) :
    step ode dt final (simAt ode dt final f0 ps n) = some (simAt ode dt final f0 ps (n + 1)) := by
  unfold step updateProbes simAt
  simp only [instant_succ hdt h]
  rw [mapM_some_map _ _ (probeAfter dt final (n + 1)) ps
    (fun p hp => updateProbe_succ n p (hps p hp))]
  simp only [fieldsAt, trueDt_eq hdt h]

lemma updateProbes_zero {σ : Type*} (ode : K → K → σ → σ) {dt final : K} (hF : 0 ≤ final) (f0 : σ)
    (ps : List (Probe K)) (hps : ∀ p ∈ ps, p.steps ≠ 0) :
    updateProbes final { time := 0, fields := f0, cycle := 0, probes := ps }
      = some (simAt ode dt final f0 ps 0) := by
  unfold updateProbes simAt
  have := mapM_some_map (updateProbe final 0 0) id (probeAfter dt final 0) ps
    (fun p hp => updateProbe_zero hF p (hps p hp))
  simp only [List.map_id] at this
  simp [this, instant_zero hF, fieldsAt]

lemma run_simAt {σ : Type*} (ode : K → K → σ → σ) {dt final : K} (hdt : 0 < dt) (f0 : σ)
    (ps : List (Probe K)) (hps : ∀ p ∈ ps, p.steps ≠ 0) (N : Nat)
    (hstop : keepGoing dt final (instant dt final N) = false)
    (hgo : ∀ c < N, keepGoing dt final (instant dt final c) = true) :
    ∀ (d n fuel : Nat), n + d = N → d ≤ fuel →
      run ode dt final fuel (simAt ode dt final f0 ps n) = .done (simAt ode dt final f0 ps N) := by
  intro d
  induction d with
  | zero =>
    intro n fuel hn _
    obtain rfl : n = N := by omega
    unfold run
    have : keepGoing dt final (simAt ode dt final f0 ps n).time = false := hstop
    simp [this]
  | succ d ih =>
    intro n fuel hn hf
    obtain ⟨fuel, rfl⟩ : ∃ m, fuel = m + 1 := ⟨fuel - 1, by omega⟩
    have hg := hgo n (by omega)
    unfold run
    have : keepGoing dt final (simAt ode dt final f0 ps n).time = true := hg
    rw [if_pos this]
    simp only [step_simAt ode hdt f0 ps hps n hg]
    exact ih (n + 1) fuel (by omega) (by omega)

lemma keepGoing_iff [FloorRing K] {dt final : K} (hdt : 0 < dt) (c : Nat) :
    keepGoing dt final (instant dt final c) = true ↔ c < stepCount dt final := by
  have key : keepGoing dt final (instant dt final c) = true ↔ (c : K) * dt ≤ final - slack * dt := by
    constructor
    · intro h
      rw [← instant_of_keepGoing hdt h]
      exact of_decide_eq_true h
    · intro h
      apply decide_eq_true
      exact le_trans (min_le_left _ _) h
  rw [key]
  have e : (c : K) * dt ≤ final - slack * dt ↔ (c : K) ≤ final / dt - slack := by
    rw [div_sub' hdt.ne', le_div_iff₀ hdt]
    constructor <;> intro h <;> linarith
  rw [e]
  unfold stepCount
  have es : (1 / 100000000 : K) = slack := rfl
  rw [es]
  have : (c : K) ≤ final / dt - slack ↔ (c : Int) ≤ ⌊final / dt - slack⌋ := by
    rw [Int.le_floor]; simp
  rw [this]
  omega

end Dgtd.TimeLoop
