/-
C187: a longer run repeats the shorter one.
-/
import Verif.Spec.Longer
import Verif.Props.Watch

namespace Dgtd.Longer
open Dgtd.Simulate Spec Dgtd.Watch
open Dgtd.Implicit (Sdirk)
open Dgtd.TimeInt (Tdo Ode)
open Dgtd.SimLayer (runWith stepWith run_eq)
open Dgtd.TimeLoop (slack trueDt keepGoing gate)

variable {V S R : Type}

lemma slack_pos : (0 : ℝ) < slack := by unfold slack; norm_num

lemma upTo_steps {L : ℝ} {p p' : Probe V R} (h : upTo L p = upTo L p') : p.steps = p'.steps := congrArg (fun p => p.steps) h

/-- A record that comes too late is not seen. -/
lemma next_late (L final : ℝ) (cycle : Nat) (time : ℝ) (x : V) (p : Probe V R) (h : p.steps ≠ 0) (hl : L < time) :
    upTo L (next final cycle time x p) = upTo L p := by
  obtain ⟨hb, -⟩ := update_next final cycle time x p h
  unfold updateProbe at hb
  split at hb
  · exact absurd hb (by simp)
  · split_ifs at hb
    · rw [← Option.some.inj hb]
      simp [upTo, not_le.2 hl]
    · rw [← Option.some.inj hb]

/-- Two probes that agree so far agree after an update at the same instant. -/
lemma next_agree {T T' : ℝ} (hT : T ≤ T') (cycle : Nat) (time : ℝ) (x : V) (p p' : Probe V R) (h : p.steps ≠ 0)
    (e : upTo (T - slack) p = upTo (T - slack) p') :
    upTo (T - slack) (next T cycle time x p) = upTo (T - slack) (next T' cycle time x p') := by
  have hs := upTo_steps e
  have h' : p'.steps ≠ 0 := hs ▸ h
  by_cases hl : T - slack < time
  · rw [next_late _ _ _ _ _ _ h hl, next_late _ _ _ _ _ _ h' hl, e]
  · have hl := not_lt.1 hl
    have g1 : gate T cycle p.steps time = some (decide ((cycle : Int) % p.steps = 0)) := by
      unfold gate
      rw [if_pos (by rw [abs_sub_comm]; exact le_trans (by linarith) (le_abs_self _)), if_neg h]
    have g2 : gate T' cycle p'.steps time = some (decide ((cycle : Int) % p'.steps = 0)) := by
      unfold gate
      rw [if_pos (by rw [abs_sub_comm]; exact le_trans (by linarith) (le_abs_self _)), if_neg h']
    have ho : p.owned = p'.owned := congrArg (fun p => p.owned) e
    have hr : p.read = p'.read := congrArg (fun p => p.read) e
    have hv : p.saves = p'.saves := congrArg (fun p => p.saves) e
    have hc := congrArg Probe.recs e
    simp only [upTo] at hc
    unfold next updateProbe
    rw [g1, g2, ← hs, ← ho]
    simp only
    split_ifs
    · simp only [Option.getD_some, upTo, List.filter_append, hc, hs, ho, hr, hv]
    · simpa using e

lemma updateProbes_some (final : ℝ) (s : Sim V S R) (h : ∀ p ∈ s.probes, p.steps ≠ 0) :
    updateProbes final s = some { s with cycle := s.cycle + 1, probes := s.probes.map (next final s.cycle s.time s.fields) } := by
  unfold updateProbes
  rw [mapM_next _ _ _ _ _ h]

lemma map_next_ne {final : ℝ} {cycle : Nat} {time : ℝ} {x : V} {ps : List (Probe V R)} (h : ∀ p ∈ ps, p.steps ≠ 0) :
    ∀ p ∈ ps.map (next final cycle time x), p.steps ≠ 0 := by
  intro p hp
  obtain ⟨q, hq, rfl⟩ := List.mem_map.1 hp
  rw [(update_next _ _ _ _ q (h q hq)).2]
  exact h q hq

lemma map_late {L final : ℝ} {cycle : Nat} {time : ℝ} {x : V} {ps : List (Probe V R)} (h : ∀ p ∈ ps, p.steps ≠ 0) (hl : L < time) :
    (ps.map (next final cycle time x)).map (upTo L) = ps.map (upTo L) := by
  rw [List.map_map]
  exact List.map_congr_left fun p hp => next_late L final cycle time x p (h p hp) hl

lemma map_agree {T T' : ℝ} (hT : T ≤ T') (cycle : Nat) (time : ℝ) (x : V) : ∀ ps ps' : List (Probe V R), (∀ p ∈ ps, p.steps ≠ 0) →
    ps.map (upTo (T - slack)) = ps'.map (upTo (T - slack)) →
    (ps.map (next T cycle time x)).map (upTo (T - slack)) = (ps'.map (next T' cycle time x)).map (upTo (T - slack))
  | [], [], _, _ => rfl
  | [], _ :: _, _, e => by simp at e
  | _ :: _, [], _, e => by simp at e
  | p :: ps, p' :: ps', h, e => by
    simp only [List.map_cons, List.cons.injEq] at e ⊢
    exact ⟨next_agree hT cycle time x p p' (h p (by simp)) e.1, map_agree hT cycle time x ps ps' (fun q hq => h q (by simp [hq])) e.2⟩

/-- A way of advancing that moves the clock by the size of the step. -/
def Clocked (adv : V → ℝ → ℝ → S → Option (V × ℝ × S)) : Prop :=
  ∀ {x : V} {t dt : ℝ} {c : S} {y : V} {t' : ℝ} {c' : S}, adv x t dt c = some (y, t', c') → t' = t + dt

/-- Every integrator moves the clock by the size of the step. -/
lemma step_clock [AddCommGroup V] [Module ℝ V] {q : Sdirk ℝ} {o : Ode} {F : Tdo V S} {x y : V} {t dt t' : ℝ} {s s' : S}
    (h : TimeInt.step q o F x t dt s = some (y, t', s')) : t' = t + dt := by
  cases o <;>
    simp only [TimeInt.step, TimeInt.rk4, TimeInt.backwardEuler, TimeInt.trapezoidal, TimeInt.implicitMidpoint, TimeInt.sdirk33,
      TimeInt.sdirk23, TimeInt.sdirk34, Option.bind_eq_bind, Option.bind_eq_some_iff, Option.some.injEq, Prod.mk.injEq, Prod.exists] at h
  · exact h.2.1.symm
  · obtain ⟨_, _, _, _, h, _⟩ := h; exact h.symm
  · obtain ⟨_, _, _, _, h, _⟩ := h; exact h.symm
  · obtain ⟨_, _, _, _, h, _⟩ := h; exact h.symm
  · obtain ⟨_, _, _, _, _, _, _, _, _, _, h, _⟩ := h; exact h.symm
  · obtain ⟨_, _, _, _, _, _, _, h, _⟩ := h; exact h.symm
  · obtain ⟨_, _, _, _, _, _, _, _, _, _, h, _⟩ := h; exact h.symm

/-- With thin layers too. -/
lemma layer_clock {σ : Type} (Y : SgbcEvol.Sys σ ℝ) (junk : Nat → ℝ) : Clocked (SimLayer.advance Y junk) := by
  have hr : Clocked (SimLayer.rk4 Y junk) := by
    intro x t dt c y t' c' h
    simp only [SimLayer.rk4, Option.bind_eq_bind, Option.bind_eq_some_iff, Option.some.injEq, Prod.mk.injEq, Prod.exists] at h
    obtain ⟨_, _, _, _, _, _, _, _, _, _, _, _, _, h, _⟩ := h
    exact h.symm
  intro x t dt c y t' c' h
  unfold SimLayer.advance at h
  split_ifs at h
  · exact hr h
  · simp only [Option.bind_eq_bind, Option.bind_eq_some_iff, Option.some.injEq, Prod.mk.injEq, Prod.exists] at h
    obtain ⟨_, _, _, _, _, h1, _, _, _, rfl, _⟩ := h
    exact hr h1

/-- Once the next instant is late, nothing early is recorded any more. -/
lemma run_late {adv : V → ℝ → ℝ → S → Option (V × ℝ × S)} (hadv : Clocked adv) {dt final L : ℝ} (hdt : 0 < dt) : ∀ fuel (s r : Sim V S R),
    (∀ p ∈ s.probes, p.steps ≠ 0) → L < s.time + dt → L < final → runWith adv dt final fuel s = .done r →
    r.probes.map (upTo L) = s.probes.map (upTo L) := by
  intro fuel
  induction fuel with
  | zero =>
    intro s r _ _ _ h
    unfold runWith at h
    split_ifs at h
    rw [TimeLoop.Outcome.done.inj h]
  | succ k ih =>
    intro s r hp hl hL h
    unfold runWith at h
    by_cases hk : keepGoing dt final s.time = true
    · rw [if_pos hk] at h
      simp only at h
      unfold stepWith at h
      cases hs : adv s.fields s.time (trueDt dt final s.time) s.cache with
      | none => simp only [hs] at h; exact absurd h (by simp)
      | some y =>
        obtain ⟨x, t, c⟩ := y
        simp only [hs] at h
        rw [updateProbes_some final { s with time := t, fields := x, cache := c } hp] at h
        simp only at h
        have ht := hadv hs
        have hlt : L < t := by
          rw [ht]
          unfold trueDt
          rcases min_choice dt (final - s.time) with e | e <;> rw [e] <;> linarith
        rw [ih _ r (map_next_ne hp) (by show L < t + dt; linarith) hL h]
        exact map_late hp hlt
    · rw [if_neg hk] at h
      rw [TimeLoop.Outcome.done.inj h]

/-- Two runs that agree so far agree at the end. -/
lemma run_agree {adv : V → ℝ → ℝ → S → Option (V × ℝ × S)} (hadv : Clocked adv) {dt T T' : ℝ} (hdt : 0 < dt) (hT : T ≤ T') : ∀ fuel fuel' (s s' r r' : Sim V S R),
    (∀ p ∈ s.probes, p.steps ≠ 0) → (∀ p ∈ s'.probes, p.steps ≠ 0) → s.time = s'.time → s.fields = s'.fields → s.cache = s'.cache →
    s.cycle = s'.cycle → s.probes.map (upTo (T - slack)) = s'.probes.map (upTo (T - slack)) →
    runWith adv dt T fuel s = .done r → runWith adv dt T' fuel' s' = .done r' →
    r.probes.map (upTo (T - slack)) = r'.probes.map (upTo (T - slack)) := by
  have hsl := slack_pos
  intro fuel
  induction fuel with
  | zero =>
    intro fuel' s s' r r' hp hp' e1 e2 e3 e4 e5 h h'
    unfold runWith at h
    split_ifs at h with hk
    rw [← TimeLoop.Outcome.done.inj h, e5]
    refine (run_late hadv hdt fuel' s' r' hp' ?_ (by linarith) h').symm
    rw [← e1]
    have : ¬ s.time ≤ T - slack * dt := by simpa [keepGoing] using hk
    have : slack * dt ≤ 1 * dt := mul_le_mul_of_nonneg_right (by unfold slack; norm_num) hdt.le
    linarith
  | succ k ih =>
    intro fuel' s s' r r' hp hp' e1 e2 e3 e4 e5 h h'
    by_cases hk : keepGoing dt T s.time = true
    · by_cases hn : s.time + dt ≤ T
      · have hk' : keepGoing dt T' s'.time = true := by
          rw [← e1]
          have : s.time ≤ T - slack * dt := by simpa [keepGoing] using hk
          simp only [keepGoing, decide_eq_true_eq]
          linarith
        have d1 : trueDt dt T s.time = dt := min_eq_left (by linarith)
        have d2 : trueDt dt T' s.time = dt := min_eq_left (by linarith)
        unfold runWith at h h'
        rw [if_pos hk] at h
        rw [if_pos hk'] at h'
        cases fuel' with
        | zero => simp at h'
        | succ k' =>
          simp only at h h'
          unfold stepWith at h h'
          rw [d1] at h
          rw [← e1, ← e2, ← e3, d2] at h'
          cases hs : adv s.fields s.time dt s.cache with
          | none => simp only [hs] at h; exact absurd h (by simp)
          | some y =>
            obtain ⟨x, t, c⟩ := y
            simp only [hs] at h h'
            rw [updateProbes_some T { s with time := t, fields := x, cache := c } hp] at h
            rw [updateProbes_some T' { s' with time := t, fields := x, cache := c } hp'] at h'
            simp only at h h'
            refine ih k' ⟨t, x, c, s.cycle + 1, s.probes.map (next T s.cycle t x)⟩ ⟨t, x, c, s'.cycle + 1, s'.probes.map (next T' s'.cycle t x)⟩
              r r' (map_next_ne hp) (map_next_ne hp') rfl rfl rfl (by simp [e4]) ?_ h h'
            simp only
            rw [e4]
            exact map_agree hT _ _ _ _ _ hp e5
      · have hn := not_le.1 hn
        rw [run_late hadv hdt (k + 1) s r hp (by linarith) (by linarith) h, e5,
          run_late hadv hdt fuel' s' r' hp' (by rw [← e1]; linarith) (by linarith) h']
    · unfold runWith at h
      rw [if_neg hk] at h
      rw [← TimeLoop.Outcome.done.inj h, e5]
      refine (run_late hadv hdt fuel' s' r' hp' ?_ (by linarith) h').symm
      rw [← e1]
      have : ¬ s.time ≤ T - slack * dt := by simpa [keepGoing] using hk
      have : slack * dt ≤ 1 * dt := mul_le_mul_of_nonneg_right (by unfold slack; norm_num) hdt.le
      linarith

lemma map_recalculate {ps : List (Probe V R)} (h : InSteps ps) (final dt : ℝ) : ps.map (recalculate final dt) = ps := by
  conv_rhs => rw [← List.map_id ps]
  refine List.map_congr_left fun p hp => ?_
  unfold recalculate
  have := (h p hp).2
  split_ifs
  · rfl
  · omega
  · rfl

lemma estimate_final (lobatto : Nat → List ℝ) (m : TimeStep.Setup) (opts : TimeStep.Options) (T : ℝ) :
    TimeStep.estimateTimeStep lobatto m { opts with finalTime := T } = TimeStep.estimateTimeStep lobatto m opts := rfl

lemma options_spec {est : TimeStep.Options → Except Config.Err ℝ} {opts : TimeStep.Options} {dt : ℝ} {k : Nat}
    (h : TimeStep.construct est opts 0 = .ok (dt, k)) :
    (if opts.timeStep = 0 then est opts else .ok opts.timeStep) = .ok dt ∧ TimeStep.assignOde opts.odeType = .ok k := by
  unfold TimeStep.construct at h
  simp only [if_true, bind, Except.bind, pure, Except.pure] at h
  split at h
  · exact absurd h (by simp)
  · by_cases ht : opts.timeStep = 0
    · rw [if_pos ht] at h ⊢
      split at h
      · exact absurd h (by simp)
      · rename_i v hv
        split at h
        · exact absurd h (by simp)
        · rename_i w hw
          simp only [Except.ok.injEq, Prod.mk.injEq] at h
          rw [hv, hw, h.1, h.2]
          exact ⟨rfl, rfl⟩
    · rw [if_neg ht] at h ⊢
      split at h
      · exact absurd h (by simp)
      · rename_i w hw
        simp only [Except.ok.injEq, Prod.mk.injEq] at h
        rw [hw, h.1, h.2]
        exact ⟨rfl, rfl⟩

/-- What the constructor leaves. -/
lemma construct_spec [AddCommGroup V] [Module ℝ V] {lobatto : Nat → List ℝ} {m : TimeStep.Setup} {opts : TimeStep.Options} {x : V} {c : S} {ps : List (Probe V R)}
    (hps : InSteps ps) {dt : ℝ} {ode : Ode} {s : Sim V S R} (h : construct lobatto m opts x c ps = .ok (dt, ode, s)) :
    (if opts.timeStep = 0 then TimeStep.estimateTimeStep lobatto m opts else .ok opts.timeStep) = .ok dt ∧
      (TimeStep.assignOde opts.odeType).bind TimeInt.assignOde = .ok ode ∧
      s = { time := 0, fields := x, cache := c, cycle := 1, probes := ps.map (next opts.finalTime 0 0 x) } := by
  unfold construct at h
  simp only [bind, Except.bind] at h
  cases h1 : TimeStep.construct (TimeStep.estimateTimeStep lobatto m) opts 0 with
  | error e => rw [h1] at h; exact absurd h (by simp)
  | ok y =>
    obtain ⟨d, k⟩ := y
    obtain ⟨a1, a2⟩ := options_spec h1
    simp only [h1] at h
    cases h3 : TimeInt.assignOde k with
    | error e => simp only [h3] at h; exact absurd h (by simp)
    | ok o =>
      simp only [h3, map_recalculate hps] at h
      rw [updateProbes_some opts.finalTime ⟨0, x, c, 0, ps⟩ fun p hp => (hps p hp).1] at h
      simp only [Except.ok.injEq, Prod.mk.injEq] at h
      obtain ⟨rfl, rfl, rfl⟩ := h
      exact ⟨a1, by rw [a2]; exact h3, rfl⟩

lemma longer_with [AddCommGroup V] [Module ℝ V] (lobatto : Nat → List ℝ) (m : TimeStep.Setup) (opts : TimeStep.Options) (T : ℝ) (hT : opts.finalTime ≤ T)
    (x : V) (c : S) (ps : List (Probe V R)) (hps : InSteps ps) (dt dt' : ℝ) (ode ode' : Ode) (s s' : Sim V S R)
    (h : construct lobatto m opts x c ps = .ok (dt, ode, s))
    (h' : construct lobatto m { opts with finalTime := T } x c ps = .ok (dt', ode', s')) :
    dt' = dt ∧ ode' = ode ∧
      (0 < dt → ∀ adv : V → ℝ → ℝ → S → Option (V × ℝ × S), Clocked adv → ∀ (fuel fuel' : Nat) (r r' : Sim V S R),
        runWith adv dt opts.finalTime fuel s = .done r → runWith adv dt' T fuel' s' = .done r' →
        r'.probes.map (upTo (opts.finalTime - 1 / 10 ^ 8)) = r.probes.map (upTo (opts.finalTime - 1 / 10 ^ 8))) := by
  obtain ⟨a1, a2, rfl⟩ := construct_spec hps h
  obtain ⟨b1, b2, rfl⟩ := construct_spec hps h'
  rw [estimate_final] at b1
  obtain rfl : dt' = dt := Except.ok.inj (b1.symm.trans a1)
  obtain rfl : ode' = ode := Except.ok.inj (b2.symm.trans a2)
  refine ⟨rfl, rfl, fun hdt adv hadv fuel fuel' r r' e e' => ?_⟩
  have hne : ∀ p ∈ ps, p.steps ≠ 0 := fun p hp => (hps p hp).1
  have := run_agree hadv hdt hT fuel fuel' ⟨0, x, c, 1, ps.map (next opts.finalTime 0 0 x)⟩ ⟨0, x, c, 1, ps.map (next T 0 0 x)⟩ r r'
    (map_next_ne hne) (map_next_ne hne) rfl rfl rfl rfl (map_agree hT 0 0 x ps ps hne rfl) e e'
  have hsl : (slack : ℝ) = 1 / 10 ^ 8 := by unfold slack; norm_num
  rw [hsl] at this
  exact this.symm

/-- **C187.** Take a case and the same case with a later final time, its probes with intervals given in steps.  The two
solvers have the same time step and integrator.  When both runs finish, every probe of the longer one has, up to the final
time of the shorter one less the slack of the final record, exactly the records of the same probe of the shorter one:
numbers, times and readings. -/
theorem C187_longer [AddCommGroup V] [Module ℝ V] (lobatto : Nat → List ℝ) (m : TimeStep.Setup) (opts : TimeStep.Options) (T : ℝ) (hT : opts.finalTime ≤ T)
    (x : V) (c : S) (ps : List (Probe V R)) (hps : InSteps ps) (dt dt' : ℝ) (ode ode' : Ode) (s s' : Sim V S R)
    (h : construct lobatto m opts x c ps = .ok (dt, ode, s))
    (h' : construct lobatto m { opts with finalTime := T } x c ps = .ok (dt', ode', s')) :
    dt' = dt ∧ ode' = ode ∧
      (0 < dt → ∀ (q : Sdirk ℝ) (F : Tdo V S) (fuel fuel' : Nat) (r r' : Sim V S R),
        run q ode F dt opts.finalTime fuel s = .done r → run q ode' F dt' T fuel' s' = .done r' →
        r'.probes.map (upTo (opts.finalTime - 1 / 10 ^ 8)) = r.probes.map (upTo (opts.finalTime - 1 / 10 ^ 8))) := by
  obtain ⟨e1, e2, k⟩ := longer_with lobatto m opts T hT x c ps hps dt dt' ode ode' s s' h h'
  refine ⟨e1, e2, fun hdt q F fuel fuel' r r' e e' => ?_⟩
  rw [run_eq] at e e'
  rw [e2] at e'
  exact k hdt _ (fun h => step_clock h) fuel fuel' r r' e e'

/-- **C187**, with thin layers and the explicit integrator. -/
theorem C187_layers {σ : Type} (lobatto : Nat → List ℝ) (m : TimeStep.Setup) (opts : TimeStep.Options) (T : ℝ)
    (hT : opts.finalTime ≤ T) (x : Nat → ℝ) (c : SgbcEvol.Ev σ ℝ) (ps : List (Probe (Nat → ℝ) R)) (hps : InSteps ps) (dt dt' : ℝ)
    (ode ode' : Ode) (s s' : Sim (Nat → ℝ) (SgbcEvol.Ev σ ℝ) R) (h : construct lobatto m opts x c ps = .ok (dt, ode, s))
    (h' : construct lobatto m { opts with finalTime := T } x c ps = .ok (dt', ode', s')) :
    dt' = dt ∧ ode' = ode ∧
      (0 < dt → ∀ (Y : SgbcEvol.Sys σ ℝ) (junk : Nat → ℝ) (fuel fuel' : Nat) (r r' : Sim (Nat → ℝ) (SgbcEvol.Ev σ ℝ) R),
        SimLayer.run Y junk dt opts.finalTime fuel s = .done r → SimLayer.run Y junk dt' T fuel' s' = .done r' →
        r'.probes.map (upTo (opts.finalTime - 1 / 10 ^ 8)) = r.probes.map (upTo (opts.finalTime - 1 / 10 ^ 8))) := by
  obtain ⟨e1, e2, k⟩ := longer_with lobatto m opts T hT x c ps hps dt dt' ode ode' s s' h h'
  exact ⟨e1, e2, fun hdt Y junk fuel fuel' r r' e e' => k hdt _ (layer_clock Y junk) fuel fuel' r r' e e'⟩

/-- Fields that stay as they are. -/
def still : Tdo ℝ Unit := ⟨fun _ _ => 0, fun _ _ _ _ => none⟩

lemma still_run (q : Sdirk ℝ) (T : ℝ) (ps : List (Probe ℝ ℝ)) (hT : 0 ≤ T) (hps : ∀ p ∈ ps, p.steps ≠ 0) :
    ∃ fuel, ∃ r : Sim ℝ Unit ℝ, run q .rk4 still 1 T fuel ⟨0, 3, (), 1, ps.map (next T 0 0 3)⟩ = .done r := by
  have e := updateProbes_zero (S := Unit) (dt := 1) hT (fun _ => (3 : ℝ)) (fun _ => ()) ps hps
  rw [updateProbes_some T ⟨0, (3 : ℝ), (), 0, ps⟩ hps] at e
  have := run_simAt (q := q) (o := .rk4) (F := still) (final := T) one_pos (fun _ => (3 : ℝ)) (fun _ => ()) ps hps
    (fun k _ => by simp [TimeInt.step, TimeInt.rk4, still]) _ 0 _ (Nat.zero_add _) le_rfl
  rw [← Option.some.inj e] at this
  exact ⟨_, _, this⟩

/-- Final times 5 and 9: both solvers are built, and both runs finish. -/
example (lobatto : Nat → List ℝ) (m : TimeStep.Setup) (q : Sdirk ℝ) : InSteps [exProbe] ∧ ∃ s s' : Sim ℝ Unit ℝ,
    construct lobatto m ⟨1, 5, 1, 0, .global, 0⟩ 3 () [exProbe] = .ok (1, .rk4, s) ∧
    construct lobatto m { (⟨1, 5, 1, 0, .global, 0⟩ : TimeStep.Options) with finalTime := 9 } 3 () [exProbe] = .ok (1, .rk4, s') ∧
    ∃ fuel fuel' r r', run q .rk4 still 1 5 fuel s = .done r ∧ run q .rk4 still 1 9 fuel' s' = .done r' := by
  have hi : InSteps [exProbe] := by simp [InSteps, exProbe]
  have hne : ∀ p ∈ [exProbe], p.steps ≠ 0 := fun p hp => (hi p hp).1
  have hc : ∀ T : ℝ, 0 ≤ T → construct lobatto m ⟨1, T, 1, 0, .global, 0⟩ (3 : ℝ) () [exProbe] =
      .ok (1, .rk4, ⟨0, 3, (), 1, [exProbe].map (next T 0 0 3)⟩) := by
    intro T hT
    have hv : TimeStep.construct (TimeStep.estimateTimeStep lobatto m) ⟨1, T, 1, 0, .global, 0⟩ 0 = .ok (1, 0) := by
      unfold TimeStep.construct TimeStep.checkOptions TimeStep.assignOde
      norm_num [bind, Except.bind, pure, Except.pure, not_lt.2 hT]
    unfold construct
    rw [hv]
    simp only [bind, Except.bind, TimeInt.assignOde, map_recalculate hi]
    rw [updateProbes_some T ⟨0, (3 : ℝ), (), 0, [exProbe]⟩ hne]
  obtain ⟨f, r, h⟩ := still_run q 5 [exProbe] (by norm_num) hne
  obtain ⟨f', r', h'⟩ := still_run q 9 [exProbe] (by norm_num) hne
  exact ⟨hi, _, _, hc 5 (by norm_num), hc 9 (by norm_num), f, f', r, r', h, h'⟩

end Dgtd.Longer
