/-
C186: probes only watch.
-/
import Verif.Spec.Watch
import Verif.Spec.Simulate
import Verif.Props.Simulate
import Verif.Model.SimLayer

namespace Dgtd.Watch
open Dgtd.Simulate Spec Dgtd.Simulate.Spec
open Dgtd.Implicit (Sdirk)
open Dgtd.TimeInt (Tdo Ode)
open Dgtd.SimLayer (runWith stepWith run_eq)

variable {V S R : Type}

/-- What an update makes of a probe with an interval. -/
noncomputable def next (final : ℝ) (cycle : Nat) (time : ℝ) (x : V) (p : Probe V R) : Probe V R :=
  (updateProbe final cycle time x p).getD p

lemma update_next (final : ℝ) (cycle : Nat) (time : ℝ) (x : V) (p : Probe V R) (h : p.steps ≠ 0) :
    updateProbe final cycle time x p = some (next final cycle time x p) ∧ (next final cycle time x p).steps = p.steps := by
  have hg : ∃ b, TimeLoop.gate final cycle p.steps time = some b := by
    unfold TimeLoop.gate
    rw [if_neg h]
    split_ifs <;> exact ⟨_, rfl⟩
  obtain ⟨b, hb⟩ := hg
  unfold next updateProbe
  rw [hb]
  simp only
  split_ifs <;> exact ⟨rfl, rfl⟩

lemma mapM_next (final : ℝ) (cycle : Nat) (time : ℝ) (x : V) : ∀ ps : List (Probe V R), (∀ p ∈ ps, p.steps ≠ 0) →
    ps.mapM (updateProbe final cycle time x) = some (ps.map (next final cycle time x)) := by
  intro ps
  induction ps with
  | nil => intro _; rfl
  | cons p ps ih =>
    intro h
    rw [List.mapM_cons, (update_next final cycle time x p (h p (by simp))).1, ih fun q hq => h q (by simp [hq])]
    rfl

/-- Solvers that differ in their probes, all of them with an interval. -/
structure Twin (ps ps' : List (Probe V R)) (s s' : Sim V S R) : Prop where
  same : SameBut ps ps' s s'
  ok   : ∀ p ∈ s.probes, p.steps ≠ 0
  ok'  : ∀ p ∈ s'.probes, p.steps ≠ 0

lemma updateProbes_twin (final : ℝ) (ps ps' : List (Probe V R)) (s s' : Sim V S R) (h : Twin ps ps' s s') :
    ∃ r r', updateProbes final s = some r ∧ updateProbes final s' = some r' ∧ Twin ps ps' r r' := by
  obtain ⟨⟨h1, h2, h3, h4, h5⟩, h6, h7⟩ := h
  unfold updateProbes
  rw [mapM_next _ _ _ _ _ h6, mapM_next _ _ _ _ _ h7]
  refine ⟨_, _, rfl, rfl, ⟨h1, h2, h3, by simp [h4], ?_⟩, ?_, ?_⟩
  · intro i j hij
    simp only [List.getElem?_map]
    rw [h1, h2, h4, h5 i j hij]
  · intro p hp
    obtain ⟨q, hq, rfl⟩ := List.mem_map.1 hp
    rw [(update_next _ _ _ _ q (h6 q hq)).2]
    exact h6 q hq
  · intro p hp
    obtain ⟨q, hq, rfl⟩ := List.mem_map.1 hp
    rw [(update_next _ _ _ _ q (h7 q hq)).2]
    exact h7 q hq

lemma run_twin (adv : V → ℝ → ℝ → S → Option (V × ℝ × S)) (dt final : ℝ) (ps ps' : List (Probe V R)) : ∀ fuel (s s' : Sim V S R),
    Twin ps ps' s s' → Alike ps ps' (runWith adv dt final fuel s) (runWith adv dt final fuel s') := by
  intro fuel
  induction fuel with
  | zero =>
    intro s s' h
    unfold runWith
    rw [h.same.time]
    by_cases hk : TimeLoop.keepGoing dt final s.time = true
    · rw [if_pos hk, if_pos hk]
      trivial
    · rw [if_neg hk, if_neg hk]
      exact h.same
  | succ k ih =>
    intro s s' h
    unfold runWith
    rw [h.same.time]
    by_cases hk : TimeLoop.keepGoing dt final s.time = true
    · rw [if_pos hk, if_pos hk]
      simp only
      unfold stepWith
      rw [h.same.time, h.same.fields, h.same.cache]
      cases hs : adv s.fields s.time (TimeLoop.trueDt dt final s.time) s.cache with
      | none => trivial
      | some y =>
        obtain ⟨x, t, c⟩ := y
        obtain ⟨r, r', e, e', ht⟩ := updateProbes_twin final ps ps' { s with time := t, fields := x, cache := c }
          { s' with time := t, fields := x, cache := c } ⟨⟨rfl, rfl, rfl, h.same.cycle, h.same.probes⟩, h.ok, h.ok'⟩
        simp only [e, e']
        exact ih r r' ht
    · rw [if_neg hk, if_neg hk]
      exact h.same

/-- The two solvers are built alike, and no way of advancing the fields tells them apart. -/
lemma watch_with [AddCommGroup V] [Module ℝ V] (lobatto : Nat → List ℝ) (m : TimeStep.Setup) (opts : TimeStep.Options) (x : V) (c : S)
    (ps ps' : List (Probe V R)) (hps : Usable ps) (hps' : Usable ps') (dt : ℝ) (ode : Ode) (s : Sim V S R) (hdt : 0 < dt)
    (h : construct lobatto m opts x c ps = .ok (dt, ode, s)) :
    ∃ s', construct lobatto m opts x c ps' = .ok (dt, ode, s') ∧ SameBut ps ps' s s' ∧
      ∀ adv fuel, Alike ps ps' (runWith adv dt opts.finalTime fuel s) (runWith adv dt opts.finalTime fuel s') := by
  unfold construct at h ⊢
  cases h1 : TimeStep.construct (TimeStep.estimateTimeStep lobatto m) opts 0 with
  | error e => rw [h1] at h; exact absurd h (by simp [bind, Except.bind])
  | ok y =>
    obtain ⟨dt', k⟩ := y
    rw [h1] at h
    simp only [bind, Except.bind] at h ⊢
    cases h2 : TimeInt.assignOde k with
    | error e => rw [h2] at h; exact absurd h (by simp)
    | ok o =>
      rw [h2] at h
      simp only at h ⊢
      by_cases hd : dt' = dt
      · subst hd
        obtain ⟨r, r', e, e', ht⟩ := updateProbes_twin opts.finalTime ps ps'
          { time := 0, fields := x, cache := c, cycle := 0, probes := ps.map (recalculate opts.finalTime dt') }
          { time := 0, fields := x, cache := c, cycle := 0, probes := ps'.map (recalculate opts.finalTime dt') }
          ⟨⟨rfl, rfl, rfl, rfl, fun i j hij => by simp only [List.getElem?_map, hij]⟩, interval_ne hdt hps,
            interval_ne hdt hps'⟩
        rw [e] at h
        simp only [Except.ok.injEq, Prod.mk.injEq, true_and] at h
        obtain ⟨rfl, rfl⟩ := h
        rw [e']
        exact ⟨r', rfl, ht.same, fun adv fuel => run_twin adv dt' opts.finalTime ps ps' fuel r r' ht⟩
      · exfalso
        split at h
        · exact absurd h (by simp)
        · simp only [Except.ok.injEq, Prod.mk.injEq] at h
          exact hd h.1

/-- **C186.** Take two lists of probes with usable intervals, for the same case otherwise.  If the solver is built with one
of them it is built with the other, with the same time step and integrator; the two runs end alike after any number of
iterations, with the same time and the same fields; and a probe in both lists has the same records in both runs, whatever
the other probes are. -/
theorem C186_watch [AddCommGroup V] [Module ℝ V] (lobatto : Nat → List ℝ) (m : TimeStep.Setup) (opts : TimeStep.Options) (x : V) (c : S)
    (ps ps' : List (Probe V R)) (hps : Usable ps) (hps' : Usable ps') (dt : ℝ) (ode : Ode) (s : Sim V S R) (hdt : 0 < dt)
    (h : construct lobatto m opts x c ps = .ok (dt, ode, s)) (q : Sdirk ℝ) (F : Tdo V S) :
    ∃ s', construct lobatto m opts x c ps' = .ok (dt, ode, s') ∧ SameBut ps ps' s s' ∧
      ∀ fuel, Alike ps ps' (run q ode F dt opts.finalTime fuel s) (run q ode F dt opts.finalTime fuel s') := by
  obtain ⟨s', e, b, k⟩ := watch_with lobatto m opts x c ps ps' hps hps' dt ode s hdt h
  refine ⟨s', e, b, fun fuel => ?_⟩
  rw [run_eq, run_eq]
  exact k _ fuel

/-- **C186**, with thin layers and the explicit integrator: the layers are the same too. -/
theorem C186_layers {σ : Type} (lobatto : Nat → List ℝ) (m : TimeStep.Setup) (opts : TimeStep.Options) (x : Nat → ℝ)
    (c : SgbcEvol.Ev σ ℝ) (ps ps' : List (Probe (Nat → ℝ) R)) (hps : Usable ps) (hps' : Usable ps') (dt : ℝ) (ode : Ode)
    (s : Sim (Nat → ℝ) (SgbcEvol.Ev σ ℝ) R) (hdt : 0 < dt) (h : construct lobatto m opts x c ps = .ok (dt, ode, s))
    (Y : SgbcEvol.Sys σ ℝ) (junk : Nat → ℝ) :
    ∃ s', construct lobatto m opts x c ps' = .ok (dt, ode, s') ∧ SameBut ps ps' s s' ∧
      ∀ fuel, Alike ps ps' (SimLayer.run Y junk dt opts.finalTime fuel s) (SimLayer.run Y junk dt opts.finalTime fuel s') := by
  obtain ⟨s', e, b, k⟩ := watch_with lobatto m opts x c ps ps' hps hps' dt ode s hdt h
  exact ⟨s', e, b, fun fuel => k _ fuel⟩

/-- One probe at every second instant against none and against three. -/
def exProbe : Probe ℝ ℝ := ⟨2, 0, true, fun x => x, []⟩
def exOther : Probe ℝ ℝ := ⟨0, 5, true, fun x => x + 1, []⟩

example : Usable [exProbe] ∧ Usable ([] : List (Probe ℝ ℝ)) ∧ Usable [exOther, exProbe, exOther] ∧
    [exProbe][0]? = [exOther, exProbe, exOther][1]? := by
  refine ⟨?_, ?_, ?_, rfl⟩ <;> intro p hp <;> simp_all [exProbe, exOther]
  rcases hp with rfl | rfl | rfl <;> simp

/-- A solver with time step 1 and final time 2 is built with it. -/
example (lobatto : Nat → List ℝ) (m : TimeStep.Setup) : ∃ s : Sim ℝ Unit ℝ,
    construct lobatto m ⟨1, 2, 1, 0, .global, 0⟩ 3 () [exProbe] = .ok (1, .rk4, s) ∧ (0 : ℝ) < 1 := by
  have hv : TimeStep.construct (TimeStep.estimateTimeStep lobatto m) ⟨1, 2, 1, 0, .global, 0⟩ 0 = .ok (1, 0) := by
    unfold TimeStep.construct TimeStep.checkOptions TimeStep.assignOde
    norm_num [bind, Except.bind, pure, Except.pure]
  obtain ⟨r, -, e, -, -⟩ := updateProbes_twin (S := Unit) 2 [exProbe] [exProbe]
    { time := 0, fields := (3 : ℝ), cache := (), cycle := 0, probes := [exProbe].map (recalculate 2 1) }
    { time := 0, fields := (3 : ℝ), cache := (), cycle := 0, probes := [exProbe].map (recalculate 2 1) }
    ⟨⟨rfl, rfl, rfl, rfl, fun i j hij => by simp only [List.getElem?_map, hij]⟩, by simp [exProbe, recalculate], by simp [exProbe, recalculate]⟩
  refine ⟨r, ?_, by norm_num⟩
  unfold construct
  rw [hv]
  simp only [bind, Except.bind, TimeInt.assignOde]
  rw [e]

end Dgtd.Watch
