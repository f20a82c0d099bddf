/-
C190: a case without thin layers runs as if there were none in the program.
-/
import Verif.Spec.NoLayers
import Verif.Props.Memory

namespace Dgtd.NoLayers
open Dgtd.Simulate Dgtd.SgbcEvol Dgtd.SgbcEvol.Spec Dgtd.Sgbc Spec Dgtd.SimLayer
open Dgtd.TimeLoop (trueDt keepGoing)

variable {σ R : Type} {Y : Sys σ ℝ}

lemma rowDot_sum (row : List (Nat × ℝ)) (v : Nat → ℝ) : rowDot row v = (row.map fun e => e.2 * v e.1).sum := by
  have : ∀ (l : List (Nat × ℝ)) (a : ℝ), l.foldl (fun s e => s + e.2 * v e.1) a = a + (l.map fun e => e.2 * v e.1).sum := by
    intro l
    induction l with
    | nil => intro a; simp
    | cons e l ih => intro a; rw [List.foldl_cons, ih, List.map_cons, List.sum_cons, add_assoc]
  unfold rowDot
  rw [this, zero_add]

lemma mult_plain (hS : InBounds Y) (hn : Y.nbr = 0) (hT : Y.tfsf = none) (t : ℝ) (x junk : Nat → ℝ) (ev : Ev σ ℝ) (h : ev.states = []) :
    ∃ ev', mult Y t x junk ev = some ((plain Y.globalRows).mult t x, ev') ∧ ev'.states = [] := by
  obtain ⟨w, hw⟩ := assemble_completes Y x (ev.scratch.getD junk)
  have hz : mulRows Y.globalRows w = (plain Y.globalRows).mult t x := by
    funext r
    show rowDot _ _ = _
    rw [rowDot_sum]
    show _ = ((Y.globalRows r).map fun e => e.2 * x e.1).sum
    congr 1
    refine List.map_congr_left fun e he => ?_
    congr 1
    have hlt := hS.global r e he
    have hB : Y.B = Y.ndofs := by simp [Sys.B, hn]
    refine exec_value hw e.1 (x e.1) ?_ (assemble_covers Y x e.1 hlt)
    intro v hv hve
    simp only [assembleWrites, hn, List.range_zero, List.map_nil, List.mem_append,
      List.mem_flatMap, List.mem_map, List.mem_range, List.not_mem_nil, and_false, exists_false, or_false] at hv
    obtain ⟨c, -, i, hi, rfl⟩ := hv
    simp only at hve ⊢
    have : c.val * Y.B + i = e.1 := by exact_mod_cast hve
    rw [← this, hB]
  refine ⟨{ ev with scratch := some (zeroed (6 * Y.B) w) }, ?_, h⟩
  unfold mult
  rw [Memory.subSolve_empty t x ev h]
  simp only [Option.bind_eq_bind, Option.bind_some, rhs, hw, applyTfsf, hT, hz]
  cases hR : Y.sgbcRows with
  | none => rfl
  | some rows => simp

lemma advance_plain (hS : InBounds Y) (hn : Y.nbr = 0) (hT : Y.tfsf = none) (q : Implicit.Sdirk ℝ) (x junk : Nat → ℝ) (t dt : ℝ) (ev : Ev σ ℝ)
    (h : ev.states = []) : ∃ y ev', SimLayer.advance Y junk x t dt ev = some (y, t + dt, ev') ∧ ev'.states = [] ∧
      TimeInt.step q .rk4 (plain Y.globalRows) x t dt () = some (y, t + dt, ()) := by
  unfold SimLayer.advance SimLayer.rk4
  rw [h]
  simp only [List.isEmpty_nil, if_true]
  obtain ⟨e1, m1, h1⟩ := mult_plain hS hn hT t x junk ev h
  rw [m1]; simp only [Option.bind_eq_bind, Option.bind_some]
  obtain ⟨e2, m2, h2⟩ := mult_plain hS hn hT (t + dt / 2) (x + (dt / 2) • (plain Y.globalRows).mult t x) junk e1 h1
  rw [m2]; simp only [Option.bind_some]
  obtain ⟨e3, m3, h3⟩ := mult_plain hS hn hT (t + dt / 2)
    (x + (dt / 2) • (plain Y.globalRows).mult (t + dt / 2) (x + (dt / 2) • (plain Y.globalRows).mult t x)) junk e2 h2
  rw [m3]; simp only [Option.bind_some]
  obtain ⟨e4, m4, h4⟩ := mult_plain hS hn hT (t + dt) (x + dt • (plain Y.globalRows).mult (t + dt / 2)
    (x + (dt / 2) • (plain Y.globalRows).mult (t + dt / 2) (x + (dt / 2) • (plain Y.globalRows).mult t x))) junk e3 h3
  rw [m4]; simp only [Option.bind_some]
  exact ⟨_, e4, rfl, h4, rfl⟩

/-- **C190.** On one rank, without thin layers and without incident field, the program with all its machinery for thin
layers runs exactly as the explicit integrator applied to the rate of change `A x`: after any number of iterations the same
time, fields and records, whatever memory contained. -/
theorem C190_no_layers (hS : InBounds Y) (hn : Y.nbr = 0) (hT : Y.tfsf = none) (q : Implicit.Sdirk ℝ) (dt final : ℝ) (junk : Nat → ℝ) :
    ∀ fuel (s : Sim (Nat → ℝ) (Ev σ ℝ) R) (s' : Sim (Nat → ℝ) Unit R), s.cache.states = [] → SameView s s' →
      Alike (SimLayer.run Y junk dt final fuel s) (Simulate.run q .rk4 (plain Y.globalRows) dt final fuel s') := by
  intro fuel
  induction fuel with
  | zero =>
    intro s s' _ h
    unfold SimLayer.run runWith Simulate.run
    rw [h.time]
    by_cases hk : keepGoing dt final s.time = true
    · rw [if_pos hk, if_pos hk]
      trivial
    · rw [if_neg hk, if_neg hk]
      exact h
  | succ k ih =>
    intro s s' h0 h
    unfold SimLayer.run runWith Simulate.run
    rw [h.time]
    by_cases hk : keepGoing dt final s.time = true
    · rw [if_pos hk, if_pos hk]
      simp only
      unfold stepWith Simulate.step
      rw [h.time, h.fields]
      obtain ⟨y, ev', a, b, c⟩ := advance_plain hS hn hT q s.fields junk s.time (trueDt dt final s.time) s.cache h0
      have c' : TimeInt.step q .rk4 (plain Y.globalRows) s.fields s.time (trueDt dt final s.time) s'.cache =
        some (y, s.time + trueDt dt final s.time, ()) := c
      rw [a, c']
      simp only [updateProbes, h.cycle, h.probes]
      cases hu : s.probes.mapM (updateProbe final s.cycle (s.time + trueDt dt final s.time) y) with
      | none => trivial
      | some ps => exact ih _ _ b ⟨rfl, rfl, rfl, rfl⟩
    · rw [if_neg hk, if_neg hk]
      exact h

example : InBounds AtRest.exSys ∧ AtRest.exSys.nbr = 0 ∧ AtRest.exSys.tfsf = none ∧
    SameView (R := ℝ) ⟨0, fun k => k + 3, { Memory.exOld with states := [] }, 1, [AtRest.exProbe]⟩ ⟨0, fun k => k + 3, (), 1, [AtRest.exProbe]⟩ :=
  ⟨AtRest.exSys_ok.1, rfl, rfl, ⟨rfl, rfl, rfl, rfl⟩⟩

end Dgtd.NoLayers
