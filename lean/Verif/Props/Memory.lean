/-
C189: a run with thin layers has no hidden memory.
-/
import Verif.Spec.Memory
import Verif.Props.SgbcStep
import Verif.Props.AtRest

namespace Dgtd.Memory
open Dgtd.Simulate Dgtd.SgbcEvol Dgtd.SgbcEvol.Spec Dgtd.Sgbc Spec Dgtd.SimLayer
open Dgtd.TimeLoop (slack trueDt keepGoing)

variable {σ R : Type} {Y : Sys σ ℝ} {ok : σ → Prop} {p : Int → (Nat → ℝ) → ℝ → ℝ → Option (Nat → ℝ)}

/-- Two evolution objects in the middle of a step that will answer alike. -/
structure Mid (ok : σ → Prop) (ev ev' : Ev σ ℝ) : Prop where
  frames : ev'.states.map frame = ev.states.map frame
  inner  : ∀ tag, ok (ev.ws tag).inner
  inner' : ∀ tag, ok (ev'.ws tag).inner
  held   : ev.states = [] ∨ ev'.base = ev.base ∧ ev'.dt = ev.dt ∧ CpRel ev.states (ev.cp.getD []) (ev'.cp.getD [])

lemma frame_empty {l l' : List (St ℝ)} (h : l'.map frame = l.map frame) (hl : l = []) : l' = [] := by
  subst hl; simpa using h

lemma restore_cp : ∀ (l : List (St ℝ)) (cs cs' : List (Cp ℝ)), CpRel l cs cs' → restore l cs = restore l cs'
  | [], _, _, _ => by simp [restore]
  | _ :: _, [], [], h => h.elim
  | _ :: _, [], _ :: _, h => h.elim
  | _ :: _, _ :: _, [], h => h.elim
  | st :: l, c :: cs, c' :: cs', h => by
    simp only [restore, restore_cp l cs cs' h.2.2, h.1]

lemma subSolve_cp (t : ℝ) (inp : Nat → ℝ) (ev : Ev σ ℝ) (cp : Option (List (Cp ℝ)))
    (h : restore ev.states (cp.getD []) = restore ev.states (ev.cp.getD [])) :
    subSolve Y t inp ev = (subSolve Y t inp { ev with cp := cp }).map fun q => (q.1, { q.2 with cp := ev.cp }) := by
  unfold subSolve
  cases hR : Y.sgbcRows with
  | none => rfl
  | some rows =>
    simp only [h, Option.bind_eq_bind, Option.map_bind]
    congr 1; funext sts
    simp only [Function.comp, Option.map_bind]
    congr 1; funext q
    split <;> simp [Option.map_bind, Function.comp_def]

lemma subSolve_empty (t : ℝ) (inp : Nat → ℝ) (ev : Ev σ ℝ) (h : ev.states = []) :
    subSolve Y t inp ev = some (Y.sgbcRows.isSome, ev) := by
  unfold subSolve
  cases hR : Y.sgbcRows with
  | none => rfl
  | some rows =>
    have : ({ ev with states := [] } : Ev σ ℝ) = ev := by rw [← h]
    simp [h, restore, allQuiet, this]

lemma subSolve_mid (hL : ∀ tag, Functional (Y.layers tag) ok (p tag)) (t : ℝ) (inp : Nat → ℝ) {ev ev' : Ev σ ℝ} (h : Mid ok ev ev') :
    (subSolve Y t inp ev = none ∧ subSolve Y t inp ev' = none) ∨
    ∃ q e e', subSolve Y t inp ev = some (q, e) ∧ subSolve Y t inp ev' = some (q, e') ∧ Mid ok e e' ∧ Keeps ev e ∧
      (Y.sgbcRows ≠ none → e.states.map core = e'.states.map core) := by
  rcases h.held with h0 | ⟨hb, hd, hc⟩
  · have h0' := frame_empty h.frames h0
    exact Or.inr ⟨_, ev, ev', subSolve_empty t inp ev h0, subSolve_empty t inp ev' h0', h, Keeps.refl ev, fun _ => by rw [h0, h0']⟩
  · have hr : restore ev'.states (ev.cp.getD []) = restore ev'.states (ev'.cp.getD []) :=
      restore_cp _ _ _ (CpRel_frame h.frames.symm hc)
    have hk : Keeps ev { ev' with cp := ev.cp } := ⟨hb, hd, rfl, h.frames⟩
    rw [subSolve_cp t inp ev' ev.cp hr]
    rcases subSolve_same hL t inp hk h.inner h.inner' with ⟨a, b⟩ | ⟨q, e, e', a, b, c⟩
    · exact Or.inl ⟨a, by rw [b]; rfl⟩
    · refine Or.inr ⟨q, e, { e' with cp := ev'.cp }, a, by rw [b]; rfl, ?_, (subSolve_keeps hL h.inner a).1, c⟩
      obtain ⟨k1, k2, -⟩ := subSolve_keeps hL h.inner a
      obtain ⟨k1', k2', -⟩ := subSolve_keeps (ev := { ev' with cp := ev.cp }) hL h.inner' b
      refine ⟨?_, k2, k2', Or.inr ⟨?_, ?_, ?_⟩⟩
      · show e'.states.map frame = _
        rw [k1'.frames, k1.frames]; exact h.frames
      · show e'.base = _
        rw [k1'.base, k1.base]; exact hb
      · show e'.dt = _
        rw [k1'.dt, k1.dt]; exact hd
      · show CpRel e.states (e.cp.getD []) (ev'.cp.getD [])
        rw [k1.cp]
        exact CpRel_frame k1.frames.symm hc

/-- A right-hand side. -/
lemma mult_mid (hS : InBounds Y) (hL : ∀ tag, Functional (Y.layers tag) ok (p tag)) (t : ℝ) (inp junk junk' : Nat → ℝ) {ev ev' : Ev σ ℝ}
    (h : Mid ok ev ev') :
    (mult Y t inp junk ev = none ∧ mult Y t inp junk' ev' = none) ∨
    ∃ out e e', mult Y t inp junk ev = some (out, e) ∧ mult Y t inp junk' ev' = some (out, e') ∧ Mid ok e e' ∧ Keeps ev e := by
  unfold mult
  rcases subSolve_mid hL t inp h with ⟨a, b⟩ | ⟨q, e, e', a, b, m, kp, c⟩
  · rw [a, b]; exact Or.inl ⟨rfl, rfl⟩
  · rw [a, b]
    simp only [Option.bind_eq_bind, Option.bind_some]
    have key : (rhs Y t inp junk q e.states e.scratch).map Prod.fst = (rhs Y t inp junk' q e'.states e'.scratch).map Prod.fst := by
      cases hr : Y.sgbcRows with
      | none =>
        rw [rhs_no_layers hr t inp junk q e.states e'.states]
        exact (rhs_clean Y hS t inp q rfl junk junk' e.scratch e'.scratch).1
      | some R => exact (rhs_clean Y hS t inp q (c (by simp [hr])) junk junk' e.scratch e'.scratch).1
    cases h4 : rhs Y t inp junk q e.states e.scratch with
    | none =>
      cases h5 : rhs Y t inp junk' q e'.states e'.scratch with
      | none => exact Or.inl ⟨rfl, rfl⟩
      | some y => simp [h4, h5] at key
    | some x =>
      cases h5 : rhs Y t inp junk' q e'.states e'.scratch with
      | none => simp [h4, h5] at key
      | some y =>
        obtain ⟨o, sc⟩ := x
        obtain ⟨o', sc'⟩ := y
        rw [h4, h5] at key
        obtain rfl : o = o' := by simpa using key
        exact Or.inr ⟨o, _, _, rfl, rfl, ⟨m.frames, m.inner, m.inner', m.held⟩, ⟨kp.base, kp.dt, kp.cp, kp.frames⟩⟩

/-- An explicit step. -/
lemma rk4_mid (hS : InBounds Y) (hL : ∀ tag, Functional (Y.layers tag) ok (p tag)) (x junk junk' : Nat → ℝ) (t dt : ℝ) {ev ev' : Ev σ ℝ}
    (h : Mid ok ev ev') :
    (SimLayer.rk4 Y junk x t dt ev = none ∧ SimLayer.rk4 Y junk' x t dt ev' = none) ∨
    ∃ y e e', SimLayer.rk4 Y junk x t dt ev = some (y, t + dt, e) ∧ SimLayer.rk4 Y junk' x t dt ev' = some (y, t + dt, e') ∧ Mid ok e e' ∧ Keeps ev e := by
  unfold SimLayer.rk4
  rcases mult_mid hS hL t x junk junk' h with ⟨a, b⟩ | ⟨k1, e1, e1', a, b, m1, q1⟩
  · rw [a, b]; exact Or.inl ⟨rfl, rfl⟩
  rw [a, b]; simp only [Option.bind_eq_bind, Option.bind_some]
  rcases mult_mid hS hL (t + dt / 2) (x + (dt / 2) • k1) junk junk' m1 with ⟨a, b⟩ | ⟨k2, e2, e2', a, b, m2, q2⟩
  · rw [a, b]; exact Or.inl ⟨rfl, rfl⟩
  rw [a, b]; simp only [Option.bind_some]
  rcases mult_mid hS hL (t + dt / 2) (x + (dt / 2) • k2) junk junk' m2 with ⟨a, b⟩ | ⟨k3, e3, e3', a, b, m3, q3⟩
  · rw [a, b]; exact Or.inl ⟨rfl, rfl⟩
  rw [a, b]; simp only [Option.bind_some]
  rcases mult_mid hS hL (t + dt) (x + dt • k3) junk junk' m3 with ⟨a, b⟩ | ⟨k4, e4, e4', a, b, m4, q4⟩
  · rw [a, b]; exact Or.inl ⟨rfl, rfl⟩
  rw [a, b]; simp only [Option.bind_some]
  exact Or.inr ⟨_, e4, e4', rfl, rfl, m4, ((q1.trans q2).trans q3).trans q4⟩

lemma finalize_ok (hL : ∀ tag, Functional (Y.layers tag) ok (p tag)) {inp : Nat → ℝ} {ev e : Ev σ ℝ} (hpos : 0 < ev.dt)
    (hok : ∀ tag, ok (ev.ws tag).inner) (h : finalize Y inp ev = some e) : ∀ tag, ok (e.ws tag).inner := by
  simp only [finalize, Option.bind_eq_bind, Option.bind_eq_some_iff] at h
  obtain ⟨sts, -, q, -, h⟩ := h
  split_ifs at h
  · rw [← Option.some.inj h]; exact hok
  · simp only [Option.bind_eq_some_iff, Option.some.injEq, Prod.exists] at h
    obtain ⟨ws, r, h, rfl⟩ := h
    rcases serial_pure hL (finalJob Y ev.base ev.dt) sts (fun st _ j hj => finalJob_pos Y ev.base _ hpos st j hj) ev.ws hok with
      ⟨-, g⟩ | ⟨ws1, r1, g, k, -⟩
    · rw [g] at h; exact absurd h (by simp)
    · rw [g] at h
      simp only [Option.some.injEq, Prod.mk.injEq] at h
      rw [← h.1]; exact k

/-- Two evolution objects between two steps that hold the same layers. -/
structure Same (ok : σ → Prop) (ev ev' : Ev σ ℝ) : Prop where
  layers : ev'.states.map core = ev.states.map core
  inner  : ∀ tag, ok (ev.ws tag).inner
  inner' : ∀ tag, ok (ev'.ws tag).inner

lemma map_frame (l : List (St ℝ)) : l.map frame = (l.map core).map Prod.fst := by simp [core, Function.comp_def]

/-- A whole step. -/
lemma advance_same (hS : InBounds Y) (hL : ∀ tag, Functional (Y.layers tag) ok (p tag)) (x junk junk' : Nat → ℝ) (t dt : ℝ) (hdt : 0 < dt)
    {ev ev' : Ev σ ℝ} (h : Same ok ev ev') :
    (SimLayer.advance Y junk x t dt ev = none ∧ SimLayer.advance Y junk' x t dt ev' = none) ∨
    ∃ y e e', SimLayer.advance Y junk x t dt ev = some (y, t + dt, e) ∧ SimLayer.advance Y junk' x t dt ev' = some (y, t + dt, e') ∧
      Same ok e e' := by
  have hf : ev'.states.map frame = ev.states.map frame := by rw [map_frame, map_frame, h.layers]
  by_cases h0 : ev.states = []
  · have h0' := frame_empty hf h0
    unfold SimLayer.advance
    rw [h0, h0']
    simp only [List.isEmpty_nil, if_true]
    rcases rk4_mid hS hL x junk junk' t dt (⟨hf, h.inner, h.inner', Or.inl h0⟩ : Mid ok ev ev') with ⟨a, b⟩ | ⟨y, e, e', a, b, m, kp⟩
    · exact Or.inl ⟨a, b⟩
    · refine Or.inr ⟨y, e, e', a, b, ?_, m.inner, m.inner'⟩
      have he : e.states = [] := frame_empty kp.frames h0
      rw [he, frame_empty m.frames he]
  · have he : ev.states.isEmpty = false := by simpa using h0
    have he' : ev'.states.isEmpty = false := by
      have : ev'.states ≠ [] := fun h => h0 (frame_empty hf.symm h)
      simpa using this
    unfold SimLayer.advance
    rw [he, he']
    simp only [Bool.false_eq_true, if_false]
    rcases commitAll_rel Y x h.layers.symm ((ev.cp.getD []).map Cp.ghostOld) ((ev'.cp.getD []).map Cp.ghostOld) with
      ⟨g1, g2⟩ | ⟨cs, cs', g1, g2, g3⟩
    · left
      simp [commit, g1, g2]
    · simp only [commit, g1, g2, Option.bind_eq_bind, Option.bind_some]
      rcases rk4_mid hS hL x junk junk' t dt
        (⟨hf, h.inner, h.inner', Or.inr ⟨rfl, rfl, g3⟩⟩ : Mid ok { ev with base := t, dt := dt, cp := some cs }
          { ev' with base := t, dt := dt, cp := some cs' }) with ⟨a, b⟩ | ⟨y, e, e', a, b, m, kp⟩
      · left; rw [a, b]; exact ⟨rfl, rfl⟩
      · rw [a, b]
        simp only [Option.bind_some]
        have hn : e.states ≠ [] := fun he => h0 (frame_empty kp.frames.symm he)
        obtain ⟨hb, hd, hc⟩ := m.held.resolve_left hn
        have hd0 : 0 < e.dt := by rw [kp.dt]; exact hdt
        have hfin := finalize_rel hL y hb hd hd0 m.frames.symm hc m.inner m.inner'
        cases h4 : finalize Y y e with
        | none =>
          cases h5 : finalize Y y e' with
          | none => exact Or.inl ⟨rfl, rfl⟩
          | some z => simp [h4, h5] at hfin
        | some z =>
          cases h5 : finalize Y y e' with
          | none => simp [h4, h5] at hfin
          | some z' =>
            rw [h4, h5] at hfin
            refine Or.inr ⟨y, z, z', rfl, rfl, ?_, finalize_ok hL hd0 m.inner h4, finalize_ok hL (by rw [hd]; exact hd0) m.inner' h5⟩
            simpa using hfin.symm

lemma run_same (hS : InBounds Y) (hL : ∀ tag, Functional (Y.layers tag) ok (p tag)) (junk junk' : Nat → ℝ) (dt final : ℝ) (hdt : 0 < dt) :
    ∀ fuel (s s' : Sim (Nat → ℝ) (Ev σ ℝ) R), SameFields s s' → Same ok s.cache s'.cache →
      Alike (SimLayer.run Y junk dt final fuel s) (SimLayer.run Y junk' dt final fuel s') := by
  intro fuel
  induction fuel with
  | zero =>
    intro s s' h _
    unfold SimLayer.run runWith
    rw [h.time]
    by_cases hk : keepGoing dt final s.time = true
    · rw [if_pos hk, if_pos hk]
      trivial
    · rw [if_neg hk, if_neg hk]
      exact h
  | succ k ih =>
    intro s s' h hc
    unfold SimLayer.run runWith
    rw [h.time]
    by_cases hk : keepGoing dt final s.time = true
    · rw [if_pos hk, if_pos hk]
      simp only
      unfold stepWith
      rw [h.time, h.fields]
      have hpos : 0 < trueDt dt final s.time := by
        have h1 : s.time ≤ final - slack * dt := by simpa [keepGoing] using hk
        have h2 := mul_pos Longer.slack_pos hdt
        exact lt_min hdt (by linarith)
      rcases advance_same hS hL s.fields junk junk' s.time (trueDt dt final s.time) hpos hc with ⟨a, b⟩ | ⟨y, e, e', a, b, m⟩
      · rw [a, b]
        trivial
      · rw [a, b]
        simp only [updateProbes, h.cycle, h.probes]
        cases hu : s.probes.mapM (updateProbe final s.cycle (s.time + trueDt dt final s.time) y) with
        | none => trivial
        | some ps => exact ih _ _ ⟨rfl, rfl, rfl, rfl, m.layers⟩ m
    · rw [if_neg hk, if_neg hk]
      exact h

/-- **C189.** Take two solvers of the same case, with thin layers whose inner integrators are functions of the fields, the
time and the step (C31 shows it of the one in use).  If they hold the same fields, outside and inside the layers, the same
time and the same probes, then after any number of iterations they have ended alike, with the same fields, layers and
records.  What their checkpoints, ghost values, wrappers, factorisations and scratch memory held, and what uninitialised
memory contains, does not matter. -/
theorem C189_no_memory (hS : InBounds Y) (hL : ∀ tag, Functional (Y.layers tag) ok (p tag)) (dt final : ℝ) (hdt : 0 < dt)
    (s s' : Sim (Nat → ℝ) (Ev σ ℝ) R) (hs : ∀ tag, ok (s.cache.ws tag).inner) (hs' : ∀ tag, ok (s'.cache.ws tag).inner)
    (h : SameFields s s') (junk junk' : Nat → ℝ) (fuel : Nat) :
    Alike (SimLayer.run Y junk dt final fuel s) (SimLayer.run Y junk' dt final fuel s') :=
  run_same hS hL junk junk' dt final hdt fuel s s' h ⟨h.layers, hs, hs'⟩

/-- A lit layer, and the same layer with other ghost values. -/
def exSt (g : ℝ) : St ℝ := ⟨7, (0, -1), fun _ => 1, fun k => k, fun _ => g, fun _ => 2 * g⟩

/-- Two objects with that layer: a new one, and one with the checkpoint, wrapper and scratch memory of another history. -/
def exNew : Ev Unit ℝ := ⟨[exSt 0], none, 0, 0, fun _ => ⟨(), fun _ => 0⟩, none⟩
def exOld : Ev Unit ℝ := ⟨[exSt 5], some [⟨fun _ => 8, fun _ => 9⟩], 3, 4, fun _ => ⟨(), fun k => k + 1⟩, some fun _ => 6⟩

example : InBounds AtRest.exSys ∧
    (∀ tag, Functional (AtRest.exSys.layers tag) (fun _ => True) fun x _ _ => some fun k => 2 * x k) ∧
    SameFields (R := ℝ) ⟨0, fun k => k + 3, exNew, 1, [AtRest.exProbe]⟩ ⟨0, fun k => k + 3, exOld, 1, [AtRest.exProbe]⟩ ∧
    exNew.cp.isNone ∧ exOld.cp.isSome := by
  refine ⟨AtRest.exSys_ok.1, fun tag => ⟨fun s x t d _ _ => Or.inr ⟨_, _, rfl, rfl, trivial⟩⟩, ⟨rfl, rfl, rfl, rfl, ?_⟩, rfl, rfl⟩
  simp [exNew, exOld, exSt, core, frame]

end Dgtd.Memory
