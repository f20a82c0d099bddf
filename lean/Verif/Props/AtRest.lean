/-
C188: an empty domain stays empty, with any thin layers.
-/
import Verif.Spec.AtRest
import Verif.Spec.SgbcEvol
import Verif.Lemmas.SgbcEvol
import Verif.Props.SgbcFlux
import Verif.Props.Longer

namespace Dgtd.AtRest
open Dgtd.Simulate Dgtd.SgbcEvol Dgtd.SgbcEvol.Spec Dgtd.Sgbc Spec Dgtd.Watch Dgtd.SimLayer
open Dgtd.Simulate.Spec (Usable)
open Dgtd.Longer (updateProbes_some map_next_ne)
open Dgtd.TimeLoop (slack trueDt keepGoing)

variable {σ R : Type} {Y : Sys σ ℝ}

lemma zero_fun {f : Nat → ℝ} (h : ∀ k, f k = 0) : f = fun _ => 0 := funext h

lemma read3_rest {n : Int} (h : Node Y n) (off : Nat) (ho : off ≤ 3) : read3 Y.ndofs (fun _ => (0 : ℝ)) off n = some fun _ => 0 := by
  obtain ⟨k, rfl⟩ : ∃ k : Nat, n = k := ⟨n.toNat, by have := h.1; omega⟩
  exact read3_nat Y.ndofs (fun _ => 0) off k ho (by have := h.2; omega)

lemma normSq_rest (m : Nat) : normSq m (fun _ => (0 : ℝ)) = 0 := by
  unfold normSq
  induction m with
  | zero => rfl
  | succ m ih => rw [List.range_succ, List.foldl_append, ih]; simp

lemma thr2_pos : (0 : ℝ) < thr2 := by unfold thr2; norm_num

lemma iface_rest {st : St ℝ} (h1 : Node Y st.pair.1) (h2 : st.pair.2 = -1 ∨ Node Y st.pair.2) :
    ifaceNormSq Y.ndofs (fun _ => (0 : ℝ)) st.pair = some 0 := by
  unfold ifaceNormSq
  rw [read3_rest h1 0 (by omega), read3_rest h1 3 (by omega)]
  simp only [Option.bind_eq_bind, Option.bind_some]
  split_ifs with h
  · rw [read3_rest (h2.resolve_left h) 0 (by omega), read3_rest (h2.resolve_left h) 3 (by omega)]
    simp
  · simp

lemma allQuiet_rest : ∀ l : List (St ℝ), Resting Y l → allQuiet Y (fun _ => 0) l = some true
  | [], _ => rfl
  | st :: l, h => by
    obtain ⟨a, b, c⟩ := h st (by simp)
    unfold allQuiet isQuiet
    rw [iface_rest b c, zero_fun a, normSq_rest]
    simp only [Option.bind_eq_bind, Option.bind_some, and_self, thr2_pos, decide_true, if_true]
    exact allQuiet_rest l fun s hs => h s (by simp [hs])

lemma ghost_rest {st : St ℝ} (h1 : Node Y st.pair.1) (h2 : st.pair.2 = -1 ∨ Node Y st.pair.2) (prev : Fin 12 → ℝ) :
    ∃ g, ghostValues Y.ndofs (fun _ => 0) st.rot st.pair prev = some g := by
  unfold ghostValues rotateToLocal
  rw [read3_rest h1 0 (by omega), read3_rest h1 3 (by omega)]
  simp only [Option.bind_eq_bind, Option.bind_some]
  split_ifs with h
  · rw [read3_rest (h2.resolve_left h) 0 (by omega), read3_rest (h2.resolve_left h) 3 (by omega)]
    exact ⟨_, rfl⟩
  · exact ⟨_, rfl⟩

/-- A checkpoint of resting layers. -/
def Held (n : Nat) (cs : List (Cp ℝ)) : Prop := n ≤ cs.length ∧ ∀ c ∈ cs.take n, ∀ k, c.fields k = 0

lemma commitAll_rest : ∀ (l : List (St ℝ)) (prevs : List (Fin 12 → ℝ)), Resting Y l →
    ∃ cs, commitAll Y (fun _ => 0) l prevs = some cs ∧ Held l.length cs
  | [], _, _ => ⟨[], rfl, le_rfl, by simp⟩
  | st :: l, prevs, h => by
    obtain ⟨a, b, c⟩ := h st (by simp)
    obtain ⟨g, hg⟩ := ghost_rest b c (prevs.headD 0)
    obtain ⟨cs, e, n, z⟩ := commitAll_rest l prevs.tail fun s hs => h s (by simp [hs])
    refine ⟨⟨st.fields, g⟩ :: cs, ?_, by simpa using n, ?_⟩
    · unfold commitAll commit1
      rw [hg, e]
      rfl
    · intro c hc
      rw [List.length_cons, List.take_succ_cons] at hc
      rcases List.mem_cons.1 hc with rfl | hc
      · exact a
      · exact z c hc

lemma restore_rest : ∀ (l : List (St ℝ)) (cs : List (Cp ℝ)), Resting Y l → Held l.length cs →
    ∃ l', restore l cs = some l' ∧ Resting Y l' ∧ l'.length = l.length
  | [], _, _, _ => ⟨[], rfl, by simp [Resting], rfl⟩
  | _ :: _, [], _, h => by simp [Held] at h
  | st :: l, c :: cs, h, hc => by
    obtain ⟨l', e, r, n⟩ := restore_rest l cs (fun s hs => h s (by simp [hs])) ⟨by simpa using hc.1, fun d hd => hc.2 d (by simp [hd])⟩
    refine ⟨{ st with fields := c.fields } :: l', by simp [restore, e], ?_, by simp [n]⟩
    intro s hs
    rcases List.mem_cons.1 hs with rfl | hs
    · exact ⟨hc.2 c (by simp), (h st (by simp)).2⟩
    · exact r s hs

lemma finalRestore_rest : ∀ (l : List (St ℝ)) (cs : List (Cp ℝ)), Resting Y l → Held l.length cs →
    ∃ l', finalRestore Y (fun _ => 0) l cs = some l' ∧ Resting Y l'
  | [], _, _, _ => ⟨[], rfl, by simp [Resting]⟩
  | _ :: _, [], _, h => by simp [Held] at h
  | st :: l, c :: cs, h, hc => by
    obtain ⟨a, b, b2⟩ := h st (by simp)
    obtain ⟨g, hg⟩ := ghost_rest b b2 st.ghostNew
    obtain ⟨l', e, r⟩ := finalRestore_rest l cs (fun s hs => h s (by simp [hs])) ⟨by simpa using hc.1, fun d hd => hc.2 d (by simp [hd])⟩
    refine ⟨{ st with fields := c.fields, ghostOld := c.ghostOld, ghostNew := g } :: l', ?_, ?_⟩
    · unfold finalRestore
      rw [hg, e]
      rfl
    · intro s hs
      rcases List.mem_cons.1 hs with rfl | hs
      · exact ⟨hc.2 c (by simp), b, b2⟩
      · exact r s hs

lemma rowDot_rest (row : List (Nat × ℝ)) (w : Nat → ℝ) (h : ∀ e ∈ row, w e.1 = 0) : rowDot row w = 0 := by
  have : ∀ (l : List (Nat × ℝ)) (a : ℝ), (∀ e ∈ l, w e.1 = 0) → l.foldl (fun s e => s + e.2 * w e.1) a = a := by
    intro l
    induction l with
    | nil => intro a _; rfl
    | cons e l ih =>
      intro a h
      rw [List.foldl_cons, h e (by simp), mul_zero, add_zero]
      exact ih a fun e he => h e (by simp [he])
  exact this row 0 h

lemma source_rest {T : Tfsf ℝ} (h : ∀ t c v, T.val t c v = 0) (t : ℝ) : sourceNormSq T t < thr2 := by
  have : ∀ (l : List (Fin 6)), l.foldl (fun s c => s + normSq T.ids.length (T.val t c)) 0 = 0 := by
    intro l
    induction l using List.reverseRecOn with
    | nil => rfl
    | append_singleton l c ih =>
      rw [List.foldl_append, ih]
      simp only [List.foldl_cons, List.foldl_nil, zero_add]
      rw [show T.val t c = fun _ => (0 : ℝ) from zero_fun fun v => h t c v]
      exact normSq_rest _
  unfold sourceNormSq
  rw [this]
  exact thr2_pos

/-- The right-hand side of nothing is nothing, and leaves resting layers. -/
lemma mult_rest (hS : InBounds Y) (hd : Dark Y) (t : ℝ) (junk : Nat → ℝ) (ev : Ev σ ℝ) (hr : Resting Y ev.states)
    (hc : Y.sgbcRows ≠ none → Held ev.states.length (ev.cp.getD [])) :
    ∃ ev', mult Y t (fun _ => 0) junk ev = some (fun _ => 0, ev') ∧ Resting Y ev'.states ∧ ev'.cp = ev.cp ∧
      ev'.states.length = ev.states.length := by
  have hsub : ∃ q ev', subSolve Y t (fun _ => 0) ev = some (q, ev') ∧ (Y.sgbcRows ≠ none → q = true) ∧ Resting Y ev'.states ∧
      ev'.cp = ev.cp ∧ ev'.states.length = ev.states.length := by
    unfold subSolve
    cases hR : Y.sgbcRows with
    | none => exact ⟨false, ev, rfl, fun h => absurd rfl h, hr, rfl, rfl⟩
    | some rows =>
      obtain ⟨l', e, r, n⟩ := restore_rest ev.states (ev.cp.getD []) hr (hc (by simp [hR]))
      refine ⟨true, { ev with states := l' }, ?_, fun _ => rfl, r, rfl, n⟩
      simp [e, allQuiet_rest l' r]
  obtain ⟨q, ev', e1, hq, r, c, n⟩ := hsub
  obtain ⟨w, hw⟩ := assemble_completes Y (fun _ => 0) (ev'.scratch.getD junk)
  have hz : mulRows Y.globalRows w = fun _ => 0 := by
    funext i
    refine rowDot_rest _ _ fun e he => ?_
    refine exec_value hw e.1 0 (fun v hv _ => ?_) (assemble_covers Y _ e.1 (hS.global i e he))
    simp only [assembleWrites, List.mem_append, List.mem_flatMap, List.mem_finRange, true_and, List.mem_map, List.mem_range] at hv
    rcases hv with ⟨c, i, hi, rfl⟩ | ⟨c, i, hi, rfl⟩
    · rfl
    · exact hd.exchange c i
  have hrhs : ∃ sc, rhs Y t (fun _ => 0) junk q ev'.states ev'.scratch = some (fun _ => 0, sc) := by
    unfold rhs
    rw [hw]
    simp only [Option.bind_eq_bind, Option.bind_some, hz]
    have ha : ∃ sc, applyTfsf Y t (fun _ => 0) (some (zeroed (6 * Y.B) w)) = some (fun _ => 0, sc) := by
      unfold applyTfsf
      cases hT : Y.tfsf with
      | none => exact ⟨_, rfl⟩
      | some T => simp only [source_rest (hd.source T hT) t, if_true]; exact ⟨_, rfl⟩
    obtain ⟨sc, hsc⟩ := ha
    rw [hsc]
    cases hR : Y.sgbcRows with
    | none => exact ⟨sc, rfl⟩
    | some rows => simp only [Option.bind_some, hq (by simp [hR]), if_true]; exact ⟨sc, rfl⟩
  obtain ⟨sc, hsc⟩ := hrhs
  refine ⟨{ ev' with scratch := sc }, ?_, r, c, n⟩
  unfold mult
  rw [e1]
  simp only [Option.bind_eq_bind, Option.bind_some, hsc]

lemma rk4_rest (hS : InBounds Y) (hd : Dark Y) (junk : Nat → ℝ) (t dt : ℝ) (ev : Ev σ ℝ) (hr : Resting Y ev.states)
    (hc : Y.sgbcRows ≠ none → Held ev.states.length (ev.cp.getD [])) :
    ∃ ev', SimLayer.rk4 Y junk (fun _ => 0) t dt ev = some (fun _ => 0, t + dt, ev') ∧ Resting Y ev'.states ∧ ev'.cp = ev.cp ∧
      ev'.states.length = ev.states.length := by
  obtain ⟨e1, m1, r1, c1, n1⟩ := mult_rest hS hd t junk ev hr hc
  obtain ⟨e2, m2, r2, c2, n2⟩ := mult_rest hS hd (t + dt / 2) junk e1 r1 (by rw [c1, n1]; exact hc)
  obtain ⟨e3, m3, r3, c3, n3⟩ := mult_rest hS hd (t + dt / 2) junk e2 r2 (by rw [c2, n2, c1, n1]; exact hc)
  obtain ⟨e4, m4, r4, c4, n4⟩ := mult_rest hS hd (t + dt) junk e3 r3 (by rw [c3, n3, c2, n2, c1, n1]; exact hc)
  have z : ∀ a : ℝ, ((fun _ => 0 : Nat → ℝ) + a • fun _ => 0) = fun _ => 0 := fun a => by funext k; simp
  refine ⟨e4, ?_, r4, by rw [c4, c3, c2, c1], by rw [n4, n3, n2, n1]⟩
  unfold SimLayer.rk4
  simp only [m1, Option.bind_eq_bind, Option.bind_some, z, m2, m3, m4]

lemma advance_rest (hS : InBounds Y) (hd : Dark Y) (junk : Nat → ℝ) (t dt : ℝ) (ev : Ev σ ℝ) (hr : Resting Y ev.states) :
    ∃ ev', SimLayer.advance Y junk (fun _ => 0) t dt ev = some (fun _ => 0, t + dt, ev') ∧ Resting Y ev'.states := by
  unfold SimLayer.advance
  by_cases he : ev.states.isEmpty = true
  · rw [if_pos he]
    obtain ⟨ev', e, r, -, -⟩ := rk4_rest hS hd junk t dt ev hr fun _ => by
      rw [List.isEmpty_iff.1 he]
      exact ⟨Nat.zero_le _, by simp⟩
    exact ⟨ev', e, r⟩
  · rw [if_neg he]
    obtain ⟨cs, h1, h2⟩ := commitAll_rest (Y := Y) ev.states ((ev.cp.getD []).map Cp.ghostOld) hr
    obtain ⟨e2, m2, r2, c2, n2⟩ := rk4_rest hS hd junk t dt { ev with base := t, dt := dt, cp := some cs } hr fun _ => h2
    obtain ⟨l', h3, r3⟩ := finalRestore_rest e2.states (e2.cp.getD []) r2 (by rw [c2, n2]; exact h2)
    refine ⟨{ e2 with states := l' }, ?_, r3⟩
    simp only [commit, h1, Option.bind_eq_bind, Option.bind_some, m2, finalize, h3, allQuiet_rest l' r3, if_true]

/-- Nothing has happened, and the probes have intervals. -/
def Inv (Y : Sys σ ℝ) (s : Sim (Nat → ℝ) (Ev σ ℝ) R) : Prop := Empty Y s ∧ ∀ p ∈ s.probes, p.steps ≠ 0

lemma update_empty (final : ℝ) (s : Sim (Nat → ℝ) (Ev σ ℝ) R) (h : Inv Y s) :
    ∃ s', updateProbes final s = some s' ∧ Inv Y s' ∧ s'.time = s.time := by
  refine ⟨_, updateProbes_some final s h.2, ⟨⟨h.1.fields, h.1.layers, ?_⟩, map_next_ne h.2⟩, rfl⟩
  intro p hp r hr
  obtain ⟨q, hq, rfl⟩ := List.mem_map.1 hp
  have hn := (update_next final s.cycle s.time s.fields q (h.2 q hq)).1
  unfold updateProbe at hn
  split at hn
  · exact absurd hn (by simp)
  · split_ifs at hn
    · have hn := Option.some.inj hn
      rw [← hn] at hr ⊢
      rcases List.mem_append.1 hr with hr | hr
      · exact h.1.seen q hq r hr
      · obtain rfl := List.mem_singleton.1 hr
        simp only
        rw [zero_fun h.1.fields]
    · have hn := Option.some.inj hn
      rw [← hn] at hr ⊢
      exact h.1.seen q hq r hr

lemma step_empty (hS : InBounds Y) (hd : Dark Y) (junk : Nat → ℝ) (dt final : ℝ) (s : Sim (Nat → ℝ) (Ev σ ℝ) R) (h : Inv Y s) :
    ∃ s', stepWith (SimLayer.advance Y junk) dt final s = some s' ∧ Inv Y s' ∧ s'.time = s.time + trueDt dt final s.time := by
  obtain ⟨ev', e, r⟩ := advance_rest hS hd junk s.time (trueDt dt final s.time) s.cache h.1.layers
  obtain ⟨s', u, i, t⟩ := update_empty (Y := Y) final
    { s with time := s.time + trueDt dt final s.time, fields := fun _ => 0, cache := ev' } ⟨⟨fun _ => rfl, r, h.1.seen⟩, h.2⟩
  refine ⟨s', ?_, i, t⟩
  unfold stepWith
  rw [zero_fun h.1.fields, e]
  exact u

lemma run_empty (hS : InBounds Y) (hd : Dark Y) (junk : Nat → ℝ) (dt final : ℝ) (hdt : 0 < dt) : ∀ (n fuel : Nat)
    (s : Sim (Nat → ℝ) (Ev σ ℝ) R), n ≤ fuel → final - s.time ≤ n * dt → Inv Y s →
    ∃ r, SimLayer.run Y junk dt final fuel s = .done r ∧ Inv Y r := by
  have hstop : ∀ (fuel : Nat) (s : Sim (Nat → ℝ) (Ev σ ℝ) R), ¬ keepGoing dt final s.time = true →
      SimLayer.run Y junk dt final fuel s = .done s := by
    intro fuel s h
    unfold SimLayer.run runWith
    rw [if_neg h]
  intro n
  induction n with
  | zero =>
    intro fuel s _ ht h
    refine ⟨s, hstop fuel s ?_, h⟩
    simp only [keepGoing, decide_eq_true_eq, not_le]
    have := mul_pos Longer.slack_pos hdt
    norm_num at ht
    linarith
  | succ n ih =>
    intro fuel s hf ht h
    by_cases hk : keepGoing dt final s.time = true
    · obtain ⟨k, rfl⟩ : ∃ k, fuel = k + 1 := ⟨fuel - 1, by omega⟩
      obtain ⟨s', e, i, t⟩ := step_empty hS hd junk dt final s h
      obtain ⟨r, hr, hi⟩ := ih k s' (by omega) (by
        rw [t]
        unfold trueDt
        have : (0 : ℝ) ≤ n * dt := by positivity
        push_cast at ht
        rcases min_choice dt (final - s.time) with e | e <;> rw [e] <;> linarith) i
      refine ⟨r, ?_, hi⟩
      unfold SimLayer.run runWith
      rw [if_pos hk]
      simp only [e]
      exact hr
    · exact ⟨s, hstop fuel s hk, h⟩

/-- **C188.** Take a case with any number of thin layers, with any inner integrators, no incident field and no initial
field, outside or inside the layers.  The run ends, whatever memory contained before, and at its end there is no field
anywhere: neither in the domain nor in a layer, and every record of every probe is what the probe reads of a domain without
fields. -/
theorem C188_empty (hS : InBounds Y) (hd : Dark Y) (lobatto : Nat → List ℝ) (m : TimeStep.Setup) (opts : TimeStep.Options)
    (ev : Ev σ ℝ) (hr : Resting Y ev.states) (ps : List (Probe (Nat → ℝ) R)) (hps : Usable ps) (hnew : ∀ p ∈ ps, p.recs = [])
    (dt : ℝ) (hdt : 0 < dt) (ode : TimeInt.Ode) (s : Sim (Nat → ℝ) (Ev σ ℝ) R)
    (h : construct lobatto m opts (fun _ => 0) ev ps = .ok (dt, ode, s)) (junk : Nat → ℝ) :
    ∃ N, ∀ fuel, N ≤ fuel → ∃ r, SimLayer.run Y junk dt opts.finalTime fuel s = .done r ∧ Empty Y r := by
  have hs : Inv Y s := by
    unfold construct at h
    simp only [bind, Except.bind] at h
    split at h
    · exact absurd h (by simp)
    · rename_i y _
      split at h
      · exact absurd h (by simp)
      · split at h
        · exact absurd h (by simp)
        · rename_i s0 hu
          simp only [Except.ok.injEq, Prod.mk.injEq] at h
          obtain ⟨hy, -, rfl⟩ := h
          rw [hy] at hu
          have hseen : ∀ p ∈ ps.map (recalculate opts.finalTime dt), ∀ r ∈ p.recs, r.2.2 = p.read fun _ => 0 := by
            intro p hp
            obtain ⟨q, hq, rfl⟩ := List.mem_map.1 hp
            have : (recalculate opts.finalTime dt q).recs = q.recs := by
              unfold recalculate
              split_ifs <;> rfl
            simp [this, hnew q hq]
          obtain ⟨s', u, i, -⟩ := update_empty (Y := Y) opts.finalTime
            ⟨0, fun _ => 0, ev, 0, ps.map (recalculate opts.finalTime dt)⟩ ⟨⟨fun _ => rfl, hr, hseen⟩, interval_ne hdt hps⟩
          rw [hu] at u
          exact Option.some.inj u ▸ i
  obtain ⟨n, hn⟩ := exists_nat_ge ((opts.finalTime - s.time) / dt)
  refine ⟨n, fun fuel hf => ?_⟩
  obtain ⟨r, e, i⟩ := run_empty hS hd junk dt opts.finalTime hdt n fuel s hf ((div_le_iff₀ hdt).1 hn) hs
  exact ⟨r, e, i.1⟩

/-- One layer of two nodes behind the only node of a domain; its inner integrator would double the fields. -/
def exSys : Sys Unit ℝ where
  ndofs := 1
  nbr := 0
  layers := fun _ => ⟨2, 1, 1, .PEC, .PEC, fun _ x _ _ => some (fun k => 2 * x k, ())⟩
  globalRows := fun r => if r < 6 then [(5 - r, 3)] else []
  tfsf := none
  sgbcRows := some fun r => if r < 6 then [(r, 1)] else []
  elem1 := [0]
  elem2 := []
  nbrData := fun _ _ _ => 0

/-- It is empty. -/
def exEv : Ev Unit ℝ := ⟨[⟨7, (0, -1), fun _ => 1, fun _ => 0, fun _ => 0, fun _ => 0⟩], none, 0, 0, fun _ => ⟨(), fun _ => 9⟩, none⟩

lemma exSys_ok : InBounds exSys ∧ Dark exSys ∧ Resting exSys exEv.states := by
  refine ⟨⟨?_, ?_, ?_⟩, ⟨?_, fun _ _ => rfl⟩, ?_⟩
  · intro r e he
    simp only [exSys] at he
    split_ifs at he with h
    · obtain rfl := List.mem_singleton.1 he
      simp only [exSys, Sys.B]; omega
    · simp at he
  · intro T h; simp [exSys] at h
  · intro T h r e he
    simp only [exSys, Option.some.injEq] at h
    subst h
    simp only at he
    split_ifs at he with h
    · obtain rfl := List.mem_singleton.1 he
      simp only [exSys, Sys.B]; omega
    · simp at he
  · intro T h; simp [exSys] at h
  · intro st hst
    obtain rfl := List.mem_singleton.1 hst
    exact ⟨fun _ => rfl, ⟨le_rfl, by norm_num [exSys]⟩, Or.inl rfl⟩

/-- A probe of the first node at every second instant. -/
def exProbe : Probe (Nat → ℝ) ℝ := ⟨2, 0, true, fun x => x 0, []⟩

lemma ex_construct (lobatto : Nat → List ℝ) (m : TimeStep.Setup) (T : ℝ) (hT : 0 ≤ T) : ∃ s : Sim (Nat → ℝ) (Ev Unit ℝ) ℝ,
    construct lobatto m ⟨1, T, 1, 0, .global, 0⟩ (fun _ => 0) exEv [exProbe] = .ok (1, .rk4, s) := by
  have hv : TimeStep.construct (TimeStep.estimateTimeStep lobatto m) ⟨1, T, 1, 0, .global, 0⟩ 0 = .ok (1, 0) := by
    unfold TimeStep.construct TimeStep.checkOptions TimeStep.assignOde
    norm_num [bind, Except.bind, pure, Except.pure, not_lt.2 hT]
  unfold construct
  rw [hv]
  simp only [bind, Except.bind, TimeInt.assignOde]
  rw [updateProbes_some T ⟨0, (fun _ => (0 : ℝ)), exEv, 0, [exProbe].map (recalculate T 1)⟩ (by simp [exProbe, recalculate])]
  exact ⟨_, rfl⟩

/-- C188 applies to it, and so does C187 with final times 5 and 9. -/
example (lobatto : Nat → List ℝ) (m : TimeStep.Setup) (junk : Nat → ℝ) : Longer.Spec.InSteps [exProbe] ∧
    ∃ s s' : Sim (Nat → ℝ) (Ev Unit ℝ) ℝ,
      construct lobatto m ⟨1, 5, 1, 0, .global, 0⟩ (fun _ => 0) exEv [exProbe] = .ok (1, .rk4, s) ∧
      construct lobatto m { (⟨1, 5, 1, 0, .global, 0⟩ : TimeStep.Options) with finalTime := 9 } (fun _ => 0) exEv [exProbe] =
        .ok (1, .rk4, s') ∧
      ∃ fuel fuel' r r', SimLayer.run exSys junk 1 5 fuel s = .done r ∧ SimLayer.run exSys junk 1 9 fuel' s' = .done r' := by
  have hu : Usable [exProbe] := by simp [Usable, exProbe]
  have hn : ∀ p ∈ [exProbe], p.recs = [] := by simp [exProbe]
  obtain ⟨s, h⟩ := ex_construct lobatto m 5 (by norm_num)
  obtain ⟨s', h'⟩ := ex_construct lobatto m 9 (by norm_num)
  obtain ⟨N, e⟩ := C188_empty exSys_ok.1 exSys_ok.2.1 lobatto m _ exEv exSys_ok.2.2 _ hu hn 1 one_pos _ s h junk
  obtain ⟨N', e'⟩ := C188_empty exSys_ok.1 exSys_ok.2.1 lobatto m _ exEv exSys_ok.2.2 _ hu hn 1 one_pos _ s' h' junk
  obtain ⟨r, hr, -⟩ := e N le_rfl
  obtain ⟨r', hr', -⟩ := e' N' le_rfl
  exact ⟨by simp [Longer.Spec.InSteps, exProbe], s, s', h, h', N, N', r, r', hr, hr'⟩

end Dgtd.AtRest
