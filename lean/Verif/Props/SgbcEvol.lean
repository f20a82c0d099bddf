/-
C25, C26, C29, C30: the thin-layer part of the evolution object.
-/
import Verif.Lemmas.SgbcPar

set_option linter.unusedSectionVars false
set_option linter.unusedSimpArgs false

namespace Dgtd.SgbcEvol

open Sgbc Spec

variable {σ K : Type} [Field K] [LinearOrder K] [IsStrictOrderedRing K] [FloorRing K]

/-- What an evaluation leaves alone. -/
structure Keeps (ev ev' : Ev σ K) : Prop where
  base : ev'.base = ev.base
  dt : ev'.dt = ev.dt
  cp : ev'.cp = ev.cp
  frames : ev'.states.map frame = ev.states.map frame

lemma Keeps.refl (ev : Ev σ K) : Keeps ev ev := ⟨rfl, rfl, rfl, rfl⟩

lemma Keeps.trans {a b c : Ev σ K} (h : Keeps a b) (g : Keeps b c) : Keeps a c :=
  ⟨g.base.trans h.base, g.dt.trans h.dt, g.cp.trans h.cp, g.frames.trans h.frames⟩

lemma subSolve_keeps {S : Sys σ K} {ok : σ → Prop} {p : Int → (Nat → K) → K → K → Option (Nat → K)}
    (hL : ∀ tag, Functional (S.layers tag) ok (p tag)) {t : K} {inp : Nat → K} {ev e : Ev σ K} {q : Bool}
    (hok : ∀ tag, ok (ev.ws tag).inner) (h : subSolve S t inp ev = some (q, e)) :
    Keeps ev e ∧ (∀ tag, ok (e.ws tag).inner) ∧ e.scratch = ev.scratch := by
  unfold subSolve at h
  cases hr : S.sgbcRows with
  | none =>
    simp only [hr, Option.some.injEq, Prod.mk.injEq] at h
    obtain ⟨rfl, rfl⟩ := h
    exact ⟨Keeps.refl ev, hok, rfl⟩
  | some R =>
    simp only [hr, Option.bind_eq_bind, Option.bind_eq_some_iff] at h
    obtain ⟨sts, h1, q', h2, h3⟩ := h
    split at h3
    · rename_i hc
      simp only [Option.bind_eq_bind, Option.bind_eq_some_iff, Option.some.injEq, Prod.mk.injEq] at h3
      obtain ⟨⟨ws, sts'⟩, h4, rfl, rfl⟩ := h3
      have hpos : 0 < t - ev.base := lt_trans (by norm_num) hc.2
      rcases serial_pure hL (multJob S ev.base (t - ev.base) inp) sts
        (fun st _ j hj => multJob_pos S ev.base _ hpos inp st j hj) ev.ws hok with ⟨-, g⟩ | ⟨ws', r, g1, g2, g3⟩
      · rw [h4] at g; exact absurd g (by simp)
      · rw [h4, Option.some.injEq, Prod.mk.injEq] at g1
        obtain ⟨rfl, rfl⟩ := g1
        exact ⟨⟨rfl, rfl, rfl, (advanceAll_frame g3).trans (restore_frame h1)⟩, g2, rfl⟩
    · simp only [Option.some.injEq, Prod.mk.injEq] at h3
      obtain ⟨rfl, rfl⟩ := h3
      exact ⟨⟨rfl, rfl, rfl, restore_frame h1⟩, hok, rfl⟩

/-- The sub-solves of a stage start from the checkpoint: same result from any two objects with the same
checkpoint. -/
lemma subSolve_same {S : Sys σ K} {ok : σ → Prop} {p : Int → (Nat → K) → K → K → Option (Nat → K)}
    (hL : ∀ tag, Functional (S.layers tag) ok (p tag)) (t : K) (inp : Nat → K) {ev ev' : Ev σ K}
    (hk : Keeps ev ev') (hok : ∀ tag, ok (ev.ws tag).inner) (hok' : ∀ tag, ok (ev'.ws tag).inner) :
    (subSolve S t inp ev = none ∧ subSolve S t inp ev' = none) ∨
    ∃ q e e', subSolve S t inp ev = some (q, e) ∧ subSolve S t inp ev' = some (q, e') ∧
      (S.sgbcRows ≠ none → e.states.map core = e'.states.map core) := by
  cases hr : S.sgbcRows with
  | none =>
    right
    exact ⟨false, ev, ev', by simp [subSolve, hr], by simp [subSolve, hr], by simp⟩
  | some R =>
    have hrc := restore_core hk.frames (ev.cp.getD [])
    rw [← hk.cp] at hrc
    cases h1 : restore ev'.states (ev'.cp.getD []) with
    | none =>
      rw [h1] at hrc
      have h2 : restore ev.states (ev'.cp.getD []) = none := by
        cases h2 : restore ev.states (ev'.cp.getD []) with
        | none => rfl
        | some x => rw [h2] at hrc; exact absurd hrc (by simp)
      left
      rw [hk.cp] at h2
      exact ⟨by simp [subSolve, hr, h2], by simp [subSolve, hr, h1]⟩
    | some sts' =>
      rw [h1] at hrc
      cases h2 : restore ev.states (ev'.cp.getD []) with
      | none => rw [h2] at hrc; exact absurd hrc (by simp)
      | some sts =>
        rw [h2] at hrc
        simp only [Option.map_some, Option.some.injEq] at hrc
        rw [hk.cp] at h2
        have hq := allQuiet_core S inp hrc
        cases hq1 : allQuiet S inp sts with
        | none =>
          rw [hq1] at hq
          left
          exact ⟨by simp [subSolve, hr, h2, hq1], by simp [subSolve, hr, h1, hq]⟩
        | some q =>
          rw [hq1] at hq
          by_cases hc : q = false ∧ t - ev.base > 1 / 1000000000000
          · have hpos : 0 < t - ev.base := lt_trans (by norm_num) hc.2
            have ha := advanceAll_core (p := p) (job := multJob S ev.base (t - ev.base) inp)
              (fun st st' h => multJob_core S _ _ inp h) hrc
            rcases serial_pure hL (multJob S ev.base (t - ev.base) inp) sts
              (fun st _ j hj => multJob_pos S ev.base _ hpos inp st j hj) ev.ws hok
              with ⟨g1, g2⟩ | ⟨ws1, r1, g1, -, g3⟩
            · rcases serial_pure hL (multJob S ev.base (t - ev.base) inp) sts'
                (fun st _ j hj => multJob_pos S ev.base _ hpos inp st j hj) ev'.ws hok'
                with ⟨g1', g2'⟩ | ⟨ws2, r2, g1', -, g3'⟩
              · left
                refine ⟨?_, ?_⟩
                · simp only [subSolve, hr, h2, hq1, Option.bind_eq_bind, Option.bind_some, if_pos hc, g2, Option.bind_none]
                · simp only [subSolve, hr, h1, hq, Option.bind_eq_bind, Option.bind_some, hk.base, if_pos hc, g2', Option.bind_none]
              · rw [g1, g3'] at ha; exact absurd ha (by simp)
            · rcases serial_pure hL (multJob S ev.base (t - ev.base) inp) sts'
                (fun st _ j hj => multJob_pos S ev.base _ hpos inp st j hj) ev'.ws hok'
                with ⟨g1', g2'⟩ | ⟨ws2, r2, g1', -, g3'⟩
              · rw [g1', g3] at ha; exact absurd ha (by simp)
              · right
                refine ⟨q, { ev with states := r1, ws := ws1 }, { ev' with states := r2, ws := ws2 }, ?_, ?_, ?_⟩
                · simp only [subSolve, hr, h2, hq1, Option.bind_eq_bind, Option.bind_some, if_pos hc, g1]
                · simp only [subSolve, hr, h1, hq, Option.bind_eq_bind, Option.bind_some, hk.base, if_pos hc, g1']
                · intro _
                  rw [g3, g3'] at ha
                  simpa using ha.symm
          · have hc' : ¬(q = false ∧ t - ev'.base > 1 / 1000000000000) := by rw [hk.base]; exact hc
            right
            refine ⟨q, { ev with states := sts }, { ev' with states := sts' }, ?_, ?_, fun _ => hrc.symm⟩
            · simp only [subSolve, hr, h2, hq1, Option.bind_eq_bind, Option.bind_some, if_neg hc]
            · simp only [subSolve, hr, h1, hq, Option.bind_eq_bind, Option.bind_some, if_neg hc']

/-- Without thin layers the right-hand side does not read the layer states. -/
lemma rhs_no_layers {S : Sys σ K} (hS : S.sgbcRows = none) (t : K) (inp junk : Nat → K) (q : Bool)
    (sts sts' : List (St K)) (sc : Option (Nat → K)) : rhs S t inp junk q sts sc = rhs S t inp junk q sts' sc := by
  simp only [rhs, hS]

/-- The scratch storage is unsized or zero. -/
def Clean (S : Sys σ K) (ev : Ev σ K) : Prop := ∀ w, ev.scratch = some w → ∀ k, k < 6 * S.B → w k = 0

lemma mult_clean {S : Sys σ K} (hS : InBounds S) {t : K} {inp junk : Nat → K} {ev ev' : Ev σ K} {out : Nat → K}
    (h : mult S t inp junk ev = some (out, ev')) : Clean S ev' := by
  simp only [mult, Option.bind_eq_bind, Option.bind_eq_some_iff, Option.some.injEq, Prod.mk.injEq] at h
  obtain ⟨⟨q, e⟩, h1, ⟨o, sc⟩, h2, rfl, rfl⟩ := h
  obtain ⟨w, hw, hz⟩ := (rhs_clean S hS t inp q (rfl : e.states.map core = _) junk junk e.scratch e.scratch).2 o sc h2
  intro w' hw' k hk
  simp only [hw, Option.some.injEq] at hw'
  subst hw'
  exact hz k hk

lemma applyTfsf_none {S : Sys σ K} {T : Tfsf K} (hT : S.tfsf = some T) (t : K) (out : Nat → K) :
    applyTfsf S t out none = applyTfsf S t out (some fun _ => 0) := by
  simp [applyTfsf, hT]

lemma implicit_clean {S : Sys σ K} (hS : InBounds S) {t : K} {x junk : Nat → K} {ev ev' : Ev σ K}
    {out : Nat → K} (hc : Clean S ev) (h : implicitRhs S t x junk ev = some (out, ev')) :
    Clean S ev' ∧ ev'.ws = ev.ws ∧ Keeps ev ev' := by
  simp only [implicitRhs, Option.bind_eq_bind, Option.bind_eq_some_iff] at h
  obtain ⟨w, h1, h2⟩ := h
  cases hT : S.tfsf with
  | none =>
    simp only [hT, Option.some.injEq, Prod.mk.injEq] at h2
    obtain ⟨rfl, rfl⟩ := h2
    exact ⟨hc, rfl, Keeps.refl ev⟩
  | some T =>
    simp only [hT, Option.bind_eq_some_iff, Option.some.injEq, Prod.mk.injEq] at h2
    obtain ⟨⟨src, sc⟩, h3, -, rfl⟩ := h2
    refine ⟨?_, rfl, ⟨rfl, rfl, rfl, rfl⟩⟩
    have key : ∃ v : Nat → K, IsZero (6 * S.B) v ∧ applyTfsf S t (fun _ => 0) (some v) = some (src, sc) := by
      cases hs : ev.scratch with
      | none => exact ⟨fun _ => 0, fun _ _ => rfl, by rw [← applyTfsf_none hT, ← hs, h3]⟩
      | some v => exact ⟨v, fun k hk => hc v hs k hk, by rw [← hs, h3]⟩
    obtain ⟨v, hv, h4⟩ := key
    obtain ⟨w', hw', hz⟩ := (applyTfsf_clean S hS t (fun _ => 0) v hv).2 src sc h4
    intro w'' hw'' k hk
    simp only [hw', Option.some.injEq] at hw''
    subst hw''
    exact hz k hk

lemma answer_keeps {S : Sys σ K} (hS : InBounds S) {ok : σ → Prop}
    {p : Int → (Nat → K) → K → K → Option (Nat → K)}
    (hL : ∀ tag, Functional (S.layers tag) ok (p tag)) {c : Call K} {ev ev' : Ev σ K} {out : Nat → K}
    (hok : ∀ tag, ok (ev.ws tag).inner) (hc : Clean S ev) (h : answer S c ev = some (out, ev')) :
    Keeps ev ev' ∧ (∀ tag, ok (ev'.ws tag).inner) ∧ Clean S ev' := by
  cases c with
  | explicit t inp junk =>
    have h0 := h
    simp only [answer, mult, Option.bind_eq_bind, Option.bind_eq_some_iff, Option.some.injEq, Prod.mk.injEq] at h
    obtain ⟨⟨q, e⟩, h1, ⟨o, sc⟩, h2, rfl, rfl⟩ := h
    obtain ⟨g1, g2, -⟩ := subSolve_keeps hL hok h1
    exact ⟨⟨g1.base, g1.dt, g1.cp, g1.frames⟩, g2, mult_clean hS h0⟩
  | implicit t x junk =>
    obtain ⟨g1, g2, g3⟩ := implicit_clean hS hc h
    exact ⟨g3, by rw [g2]; exact hok, g1⟩

lemma history_keeps {S : Sys σ K} (hS : InBounds S) {ok : σ → Prop}
    {p : Int → (Nat → K) → K → K → Option (Nat → K)}
    (hL : ∀ tag, Functional (S.layers tag) ok (p tag)) (calls : List (Call K)) {ev ev' : Ev σ K}
    (hok : ∀ tag, ok (ev.ws tag).inner) (hc : Clean S ev) (h : history S ev calls = some ev') :
    Keeps ev ev' ∧ (∀ tag, ok (ev'.ws tag).inner) ∧ Clean S ev' := by
  induction calls generalizing ev with
  | nil =>
    simp only [history, Option.some.injEq] at h
    subst h
    exact ⟨Keeps.refl ev, hok, hc⟩
  | cons c r ih =>
    simp only [history, Option.bind_eq_some_iff] at h
    obtain ⟨⟨o, e⟩, h1, h2⟩ := h
    obtain ⟨g1, g2, g3⟩ := answer_keeps hS hL hok hc h1
    obtain ⟨k1, k2, k3⟩ := ih g2 g3 h2
    exact ⟨g1.trans k1, k2, k3⟩

lemma answer_same {S : Sys σ K} (hS : InBounds S) {ok : σ → Prop}
    {p : Int → (Nat → K) → K → K → Option (Nat → K)}
    (hL : ∀ tag, Functional (S.layers tag) ok (p tag)) (c : Call K) (junk' : Nat → K) {ev ev' : Ev σ K}
    (hk : Keeps ev ev') (hok : ∀ tag, ok (ev.ws tag).inner) (hok' : ∀ tag, ok (ev'.ws tag).inner)
    (hc : Clean S ev) (hc' : Clean S ev') :
    (answer S c ev).map Prod.fst = (answer S (c.withJunk junk') ev').map Prod.fst := by
  cases c with
  | explicit t inp junk =>
    simp only [answer, Call.withJunk, mult]
    rcases subSolve_same hL t inp hk hok hok' with ⟨h1, h2⟩ | ⟨q, e, e', h1, h2, h3⟩
    · simp [h1, h2]
    · simp only [h1, h2, Option.bind_eq_bind, Option.bind_some]
      have key : (rhs S t inp junk q e.states e.scratch).map Prod.fst =
          (rhs S t inp junk' q e'.states e'.scratch).map Prod.fst := by
        cases hr : S.sgbcRows with
        | none =>
          rw [rhs_no_layers hr t inp junk q e.states e'.states]
          exact (rhs_clean S hS t inp q rfl junk junk' e.scratch e'.scratch).1
        | some R => exact (rhs_clean S hS t inp q (h3 (by simp [hr])) junk junk' e.scratch e'.scratch).1
      cases h4 : rhs S t inp junk q e.states e.scratch <;>
        cases h5 : rhs S t inp junk' q e'.states e'.scratch <;> simp_all
  | implicit t x junk =>
    simp only [answer, Call.withJunk, implicitRhs]
    have hw : (∃ w w', implicitArg S x junk = some w ∧
        implicitArg S x junk' = some w' ∧
        mulRows S.globalRows w = mulRows S.globalRows w') := by
      by_cases hn : S.nbr = 0
      · exact ⟨x, x, by simp [implicitArg, hn], by simp [implicitArg, hn], rfl⟩
      · obtain ⟨w, hw⟩ := assemble_completes S x junk
        obtain ⟨w', hw'⟩ := assemble_completes S x junk'
        refine ⟨w, w', by simp [implicitArg, hn, hw], by simp [implicitArg, hn, hw'], ?_⟩
        funext r
        refine rowDot_agree _ _ _ fun e he => ?_
        exact exec_agree hw hw' _ (Or.inr (assemble_covers S x _ (hS.global r e he)))
    obtain ⟨w, w', h1, h2, h3⟩ := hw
    simp only [h1, h2, h3, Option.bind_eq_bind, Option.bind_some]
    cases hT : S.tfsf with
    | none => simp
    | some T =>
      have fix : ∀ e : Ev σ K, Clean S e → ∃ v : Nat → K, IsZero (6 * S.B) v ∧
          applyTfsf S t (fun _ => 0) e.scratch = applyTfsf S t (fun _ => 0) (some v) := by
        intro e he
        cases hs : e.scratch with
        | none => exact ⟨fun _ => 0, fun _ _ => rfl, applyTfsf_none hT _ _⟩
        | some v => exact ⟨v, fun k hk => he v hs k hk, rfl⟩
      obtain ⟨v, hv, g⟩ := fix ev hc
      obtain ⟨v', hv', g'⟩ := fix ev' hc'
      rw [g, g']
      have := (applyTfsf_clean S hS t (fun _ => 0) v hv).1 v' hv'
      cases h4 : applyTfsf S t (fun _ => (0 : K)) (some v) <;>
        cases h5 : applyTfsf S t (fun _ => (0 : K)) (some v') <;> simp_all

/-- **C25**: after any history of requests, a request is answered exactly as it would have been right after the
commit (`junk'`: whatever uninitialised memory contains). -/
theorem C25_rhs_repeatable {S : Sys σ K} (hS : InBounds S) {ok : σ → Prop}
    {p : Int → (Nat → K) → K → K → Option (Nat → K)}
    (hL : ∀ tag, Functional (S.layers tag) ok (p tag)) (ev ev' : Ev σ K)
    (hok : ∀ tag, ok (ev.ws tag).inner) (hc : Clean S ev) (calls : List (Call K))
    (h : history S ev calls = some ev') (c : Call K) (junk' : Nat → K) :
    (answer S c ev').map Prod.fst = (answer S (c.withJunk junk') ev).map Prod.fst := by
  obtain ⟨h1, h2, h3⟩ := history_keeps hS hL calls hok hc h
  have := answer_same hS hL (c.withJunk junk') (junk' := match c with | .explicit _ _ j => j | .implicit _ _ j => j)
    h1 hok h2 hc h3
  rw [this]
  cases c <;> rfl

/-- **C30**: after every history of requests the scratch storage, once sized, is zero, and no answer depends on
what the storage held, as long as it was zero or unsized to begin with. -/
theorem C30_scratch_zero {S : Sys σ K} (hS : InBounds S) {ok : σ → Prop}
    {p : Int → (Nat → K) → K → K → Option (Nat → K)}
    (hL : ∀ tag, Functional (S.layers tag) ok (p tag)) (ev ev' : Ev σ K)
    (hok : ∀ tag, ok (ev.ws tag).inner) (hnew : ev.scratch = none) (calls : List (Call K))
    (h : history S ev calls = some ev') (w : Nat → K) (hw : ev'.scratch = some w) (k : Nat)
    (hk : k < 6 * (S.ndofs + S.nbr)) : w k = 0 :=
  (history_keeps hS hL calls hok (by intro w hw; rw [hnew] at hw; exact absurd hw (by simp)) h).2.2 w hw k hk

/-- **C30**, explicit evaluations leave the storage zero whatever it held before, and do not read what it held. -/
theorem C30_explicit_any_scratch {S : Sys σ K} (hS : InBounds S) (t : K) (inp junk : Nat → K) (ev : Ev σ K)
    (sc : Option (Nat → K)) :
    (mult S t inp junk ev).map Prod.fst = (mult S t inp junk { ev with scratch := sc }).map Prod.fst ∧
    ∀ out ev', mult S t inp junk ev = some (out, ev') →
      ∃ w, ev'.scratch = some w ∧ ∀ k, k < 6 * (S.ndofs + S.nbr) → w k = 0 := by
  constructor
  · have hs : subSolve S t inp { ev with scratch := sc } =
        (subSolve S t inp ev).map fun q => (q.1, { q.2 with scratch := sc }) := by
      unfold subSolve
      cases S.sgbcRows with
      | none => rfl
      | some R =>
        simp only [Option.bind_eq_bind, Option.map_bind]
        congr 1; funext sts
        simp only [Function.comp, Option.map_bind]
        congr 1; funext q
        split <;> simp [Option.map_bind, Function.comp_def]
    simp only [mult, hs, Option.bind_eq_bind]
    cases h1 : subSolve S t inp ev with
    | none => rfl
    | some q =>
      obtain ⟨q, e⟩ := q
      simp only [Option.bind_some, Option.map_some]
      have := (rhs_clean S hS t inp q (rfl : e.states.map core = _) junk junk e.scratch sc).1
      cases h4 : rhs S t inp junk q e.states e.scratch <;>
        cases h5 : rhs S t inp junk q e.states sc <;> simp_all
  · intro out ev' h
    simp only [mult, Option.bind_eq_bind, Option.bind_eq_some_iff, Option.some.injEq, Prod.mk.injEq] at h
    obtain ⟨⟨q, e⟩, h1, ⟨o, sc'⟩, h2, rfl, rfl⟩ := h
    obtain ⟨w, hw, hz⟩ :=
      (rhs_clean S hS t inp q (rfl : e.states.map core = _) junk junk e.scratch e.scratch).2 o sc' h2
    exact ⟨w, hw, hz⟩

end Dgtd.SgbcEvol
