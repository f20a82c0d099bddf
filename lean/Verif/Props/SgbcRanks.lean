/-
C164: thin layers on several ranks.
-/
import Verif.Lemmas.SgbcRanks

set_option linter.unusedSectionVars false

namespace Dgtd.SgbcEvol

open Sgbc Spec

variable {σ K : Type} [Field K] [LinearOrder K] [IsStrictOrderedRing K] [FloorRing K]

/-- **C164** (partial): in a run of any length, a rank that holds some of the nodes and the thin layers between them gets its part of every
rate of change that one rank holding everything gets, and its layers have the same fields in the end.  Missing: layers below the threshold of
the quiet test that do not vanish, for which the claim is false (`C164_violated_rate`, `C164_violated_fields`), and plane-wave sources. -/
theorem C164_run_partial {S Q : Sys σ K} {φ : Nat → Nat} (P : Part S Q φ) {ok : σ → Prop} {p : Int → (Nat → K) → K → K → Option (Nat → K)}
    (hL : ∀ tag, Functional (S.layers tag) ok (p tag)) (hp : ∀ tag t d, 0 < d → p tag (fun _ => 0) t d = some fun _ => 0)
    (junk junkq : Nat → K) (rs : List (Req K)) {ev evQ e : Ev σ K} (hok : ∀ tag, ok (ev.ws tag).inner)
    (hokQ : ∀ tag, ok (evQ.ws tag).inner) (hM : Match S Q φ ev evQ) (hS : SoundRun S junk ev rs) {as : List (Option (Nat → K))}
    (h : serveAll S junk ev rs = some (as, e)) :
    ∃ bs eq, serveRank S Q φ junkq evQ rs = some (bs, eq) ∧ List.Forall₂ (AnswerPart S Q φ) as bs ∧ Match S Q φ e eq := by
  induction rs generalizing ev evQ as with
  | nil =>
    simp only [serveAll, Option.some.injEq, Prod.mk.injEq] at h
    obtain ⟨rfl, rfl⟩ := h
    exact ⟨[], evQ, rfl, .nil, hM⟩
  | cons r rs ih =>
    simp only [serveAll, Option.bind_eq_bind, Option.bind_eq_some_iff, Option.some.injEq, Prod.mk.injEq] at h
    obtain ⟨⟨a, e1⟩, h1, ⟨as', e2⟩, h2, rfl, rfl⟩ := h
    obtain ⟨aq, eq1, g1, g2, g3, g4, g5⟩ := serve_same P hL hp junk junkq r hok hokQ hM (sound_unquiet P hM hS.1) h1
    obtain ⟨bs, eq2, k1, k2, k3⟩ := ih g4 g5 g3 (hS.2 a e1 h1) h2
    exact ⟨aq :: bs, eq2, by simp only [serveRank, g1, k1, Option.bind_eq_bind, Option.bind_some], .cons g2 k2, k3⟩

/-! ### four nodes and two layers, on one rank and on two -/

/-- A layer whose fields double in every step. -/
def doubling : Layer Unit ℚ := { witLayer with step := fun _ x _ _ => some (fun k => 2 * x k, ()) }

/-- Nodes 0 to 3, a layer between 0 and 1, another between 2 and 3; the global operator couples 0 with 3 and 1 with 2. -/
def allNodes : Sys Unit ℚ where
  ndofs := 4
  nbr := 0
  layers := fun _ => doubling
  globalRows := fun r => if r < 24 then [(r, 1), (r / 4 * 4 + (3 - r % 4), -1)] else []
  tfsf := none
  sgbcRows := some fun r => if r < 24 then [(r, 1), (r / 4 * 4 + (if r % 2 = 0 then r % 4 + 1 else r % 4 - 1), 2)] else []
  elem1 := [0, 2]
  elem2 := [1, 3]
  nbrData := fun _ _ _ => 0

/-- The rank with the nodes 2 and 3. -/
def upper : Sys Unit ℚ where
  ndofs := 2
  nbr := 2
  layers := fun _ => doubling
  globalRows := fun r => if r < 12 then [(r / 2 * 4 + r % 2, 1), (r / 2 * 4 + (3 - r % 2), -1)] else []
  tfsf := none
  sgbcRows := some fun r => if r < 12 then [(r / 2 * 4 + r % 2, 1), (r / 2 * 4 + (1 - r % 2), 2)] else []
  elem1 := [0]
  elem2 := [1]
  nbrData := fun _ _ _ => 0

/-- Its nodes: 2 and 3, and 0 and 1 from its neighbour. -/
def upperNodes (i : Nat) : Nat := (i + 2) % 4

theorem upper_part : Part allNodes upper upperNodes where
  whole := rfl
  node := by decide
  inj := by decide
  layers := rfl
  noSource := ⟨rfl, rfl⟩
  boundS := by
    refine ⟨fun r e he => ?_, by simp [allNodes], fun R hR r e he => ?_⟩
    · simp only [allNodes] at he
      split at he
      · simp only [List.mem_cons, List.not_mem_nil, or_false] at he
        rcases he with rfl | rfl <;> simp only [Sys.B, allNodes] <;> omega
      · simp at he
    · simp only [allNodes, Option.some.injEq] at hR
      subst hR
      simp only at he
      split at he
      · simp only [List.mem_cons, List.not_mem_nil, or_false] at he
        rcases he with rfl | rfl <;> simp only [Sys.B, allNodes] <;> first | omega | (split <;> omega)
      · simp at he
  boundQ := by
    refine ⟨fun r e he => ?_, by simp [upper], fun R hR r e he => ?_⟩
    · simp only [upper] at he
      split at he
      · simp only [List.mem_cons, List.not_mem_nil, or_false] at he
        rcases he with rfl | rfl <;> simp only [Sys.B, upper] <;> omega
      · simp at he
    · simp only [upper, Option.some.injEq] at hR
      subst hR
      simp only at he
      split at he
      · simp only [List.mem_cons, List.not_mem_nil, or_false] at he
        rcases he with rfl | rfl <;> simp only [Sys.B, upper] <;> omega
      · simp at he
  global := by
    intro c hc i hi v
    simp only [upper] at hi
    interval_cases c <;> interval_cases i <;> simp [rowDot, allNodes, upper, upperNodes, pull, Sys.B]
  without := by simp [allNodes]
  absent := by simp [upper]
  sgbc := by
    intro R RQ hR hQ
    simp only [allNodes, upper, Option.some.injEq] at hR hQ
    subst hR hQ
    constructor
    · intro c hc i hi v
      simp only [upper] at hi
      interval_cases c <;> interval_cases i <;> simp [rowDot, allNodes, upper, upperNodes, pull, Sys.B]
    · decide
  elem1 := by decide
  elem2 := by decide
  nodup := by decide
  lt := by decide

/-- The layers of the whole: the first with fields `x`, the second with fields `y`. -/
def allLayers (x y : ℚ) : Ev Unit ℚ :=
  ⟨[⟨1, (0, 1), witId, fun _ => x, 0, 0⟩, ⟨2, (2, 3), witId, fun _ => y, 0, 0⟩], none, 0, 0, fun _ => ⟨(), fun _ => 0⟩, none⟩

/-- The layer of the rank. -/
def upperLayers (y : ℚ) : Ev Unit ℚ := ⟨[⟨2, (0, 1), witId, fun _ => y, 0, 0⟩], none, 0, 0, fun _ => ⟨(), fun _ => 0⟩, none⟩

theorem upper_match (x y : ℚ) : Match allNodes upper upperNodes (allLayers x y) (upperLayers y) := by
  refine ⟨rfl, rfl, by simp [upper], Or.inl ⟨rfl, rfl, .other ⟨?_, ?_, ?_⟩ (.own ⟨rfl, rfl, rfl, rfl, rfl, rfl, rfl, ?_, ?_⟩ .nil)⟩⟩
  · simp [allNodes]
  · simp [allNodes]
  · intro i hi
    simp only [upper] at hi
    interval_cases i <;> simp [upperNodes]
  · simp [upper]
  · simp [upper]

/-- **C164**, failing case: the second layer has fields below the threshold.  On one rank they enter the rate of change, because the first layer
is not quiet; on two ranks the rank of the second layer skips the injection. -/
theorem C164_violated_rate : ∃ (S Q : Sys Unit ℚ) (φ : Nat → Nat) (ev evQ : Ev Unit ℚ) (rs : List (Req ℚ)), Part S Q φ ∧ Match S Q φ ev evQ ∧
    ((serveAll S (fun _ => 0) ev rs).map fun a => a.1.map fun x => x.map fun o => o (0 * S.ndofs + φ 0)) = some [none, some (1 / 500000000)] ∧
    ((serveRank S Q φ (fun _ => 0) evQ rs).map fun a => a.1.map fun x => x.map fun o => o (0 * Q.ndofs + 0)) = some [none, some 0] :=
  ⟨allNodes, upper, upperNodes, allLayers 1 (1 / 1000000000), upperLayers (1 / 1000000000),
    [.commit 0 1 fun _ => 0, .rate 0 fun _ => 0], upper_part, upper_match _ _, by decide +kernel, by decide +kernel⟩

/-- **C164**, failing case: the same layer goes on in time on one rank and stands still on two. -/
theorem C164_violated_fields : ∃ (S Q : Sys Unit ℚ) (φ : Nat → Nat) (ev evQ : Ev Unit ℚ) (rs : List (Req ℚ)), Part S Q φ ∧ Match S Q φ ev evQ ∧
    ((serveAll S (fun _ => 0) ev rs).map fun a => a.2.states.map fun st => (st.tag, st.fields 1)) = some [(1, 2), (2, 1 / 500000000)] ∧
    ((serveRank S Q φ (fun _ => 0) evQ rs).map fun a => a.2.states.map fun st => (st.tag, st.fields 1)) = some [(2, 1 / 1000000000)] :=
  ⟨allNodes, upper, upperNodes, allLayers 1 (1 / 1000000000), upperLayers (1 / 1000000000),
    [.commit 0 1 fun _ => 0, .finish fun _ => 0], upper_part, upper_match _ _, by decide +kernel, by decide +kernel⟩

/-! ### the hypotheses are met -/

theorem doubling_functional : Functional doubling (fun _ => True) fun x _ _ => some fun k => 2 * x k :=
  ⟨fun _ _ _ _ _ _ => Or.inr ⟨_, (), rfl, rfl, trivial⟩⟩

/-- Two steps of a run. -/
def exRun : List (Req ℚ) :=
  [.commit 0 1 fun k => k, .rate (1 / 2) fun k => k, .finish fun k => 2 * k, .commit 1 1 fun k => 2 * k, .rate (3 / 2) fun k => k,
    .finish fun _ => 5]

theorem loud_rate {S : Sys σ K} {ev : Ev σ K} {t : K} {u : Nat → K}
    (h : ((restore ev.states (ev.cp.getD [])).map fun sts => sts.all fun st => decide (isQuiet S u st = some false)) = some true) :
    Sound S ev (.rate t u) := by
  intro sts hs st hst
  rw [hs, Option.map_some, Option.some.injEq, List.all_eq_true] at h
  exact Or.inl (audible_of_quiet (by simpa using h st hst))

theorem loud_finish {S : Sys σ K} {ev : Ev σ K} {u : Nat → K} (hd : 0 < ev.dt)
    (h : ((finalRestore S u ev.states (ev.cp.getD [])).map fun sts => sts.all fun st => decide (isQuiet S u st = some false)) = some true) :
    Sound S ev (.finish u) := by
  refine ⟨hd, fun sts hs st hst => ?_⟩
  rw [hs, Option.map_some, Option.some.injEq, List.all_eq_true] at h
  exact Or.inl (audible_of_quiet (by simpa using h st hst))

/-- No layer is quiet when the request arrives: a test of `Sound`. -/
def loud1 (S : Sys Unit ℚ) (ev : Ev Unit ℚ) : Req ℚ → Bool
  | .commit _ _ _ => true
  | .rate _ u => decide
      (((restore ev.states (ev.cp.getD [])).map fun sts => sts.all fun st => decide (isQuiet S u st = some false)) = some true)
  | .finish u => decide (0 < ev.dt) && decide
      (((finalRestore S u ev.states (ev.cp.getD [])).map fun sts => sts.all fun st => decide (isQuiet S u st = some false)) = some true)

/-- The same along a run. -/
def loud (S : Sys Unit ℚ) (junk : Nat → ℚ) : Ev Unit ℚ → List (Req ℚ) → Bool
  | _, [] => true
  | ev, r :: rs => loud1 S ev r && match serve S junk ev r with
    | none => true
    | some (_, e) => loud S junk e rs

theorem soundRun_of_loud (S : Sys Unit ℚ) (junk : Nat → ℚ) (ev : Ev Unit ℚ) (rs : List (Req ℚ)) (h : loud S junk ev rs = true) :
    SoundRun S junk ev rs := by
  induction rs generalizing ev with
  | nil => trivial
  | cons r rs ih =>
    simp only [loud, Bool.and_eq_true] at h
    refine ⟨?_, fun a e he => ih e (by simpa [he] using h.2)⟩
    have h1 := h.1
    cases r with
    | commit base dt u => trivial
    | rate t u => exact loud_rate (by simpa [loud1] using h1)
    | finish u =>
      simp only [loud1, Bool.and_eq_true, decide_eq_true_eq] at h1
      exact loud_finish h1.1 h1.2

/-- The run completes on one rank, with layers that count; so it does on the rank of the second layer, with its part of the answers. -/
example : ∃ as e bs eq, serveAll allNodes (fun _ => 0) (allLayers 1 3) exRun = some (as, e) ∧
    serveRank allNodes upper upperNodes (fun _ => 7) (upperLayers 3) exRun = some (bs, eq) ∧
    List.Forall₂ (AnswerPart allNodes upper upperNodes) as bs ∧ Match allNodes upper upperNodes e eq := by
  have hs : SoundRun allNodes (fun _ => 0) (allLayers 1 3) exRun := soundRun_of_loud _ _ _ _ (by decide +kernel)
  have hd : (serveAll allNodes (fun _ => 0) (allLayers 1 3) exRun).isSome = true := by decide +kernel
  obtain ⟨⟨as, e⟩, he⟩ := Option.isSome_iff_exists.1 hd
  obtain ⟨bs, eq, h1, h2, h3⟩ := C164_run_partial upper_part (ok := fun _ => True) (fun _ => doubling_functional)
    (fun _ _ _ _ => by simp) (fun _ => 0) (fun _ => 7) exRun (fun _ => trivial) (fun _ => trivial) (upper_match 1 3) hs he
  exact ⟨as, e, bs, eq, he, h1, h2, h3⟩

/-- The first rate of change asked for, at node 2 of the whole and at node 0 of the rank. -/
example : ((serveAll allNodes (fun _ => 0) (allLayers 1 3) exRun).map fun a => (a.1.getD 1 none).map fun o => o 2) = some (some 15) ∧
    ((serveRank allNodes upper upperNodes (fun _ => 7) (upperLayers 3) exRun).map fun a => (a.1.getD 1 none).map fun o => o 0) =
      some (some 15) := by decide +kernel

end Dgtd.SgbcEvol
