/-
C25, the whole time step, and the inner integrator of the code as an instance.
-/
import Verif.Props.SgbcPar
import Verif.Props.Implicit

set_option linter.unusedSectionVars false
set_option linter.unusedSimpArgs false

namespace Dgtd.SgbcEvol

open Sgbc Spec

variable {σ K : Type} [Field K] [LinearOrder K] [IsStrictOrderedRing K] [FloorRing K]

/-- Ghost values that agree as far as they are used: the right half only on an interior face. -/
def gEq (pair : NodePair) (g g' : Fin 12 → K) : Prop :=
  (∀ i : Fin 12, i.val < 6 → g i = g' i) ∧ (pair.2 ≠ -1 → g = g')

lemma ghostValues_rel (nd : Nat) (inp : Nat → K) (R : Fin 9 → K) (pair : NodePair) (prev prev' : Fin 12 → K) :
    (ghostValues nd inp R pair prev = none ∧ ghostValues nd inp R pair prev' = none) ∨
    ∃ g g', ghostValues nd inp R pair prev = some g ∧ ghostValues nd inp R pair prev' = some g' ∧ gEq pair g g' := by
  unfold ghostValues
  cases h1 : rotateToLocal nd inp R pair.1 with
  | none => left; simp
  | some l =>
    by_cases hp : pair.2 ≠ -1
    · cases h2 : rotateToLocal nd inp R pair.2 with
      | none => left; simp [hp, h2]
      | some r =>
        right
        simp only [Option.bind_eq_bind, Option.bind_some, if_pos hp, h2]
        exact ⟨_, _, rfl, rfl, fun _ _ => rfl, fun _ => rfl⟩
    · right
      simp only [Option.bind_eq_bind, Option.bind_some, if_neg hp]
      refine ⟨_, _, rfl, rfl, fun i hi => ?_, fun h => absurd h hp⟩
      obtain ⟨i, hi'⟩ := i
      simp only at hi
      have h6 : i = 0 ∨ i = 1 ∨ i = 2 ∨ i = 3 ∨ i = 4 ∨ i = 5 := by omega
      rcases h6 with rfl | rfl | rfl | rfl | rfl | rfl <;> simp [Matrix.vecCons, Fin.cons, Fin.cases, Fin.induction, Fin.induction.go]

lemma updateInterpolated_rel (n G : Nat) (alpha : K) (pair : NodePair) {o o' w w' : Fin 12 → K} (ho : gEq pair o o')
    (hw : gEq pair w w') (all : Nat → K) :
    updateInterpolated n G alpha pair o w all = updateInterpolated n G alpha pair o' w' all := by
  have hl : ∀ (d : Fin 3), o ⟨d.val, by omega⟩ = o' ⟨d.val, by omega⟩ ∧ w ⟨d.val, by omega⟩ = w' ⟨d.val, by omega⟩ ∧
      o ⟨3 + d.val, by omega⟩ = o' ⟨3 + d.val, by omega⟩ ∧ w ⟨3 + d.val, by omega⟩ = w' ⟨3 + d.val, by omega⟩ :=
    fun d => ⟨ho.1 _ (by simp; omega), hw.1 _ (by simp; omega), ho.1 _ (by simp; omega), hw.1 _ (by simp; omega)⟩
  unfold updateInterpolated
  simp only [hl]
  by_cases hp : pair.2 ≠ -1
  · rw [ho.2 hp, hw.2 hp]
  · simp only [if_neg hp]

/-- Checkpoints that agree as far as they are used. -/
def CpRel : List (St K) → List (Cp K) → List (Cp K) → Prop
  | [], _, _ => True
  | st :: r, c :: cs, c' :: cs' => c.fields = c'.fields ∧ gEq st.pair c.ghostOld c'.ghostOld ∧ CpRel r cs cs'
  | _ :: _, _, _ => False

lemma commitAll_rel (S : Sys σ K) (inp : Nat → K) {sts sts' : List (St K)} (h : sts.map core = sts'.map core)
    (prevs prevs' : List (Fin 12 → K)) :
    (commitAll S inp sts prevs = none ∧ commitAll S inp sts' prevs' = none) ∨
    ∃ cs cs', commitAll S inp sts prevs = some cs ∧ commitAll S inp sts' prevs' = some cs' ∧ CpRel sts cs cs' := by
  induction sts generalizing sts' prevs prevs' with
  | nil =>
    cases sts' with
    | nil => right; exact ⟨[], [], rfl, rfl, trivial⟩
    | cons => simp at h
  | cons st r ih =>
    cases sts' with
    | nil => simp at h
    | cons st' r' =>
      simp only [List.map_cons, List.cons.injEq] at h
      obtain ⟨h1, h2⟩ := h
      obtain ⟨e1, e2, e3, e4⟩ := core_cases h1
      simp only [commitAll, commit1, ← e2, ← e3, ← e4]
      rcases ghostValues_rel S.ndofs inp st.rot st.pair (prevs.headD 0) (prevs'.headD 0) with
        ⟨g1, g2⟩ | ⟨g, g', g1, g2, g3⟩
      · left; rw [g1, g2]; simp
      · rw [g1, g2]
        rcases ih h2 prevs.tail prevs'.tail with ⟨k1, k2⟩ | ⟨cs, cs', k1, k2, k3⟩
        · left; rw [k1, k2]; simp
        · right
          rw [k1, k2]
          exact ⟨⟨st.fields, g⟩ :: cs, ⟨st.fields, g'⟩ :: cs', rfl, rfl, rfl, g3, k3⟩

lemma CpRel_frame {sts sts' : List (St K)} (h : sts.map frame = sts'.map frame) {cs cs' : List (Cp K)}
    (hc : CpRel sts cs cs') : CpRel sts' cs cs' := by
  induction sts generalizing sts' cs cs' with
  | nil =>
    cases sts' with
    | nil => trivial
    | cons => simp at h
  | cons st r ih =>
    cases sts' with
    | nil => simp at h
    | cons st' r' =>
      simp only [List.map_cons, List.cons.injEq, frame, Prod.mk.injEq] at h
      cases cs with
      | nil => exact hc.elim
      | cons c cs =>
        cases cs' with
        | nil => exact hc.elim
        | cons c' cs' =>
          obtain ⟨k1, k2, k3⟩ := hc
          exact ⟨k1, h.1.2.1 ▸ k2, ih h.2 k3⟩

/-- States that agree as far as the end of the step uses them. -/
def FinEq (s s' : St K) : Prop :=
  core s = core s' ∧ gEq s.pair s.ghostOld s'.ghostOld ∧ gEq s.pair s.ghostNew s'.ghostNew

lemma finalRestore_rel (S : Sys σ K) (inp : Nat → K) {sts sts' : List (St K)} (h : sts.map frame = sts'.map frame)
    {cs cs' : List (Cp K)} (hc : CpRel sts cs cs') :
    (finalRestore S inp sts cs = none ∧ finalRestore S inp sts' cs' = none) ∨
    ∃ r r', finalRestore S inp sts cs = some r ∧ finalRestore S inp sts' cs' = some r' ∧
      List.Forall₂ FinEq r r' := by
  induction sts generalizing sts' cs cs' with
  | nil =>
    cases sts' with
    | nil => right; exact ⟨[], [], rfl, rfl, .nil⟩
    | cons => simp at h
  | cons st r ih =>
    cases sts' with
    | nil => simp at h
    | cons st' r' =>
      simp only [List.map_cons, List.cons.injEq, frame, Prod.mk.injEq] at h
      obtain ⟨⟨e1, e2, e3⟩, h2⟩ := h
      cases cs with
      | nil => exact hc.elim
      | cons c cs =>
        cases cs' with
        | nil => exact hc.elim
        | cons c' cs' =>
          obtain ⟨k1, k2, k3⟩ := hc
          simp only [finalRestore, ← e2, ← e3]
          rcases ghostValues_rel S.ndofs inp st.rot st.pair st.ghostNew st'.ghostNew with
            ⟨g1, g2⟩ | ⟨g, g', g1, g2, g3⟩
          · left; rw [g1, g2]; simp
          · rw [g1, g2]
            rcases ih h2 k3 with ⟨j1, j2⟩ | ⟨r1, r2, j1, j2, j3⟩
            · left; rw [j1, j2]; simp
            · right
              rw [j1, j2]
              refine ⟨_, _, rfl, rfl, .cons ⟨?_, k2, g3⟩ j3⟩
              simp [core, frame, e1, e2, e3, k1]

lemma finalJob_rel (S : Sys σ K) (base dt : K) {s s' : St K} (h : FinEq s s') :
    finalJob S base dt s = finalJob S base dt s' := by
  obtain ⟨e1, e2, e3, e4⟩ := core_cases h.1
  simp only [finalJob, ← e1, ← e2]
  congr 1
  funext steps
  congr 2
  funext x all
  exact updateInterpolated_rel _ _ _ _ h.2.1 h.2.2 all

lemma advanceAll_rel {p : Int → (Nat → K) → K → K → Option (Nat → K)} {job : St K → Option (Job K)}
    {sts sts' : List (St K)} (h : List.Forall₂ (fun s s' => core s = core s' ∧ job s = job s') sts sts') :
    (advanceAll p job sts).map (List.map core) = (advanceAll p job sts').map (List.map core) := by
  induction h with
  | nil => rfl
  | @cons s s' r r' h1 _ ih =>
    obtain ⟨e1, e2, e3, e4⟩ := core_cases h1.1
    simp only [advanceAll, advanceSt, h1.2, e1, e4]
    cases hj : job s' with
    | none => simp
    | some j =>
      simp only [Option.bind_eq_bind, Option.bind_some]
      cases hx : Spec.advance (p s'.tag) j s'.fields with
      | none => simp
      | some x =>
        simp only [Option.bind_some]
        cases ha : advanceAll p job r <;> cases hb : advanceAll p job r' <;> rw [ha, hb] at ih <;> simp at ih ⊢
        exact ⟨by simp [core, frame, e2, e3], ih⟩

lemma forall2_core {r r' : List (St K)} (h : List.Forall₂ FinEq r r') : r.map core = r'.map core := by
  induction h with
  | nil => rfl
  | cons h1 _ ih => simp [ih, h1.1]

lemma forall2_job (S : Sys σ K) (base dt : K) {r r' : List (St K)} (h : List.Forall₂ FinEq r r') :
    List.Forall₂ (fun s s' => core s = core s' ∧ finalJob S base dt s = finalJob S base dt s') r r' := by
  induction h with
  | nil => exact .nil
  | cons h1 _ ih => exact .cons ⟨h1.1, finalJob_rel S base dt h1⟩ ih

lemma finalize_rel {S : Sys σ K} {ok : σ → Prop} {p : Int → (Nat → K) → K → K → Option (Nat → K)}
    (hL : ∀ tag, Functional (S.layers tag) ok (p tag)) (inp : Nat → K) {ev ev' : Ev σ K}
    (hb : ev'.base = ev.base) (hd : ev'.dt = ev.dt) (hpos : 0 < ev.dt)
    (hf : ev.states.map frame = ev'.states.map frame)
    (hcp : CpRel ev.states (ev.cp.getD []) (ev'.cp.getD []))
    (hok : ∀ tag, ok (ev.ws tag).inner) (hok' : ∀ tag, ok (ev'.ws tag).inner) :
    (finalize S inp ev).map (fun e => e.states.map core) = (finalize S inp ev').map (fun e => e.states.map core) := by
  unfold finalize
  rcases finalRestore_rel S inp hf hcp with ⟨h1, h2⟩ | ⟨r, r', h1, h2, h3⟩
  · simp [h1, h2]
  · have hcore := forall2_core h3
    have hq := allQuiet_core S inp hcore
    simp only [h1, h2, Option.bind_eq_bind, Option.bind_some, hq]
    cases hq' : allQuiet S inp r' with
    | none => simp
    | some q =>
      cases q with
      | true => simp [hcore]
      | false =>
        simp only [Option.bind_some, Bool.false_eq_true, if_false, hb, hd]
        have ha := advanceAll_rel (p := p) (forall2_job S ev.base ev.dt h3)
        rcases serial_pure hL (finalJob S ev.base ev.dt) r
          (fun st _ j hj => finalJob_pos S ev.base _ hpos st j hj) ev.ws hok with ⟨g1, g2⟩ | ⟨ws1, r1, g1, -, g3⟩
        · rcases serial_pure hL (finalJob S ev.base ev.dt) r'
            (fun st _ j hj => finalJob_pos S ev.base _ hpos st j hj) ev'.ws hok' with
            ⟨k1, k2⟩ | ⟨ws2, r2, k1, -, k3⟩
          · simp [g2, k2]
          · rw [g1, k3] at ha; exact absurd ha (by simp)
        · rcases serial_pure hL (finalJob S ev.base ev.dt) r'
            (fun st _ j hj => finalJob_pos S ev.base _ hpos st j hj) ev'.ws hok' with
            ⟨k1, k2⟩ | ⟨ws2, r2, k1, -, k3⟩
          · rw [g3, k1] at ha; exact absurd ha (by simp)
          · rw [g3, k3] at ha
            simp only [Option.map_some, Option.some.injEq] at ha
            simp [g1, k1, ha]

/-- **C25** for a whole time step: the thin-layer states after the step are determined by the states before it and
the fields before and after; neither the requests the time integrator made in between, nor earlier checkpoints,
nor what wrappers and scratch storage held, make a difference. -/
theorem C25_step_determined {S : Sys σ K} (hS : InBounds S) {ok : σ → Prop}
    {p : Int → (Nat → K) → K → K → Option (Nat → K)}
    (hL : ∀ tag, Functional (S.layers tag) ok (p tag)) (base dt : K) (hdt : 0 < dt) (before after : Nat → K)
    (ev ev' : Ev σ K) (hstates : ev.states.map core = ev'.states.map core)
    (hok : ∀ tag, ok (ev.ws tag).inner) (hok' : ∀ tag, ok (ev'.ws tag).inner)
    (hc : Clean S ev) (hc' : Clean S ev') (calls calls' : List (Call K)) (e e' : Ev σ K)
    (h : step S base dt before after calls ev = some e) (h' : step S base dt before after calls' ev' = some e') :
    e.states.map core = e'.states.map core := by
  simp only [step, commit, Option.bind_eq_bind, Option.bind_eq_some_iff, Option.some.injEq] at h h'
  obtain ⟨a, ⟨cs, h1, rfl⟩, b, h2, h3⟩ := h
  obtain ⟨a', ⟨cs', h1', rfl⟩, b', h2', h3'⟩ := h'
  obtain ⟨k1, k2, -⟩ := history_keeps (ev := { ev with base := base, dt := dt, cp := some cs }) hS hL calls hok hc h2
  obtain ⟨k1', k2', -⟩ :=
    history_keeps (ev := { ev' with base := base, dt := dt, cp := some cs' }) hS hL calls' hok' hc' h2'
  have hcp : CpRel ev.states cs cs' := by
    rcases commitAll_rel S before hstates ((ev.cp.getD []).map Cp.ghostOld) ((ev'.cp.getD []).map Cp.ghostOld) with
      ⟨g1, -⟩ | ⟨x, y, g1, g2, g3⟩
    · rw [h1] at g1; exact absurd g1 (by simp)
    · rw [h1, Option.some.injEq] at g1
      rw [h1', Option.some.injEq] at g2
      rw [g1, g2]; exact g3
  have hfr : ev.states.map frame = ev'.states.map frame := by
    have : ∀ l : List (St K), l.map frame = (l.map core).map Prod.fst := by
      intro l; simp [core, Function.comp_def]
    rw [this, this, hstates]
  have := finalize_rel (ok := ok) (p := p) hL after (ev := b) (ev' := b')
    (by rw [k1.base, k1'.base]) (by rw [k1.dt, k1'.dt]) (by rw [k1.dt]; exact hdt)
    (by rw [k1.frames, k1'.frames]; exact hfr)
    (by rw [k1.cp, k1'.cp]; exact CpRel_frame k1.frames.symm hcp) k2 k2'
  rw [h3, h3'] at this
  simpa using this

/-- An evaluation before the first commit, with thin layers present, fails (the checkpoint lookup throws). -/
theorem C25_needs_commit {S : Sys σ K} (hR : S.sgbcRows ≠ none) (t : K) (inp junk : Nat → K) (ev : Ev σ K)
    (hst : ev.states ≠ []) (hcp : ev.cp = none) : mult S t inp junk ev = none := by
  obtain ⟨R, hR⟩ := Option.ne_none_iff_exists'.1 hR
  obtain ⟨st, r, hst⟩ := List.exists_cons_of_ne_nil hst
  simp [mult, subSolve, hR, hst, hcp, restore]

/-! ### the inner integrator of the code -/

section Inner
open Implicit Matrix

lemma implicit_singular {m : Nat} {A : Matrix (Fin m) (Fin m) K} {c : Cache K (Fin m)} (g : Good A c) (dt : K)
    (hu : ¬ IsUnit (1 - dt • A).det) (src x : Fin m → K) : implicitSolve A src c dt x = none := by
  cases h : implicitSolve A src c dt x with
  | none => rfl
  | some q => exact absurd (implicit_result g h).2.2.2.2.1 hu

/-- One step of the inner solver: the implicit scheme on the `m` entries of the state. -/
noncomputable def innerStep {m : Nat} (sd : Sdirk K) (A : Matrix (Fin m) (Fin m) K) (src : K → Fin m → K)
    (c : Cache K (Fin m)) (x : Nat → K) (t d : K) : Option ((Nat → K) × Cache K (Fin m)) :=
  (sdirk33 sd A src c (fun i => x i) t d).map fun r => (fun k => if h : k < m then r.1 ⟨k, h⟩ else x k, r.2.2)

/-- The implicit scheme with its factorisation cache is a function of fields, time and step: the hypothesis of
the theorems of C25, C26 and C29 holds of the inner integrator the code uses. -/
theorem C25_inner_integrator {m : Nat} (sd : Sdirk K) (ha : 0 < sd.a) (A : Matrix (Fin m) (Fin m) K)
    (src : K → Fin m → K) (L : Layer (Cache K (Fin m)) K) (hL : L.step = innerStep sd A src) :
    Functional L (Good A) (fun x t d => (innerStep sd A src fresh x t d).map Prod.fst) := by
  constructor
  intro c x t d hc hd
  rw [hL]
  by_cases hu : IsUnit (1 - (sd.a * d) • A).det
  · right
    have hne : sd.a * d ≠ -1 := by
      have := mul_pos ha hd
      intro h; linarith
    obtain ⟨y, d1, d2, h1, h2, g1, -⟩ := C31_integrator sd A src c fresh hc (good_fresh A) (fun i => x i) t d hne hu
    refine ⟨fun k => if h : k < m then y ⟨k, h⟩ else x k, d1, ?_, ?_, g1⟩
    · simp [innerStep, h2]
    · simp [innerStep, h1]
  · left
    have n1 : ∀ c : Cache K (Fin m), Good A c → innerStep sd A src c x t d = none := by
      intro c hc
      simp [innerStep, sdirk33, implicit_singular hc _ hu]
    exact ⟨by simp [n1 fresh (good_fresh A)], n1 c hc⟩

end Inner

/-! ### a concrete case -/

section Example

/-- A layer whose integrator adds the step to the first three entries and relaxes towards zero. -/
def exLayer : Layer Unit ℚ where
  n := 3
  G := 1
  sub := 1 / 4
  left := .slab
  right := .PEC
  step := fun _ x _ d => some (fun k => x k * (1 - d / 2) + d * k, ())

/-- Two nodes, one interior face with the thin layer between them. -/
def exSys : Sys Unit ℚ where
  ndofs := 2
  nbr := 0
  layers := fun _ => exLayer
  globalRows := fun r => if r < 12 then [(r, -1)] else []
  tfsf := some ⟨[0], fun t _ _ => t, fun r => if r < 12 then [(r, 1)] else []⟩
  sgbcRows := some fun r => if r < 12 then [(r, 2), ((r + 1) % 12, 3)] else []
  elem1 := [0]
  elem2 := [1]
  nbrData := fun _ _ _ => 0

def exEv : Ev Unit ℚ where
  states := [⟨7, (0, 1), ![1, 0, 0, 0, 1, 0, 0, 0, 1], fun k => k, 0, 0⟩]
  cp := none
  base := 0
  dt := 0
  ws := fun _ => ⟨(), fun _ => 0⟩
  scratch := none

lemma ex_functional : ∀ tag, Functional (exSys.layers tag) (fun _ : Unit => True)
    (fun (x : Nat → ℚ) _ d => some fun k => x k * (1 - d / 2) + d * k) := by
  intro tag
  constructor
  intro s x t d _ _
  right
  exact ⟨_, (), rfl, rfl, trivial⟩

lemma ex_bounds : InBounds exSys := by
  constructor
  · intro r e he
    simp only [exSys] at he
    split at he
    · simp only [List.mem_singleton] at he
      subst he
      simpa [Sys.B, exSys] using by omega
    · simp at he
  · intro T hT r e he
    simp only [exSys, Option.some.injEq] at hT
    subst hT
    simp only at he
    split at he
    · simp only [List.mem_singleton] at he
      subst he
      simpa [Sys.B, exSys] using by omega
    · simp at he
  · intro R hR r e he
    simp only [exSys, Option.some.injEq] at hR
    subst hR
    simp only at he
    split at he
    · simp only [List.mem_cons, List.not_mem_nil, or_false] at he
      rcases he with rfl | rfl
      · simpa [Sys.B, exSys] using by omega
      · simp only [Sys.B, exSys]
        omega
    · simp at he

/-- The object after the commit of a step that starts at time 0. -/
def exCommitted : Option (Ev Unit ℚ) := commit exSys 0 1 (fun k => k + 1) exEv

/-- A history of requests, explicit and implicit, on a system with a source and a thin layer completes, and moves the
layer: the theorems of C25 and C30 are about something. -/
example : (exCommitted.bind fun ev => history exSys ev
    [.explicit (1 / 2) (fun k => k) (fun _ => 9), .implicit 1 (fun k => 2 * k) (fun _ => 5),
      .explicit 1 (fun k => k * k) (fun _ => 3)]).isSome = true := by decide +kernel

example : (exCommitted.bind fun ev => (mult exSys 1 (fun k => (k : ℚ)) (fun _ => 9) ev).map fun q =>
    (q.2.states.map fun st => decide (st.fields 4 = 4), decide (q.1 0 = 0))) = some ([false], false) := by
  decide +kernel

/-- A whole step completes. -/
example : (step exSys 0 1 (fun k => k + 1) (fun k => 3 * k) [.explicit (1 / 2) (fun k => k) (fun _ => 9)]
    exEv).isSome = true := by decide +kernel

/-- The fresh object meets the other hypotheses. -/
example : Clean exSys exEv ∧ (∀ tag, (fun _ : Unit => True) (exEv.ws tag).inner) ∧ exEv.scratch = none :=
  ⟨by intro w hw; simp [exEv] at hw, fun _ => trivial, rfl⟩

/-- The conclusion of C25 in the concrete case. -/
example (ev ev' : Ev Unit ℚ) (_ : exCommitted = some ev) (hc : Clean exSys ev) (calls : List (Call ℚ))
    (h : history exSys ev calls = some ev') (c : Call ℚ) (junk' : Nat → ℚ) :
    (answer exSys c ev').map Prod.fst = (answer exSys (c.withJunk junk') ev).map Prod.fst :=
  C25_rhs_repeatable ex_bounds ex_functional ev ev' (fun _ => trivial) hc calls h c junk'

/-- The serial loop of a stage completes in the concrete case, as C26 and C29 ask. -/
example : (serial exSys.layers (multJob exSys 0 1 (fun k => (k : ℚ))) exEv.ws exEv.states).isSome = true := by
  decide +kernel

/-- Complete parallel executions with two threads exist in the concrete case, and all end like the serial loop. -/
example : (∃ c, Relation.ReflTransGen (ParStep exSys.layers (finalJob exSys 0 1) 2)
      (parStart (fun _ => exEv.ws) exEv.states) c ∧ parDone exEv.states.length c) ∧
    ∀ c, Relation.ReflTransGen (ParStep exSys.layers (finalJob exSys 0 1) 2)
      (parStart (fun _ => exEv.ws) exEv.states) c → parDone exEv.states.length c →
      (serial exSys.layers (finalJob exSys 0 1) exEv.ws exEv.states).map Prod.snd = some c.sts := by
  have hs : (serial exSys.layers (finalJob exSys 0 1) exEv.ws exEv.states).isSome = true := by decide +kernel
  have hj : ∀ st ∈ exEv.states, ∀ j, finalJob exSys 0 1 st = some j → ∀ s ∈ j.steps, 0 < s.len :=
    fun st _ j hj => (C26_stage_and_step exSys 0 1 (by norm_num) (fun _ => 0) st j).2 hj
  refine ⟨C26_completes ex_functional 2 (by norm_num) hj _ (fun _ _ => trivial) _ .refl exEv.ws (fun _ => trivial) ?_,
    fun c h hd => C26_schedule_independent ex_functional 2 hj _ (fun _ _ => trivial) c h hd exEv.ws
      (fun _ => trivial)⟩
  intro h
  rw [h] at hs
  exact absurd hs (by simp)

end Example

end Dgtd.SgbcEvol
