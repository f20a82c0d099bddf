/-
C26, C29: tasks of the thin-layer loop, in any schedule, and isolation of the states.
-/
import Verif.Props.SgbcEvol

set_option linter.unusedSectionVars false
set_option linter.unusedSimpArgs false

namespace Dgtd.SgbcEvol

open Sgbc Spec Relation

variable {σ K : Type} [Field K] [LinearOrder K] [IsStrictOrderedRing K] [FloorRing K]

/-- The loop before any task was handed out: every thread has its own wrappers. -/
def parStart (ws : Nat → Int → Wrapper σ K) (sts : List (St K)) : Par σ K := ⟨ws, sts, fun _ => false, fun _ => none⟩

/-- The loop is over: every task was handed out and no thread is working (implicit barrier). -/
def parDone (n : Nat) (c : Par σ K) : Prop := (∀ i, i < n → c.taken i = true) ∧ ∀ t, c.run t = none

lemma parInv_start {ok : σ → Prop} {p : Int → (Nat → K) → K → K → Option (Nat → K)}
    {job : St K → Option (Job K)} {threads : Nat} {sts0 : List (St K)} {ws : Nat → Int → Wrapper σ K}
    (hok : ∀ t tag, ok (ws t tag).inner) : ParInv ok p job threads sts0 (parStart ws sts0) :=
  ⟨rfl, hok, fun _ _ => rfl, fun _ _ h _ => h, fun _ _ _ h => absurd h (by simp [parStart]),
    fun _ _ _ _ _ h => absurd h (by simp [parStart]), fun _ _ _ h => absurd h (by simp [parStart])⟩

lemma parInv_reach {Ls : Int → Layer σ K} {ok : σ → Prop} {p : Int → (Nat → K) → K → K → Option (Nat → K)}
    (hL : ∀ tag, Functional (Ls tag) ok (p tag)) {job : St K → Option (Job K)} {threads : Nat}
    {sts0 : List (St K)} (hj : ∀ st ∈ sts0, ∀ j, job st = some j → ∀ s ∈ j.steps, 0 < s.len)
    {ws : Nat → Int → Wrapper σ K} (hok : ∀ t tag, ok (ws t tag).inner) {c : Par σ K}
    (h : ReflTransGen (ParStep Ls job threads) (parStart ws sts0) c) : ParInv ok p job threads sts0 c := by
  induction h with
  | refl => exact parInv_start hok
  | tail _ hs ih => exact parInv_step hL hj ih hs

/-- **C26**: whatever the number of threads, the assignment of tasks to threads and the interleaving, when the
parallel loop is over the states are the ones the serial loop computes. -/
theorem C26_schedule_independent {Ls : Int → Layer σ K} {ok : σ → Prop}
    {p : Int → (Nat → K) → K → K → Option (Nat → K)}
    (hL : ∀ tag, Functional (Ls tag) ok (p tag)) {job : St K → Option (Job K)} (threads : Nat)
    {sts0 : List (St K)} (hj : ∀ st ∈ sts0, ∀ j, job st = some j → ∀ s ∈ j.steps, 0 < s.len)
    (wsPar : Nat → Int → Wrapper σ K) (hok : ∀ t tag, ok (wsPar t tag).inner) (c : Par σ K)
    (h : ReflTransGen (ParStep Ls job threads) (parStart wsPar sts0) c) (hdone : parDone sts0.length c)
    (ws : Int → Wrapper σ K) (hok' : ∀ tag, ok (ws tag).inner) :
    (serial Ls job ws sts0).map Prod.snd = some c.sts := by
  have hI := parInv_reach hL hj hok h
  have hA : advanceAll p job sts0 = some c.sts := by
    refine advanceAll_of_get sts0 c.sts hI.len ?_
    intro i st hi
    refine hI.done i st hi (hdone.1 i (List.getElem?_eq_some_iff.1 hi).1) ?_
    intro t r hr
    rw [hdone.2 t] at hr
    exact absurd hr (by simp)
  rcases serial_pure hL job sts0 hj ws hok' with ⟨h1, -⟩ | ⟨ws', r, h1, -, h3⟩
  · rw [hA] at h1; exact absurd h1 (by simp)
  · rw [hA, Option.some.injEq] at h3
    rw [h1, h3]
    rfl

/-- **C26**, progress: as long as the loop is not over some thread can act, provided the serial loop succeeds. -/
theorem C26_no_deadlock {Ls : Int → Layer σ K} {ok : σ → Prop}
    {p : Int → (Nat → K) → K → K → Option (Nat → K)}
    (hL : ∀ tag, Functional (Ls tag) ok (p tag)) {job : St K → Option (Job K)} (threads : Nat) (ht : 0 < threads)
    {sts0 : List (St K)} (hj : ∀ st ∈ sts0, ∀ j, job st = some j → ∀ s ∈ j.steps, 0 < s.len)
    (wsPar : Nat → Int → Wrapper σ K) (hok : ∀ t tag, ok (wsPar t tag).inner) (c : Par σ K)
    (h : ReflTransGen (ParStep Ls job threads) (parStart wsPar sts0) c) (hnot : ¬ parDone sts0.length c)
    (ws : Int → Wrapper σ K) (hok' : ∀ tag, ok (ws tag).inner) (hs : serial Ls job ws sts0 ≠ none) :
    ∃ c', ParStep Ls job threads c c' := by
  have hI := parInv_reach hL hj hok h
  obtain ⟨r, hA⟩ : ∃ r, advanceAll p job sts0 = some r := by
    rcases serial_pure hL job sts0 hj ws hok' with ⟨-, h1⟩ | ⟨ws', r, -, -, h3⟩
    · exact absurd h1 hs
    · exact ⟨r, h3⟩
  obtain ⟨-, hget⟩ := advanceAll_get hA
  by_cases hidle : ∀ t, c.run t = none
  · have : ∃ i, i < sts0.length ∧ c.taken i = false := by
      by_contra hne
      push Not at hne
      exact hnot ⟨fun i hi => by simpa using hne i hi, hidle⟩
    obtain ⟨i, hi, hfree⟩ := this
    have hst0 : sts0[i]? = some sts0[i] := List.getElem?_eq_getElem hi
    have hst := hI.waiting i _ hst0 hfree
    obtain ⟨s, hs1, -⟩ := hget i _ hst0
    simp only [advanceSt, Option.bind_eq_bind, Option.bind_eq_some_iff] at hs1
    obtain ⟨j, hj1, -⟩ := hs1
    cases hsk : j.skip with
    | true => exact ⟨_, ParStep.skip ht (hidle 0) hfree hst hj1 hsk⟩
    | false => exact ⟨_, ParStep.take ht (hidle 0) hfree hst hj1 hsk⟩
  · push Not at hidle
    obtain ⟨t, hrun⟩ := hidle
    obtain ⟨⟨i, rem⟩, hrun⟩ := Option.ne_none_iff_exists'.1 hrun
    have htt : t < threads := by
      by_contra hge
      rw [hI.inRange t (by omega)] at hrun
      exact absurd hrun (by simp)
    obtain ⟨-, st, j, d, g2, g3, g4, g5, g6, g7⟩ := hI.running t i rem hrun
    cases rem with
    | nil => exact ⟨_, ParStep.save htt hrun g3⟩
    | cons s rem =>
      obtain ⟨s', hs1, -⟩ := hget i _ g2
      simp only [advanceSt, g4, Option.bind_eq_bind, Option.bind_some, Option.bind_eq_some_iff, Spec.advance, g5,
        Bool.false_eq_true, if_false] at hs1
      obtain ⟨x, hx, -⟩ := hs1
      rw [← g6, List.foldlM_append, g7] at hx
      simp only [Option.bind_eq_bind, Option.bind_some, List.foldlM_cons, Option.bind_eq_some_iff] at hx
      obtain ⟨y, hy, -⟩ := hx
      have hpos : 0 < s.len := hj st (List.mem_of_getElem? g2) j g4 s (by rw [← g6]; simp)
      rcases subStep1_pure (hL st.tag) j (c.ws t st.tag) (hI.wrappers t st.tag) s hpos with ⟨k, -⟩ | ⟨w', k1, -, -⟩
      · rw [hy] at k; exact absurd k (by simp)
      · exact ⟨_, ParStep.sub htt hrun g3 g4 k1⟩

/-- **C26**, termination: an execution takes at most two actions per state plus one per sub-step, so no schedule
runs for ever. -/
theorem C26_terminates {Ls : Int → Layer σ K} {ok : σ → Prop}
    {p : Int → (Nat → K) → K → K → Option (Nat → K)}
    (hL : ∀ tag, Functional (Ls tag) ok (p tag)) {job : St K → Option (Job K)} (threads : Nat)
    {sts0 : List (St K)} (hj : ∀ st ∈ sts0, ∀ j, job st = some j → ∀ s ∈ j.steps, 0 < s.len)
    (wsPar : Nat → Int → Wrapper σ K) (hok : ∀ t tag, ok (wsPar t tag).inner) (f : Nat → Par σ K) (n : Nat)
    (h0 : f 0 = parStart wsPar sts0) (h : ∀ k, k < n → ParStep Ls job threads (f k) (f (k + 1))) :
    n ≤ ∑ i ∈ Finset.range sts0.length, (2 + ((sts0[i]?.bind job).elim 0 fun j => j.steps.length)) := by
  have hr : ∀ k, k ≤ n → ReflTransGen (ParStep Ls job threads) (parStart wsPar sts0) (f k) := by
    intro k
    induction k with
    | zero => intro _; rw [h0]
    | succ k ih => intro hk; exact (ih (by omega)).tail (h k (by omega))
  have hw : ∀ k, k ≤ n → workLeft job threads sts0 (f k) + k ≤ workLeft job threads sts0 (f 0) := by
    intro k
    induction k with
    | zero => intro _; simp
    | succ k ih =>
      intro hk
      have := workLeft_step (parInv_reach hL hj hok (hr k (by omega))) (h k (by omega))
      have := ih (by omega)
      omega
  have := hw n le_rfl
  have e : workLeft job threads sts0 (f 0) =
      ∑ i ∈ Finset.range sts0.length, (2 + ((sts0[i]?.bind job).elim 0 fun j => j.steps.length)) := by
    rw [h0]; simp [workLeft, parStart]
  omega

/-- **C26**, completion: from wherever the loop is, it can be finished (with `C26_terminates`: every schedule that keeps
acting finishes). -/
theorem C26_completes {Ls : Int → Layer σ K} {ok : σ → Prop}
    {p : Int → (Nat → K) → K → K → Option (Nat → K)}
    (hL : ∀ tag, Functional (Ls tag) ok (p tag)) {job : St K → Option (Job K)} (threads : Nat) (ht : 0 < threads)
    {sts0 : List (St K)} (hj : ∀ st ∈ sts0, ∀ j, job st = some j → ∀ s ∈ j.steps, 0 < s.len)
    (wsPar : Nat → Int → Wrapper σ K) (hok : ∀ t tag, ok (wsPar t tag).inner) (c : Par σ K)
    (h : ReflTransGen (ParStep Ls job threads) (parStart wsPar sts0) c)
    (ws : Int → Wrapper σ K) (hok' : ∀ tag, ok (ws tag).inner) (hs : serial Ls job ws sts0 ≠ none) :
    ∃ c', ReflTransGen (ParStep Ls job threads) c c' ∧ parDone sts0.length c' := by
  generalize hn : workLeft job threads sts0 c = n
  induction n using Nat.strong_induction_on generalizing c with
  | _ n ih =>
    by_cases hd : parDone sts0.length c
    · exact ⟨c, ReflTransGen.refl, hd⟩
    · obtain ⟨c1, h1⟩ := C26_no_deadlock hL threads ht hj wsPar hok c h hd ws hok' hs
      have := workLeft_step (parInv_reach hL hj hok h) h1
      obtain ⟨c', h2, h3⟩ := ih _ (by omega) c1 (h.tail h1) rfl
      exact ⟨c', ReflTransGen.head h1 h2, h3⟩

/-- **C26** for a stage of the right-hand side and for the end of the step: the two loops of the code meet the
hypothesis on the sub-steps as soon as the step is positive. -/
theorem C26_stage_and_step (S : Sys σ K) (base dt : K) (h : 0 < dt) (inp : Nat → K) (st : St K) (j : Job K) :
    (multJob S base dt inp st = some j → ∀ s ∈ j.steps, 0 < s.len) ∧
    (finalJob S base dt st = some j → ∀ s ∈ j.steps, 0 < s.len) :=
  ⟨multJob_pos S base dt h inp st j, finalJob_pos S base dt h st j⟩

/-! ### isolation -/

/-- **C29**: the advance of a state does not depend on the other states, on its position, nor on what the shared
wrappers hold; and it changes nothing but the state's fields. -/
theorem C29_isolated {Ls : Int → Layer σ K} {ok : σ → Prop}
    {p : Int → (Nat → K) → K → K → Option (Nat → K)}
    (hL : ∀ tag, Functional (Ls tag) ok (p tag)) {job : St K → Option (Job K)} {sts sts' : List (St K)}
    (hj : ∀ st ∈ sts, ∀ j, job st = some j → ∀ s ∈ j.steps, 0 < s.len)
    (hj' : ∀ st ∈ sts', ∀ j, job st = some j → ∀ s ∈ j.steps, 0 < s.len)
    (ws ws' : Int → Wrapper σ K) (hok : ∀ tag, ok (ws tag).inner) (hok' : ∀ tag, ok (ws' tag).inner)
    (v v' : Int → Wrapper σ K) (r r' : List (St K)) (h : serial Ls job ws sts = some (v, r))
    (h' : serial Ls job ws' sts' = some (v', r')) (i i' : Nat) (st : St K) (hi : sts[i]? = some st)
    (hi' : sts'[i']? = some st) :
    r[i]? = r'[i']? ∧ ∃ x, r[i]? = some { st with fields := x } := by
  have gen : ∀ (sts : List (St K)), (∀ st ∈ sts, ∀ j, job st = some j → ∀ s ∈ j.steps, 0 < s.len) →
      ∀ (ws v : Int → Wrapper σ K) r, (∀ tag, ok (ws tag).inner) → serial Ls job ws sts = some (v, r) →
      ∀ i : Nat, sts[i]? = some st → r[i]? = advanceSt p job st ∧ ∃ s, advanceSt p job st = some s := by
    intro sts hj ws v r hok h i hi
    rcases serial_pure hL job sts hj ws hok with ⟨-, h1⟩ | ⟨w, r1, h1, -, h3⟩
    · rw [h] at h1; exact absurd h1 (by simp)
    · rw [h, Option.some.injEq, Prod.mk.injEq] at h1
      obtain ⟨rfl, rfl⟩ := h1
      obtain ⟨-, hg⟩ := advanceAll_get h3
      obtain ⟨s, k1, k2⟩ := hg i st hi
      exact ⟨by rw [k1, k2], s, k1⟩
  obtain ⟨g1, s, g2⟩ := gen sts hj ws v r hok h i hi
  obtain ⟨g1', -⟩ := gen sts' hj' ws' v' r' hok' h' i' hi'
  refine ⟨by rw [g1, g1'], ?_⟩
  rw [g1, g2]
  simp only [advanceSt, Option.bind_eq_bind, Option.bind_eq_some_iff, Option.some.injEq] at g2
  obtain ⟨j, -, x, -, rfl⟩ := g2
  exact ⟨x, rfl⟩

/-- An operation on a wrapper shared by many states. -/
inductive Op (K : Type)
  | load (i : Nat)
  | advance (j : Job K) (s : SubStep K)
  | save (i : Nat)

/-- Effect of an operation. -/
def Op.run (L : Layer σ K) : Op K → Wrapper σ K × List (St K) → Option (Wrapper σ K × List (St K))
  | .load i, (w, sts) => sts[i]?.map fun st => (loadState w st, sts)
  | .advance j s, (w, sts) => (subStep1 L j w s).map fun w => (w, sts)
  | .save i, (w, sts) => sts[i]?.map fun st => (w, sts.set i (saveState w st))

lemma ops_keep (L : Layer σ K) (ops : List (Op K)) (k : Nat) (hk : Op.save k ∉ ops)
    {a b : Wrapper σ K × List (St K)} (h : ops.foldlM (fun a (o : Op K) => o.run L a) a = some b) : b.2[k]? = a.2[k]? := by
  induction ops generalizing a with
  | nil => simp only [List.foldlM_nil, Option.pure_def, Option.some.injEq] at h; rw [h]
  | cons o r ih =>
    simp only [List.foldlM_cons, Option.bind_eq_bind, Option.bind_eq_some_iff] at h
    obtain ⟨c, h1, h2⟩ := h
    rw [ih (fun h => hk (List.mem_cons_of_mem _ h)) h2]
    cases o with
    | load i =>
      simp only [Op.run, Option.map_eq_some_iff] at h1
      obtain ⟨st, -, rfl⟩ := h1; rfl
    | advance j s =>
      simp only [Op.run, Option.map_eq_some_iff] at h1
      obtain ⟨w, -, rfl⟩ := h1; rfl
    | save i =>
      simp only [Op.run, Option.map_eq_some_iff] at h1
      obtain ⟨st, -, rfl⟩ := h1
      have : i ≠ k := by rintro rfl; exact hk (by simp)
      simp [List.getElem?_set_ne this]

/-- **C29**: in any sequence of operations on a shared wrapper, a state changes only through a save of that state;
and after a save, whatever else happens, loading the state again brings back the saved fields. -/
theorem C29_save_load (L : Layer σ K) (ops : List (Op K)) (k : Nat) (hk : Op.save k ∉ ops) (w w' : Wrapper σ K)
    (sts sts' : List (St K)) :
    (ops.foldlM (fun a (o : Op K) => o.run L a) (w, sts) = some (w', sts') → sts'[k]? = sts[k]?) ∧
    (([Op.save k] ++ ops ++ [Op.load k] : List (Op K)).foldlM (fun a (o : Op K) => o.run L a) (w, sts) = some (w', sts') →
      w'.all = w.all) := by
  refine ⟨fun h => ops_keep L ops k hk h, fun h => ?_⟩
  rw [List.foldlM_append, List.foldlM_append] at h
  simp only [List.foldlM_cons, List.foldlM_nil, Option.bind_eq_bind, Option.bind_eq_some_iff, Option.pure_def,
    Option.some.injEq] at h
  obtain ⟨b, ⟨a, ⟨a', h1, rfl⟩, h2⟩, c, h3, rfl⟩ := h
  have e := ops_keep L ops k hk h2
  simp only [Op.run, Option.map_eq_some_iff] at h1
  obtain ⟨st, hst, rfl⟩ := h1
  obtain ⟨w1, sts1⟩ := b
  simp only [Op.run, Option.map_eq_some_iff] at h3
  obtain ⟨st', hst', h4⟩ := h3
  simp only at e
  rw [hst', List.getElem?_set_self (List.getElem?_eq_some_iff.1 hst).1, Option.some.injEq] at e
  rw [Prod.mk.injEq] at h4
  rw [← h4.1, e]
  rfl

end Dgtd.SgbcEvol
