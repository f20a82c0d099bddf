/-
Invariant of the parallel task loop.
-/
import Verif.Lemmas.SgbcEvol
import Mathlib.Logic.Relation
import Mathlib.Algebra.BigOperators.Group.Finset.Basic
import Mathlib.Algebra.Order.BigOperators.Group.Finset

set_option linter.unusedSectionVars false
set_option linter.unusedSimpArgs false

namespace Dgtd.SgbcEvol

open Sgbc Spec

variable {σ K : Type} [Field K] [LinearOrder K] [IsStrictOrderedRing K] [FloorRing K]

lemma advanceAll_of_get {p : Int → (Nat → K) → K → K → Option (Nat → K)} {job : St K → Option (Job K)}
    (sts r : List (St K)) (hlen : r.length = sts.length)
    (h : ∀ (i : Nat) (st : St K), sts[i]? = some st → ∃ s, advanceSt p job st = some s ∧ r[i]? = some s) :
    advanceAll p job sts = some r := by
  induction sts generalizing r with
  | nil =>
    cases r with
    | nil => rfl
    | cons => simp at hlen
  | cons st rest ih =>
    cases r with
    | nil => simp at hlen
    | cons x r =>
      obtain ⟨s, h1, h2⟩ := h 0 st rfl
      simp only [List.getElem?_cons_zero, Option.some.injEq] at h2
      subst h2
      have hr := ih r (by simpa using hlen) (fun i st' hi => by
        have := h (i + 1) st' (by simpa using hi)
        simpa using this)
      simp only [advanceAll, h1, hr, Option.bind_eq_bind, Option.bind_some]

lemma advanceAll_get {p : Int → (Nat → K) → K → K → Option (Nat → K)} {job : St K → Option (Job K)}
    {sts r : List (St K)} (h : advanceAll p job sts = some r) :
    r.length = sts.length ∧ ∀ (i : Nat) (st : St K), sts[i]? = some st → ∃ s, advanceSt p job st = some s ∧ r[i]? = some s := by
  induction sts generalizing r with
  | nil => simp only [advanceAll, Option.some.injEq] at h; subst h; simp
  | cons st rest ih =>
    simp only [advanceAll, Option.bind_eq_bind, Option.bind_eq_some_iff, Option.some.injEq] at h
    obtain ⟨s, h1, r', h2, rfl⟩ := h
    obtain ⟨hl, hg⟩ := ih h2
    refine ⟨by simp [hl], ?_⟩
    intro i st' hi
    cases i with
    | zero =>
      simp only [List.getElem?_cons_zero, Option.some.injEq] at hi
      subst hi
      exact ⟨s, h1, rfl⟩
    | succ i => simpa using hg i st' (by simpa using hi)

/-- Invariant of the task loop started on the states `sts0`. -/
structure ParInv (ok : σ → Prop) (p : Int → (Nat → K) → K → K → Option (Nat → K))
    (job : St K → Option (Job K)) (threads : Nat) (sts0 : List (St K)) (c : Par σ K) : Prop where
  len : c.sts.length = sts0.length
  wrappers : ∀ t tag, ok (c.ws t tag).inner
  inRange : ∀ t, threads ≤ t → c.run t = none
  waiting : ∀ (i : Nat) (st : St K), sts0[i]? = some st → c.taken i = false → c.sts[i]? = some st
  running : ∀ t (i : Nat) r, c.run t = some (i, r) → c.taken i = true ∧
    ∃ st j d, sts0[i]? = some st ∧ c.sts[i]? = some st ∧ job st = some j ∧ j.skip = false ∧ d ++ r = j.steps ∧
      d.foldlM (Spec.advance1 (p st.tag) j) st.fields = some (c.ws t st.tag).all
  unique : ∀ t t' (i : Nat) r r', c.run t = some (i, r) → c.run t' = some (i, r') → t = t'
  done : ∀ (i : Nat) (st : St K), sts0[i]? = some st → c.taken i = true → (∀ t r, c.run t ≠ some (i, r)) →
    ∃ s, advanceSt p job st = some s ∧ c.sts[i]? = some s

lemma parInv_step {Ls : Int → Layer σ K} {ok : σ → Prop} {p : Int → (Nat → K) → K → K → Option (Nat → K)}
    (hL : ∀ tag, Functional (Ls tag) ok (p tag)) {job : St K → Option (Job K)} {threads : Nat}
    {sts0 : List (St K)} (hj : ∀ st ∈ sts0, ∀ j, job st = some j → ∀ s ∈ j.steps, 0 < s.len)
    {c c' : Par σ K} (h : ParInv ok p job threads sts0 c) (hs : ParStep Ls job threads c c') :
    ParInv ok p job threads sts0 c' := by
  cases hs with
  | @skip t i st j ht idle free hst hjob hsk =>
    have hi0 : i < sts0.length := by
      rw [← h.len]; exact (List.getElem?_eq_some_iff.1 hst).1
    have hst0 : sts0[i]? = some st := by
      obtain ⟨s0, hs0⟩ : ∃ s0, sts0[i]? = some s0 := ⟨_, List.getElem?_eq_getElem hi0⟩
      have := h.waiting i s0 hs0 free
      rw [hst, Option.some.injEq] at this
      rw [hs0, this]
    refine ⟨h.len, h.wrappers, h.inRange, ?_, ?_, h.unique, ?_⟩
    · intro i' st' h1 h2
      by_cases e : i' = i
      · subst e; simp at h2
      · simp only [Function.update_of_ne e] at h2
        exact h.waiting i' st' h1 h2
    · intro t' i' r h1
      obtain ⟨g1, g2⟩ := h.running t' i' r h1
      refine ⟨?_, g2⟩
      by_cases e : i' = i
      · subst e; simp
      · simpa only [Function.update_of_ne e] using g1
    · intro i' st' h1 h2 h3
      by_cases e : i' = i
      · subst e
        rw [hst0, Option.some.injEq] at h1
        subst h1
        exact ⟨st, by simp [advanceSt, hjob, Spec.advance, hsk], hst⟩
      · simp only [Function.update_of_ne e] at h2
        exact h.done i' st' h1 h2 h3
  | @take t i st j ht idle free hst hjob hsk =>
    have hi0 : i < sts0.length := by
      rw [← h.len]; exact (List.getElem?_eq_some_iff.1 hst).1
    have hst0 : sts0[i]? = some st := by
      obtain ⟨s0, hs0⟩ : ∃ s0, sts0[i]? = some s0 := ⟨_, List.getElem?_eq_getElem hi0⟩
      have := h.waiting i s0 hs0 free
      rw [hst, Option.some.injEq] at this
      rw [hs0, this]
    have hnot : ∀ t' r, c.run t' ≠ some (i, r) := by
      intro t' r hr
      have := (h.running t' i r hr).1
      rw [free] at this; exact absurd this (by simp)
    refine ⟨h.len, ?_, ?_, ?_, ?_, ?_, ?_⟩
    · intro t' tag
      by_cases e : t' = t
      · subst e
        simp only [Function.update_self]
        by_cases e2 : tag = st.tag
        · subst e2; simpa [loadState] using h.wrappers t' st.tag
        · rw [Function.update_of_ne e2]; exact h.wrappers t' tag
      · simp only [Function.update_of_ne e]; exact h.wrappers t' tag
    · intro t' ht'
      have e : t' ≠ t := by omega
      simp only [Function.update_of_ne e]; exact h.inRange t' ht'
    · intro i' st' h1 h2
      by_cases e : i' = i
      · subst e; simp at h2
      · simp only [Function.update_of_ne e] at h2
        exact h.waiting i' st' h1 h2
    · intro t' i' r h1
      by_cases e : t' = t
      · subst e
        simp only [Function.update_self, Option.some.injEq, Prod.mk.injEq] at h1
        obtain ⟨rfl, rfl⟩ := h1
        exact ⟨by simp, st, j, [], hst0, hst, hjob, hsk, rfl, by simp [loadState]⟩
      · simp only [Function.update_of_ne e] at h1 ⊢
        obtain ⟨g1, g2⟩ := h.running t' i' r h1
        have e3 : i' ≠ i := by rintro rfl; exact hnot _ _ h1
        exact ⟨by simpa only [Function.update_of_ne e3] using g1, g2⟩
    · intro t1 t2 i' r r' h1 h2
      by_cases e1 : t1 = t
      · subst e1
        simp only [Function.update_self, Option.some.injEq, Prod.mk.injEq] at h1
        by_cases e2 : t2 = t1
        · exact e2.symm
        · simp only [Function.update_of_ne e2] at h2
          rw [← h1.1] at h2
          exact absurd h2 (hnot _ _)
      · simp only [Function.update_of_ne e1] at h1
        by_cases e2 : t2 = t
        · subst e2
          simp only [Function.update_self, Option.some.injEq, Prod.mk.injEq] at h2
          rw [← h2.1] at h1
          exact absurd h1 (hnot _ _)
        · simp only [Function.update_of_ne e2] at h2
          exact h.unique t1 t2 i' r r' h1 h2
    · intro i' st' h1 h2 h3
      by_cases e : i' = i
      · subst e
        exact absurd (by simp) (h3 t j.steps)
      · simp only [Function.update_of_ne e] at h2
        refine h.done i' st' h1 h2 ?_
        intro t' r hr
        by_cases e' : t' = t
        · subst e'; rw [idle] at hr; exact absurd hr (by simp)
        · exact h3 t' r (by simpa only [Function.update_of_ne e'] using hr)
  | @sub t i st j s r w ht busy hst hjob hw =>
    obtain ⟨g1, st', j', d, g2, g3, g4, g5, g6, g7⟩ := h.running t i (s :: r) busy
    rw [hst, Option.some.injEq] at g3
    subst g3
    rw [hjob, Option.some.injEq] at g4
    subst g4
    have hpos : 0 < s.len := hj st (List.mem_of_getElem? g2) j hjob s (by rw [← g6]; simp)
    have hadv : ok w.inner ∧ Spec.advance1 (p st.tag) j (c.ws t st.tag).all s = some w.all := by
      rcases subStep1_pure (hL st.tag) j (c.ws t st.tag) (h.wrappers t st.tag) s hpos with ⟨-, k2⟩ | ⟨w', k1, k2, k3⟩
      · rw [hw] at k2; exact absurd k2 (by simp)
      · rw [hw, Option.some.injEq] at k1
        subst k1
        exact ⟨k2, k3⟩
    refine ⟨h.len, ?_, ?_, h.waiting, ?_, ?_, ?_⟩
    · intro t' tag
      by_cases e : t' = t
      · subst e
        simp only [Function.update_self]
        by_cases e2 : tag = st.tag
        · subst e2; simpa using hadv.1
        · rw [Function.update_of_ne e2]; exact h.wrappers t' tag
      · simp only [Function.update_of_ne e]; exact h.wrappers t' tag
    · intro t' ht'
      have e : t' ≠ t := by omega
      simp only [Function.update_of_ne e]; exact h.inRange t' ht'
    · intro t' i' r' h1
      by_cases e : t' = t
      · subst e
        simp only [Function.update_self, Option.some.injEq, Prod.mk.injEq] at h1 ⊢
        obtain ⟨rfl, rfl⟩ := h1
        refine ⟨g1, st, j, d ++ [s], g2, hst, hjob, g5, by simp [← g6], ?_⟩
        rw [List.foldlM_append, g7]
        simp [hadv.2]
      · simp only [Function.update_of_ne e] at h1 ⊢
        exact h.running t' i' r' h1
    · intro t1 t2 i' r1 r2 h1 h2
      have conv : ∀ t' r', Function.update c.run t (some (i, r)) t' = some (i', r') → ∃ r'', c.run t' = some (i', r'') := by
        intro t' r' hr
        by_cases e : t' = t
        · subst e
          simp only [Function.update_self, Option.some.injEq, Prod.mk.injEq] at hr
          exact ⟨s :: r, by rw [busy, hr.1]⟩
        · rw [Function.update_of_ne e] at hr; exact ⟨r', hr⟩
      obtain ⟨a, ha⟩ := conv t1 r1 h1
      obtain ⟨b, hb⟩ := conv t2 r2 h2
      exact h.unique t1 t2 i' a b ha hb
    · intro i' st' h1 h2 h3
      refine h.done i' st' h1 h2 ?_
      intro t' r' hr
      by_cases e : t' = t
      · subst e
        rw [busy, Option.some.injEq, Prod.mk.injEq] at hr
        exact h3 t' r (by simp [hr.1])
      · exact h3 t' r' (by simpa only [Function.update_of_ne e] using hr)
  | @save t i st ht busy hst =>
    obtain ⟨g1, st', j, d, g2, g3, g4, g5, g6, g7⟩ := h.running t i [] busy
    rw [hst, Option.some.injEq] at g3
    subst g3
    have hi0 : i < c.sts.length := (List.getElem?_eq_some_iff.1 hst).1
    refine ⟨by simpa using h.len, h.wrappers, ?_, ?_, ?_, ?_, ?_⟩
    · intro t' ht'
      have e : t' ≠ t := by omega
      simp only [Function.update_of_ne e]; exact h.inRange t' ht'
    · intro i' st' h1 h2
      have e : i' ≠ i := by rintro rfl; rw [g1] at h2; exact absurd h2 (by simp)
      simp only
      rw [List.getElem?_set_ne (Ne.symm e)]
      exact h.waiting i' st' h1 h2
    · intro t' i' r' h1
      by_cases e : t' = t
      · subst e; simp at h1
      · simp only [Function.update_of_ne e] at h1 ⊢
        have e3 : i' ≠ i := by rintro rfl; exact e (h.unique t' t _ _ _ h1 busy)
        rw [List.getElem?_set_ne (Ne.symm e3)]
        exact h.running t' i' r' h1
    · intro t1 t2 i' r1 r2 h1 h2
      by_cases e1 : t1 = t
      · subst e1; simp at h1
      · by_cases e2 : t2 = t
        · subst e2; simp at h2
        · simp only [Function.update_of_ne e1, Function.update_of_ne e2] at h1 h2
          exact h.unique t1 t2 i' r1 r2 h1 h2
    · intro i' st' h1 h2 h3
      by_cases e : i' = i
      · subst e
        rw [g2, Option.some.injEq] at h1
        subst h1
        refine ⟨saveState (c.ws t st.tag) st, ?_, ?_⟩
        · rw [List.append_nil] at g6
          subst g6
          simp only [advanceSt, g4, Option.bind_eq_bind, Option.bind_some, Spec.advance, g5, Bool.false_eq_true,
            if_false, g7, saveState]
        · simp only
          rw [List.getElem?_set_self hi0]
      · simp only
        rw [List.getElem?_set_ne (Ne.symm e)]
        refine h.done i' st' h1 h2 ?_
        intro t' r' hr
        by_cases e' : t' = t
        · subst e'
          rw [busy, Option.some.injEq, Prod.mk.injEq] at hr
          exact absurd hr.1.symm e
        · exact h3 t' r' (by simpa only [Function.update_of_ne e'] using hr)

/-- Work left: two actions plus the sub-steps for every task not handed out, and what the threads still have. -/
def workLeft (job : St K → Option (Job K)) (threads : Nat) (sts0 : List (St K)) (c : Par σ K) : Nat :=
  (∑ i ∈ Finset.range sts0.length, if c.taken i then 0 else
    2 + ((sts0[i]?.bind job).elim 0 fun j => j.steps.length)) +
  ∑ t ∈ Finset.range threads, ((c.run t).elim 0 fun q => 1 + q.2.length)

lemma sum_update_lt {n : Nat} (f g : Nat → Nat) (k : Nat) (hk : k < n) (hne : ∀ i, i ≠ k → f i = g i) :
    (∑ i ∈ Finset.range n, f i) + g k = (∑ i ∈ Finset.range n, g i) + f k := by
  have hmem : k ∈ Finset.range n := Finset.mem_range.2 hk
  rw [← Finset.add_sum_erase _ f hmem, ← Finset.add_sum_erase _ g hmem]
  have : ∑ x ∈ (Finset.range n).erase k, f x = ∑ x ∈ (Finset.range n).erase k, g x := by
    apply Finset.sum_congr rfl
    intro x hx
    exact hne x (Finset.ne_of_mem_erase hx)
  omega

lemma workLeft_step {Ls : Int → Layer σ K} {ok : σ → Prop} {p : Int → (Nat → K) → K → K → Option (Nat → K)}
    {job : St K → Option (Job K)} {threads : Nat} {sts0 : List (St K)}
    {c c' : Par σ K} (h : ParInv ok p job threads sts0 c) (hs : ParStep Ls job threads c c') :
    workLeft job threads sts0 c' < workLeft job threads sts0 c := by
  unfold workLeft
  cases hs with
  | @skip t i st j ht idle free hst hjob hsk =>
    have hi0 : i < sts0.length := by rw [← h.len]; exact (List.getElem?_eq_some_iff.1 hst).1
    have := sum_update_lt
      (fun i' => if Function.update c.taken i true i' then 0 else
        2 + ((sts0[i']?.bind job).elim 0 fun j => j.steps.length))
      (fun i' => if c.taken i' then 0 else 2 + ((sts0[i']?.bind job).elim 0 fun j => j.steps.length)) i hi0
      (fun i' hne => by simp only [Function.update_of_ne hne])
    simp only [Function.update_self, if_true, free, Bool.false_eq_true, if_false] at this
    simp only
    omega
  | @take t i st j ht idle free hst hjob hsk =>
    have hi0 : i < sts0.length := by rw [← h.len]; exact (List.getElem?_eq_some_iff.1 hst).1
    have hst0 : sts0[i]? = some st := by
      obtain ⟨s0, hs0⟩ : ∃ s0, sts0[i]? = some s0 := ⟨_, List.getElem?_eq_getElem hi0⟩
      have := h.waiting i s0 hs0 free
      rw [hst, Option.some.injEq] at this
      rw [hs0, this]
    have h1 := sum_update_lt
      (fun i' => if Function.update c.taken i true i' then 0 else
        2 + ((sts0[i']?.bind job).elim 0 fun j => j.steps.length))
      (fun i' => if c.taken i' then 0 else 2 + ((sts0[i']?.bind job).elim 0 fun j => j.steps.length)) i hi0
      (fun i' hne => by simp only [Function.update_of_ne hne])
    have h2 := sum_update_lt
      (fun t' => ((Function.update c.run t (some (i, j.steps)) t').elim 0 fun q => 1 + q.2.length))
      (fun t' => ((c.run t').elim 0 fun q => 1 + q.2.length)) t ht
      (fun t' hne => by simp only [Function.update_of_ne hne])
    simp only [Function.update_self, if_true, free, Bool.false_eq_true, if_false, hst0, Option.bind_some, hjob,
      Option.elim_some] at h1
    simp only [Function.update_self, idle, Option.elim_some, Option.elim_none] at h2
    simp only
    omega
  | @sub t i st j s r w ht busy hst hjob hw =>
    have h2 := sum_update_lt
      (fun t' => ((Function.update c.run t (some (i, r)) t').elim 0 fun q => 1 + q.2.length))
      (fun t' => ((c.run t').elim 0 fun q => 1 + q.2.length)) t ht
      (fun t' hne => by simp only [Function.update_of_ne hne])
    simp only [Function.update_self, busy, Option.elim_some, List.length_cons] at h2
    simp only
    omega
  | @save t i st ht busy hst =>
    have h2 := sum_update_lt
      (fun t' => ((Function.update c.run t none t').elim 0 fun q => 1 + q.2.length))
      (fun t' => ((c.run t').elim 0 fun q => 1 + q.2.length)) t ht
      (fun t' hne => by simp only [Function.update_of_ne hne])
    simp only [Function.update_self, busy, Option.elim_some, Option.elim_none, List.length_nil] at h2
    simp only
    omega

end Dgtd.SgbcEvol
