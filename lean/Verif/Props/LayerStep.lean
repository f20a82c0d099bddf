/-
C191: a step of the solver takes every thin layer exactly from the beginning of the step to its end.
-/
import Verif.Spec.LayerStep
import Verif.Props.Memory

namespace Dgtd.LayerStep
open Dgtd.SgbcEvol Dgtd.SgbcEvol.Spec Dgtd.Sgbc Spec Dgtd.SimLayer
open Dgtd.Memory (map_frame)

variable {σ : Type} {Y : Sys σ ℝ} {ok : σ → Prop} {p : Int → (Nat → ℝ) → ℝ → ℝ → Option (Nat → ℝ)}

lemma mult_keeps (hL : ∀ tag, Functional (Y.layers tag) ok (p tag)) {t : ℝ} {inp junk out : Nat → ℝ} {ev ev' : Ev σ ℝ}
    (hok : ∀ tag, ok (ev.ws tag).inner) (h : mult Y t inp junk ev = some (out, ev')) : Keeps ev ev' ∧ ∀ tag, ok (ev'.ws tag).inner := by
  simp only [mult, Option.bind_eq_bind, Option.bind_eq_some_iff, Option.some.injEq, Prod.mk.injEq, Prod.exists] at h
  obtain ⟨q, e, h1, o, sc, h2, rfl, rfl⟩ := h
  obtain ⟨g1, g2, -⟩ := subSolve_keeps hL hok h1
  exact ⟨⟨g1.base, g1.dt, g1.cp, g1.frames⟩, g2⟩

lemma rk4_keeps (hL : ∀ tag, Functional (Y.layers tag) ok (p tag)) {t dt t' : ℝ} {x junk y : Nat → ℝ} {ev ev' : Ev σ ℝ}
    (hok : ∀ tag, ok (ev.ws tag).inner) (h : SimLayer.rk4 Y junk x t dt ev = some (y, t', ev')) :
    t' = t + dt ∧ Keeps ev ev' ∧ ∀ tag, ok (ev'.ws tag).inner := by
  simp only [SimLayer.rk4, Option.bind_eq_bind, Option.bind_eq_some_iff, Option.some.injEq, Prod.mk.injEq, Prod.exists] at h
  obtain ⟨_, e1, h1, _, e2, h2, _, e3, h3, _, e4, h4, -, rfl, rfl⟩ := h
  obtain ⟨k1, o1⟩ := mult_keeps hL hok h1
  obtain ⟨k2, o2⟩ := mult_keeps hL o1 h2
  obtain ⟨k3, o3⟩ := mult_keeps hL o2 h3
  obtain ⟨k4, o4⟩ := mult_keeps hL o3 h4
  exact ⟨rfl, ((k1.trans k2).trans k3).trans k4, o4⟩

/-- What a checkpoint holds of a layer. -/
def Kept (Y : Sys σ ℝ) (x : Nat → ℝ) (st : St ℝ) (c : Cp ℝ) : Prop :=
  c.fields = st.fields ∧ ∃ prev, ghostValues Y.ndofs x st.rot st.pair prev = some c.ghostOld

lemma commitAll_kept (x : Nat → ℝ) : ∀ (l : List (St ℝ)) (prevs : List (Fin 12 → ℝ)) (cs : List (Cp ℝ)),
    commitAll Y x l prevs = some cs → List.Forall₂ (Kept Y x) l cs
  | [], _, _, h => by
    simp only [commitAll, Option.some.injEq] at h
    subst h; exact .nil
  | st :: l, prevs, cs, h => by
    simp only [commitAll, commit1, Option.bind_eq_bind, Option.bind_eq_some_iff, Option.some.injEq] at h
    obtain ⟨c, ⟨g, hg, rfl⟩, cs', h2, rfl⟩ := h
    exact .cons ⟨rfl, _, hg⟩ (commitAll_kept x l prevs.tail cs' h2)

/-- A layer at the end of a step, before it is advanced. -/
def Ready (Y : Sys σ ℝ) (x y : Nat → ℝ) (st r : St ℝ) : Prop :=
  core r = core st ∧ (∃ prev, ghostValues Y.ndofs x st.rot st.pair prev = some r.ghostOld) ∧
    ∃ prev, ghostValues Y.ndofs y st.rot st.pair prev = some r.ghostNew

lemma finalRestore_ready (x y : Nat → ℝ) : ∀ (l m : List (St ℝ)) (cs : List (Cp ℝ)) (r : List (St ℝ)), m.map frame = l.map frame →
    List.Forall₂ (Kept Y x) l cs → finalRestore Y y m cs = some r → List.Forall₂ (Ready Y x y) l r
  | [], m, cs, r, hf, hk, h => by
    obtain rfl : m = [] := by simpa using hf
    simp only [finalRestore, Option.some.injEq] at h
    subst h; exact .nil
  | _ :: _, [], _, _, hf, _, _ => by simp at hf
  | st :: l, s :: m, [], _, _, hk, _ => by cases hk
  | st :: l, s :: m, c :: cs, r, hf, hk, h => by
    simp only [List.map_cons, List.cons.injEq, frame, Prod.mk.injEq] at hf
    obtain ⟨⟨e1, e2, e3⟩, hf⟩ := hf
    simp only [finalRestore, Option.bind_eq_bind, Option.bind_eq_some_iff, Option.some.injEq] at h
    obtain ⟨g, hg, r', h2, rfl⟩ := h
    rw [List.forall₂_cons] at hk
    obtain ⟨⟨k1, k2⟩, hk⟩ := hk
    refine .cons ⟨by simp [core, frame, e1, e2, e3, k1], k2, s.ghostNew, ?_⟩ (finalRestore_ready x y l m cs r' hf hk h2)
    rw [← e3, ← e2]; exact hg

lemma ready_core {x y : Nat → ℝ} {l r : List (St ℝ)} (h : List.Forall₂ (Ready Y x y) l r) : r.map core = l.map core := by
  induction h with
  | nil => rfl
  | cons a _ ih => simp [a.1, ih]

lemma allQuiet_iff (y : Nat → ℝ) : ∀ (l : List (St ℝ)) (q : Bool), allQuiet Y y l = some q → (q = true ↔ ∀ st ∈ l, Quiet Y y st)
  | [], q, h => by
    simp only [allQuiet, Option.some.injEq] at h
    simp [← h]
  | st :: l, q, h => by
    have ht : (thr2 : ℝ) = 1 / 10 ^ 16 := by unfold thr2; norm_num
    simp only [allQuiet, isQuiet, Option.bind_eq_bind, Option.bind_eq_some_iff, Option.some.injEq] at h
    obtain ⟨b, ⟨n, hn, hb⟩, h⟩ := h
    have hq : b = true ↔ Quiet Y y st := by
      rw [← hb, decide_eq_true_eq, ht]
      unfold Quiet
      rw [hn]
      simp
    by_cases hbt : b = true
    · rw [if_pos hbt] at h
      rw [allQuiet_iff y l q h]
      simp [hq.1 hbt]
    · rw [if_neg hbt, Option.some.injEq] at h
      rw [← h]
      simp only [Bool.false_eq_true, false_iff]
      exact fun hall => hbt (hq.2 (hall st (by simp)))

lemma quiet_core {y : Nat → ℝ} {st r : St ℝ} (h : core r = core st) : Quiet Y y r ↔ Quiet Y y st := by
  obtain ⟨e1, e2, e3, e4⟩ := core_cases h
  unfold Quiet
  rw [e1, e2, e4]

lemma ready_quiet {x y : Nat → ℝ} {l r : List (St ℝ)} (h : List.Forall₂ (Ready Y x y) l r) :
    (∀ st ∈ r, Quiet Y y st) ↔ ∀ st ∈ l, Quiet Y y st := by
  induction h with
  | nil => simp
  | cons a _ ih => simp only [List.forall_mem_cons, ih, quiet_core a.1]

lemma advanceAll_advanced {x y : Nat → ℝ} {t dt : ℝ} : ∀ (l r r' : List (St ℝ)), List.Forall₂ (Ready Y x y) l r →
    advanceAll p (finalJob Y t dt) r = some r' → List.Forall₂ (Advanced Y p x y t dt) l r'
  | [], _, r', h, ha => by
    cases h
    simp only [advanceAll, Option.some.injEq] at ha
    subst ha; exact .nil
  | st :: l, [], _, h, _ => by cases h
  | st :: l, s :: r, r', h, ha => by
    rw [List.forall₂_cons] at h
    obtain ⟨⟨hc, ⟨v, ho⟩, ⟨w, hw⟩⟩, h⟩ := h
    obtain ⟨e1, e2, e3, e4⟩ := core_cases hc
    simp only [advanceAll, advanceSt, finalJob, Option.bind_eq_bind, Option.bind_eq_some_iff, Option.some.injEq] at ha
    obtain ⟨s', ⟨j, ⟨steps, hs, rfl⟩, u, hu, rfl⟩, r2, h2, rfl⟩ := ha
    refine .cons ⟨e1, e2, e3, steps, s.ghostOld, s.ghostNew, v, w, by rw [← e1]; exact hs, ho, hw, ?_⟩
      (advanceAll_advanced l r r2 h h2)
    simp only [Spec.advance, Bool.false_eq_true, if_false] at hu
    rw [← e1, ← e2, ← e4, ← hu]
    congr 1
    funext a b
    unfold Spec.advance1
    congr 1
    funext c
    cases solveStep b.start b.len <;> rfl

/-- **C191.** A step of the solver with thin layers, of length `dt > 0` from the time `t`, ends at `t + dt`.  Every layer has
then gone exactly once through the sub-steps of that interval, starting from its fields before the step, with the outer
fields interpolated between those before and those after the step; what the stages of the explicit integrator did to it in
between is forgotten.  Only when all the layers and the outer fields at all of them are quiet do the layers stay as they
are. -/
theorem C191_layer_step (hL : ∀ tag, Functional (Y.layers tag) ok (p tag)) (x y junk : Nat → ℝ) (t dt t' : ℝ) (hdt : 0 < dt)
    (ev ev' : Ev σ ℝ) (hok : ∀ tag, ok (ev.ws tag).inner) (hne : ev.states ≠ [])
    (h : SimLayer.advance Y junk x t dt ev = some (y, t', ev')) :
    t' = t + dt ∧
      (((∀ st ∈ ev.states, Quiet Y y st) ∧ ev'.states.map core = ev.states.map core) ∨
        ((¬ ∀ st ∈ ev.states, Quiet Y y st) ∧ List.Forall₂ (Advanced Y p x y t dt) ev.states ev'.states)) := by
  unfold SimLayer.advance at h
  rw [if_neg (by simpa using hne)] at h
  simp only [commit, Option.bind_eq_bind, Option.bind_eq_some_iff, Option.some.injEq, Prod.mk.injEq, Prod.exists] at h
  obtain ⟨e0, ⟨cs, hc, rfl⟩, y', t1, e1, h1, e2, h2, rfl, rfl, rfl⟩ := h
  obtain ⟨ht, kp, o1⟩ := rk4_keeps (ev := { ev with base := t, dt := dt, cp := some cs }) hL hok h1
  refine ⟨ht, ?_⟩
  simp only [finalize, Option.bind_eq_bind, Option.bind_eq_some_iff] at h2
  obtain ⟨r, hr, q, hq, h2⟩ := h2
  rw [kp.cp] at hr
  have hrd := finalRestore_ready x y' ev.states e1.states cs r kp.frames (commitAll_kept x _ _ _ hc) hr
  have hcore : r.map core = ev.states.map core := ready_core hrd
  have hqt := allQuiet_iff y' r q hq
  have hall : (∀ st ∈ r, Quiet Y y' st) ↔ ∀ st ∈ ev.states, Quiet Y y' st := ready_quiet hrd
  by_cases hb : q = true
  · rw [if_pos hb, Option.some.injEq] at h2
    exact Or.inl ⟨hall.1 (hqt.1 hb), by rw [← h2]; exact hcore⟩
  · rw [if_neg hb] at h2
    simp only [Option.bind_eq_some_iff, Option.some.injEq, Prod.exists] at h2
    obtain ⟨ws, r1, h3, rfl⟩ := h2
    refine Or.inr ⟨fun hn => hb (hqt.2 (hall.2 hn)), ?_⟩
    rw [kp.base, kp.dt] at h3
    rcases serial_pure hL (finalJob Y t dt) r (fun st _ j hj => finalJob_pos Y t _ hdt st j hj) e1.ws o1 with
      ⟨-, g⟩ | ⟨ws1, r2, g, -, ga⟩
    · rw [g] at h3; exact absurd h3 (by simp)
    · rw [g] at h3
      simp only [Option.some.injEq, Prod.mk.injEq] at h3
      rw [← h3.2]
      exact advanceAll_advanced _ _ _ hrd ga

end Dgtd.LayerStep
