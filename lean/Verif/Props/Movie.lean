/-
C63: movies of field probes.
-/
import Verif.Spec.Movie
import Mathlib.Order.Basic
import Mathlib.Order.Lattice
import Mathlib.Data.List.Induction
import Mathlib.Tactic.Common
import Mathlib.Order.Nat
import Mathlib.Algebra.Order.Ring.Int

set_option linter.unusedSectionVars false

namespace Dgtd.Movie
open Spec

variable {T V : Type} [LinearOrder T] [LinearOrder V]

def Sorted (m : List (T × V)) : Prop := m.Pairwise fun f g => f.1 < g.1

theorem mem_emplace_key (t : T) (v : V) (m : List (T × V)) (f : T × V) (h : f ∈ emplace t v m) : f = (t, v) ∨ f ∈ m := by
  induction m with
  | nil => simp [emplace] at h; exact .inl h
  | cons g m ih =>
    unfold emplace at h
    split_ifs at h with h1 h2
    · rcases List.mem_cons.1 h with h | h
      · exact .inl h
      · exact .inr h
    · rcases List.mem_cons.1 h with h | h
      · exact .inr (by simp [h])
      · rcases ih h with h | h
        · exact .inl h
        · exact .inr (by simp [h])
    · exact .inr h

theorem emplace_sorted (t : T) (v : V) (m : List (T × V)) (h : Sorted m) : Sorted (emplace t v m) := by
  unfold Sorted at *
  induction m with
  | nil => simp [emplace]
  | cons g m ih =>
    obtain ⟨h1, h2⟩ := List.pairwise_cons.1 h
    unfold emplace
    split_ifs with a b
    · refine List.pairwise_cons.2 ⟨fun f hf => ?_, h⟩
      rcases List.mem_cons.1 hf with rfl | hf
      · exact a
      · exact lt_trans a (h1 f hf)
    · refine List.pairwise_cons.2 ⟨fun f hf => ?_, ih h2⟩
      rcases mem_emplace_key t v m f hf with rfl | hf
      · exact b
      · exact h1 f hf
    · exact h

/-- Frames after one recording. -/
theorem mem_emplace (t : T) (v : V) (m : List (T × V)) (h : Sorted m) (f : T × V) :
    f ∈ emplace t v m ↔ f ∈ m ∨ (f = (t, v) ∧ ∀ g ∈ m, g.1 ≠ t) := by
  induction m with
  | nil => simp [emplace]
  | cons g m ih =>
    obtain ⟨h1, h2⟩ := List.pairwise_cons.1 h
    unfold emplace
    split_ifs with a b
    · constructor
      · intro hf
        rcases List.mem_cons.1 hf with rfl | hf
        · refine .inr ⟨rfl, fun f hf => ?_⟩
          rcases List.mem_cons.1 hf with rfl | hf
          · exact ne_of_gt a
          · exact ne_of_gt (lt_trans a (h1 f hf))
        · exact .inl hf
      · rintro (hf | ⟨rfl, _⟩)
        · exact List.mem_cons_of_mem _ hf
        · exact List.mem_cons_self
    · rw [List.mem_cons, ih h2, List.mem_cons]
      constructor
      · rintro (hf | hf | ⟨hf, hx⟩)
        · exact .inl (.inl hf)
        · exact .inl (.inr hf)
        · refine .inr ⟨hf, fun f' hf' => ?_⟩
          rcases List.mem_cons.1 hf' with rfl | hf'
          · exact ne_of_lt b
          · exact hx f' hf'
      · rintro ((hf | hf) | ⟨hf, hx⟩)
        · exact .inl hf
        · exact .inr (.inl hf)
        · exact .inr (.inr ⟨hf, fun f' hf' => hx f' (List.mem_cons_of_mem _ hf')⟩)
    · have e : g.1 = t := le_antisymm (not_lt.1 a) (not_lt.1 b)
      constructor
      · exact .inl
      · rintro (hf | ⟨_, hx⟩)
        · exact hf
        · exact absurd e (hx g List.mem_cons_self)

theorem movie_snoc (h : List (T × V)) (f : T × V) : movie (h ++ [f]) = emplace f.1 f.2 (movie h) := by
  unfold movie; rw [List.foldl_append]; rfl

theorem movie_sorted (h : List (T × V)) : Sorted (movie h) := by
  induction h using List.reverseRecOn with
  | nil => exact List.Pairwise.nil
  | append_singleton h f ih => rw [movie_snoc]; exact emplace_sorted _ _ _ ih

/-- **C63**: after every history the movie holds, sorted by time, one frame per recorded instant with the first value recorded for
it. -/
theorem C63_first (h : List (T × V)) :
    ((movie h).Pairwise fun f g => f.1 < g.1) ∧ ∀ t v, (t, v) ∈ movie h ↔ firstAt h t = some v := by
  refine ⟨movie_sorted h, ?_⟩
  induction h using List.reverseRecOn with
  | nil => intro t v; simp [movie, firstAt]
  | append_singleton h f ih =>
    intro t v
    rw [movie_snoc, mem_emplace _ _ _ (movie_sorted h), ih]
    unfold firstAt at *
    rw [List.find?_append]
    cases hf : h.find? (fun f => decide (f.1 = t)) with
    | some g =>
      simp only [Option.map_some, Option.some_or]
      constructor
      · rintro (hx | ⟨hx, hy⟩)
        · exact hx
        · exfalso
          have hgt : g.1 = t := by simpa using List.find?_some hf
          have : (t, g.2) ∈ movie h := (ih t g.2).2 (by rw [hf]; rfl)
          have hft : t = f.1 := by rw [Prod.ext_iff] at hx; exact hx.1
          exact hy _ this hft
      · exact .inl
    | none =>
      simp only [Option.map_none, Option.none_or]
      by_cases hft : f.1 = t
      · subst hft
        simp only [List.find?_cons, decide_true, Option.map_some, Option.some.injEq]
        constructor
        · rintro (hx | ⟨hx, _⟩)
          · cases hx
          · rw [Prod.ext_iff] at hx; exact hx.2.symm
        · rintro rfl
          refine .inr ⟨rfl, fun g hg he => ?_⟩
          have := (ih g.1 g.2).1 hg
          rw [he, hf] at this
          cases this
      · simp only [List.find?_cons, hft, decide_false, List.find?_nil, Option.map_none]
        constructor
        · rintro (hx | ⟨hx, _⟩)
          · exact hx
          · rw [Prod.ext_iff] at hx
            exact absurd hx.1.symm hft
        · intro hx; cases hx

example : movie [(0, 5), (2, 7), (1, 3), (2, 9)] = [(0, 5), (1, 3), ((2 : Int), (7 : Int))] := by decide

/-- The fold of the queries, for an order of values. -/
theorem best_frame (lt : V → V → Prop) [DecidableRel lt] (htr : ∀ a b c, lt a b → lt b c → lt a c) (hir : ∀ a, ¬ lt a a)
    (init : T × V) (m : List (T × V)) (hs : Sorted m) :
    let r := m.foldl (fun res f => if lt res.2 f.2 then f else res) init
    (r = init ∨ r ∈ m) ∧ ¬ lt r.2 init.2 ∧ (∀ f ∈ m, ¬ lt r.2 f.2) ∧ (lt init.2 r.2 → ∀ f ∈ m, f.2 = r.2 → r.1 ≤ f.1) ∧
    (¬ lt init.2 r.2 → r = init) := by
  induction m using List.reverseRecOn with
  | nil => exact ⟨.inl rfl, hir _, by simp, by simp, fun _ => rfl⟩
  | append_singleton m g ih =>
    unfold Sorted at hs
    rw [List.pairwise_append] at hs
    obtain ⟨h1, _, h3⟩ := hs
    obtain ⟨i1, i2, i3, i4, i5⟩ := ih h1
    simp only [List.foldl_append, List.foldl_cons, List.foldl_nil]
    generalize m.foldl (fun res f => if lt res.2 f.2 then f else res) init = r at *
    by_cases hlt : lt r.2 g.2
    · rw [if_pos hlt]
      have hbeats : ∀ f ∈ m, ¬ lt g.2 f.2 := by
        intro f hf hx
        exact i3 f hf (htr _ _ _ hlt hx)
      refine ⟨.inr (by simp), fun hx => i2 (htr _ _ _ hlt hx), ?_, ?_, ?_⟩
      · intro f hf
        rcases List.mem_append.1 hf with hf | hf
        · exact hbeats f hf
        · simp only [List.mem_singleton] at hf; subst hf; exact hir _
      · intro _ f hf he
        rcases List.mem_append.1 hf with hf | hf
        · exact absurd (he ▸ hlt) (i3 f hf)
        · simp only [List.mem_singleton] at hf; subst hf; exact le_refl _
      · intro hx
        exfalso
        by_cases hr : lt init.2 r.2
        · exact hx (htr _ _ _ hr hlt)
        · exact hx (by rw [i5 hr] at hlt; exact hlt)
    · rw [if_neg hlt]
      refine ⟨i1.imp_right fun h => by simp [h], i2, ?_, ?_, i5⟩
      · intro f hf
        rcases List.mem_append.1 hf with hf | hf
        · exact i3 f hf
        · simp only [List.mem_singleton] at hf; subst hf; exact hlt
      · intro hx f hf he
        rcases List.mem_append.1 hf with hf | hf
        · exact i4 hx f hf he
        · simp only [List.mem_singleton] at hf; subst hf
          rcases i1 with rfl | hm
          · exact absurd hx (hir _)
          · exact le_of_lt (h3 r hm f (by simp))

/-- **C63**: if some recorded value is not minus infinity, the query for the maximum returns a recorded frame with the greatest
value, the earliest such frame; otherwise it returns minus infinity at time zero. -/
theorem C63_max [Zero T] [OrderBot V] (h : List (T × V)) :
    ((∃ f ∈ movie h, f.2 ≠ ⊥) → frameMax (movie h) ∈ movie h ∧
      ∀ f ∈ movie h, f.2 ≤ (frameMax (movie h)).2 ∧ (f.2 = (frameMax (movie h)).2 → (frameMax (movie h)).1 ≤ f.1)) ∧
    ((∀ f ∈ movie h, f.2 = ⊥) → frameMax (movie h) = (0, ⊥)) := by
  obtain ⟨i1, i2, i3, i4, i5⟩ := best_frame (fun a b : V => a < b) (fun _ _ _ => lt_trans) (fun _ => lt_irrefl _)
    ((0 : T), (⊥ : V)) (movie h) (movie_sorted h)
  unfold frameMax
  generalize List.foldl (fun res f => if res.2 < f.2 then f else res) ((0 : T), (⊥ : V)) (movie h) = r at *
  constructor
  · rintro ⟨f, hf, hb⟩
    have hpos : ⊥ < r.2 := lt_of_lt_of_le (bot_lt_iff_ne_bot.2 hb) (not_lt.1 (i3 f hf))
    refine ⟨?_, fun g hg => ⟨not_lt.1 (i3 g hg), i4 hpos g hg⟩⟩
    rcases i1 with rfl | hm
    · exact absurd hpos (lt_irrefl _)
    · exact hm
  · intro hall
    by_cases hlt : (⊥ : V) < r.2
    · rcases i1 with rfl | hm
      · rfl
      · rw [hall r hm] at hlt; exact absurd hlt (lt_irrefl _)
    · exact i5 hlt

/-- **C63**: the same for the minimum and plus infinity. -/
theorem C63_min [Zero T] [OrderTop V] (h : List (T × V)) :
    ((∃ f ∈ movie h, f.2 ≠ ⊤) → frameMin (movie h) ∈ movie h ∧
      ∀ f ∈ movie h, (frameMin (movie h)).2 ≤ f.2 ∧ (f.2 = (frameMin (movie h)).2 → (frameMin (movie h)).1 ≤ f.1)) ∧
    ((∀ f ∈ movie h, f.2 = ⊤) → frameMin (movie h) = (0, ⊤)) := by
  obtain ⟨i1, i2, i3, i4, i5⟩ := best_frame (fun a b : V => b < a) (fun _ _ _ h1 h2 => lt_trans h2 h1) (fun _ => lt_irrefl _)
    ((0 : T), (⊤ : V)) (movie h) (movie_sorted h)
  unfold frameMin
  generalize List.foldl (fun res f => if f.2 < res.2 then f else res) ((0 : T), (⊤ : V)) (movie h) = r at *
  constructor
  · rintro ⟨f, hf, hb⟩
    have hpos : r.2 < ⊤ := lt_of_le_of_lt (not_lt.1 (i3 f hf)) (lt_top_iff_ne_top.2 hb)
    refine ⟨?_, fun g hg => ⟨not_lt.1 (i3 g hg), i4 hpos g hg⟩⟩
    rcases i1 with rfl | hm
    · exact absurd hpos (lt_irrefl _)
    · exact hm
  · intro hall
    by_cases hlt : r.2 < (⊤ : V)
    · rcases i1 with rfl | hm
      · rfl
      · rw [hall r hm] at hlt; exact absurd hlt (lt_irrefl _)
    · exact i5 hlt

example : frameMax (movie [((1 : Int), (3 : Nat)), (3, 8), (2, 8), (4, 5)]) = (2, 8) := by decide

end Dgtd.Movie
