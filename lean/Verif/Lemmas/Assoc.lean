import Verif.Model.Assoc
import Mathlib.Data.List.Basic
import Mathlib.Tactic.Common

/-
Further lemmas about association lists used as maps.
-/
namespace Dgtd.Assoc

variable {α β : Type} [DecidableEq α]

theorem find_isSome_iff (m : List (α × β)) (k : α) : (find m k).isSome = true ↔ k ∈ m.map Prod.fst := by
  induction m with
  | nil => simp [find]
  | cons p m ih =>
    obtain ⟨a, b⟩ := p
    by_cases h : a = k
    · simp [find, h]
    · have h' : ¬ k = a := fun e => h e.symm
      simp only [find, if_neg h, ih, List.map_cons, List.mem_cons]
      simp [h']

theorem find_none_iff (m : List (α × β)) (k : α) : find m k = none ↔ k ∉ m.map Prod.fst := by
  rw [← find_isSome_iff]
  cases find m k <;> simp

theorem find_mem (m : List (α × β)) (k : α) (v : β) (h : find m k = some v) : (k, v) ∈ m := by
  induction m with
  | nil => simp [find] at h
  | cons p m ih =>
    obtain ⟨a, b⟩ := p
    by_cases e : a = k
    · simp only [find, if_pos e, Option.some.injEq] at h
      simp [e, h]
    · simp only [find, if_neg e] at h
      simp [ih h]

theorem find_eq_some_iff (m : List (α × β)) (hn : (m.map Prod.fst).Nodup) (k : α) (v : β) :
    find m k = some v ↔ (k, v) ∈ m := by
  refine ⟨find_mem m k v, ?_⟩
  induction m with
  | nil => simp
  | cons p m ih =>
    obtain ⟨a, b⟩ := p
    simp only [List.map_cons, List.nodup_cons] at hn
    intro h
    simp only [List.mem_cons, Prod.mk.injEq] at h
    rcases h with ⟨h1, h2⟩ | h
    · simp [find, h1, h2]
    · have : a ≠ k := fun e => hn.1 (e ▸ List.mem_map_of_mem (f := Prod.fst) h)
      simp only [find, if_neg this]
      exact ih hn.2 h

theorem keys_insert (m : List (α × β)) (k : α) (v : β) (x : α) :
    x ∈ (insert m k v).map Prod.fst ↔ x ∈ m.map Prod.fst ∨ x = k := by
  rw [← find_isSome_iff, ← find_isSome_iff, find_insert]
  by_cases h : x = k
  · subst h; cases find m x <;> simp
  · simp [h]

theorem keys_assign (m : List (α × β)) (k : α) (v : β) (x : α) :
    x ∈ (assign m k v).map Prod.fst ↔ x ∈ m.map Prod.fst ∨ x = k := by
  rw [← find_isSome_iff, ← find_isSome_iff, find_assign]
  by_cases h : x = k
  · simp [h]
  · simp [h]

theorem nodup_insert (m : List (α × β)) (hn : (m.map Prod.fst).Nodup) (k : α) (v : β) :
    ((insert m k v).map Prod.fst).Nodup := by
  unfold insert
  cases h : find m k with
  | some w => exact hn
  | none =>
    rw [find_none_iff] at h
    rw [List.map_append, List.nodup_append]
    refine ⟨hn, by simp, ?_⟩
    intro a ha b hb
    simp only [List.map_cons, List.map_nil, List.mem_singleton] at hb
    intro e
    exact h (by rw [← hb, ← e]; exact ha)

theorem nodup_assign (m : List (α × β)) (hn : (m.map Prod.fst).Nodup) (k : α) (v : β) :
    ((assign m k v).map Prod.fst).Nodup := by
  induction m with
  | nil => simp [assign]
  | cons p m ih =>
    obtain ⟨a, b⟩ := p
    simp only [List.map_cons, List.nodup_cons] at hn
    by_cases h : a = k
    · simp only [assign, if_pos h, List.map_cons, List.nodup_cons]
      exact ⟨h ▸ hn.1, hn.2⟩
    · simp only [assign, if_neg h, List.map_cons, List.nodup_cons]
      refine ⟨fun hc => ?_, ih hn.2⟩
      rw [keys_assign] at hc
      exact hc.elim hn.1 h

end Dgtd.Assoc
