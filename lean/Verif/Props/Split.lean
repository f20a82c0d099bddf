/-
C13, C14 for the tags of an input file.
-/
import Verif.Model.Split
import Verif.Props.Partition

namespace Dgtd.Partition

open Spec
open Config (SrcEntry BdrEntry getTFSFTags getSGBCTags)

variable {K : Type} {m : Mesh}

namespace Spec

/-- The file asks for a total-field source or a thin layer on the faces with this tag. -/
def Asked (ss : List SrcEntry) (bs : List (BdrEntry K)) (tag : Int) : Prop :=
  (∃ s ∈ ss, s.totalField = true ∧ tag ∈ s.tags) ∨ ∃ b ∈ bs, b.type = some "SGBC" ∧ tag ∈ b.tags

end Spec

lemma mem_tfsf (ss : List SrcEntry) (t : Int) : t ∈ getTFSFTags ss ↔ ∃ s ∈ ss, s.totalField = true ∧ t ∈ s.tags := by
  simp only [getTFSFTags, List.mem_flatMap]
  refine exists_congr fun s => and_congr_right fun _ => ?_
  cases s.totalField <;> simp

lemma mem_sgbc (bs : List (BdrEntry K)) (t : Int) : t ∈ getSGBCTags bs ↔ ∃ b ∈ bs, b.type = some "SGBC" ∧ t ∈ b.tags := by
  simp only [getSGBCTags, List.mem_flatMap]
  refine exists_congr fun b => and_congr_right fun _ => ?_
  by_cases h : b.type = some "SGBC" <;> simp [h]

lemma split_run {arrange : (Nat → Int) → List (List Nat) → List (List Nat)} (hm : WellFormed m) (P : Nat) (part : Nat → Int)
    (ss : List SrcEntry) (bs : List (BdrEntry K)) :
    split arrange m P part ss bs = (run arrange m P part (getTFSFTags ss) (getSGBCTags bs)).map Prod.fst := by
  unfold split
  dsimp only
  split
  · rfl
  · rename_i h
    push Not at h
    have h1 := List.length_eq_zero_iff.1 h.1
    have h2 := List.length_eq_zero_iff.1 h.2
    rw [run_trivial arrange hm P part (Or.inr fun a ha => by
      obtain ⟨b, hb | hb⟩ := ha <;> obtain ⟨be, -, h3, -⟩ := hb <;> rw [h1, h2] at h3 <;> simp at h3)]
    rfl

/-- **C13** for an input file: the splitting completes, and the two elements of every face on which the file asks for a total-field source or a
thin layer are on the same rank. -/
theorem C13_file {arrange : (Nat → Int) → List (List Nat) → List (List Nat)} (ha : Arranges arrange) (hm : WellFormed m) (P : Nat)
    (part : Nat → Int) (hv : ∀ e, e < m.NE → 0 ≤ part e ∧ part e < P) (ss : List SrcEntry) (bs : List (BdrEntry K)) :
    ∃ part', split arrange m P part ss bs = some part' ∧
      ∀ f ∈ m.bdr, Asked ss bs f.attr → ∀ a b : Nat, f.inner = some ((a : Int), (b : Int)) → part' a = part' b := by
  obtain ⟨⟨part', l⟩, hr⟩ := C13_completes ha hm P part (getTFSFTags ss) (getSGBCTags bs)
  refine ⟨part', by rw [split_run hm, hr]; rfl, fun f hf hq a b hi => ?_⟩
  exact C13_linked_same_rank ha hm P part part' l _ _ hv hr a b
    (.rel _ _ ⟨f, hf, by rw [mem_tfsf, mem_sgbc]; exact hq, hi⟩)

/-- **C14** for an input file: an element none of whose faces carries such a tag stays where the partitioner put it. -/
theorem C14_file {arrange : (Nat → Int) → List (List Nat) → List (List Nat)} (ha : Arranges arrange) (hm : WellFormed m) (P : Nat)
    (part part' : Nat → Int) (ss : List SrcEntry) (bs : List (BdrEntry K)) (h : split arrange m P part ss bs = some part') (e : Nat)
    (he : ∀ f ∈ m.bdr, Asked ss bs f.attr → ∀ a b : Nat, f.inner = some ((a : Int), (b : Int)) → a ≠ e ∧ b ≠ e) : part' e = part e := by
  rw [split_run hm, Option.map_eq_some_iff] at h
  obtain ⟨⟨p, l⟩, h1, rfl⟩ := h
  refine (C14_only_moves_what_it_must ha hm P part p l _ _ h1).1 e ?_
  rintro ⟨b, hb | hb⟩ <;> obtain ⟨f, hf, hq, hi⟩ := hb
  · exact (he f hf (by rw [mem_tfsf, mem_sgbc] at hq; exact hq) _ _ hi).1 rfl
  · exact (he f hf (by rw [mem_tfsf, mem_sgbc] at hq; exact hq) _ _ hi).2 rfl

/-! A file with a source that is not a total-field one, one that is, and a thin layer, on the mesh of `exMesh`. -/

def exSources : List SrcEntry := [⟨false, [2]⟩, ⟨true, [301]⟩]

def exBoundaries : List (BdrEntry ℚ) := [⟨[401], some "SGBC", none⟩, ⟨[1], some "PEC", none⟩]

example : (split exArrange exMesh 3 exPart exSources exBoundaries).map (fun p => (List.range 7).map p) = some [0, 0, 0, 0, 1, 1, 0] := by
  decide +kernel

example : Asked exSources exBoundaries 301 ∧ Asked exSources exBoundaries 401 ∧ ¬ Asked exSources exBoundaries 2 := by
  refine ⟨Or.inl ⟨⟨true, [301]⟩, by simp [exSources], rfl, by simp⟩, Or.inr ⟨⟨[401], some "SGBC", none⟩, by simp [exBoundaries], rfl, by simp⟩,
    ?_⟩
  rintro (⟨s, hs, h1, h2⟩ | ⟨b, hb, h1, h2⟩)
  · simp only [exSources, List.mem_cons, List.not_mem_nil, or_false] at hs
    rcases hs with rfl | rfl <;> simp at h1 h2
  · simp only [exBoundaries, List.mem_cons, List.not_mem_nil, or_false] at hb
    rcases hb with rfl | rfl <;> simp at h1 h2

end Dgtd.Partition
