/-
C84, C85: sides of the total-field and near-to-far-field surfaces and the numbering of the elements.
-/
import Verif.Props.SubMesh
import Mathlib.Tactic.Linarith
import Mathlib.Tactic.FieldSimp

set_option linter.unusedSectionVars false

namespace Dgtd.SubMesh
open Spec

variable {K : Type} [Field K] [LinearOrder K] [IsStrictOrderedRing K]

theorem bary_two (m : Mesh K) (a b : Nat) (d : Fin 3) : bary m [a, b] d = (m.coord a d + m.coord b d) / 2 := by
  unfold bary
  norm_num

theorem bary_three (m : Mesh K) (a b c : Nat) (d : Fin 3) :
    bary m [a, b, c] d = (m.coord a d + (m.coord b d + m.coord c d)) / 3 := by
  unfold bary
  norm_num

/-- With the vertices of the face in the order of its first element the orientation is positive. -/
theorem orientation2_pos (m : Mesh K) (f : BFace) (h : Ordered2 m f) : 0 < orientation2 m f := by
  obtain ⟨a, b, hf, h1, h2⟩ := h
  unfold orientation2 baryVec
  simp only [hf, List.getD_cons_zero, List.getD_cons_succ]
  unfold left at h1 h2
  simp only [← bary_centre] at h1 h2
  cases he : f.e2 with
  | none =>
    simp only [bary_two]
    linarith
  | some e2 =>
    have := h2 e2 he
    simp only
    linarith

theorem orientation3_pos (m : Mesh K) (f : BFace) (h : Ordered3 m f) (e2 : Nat) (he : f.e2 = some e2) :
    0 < orientation3 m f := by
  obtain ⟨a, b, c, hf, h1, h2⟩ := h
  have h2 := h2 e2 he
  unfold orientation3 baryVec
  simp only [hf, he, List.getD_cons_zero, List.getD_cons_succ, List.length_cons, List.length_nil]
  norm_num
  unfold above at h1 h2
  simp only [← bary_centre] at h1 h2
  linarith

/-! ### C84 -/

/-- **C84**, partial: in three dimensions the side on which an element is placed does not depend on which of the two elements
of the face has the lower number.  Missing: two dimensions (`C84_violated`). -/
theorem C84_space_partial (m : Mesh K) (f g : BFace) (hr : renumbered f g)
    (hd : ∀ e2, f.e2 = some e2 → away m (centre m (m.elemVerts f.e1)) ≠ away m (centre m (m.elemVerts e2)) ∧ f.e1 ≠ e2)
    (hf : (localFace m f.e1 f).isSome) (hg : (localFace m g.e1 g).isSome) (e : Nat) (ht : Touches f e) :
    Touches g e ∧ side (decision 3 m f).2 f e = side (decision 3 m g).2 g e := by
  obtain ⟨e2, h2, hg1, hg2, _, _⟩ := hr
  obtain ⟨hne, hne'⟩ := hd e2 h2
  have r1 := C36_rule_space m f hf
  have r2 := C36_rule_space m g hg
  simp only [beyond, h2, Option.map_some, Option.getD_some] at r1
  simp only [beyond, hg2, hg1, Option.map_some, Option.getD_some] at r2
  have hx : (decision 3 m g).2 = !(decision 3 m f).2 := by
    rcases lt_or_gt_of_ne hne with h | h
    · rw [r1.2 h]
      have : ¬ (decision 3 m g).2 = true := fun hc => absurd (r2.1 hc) (not_lt.2 h.le)
      simpa using this
    · rw [r2.2 h]
      have : ¬ (decision 3 m f).2 = true := fun hc => absurd (r1.1 hc) (not_lt.2 h.le)
      simpa using this
  unfold Touches side at *
  rw [hx, h2, hg1, hg2]
  rcases ht with h | h
  · subst h
    simp [Ne.symm hne']
  · rw [h2] at h
    cases h
    simp [hne']

/-- **C84** fails in two dimensions: with faces stored as meshes are, the element with the lower number is always on the
scattered side. -/
theorem C84_plane_first (m : Mesh K) (f : BFace) (h : Ordered2 m f) : (decision 2 m f).2 = false := by
  have hp := orientation2_pos m f h
  unfold decision set1
  cases localFace m f.e1 f with
  | none => rfl
  | some i => simp [hp.le]

/-- **C84** fails in two dimensions: exchanging the numbers of the two elements of a face exchanges their sides. -/
theorem C84_violated (m : Mesh K) (f g : BFace) (hf : Ordered2 m f) (hr : renumbered f g) (hne : f.e2 ≠ some f.e1) (e : Nat)
    (ht : Touches f e) :
    Ordered2 m g ∧ Touches g e ∧ side (decision 2 m f).2 f e ≠ side (decision 2 m g).2 g e := by
  have hg : Ordered2 m g := by
    obtain ⟨e2, h2, hg1, hg2, hv, _⟩ := hr
    obtain ⟨a, b, hfv, h1, h3⟩ := hf
    have h3 := h3 e2 h2
    refine ⟨b, a, by rw [hv, hfv]; rfl, ?_, ?_⟩
    · rw [hg1]
      unfold left at *
      linarith
    · intro e' he'
      rw [hg2] at he'
      cases he'
      unfold left at *
      linarith
  rw [C84_plane_first m f hf, C84_plane_first m g hg]
  obtain ⟨e2, h2, hg1, hg2, _, _⟩ := hr
  refine ⟨hg, ?_⟩
  unfold Touches side at *
  rw [h2] at ht hne ⊢
  rw [hg1, hg2]
  rcases ht with h | h
  · subst h
    simp only [ne_eq, Option.some.injEq] at hne
    simp [hne]
  · cases h
    have hne' : ¬ f.e1 = e := fun h => hne (by rw [h])
    simp [hne']

/-- A square of two triangles and its diagonal, numbered both ways. -/
example : Ordered2 exSquare ⟨true, [2, 0], [2, 0], 0, some 1⟩ ∧
    renumbered ⟨true, [2, 0], [2, 0], 0, some 1⟩ ⟨true, [2, 0], [0, 2], 1, some 0⟩ := by
  refine ⟨⟨2, 0, rfl, by decide +kernel, ?_⟩, ⟨1, rfl, rfl, rfl, rfl, rfl⟩⟩
  intro e2 h; cases h
  decide +kernel

/-! ### C85 -/

/-- No element has the attribute of the near-to-far-field surface. -/
def FreeN (m : Mesh K) : Prop := ∀ e < m.ne, m.attr e ≠ NTFF

theorem ntff_attr (dim : Nat) (m : Mesh K) (l : List BFace) (s : (Nat → Int) × List (Int × Int)) (e : Nat) :
    (l.foldl (fun s f =>
      let i := ntffInfo dim m f
      (ntffTag s.1 f i.2, ntffStore s.2 f i.1 i.2)) s).1 e =
    if ∃ f ∈ l, (if (ntffInfo dim m f).2 = true then f.e2 = some e else f.e1 = e) then NTFF else s.1 e := by
  induction l generalizing s with
  | nil => simp
  | cons f l ih =>
    rw [List.foldl_cons, ih]
    have hs : ntffTag s.1 f (ntffInfo dim m f).2 e =
        if (if (ntffInfo dim m f).2 = true then f.e2 = some e else f.e1 = e) then NTFF else s.1 e := by
      generalize (ntffInfo dim m f).2 = b
      obtain ⟨mk, vs, fv, e1, o⟩ := f
      unfold ntffTag setAttr
      cases b
      · by_cases h : e1 = e
        · simp [h]
        · simp [h, Ne.symm h]
      · cases o with
        | none => simp
        | some e2 =>
          by_cases h : e2 = e
          · simp [h]
          · simp [h, Ne.symm h]
    simp only [hs]
    by_cases h : ∃ g ∈ l, (if (ntffInfo dim m g).2 = true then g.e2 = some e else g.e1 = e)
    · rw [if_pos h, if_pos]
      obtain ⟨g, hg, ht⟩ := h
      exact ⟨g, List.mem_cons_of_mem _ hg, ht⟩
    · rw [if_neg h]
      by_cases ht : (if (ntffInfo dim m f).2 = true then f.e2 = some e else f.e1 = e)
      · rw [if_pos ht, if_pos ⟨f, by simp, ht⟩]
      · rw [if_neg ht, if_neg]
        rintro ⟨g, hg, hge⟩
        rcases List.mem_cons.1 hg with rfl | hg
        · exact ht hge
        · exact h ⟨g, hg, hge⟩

/-- **C85**: the elements recorded for the near-to-far-field surface are exactly one for each of its faces: the one chosen by
the orientation of the face. -/
theorem C85_chosen (dim : Nat) (m : Mesh K) (hf : FreeN m) (l : List Nat) (h : ntffConstruct dim m = some l) (e : Nat)
    (he : e < m.ne) :
    e ∈ l ↔ ∃ f ∈ m.bdr, f.marked = true ∧ (if (ntffInfo dim m f).2 = true then f.e2 = some e else f.e1 = e) := by
  unfold ntffConstruct at h
  split_ifs at h with h1
  simp only at h
  split_ifs at h
  cases h
  rw [mem_withAttr]
  unfold ntffProcess
  rw [ntff_attr]
  have hx : (∃ f ∈ markedFaces m, (if (ntffInfo dim m f).2 = true then f.e2 = some e else f.e1 = e)) ↔
      ∃ f ∈ m.bdr, f.marked = true ∧ (if (ntffInfo dim m f).2 = true then f.e2 = some e else f.e1 = e) := by
    simp [markedFaces, and_assoc]
  rw [← hx]
  split_ifs with h2
  · simp [he, h2]
  · simp [h2, hf e he]

/-- **C85**: the constructor fails exactly without faces or outside two and three dimensions. -/
theorem C85_rejects (dim : Nat) (m : Mesh K) :
    ntffConstruct dim m = none ↔ (dim ≠ 2 ∧ dim ≠ 3) ∨ ∀ f ∈ m.bdr, f.marked = false := by
  have hid : ∀ f, (ntffInfo dim m f).1 ≠ NotFound := by
    intro f
    unfold ntffInfo set1 NotFound
    split
    · split <;> simp
    · split
      · split <;> simp
      · split <;> simp
  have hstore : ∀ (l : List BFace) (s : (Nat → Int) × List (Int × Int)),
      (l.foldl (fun s f =>
        let i := ntffInfo dim m f
        (ntffTag s.1 f i.2, ntffStore s.2 f i.1 i.2)) s).2.length = s.2.length + l.length := by
    intro l
    induction l with
    | nil => simp
    | cons f l ih =>
      intro s
      rw [List.foldl_cons, ih]
      unfold ntffStore
      simp only [hid f, ne_eq, not_false_eq_true, if_true]
      split_ifs <;> (simp; omega)
  unfold ntffConstruct
  by_cases hd : dim = 2 ∨ dim = 3
  · rw [if_pos hd]
    simp only
    have := hstore (markedFaces m) (m.attr, [])
    have hlen : (ntffProcess dim m).2 = [] ↔ markedFaces m = [] := by
      rw [← List.length_eq_zero_iff, ← List.length_eq_zero_iff]
      unfold ntffProcess
      rw [this]; simp
    have hm : markedFaces m = [] ↔ ∀ f ∈ m.bdr, f.marked = false := by
      unfold markedFaces
      rw [List.filter_eq_nil_iff]
      simp
    rw [hm] at hlen
    constructor
    · intro h
      right
      by_contra hc
      rw [if_neg (fun hx => hc (hlen.1 hx))] at h
      cases h
    · rintro (h | h)
      · exact absurd hd (by rintro (h' | h'); exacts [h.1 h', h.2 h'])
      · rw [if_pos (hlen.2 h)]
  · rw [if_neg hd]
    simp only [true_iff]
    left
    exact ⟨fun h => hd (.inl h), fun h => hd (.inr h)⟩

theorem ntff_first (dim : Nat) (m : Mesh K) (f : BFace) (h : if dim = 2 then Ordered2 m f else Ordered3 m f) :
    (ntffInfo dim m f).2 = false := by
  unfold ntffInfo
  by_cases hd : dim = 2
  · rw [if_pos hd] at h ⊢
    have := orientation2_pos m f h
    unfold set1
    cases localFace m f.e1 f with
    | none => rfl
    | some i => simp [this.le]
  · rw [if_neg hd] at h ⊢
    cases he : f.e2 with
    | none =>
      simp only
      cases localFace m f.e1 f <;> rfl
    | some e2 =>
      have := orientation3_pos m f h e2 he
      simp only
      cases localFace m e2 f with
      | none => rfl
      | some i => simp [this.le]

/-- **C85**: with faces stored as meshes are, the recorded element of each face is the one with the lower number, in two and
three dimensions. -/
theorem C85_first (dim : Nat) (m : Mesh K) (hf : FreeN m) (l : List Nat) (h : ntffConstruct dim m = some l)
    (ho : ∀ f ∈ m.bdr, f.marked = true → if dim = 2 then Ordered2 m f else Ordered3 m f) (e : Nat) (he : e < m.ne) :
    e ∈ l ↔ ∃ f ∈ m.bdr, f.marked = true ∧ f.e1 = e := by
  rw [C85_chosen dim m hf l h e he]
  constructor
  · rintro ⟨f, hb, hm, hx⟩
    rw [ntff_first dim m f (ho f hb hm)] at hx
    exact ⟨f, hb, hm, by simpa using hx⟩
  · rintro ⟨f, hb, hm, hx⟩
    refine ⟨f, hb, hm, ?_⟩
    rw [ntff_first dim m f (ho f hb hm)]
    simpa using hx

/-- **C85**, partial: if the elements inside the surface have lower numbers than those outside that they touch, the recorded
elements are all inside, and every face is recorded.  Missing: other numberings (`C85_violated`). -/
theorem C85_one_side_partial (dim : Nat) (m : Mesh K) (hf : FreeN m) (l : List Nat) (h : ntffConstruct dim m = some l)
    (ho : ∀ f ∈ m.bdr, f.marked = true → if dim = 2 then Ordered2 m f else Ordered3 m f) (inside : Nat → Bool)
    (hi : ∀ f ∈ m.bdr, f.marked = true → inside f.e1 = true ∧ f.e1 < m.ne) :
    (∀ e < m.ne, e ∈ l → inside e = true) ∧ ∀ f ∈ m.bdr, f.marked = true → f.e1 ∈ l := by
  refine ⟨fun e he hm => ?_, fun f hb hm => ?_⟩
  · obtain ⟨f, hb, hk, rfl⟩ := (C85_first dim m hf l h ho e he).1 hm
    exact (hi f hb hk).1
  · exact (C85_first dim m hf l h ho f.e1 (hi f hb hm).2).2 ⟨f, hb, hm, rfl⟩

/-- A triangle with number 1 inside the surface and two triangles outside it, with numbers 0 and 2. -/
def exNtff : Mesh ℚ where
  ne := 3
  attr := fun _ => 1
  coord := fun v => [![0, 0, 0], ![1, 0, 0], ![1, 1, 0], ![0, 1, 0], ![2, 0, 0]].getD v ![0, 0, 0]
  elemVerts := fun e => [[0, 2, 3], [0, 1, 2], [1, 4, 2]].getD e []
  elemFaces := fun e => [[[0, 2], [2, 3], [3, 0]], [[0, 1], [1, 2], [2, 0]], [[1, 4], [4, 2], [2, 1]]].getD e []
  bdr := [⟨true, [0, 2], [0, 2], 0, some 1⟩, ⟨true, [1, 2], [1, 2], 1, some 2⟩]

/-- **C85** fails for other numberings: triangle 1 is inside and triangles 0 and 2 are outside; the recorded elements are 0
and 1, on different sides of the surface. -/
theorem C85_violated :
    (∀ f ∈ exNtff.bdr, Ordered2 exNtff f) ∧ ntffConstruct 2 exNtff = some [0, 1] := by
  constructor
  · intro f hf
    simp only [exNtff, List.mem_cons, List.not_mem_nil, or_false] at hf
    rcases hf with rfl | rfl
    · refine ⟨0, 2, rfl, by decide +kernel, ?_⟩
      intro e2 h; cases h
      decide +kernel
    · refine ⟨1, 2, rfl, by decide +kernel, ?_⟩
      intro e2 h; cases h
      decide +kernel
  · decide +kernel

end Dgtd.SubMesh
