/-
C91: do the nodal and the global operator place the total field on the same side of a face?
-/
import Verif.Model.NodalSide
import Verif.Props.NtffMesh

set_option linter.unusedSectionVars false

namespace Dgtd.SubMesh
open Spec

variable {K : Type} [Field K] [LinearOrder K] [IsStrictOrderedRing K]

/-- **C91** in the plane, for faces stored as usual: the operators agree when the boundary element lists its vertices in the
order of the face. -/
theorem C91_plane_partial (m : Mesh K) (f : BFace) (ho : Ordered2 m f) (h : f.verts = f.fverts) :
    nodalFirstTotal 2 m f = (decision 2 m f).2 := by
  have hp := orientation2_pos m f ho
  rw [C84_plane_first m f ho]
  unfold nodalFirstTotal crossSign
  rw [if_pos rfl, h]
  unfold orientation2 at hp
  simp only [hp.le, decide_true, Bool.not_true]

/-- **C91** fails in the plane: if the boundary element lists them in the other order, the total field is on opposite sides. -/
theorem C91_violated_plane (m : Mesh K) (f : BFace) (ho : Ordered2 m f) (h : f.verts = f.fverts.reverse) :
    nodalFirstTotal 2 m f = true ∧ (decision 2 m f).2 = false := by
  refine ⟨?_, C84_plane_first m f ho⟩
  have hp := orientation2_pos m f ho
  obtain ⟨a, b, hf, _, _⟩ := ho
  unfold nodalFirstTotal crossSign
  unfold orientation2 at hp
  rw [if_pos rfl, h]
  rw [hf] at hp ⊢
  simp only [List.reverse_cons, List.reverse_nil, List.nil_append, List.cons_append, List.getD_cons_zero, List.getD_cons_succ] at hp ⊢
  rw [decide_eq_false]
  · rfl
  · intro hx
    have : baryVec m f 0 * (m.coord b 1 - m.coord a 1) - baryVec m f 1 * (m.coord b 0 - m.coord a 0)
      = -(baryVec m f 0 * (m.coord a 1 - m.coord b 1) - baryVec m f 1 * (m.coord a 0 - m.coord b 0)) := by ring
    rw [this] at hp
    linarith

/-- The nodal operator takes the first element of every face stored as usual as the scattered-field one. -/
theorem C91_space_first (m : Mesh K) (f : BFace) (ho : Ordered3 m f) (e2 : Nat) (he : f.e2 = some e2) :
    nodalFirstTotal 3 m f = false := by
  have hp := orientation3_pos m f ho e2 he
  unfold nodalFirstTotal
  rw [if_neg (by decide)]
  simp [hp.le]

/-- **C91** in space: the operators agree on a triangle stored as usual exactly when its second element is not farther from the
centre of the surface than the first one. -/
theorem C91_space_partial (m : Mesh K) (f : BFace) (ho : Ordered3 m f) (e2 : Nat) (he : f.e2 = some e2)
    (hl : (localFace m f.e1 f).isSome) :
    nodalFirstTotal 3 m f = (decision 3 m f).2 ↔
      away m (centre m (m.elemVerts e2)) ≤ away m (centre m (m.elemVerts f.e1)) := by
  rw [C91_space_first m f ho e2 he]
  have r := C36_rule_space m f hl
  simp only [beyond, he, Option.map_some, Option.getD_some] at r
  cases hd : (decision 3 m f).2 with
  | true =>
    have := r.1 hd
    simp only [Bool.false_eq_true, false_iff, not_le]
    exact this
  | false =>
    rw [hd] at r
    simp only [true_iff]
    by_contra hx
    exact absurd (r.2 (not_le.1 hx)) (by simp)

/-- Two triangles sharing a side whose boundary element is listed backwards. -/
def exSide : Mesh ℚ where
  ne := 2
  attr := fun _ => 1
  coord := fun v => [![0, 0, 0], ![1, 0, 0], ![1, 1, 0], ![0, 1, 0]].getD v ![0, 0, 0]
  elemVerts := fun e => [[0, 2, 3], [0, 1, 2]].getD e []
  elemFaces := fun e => [[[0, 2], [2, 3], [3, 0]], [[0, 1], [1, 2], [2, 0]]].getD e []
  bdr := [⟨true, [2, 0], [0, 2], 0, some 1⟩]

example : ∀ f ∈ exSide.bdr, Ordered2 exSide f ∧ f.verts = f.fverts.reverse := by
  intro f hf
  simp only [exSide, List.mem_cons, List.not_mem_nil, or_false] at hf
  subst hf
  refine ⟨⟨0, 2, rfl, by decide +kernel, ?_⟩, rfl⟩
  intro e2 h; cases h
  decide +kernel

/-- Two tetrahedra sharing a marked triangle; the second triangle of the surface puts its centre on the side of the first
tetrahedron. -/
def exTetra : Mesh ℚ where
  ne := 2
  attr := fun _ => 1
  coord := fun v => [![0, 0, 0], ![1, 0, 0], ![0, 1, 0], ![0, 0, -1], ![0, 0, 1], ![0, 0, -4]].getD v ![0, 0, 0]
  elemVerts := fun e => [[0, 1, 2, 3], [0, 1, 2, 4]].getD e []
  elemFaces := fun e => [[[0, 1, 2], [0, 1, 3]], [[0, 1, 2], [0, 1, 4]]].getD e []
  bdr := [⟨true, [0, 1, 2], [0, 1, 2], 0, some 1⟩, ⟨true, [0, 1, 5], [0, 1, 5], 0, none⟩]

/-- **C91** fails in space: the global operator puts the first tetrahedron on the total-field side, the nodal one the second. -/
theorem C91_violated_space :
    ∃ f ∈ exTetra.bdr, Ordered3 exTetra f ∧ nodalFirstTotal 3 exTetra f = false ∧ (decision 3 exTetra f).2 = true := by
  refine ⟨⟨true, [0, 1, 2], [0, 1, 2], 0, some 1⟩, by unfold exTetra; exact List.mem_cons_self, ⟨0, 1, 2, rfl, by decide +kernel, ?_⟩, by decide +kernel,
    by decide +kernel⟩
  intro e2 h; cases h
  decide +kernel

end Dgtd.SubMesh
