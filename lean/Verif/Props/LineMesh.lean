/-
C83 on lines, and C85: the faces recorded next to the elements.
-/
import Verif.Props.NtffMesh

set_option linter.unusedSectionVars false

namespace Dgtd.SubMesh
open Spec

variable {K : Type} [Field K] [LinearOrder K] [IsStrictOrderedRing K]

/-! ### lines -/

/-- On a line numbered from left to right: the point on the left of element `i`. -/
def LeftOf (f : BFace) (i : Nat) : Prop := (i = 0 ∧ f.e1 = 0 ∧ f.e2 = none) ∨ (0 < i ∧ f.e1 = i - 1 ∧ f.e2 = some i)

/-- On a line numbered from left to right: the point on the right of element `j`. -/
def RightOf (m : Mesh K) (f : BFace) (j : Nat) : Prop := f.e1 = j ∧ (f.e2 = some (j + 1) ∨ j + 1 = m.ne ∧ f.e2 = none)

/-- **C83**, on a line with two points, the left one listed first: among the elements that touch the points, those between them are the
total region and the others the scattered region.  Missing: the right point listed first (`C83_line_violated`). -/
theorem C83_line_partial (m : Mesh K) (hf : Free m) (f g : BFace) (hm : markedFaces m = [f, g]) (i j : Nat) (hij : i ≤ j)
    (hl : LeftOf f i) (hr : RightOf m g j) :
    ∃ r, construct 1 m = some r ∧ ∀ e < m.ne, Touches f e ∨ Touches g e →
      (e ∈ elems r.tf ↔ i ≤ e ∧ e ≤ j) ∧ (e ∈ elems r.sf ↔ ¬ (i ≤ e ∧ e ≤ j)) := by
  have hds : decisions 1 m = some [(f, decisionTwo m false f), (g, decisionTwo m true g)] := by
    unfold decisions; rw [if_pos rfl, hm]
  obtain ⟨r, hrr⟩ : ∃ r, construct 1 m = some r := by unfold construct; rw [hds]; exact ⟨_, rfl⟩
  have hd1 : (decisionTwo m false f).2 = decide (i = 0) ∧ Complete (f, decisionTwo m false f) := by
    unfold decisionTwo Complete NotFound
    rcases hl with ⟨h0, h1, h2⟩ | ⟨h0, h1, h2⟩
    · simp [h0, h1, h2]
    · simp [h2]; omega
  have hd2 : (decisionTwo m true g).2 = true ∧ Complete (g, decisionTwo m true g) := by
    unfold decisionTwo Complete NotFound
    rcases hr with ⟨h1, h2 | ⟨h2, h3⟩⟩
    · simp [h2]
    · simp [h1, h2, h3]
  refine ⟨r, hrr, fun e he ht => ?_⟩
  obtain ⟨htf, hsf⟩ := regions 1 m hf r _ hds (by
    intro d hd
    rcases List.mem_cons.1 hd with rfl | hd
    · exact hd1.2
    · rw [List.mem_singleton.1 hd]; exact hd2.2) hrr e he
  have sf : Touches f e → (side (decisionTwo m false f).2 f e = true ↔ i ≤ e ∧ e ≤ j) := by
    intro ht
    unfold Touches at ht
    unfold side
    rw [hd1.1]
    rcases hl with ⟨h0, h1, h2⟩ | ⟨h0, h1, h2⟩
    · simp only [h2, reduceCtorEq, or_false] at ht
      simp only [h2, reduceCtorEq, if_false, h0, decide_true, true_iff]; omega
    · rw [h1, h2, Option.some.injEq] at ht
      rw [h2]
      by_cases hie : i = e
      · simp only [hie, if_true]; simp; omega
      · simp only [Option.some.injEq, hie, if_false, decide_eq_true_eq]; omega
  have sg : Touches g e → (side (decisionTwo m true g).2 g e = true ↔ i ≤ e ∧ e ≤ j) := by
    intro ht
    unfold Touches at ht
    unfold side
    rw [hd2.1]
    obtain ⟨h1, h2 | ⟨h2, h3⟩⟩ := hr
    · rw [h1, h2, Option.some.injEq] at ht
      rw [h2]
      by_cases hje : j + 1 = e
      · simp only [hje, if_true]; simp; omega
      · simp only [Option.some.injEq, hje, if_false, true_iff]; omega
    · simp only [h3, reduceCtorEq, or_false] at ht
      simp only [h3, reduceCtorEq, if_false, true_iff]; omega
  rw [htf, hsf]
  by_cases tg : Touches g e
  · have hx : ([(f, decisionTwo m false f), (g, decisionTwo m true g)].filter fun d => decide (Touches d.1 e)).getLast? =
        some (g, decisionTwo m true g) := by
      by_cases tf : Touches f e <;> simp [tf, tg]
    rw [hx]
    simp only [Option.some.injEq, exists_eq_left']
    rw [← sg tg]; simp
  · have tf : Touches f e := ht.resolve_right tg
    have hx : ([(f, decisionTwo m false f), (g, decisionTwo m true g)].filter fun d => decide (Touches d.1 e)).getLast? =
        some (f, decisionTwo m false f) := by simp [tf, tg]
    rw [hx]
    simp only [Option.some.injEq, exists_eq_left']
    rw [← sf tf]; simp

/-- **C83**, on a line with one inner point away from the first and the last element: the element on its right is the total region. -/
theorem C83_line_one (m : Mesh K) (hf : Free m) (f : BFace) (hm : markedFaces m = [f]) (i : Nat) (hl : LeftOf f (i + 1)) (h0 : 0 < i)
    (hi : i + 1 < m.ne) :
    ∃ r, construct 1 m = some r ∧ ∀ e < m.ne, Touches f e → (e ∈ elems r.tf ↔ e = i + 1) ∧ (e ∈ elems r.sf ↔ e = i) := by
  have hds : decisions 1 m = some [(f, decisionOne m f)] := by
    unfold decisions; rw [if_pos rfl, hm]
  obtain ⟨r, hrr⟩ : ∃ r, construct 1 m = some r := by unfold construct; rw [hds]; exact ⟨_, rfl⟩
  obtain ⟨h1, h2⟩ : f.e1 = i ∧ f.e2 = some (i + 1) := by
    rcases hl with ⟨h, -⟩ | ⟨-, h1, h2⟩
    · omega
    · exact ⟨by omega, h2⟩
  have hd : decisionOne m f = ((1, 0), false) := by
    unfold decisionOne; rw [h1, if_neg (by omega), if_neg (by omega)]
  refine ⟨r, hrr, fun e he ht => ?_⟩
  obtain ⟨htf, hsf⟩ := regions 1 m hf r _ hds (by
    intro d hd'
    rw [List.mem_singleton.1 hd', hd]
    left; simp [NotFound]) hrr e he
  rw [htf, hsf]
  have hx : ([(f, decisionOne m f)].filter fun d => decide (Touches d.1 e)).getLast? = some (f, decisionOne m f) := by simp [ht]
  rw [hx, hd]
  simp only [Option.some.injEq, exists_eq_left', side, h2]
  unfold Touches at ht
  rw [h1, h2, Option.some.injEq] at ht
  by_cases hie : i + 1 = e
  · simp only [hie, if_true]; simp; omega
  · simp only [hie, if_false]; simp; omega

/-- **C36**, on a line numbered from left to right, partial: the local faces recorded for the two regions are the marked points: number 0 where
the point is on the left of the element and number 1 where it is on its right.  Missing: one point next to the first or the last element inside
the mesh (`C36_line_faces_fails`), and the right point listed first. -/
theorem C36_line_faces_partial (m : Mesh K) (ds : List (BFace × (Int × Int) × Bool)) (hds : decisions 1 m = some ds)
    (h1 : ∀ f, markedFaces m = [f] → (∃ i < m.ne, LeftOf f i ∧ i ≠ 1) ∨ (RightOf m f (m.ne - 1) ∧ 1 < m.ne ∧ f.e2 = none))
    (h2 : ∀ f g, markedFaces m = [f, g] → ∃ i j, LeftOf f i ∧ RightOf m g j) (x : Int × Int)
    (hx : x ∈ clean (process m ds).tf ++ clean (process m ds).sf) :
    ∃ f ∈ markedFaces m, ∃ e : Nat, (x = ((e : Int), 0) ∧ LeftOf f e) ∨ (x = ((e : Int), 1) ∧ RightOf m f e) := by
  have hm : x.1 ≠ -1 ∧ x ∈ (process m ds).tf ++ (process m ds).sf := by
    unfold clean at hx
    rw [List.mem_append, List.mem_filter, List.mem_filter] at hx
    rw [List.mem_append]
    rcases hx with h | h
    · exact ⟨by simpa using h.2, .inl h.1⟩
    · exact ⟨by simpa using h.2, .inr h.1⟩
  obtain ⟨d, hd, hxd⟩ := process_entries m ds x hm.2
  have hx1 := hm.1
  have left0 : ∀ f : BFace, f.e1 = 0 → f.e2 = none → LeftOf f 0 := fun f a b => .inl ⟨rfl, a, b⟩
  have inner : ∀ (f : BFace) (i : Nat), 0 < i → f.e1 = i - 1 → f.e2 = some i → (x = ((f.e1 : Int), 1) ∨ x = (elem2No f, 0)) →
      ∃ e : Nat, (x = ((e : Int), 0) ∧ LeftOf f e) ∨ (x = ((e : Int), 1) ∧ RightOf m f e) := by
    intro f i a b c h
    rcases h with h | h
    · exact ⟨f.e1, .inr ⟨h, rfl, .inl (by rw [c]; congr 1; omega)⟩⟩
    · exact ⟨i, .inl ⟨by rw [h]; simp [elem2No, c], .inr ⟨a, b, c⟩⟩⟩
  unfold decisions at hds
  rw [if_pos rfl] at hds
  split at hds
  · rename_i f hmf
    cases hds
    rw [hmf]
    rw [List.mem_singleton.1 hd] at hxd
    refine ⟨f, by simp, ?_⟩
    rcases h1 f hmf with ⟨i, hi, hl, hi1⟩ | ⟨⟨ha, hb⟩, hc, he2⟩
    · rcases hl with ⟨a, b, c⟩ | ⟨a, b, c⟩
      · rcases hxd with h | h
        · refine ⟨0, .inl ⟨?_, left0 f b c⟩⟩
          rw [h]; simp [decisionOne, b]
        · exact absurd (by rw [h]; simp [elem2No, c]) hx1
      · refine inner f i a b c ?_
        have e : decisionOne m f = ((1, 0), false) := by
          unfold decisionOne; rw [if_neg (by omega), if_neg (by omega)]
        rwa [e] at hxd
    · rcases hxd with h | h
      · refine ⟨f.e1, .inr ⟨?_, rfl, .inr ⟨by omega, he2⟩⟩⟩
        rw [h]
        unfold decisionOne
        rw [if_neg (by omega), if_pos (by omega)]
      · exact absurd (by rw [h]; simp [elem2No, he2]) hx1
  · rename_i f g hmf
    cases hds
    rw [hmf]
    obtain ⟨i, j, hl, hr⟩ := h2 f g hmf
    rcases List.mem_cons.1 hd with rfl | hd
    · refine ⟨f, by simp, ?_⟩
      rcases hl with ⟨a, b, c⟩ | ⟨a, b, c⟩
      · rcases hxd with h | h
        · refine ⟨0, .inl ⟨?_, left0 f b c⟩⟩
          rw [h]; simp [decisionTwo, b, c]
        · exact absurd (by rw [h]; simp [elem2No, c]) hx1
      · refine inner f i a b c ?_
        have e : decisionTwo m false f = ((1, 0), false) := by
          unfold decisionTwo; simp [c]
        rwa [e] at hxd
    · rw [List.mem_singleton.1 hd] at hxd
      refine ⟨g, by simp, ?_⟩
      obtain ⟨a, b | ⟨b, c⟩⟩ := hr
      · refine inner g (j + 1) (by omega) (by omega) b ?_
        have e : decisionTwo m true g = ((1, 0), true) := by
          unfold decisionTwo; simp [b]
        rwa [e] at hxd
      · rcases hxd with h | h
        · refine ⟨g.e1, .inr ⟨?_, rfl, .inr ⟨by omega, c⟩⟩⟩
          rw [h]; simp [decisionTwo, c, a, b]
        · exact absurd (by rw [h]; simp [elem2No, c]) hx1
  · cases hds

/-- **C36** fails for the faces of a single point between the first two segments of a line: the face recorded for the first segment is the one at
the end of the mesh. -/
theorem C36_line_faces_fails : ∃ ds, decisions 1 exLine = some ds ∧ clean (process exLine ds).tf = [(0, 0)] ∧
    markedFaces exLine = [⟨true, [1], [1], 0, some 1⟩] ∧ ¬ LeftOf ⟨true, [1], [1], 0, some 1⟩ 0 :=
  ⟨_, rfl, by decide +kernel, rfl, by unfold LeftOf; simp⟩

/-- Five segments with points on both sides of the third, the left one first. -/
def exTwo : Mesh ℚ where
  ne := 5
  attr := fun _ => 1
  coord := fun v => ![(v : ℚ), 0, 0]
  elemVerts := fun e => [e, e + 1]
  elemFaces := fun e => [[e], [e + 1]]
  bdr := [⟨false, [0], [0], 0, none⟩, ⟨false, [5], [5], 4, none⟩, ⟨true, [2], [2], 1, some 2⟩, ⟨true, [3], [3], 2, some 3⟩]

example : Free exTwo ∧ markedFaces exTwo = [⟨true, [2], [2], 1, some 2⟩, ⟨true, [3], [3], 2, some 3⟩] ∧
    LeftOf ⟨true, [2], [2], 1, some 2⟩ 2 ∧ RightOf exTwo ⟨true, [3], [3], 2, some 3⟩ 2 :=
  ⟨fun _ _ => ⟨by simp [exTwo, TF], by simp [exTwo, SF], by simp [exTwo, Global]⟩, rfl, .inr ⟨by decide, rfl, rfl⟩, rfl, .inl rfl⟩

/-- The two points of this line, and single points at an end and inside, are described by `C36_line_faces_partial`. -/
example : (∀ f g, markedFaces exTwo = [f, g] → ∃ i j, LeftOf f i ∧ RightOf exTwo g j) ∧
    ∃ ds, decisions 1 exTwo = some ds ∧ clean (process exTwo ds).tf = [(2, 0), (2, 1)] ∧ clean (process exTwo ds).sf = [(1, 1), (3, 0)] := by
  refine ⟨fun f g h => ?_, _, rfl, by decide +kernel, by decide +kernel⟩
  have h' : [(⟨true, [2], [2], 1, some 2⟩ : BFace), ⟨true, [3], [3], 2, some 3⟩] = [f, g] := h
  simp only [List.cons.injEq, and_true] at h'
  obtain ⟨rfl, rfl⟩ := h'
  exact ⟨2, 2, .inr ⟨by decide, rfl, rfl⟩, rfl, .inl rfl⟩

/-- **C83** fails on a line with the right point listed first: the outer elements are the total region and the inner one the scattered
region. -/
theorem C83_line_violated :
    (construct 1 exTwo).map (fun r => (r.tf, r.sf)) = some (some [2], some [1, 3]) ∧
    (construct 1 { exTwo with bdr := exTwo.bdr.reverse }).map (fun r => (r.tf, r.sf)) = some (some [1, 3], some [2]) := by
  decide +kernel

/-! ### the faces recorded for the near-to-far-field surface -/

lemma ntff_list (dim : Nat) (m : Mesh K) (l : List BFace) (s : (Nat → Int) × List (Int × Int)) :
    (l.foldl (fun s f =>
      let i := ntffInfo dim m f
      (ntffTag s.1 f i.2, ntffStore s.2 f i.1 i.2)) s).2 =
    s.2 ++ l.flatMap fun f => ntffStore [] f (ntffInfo dim m f).1 (ntffInfo dim m f).2 := by
  induction l generalizing s with
  | nil => simp
  | cons f l ih =>
    rw [List.foldl_cons, ih, List.flatMap_cons, ← List.append_assoc]
    congr 1
    have : ∀ (l : List (Int × Int)) id b, ntffStore l f id b = l ++ ntffStore [] f id b := by
      intro l id b
      unfold ntffStore
      split_ifs <;> simp
    exact this _ _ _

/-- **C85**: in the plane, with faces stored as meshes are, the list kept next to the sub-mesh has for every marked face, in order, its
recorded element and the number that the face has in that element. -/
theorem C85_faces_plane (m : Mesh K) (ho : ∀ f ∈ m.bdr, f.marked = true → Ordered2 m f)
    (hl : ∀ f ∈ m.bdr, f.marked = true → ∃ fv ∈ m.elemFaces f.e1, fv.Perm f.verts) :
    List.Forall₂ (fun (f : BFace) (p : Int × Int) => ∃ i : Nat, p = ((f.e1 : Int), (i : Int)) ∧
      ∃ fv, (m.elemFaces f.e1)[i]? = some fv ∧ fv.Perm f.verts) (m.bdr.filter fun f => f.marked) (ntffProcess 2 m).2 := by
  unfold ntffProcess
  rw [ntff_list, List.nil_append]
  have key : ∀ l : List BFace, (∀ f ∈ l, f ∈ m.bdr ∧ f.marked = true) → List.Forall₂ (fun (f : BFace) (p : Int × Int) =>
      ∃ i : Nat, p = ((f.e1 : Int), (i : Int)) ∧ ∃ fv, (m.elemFaces f.e1)[i]? = some fv ∧ fv.Perm f.verts) l
      (l.flatMap fun f => ntffStore [] f (ntffInfo 2 m f).1 (ntffInfo 2 m f).2) := by
    intro l
    induction l with
    | nil => intro _; exact .nil
    | cons f l ih =>
      intro h
      obtain ⟨hb, hk⟩ := h f (by simp)
      have h2 := ntff_first 2 m f (by rw [if_pos rfl]; exact ho f hb hk)
      obtain ⟨fv, hfv, hp⟩ := hl f hb hk
      obtain ⟨i, hi⟩ : ∃ i, localFace m f.e1 f = some i := by
        cases hc : localFace m f.e1 f with
        | some i => exact ⟨i, rfl⟩
        | none =>
          unfold localFace at hc
          rw [List.findIdx?_eq_none_iff] at hc
          have := hc fv hfv
          rw [List.isPerm_iff.2 hp] at this
          cases this
      have h1 : (ntffInfo 2 m f).1 = (i : Int) := by
        unfold ntffInfo set1; rw [if_pos rfl, hi]
      rw [List.flatMap_cons]
      have hs : ntffStore [] f (ntffInfo 2 m f).1 (ntffInfo 2 m f).2 = [((f.e1 : Int), (i : Int))] := by
        rw [h1, h2]; unfold ntffStore NotFound
        rw [if_pos (by omega)]; simp
      rw [hs]
      refine .cons ⟨i, rfl, ?_⟩ (ih fun g hg => h g (by simp [hg]))
      unfold localFace at hi
      rw [List.findIdx?_eq_some_iff_getElem] at hi
      obtain ⟨hlt, hperm, -⟩ := hi
      exact ⟨_, List.getElem?_eq_getElem hlt, List.isPerm_iff.1 hperm⟩
  exact key _ fun f hf => by simpa using hf

/-- Two tetrahedra with a common face, marked. -/
def exPair : Mesh ℚ where
  ne := 2
  attr := fun _ => 1
  coord := fun v => [![0, 0, 0], ![1, 0, 0], ![0, 1, 0], ![0, 0, 1], ![1, 1, 1]].getD v ![0, 0, 0]
  elemVerts := fun e => [[0, 1, 2, 3], [1, 2, 3, 4]].getD e []
  elemFaces := fun e => [[[1, 2, 3], [0, 3, 2], [0, 1, 3], [0, 2, 1]], [[2, 3, 4], [1, 4, 3], [1, 2, 4], [1, 3, 2]]].getD e []
  bdr := [⟨true, [1, 2, 3], [1, 2, 3], 0, some 1⟩]

/-- **C85** fails in space: the recorded element is the first one of the face, but the number of the face is that in the second. -/
theorem C85_faces_violated :
    Ordered3 exPair ⟨true, [1, 2, 3], [1, 2, 3], 0, some 1⟩ ∧ (ntffProcess 3 exPair).2 = [(0, 3)] ∧
    (exPair.elemFaces 0)[3]? = some [0, 2, 1] := by
  refine ⟨⟨1, 2, 3, rfl, by decide +kernel, ?_⟩, by decide +kernel, rfl⟩
  intro e2 h; cases h
  decide +kernel

example : (∀ f ∈ exNtff.bdr, f.marked = true → ∃ fv ∈ exNtff.elemFaces f.e1, fv.Perm f.verts) := by
  decide +kernel

end Dgtd.SubMesh
