/-
The source-face operators of the ranks give the rows of the whole operator.
-/
import Verif.Lemmas.Par
import Verif.Spec.ParSource

set_option linter.unusedSectionVars false
set_option linter.unusedSimpArgs false

namespace Dgtd.Par

open Dgtd.Op Dgtd.Op.Spec Spec

variable {ι K : Type} [Fintype ι] [DecidableEq ι] [Field K] [LinearOrder K]
variable {R : Type} [DecidableEq R] {N G : R → Nat} {C : Case ι K} {Q : (r : R) → RankCase (N r) (G r) K}
  {src : (r : R) → Fin (G r) → (q : R) × Fin (N q)} {num : (r : R) → Fin (N r + G r) → ι} {side1 side2 : Face ι K → R}

lemma mem_tf {F : Face ι K} (h : F ∈ C.tfFaces) : ∃ q ∈ C.interior, q.tf = true ∧ q.face = F := by
  unfold Case.tfFaces at h
  rw [List.mem_filterMap] at h
  obtain ⟨q, hq, e⟩ := h
  by_cases ht : q.tf = true
  · rw [if_pos ht] at e
    exact ⟨q, hq, ht, Option.some.inj e⟩
  · rw [if_neg ht] at e
    cases e

lemma Spec.SplitCase.tf_sum (S : SplitCase C Q src num side1 side2) (r : R) (k : Fin (N r)) (x : ι → K)
    (g : Pt K → K → K → K → K → K) (hoff : ∀ p c d, g p 0 0 c d = 0) :
    ((Q r).own.tfFaces.map fun F => pointSum g F (Pi.single k 1) (fun c => x (num r (Fin.castAdd _ c)))).sum =
    (C.tfFaces.map fun F => pointSum g F (Pi.single (num r (Fin.castAdd _ k)) 1) x).sum := by
  rw [sum_two (fun F => decide (side1 F = r)) (fun _ => false) _ C.tfFaces]
  · rw [List.filter_false, List.map_nil, List.sum_nil, add_zero]
    refine sum_listed (S.tf r) _ _ ?_
    intro F' F _ _ h
    rw [S.prob.single_own, pointSum_same g h]
  · simp
  · intro F hF h1 _
    simp only [decide_eq_false_iff_not] at h1
    obtain ⟨q, hq, ht, rfl⟩ := mem_tf hF
    have hm : (q.cond, q.face) ∈ C.prob.interior := List.mem_map.2 ⟨q, hq, rfl⟩
    have h2 : side2 q.face ≠ r := by rw [← S.tf_uncut q hq ht]; exact h1
    refine pointSum_off hoff _ _ _ fun i hi => ?_
    by_cases h : i < q.face.ndof1
    · exact S.prob.first_off k (q := (q.cond, q.face)) (List.mem_append_left _ hm) h1 h
    · have := S.prob.second_off k (q := (q.cond, q.face)) hm h2 (i := i - q.face.ndof1) (by simp only; omega)
      rwa [show q.face.ndof1 + (i - q.face.ndof1) = i by omega] at this

lemma Spec.SplitCase.tf_agree (S : SplitCase C Q src num side1 side2) (r : R) (g : Pt K → K → K → K → K → K)
    {m : Face ι K → EMat K} {m' : Face (Fin (N r)) K → EMat K} (h : ∀ F v u, fbil F (m F) v u = pointSum g F v u)
    (h' : ∀ F v u, fbil F (m' F) v u = pointSum g F v u) (hoff : ∀ p c d, g p 0 0 c d = 0) :
    Agrees (num r) (widen (assemble ((Q r).own.tfFaces.map fun F => (F, m' F)))) (assemble (C.tfFaces.map fun F => (F, m F))) := by
  intro x k
  rw [widen_mulVec, assemble_mulVec, assemble_mulVec]
  simp only [List.map_map, Function.comp_def, h, h']
  exact S.tf_sum r k x g hoff

lemma Spec.SplitCase.blocks (S : SplitCase C Q src num side1 side2) (r : R) :
    List.Forall₂ (BAgrees (num r)) (sourceParBlocks (Q r)) (sourceBlocks C C.tfFaces) := by
  unfold sourceParBlocks sourceBlocks
  have hd : (Q r).own.dim = C.dim := S.prob.dim r
  have ha : (Q r).own.alpha = C.alpha := S.prob.alpha r
  rw [hd, ha]
  refine List.rel_append (List.rel_append (one_blocks _ ?_) (zero_blocks ?_)) (two_blocks _ ?_)
  · intro f d
    rw [widen_mul]
    exact S.prob.minv_agree r f (S.tf_agree r (g1 d 1) (m := fun F => oneNormal d 1 F) (m' := fun F => oneNormal d 1 F)
      (fbil_g1 _ _) (fbil_g1 _ _) (by intros; simp [g1]))
  · intro f
    rw [widen_mul]
    exact S.prob.minv_agree r f (S.tf_agree r (g0 C.alpha) (m := fun F => zeroNormal C.alpha F)
      (m' := fun F => zeroNormal C.alpha F) (fbil_g0 _) (fbil_g0 _) (by intros; simp [g0]))
  · intro f d d2
    rw [widen_mul]
    exact S.prob.minv_agree r f (S.tf_agree r (g2 d d2 C.alpha) (m := fun F => twoNormal d d2 C.alpha F)
      (m' := fun F => twoNormal d d2 C.alpha F) (fbil_g2 _ _ _) (fbil_g2 _ _ _) (by intros; simp [g2]))

/-- The columns of the neighbours are not read. -/
lemma widened_own (Q : RankCase n g K) (x y : State (Fin (n + g)) K)
    (h : ∀ f d k, x f d (Fin.castAdd g k) = y f d (Fin.castAdd g k)) (f : FieldT) (d : Dir) :
    applyBlocks (sourceParBlocks Q) x f d = applyBlocks (sourceParBlocks Q) y f d := by
  have hw : ∀ b ∈ sourceParBlocks Q, ∃ A, b.mat = widen A := by
    intro b hb
    simp only [sourceParBlocks, oneBlocks, zeroBlocks, twoBlocks, List.mem_append, List.mem_flatMap, List.mem_map,
      List.mem_cons, List.not_mem_nil, or_false] at hb
    rcases hb with (⟨f, _, x, _, rfl | rfl⟩ | ⟨f, _, d, _, rfl⟩) | ⟨f, _, d, _, d2, _, rfl⟩ <;> exact ⟨_, rfl⟩
  unfold applyBlocks
  congr 1
  refine List.map_congr_left fun b hb => ?_
  obtain ⟨A, hA⟩ := hw b (List.mem_filter.1 hb).1
  rw [hA]
  congr 1
  funext k
  rw [widen_mulVec, widen_mulVec]
  congr 1
  funext k'
  exact h _ _ k'

/-- The waves on a rank are those of the whole case. -/
lemma Spec.SplitCase.field (S : SplitCase C Q src num side1 side2) (waves : List (State ι K)) (r : R) :
    sourceField (Q r).own (waves.map fun w => scatter (G := G) num w r) = scatter (G := G) num (sourceField C waves) r := by
  funext f d k
  unfold sourceField scatter
  simp only [S.sub r k]
  by_cases hm : num r (Fin.castAdd _ k) ∈ C.sub
  · rw [if_pos hm, if_pos hm]
    have hk := (S.sub r k).2 hm
    have hne : (Q r).own.sub ≠ [] := List.ne_nil_of_mem hk
    have hs : tfsfSign (Q r).own k = tfsfSign C (num r (Fin.castAdd _ k)) := by
      unfold tfsfSign
      have h1 := S.sf_some r hne
      cases e' : (Q r).own.sfSub with
      | none => rw [h1.1 e']
      | some l' =>
        cases e : C.sfSub with
        | none => rw [h1.2 e] at e'; cases e'
        | some l => simp only [S.sf r l' l e' e k]
    rw [List.foldl_map, hs]
  · rw [if_neg hm, if_neg hm]

end Dgtd.Par
