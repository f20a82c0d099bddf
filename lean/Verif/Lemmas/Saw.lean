/-
Fields whose values on the two sides of every face are opposite: how fast the upwind terms change them.
-/
import Verif.Lemmas.OpFrame
import Verif.Lemmas.OpEnergy

set_option linter.unusedSectionVars false

namespace Dgtd.Op
open Spec

variable {ι K : Type} [Fintype ι] [DecidableEq ι] [Field K] [LinearOrder K] [IsStrictOrderedRing K]

/-- Only the electric field across the plane. -/
def ez (w : ι → K) : State ι K := fun f d => if f = .E ∧ d = 2 then w else 0

lemma tr1_zero (F : Face ι K) (p : Pt K) : tr1 F p (0 : ι → K) = 0 := by simp [tr1]

lemma tr2_none_zero (F : Face ι K) (p : Pt K) : tr2 F p (0 : ι → K) = 0 := by simp [tr2]

/-- What a face takes from the electric field when its sides have opposite values. -/
def sideSum (F : Face ι K) (w v : ι → K) : K := (F.pts.map fun p => p.w * p.W * (tr1 F p w * tr1 F p v + tr2 F p w * tr2 F p v)).sum

variable {P : Prob ι K} {w : ι → K}

lemma nor_two {p : Pt K} (h2 : p.nor.length ≤ 2) : normalTerm p.nor 2 = 0 := by
  unfold normalTerm
  rw [List.getElem?_eq_none (by simpa using h2)]
  rfl

lemma sum_opp {α : Type} (l : List α) (a : K) (f g : α → K) (h : ∀ x ∈ l, f x = a * g x) : (l.map f).sum = a * (l.map g).sum := by
  rw [List.map_congr_left h, List.sum_map_mul_left]

/-- A face between elements and a face of a conducting wall; `b` is the factor of its terms. -/
lemma saw_E (F : Face ι K) (hp : ∀ p ∈ F.pts, p.nor.length ≤ 2) (alpha b a : K) (ht : ∀ p ∈ F.pts, ∀ v : ι → K,
      b * (tr1 F p w - tr2 F p w) * (tr1 F p v - tr2 F p v) = 2 * (tr1 F p w * tr1 F p v + tr2 F p w * tr2 F p v)) (d : Dir) (v : ι → K) :
    plainTerm (ez w) .E d a (b * alpha) F v = if d = 2 then -alpha * sideSum F w v else 0 := by
  unfold plainTerm plainPt sideSum
  by_cases hd : d = 2
  · subst hd
    rw [if_pos rfl]
    refine sum_opp _ _ _ _ fun p hpm => ?_
    have n2 := nor_two (hp p hpm)
    have := ht p hpm v
    simp only [crossT, pen, ez, altField, reduceCtorEq, false_and, if_false, tr1_zero, tr2_none_zero, sub_zero, n2, true_and, if_true]
    linear_combination (-(p.w * p.W * alpha / 2)) * this
  · rw [if_neg hd]
    rw [List.map_congr_left (g := fun _ => (0 : K)) fun p hpm => ?_]
    · simp
    · have n2 := nor_two (hp p hpm)
      simp [crossT, pen, ez, altField, tr1_zero, tr2_none_zero, n2, hd]

lemma saw_H (F : Face ι K) (alpha b : K) (ht : ∀ p ∈ F.pts, ∀ v : ι → K,
      b * (tr1 F p w - tr2 F p w) * (tr1 F p v + tr2 F p v) = 2 * (tr1 F p w * tr1 F p v - tr2 F p w * tr2 F p v)) (d : Dir) (v : ι → K) :
    plainTerm (ez w) .H d b alpha F v = if d = 0 then faceBoundary F 1 v w else if d = 1 then -faceBoundary F 0 v w else 0 := by
  have sg : (sgn FieldT.H : K) = -1 := by simp [sgn, FieldT.idx]; norm_num
  have e : -faceBoundary F 0 v w = -1 * faceBoundary F 0 v w := by ring
  have e' : faceBoundary F 1 v w = 1 * faceBoundary F 1 v w := by ring
  rw [e, e']
  unfold plainTerm plainPt faceBoundary
  obtain rfl | rfl | rfl : d = 0 ∨ d = 1 ∨ d = 2 := by fin_cases d <;> simp
  · rw [if_pos rfl]
    refine sum_opp _ _ _ _ fun p hpm => ?_
    have := ht p hpm v
    simp [crossT, pen, ez, altField, tr1_zero, tr2_none_zero, sg]
    linear_combination (p.w * normalTerm p.nor 1 / 2) * this
  · rw [if_neg (by decide), if_pos rfl]
    refine sum_opp _ _ _ _ fun p hpm => ?_
    have := ht p hpm v
    simp [crossT, pen, ez, altField, tr1_zero, tr2_none_zero, sg]
    linear_combination (p.w * normalTerm p.nor 0 / 2) * this
  · rw [if_neg (by decide), if_neg (by decide)]
    rw [List.map_congr_left (g := fun _ => (0 : K)) fun p hpm => ?_]
    · simp
    · simp [crossT, pen, ez, altField, tr1_zero, tr2_none_zero, sg]

/-- In at most two dimensions, between conducting walls: an electric field across the plane with opposite values on the two sides of every face,
without losses, that no derivative of the shape functions sees, dies out without ever making a magnetic field. -/
lemma saw_global {M : FieldT → Matrix ι ι K} (hg : Regular P M) (hs : SBP P) (hdim : P.dim ≤ 2) (hin : ∀ q ∈ P.interior, q.1 = none)
    (hout : ∀ q ∈ P.bdr, q.1 = some .PEC) (hopp : ∀ q ∈ P.interior, ∀ p ∈ q.2.pts, tr2 q.2 p w = -tr1 q.2 p w) (hsig : P.Msig.mulVec w = 0)
    (hcurl : ∀ d : Dir, d.val < P.dim → ∀ v, w ⬝ᵥ (P.D d).mulVec v = 0) (κ : K)
    (hpen : ∀ v, ((allFaces P).map fun F => sideSum F w v).sum = κ * form (M .E) v w) : globalMult P (ez w) = (-(P.alpha * κ)) • ez w := by
  have hlen : ∀ F ∈ allFaces P, ∀ p ∈ F.pts, p.nor.length ≤ 2 := fun F hF p hp => by rw [(hg.pts F hF p hp).size]; exact hdim
  have hI : ∀ q ∈ P.interior, q.2 ∈ allFaces P := fun q hq => List.mem_append_left _ (List.mem_map_of_mem hq)
  have hB : ∀ q ∈ P.bdr, q.2 ∈ allFaces P := fun q hq => List.mem_append_right _ (List.mem_map_of_mem hq)
  have t2 : ∀ q ∈ P.bdr, ∀ p v, tr2 q.2 p v = 0 := fun q hq p v => tr2_zero _ _ _ (hg.bdr_one_side q hq)
  have hd : ∀ x : Dir, x.val < P.dim → ∀ v, v ⬝ᵥ (P.D x).mulVec w = ((allFaces P).map fun F => faceBoundary F x v w).sum := by
    intro x hx v
    have := hs x hx v w
    rwa [hcurl x hx v, add_zero] at this
  have hfb : ∀ x : Dir, P.dim ≤ x.val → ∀ v, ((allFaces P).map fun F => faceBoundary F x v w).sum = 0 := by
    intro x hx v
    rw [List.map_congr_left (g := fun _ => (0 : K)) fun F hF => ?_]
    · simp
    · unfold faceBoundary
      rw [List.map_congr_left (g := fun _ => (0 : K)) fun p hp => ?_]
      · simp
      · have : normalTerm p.nor x = 0 := by
          unfold normalTerm
          rw [List.getElem?_eq_none (by rw [(hg.pts F hF p hp).size]; exact hx)]
          rfl
        rw [this]; ring
  have hD : ∀ x v, form (derivativeSub P x) v w = ((allFaces P).map fun F => faceBoundary F x v w).sum := by
    intro x v
    unfold derivativeSub form
    by_cases hx : P.dim ≤ x.val
    · rw [if_pos hx, hfb x hx]; simp
    · rw [if_neg hx, hd x (by omega)]
  have z : ∀ A v, form A v (0 : ι → K) = 0 := fun A v => by simp [form]
  have split : ∀ φ : Face ι K → K, ((allFaces P).map φ).sum = (P.interior.map fun q => φ q.2).sum + (P.bdr.map fun q => φ q.2).sum := by
    intro φ
    simp [allFaces, List.map_map, Function.comp_def]
  have wE : ∀ d v, weak P (ez w) .E d v = if d = 2 then -(P.alpha * κ) * form (M .E) v w else 0 := by
    intro d v
    have hc : curlTerm P (ez w) .E d v = 0 := by simp [curlTerm, ez, altField, z]
    have hl : lossTerm P (ez w) .E d v = 0 := by
      unfold lossTerm form ez
      by_cases h2 : d = 2
      · simp [h2, hsig]
      · simp [h2]
    have i1 : ∀ q ∈ P.interior, interiorTerm P.alpha (ez w) .E d v q.1 q.2 = if d = 2 then -P.alpha * sideSum q.2 w v else 0 := by
      intro q hq
      rw [hin q hq]
      have := saw_E (w := w) q.2 (hlen _ (hI q hq)) P.alpha 1 1 (fun p hp v => by rw [hopp q hq p hp]; ring) d v
      rwa [one_mul] at this
    have b1 : ∀ q ∈ P.bdr, exteriorTerm P.alpha (ez w) .E d v q.1 q.2 = if d = 2 then -P.alpha * sideSum q.2 w v else 0 := by
      intro q hq
      rw [hout q hq]
      exact saw_E (w := w) q.2 (hlen _ (hB q hq)) P.alpha 2 _ (fun p hp v => by rw [t2 q hq, t2 q hq]; ring) d v
    rw [weak_faces, hc, hl, List.map_congr_left i1, List.map_congr_left b1]
    by_cases h2 : d = 2
    · simp only [h2, if_true]
      rw [List.sum_map_mul_left, List.sum_map_mul_left]
      have := hpen v
      rw [split] at this
      linear_combination (-P.alpha) * this
    · simp [h2]
  have sg : (sgn FieldT.H : K) = -1 := by simp [sgn, FieldT.idx]; norm_num
  have wH : ∀ d v, weak P (ez w) .H d v = 0 := by
    intro d v
    have i1 : ∀ q ∈ P.interior, interiorTerm P.alpha (ez w) .H d v q.1 q.2 =
        if d = 0 then faceBoundary q.2 1 v w else if d = 1 then -faceBoundary q.2 0 v w else 0 := by
      intro q hq
      rw [hin q hq]
      exact saw_H (w := w) q.2 P.alpha 1 (fun p hp v => by rw [hopp q hq p hp]; ring) d v
    have b1 : ∀ q ∈ P.bdr, exteriorTerm P.alpha (ez w) .H d v q.1 q.2 =
        if d = 0 then faceBoundary q.2 1 v w else if d = 1 then -faceBoundary q.2 0 v w else 0 := by
      intro q hq
      rw [hout q hq]
      exact saw_H (w := w) q.2 _ 2 (fun p hp v => by rw [t2 q hq, t2 q hq]; ring) d v
    rw [weak_faces, List.map_congr_left i1, List.map_congr_left b1]
    obtain rfl | rfl | rfl : d = 0 ∨ d = 1 ∨ d = 2 := by fin_cases d <;> simp
    · have := hD 1 v
      rw [split] at this
      simp [curlTerm, lossTerm, ez, altField, sg, z]
      linear_combination (-1 : K) * this
    · have := hD 0 v
      rw [split] at this
      have ng : ∀ l : List (Option BdrCond × Face ι K), (l.map fun a => -faceBoundary a.2 0 v w).sum = -(l.map fun a => faceBoundary a.2 0 v w).sum := by
        intro l
        induction l with
        | nil => simp
        | cons a l ih => simp only [List.map_cons, List.sum_cons, ih]; ring
      simp [curlTerm, lossTerm, ez, altField, sg, z, ng]
      linear_combination this
    · simp [curlTerm, lossTerm, ez, altField, sg, z]
  have hsz : ∀ f ∈ allFaces P, ∀ p ∈ f.pts, p.nor.length = P.dim := fun f hf p hp => (hg.pts f hf p hp).size
  have inv : ∀ f, P.Minv f * M f = 1 := fun f => by rw [mul_eq_one_comm]; exact hg.inv f
  have fin : ∀ f d (x : ι → K), (∀ c, weak P (ez w) f d (Pi.single c 1) = (M f).mulVec x c) → globalMult P (ez w) f d = x := by
    intro f d x hx
    have hM : (M f).mulVec (globalMult P (ez w) f d) = (M f).mulVec x := by
      funext c
      rw [weak_mass P hsz hg.inv, hx]
    have := congrArg (P.Minv f).mulVec hM
    rwa [Matrix.mulVec_mulVec, Matrix.mulVec_mulVec, inv, Matrix.one_mulVec, Matrix.one_mulVec] at this
  funext f d
  refine fin f d _ fun c => ?_
  change _ = (M f).mulVec ((-(P.alpha * κ)) • ez w f d) c
  cases f with
  | H => rw [wH]; simp [ez]
  | E =>
    rw [wE]
    by_cases h2 : d = 2
    · subst h2
      simp [ez, form, Matrix.mulVec_neg, Matrix.mulVec_smul]
    · simp [h2, ez]

end Dgtd.Op
