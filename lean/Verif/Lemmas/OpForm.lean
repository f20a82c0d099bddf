/-
Bilinear forms of the face integrators.
-/
import Verif.Spec.Op
import Mathlib.Tactic.Ring
import Mathlib.Tactic.Linarith
import Mathlib.Tactic.FieldSimp
import Mathlib.Algebra.BigOperators.Ring.Finset

set_option linter.unusedSectionVars false
set_option linter.unusedSimpArgs false

namespace Dgtd.Op

open Spec

variable {ι K : Type} [Fintype ι] [DecidableEq ι] [Field K] [LinearOrder K]

/-- Value of an element matrix on local vectors. -/
def bil (N : Nat) (m : EMat K) (a b : Nat → K) : K :=
  ∑ i ∈ Finset.range N, ∑ j ∈ Finset.range N, a i * m i j * b j

lemma bil_zero (N : Nat) (a b : Nat → K) : bil N (fun _ _ => 0) a b = 0 := by
  simp [bil]

lemma bil_addAt (N : Nat) (m : EMat K) (a b : Nat → K) {r c : Nat} (hr : r < N) (hc : c < N) (v : K) :
    bil N (addAt m r c v) a b = bil N m a b + a r * v * b c := by
  have h : ∀ i j, a i * addAt m r c v i j * b j =
      a i * m i j * b j + if i = r then (if j = c then a r * v * b c else 0) else 0 := by
    intro i j
    unfold addAt
    by_cases hi : i = r
    · by_cases hj : j = c
      · subst hi; subst hj; simp; ring
      · simp [hi, hj]
    · simp [hi]
  unfold bil
  simp only [h, Finset.sum_add_distrib]
  congr 1
  rw [Finset.sum_eq_single r]
  · rw [Finset.sum_eq_single c]
    · simp
    · intro j _ hj; simp [hj]
    · intro hh; simp at hh; omega
  · intro i _ hi; simp [hi]
  · intro hh; simp at hh; omega

lemma bil_buildFaceMatrix (N : Nat) (w : K) (nA nB oR oC : Nat) (shA shB : Nat → K) (m : EMat K)
    (a b : Nat → K) (h1 : nA + oR ≤ N) (h2 : nB + oC ≤ N) :
    bil N (buildFaceMatrix w nA nB oR oC shA shB m) a b = bil N m a b +
      (if oR = oC then w else -w) * (∑ i ∈ Finset.range nA, shA i * a (i + oR)) *
        (∑ j ∈ Finset.range nB, shB j * b (j + oC)) := by
  set s : K := if oR = oC then w else -w with hs
  have inner : ∀ (i : Nat) (hi : i < nA) (k : Nat) (hk : k ≤ nB) (m : EMat K),
      bil N ((List.range k).foldl (fun m j =>
        if oR = oC then addAt m (i + oR) (j + oC) (w * shA i * shB j)
        else addAt m (i + oR) (j + oC) (-(w * shA i * shB j))) m) a b =
      bil N m a b + s * (shA i * a (i + oR)) * (∑ j ∈ Finset.range k, shB j * b (j + oC)) := by
    intro i hi k
    induction k with
    | zero => intro _ m; simp
    | succ k ih =>
      intro hk m
      rw [List.range_succ, List.foldl_append, List.foldl_cons, List.foldl_nil, Finset.sum_range_succ]
      split_ifs with h
      · rw [bil_addAt N _ a b (by omega) (by omega)]
        have := ih (by omega) m
        simp only [if_pos h] at this
        rw [this]
        rw [show s = w by rw [hs, if_pos h]]; ring
      · rw [bil_addAt N _ a b (by omega) (by omega)]
        have := ih (by omega) m
        simp only [if_neg h] at this
        rw [this]
        rw [show s = -w by rw [hs, if_neg h]]; ring
  have outer : ∀ (k : Nat) (hk : k ≤ nA) (m : EMat K),
      bil N ((List.range k).foldl (fun m i => (List.range nB).foldl (fun m j =>
        if oR = oC then addAt m (i + oR) (j + oC) (w * shA i * shB j)
        else addAt m (i + oR) (j + oC) (-(w * shA i * shB j))) m) m) a b =
      bil N m a b + s * (∑ i ∈ Finset.range k, shA i * a (i + oR)) *
        (∑ j ∈ Finset.range nB, shB j * b (j + oC)) := by
    intro k
    induction k with
    | zero => intro _ m; simp
    | succ k ih =>
      intro hk m
      rw [List.range_succ, List.foldl_append, List.foldl_cons, List.foldl_nil, Finset.sum_range_succ,
        inner k (by omega) nB (le_refl _), ih (by omega)]
      ring
  exact outer nA (le_refl _) m

/-- Value of an element matrix on global vectors. -/
def fbil (f : Face ι K) (m : EMat K) (v u : ι → K) : K :=
  bil (f.ndof1 + f.ndof2) m (fun i => v (f.dofs i)) (fun i => u (f.dofs i))

lemma tr2_eq (f : Face ι K) (p : Pt K) (u : ι → K) :
    (∑ i ∈ Finset.range f.ndof2, p.sh2 i * u (f.dofs (i + f.ndof1))) = tr2 f p u := by
  unfold tr2; simp only [Nat.add_comm]

lemma tr2_zero (f : Face ι K) (p : Pt K) (u : ι → K) (h : f.ndof2 = 0) : tr2 f p u = 0 := by
  unfold tr2; rw [h]; simp

section blocks
variable (f : Face ι K) (p : Pt K) (m : EMat K) (v u : ι → K) (w : K)

lemma fbil_TL : fbil f (buildFaceMatrix w f.ndof1 f.ndof1 0 0 p.sh1 p.sh1 m) v u =
    fbil f m v u + w * tr1 f p v * tr1 f p u := by
  unfold fbil; rw [bil_buildFaceMatrix _ _ _ _ _ _ _ _ _ _ _ (by omega) (by omega)]
  simp [tr1]

lemma fbil_TR : fbil f (buildFaceMatrix w f.ndof1 f.ndof2 0 f.ndof1 p.sh1 p.sh2 m) v u =
    fbil f m v u - w * tr1 f p v * tr2 f p u := by
  unfold fbil; rw [bil_buildFaceMatrix _ _ _ _ _ _ _ _ _ _ _ (by omega) (by omega), tr2_eq]
  by_cases h : f.ndof1 = 0
  · simp [tr1, h]
  · rw [if_neg (by omega)]; simp only [Nat.add_zero]; unfold tr1; ring

lemma fbil_BL : fbil f (buildFaceMatrix w f.ndof2 f.ndof1 f.ndof1 0 p.sh2 p.sh1 m) v u =
    fbil f m v u - w * tr2 f p v * tr1 f p u := by
  unfold fbil; rw [bil_buildFaceMatrix _ _ _ _ _ _ _ _ _ _ _ (by omega) (by omega), tr2_eq]
  by_cases h : f.ndof1 = 0
  · simp [tr1, h]
  · rw [if_neg (by omega)]; simp only [Nat.add_zero]; unfold tr1; ring

lemma fbil_BR : fbil f (buildFaceMatrix w f.ndof2 f.ndof2 f.ndof1 f.ndof1 p.sh2 p.sh2 m) v u =
    fbil f m v u + w * tr2 f p v * tr2 f p u := by
  unfold fbil; rw [bil_buildFaceMatrix _ _ _ _ _ _ _ _ _ _ _ (by omega) (by omega), tr2_eq, tr2_eq]
  simp

end blocks

/-- Folding a per-point update adds up the per-point contributions. -/
lemma fbil_fold (f : Face ι K) (v u : ι → K) (step : EMat K → Pt K → EMat K) (g : Pt K → K)
    (h : ∀ m p, fbil f (step m p) v u = fbil f m v u + g p) (l : List (Pt K)) (m : EMat K) :
    fbil f (l.foldl step m) v u = fbil f m v u + (l.map g).sum := by
  induction l generalizing m with
  | nil => simp
  | cons p l ih => rw [List.foldl_cons, ih, h, List.map_cons, List.sum_cons]; ring

lemma fbil_nil (f : Face ι K) (v u : ι → K) : fbil f (fun _ _ => 0) v u = 0 := bil_zero _ _ _

theorem fbil_zeroNormal (beta : K) (f : Face ι K) (v u : ι → K) :
    fbil f (zeroNormal beta f) v u = (f.pts.map fun p => p.w * beta * (1 / 2) * p.W *
      ((tr1 f p v - tr2 f p v) * (tr1 f p u - tr2 f p u))).sum := by
  unfold zeroNormal
  rw [fbil_fold f v u _ _ _ _ _, fbil_nil, zero_add]
  intro m p
  unfold zeroNormalPt
  simp only
  by_cases hw : p.w * beta * (1 / 2) * p.W = 0
  · rw [if_neg (not_not.mpr hw), hw]; simp
  · rw [if_pos hw]
    by_cases hn : f.ndof2 = 0
    · rw [if_neg (not_not.mpr hn), fbil_TL, tr2_zero f p v hn, tr2_zero f p u hn]; ring
    · rw [if_pos hn, fbil_BR, fbil_BL, fbil_TR, fbil_TL]; ring

theorem fbil_oneNormal (d : Dir) (beta : K) (f : Face ι K) (v u : ι → K) :
    fbil f (oneNormal d beta f) v u = (f.pts.map fun p => p.w * (beta * normalTerm p.nor d) * (1 / 2) *
      ((tr1 f p v + tr2 f p v) * (tr1 f p u - tr2 f p u))).sum := by
  unfold oneNormal
  rw [fbil_fold f v u _ _ _ _ _, fbil_nil, zero_add]
  intro m p
  unfold oneNormalPt
  simp only
  by_cases hw : p.w * (beta * normalTerm p.nor d) * (1 / 2) = 0
  · rw [if_neg (not_not.mpr hw), hw]; simp
  · rw [if_pos hw]
    by_cases hn : f.ndof2 = 0
    · rw [if_neg (not_not.mpr hn), fbil_TL, tr2_zero f p v hn, tr2_zero f p u hn]; ring
    · rw [if_pos hn, fbil_BR, fbil_BL, fbil_TR, fbil_TL]; ring

theorem fbil_twoNormal (d d2 : Dir) (beta : K) (f : Face ι K) (v u : ι → K) :
    fbil f (twoNormal d d2 beta f) v u =
      (f.pts.map fun p => p.w * (beta * normalTerm p.nor d * normalTerm p.nor d2) * (1 / 2) / p.W *
      ((tr1 f p v - tr2 f p v) * (tr1 f p u - tr2 f p u))).sum := by
  unfold twoNormal
  rw [fbil_fold f v u _ _ _ _ _, fbil_nil, zero_add]
  intro m p
  unfold twoNormalPt
  simp only
  by_cases hw : p.w * (beta * normalTerm p.nor d * normalTerm p.nor d2) * (1 / 2) / p.W = 0
  · rw [if_neg (not_not.mpr hw), hw]; simp
  · rw [if_pos hw]
    by_cases hn : f.ndof2 = 0
    · rw [if_neg (not_not.mpr hn), fbil_TL, tr2_zero f p v hn, tr2_zero f p u hn]; ring
    · rw [if_pos hn, fbil_BR, fbil_BL, fbil_TR, fbil_TL]; ring

theorem fbil_interior0 (beta : K) (f : Face ι K) (v u : ι → K) :
    fbil f (interiorJump [] beta f) v u = (f.pts.map fun p => p.w * beta * (1 / 2) * p.W *
      (tr1 f p v * tr1 f p u + tr2 f p v * tr2 f p u)).sum := by
  unfold interiorJump
  rw [fbil_fold f v u _ _ _ _ _, fbil_nil, zero_add]
  intro m p
  unfold interiorJumpPt betaTerm
  simp only
  by_cases hw : p.w * beta * (1 / 2) = 0
  · rw [if_neg (not_not.mpr hw), hw]; simp
  · rw [if_pos hw, fbil_BR, fbil_TL]; ring

theorem fbil_interior1 (d : Dir) (beta : K) (f : Face ι K) (v u : ι → K) :
    fbil f (interiorJump [d] beta f) v u =
      (f.pts.map fun p => p.w * (beta * normalTerm p.nor d) * (1 / 2) *
      (tr1 f p v * tr1 f p u - tr2 f p v * tr2 f p u)).sum := by
  unfold interiorJump
  rw [fbil_fold f v u _ _ _ _ _, fbil_nil, zero_add]
  intro m p
  unfold interiorJumpPt betaTerm
  simp only
  by_cases hw : p.w * (beta * normalTerm p.nor d) * (1 / 2) = 0
  · rw [if_neg (not_not.mpr hw), hw]; simp
  · rw [if_pos hw, fbil_BR, fbil_TL]; ring

theorem fbil_interior2 (d d2 : Dir) (beta : K) (f : Face ι K) (v u : ι → K) :
    fbil f (interiorJump [d, d2] beta f) v u =
      (f.pts.map fun p => p.w * (beta * normalTerm p.nor d * normalTerm p.nor d2) * (1 / 2) / p.W *
      (tr1 f p v * tr1 f p u + tr2 f p v * tr2 f p u)).sum := by
  unfold interiorJump
  rw [fbil_fold f v u _ _ _ _ _, fbil_nil, zero_add]
  intro m p
  unfold interiorJumpPt betaTerm
  simp only
  by_cases hw : p.w * (beta * normalTerm p.nor d * normalTerm p.nor d2) * (1 / 2) = 0
  · rw [if_neg (not_not.mpr hw), hw]; simp
  · rw [if_pos hw, fbil_BR, fbil_TL]; ring

/-! ### assembled matrices -/

/-- `vᵀ A u`. -/
def form (A : Matrix ι ι K) (v u : ι → K) : K := v ⬝ᵥ A.mulVec u

lemma form_eq (A : Matrix ι ι K) (v u : ι → K) : form A v u = ∑ r, ∑ c, v r * A r c * u c := by
  unfold form dotProduct Matrix.mulVec dotProduct
  apply Finset.sum_congr rfl
  intro r _
  rw [Finset.mul_sum]
  apply Finset.sum_congr rfl
  intro c _; ring

lemma form_addSub (f : Face ι K) (m : EMat K) (A : Matrix ι ι K) (v u : ι → K) :
    form (addSub f m A) v u = form A v u + fbil f m v u := by
  rw [form_eq, form_eq]
  unfold addSub fbil bil
  have : ∀ r c, v r * (A r c + ∑ i ∈ Finset.range (f.ndof1 + f.ndof2),
      ∑ j ∈ Finset.range (f.ndof1 + f.ndof2), if f.dofs i = r ∧ f.dofs j = c then m i j else 0) * u c =
      v r * A r c * u c + ∑ i ∈ Finset.range (f.ndof1 + f.ndof2),
      ∑ j ∈ Finset.range (f.ndof1 + f.ndof2),
        if f.dofs i = r then (if f.dofs j = c then v r * m i j * u c else 0) else 0 := by
    intro r c
    rw [mul_add, add_mul, Finset.mul_sum, Finset.sum_mul]
    congr 1
    apply Finset.sum_congr rfl
    intro i _
    rw [Finset.mul_sum, Finset.sum_mul]
    apply Finset.sum_congr rfl
    intro j _
    by_cases h1 : f.dofs i = r
    · by_cases h2 : f.dofs j = c <;> simp [h1, h2]
    · simp [h1]
  simp only [this, Finset.sum_add_distrib]
  congr 1
  have swap : (∑ x : ι, ∑ c : ι, ∑ i ∈ Finset.range (f.ndof1 + f.ndof2),
      ∑ j ∈ Finset.range (f.ndof1 + f.ndof2),
        if f.dofs i = x then (if f.dofs j = c then v x * m i j * u c else 0) else 0) =
      ∑ i ∈ Finset.range (f.ndof1 + f.ndof2), ∑ j ∈ Finset.range (f.ndof1 + f.ndof2), ∑ x : ι, ∑ c : ι,
        if f.dofs i = x then (if f.dofs j = c then v x * m i j * u c else 0) else 0 := by
    have e1 : ∀ x : ι, (∑ c : ι, ∑ i ∈ Finset.range (f.ndof1 + f.ndof2),
        ∑ j ∈ Finset.range (f.ndof1 + f.ndof2),
          if f.dofs i = x then (if f.dofs j = c then v x * m i j * u c else 0) else 0) =
        ∑ i ∈ Finset.range (f.ndof1 + f.ndof2), ∑ j ∈ Finset.range (f.ndof1 + f.ndof2), ∑ c : ι,
          if f.dofs i = x then (if f.dofs j = c then v x * m i j * u c else 0) else 0 := by
      intro x
      rw [Finset.sum_comm]
      apply Finset.sum_congr rfl
      intro i _
      rw [Finset.sum_comm]
    simp only [e1]
    rw [Finset.sum_comm]
    apply Finset.sum_congr rfl
    intro i _
    rw [Finset.sum_comm]
  rw [swap]
  apply Finset.sum_congr rfl
  intro i _
  apply Finset.sum_congr rfl
  intro j _
  rw [Finset.sum_eq_single (f.dofs i)]
  · rw [Finset.sum_eq_single (f.dofs j)]
    · simp
    · intro c _ hc; simp [Ne.symm hc]
    · simp
  · intro x _ hx; simp [Ne.symm hx]
  · simp

lemma form_zero (v u : ι → K) : form (0 : Matrix ι ι K) v u = 0 := by
  unfold form; simp

lemma form_assemble (l : List (Face ι K × EMat K)) (v u : ι → K) :
    form (assemble l) v u = (l.map fun p => fbil p.1 p.2 v u).sum := by
  have : ∀ A : Matrix ι ι K, form (l.foldl (fun A p => addSub p.1 p.2 A) A) v u =
      form A v u + (l.map fun p => fbil p.1 p.2 v u).sum := by
    induction l with
    | nil => intro A; simp
    | cons p l ih =>
      intro A
      rw [List.foldl_cons, ih, form_addSub, List.map_cons, List.sum_cons]; ring
  unfold assemble
  rw [this, form_zero, zero_add]

end Dgtd.Op
