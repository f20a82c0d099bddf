/-
C173: walls in planes of symmetry.
-/
import Verif.Spec.OpImage
import Verif.Lemmas.OpRecip
import Verif.Props.Frame

set_option linter.unusedSectionVars false

namespace Dgtd.Image

open Op Op.Spec TimeInt TimeInt.Spec Implicit Frame

variable {ι : Type} [Fintype ι] [DecidableEq ι]

section
variable {K : Type} [Field K] [LinearOrder K] [IsStrictOrderedRing K]

lemma msign_self (a : Dir) : mirrorSign (K := K) a a = -1 := if_pos rfl

lemma msign_ne {a d : Dir} (h : d ≠ a) : mirrorSign (K := K) a d = 1 := if_neg h

lemma msign_sq (a d : Dir) : mirrorSign (K := K) a d * mirrorSign a d = 1 := by
  unfold mirrorSign
  split_ifs <;> ring

lemma msign_next (a d : Dir) : mirrorSign (K := K) a (d + 1) * mirrorSign a (d + 2) = -mirrorSign a d := by
  fin_cases a <;> fin_cases d <;> simp [mirrorSign]

lemma wsign_sq (w : Wall) (f : FieldT) : w.sign (K := K) f * w.sign f = 1 := by
  cases w <;> cases f <;> simp [Wall.sign]

lemma wsign_alt (w : Wall) (f : FieldT) : w.sign (K := K) (altField f) = -w.sign f := by
  cases w <;> cases f <;> simp [Wall.sign, altField]

lemma normal_mirror (a : Dir) (l : List K) (d : Dir) :
    normalTerm (l.mapIdx fun i x => if i = a.val then -x else x) d = mirrorSign a d * normalTerm l d := by
  unfold normalTerm mirrorSign
  rw [List.getElem?_mapIdx]
  by_cases h : d = a
  · subst h
    cases l[d.val]? <;> simp
  · have : d.val ≠ a.val := fun e => h (Fin.ext e)
    cases l[d.val]? <;> simp [h, this]

/-! ### traces -/

lemma own_tr1 (F : Face ι K) (p : Pt K) (x y : ι → K) : tr1 (ownFace F) p (Sum.elim x y) = tr1 F p x := rfl

lemma own_tr2 (F : Face ι K) (p : Pt K) (x y : ι → K) : tr2 (ownFace F) p (Sum.elim x y) = tr2 F p x := rfl

lemma plane_tr1 (F : Face ι K) (p : Pt K) (x y : ι → K) : tr1 (planeFace F) { p with sh2 := p.sh1 } (Sum.elim x y) = tr1 F p x := by
  unfold tr1 planeFace
  refine Finset.sum_congr rfl fun i hi => ?_
  simp only [if_pos (Finset.mem_range.1 hi), Sum.elim_inl]

lemma plane_tr2 (F : Face ι K) (p : Pt K) (x y : ι → K) : tr2 (planeFace F) { p with sh2 := p.sh1 } (Sum.elim x y) = tr1 F p y := by
  unfold tr2 tr1 planeFace
  refine Finset.sum_congr rfl fun i hi => ?_
  simp

lemma tr1_mul (F : Face ι K) (p : Pt K) (c : K) (x : ι → K) : tr1 F p (fun i => c * x i) = c * tr1 F p x := by
  unfold tr1
  rw [Finset.mul_sum]
  exact Finset.sum_congr rfl fun i _ => by ring

lemma tr2_mul (F : Face ι K) (p : Pt K) (c : K) (x : ι → K) : tr2 F p (fun i => c * x i) = c * tr2 F p x := by
  unfold tr2
  rw [Finset.mul_sum]
  exact Finset.sum_congr rfl fun i _ => by ring

lemma tr1_zero (F : Face ι K) (p : Pt K) : tr1 F p (0 : ι → K) = 0 := by simp [tr1]

lemma tr2_zero (F : Face ι K) (p : Pt K) : tr2 F p (0 : ι → K) = 0 := by simp [tr2]

/-! ### vectors -/

lemma cross_mirror (a : Dir) (s : K) (n t : Dir → K) (d : Dir) :
    crossT (fun k => mirrorSign a k * n k) (fun k => -s * mirrorSign a k * t k) d = s * mirrorSign a d * crossT n t d := by
  have h := msign_next (K := K) a d
  unfold crossT
  linear_combination (-s * (n (d + 2) * t (d + 1) - n (d + 1) * t (d + 2))) * h

lemma pen_mirror (a : Dir) (s : K) (n : Dir → K) (W : K) (t : Dir → K) (d : Dir) :
    pen (fun k => mirrorSign a k * n k) W (fun k => s * mirrorSign a k * t k) d = s * mirrorSign a d * pen n W t d := by
  have e : mirrorSign a 0 * n 0 * (s * mirrorSign a 0 * t 0) + mirrorSign a 1 * n 1 * (s * mirrorSign a 1 * t 1) +
      mirrorSign a 2 * n 2 * (s * mirrorSign a 2 * t 2) = s * (n 0 * t 0 + n 1 * t 1 + n 2 * t 2) := by
    linear_combination s * n 0 * t 0 * msign_sq (K := K) a 0 + s * n 1 * t 1 * msign_sq (K := K) a 1 + s * n 2 * t 2 * msign_sq (K := K) a 2
  unfold pen
  rw [e]
  ring

/-- Along a plane nothing of the component across it counts. -/
lemma cross_plane {a : Dir} {n : Dir → K} (hn : ∀ d, d ≠ a → n d = 0) {t t' : Dir → K} (h : ∀ d, d ≠ a → t d = t' d) (d : Dir) :
    crossT n t d = crossT n t' d := by
  have k : ∀ x y : Dir, x ≠ y → n x * t y = n x * t' y := by
    intro x y hxy
    by_cases hx : x = a
    · rw [h y (fun e => hxy (hx.trans e.symm))]
    · rw [hn x hx, zero_mul, zero_mul]
  unfold crossT
  rw [k (d + 2) (d + 1) (by fin_cases d <;> decide), k (d + 1) (d + 2) (by fin_cases d <;> decide)]

lemma cross_plane_self {a : Dir} {n : Dir → K} (hn : ∀ d, d ≠ a → n d = 0) (t : Dir → K) : crossT n t a = 0 := by
  unfold crossT
  rw [hn (a + 2) (by fin_cases a <;> decide), hn (a + 1) (by fin_cases a <;> decide)]
  ring

lemma plane_dot {a : Dir} {n : Dir → K} (hn : ∀ d, d ≠ a → n d = 0) (t : Dir → K) : n 0 * t 0 + n 1 * t 1 + n 2 * t 2 = n a * t a := by
  fin_cases a
  · rw [hn 1 (by decide), hn 2 (by decide)]; ring!
  · rw [hn 0 (by decide), hn 2 (by decide)]; ring!
  · rw [hn 0 (by decide), hn 1 (by decide)]; ring!

lemma pen_plane {a : Dir} {n : Dir → K} (hn : ∀ d, d ≠ a → n d = 0) {d : Dir} (hd : d ≠ a) (W : K) (t : Dir → K) : pen n W t d = W * t d := by
  unfold pen
  rw [hn d hd]
  ring

lemma pen_plane_self {a : Dir} {n : Dir → K} (hn : ∀ d, d ≠ a → n d = 0) {W : K} (hW : W ≠ 0) (h2 : n 0 ^ 2 + n 1 ^ 2 + n 2 ^ 2 = W ^ 2)
    (t : Dir → K) : pen n W t a = 0 := by
  have h : n a * n a = W ^ 2 := by
    rw [← h2, ← plane_dot hn n]
    ring
  unfold pen
  rw [plane_dot hn, ← mul_assoc, h]
  field_simp
  ring

/-! ### faces -/

variable (a : Dir) (w : Wall) (u : State ι K) (f : FieldT) (d : Dir) (bf bp : K) (F : Face ι K) (v : ι → K)

lemma plain_own : plainTerm (unfolded a w u) f d bf bp (ownFace F) (Sum.elim v 0) = plainTerm u f d bf bp F v := rfl

lemma wall_own : wallTerm (unfolded a w u) f d bf bp (ownFace F) (Sum.elim v 0) = wallTerm u f d bf bp F v := rfl

lemma plain_none {F : Face (ι ⊕ ι) K} {x : ι ⊕ ι → K} (h1 : ∀ p, tr1 F p x = 0) (h2 : ∀ p, tr2 F p x = 0) (u : State (ι ⊕ ι) K) :
    plainTerm u f d bf bp F x = 0 := by
  unfold plainTerm plainPt
  simp [h1, h2]

lemma wall_none {F : Face (ι ⊕ ι) K} {x : ι ⊕ ι → K} (h1 : ∀ p, tr1 F p x = 0) (h2 : ∀ p, tr2 F p x = 0) (u : State (ι ⊕ ι) K) :
    wallTerm u f d bf bp F x = 0 := by
  unfold wallTerm wallPt
  simp [h1, h2]

lemma own_off1 (p : Pt K) : tr1 (ownFace F) p (Sum.elim 0 v) = 0 := tr1_zero F p
lemma own_off2 (p : Pt K) : tr2 (ownFace F) p (Sum.elim 0 v) = 0 := tr2_zero F p
lemma image_off1 (p : Pt K) : tr1 (imageFace a F) p (Sum.elim v 0) = 0 := tr1_zero F p
lemma image_off2 (p : Pt K) : tr2 (imageFace a F) p (Sum.elim v 0) = 0 := tr2_zero F p

lemma image_tr1 (p : Pt K) (l : List K) (d : Dir) :
    tr1 (imageFace a F) { p with nor := l } (unfolded a w u f d) = w.sign f * mirrorSign a d * tr1 F p (u f d) := tr1_mul F p _ _

lemma image_tr2 (p : Pt K) (l : List K) (d : Dir) :
    tr2 (imageFace a F) { p with nor := l } (unfolded a w u f d) = w.sign f * mirrorSign a d * tr2 F p (u f d) := tr2_mul F p _ _

lemma plain_image : plainTerm (unfolded a w u) f d bf bp (imageFace a F) (Sum.elim 0 v) =
    w.sign f * mirrorSign a d * plainTerm u f d bf bp F v := by
  unfold plainTerm
  show ((F.pts.map _).map _).sum = _
  rw [List.map_map, ← List.sum_map_mul_left]
  congr 1
  apply List.map_congr_left
  intro p _
  simp only [Function.comp, image_tr1, image_tr2]
  unfold plainPt
  have hn : normalTerm (p.nor.mapIdx fun i x => if i = a.val then -x else x) = fun k => mirrorSign a k * normalTerm p.nor k :=
    funext fun k => normal_mirror a p.nor k
  have hc := cross_mirror a (w.sign f) (normalTerm p.nor) (fun k => tr1 F p (u (altField f) k) - tr2 F p (u (altField f) k)) d
  have hp := pen_mirror a (w.sign f) (normalTerm p.nor) p.W (fun k => tr1 F p (u f k) - tr2 F p (u f k)) d
  simp only [hn, wsign_alt, ← mul_sub, hc, hp]
  show p.w / 2 * (_ * (tr1 F p v + tr2 F p v) - _ * (tr1 F p v - tr2 F p v)) = _
  ring

lemma wall_image : wallTerm (unfolded a w u) f d bf bp (imageFace a F) (Sum.elim 0 v) =
    w.sign f * mirrorSign a d * wallTerm u f d bf bp F v := by
  unfold wallTerm
  show ((F.pts.map _).map _).sum = _
  rw [List.map_map, ← List.sum_map_mul_left]
  congr 1
  apply List.map_congr_left
  intro p _
  simp only [Function.comp, image_tr1, image_tr2]
  unfold wallPt
  have hn : normalTerm (p.nor.mapIdx fun i x => if i = a.val then -x else x) = fun k => mirrorSign a k * normalTerm p.nor k :=
    funext fun k => normal_mirror a p.nor k
  simp only [hn, wsign_alt, cross_mirror, pen_mirror]
  show p.w / 2 * (sgn f * bf * (_ * tr1 F p v - _ * tr2 F p v) - bp * (_ * tr1 F p v + _ * tr2 F p v)) = _
  ring

/-- The coefficients of the walls. -/
lemma wall_flux (w : Wall) (f : FieldT) : fluxCoeff (K := K) w.cond (altField f) = 1 + w.sign f := by
  cases w <;> cases f <;> simp [fluxCoeff, Wall.cond, altField, bdrCoeff, Wall.sign] <;> norm_num

lemma wall_pen (w : Wall) (f : FieldT) (alpha : K) :
    (if w.cond ≠ .SMA then bdrCoeff w.cond f * alpha else 1) = (1 - w.sign f) * alpha := by
  cases w <;> cases f <;> simp [Wall.cond, bdrCoeff, Wall.sign] <;> norm_num

/-- A face in the plane. -/
lemma plain_plane (alpha : K) (hF : F.ndof2 = 0) (hn : ∀ p ∈ F.pts, ∀ d, d ≠ a → normalTerm p.nor d = 0) {dim : Nat}
    (hg : ∀ p ∈ F.pts, GeoPt dim p) (x : ι ⊕ ι → K) :
    plainTerm (unfolded a w u) f d 1 alpha (planeFace F) x =
      exteriorTerm alpha u f d (fun i => x (.inl i) + w.sign f * mirrorSign a d * x (.inr i)) (some w.cond) F := by
  have hx : x = Sum.elim (fun i => x (.inl i)) (fun i => x (.inr i)) := by
    funext i
    cases i <;> rfl
  have t2 : ∀ (p : Pt K) (y : ι → K), tr2 F p y = 0 := fun p y => by simp [tr2, hF]
  unfold exteriorTerm plainTerm
  show ((F.pts.map _).map _).sum = _
  rw [List.map_map]
  congr 1
  apply List.map_congr_left
  intro p hp
  rw [wall_flux, wall_pen]
  rw [hx]
  simp only [Function.comp, t2, unfolded, plane_tr1, plane_tr2, tr1_mul, sub_zero, Sum.elim_inl, Sum.elim_inr]
  have ht : tr1 F p (fun i => x (.inl i) + w.sign f * mirrorSign a d * x (.inr i)) =
      tr1 F p (fun i => x (.inl i)) + w.sign f * mirrorSign a d * tr1 F p (fun i => x (.inr i)) := by
    unfold tr1
    rw [Finset.mul_sum, ← Finset.sum_add_distrib]
    exact Finset.sum_congr rfl fun i _ => by ring
  have g := hg p hp
  have hc : crossT (normalTerm p.nor) (fun k => tr1 F p (u (altField f) k) - w.sign (altField f) * mirrorSign a k * tr1 F p (u (altField f) k)) d =
      (1 + w.sign f) * crossT (normalTerm p.nor) (fun k => tr1 F p (u (altField f) k)) d := by
    rw [cross_plane (hn p hp) (t' := fun k => (1 + w.sign f) * tr1 F p (u (altField f) k))]
    · unfold crossT
      ring
    · intro k hk
      rw [msign_ne hk, wsign_alt]
      ring
  have s2 := wsign_sq (K := K) w f
  unfold plainPt
  simp only [hc, ht]
  by_cases hd : d = a
  · subst hd
    rw [cross_plane_self (hn p hp), pen_plane_self (hn p hp) g.W_pos.ne' g.norm, pen_plane_self (hn p hp) g.W_pos.ne' g.norm]
    ring
  · rw [pen_plane (hn p hp) hd, pen_plane (hn p hp) hd, msign_ne hd]
    linear_combination (-(p.w / 2 * (sgn f * crossT (normalTerm p.nor) (fun k => tr1 F p (u (altField f) k)) d +
      alpha * (p.W * tr1 F p (u f d))) * tr1 F p (fun i => x (.inr i)))) * s2

lemma split_sum (x : ι ⊕ ι → K) : x = Sum.elim (fun i => x (.inl i)) (fun i => x (.inr i)) := by
  funext i
  cases i <;> rfl

lemma tr1_mix (p : Pt K) (c : K) (x y : ι → K) : tr1 F p (fun i => x i + c * y i) = tr1 F p x + c * tr1 F p y := by
  unfold tr1
  rw [Finset.mul_sum, ← Finset.sum_add_distrib]
  exact Finset.sum_congr rfl fun i _ => by ring

lemma tr2_mix (p : Pt K) (c : K) (x y : ι → K) : tr2 F p (fun i => x i + c * y i) = tr2 F p x + c * tr2 F p y := by
  unfold tr2
  rw [Finset.mul_sum, ← Finset.sum_add_distrib]
  exact Finset.sum_congr rfl fun i _ => by ring

lemma plain_mix (c : K) (x y : ι → K) : plainTerm u f d bf bp F (fun i => x i + c * y i) =
    plainTerm u f d bf bp F x + c * plainTerm u f d bf bp F y := by
  unfold plainTerm
  rw [← List.sum_map_mul_left, ← List.sum_map_add]
  congr 1
  apply List.map_congr_left
  intro p _
  simp only [tr1_mix, tr2_mix, plainPt]
  ring

lemma wall_mix (c : K) (x y : ι → K) : wallTerm u f d bf bp F (fun i => x i + c * y i) =
    wallTerm u f d bf bp F x + c * wallTerm u f d bf bp F y := by
  unfold wallTerm
  rw [← List.sum_map_mul_left, ← List.sum_map_add]
  congr 1
  apply List.map_congr_left
  intro p _
  simp only [tr1_mix, tr2_mix, wallPt]
  ring

lemma form_mix (A : Matrix ι ι K) (c : K) (x y z : ι → K) : form A (fun i => x i + c * y i) z = form A x z + c * form A y z := by
  unfold form dotProduct
  rw [Finset.mul_sum, ← Finset.sum_add_distrib]
  exact Finset.sum_congr rfl fun i _ => by ring

lemma form_blocks (A B : Matrix ι ι K) (x y x' y' : ι → K) :
    form (Matrix.fromBlocks A 0 0 B) (Sum.elim x y) (Sum.elim x' y') = form A x x' + form B y y' := by
  unfold form
  rw [Matrix.fromBlocks_mulVec]
  simp [dotProduct, Fintype.sum_sum_type]

lemma form_scale (A : Matrix ι ι K) (c e : K) (x y : ι → K) : form (c • A) x (fun i => e * y i) = c * e * form A x y := by
  have : (fun i => e * y i) = e • y := rfl
  unfold form
  rw [this, Matrix.smul_mulVec, Matrix.mulVec_smul, dotProduct_smul, dotProduct_smul, smul_eq_mul, smul_eq_mul, mul_assoc]

/-- Both faces together: the test function of the image folds back. -/
lemma plain_both (x : ι ⊕ ι → K) : plainTerm (unfolded a w u) f d bf bp (ownFace F) x + plainTerm (unfolded a w u) f d bf bp (imageFace a F) x =
    plainTerm u f d bf bp F fun i => x (.inl i) + w.sign f * mirrorSign a d * x (.inr i) := by
  rw [plain_mix, ← plain_image a w]
  rfl

lemma wall_both (x : ι ⊕ ι → K) : wallTerm (unfolded a w u) f d bf bp (ownFace F) x + wallTerm (unfolded a w u) f d bf bp (imageFace a F) x =
    wallTerm u f d bf bp F fun i => x (.inl i) + w.sign f * mirrorSign a d * x (.inr i) := by
  rw [wall_mix, ← wall_image a w]
  rfl

variable (P : Prob ι K) {plane : List (Face ι K)}

lemma curl_both (x : ι ⊕ ι → K) : curlTerm (wholeProb a P plane) (unfolded a w u) f d x =
    curlTerm (halfProb P plane w) u f d fun i => x (.inl i) + w.sign f * mirrorSign a d * x (.inr i) := by
  have hD : ∀ k, derivativeSub (wholeProb a P plane) k =
      Matrix.fromBlocks (derivativeSub P k) 0 0 ((mirrorSign a k : K) • derivativeSub P k) := by
    intro k
    unfold derivativeSub
    show (if k.val ≥ P.dim then (0 : Matrix (ι ⊕ ι) (ι ⊕ ι) K) else Matrix.fromBlocks _ _ _ _) = _
    split_ifs
    · simp
    · rfl
  have hh : ∀ k, derivativeSub (halfProb P plane w) k = derivativeSub P k := fun _ => rfl
  have e1 : mirrorSign (K := K) a (d + 1) * (w.sign (altField f) * mirrorSign a (d + 2)) = w.sign f * mirrorSign a d := by
    rw [wsign_alt]
    linear_combination -w.sign f * msign_next (K := K) a d
  have e2 : mirrorSign (K := K) a (d + 2) * (w.sign (altField f) * mirrorSign a (d + 1)) = w.sign f * mirrorSign a d := by
    rw [wsign_alt]
    linear_combination -w.sign f * msign_next (K := K) a d
  unfold curlTerm
  rw [hD, hD, hh, hh, form_mix, form_mix, split_sum x]
  unfold unfolded
  rw [form_blocks, form_blocks, form_scale, form_scale, e1, e2]
  show _ = sgn f * (form _ (fun i => x (.inl i)) _ + _ * form _ (fun i => x (.inr i)) _ - (form _ (fun i => x (.inl i)) _ + _ * form _ (fun i => x (.inr i)) _))
  ring

lemma loss_both (x : ι ⊕ ι → K) : lossTerm (wholeProb a P plane) (unfolded a w u) f d x =
    lossTerm (halfProb P plane w) u f d fun i => x (.inl i) + w.sign f * mirrorSign a d * x (.inr i) := by
  cases f
  · show form (Matrix.fromBlocks P.Msig 0 0 P.Msig) x (Sum.elim _ _) = form P.Msig _ _
    rw [form_mix]
    conv_lhs => rw [split_sum x, form_blocks, ← one_smul K P.Msig, form_scale, one_smul]
    ring
  · rfl

/-- The right-hand side in the whole body, tested, is the one in the half with the wall, tested with what folds back. -/
lemma weak_both (hp : InPlane a plane) {dim : Nat} (hg : ∀ F ∈ plane, ∀ p ∈ F.pts, GeoPt dim p) (x : ι ⊕ ι → K) :
    weak (wholeProb a P plane) (unfolded a w u) f d x =
      weak (halfProb P plane w) u f d fun i => x (.inl i) + w.sign f * mirrorSign a d * x (.inr i) := by
  rw [weak_faces, weak_faces, curl_both a w, loss_both a w]
  have hi : ((P.interior.map fun q => (q.1, ownFace q.2)).map fun q => interiorTerm P.alpha (unfolded a w u) f d x q.1 q.2).sum +
      ((P.interior.map fun q => (q.1, imageFace a q.2)).map fun q => interiorTerm P.alpha (unfolded a w u) f d x q.1 q.2).sum =
      (P.interior.map fun q => interiorTerm P.alpha u f d (fun i => x (.inl i) + w.sign f * mirrorSign a d * x (.inr i)) q.1 q.2).sum := by
    rw [List.map_map, List.map_map, ← List.sum_map_add]
    congr 1
    apply List.map_congr_left
    rintro ⟨c, F⟩ _
    cases c with
    | none => exact plain_both a w u f d _ _ F x
    | some c => cases c <;> first | exact wall_both a w u f d _ _ F x | exact add_zero _
  have he : ((P.bdr.map fun q => (q.1, ownFace q.2)).map fun q => exteriorTerm P.alpha (unfolded a w u) f d x q.1 q.2).sum +
      ((P.bdr.map fun q => (q.1, imageFace a q.2)).map fun q => exteriorTerm P.alpha (unfolded a w u) f d x q.1 q.2).sum =
      (P.bdr.map fun q => exteriorTerm P.alpha u f d (fun i => x (.inl i) + w.sign f * mirrorSign a d * x (.inr i)) q.1 q.2).sum := by
    rw [List.map_map, List.map_map, ← List.sum_map_add]
    congr 1
    apply List.map_congr_left
    rintro ⟨c, F⟩ _
    cases c with
    | none => exact add_zero _
    | some c => exact plain_both a w u f d _ _ F x
  have hl : ((plane.map fun F => ((none : Option BdrCond), planeFace F)).map fun q => interiorTerm P.alpha (unfolded a w u) f d x q.1 q.2).sum =
      ((plane.map fun F => (some w.cond, F)).map fun q =>
        exteriorTerm P.alpha u f d (fun i => x (.inl i) + w.sign f * mirrorSign a d * x (.inr i)) q.1 q.2).sum := by
    rw [List.map_map, List.map_map]
    congr 1
    apply List.map_congr_left
    intro F hF
    exact plain_plane a w u f d F P.alpha (hp F hF).1 (hp F hF).2 (hg F hF) x
  have e1 : (wholeProb a P plane).interior = P.interior.map (fun q => (q.1, ownFace q.2)) ++ P.interior.map (fun q => (q.1, imageFace a q.2)) ++
      plane.map fun F => (none, planeFace F) := rfl
  have e2 : (wholeProb a P plane).bdr = P.bdr.map (fun q => (q.1, ownFace q.2)) ++ P.bdr.map fun q => (q.1, imageFace a q.2) := rfl
  have e3 : (halfProb P plane w).bdr = plane.map (fun F => (some w.cond, F)) ++ P.bdr := rfl
  have e4 : (halfProb P plane w).interior = P.interior := rfl
  have e5 : (wholeProb a P plane).alpha = P.alpha := rfl
  have e6 : (halfProb P plane w).alpha = P.alpha := rfl
  rw [e1, e2, e3, e4, e5, e6]
  simp only [List.map_append, List.sum_append]
  rw [← hi, ← he, ← hl]
  ring

lemma nor_image {n : Nat} (l : List K) (h : l.length = n) : (l.mapIdx fun i x => if i = a.val then -x else x).length = n := by
  rw [List.length_mapIdx, h]

lemma mem_whole {G : Face (ι ⊕ ι) K} (h : G ∈ allFaces (wholeProb a P plane)) :
    (∃ F ∈ allFaces P, G = ownFace F ∨ G = imageFace a F) ∨ ∃ F ∈ plane, G = planeFace F := by
  unfold allFaces wholeProb at h
  simp only [List.map_append, List.map_map, List.mem_append, List.mem_map, Function.comp] at h
  rcases h with ((⟨q, hq, rfl⟩ | ⟨q, hq, rfl⟩) | ⟨F, hF, rfl⟩) | (⟨q, hq, rfl⟩ | ⟨q, hq, rfl⟩)
  · exact .inl ⟨q.2, List.mem_append_left _ (List.mem_map_of_mem hq), .inl rfl⟩
  · exact .inl ⟨q.2, List.mem_append_left _ (List.mem_map_of_mem hq), .inr rfl⟩
  · exact .inr ⟨F, hF, rfl⟩
  · exact .inl ⟨q.2, List.mem_append_right _ (List.mem_map_of_mem hq), .inl rfl⟩
  · exact .inl ⟨q.2, List.mem_append_right _ (List.mem_map_of_mem hq), .inr rfl⟩

lemma faces_half {w : Wall} {F : Face ι K} (h : F ∈ allFaces P) : F ∈ allFaces (halfProb P plane w) := by
  unfold allFaces halfProb
  rcases List.mem_append.1 h with h | h
  · exact List.mem_append_left _ h
  · refine List.mem_append_right _ ?_
    rw [List.map_append]
    exact List.mem_append_right _ h

lemma plane_half {w : Wall} {F : Face ι K} (h : F ∈ plane) : F ∈ allFaces (halfProb P plane w) := by
  unfold allFaces halfProb
  refine List.mem_append_right _ ?_
  rw [List.map_append, List.map_map]
  exact List.mem_append_left _ (List.mem_map.2 ⟨F, h, rfl⟩)

lemma pts_whole {w : Wall} (hg : ∀ F ∈ allFaces (halfProb P plane w), ∀ p ∈ F.pts, GeoPt P.dim p) :
    ∀ G ∈ allFaces (wholeProb a P plane), ∀ p ∈ G.pts, GeoPt P.dim p := by
  intro G hG p hp
  rcases mem_whole a P hG with ⟨F, hF, rfl | rfl⟩ | ⟨F, hF, rfl⟩
  · exact hg F (faces_half P hF) p hp
  · obtain ⟨p, hq, rfl⟩ := List.mem_map.1 hp
    have g := hg F (faces_half P hF) p hq
    refine ⟨g.W_pos, nor_image a _ g.size, ?_⟩
    simp only [normal_mirror, mul_pow]
    have : ∀ k, mirrorSign (K := K) a k ^ 2 = 1 := fun k => by rw [pow_two, msign_sq]
    simp only [this, one_mul]
    exact g.norm
  · obtain ⟨p, hq, rfl⟩ := List.mem_map.1 hp
    have g := hg F (plane_half P hF) p hq
    exact ⟨g.W_pos, g.size, g.norm⟩

/-- **C173**: fields that are symmetric about the plane change, in the whole body, like the fields in the half of it with the wall. -/
theorem C173_operator (hp : InPlane a plane) (hg : ∀ F ∈ allFaces (halfProb P plane w), ∀ p ∈ F.pts, GeoPt P.dim p) :
    globalMult (wholeProb a P plane) (unfolded a w u) = unfolded a w (globalMult (halfProb P plane w) u) := by
  funext f d i
  have hn : ∀ F ∈ allFaces (halfProb P plane w), ∀ p ∈ F.pts, p.nor.length = (halfProb P plane w).dim := fun F hF p hq => (hg F hF p hq).size
  have hn' : ∀ F ∈ allFaces (wholeProb a P plane), ∀ p ∈ F.pts, p.nor.length = (wholeProb a P plane).dim :=
    fun F hF p hq => (pts_whole a P hg F hF p hq).size
  have hpl : ∀ F ∈ plane, ∀ p ∈ F.pts, GeoPt P.dim p := fun F hF => hg F (plane_half P hF)
  rw [global_weak _ hn', Fintype.sum_sum_type]
  simp only [weak_both a w u f d P hp hpl]
  have h1 : ∀ c : ι, (fun i => (Pi.single (Sum.inl c) 1 : ι ⊕ ι → K) (.inl i) + w.sign f * mirrorSign a d * (Pi.single (Sum.inl c) 1 : ι ⊕ ι → K) (.inr i)) =
      Pi.single c 1 := by
    intro c
    funext i
    by_cases h : i = c
    · subst h; simp
    · simp [h]
  have h2 : ∀ c : ι, (fun i => (Pi.single (Sum.inr c) 1 : ι ⊕ ι → K) (.inl i) + w.sign f * mirrorSign a d * (Pi.single (Sum.inr c) 1 : ι ⊕ ι → K) (.inr i)) =
      (w.sign f * mirrorSign a d : K) • (Pi.single c 1 : ι → K) + (0 : K) • (Pi.single c 1 : ι → K) := by
    intro c
    funext i
    by_cases h : i = c
    · subst h; simp
    · simp [h]
  simp only [h1, h2, weak_lin (K := K)]
  cases i with
  | inl r =>
    show _ = globalMult (halfProb P plane w) u f d r
    rw [global_weak _ hn]
    have z : ∀ c : ι, (wholeProb a P plane).Minv f (.inl r) (.inr c) = 0 := fun _ => rfl
    simp only [z, zero_mul, Finset.sum_const_zero, add_zero]
    rfl
  | inr r =>
    show _ = w.sign f * mirrorSign a d * globalMult (halfProb P plane w) u f d r
    rw [global_weak _ hn, Finset.mul_sum]
    have z : ∀ c : ι, (wholeProb a P plane).Minv f (.inr r) (.inl c) = 0 := fun _ => rfl
    simp only [z, zero_mul, Finset.sum_const_zero, zero_add, add_zero]
    exact Finset.sum_congr rfl fun c _ => mul_left_comm _ _ _

/-- The mass matrices of the whole body. -/
def wholeMass (M : FieldT → Matrix ι ι K) : FieldT → Matrix (ι ⊕ ι) (ι ⊕ ι) K := fun f => Matrix.fromBlocks (M f) 0 0 (M f)

/-- The fields in front of the plane and behind it. -/
def front (x : State (ι ⊕ ι) K) : State ι K := fun f d i => x f d (.inl i)
@[inherit_doc front] def behind (x : State (ι ⊕ ι) K) : State ι K := fun f d i => x f d (.inr i)

lemma energy_whole (M : FieldT → Matrix ι ι K) (x : State (ι ⊕ ι) K) : energy (wholeMass M) x = energy M (front x) + energy M (behind x) := by
  have h : ∀ f d, x f d ⬝ᵥ (wholeMass M f).mulVec (x f d) = front x f d ⬝ᵥ (M f).mulVec (front x f d) + behind x f d ⬝ᵥ (M f).mulVec (behind x f d) := by
    intro f d
    have := form_blocks (M f) (M f) (front x f d) (behind x f d) (front x f d) (behind x f d)
    rw [show Sum.elim (front x f d) (behind x f d) = x f d from (split_sum (x f d)).symm] at this
    exact this
  unfold energy
  simp only [h]
  rw [← mul_add, ← Finset.sum_add_distrib]
  congr 1
  exact Finset.sum_congr rfl fun d _ => by ring

/-- **C173**: the whole body holds twice the energy of the half. -/
theorem C173_energy (M : FieldT → Matrix ι ι K) : energy (wholeMass M) (unfolded a w u) = 2 * energy M u := by
  have h : energy M (behind (unfolded a w u)) = energy M u := by
    unfold energy
    congr 1
    refine Finset.sum_congr rfl fun d _ => ?_
    have e : ∀ f, behind (unfolded a w u) f d ⬝ᵥ (M f).mulVec (behind (unfolded a w u) f d) = u f d ⬝ᵥ (M f).mulVec (u f d) := by
      intro f
      have hs : behind (unfolded a w u) f d = (w.sign f * mirrorSign a d : K) • u f d := rfl
      have h2 : (w.sign f * mirrorSign a d) * (w.sign f * mirrorSign a d) = (1 : K) := by
        linear_combination msign_sq (K := K) a d * w.sign f * w.sign f + wsign_sq (K := K) w f
      rw [hs, Matrix.mulVec_smul, smul_dotProduct, dotProduct_smul, smul_smul, h2, one_smul]
    rw [e, e]
  rw [energy_whole, h, two_mul]
  rfl

lemma boundary_own (e : Dir) (x y : ι ⊕ ι → K) : faceBoundary (ownFace F) e x y = faceBoundary F e (fun i => x (.inl i)) fun i => y (.inl i) := rfl

lemma boundary_image (e : Dir) (x y : ι ⊕ ι → K) :
    faceBoundary (imageFace a F) e x y = mirrorSign a e * faceBoundary F e (fun i => x (.inr i)) fun i => y (.inr i) := by
  unfold faceBoundary
  rw [← List.sum_map_mul_left]
  show ((F.pts.map _).map _).sum = _
  rw [List.map_map]
  congr 1
  apply List.map_congr_left
  intro p _
  simp only [Function.comp, normal_mirror]
  show p.w * (mirrorSign a e * normalTerm p.nor e) * (tr1 F p (fun i => x (.inr i)) * tr1 F p (fun i => y (.inr i)) -
    tr2 F p (fun i => x (.inr i)) * tr2 F p (fun i => y (.inr i))) = _
  ring

lemma boundary_plane (hF : F.ndof2 = 0) (hn : ∀ p ∈ F.pts, ∀ d, d ≠ a → normalTerm p.nor d = 0) (e : Dir) (x y : ι ⊕ ι → K) :
    faceBoundary (planeFace F) e x y = faceBoundary F e (fun i => x (.inl i)) (fun i => y (.inl i)) +
      mirrorSign a e * faceBoundary F e (fun i => x (.inr i)) fun i => y (.inr i) := by
  have t2 : ∀ (p : Pt K) (y : ι → K), tr2 F p y = 0 := fun p y => by simp [tr2, hF]
  unfold faceBoundary
  rw [← List.sum_map_mul_left, ← List.sum_map_add]
  show ((F.pts.map _).map _).sum = _
  rw [List.map_map]
  congr 1
  apply List.map_congr_left
  intro p hp
  rw [split_sum x, split_sum y]
  simp only [Function.comp, plane_tr1, plane_tr2, t2, Sum.elim_inl, Sum.elim_inr]
  by_cases he : e = a
  · subst he
    rw [msign_self]
    ring
  · rw [hn p hp e he]
    ring

/-- **C173**: a body whose half with the wall cannot gain energy cannot gain energy. -/
theorem C173_passive {M : FieldT → Matrix ι ι K} (hp : InPlane a plane) (h : Passive (halfProb P plane w) M) :
    Passive (wholeProb a P plane) (wholeMass M) := by
  have hgeo : ∀ F ∈ allFaces (halfProb P plane w), ∀ p ∈ F.pts, GeoPt P.dim p := fun F hF p hq => by
    have g := h.good.pts F hF p hq
    exact ⟨g.W_pos, g.size, g.norm⟩
  refine ⟨⟨h.good.dim_le, ?_, ?_, ?_, ?_, ?_, ?_, ?_⟩, h.alpha, ?_, ?_⟩
  · intro G hG p hq
    have g := pts_whole a P hgeo G hG p hq
    refine ⟨?_, g.W_pos, g.size, g.norm⟩
    rcases mem_whole a P hG with ⟨F, hF, rfl | rfl⟩ | ⟨F, hF, rfl⟩
    · exact (h.good.pts F (faces_half P hF) p hq).w_nonneg
    · obtain ⟨p, hm, rfl⟩ := List.mem_map.1 hq
      exact (h.good.pts F (faces_half P hF) p hm).w_nonneg
    · obtain ⟨p, hm, rfl⟩ := List.mem_map.1 hq
      exact (h.good.pts F (plane_half P hF) p hm).w_nonneg
  · intro e he x y
    have h1 := h.good.sbp e he (fun i => x (.inl i)) fun i => y (.inl i)
    have h2 := h.good.sbp e he (fun i => x (.inr i)) fun i => y (.inr i)
    have ha : ∀ x y : ι ⊕ ι → K, form (Matrix.fromBlocks (P.D e) 0 0 ((mirrorSign a e : K) • P.D e)) x y =
        form (P.D e) (fun i => x (.inl i)) (fun i => y (.inl i)) + mirrorSign a e * form (P.D e) (fun i => x (.inr i)) (fun i => y (.inr i)) := by
      intro x y
      conv_lhs => rw [split_sum x, split_sum y]
      rw [form_blocks]
      have := form_scale (P.D e) (mirrorSign a e) 1 (fun i => x (.inr i)) fun i => y (.inr i)
      simp only [one_mul, mul_one] at this
      rw [this]
    show form (Matrix.fromBlocks (P.D e) 0 0 ((mirrorSign a e : K) • P.D e)) x y +
      form (Matrix.fromBlocks (P.D e) 0 0 ((mirrorSign a e : K) • P.D e)) y x = _
    rw [ha, ha]
    have hs : ∀ z z' : ι → K, ((allFaces (halfProb P plane w)).map fun F => faceBoundary F e z z').sum =
        (P.interior.map fun q => faceBoundary q.2 e z z').sum + ((plane.map fun F => faceBoundary F e z z').sum +
          (P.bdr.map fun q => faceBoundary q.2 e z z').sum) := by
      intro z z'
      unfold allFaces halfProb
      simp only [List.map_append, List.map_map, List.sum_append]
      rfl
    have hw : ((allFaces (wholeProb a P plane)).map fun F => faceBoundary F e x y).sum =
        ((P.interior.map fun q => faceBoundary (ownFace q.2) e x y).sum + (P.interior.map fun q => faceBoundary (imageFace a q.2) e x y).sum +
          (plane.map fun F => faceBoundary (planeFace F) e x y).sum) +
        ((P.bdr.map fun q => faceBoundary (ownFace q.2) e x y).sum + (P.bdr.map fun q => faceBoundary (imageFace a q.2) e x y).sum) := by
      unfold allFaces wholeProb
      simp only [List.map_append, List.map_map, List.sum_append]
      rfl
    have hpl : (plane.map fun F => faceBoundary (planeFace F) e x y).sum =
        (plane.map fun F => faceBoundary F e (fun i => x (.inl i)) fun i => y (.inl i)).sum +
          mirrorSign a e * (plane.map fun F => faceBoundary F e (fun i => x (.inr i)) fun i => y (.inr i)).sum := by
      rw [← List.sum_map_mul_left, ← List.sum_map_add]
      congr 1
      apply List.map_congr_left
      intro F hF
      exact boundary_plane a F (hp F hF).1 (hp F hF).2 e x y
    rw [hs] at h1 h2
    rw [hw, hpl]
    simp only [boundary_own, boundary_image, List.sum_map_mul_left]
    have h1' : form (P.D e) (fun i => x (.inl i)) (fun i => y (.inl i)) + form (P.D e) (fun i => y (.inl i)) (fun i => x (.inl i)) = _ := h1
    have h2' : form (P.D e) (fun i => x (.inr i)) (fun i => y (.inr i)) + form (P.D e) (fun i => y (.inr i)) (fun i => x (.inr i)) = _ := h2
    linear_combination h1' + mirrorSign a e * h2'
  · intro q hq
    rcases List.mem_append.1 hq with hq | hq <;> obtain ⟨q, hm, rfl⟩ := List.mem_map.1 hq <;>
      exact h.good.bdr_cond q (List.mem_append_right _ hm)
  · intro q hq
    rcases List.mem_append.1 hq with hq | hq <;> obtain ⟨q, hm, rfl⟩ := List.mem_map.1 hq <;>
      exact h.good.bdr_one_side q (List.mem_append_right _ hm)
  · intro q hq
    rcases List.mem_append.1 hq with hq | hq
    · rcases List.mem_append.1 hq with hq | hq <;> obtain ⟨q, hm, rfl⟩ := List.mem_map.1 hq <;> exact h.good.no_sgbc q hm
    · obtain ⟨q, hm, rfl⟩ := List.mem_map.1 hq
      simp
  · intro f
    have : M f * P.Minv f = 1 := h.good.inv f
    show Matrix.fromBlocks (M f) 0 0 (M f) * Matrix.fromBlocks (P.Minv f) 0 0 (P.Minv f) = 1
    rw [Matrix.fromBlocks_multiply]
    simp [this]
  · intro f
    show (Matrix.fromBlocks (M f) 0 0 (M f)).transpose = Matrix.fromBlocks (M f) 0 0 (M f)
    rw [Matrix.fromBlocks_transpose, h.good.symm]
    simp
  · intro x
    show 0 ≤ form (Matrix.fromBlocks P.Msig 0 0 P.Msig) x x
    rw [split_sum x, form_blocks]
    exact add_nonneg (h.sig _) (h.sig _)
  · intro x hx
    have nn : ∀ y : State ι K, 0 ≤ energy M y := by
      intro y
      by_cases hy : y = 0
      · subst hy
        simp [energy]
      · exact (h.pos y hy).le
    rw [energy_whole]
    by_cases h1 : front x = 0
    · refine add_pos_of_nonneg_of_pos (nn _) (h.pos _ fun h2 => hx ?_)
      funext f d i
      cases i with
      | inl i => exact congrFun (congrFun (congrFun h1 f) d) i
      | inr i => exact congrFun (congrFun (congrFun h2 f) d) i
    · exact add_pos_of_pos_of_nonneg (h.pos _ h1) (nn _)

end

/-- Unfolding as a linear map. -/
noncomputable def unfoldedL (a : Dir) (w : Wall) : (Slot ι → ℝ) →ₗ[ℝ] (Slot (ι ⊕ ι) → ℝ) where
  toFun x := flat (unfolded a w (unflat x))
  map_add' x y := by
    funext ⟨f, d, i⟩
    cases i
    · rfl
    · exact mul_add _ _ _
  map_smul' c x := by
    funext ⟨f, d, i⟩
    cases i
    · rfl
    · exact mul_left_comm _ _ _

/-- **C173**: with every integrator, any steps and any symmetric sources, the run in the whole body from symmetric fields is the run in
the half of it with the wall, unfolded. -/
theorem C173_run (q : Sdirk ℝ) (hq : Ideal33 q) (a : Dir) (w : Wall) (P : Prob ι ℝ) (plane : List (Face ι ℝ)) (hp : InPlane a plane)
    (M : FieldT → Matrix ι ι ℝ) (hP : Passive (halfProb P plane w) M)
    (A : Matrix (Slot ι) (Slot ι) ℝ) (hA : ∀ u : State ι ℝ, A.mulVec (flat u) = flat (globalMult (halfProb P plane w) u))
    (A' : Matrix (Slot (ι ⊕ ι)) (Slot (ι ⊕ ι)) ℝ) (hA' : ∀ u : State (ι ⊕ ι) ℝ, A'.mulVec (flat u) = flat (globalMult (wholeProb a P plane) u))
    (src : ℝ → State ι ℝ) (o : Ode) (dts : List ℝ) (hdts : ∀ dt ∈ dts, 0 ≤ dt) (u : State ι ℝ) (t : ℝ) :
    ∃ y c c', run q o (globalTdo A fun t => flat (src t)) dts (flat u) t fresh = some (flat y, t + dts.sum, c) ∧
      run q o (globalTdo A' fun t => flat (unfolded a w (src t))) dts (flat (unfolded a w u)) t fresh =
        some (flat (unfolded a w y), t + dts.sum, c') :=
  run_images hq hP (C173_passive a w P hp hP) hA hA' (L := unfoldedL a w)
    (by
      intro u
      show flat (unfolded a w (globalMult (halfProb P plane w) u)) = flat (globalMult (wholeProb a P plane) (unfolded a w u))
      rw [C173_operator a w u P hp]
      intro F hF p hq
      have g := hP.good.pts F hF p hq
      exact ⟨g.W_pos, g.size, g.norm⟩)
    (fun _ => rfl) o dts hdts u t

/-! ### the two-element line, unfolded about its left end -/

/-- The line without its left end. -/
def openLine (K : Type) [Field K] (alpha : K) (mid : Option BdrCond) (right : BdrCond) : Prob (Fin 4) K :=
  { line K alpha mid .PEC right with bdr := [(some right, lineR K)] }

lemma line_half {K : Type} [Field K] (alpha : K) (mid : Option BdrCond) (right : BdrCond) (w : Wall) :
    halfProb (openLine K alpha mid right) [lineL K] w = line K alpha mid w.cond right := rfl

lemma line_plane {K : Type} [Field K] : InPlane 0 [lineL K] := by
  intro F hF
  rw [List.mem_singleton] at hF
  subst hF
  refine ⟨rfl, ?_⟩
  intro p hp d hd
  simp only [lineL, List.mem_singleton] at hp
  subst hp
  fin_cases d
  · exact absurd rfl hd
  · rfl
  · rfl

example (q : Sdirk ℝ) (hq : Ideal33 q) (w : Wall) (A : Matrix (Slot (Fin 4)) (Slot (Fin 4)) ℝ)
    (hA : ∀ u : State (Fin 4) ℝ, A.mulVec (flat u) = flat (globalMult (line ℝ 1 none w.cond .SMA) u))
    (A' : Matrix (Slot (Fin 4 ⊕ Fin 4)) (Slot (Fin 4 ⊕ Fin 4)) ℝ)
    (hA' : ∀ u : State (Fin 4 ⊕ Fin 4) ℝ, A'.mulVec (flat u) = flat (globalMult (wholeProb 0 (openLine ℝ 1 none .SMA) [lineL ℝ]) u))
    (src : ℝ → State (Fin 4) ℝ) (u : State (Fin 4) ℝ) (o : Ode) :
    ∃ y c c', run q o (globalTdo A fun t => flat (src t)) [0.1, 0.2] (flat u) 0 fresh = some (flat y, 0 + [0.1, 0.2].sum, c) ∧
      run q o (globalTdo A' fun t => flat (unfolded 0 w (src t))) [0.1, 0.2] (flat (unfolded 0 w u)) 0 fresh =
        some (flat (unfolded 0 w y), 0 + [0.1, 0.2].sum, c') :=
  C173_run q hq 0 w (openLine ℝ 1 none .SMA) [lineL ℝ] line_plane (fun _ => lineMass ℝ)
    (by rw [line_half]; exact line_passive 1 (by norm_num) none (by simp) _ _) A hA A' hA' src o _ (by
      intro dt h
      simp only [List.mem_cons, List.not_mem_nil, or_false] at h
      rcases h with rfl | rfl <;> norm_num) u 0

/-- An absorbing end stands for no symmetry: neither unfolding of the fields `E_y = (1, 2, 3, 5)` of the half with it solves the whole. -/
theorem C173_absorbing_fails : ∀ w : Wall,
    globalMult (wholeProb 0 (openLine ℚ 1 none .SMA) [lineL ℚ]) (unfolded 0 w lineU) ≠ unfolded 0 w (globalMult (line ℚ 1 none .SMA .SMA) lineU) := by
  intro w h
  rw [C173_operator 0 w lineU (openLine ℚ 1 none .SMA) line_plane (by
    rw [line_half]
    intro F hF p hp
    have g := line_size (1 : ℚ) none w.cond .SMA F hF p hp
    exact ⟨g.W_pos, g.size, g.norm⟩), line_half] at h
  have h1 := congrFun (congrFun (congrFun h .E) 1) (.inl 0)
  have h2 := congrFun (congrFun (congrFun h .H) 2) (.inl 0)
  cases w
  · revert h1; decide +kernel
  · revert h2; decide +kernel

end Dgtd.Image
