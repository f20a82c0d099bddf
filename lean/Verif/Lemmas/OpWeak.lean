/-
The global operator row by row, with all kinds of faces.
-/
import Verif.Lemmas.NodalAssembly

set_option linter.unusedSectionVars false

namespace Dgtd.Op

open Spec

variable {ι K : Type} [Fintype ι] [DecidableEq ι] [Field K] [LinearOrder K] [IsStrictOrderedRing K]

/-- Minus the component `d` of `n × t`. -/
def crossT (n t : Dir → K) (d : Dir) : K := n (d + 2) * t (d + 1) - n (d + 1) * t (d + 2)

/-- Component `d` of the tangential part of `t`, times `W`. -/
def pen (n : Dir → K) (W : K) (t : Dir → K) (d : Dir) : K := W * t d - n d * (n 0 * t 0 + n 1 * t 1 + n 2 * t 2) / W

/-- A point of a face whose sides see each other; `v1 v2` are the traces of the test function, `a` and `b` the jumps of the other and
of the own field. -/
def plainPt (sg bf bp : K) (p : Pt K) (a b : Dir → K) (v1 v2 : K) (d : Dir) : K :=
  p.w / 2 * (sg * bf * crossT (normalTerm p.nor) a d * (v1 + v2) - bp * pen (normalTerm p.nor) p.W b d * (v1 - v2))

/-- A point of a wall: both sides on their own. -/
def wallPt (sg bf bp : K) (p : Pt K) (a1 a2 b1 b2 : Dir → K) (v1 v2 : K) (d : Dir) : K :=
  p.w / 2 * (sg * bf * (crossT (normalTerm p.nor) a1 d * v1 - crossT (normalTerm p.nor) a2 d * v2) -
    bp * (pen (normalTerm p.nor) p.W b1 d * v1 + pen (normalTerm p.nor) p.W b2 d * v2))

/-- Contribution of a face whose sides see each other. -/
def plainTerm (u : State ι K) (f : FieldT) (d : Dir) (bf bp : K) (F : Face ι K) (v : ι → K) : K :=
  (F.pts.map fun p => plainPt (sgn f) bf bp p (fun k => tr1 F p (u (altField f) k) - tr2 F p (u (altField f) k))
    (fun k => tr1 F p (u f k) - tr2 F p (u f k)) (tr1 F p v) (tr2 F p v) d).sum

/-- Contribution of a wall inside the mesh. -/
def wallTerm (u : State ι K) (f : FieldT) (d : Dir) (bf bp : K) (F : Face ι K) (v : ι → K) : K :=
  (F.pts.map fun p => wallPt (sgn f) bf bp p (fun k => tr1 F p (u (altField f) k)) (fun k => tr2 F p (u (altField f) k))
    (fun k => tr1 F p (u f k)) (fun k => tr2 F p (u f k)) (tr1 F p v) (tr2 F p v) d).sum

lemma plainTerm_eq (u : State ι K) (f : FieldT) (d : Dir) (bf bp : K) (F : Face ι K) (v : ι → K) :
    plainTerm u f d bf bp F v = faceTerm u f d bf bp F v := by
  unfold plainTerm faceTerm plainPt crossT pen
  rfl

lemma wallTerm_eq (u : State ι K) (f : FieldT) (d : Dir) (bf bp : K) (F : Face ι K) (v : ι → K) :
    (sgn f : K) * (fbil F (interiorJump [d + 2] bf F) v (u (altField f) (d + 1)) -
        fbil F (interiorJump [d + 1] bf F) v (u (altField f) (d + 2))) -
      fbil F (interiorJump [] bp F) v (u f d) +
      (fbil F (interiorJump [d, 0] bp F) v (u f 0) + fbil F (interiorJump [d, 1] bp F) v (u f 1) +
        fbil F (interiorJump [d, 2] bp F) v (u f 2)) =
    wallTerm u f d bf bp F v := by
  rw [fbil_interior1, fbil_interior1, fbil_interior0, fbil_interior2, fbil_interior2, fbil_interior2]
  unfold wallTerm wallPt crossT pen
  induction F.pts with
  | nil => simp
  | cons p l ih =>
    simp only [List.map_cons, List.sum_cons]
    rw [← ih]
    ring

/-- The curl, tested with `v`. -/
def curlTerm (P : Prob ι K) (u : State ι K) (f : FieldT) (d : Dir) (v : ι → K) : K :=
  sgn f * (form (derivativeSub P (d + 1)) v (u (altField f) (d + 2)) - form (derivativeSub P (d + 2)) v (u (altField f) (d + 1)))

/-- The losses, tested with `v`. -/
def lossTerm (P : Prob ι K) (u : State ι K) : FieldT → Dir → (ι → K) → K
  | .E, d, v => form P.Msig v (u .E d)
  | .H, _, _ => 0

/-- The right-hand side tested with `v`: what the inverse mass matrix is applied to. -/
def weak (P : Prob ι K) (u : State ι K) (f : FieldT) (d : Dir) (v : ι → K) : K :=
  curlTerm P u f d v +
  ((plainFaces P).map fun F => plainTerm u f d 1 P.alpha F v).sum +
  ((bdrFaces P).map fun q => plainTerm u f d (fluxCoeff q.1 (altField f)) (penaltyCoeff P q.1 f) q.2 v).sum +
  ((intBdrFaces P).map fun q => wallTerm u f d (fluxCoeff q.1 (altField f)) (penaltyCoeff P q.1 f) q.2 v).sum -
  lossTerm P u f d v

lemma wallRow_eq (P : Prob ι K) (u : State ι K) (f : FieldT) (d : Dir) (v : ι → K) :
    (sgn f : K) * (form (oneNormalIBFI P (altField f) (d + 2)) v (u (altField f) (d + 1)) -
        form (oneNormalIBFI P (altField f) (d + 1)) v (u (altField f) (d + 2))) -
      form (zeroNormalIBFI P f) v (u f d) +
      (form (twoNormalIBFI P f d 0) v (u f 0) + form (twoNormalIBFI P f d 1) v (u f 1) + form (twoNormalIBFI P f d 2) v (u f 2)) =
    ((intBdrFaces P).map fun q => wallTerm u f d (fluxCoeff q.1 (altField f)) (penaltyCoeff P q.1 f) q.2 v).sum := by
  rw [form_oneIBFI, form_oneIBFI, form_zeroIBFI, form_twoIBFI, form_twoIBFI, form_twoIBFI]
  simp only [← wallTerm_eq]
  induction intBdrFaces P with
  | nil => simp
  | cons q l ih => simp only [List.map_cons, List.sum_cons]; rw [← ih]; ring

/-- A row of the global operator. -/
lemma global_weak (P : Prob ι K) (hn : ∀ f ∈ allFaces P, ∀ p ∈ f.pts, p.nor.length = P.dim) (u : State ι K) (f : FieldT) (d : Dir)
    (r : ι) : globalMult P u f d r = ∑ c, P.Minv f r c * weak P u f d (Pi.single c 1) := by
  have z1 : ∀ (f : FieldT) (x : Dir), x.val ≥ P.dim → P.Minv f * oneNormalSub P (altField f) x = 0 := by
    intro f x hx
    rw [form_zero_matrix _ (van_oneSub hn (altField f) x hx), mul_zero]
  have z2 : ∀ (f : FieldT) (x y : Dir), (x.val ≥ P.dim ∨ y.val ≥ P.dim) →
      P.Minv f * twoNormalSub P f x y = 0 := by
    intro f x y hx
    rw [form_zero_matrix _ (van_twoSub hn f x y hx), mul_zero]
  have w1 : ∀ (f : FieldT) (x : Dir), x.val ≥ P.dim → P.Minv f * oneNormalIBFI P (altField f) x = 0 := by
    intro f x hx
    rw [form_zero_matrix _ (van_oneIBFI hn (altField f) x hx), mul_zero]
  have w2 : ∀ (f : FieldT) (x y : Dir), (x.val ≥ P.dim ∨ y.val ≥ P.dim) →
      P.Minv f * twoNormalIBFI P f x y = 0 := by
    intro f x y hx
    rw [form_zero_matrix _ (van_twoIBFI hn f x y hx), mul_zero]
  have hc : applyBlocks (conductiveBlocks P) u f d r = -∑ c, P.Minv f r c * lossTerm P u f d (Pi.single c 1) := by
    unfold conductiveBlocks dirs
    cases f <;> fin_cases d <;>
      simp [applyBlocks_cons', applyBlocks_nil, ← Matrix.mulVec_mulVec, lossTerm, ← mulVec_form] <;> rfl
  have e : ∀ v : ι → K, (P.Minv f).mulVec v r = ∑ c, P.Minv f r c * v c := fun v => rfl
  have hw : applyBlocks (if hasIntBdr P then
        oneBlocks P.dim (fun f x => P.Minv f * oneNormalIBFI P (altField f) x) ++
        zeroBlocks (fun f => P.Minv f * zeroNormalIBFI P f) ++
        twoBlocks P.dim (fun f d d2 => P.Minv f * twoNormalIBFI P f d d2)
      else []) u f d r = ∑ c, P.Minv f r c *
        ((intBdrFaces P).map fun q => wallTerm u f d (fluxCoeff q.1 (altField f)) (penaltyCoeff P q.1 f) q.2 (Pi.single c 1)).sum := by
    by_cases hi : hasIntBdr P = true
    · rw [if_pos hi, applyBlocks_append, applyBlocks_append, apply_one _ _ w1, apply_zero, apply_two _ _ w2]
      simp only [Pi.add_apply, Pi.sub_apply, Pi.smul_apply, Pi.neg_apply, ← Matrix.mulVec_mulVec, smul_eq_mul, e, ← wallRow_eq, mulVec_form]
      simp only [Finset.mul_sum, ← Finset.sum_sub_distrib, ← Finset.sum_add_distrib, ← Finset.sum_neg_distrib]
      exact Finset.sum_congr rfl fun c _ => by ring
    · rw [if_neg hi, intBdr_nil (by simpa using hi)]
      simp [applyBlocks_nil]
  unfold globalMult globalBlocks weak
  rw [applyBlocks_append, applyBlocks_append, applyBlocks_append, applyBlocks_append, applyBlocks_append,
    apply_dir, apply_one _ _ z1, apply_zero, apply_two _ _ z2]
  simp only [Pi.add_apply, Pi.sub_apply, Pi.smul_apply, Pi.neg_apply, hw, ← Matrix.mulVec_mulVec, smul_eq_mul, hc, e]
  have hf : ∀ c : ι, ((plainFaces P).map fun F => plainTerm u f d 1 P.alpha F (Pi.single c 1)).sum +
      ((bdrFaces P).map fun q => plainTerm u f d (fluxCoeff q.1 (altField f)) (penaltyCoeff P q.1 f) q.2 (Pi.single c 1)).sum =
      faceRow P u f d (Pi.single c 1) := by
    intro c
    simp only [plainTerm_eq]
    rfl
  simp only [add_assoc, ← add_assoc (List.sum (List.map _ (plainFaces P))), hf]
  simp only [← faceRow_eq, mulVec_form, curlTerm]
  simp only [Finset.mul_sum, ← Finset.sum_sub_distrib, ← Finset.sum_add_distrib, ← Finset.sum_neg_distrib]
  exact Finset.sum_congr rfl fun c _ => by ring

/-- With the mass matrix: the tested time derivative is the tested right-hand side. -/
lemma weak_mass (P : Prob ι K) (hn : ∀ f ∈ allFaces P, ∀ p ∈ f.pts, p.nor.length = P.dim) {M : FieldT → Matrix ι ι K}
    (hM : ∀ f, M f * P.Minv f = 1) (u : State ι K) (f : FieldT) (d : Dir) (c : ι) :
    (M f).mulVec (globalMult P u f d) c = weak P u f d (Pi.single c 1) := by
  have : globalMult P u f d = (P.Minv f).mulVec fun c => weak P u f d (Pi.single c 1) := by
    funext r
    exact global_weak P hn u f d r
  rw [this, Matrix.mulVec_mulVec, hM, Matrix.one_mulVec]

end Dgtd.Op
