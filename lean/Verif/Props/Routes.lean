/-
C03: the two evolution operators compute the same rates of change.
-/
import Verif.Props.Energy
import Verif.Model.OpMaxwell

set_option linter.unusedSectionVars false
set_option linter.unusedSimpArgs false

namespace Dgtd.Op

open Spec

section
variable {ι K : Type} [Fintype ι] [DecidableEq ι] [Field K] [LinearOrder K] [IsStrictOrderedRing K]

lemma applyBlocks_append (a b : List (GBlock ι K)) (u : State ι K) (f : FieldT) (d : Dir) :
    applyBlocks (a ++ b) u f d = applyBlocks a u f d + applyBlocks b u f d := by
  unfold applyBlocks
  rw [List.filter_append, List.map_append, List.sum_append]

lemma applyBlocks_cons' (b : GBlock ι K) (bs : List (GBlock ι K)) (u : State ι K) (f : FieldT) (d : Dir) :
    applyBlocks (b :: bs) u f d =
      (if b.rowF = f ∧ b.rowD = d then b.sign • b.mat.mulVec (u b.colF b.colD) else 0) + applyBlocks bs u f d := by
  unfold applyBlocks
  rw [List.filter_cons]
  by_cases h : b.rowF = f ∧ b.rowD = d
  · rw [if_pos (by simpa using h), if_pos h, List.map_cons, List.sum_cons]
  · rw [if_neg (by simpa using h), if_neg h, zero_add]

lemma applyBlocks_nil (u : State ι K) (f : FieldT) (d : Dir) : applyBlocks [] u f d = (0 : ι → K) := rfl

lemma apply_zero (op : FieldT → Matrix ι ι K) (u : State ι K) (f : FieldT) (d : Dir) :
    applyBlocks (zeroBlocks op) u f d = -(op f).mulVec (u f d) := by
  unfold zeroBlocks fields dirs
  fin_cases d <;> cases f <;>
    simp [List.flatMap_cons, applyBlocks_cons', applyBlocks_nil, applyBlocks_append]

lemma apply_one (dim : Nat) (op : FieldT → Dir → Matrix ι ι K) (hz : ∀ f x, x.val ≥ dim → op f x = 0)
    (u : State ι K) (f : FieldT) (d : Dir) :
    applyBlocks (oneBlocks dim op) u f d =
      (sgn f : K) • (op f (d + 2)).mulVec (u (altField f) (d + 1)) -
      (sgn f : K) • (op f (d + 1)).mulVec (u (altField f) (d + 2)) := by
  have h0 : ∀ f, 0 ≥ dim → op f 0 = 0 := fun f h => hz f 0 h
  have h1 : ∀ f, 1 ≥ dim → op f 1 = 0 := fun f h => hz f 1 h
  have h2 : ∀ f, 2 ≥ dim → op f 2 = 0 := fun f h => hz f 2 h
  have e1 : (-1 + 2 : K) = 1 := by norm_num
  have e2 : (1 - 2 : K) = -1 := by norm_num
  have hd : dim = 0 ∨ dim = 1 ∨ dim = 2 ∨ 3 ≤ dim := by omega
  unfold oneBlocks fields dirsUpTo dirs
  rcases hd with rfl | rfl | rfl | hd
  · fin_cases d <;> cases f <;>
      simp [List.flatMap_cons, applyBlocks_cons', applyBlocks_nil, applyBlocks_append, sgn, FieldT.idx,
        altField, h0, h1, h2]
  · fin_cases d <;> cases f <;>
      simp [List.flatMap_cons, applyBlocks_cons', applyBlocks_nil, applyBlocks_append, sgn, FieldT.idx,
        altField, h1, h2, e1, e2, List.filter_cons]
  · fin_cases d <;> cases f <;>
      simp [List.flatMap_cons, applyBlocks_cons', applyBlocks_nil, applyBlocks_append, sgn, FieldT.idx,
        altField, h2, e1, e2, List.filter_cons] <;> abel
  · fin_cases d <;> cases f <;>
      simp [List.flatMap_cons, applyBlocks_cons', applyBlocks_nil, applyBlocks_append, sgn, FieldT.idx,
        altField, e1, e2, List.filter_cons, show 0 < dim by omega, show 1 < dim by omega,
        show 2 < dim by omega] <;> abel

lemma apply_two (dim : Nat) (op : FieldT → Dir → Dir → Matrix ι ι K)
    (hz : ∀ f x y, (x.val ≥ dim ∨ y.val ≥ dim) → op f x y = 0) (u : State ι K) (f : FieldT) (d : Dir) :
    applyBlocks (twoBlocks dim op) u f d =
      (op f d 0).mulVec (u f 0) + (op f d 1).mulVec (u f 1) + (op f d 2).mulVec (u f 2) := by
  have h0 : ∀ f, 0 ≥ dim → ∀ x, op f 0 x = 0 ∧ op f x 0 = 0 :=
    fun f h x => ⟨hz f 0 x (Or.inl h), hz f x 0 (Or.inr h)⟩
  have h1 : ∀ f, 1 ≥ dim → ∀ x, op f 1 x = 0 ∧ op f x 1 = 0 :=
    fun f h x => ⟨hz f 1 x (Or.inl h), hz f x 1 (Or.inr h)⟩
  have h2 : ∀ f, 2 ≥ dim → ∀ x, op f 2 x = 0 ∧ op f x 2 = 0 :=
    fun f h x => ⟨hz f 2 x (Or.inl h), hz f x 2 (Or.inr h)⟩
  have hd : dim = 0 ∨ dim = 1 ∨ dim = 2 ∨ 3 ≤ dim := by omega
  unfold twoBlocks fields dirsUpTo dirs
  rcases hd with rfl | rfl | rfl | hd
  · fin_cases d <;> cases f <;>
      simp [List.flatMap_cons, applyBlocks_cons', applyBlocks_nil, applyBlocks_append, h0, h1, h2]
  · fin_cases d <;> cases f <;>
      simp [List.flatMap_cons, applyBlocks_cons', applyBlocks_nil, applyBlocks_append, h1, h2, List.filter_cons]
  · fin_cases d <;> cases f <;>
      simp [List.flatMap_cons, applyBlocks_cons', applyBlocks_nil, applyBlocks_append, h2, List.filter_cons]
  · fin_cases d <;> cases f <;>
      simp [List.flatMap_cons, applyBlocks_cons', applyBlocks_nil, applyBlocks_append, List.filter_cons,
        show 0 < dim by omega, show 1 < dim by omega, show 2 < dim by omega] <;> abel

lemma apply_dir (P : Prob ι K) (u : State ι K) (f : FieldT) (d : Dir) :
    applyBlocks (directionalBlocks P) u f d =
      (sgn f : K) • (P.Minv f * derivativeSub P (d + 1)).mulVec (u (altField f) (d + 2)) -
      (sgn f : K) • (P.Minv f * derivativeSub P (d + 2)).mulVec (u (altField f) (d + 1)) := by
  have e1 : (-1 + 2 : K) = 1 := by norm_num
  have e2 : (1 - 2 : K) = -1 := by norm_num
  have hd : P.dim = 0 ∨ P.dim = 1 ∨ P.dim = 2 ∨ 3 ≤ P.dim := by omega
  unfold directionalBlocks fields dirsUpTo dirs
  rcases hd with hd | hd | hd | hd
  · fin_cases d <;> cases f <;>
      simp [List.flatMap_cons, applyBlocks_cons', applyBlocks_nil, applyBlocks_append, sgn, FieldT.idx,
        altField, hd, derivativeSub]
  · fin_cases d <;> cases f <;>
      simp [List.flatMap_cons, applyBlocks_cons', applyBlocks_nil, applyBlocks_append, sgn, FieldT.idx,
        altField, hd, derivativeSub, e1, e2, List.filter_cons]
  · fin_cases d <;> cases f <;>
      simp [List.flatMap_cons, applyBlocks_cons', applyBlocks_nil, applyBlocks_append, sgn, FieldT.idx,
        altField, hd, derivativeSub, e1, e2, List.filter_cons]; abel
  · fin_cases d <;> cases f <;>
      simp [List.flatMap_cons, applyBlocks_cons', applyBlocks_nil, applyBlocks_append, sgn, FieldT.idx,
        altField, derivativeSub, e1, e2, List.filter_cons, show 0 < P.dim by omega, show 1 < P.dim by omega,
        show 2 < P.dim by omega, show ¬ P.dim ≤ 2 by omega, show ¬ P.dim ≤ 1 by omega,
        show ¬ P.dim ≤ 0 by omega] <;> abel

lemma form_zero_matrix (A : Matrix ι ι K) (h : ∀ v w : ι → K, form A v w = 0) : A = 0 := by
  ext i j
  have := h (Pi.single i 1) (Pi.single j 1)
  unfold form at this
  simpa [Matrix.mulVec_single_one, single_dotProduct] using this

lemma twoNormal_comm (d d2 : Dir) (beta : K) (f : Face ι K) : twoNormal d d2 beta f = twoNormal d2 d beta f := by
  unfold twoNormal
  congr 1
  funext m p
  unfold twoNormalPt
  rw [mul_right_comm beta]

lemma twoNormalSub_comm (P : Prob ι K) (g : FieldT) (d d2 : Dir) :
    twoNormalSub P g d d2 = twoNormalSub P g d2 d := by
  unfold twoNormalSub
  simp only [twoNormal_comm d d2]

lemma interiorJump_comm (d d2 : Dir) (beta : K) (f : Face ι K) :
    interiorJump [d, d2] beta f = interiorJump [d2, d] beta f := by
  unfold interiorJump
  congr 1
  funext m p
  unfold interiorJumpPt betaTerm
  simp only
  rw [mul_right_comm beta]

lemma twoNormalIBFI_comm (P : Prob ι K) (g : FieldT) (d d2 : Dir) :
    twoNormalIBFI P g d d2 = twoNormalIBFI P g d2 d := by
  unfold twoNormalIBFI
  simp only [interiorJump_comm d d2]

/-- **C03**.  For every mesh, order, `alpha`, set of exterior and interior conditions and materials without
conductivity, the component-wise operator and the single global operator give the same rates of change for
every field.  (Part of the claim: with conductive media they differ, see `C03_conductivity_dropped`; sources
and several ranks are not covered.) -/
theorem C03_operators_agree_partial (P : Prob ι K)
    (hn : ∀ f ∈ allFaces P, ∀ p ∈ f.pts, p.nor.length = P.dim) (hs : P.Msig = 0) (u : State ι K) :
    maxwellMult P u = globalMult P u := by
  have z1 : ∀ (f : FieldT) (x : Dir), x.val ≥ P.dim → P.Minv f * oneNormalSub P (altField f) x = 0 := by
    intro f x hx
    rw [form_zero_matrix _ (van_oneSub hn (altField f) x hx), mul_zero]
  have z2 : ∀ (f : FieldT) (x y : Dir), (x.val ≥ P.dim ∨ y.val ≥ P.dim) →
      P.Minv f * twoNormalSub P f x y = 0 := by
    intro f x y hx
    rw [form_zero_matrix _ (van_twoSub hn f x y hx), mul_zero]
  have z3 : ∀ (f : FieldT) (x : Dir), x.val ≥ P.dim → P.Minv f * oneNormalIBFI P (altField f) x = 0 := by
    intro f x hx
    rw [form_zero_matrix _ (van_oneIBFI hn (altField f) x hx), mul_zero]
  have z4 : ∀ (f : FieldT) (x y : Dir), (x.val ≥ P.dim ∨ y.val ≥ P.dim) →
      P.Minv f * twoNormalIBFI P f x y = 0 := by
    intro f x y hx
    rw [form_zero_matrix _ (van_twoIBFI hn f x y hx), mul_zero]
  have hc : ∀ f d, applyBlocks (conductiveBlocks P) u f d = 0 := by
    intro f d
    unfold conductiveBlocks dirs
    rw [hs]
    simp [applyBlocks_cons', applyBlocks_nil]
  have e2 : (1 - 2 : K) = -1 := by norm_num
  funext f d
  unfold globalMult globalBlocks
  rw [applyBlocks_append, applyBlocks_append, applyBlocks_append, applyBlocks_append, applyBlocks_append, hc,
    apply_dir, apply_one _ _ z1, apply_zero, apply_two _ _ z2]
  by_cases hb : hasIntBdr P = true
  · rw [if_pos hb, applyBlocks_append, applyBlocks_append, apply_one _ _ z3, apply_zero, apply_two _ _ z4]
    cases f
    · simp only [maxwellMult, eNew, hb, if_true, addMult, MS, MFN, MFNN, MP, MFNB, MFNNB, MPB, sgn,
        FieldT.idx, altField]
      rw [twoNormalSub_comm P .E d 0, twoNormalSub_comm P .E d 1, twoNormalSub_comm P .E d 2,
        twoNormalIBFI_comm P .E d 0, twoNormalIBFI_comm P .E d 1, twoNormalIBFI_comm P .E d 2]
      simp only [Nat.cast_zero, zero_mul, sub_zero, one_smul, neg_smul, zero_add, add_zero]
      abel
    · simp only [maxwellMult, hNew, hb, if_true, addMult, MS, MFN, MFNN, MP, MFNB, MFNNB, MPB, sgn,
        FieldT.idx, altField]
      rw [twoNormalSub_comm P .H d 0, twoNormalSub_comm P .H d 1, twoNormalSub_comm P .H d 2,
        twoNormalIBFI_comm P .H d 0, twoNormalIBFI_comm P .H d 1, twoNormalIBFI_comm P .H d 2]
      simp only [Nat.cast_one, one_mul, e2, one_smul, neg_smul, zero_add, add_zero]
      abel
  · rw [if_neg hb, applyBlocks_nil]
    cases f
    · simp only [maxwellMult, eNew, hb, Bool.false_eq_true, if_false, addMult, MS, MFN, MFNN, MP, sgn, FieldT.idx, altField]
      rw [twoNormalSub_comm P .E d 0, twoNormalSub_comm P .E d 1, twoNormalSub_comm P .E d 2]
      simp only [Nat.cast_zero, zero_mul, sub_zero, one_smul, neg_smul, zero_add, add_zero]
      abel
    · simp only [maxwellMult, hNew, hb, Bool.false_eq_true, if_false, addMult, MS, MFN, MFNN, MP, sgn, FieldT.idx, altField]
      rw [twoNormalSub_comm P .H d 0, twoNormalSub_comm P .H d 1, twoNormalSub_comm P .H d 2]
      simp only [Nat.cast_one, one_mul, e2, one_smul, neg_smul, zero_add, add_zero]
      abel

end

/-- The component-wise operator ignores conductivity: on the two-element line filled with a conductor the two
operators give different rates for the same field. -/
theorem C03_conductivity_dropped :
    ∃ (P : Prob (Fin 4) ℚ) (u : State (Fin 4) ℚ), Good P (fun _ => exMass) ∧
      (∀ v, v ⬝ᵥ P.Msig.mulVec v = v ⬝ᵥ exMass.mulVec v) ∧ maxwellMult P u ≠ globalMult P u := by
  refine ⟨{ exProb 1 .PEC .SMA with Msig := exMass }, exU, ?_, fun v => rfl, ?_⟩
  · have g := exGood 1 .PEC .SMA
    exact ⟨g.dim_le, g.pts, g.sbp, g.bdr_cond, g.bdr_one_side, g.no_sgbc, g.inv, g.symm⟩
  · intro h
    have := congrFun (congrFun (congrFun h .E) 1) 0
    revert this
    decide +kernel

example : maxwellMult (exProb 1 .PEC .SMA) exU = globalMult (exProb 1 .PEC .SMA) exU :=
  C03_operators_agree_partial _
    (fun f hf p hp => ((exGood 1 .PEC .SMA).pts f hf p hp).size) rfl _

example : maxwellMult (exProb 1 .PEC .SMA) exU .E 1 ≠ 0 := by
  intro h
  have := congrFun h 0
  revert this
  decide +kernel

end Dgtd.Op
