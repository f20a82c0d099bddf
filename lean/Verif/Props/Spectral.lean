/-
C114: the spectral matrix is that of the evolved operator.  C115: so is the matrix of the estimator.  C116: the largest
modulus.  C117: the option `spectral`.
-/
import Verif.Model.Spectral
import Verif.Spec.Spectral
import Verif.Props.Routes

set_option linter.unusedSectionVars false
set_option linter.unusedSimpArgs false

namespace Dgtd.Spectral

open Dgtd.Op Dgtd.Op.Spec Spec

section assembly
variable {ι K : Type} [Fintype ι] [DecidableEq ι] [Field K] [LinearOrder K] [IsStrictOrderedRing K]

lemma blockNo_inj (f g : FieldT) (d e : Dir) : 3 * f.idx + d.val = 3 * g.idx + e.val ↔ f = g ∧ d = e := by
  constructor
  · intro h
    have h1 := d.isLt
    have h2 := e.isLt
    cases f <;> cases g <;> simp only [FieldT.idx] at h <;>
      first
        | exact ⟨rfl, Fin.ext (by omega)⟩
        | omega
  · rintro ⟨rfl, rfl⟩; rfl

/-- Adding a block adds its product. -/
lemma mul_addBlock (B : Matrix ι ι K) (fr : FieldT) (dr : Dir) (fc : FieldT) (dc : Dir) (A : Big ι K) (u : State ι K)
    (f : FieldT) (d : Dir) :
    (addBlock B fr dr fc dc A).mul u f d = A.mul u f d + if f = fr ∧ d = dr then B.mulVec (u fc dc) else 0 := by
  unfold Big.mul addBlock
  simp only [blockNo_inj]
  by_cases h : f = fr ∧ d = dr
  · simp only [h, and_self, true_and, if_true, fields, dirs, List.flatMap_cons, List.flatMap_nil, List.map_cons,
      List.map_nil, List.cons_append, List.nil_append, List.append_nil, List.sum_cons, List.sum_nil]
    cases fc <;> fin_cases dc <;> simp [Matrix.add_mulVec] <;> abel
  · simp only [h, false_and, if_false, add_zero]

lemma mul_zeroBig (u : State ι K) (f : FieldT) (d : Dir) : (Big.mul (fun _ _ => 0) u f d : ι → K) = 0 := by
  simp [Big.mul, fields, dirs, List.flatMap_cons]

lemma allocate_eq (B : Matrix ι ι K) (f g : FieldT) (d e : Dir) (s : K) (A : Big ι K) :
    allocate B (f, g) (d, some e) s A = addBlock (s • B) f d g e A := rfl

lemma allocate_one (B : Matrix ι ι K) (f g : FieldT) (d : Dir) (s : K) (A : Big ι K) :
    allocate B (f, g) (d, none) s A = addBlock (s • B) f d f d A := rfl

/-- **C114**.  With upwind fluxes, the matrix assembled for the spectral analysis is the evolution operator of the same
mesh, for every field. -/
theorem C114_matrix_partial (P : Prob ι K) (ha : 0 < P.alpha) (hb : hasIntBdr P = false) (u : State ι K) :
    (spectralMatrix P).mul u = maxwellMult P u := by
  funext f d
  unfold spectralMatrix dirs
  simp only [callsFor, if_pos ha, List.flatMap_cons, List.flatMap_nil, List.cons_append, List.nil_append,
    List.append_nil, List.foldl_cons, List.foldl_nil, allocate_eq, allocate_one, mul_addBlock, mul_zeroBig]
  cases f
  · simp only [maxwellMult, eNew, hb, Bool.false_eq_true, if_false, addMult, MS, MFN, MFNN, MP]
    fin_cases d
    · simp [twoNormalSub_comm P .E 0 1, twoNormalSub_comm P .E 0 2, Matrix.smul_mulVec, Matrix.neg_mulVec]
      abel
    · simp [twoNormalSub_comm P .E 1 0, twoNormalSub_comm P .E 1 2, Matrix.smul_mulVec, Matrix.neg_mulVec,
        show (1 : Fin 3) + 1 = 2 from rfl, show (1 : Fin 3) + 2 = 0 from rfl]
      abel
    · simp [twoNormalSub_comm P .E 2 0, twoNormalSub_comm P .E 2 1, Matrix.smul_mulVec, Matrix.neg_mulVec,
        show (2 : Fin 3) + 1 = 0 from rfl, show (2 : Fin 3) + 2 = 1 from rfl]
      abel
  · simp only [maxwellMult, hNew, hb, Bool.false_eq_true, if_false, addMult, MS, MFN, MFNN, MP]
    fin_cases d
    · simp [twoNormalSub_comm P .H 0 1, twoNormalSub_comm P .H 0 2, Matrix.smul_mulVec, Matrix.neg_mulVec]
      abel
    · simp [twoNormalSub_comm P .H 1 0, twoNormalSub_comm P .H 1 2, Matrix.smul_mulVec, Matrix.neg_mulVec,
        show (1 : Fin 3) + 1 = 2 from rfl, show (1 : Fin 3) + 2 = 0 from rfl]
      abel
    · simp [twoNormalSub_comm P .H 2 0, twoNormalSub_comm P .H 2 1, Matrix.smul_mulVec, Matrix.neg_mulVec,
        show (2 : Fin 3) + 1 = 0 from rfl, show (2 : Fin 3) + 2 = 1 from rfl]
      abel

/-- The matrix of the estimator acting on a field. -/
lemma est_mul (P : Prob ι K) (u : State ι K) (f : FieldT) (d : Dir) :
    (estMatrix P).mul u f d =
      (if d = 2 then 0 else (P.Minv f * zeroNormalSub P f).mulVec (u f d)) -
      (P.Minv f * twoNormalSub P (altField f) 0 d).mulVec (u f 0) -
      (P.Minv f * twoNormalSub P (altField f) 1 d).mulVec (u f 1) +
      (sgn f : K) • ((P.Minv f * derivativeSub P (d + 1)).mulVec (u (altField f) (d + 2)) -
        (P.Minv f * derivativeSub P (d + 2)).mulVec (u (altField f) (d + 1))) +
      (sgn f : K) • ((P.Minv f * oneNormalSub P (altField f) (d + 1)).mulVec (u (altField f) (d + 2)) -
        (P.Minv f * oneNormalSub P (altField f) (d + 2)).mulVec (u (altField f) (d + 1))) := by
  have e2 : (1 - 2 : K) = -1 := by norm_num
  unfold estMatrix fields
  simp only [estPenalty, estCurl, dirs, List.foldl_cons, List.foldl_nil, mul_addBlock, mul_zeroBig]
  cases f
  · fin_cases d <;>
      simp [sgn, FieldT.idx, altField, Matrix.neg_mulVec, show (1 : Fin 3) + 1 = 2 from rfl, show (1 : Fin 3) + 2 = 0 from rfl,
        show (2 : Fin 3) + 1 = 0 from rfl, show (2 : Fin 3) + 2 = 1 from rfl] <;> abel
  · fin_cases d <;>
      simp [sgn, FieldT.idx, altField, e2, Matrix.neg_mulVec, show (1 : Fin 3) + 1 = 2 from rfl,
        show (1 : Fin 3) + 2 = 0 from rfl, show (2 : Fin 3) + 1 = 0 from rfl, show (2 : Fin 3) + 2 = 1 from rfl] <;> abel

/-- The evolved operator in the same form. -/
lemma evolved_mul (P : Prob ι K) (hb : hasIntBdr P = false) (u : State ι K) (f : FieldT) (d : Dir) :
    maxwellMult P u f d =
      -(P.Minv f * zeroNormalSub P f).mulVec (u f d) +
      (P.Minv f * twoNormalSub P f 0 d).mulVec (u f 0) +
      (P.Minv f * twoNormalSub P f 1 d).mulVec (u f 1) +
      (P.Minv f * twoNormalSub P f 2 d).mulVec (u f 2) +
      (sgn f : K) • ((P.Minv f * derivativeSub P (d + 1)).mulVec (u (altField f) (d + 2)) -
        (P.Minv f * derivativeSub P (d + 2)).mulVec (u (altField f) (d + 1))) -
      (sgn f : K) • ((P.Minv f * oneNormalSub P (altField f) (d + 1)).mulVec (u (altField f) (d + 2)) -
        (P.Minv f * oneNormalSub P (altField f) (d + 2)).mulVec (u (altField f) (d + 1))) := by
  have e2 : (1 - 2 : K) = -1 := by norm_num
  cases f
  · simp only [maxwellMult, eNew, hb, Bool.false_eq_true, if_false, addMult, MS, MFN, MFNN, MP, sgn, FieldT.idx, altField]
    simp only [Nat.cast_zero, zero_mul, sub_zero, one_smul, neg_smul, zero_add, add_zero]
    abel
  · simp only [maxwellMult, hNew, hb, Bool.false_eq_true, if_false, addMult, MS, MFN, MFNN, MP, sgn, FieldT.idx, altField]
    simp only [Nat.cast_one, one_mul, e2, one_smul, neg_smul, zero_add, add_zero]
    abel

/-- **C115**, partial.  For an element without conditions on its faces, as the optimisation manager makes them, the matrix
of the estimator is the evolution operator. -/
theorem C115_isolated_partial (P : Prob ι K) (hi : P.interior = []) (hb : ∀ q ∈ P.bdr, q.1 = none) (u : State ι K) :
    (estMatrix P).mul u = maxwellMult P u := by
  have h1 : plainFaces P = [] := by unfold plainFaces; rw [hi]; rfl
  have h2 : bdrFaces P = [] := by
    unfold bdrFaces
    rw [List.filterMap_eq_nil_iff]
    intro q hq
    rw [hb q hq]; rfl
  have h3 : hasIntBdr P = false := by unfold hasIntBdr; rw [hi]; rfl
  have z0 : ∀ f, zeroNormalSub P f = 0 := by intro f; unfold zeroNormalSub; rw [h1, h2]; rfl
  have z1 : ∀ f d, oneNormalSub P f d = 0 := by intro f d; unfold oneNormalSub; rw [h1, h2]; rfl
  have z2 : ∀ f d e, twoNormalSub P f d e = 0 := by intro f d e; unfold twoNormalSub; rw [h1, h2]; rfl
  funext f d
  rw [est_mul, evolved_mul P h3]
  simp only [z0, z1, z2, Matrix.mul_zero, Matrix.zero_mulVec, ite_self]
  simp

lemma assemble_zero (l : List (Face ι K × EMat K)) (h : ∀ q ∈ l, q.2 = fun _ _ => 0) : assemble l = 0 := by
  apply form_zero_matrix
  intro v w
  rw [form_assemble]
  induction l with
  | nil => rfl
  | cons q l ih =>
    rw [List.map_cons, List.sum_cons, ih fun q hq => h q (by simp [hq]), h q (by simp), fbil_nil, add_zero]

lemma zeroNormal_zero (F : Face ι K) : zeroNormal 0 F = fun _ _ => 0 := by
  unfold zeroNormal
  have : zeroNormalPt (0 : K) F = fun m _ => m := by funext m p; simp [zeroNormalPt]
  rw [this]
  induction F.pts with
  | nil => rfl
  | cons p l ih => rw [List.foldl_cons]; exact ih

lemma twoNormal_zero (d e : Dir) (F : Face ι K) : twoNormal d e 0 F = fun _ _ => 0 := by
  unfold twoNormal
  have : twoNormalPt d e (0 : K) F = fun m _ => m := by funext m p; simp [twoNormalPt]
  rw [this]
  induction F.pts with
  | nil => rfl
  | cons p l ih => rw [List.foldl_cons]; exact ih

/-- **C115** violated, for every case with centred fluxes and without absorbing faces: the estimator has the fluxes of the
evolved operator with the opposite sign, so that the sum of both is twice the curl without fluxes. -/
theorem C115_fluxes_reversed (P : Prob ι K) (ha : P.alpha = 0) (hs : ∀ q ∈ bdrFaces P, q.1 ≠ .SMA) (hb : hasIntBdr P = false)
    (u : State ι K) (f : FieldT) (d : Dir) :
    (estMatrix P).mul u f d + maxwellMult P u f d =
      (2 : K) • (sgn f : K) • ((P.Minv f).mulVec ((derivativeSub P (d + 1)).mulVec (u (altField f) (d + 2)) -
        (derivativeSub P (d + 2)).mulVec (u (altField f) (d + 1)))) := by
  have pc : ∀ q ∈ bdrFaces P, ∀ f, penaltyCoeff P q.1 f = 0 := by
    intro q hq f
    unfold penaltyCoeff
    rw [if_pos (hs q hq), ha, mul_zero]
  have z0 : ∀ f, zeroNormalSub P f = 0 := by
    intro f
    apply assemble_zero
    intro q hq
    rw [List.mem_append, List.mem_map, List.mem_map] at hq
    rcases hq with ⟨F, _, rfl⟩ | ⟨q', hq', rfl⟩
    · simp only [ha]; exact zeroNormal_zero F
    · simp only [pc q' hq' f]; exact zeroNormal_zero _
  have z2 : ∀ f d e, twoNormalSub P f d e = 0 := by
    intro f d e
    apply assemble_zero
    intro q hq
    rw [List.mem_append, List.mem_map, List.mem_map] at hq
    rcases hq with ⟨F, _, rfl⟩ | ⟨q', hq', rfl⟩
    · simp only [ha]; exact twoNormal_zero d e F
    · simp only [pc q' hq' f]; exact twoNormal_zero d e _
  rw [est_mul, evolved_mul P hb]
  simp only [z0, z2, Matrix.mul_zero, Matrix.zero_mulVec, ite_self, Matrix.mulVec_sub, Matrix.mulVec_mulVec]
  funext i
  simp only [Pi.add_apply, Pi.sub_apply, Pi.smul_apply, Pi.neg_apply, Pi.zero_apply, smul_eq_mul]
  ring

end assembly

/-! ### One element of order zero on a line with absorbing ends -/

section example1

def endPt (n : ℚ) : Pt ℚ := { w := 1, W := 1, nor := [n], sh1 := fun _ => 1, sh2 := fun _ => 0 }

def endFace (n : ℚ) : Face (Fin 1) ℚ := { ndof1 := 1, ndof2 := 0, dofs := fun _ => 0, pts := [endPt n] }

def one (alpha : ℚ) : Prob (Fin 1) ℚ :=
  { dim := 1, alpha := alpha, interior := [], bdr := [(some .SMA, endFace (-1)), (some .SMA, endFace 1)]
    Minv := fun _ => 1, Msig := 0, D := fun _ => 0 }

lemma oneGood (alpha : ℚ) : Good (one alpha) (fun _ => 1) := by
  refine ⟨by simp [one], ?_, ?_, ?_, ?_, ?_, ?_, ?_⟩
  · intro f hf p hp
    simp only [allFaces, one, List.map_cons, List.map_nil, List.nil_append, List.mem_cons, List.not_mem_nil, or_false] at hf
    rcases hf with rfl | rfl <;> simp only [endFace, List.mem_singleton] at hp <;> subst hp <;>
      constructor <;> simp [endPt, normalTerm, one]
  · intro d hd v u
    have : d = 0 := by apply Fin.ext; simp [one] at hd; simp [hd]
    subst this
    simp [allFaces, one, faceBoundary, endFace, endPt, tr1, tr2, normalTerm]
  · intro q hq; simp [one] at hq; rcases hq with rfl | rfl <;> simp
  · intro q hq; simp [one] at hq; rcases hq with rfl | rfl <;> simp [endFace]
  · intro q hq; simp [one] at hq
  · intro f; simp [one]
  · intro f; simp

/-- The field `E_y = 1`. -/
def oneU : State (Fin 1) ℚ
  | .E, d => if d = 1 then fun _ => 1 else 0
  | .H, _ => 0

/-- **C114** violated with centred fluxes: absorbing faces keep their penalty in the evolved operator and lose it in the
spectral matrix, which then misses all the damping. -/
theorem C114_violated_centred : ∃ (P : Prob (Fin 1) ℚ) (u : State (Fin 1) ℚ), Good P (fun _ => 1) ∧ P.alpha = 0 ∧
    hasIntBdr P = false ∧ (spectralMatrix P).mul u .E 1 0 = 0 ∧ maxwellMult P u .E 1 0 = -1 :=
  ⟨one 0, oneU, oneGood 0, rfl, by decide +kernel, by decide +kernel, by decide +kernel⟩

/-- **C115** violated: for an element with absorbing faces, whose fields decay, the estimator has a growing mode. -/
theorem C115_violated_growth : ∃ (P : Prob (Fin 1) ℚ) (u : State (Fin 1) ℚ), Good P (fun _ => 1) ∧ u ≠ 0 ∧
    (∀ f d i, (estMatrix P).mul u f d i = 1 * u f d i) ∧ ∀ f d i, maxwellMult P u f d i = -1 * u f d i :=
  ⟨one 1, oneU, oneGood 1, fun h => by
    have := congrFun (congrFun (congrFun h .E) 1) 0
    simp [oneU] at this, by
    intro f d i; fin_cases i; cases f <;> fin_cases d <;> decide +kernel, by
    intro f d i; fin_cases i; cases f <;> fin_cases d <;> decide +kernel⟩

example : (spectralMatrix (one 1)).mul oneU = maxwellMult (one 1) oneU ∧ maxwellMult (one 1) oneU .E 1 0 = -1 :=
  ⟨C114_matrix_partial _ (by decide +kernel) (by decide +kernel) _, by decide +kernel⟩

/-- A linear element without conditions. -/
def alone : Prob (Fin 4) ℚ := { exProb 1 .PEC .PEC with interior := [], bdr := [(none, exL)] }

example : (estMatrix alone).mul exU = maxwellMult alone exU ∧ maxwellMult alone exU .E 1 0 ≠ 0 :=
  ⟨C115_isolated_partial alone rfl (by simp [alone]) _, by decide +kernel⟩

example : (estMatrix (exProb 0 .PEC .PMC)).mul exU .E 1 0 ≠ maxwellMult (exProb 0 .PEC .PMC) exU .E 1 0 := by
  decide +kernel

end example1

/-! ### Largest modulus -/

lemma modulus_eq (z : ℂ) : modulus z = ‖z‖ := by
  unfold modulus
  rw [Complex.norm_eq_sqrt_sq_add_sq]

/-- **C116**, the optimisation manager: the value returned is one of the eigenvalues and none is larger. -/
theorem C116_highest (evs : List ℂ) (h : evs ≠ []) : IsLargest ‖calcHighestModulus evs‖ evs ∧
    (calcHighestModulus evs ∈ evs ∨ ∀ z ∈ evs, z = 0) := by
  unfold calcHighestModulus
  simp only [modulus_eq]
  have key : ∀ (l : List ℂ) (r : ℂ), let m := l.foldl (fun res z => if ‖res‖ < ‖z‖ then z else res) r
      ‖r‖ ≤ ‖m‖ ∧ (∀ z ∈ l, ‖z‖ ≤ ‖m‖) ∧ (m = r ∨ m ∈ l) := by
    intro l
    induction l with
    | nil => intro r; simp
    | cons a l ih =>
      intro r
      simp only [List.foldl_cons]
      obtain ⟨h1, h2, h3⟩ := ih (if ‖r‖ < ‖a‖ then a else r)
      have hr : ‖r‖ ≤ ‖(if ‖r‖ < ‖a‖ then a else r)‖ := by split_ifs with h <;> [exact h.le; exact le_rfl]
      have ha : ‖a‖ ≤ ‖(if ‖r‖ < ‖a‖ then a else r)‖ := by split_ifs with h <;> [exact le_rfl; exact not_lt.mp h]
      refine ⟨hr.trans h1, ?_, ?_⟩
      · intro z hz
        rcases List.mem_cons.mp hz with rfl | hz
        · exact ha.trans h1
        · exact h2 z hz
      · rcases h3 with h3 | h3
        · by_cases hc : ‖r‖ < ‖a‖
          · rw [if_pos hc] at h3 ⊢; right; rw [h3]; simp
          · rw [if_neg hc] at h3 ⊢; left; exact h3
        · right; exact List.mem_cons_of_mem _ h3
  obtain ⟨_, h2, h3⟩ := key evs 0
  rcases h3 with h3 | h3
  · have hz : ∀ z ∈ evs, z = 0 := by
      intro z hz
      have := h2 z hz
      rw [h3, norm_zero] at this
      exact norm_le_zero_iff.mp this
    refine ⟨⟨h2, ?_⟩, Or.inr hz⟩
    obtain ⟨z, hz'⟩ := List.exists_mem_of_ne_nil evs h
    exact ⟨z, hz', by rw [h3, hz z hz']⟩
  · exact ⟨⟨h2, _, h3, rfl⟩, Or.inl h3⟩

/-- **C116**, partial, the solver: the largest modulus when none exceeds one; in general the largest of those which do not
exceed one. -/
theorem C116_solver_partial (evs : List ℂ) (h : ∃ z ∈ evs, ‖z‖ ≤ 1) :
    IsLargest (findMaxEigenvalueModulus evs) (evs.filter fun z => decide (‖z‖ ≤ 1)) := by
  unfold findMaxEigenvalueModulus
  simp only [modulus_eq]
  have key : ∀ (l : List ℂ) (r : ℝ), let m := l.foldl (fun res z => if ‖z‖ ≤ 1 ∧ res ≤ ‖z‖ then ‖z‖ else res) r
      r ≤ m ∧ (∀ z ∈ l, ‖z‖ ≤ 1 → ‖z‖ ≤ m) ∧ (m = r ∨ ∃ z ∈ l, ‖z‖ ≤ 1 ∧ ‖z‖ = m) := by
    intro l
    induction l with
    | nil => intro r; simp
    | cons a l ih =>
      intro r
      simp only [List.foldl_cons]
      by_cases hc : ‖a‖ ≤ 1 ∧ r ≤ ‖a‖
      · rw [if_pos hc]
        obtain ⟨h1, h2, h3⟩ := ih ‖a‖
        refine ⟨hc.2.trans h1, ?_, ?_⟩
        · intro z hz hz1
          rcases List.mem_cons.mp hz with rfl | hz
          · exact h1
          · exact h2 z hz hz1
        · rcases h3 with h3 | ⟨z, hz, hz1, hz2⟩
          · exact Or.inr ⟨a, by simp, hc.1, h3.symm⟩
          · exact Or.inr ⟨z, List.mem_cons_of_mem _ hz, hz1, hz2⟩
      · rw [if_neg hc]
        obtain ⟨h1, h2, h3⟩ := ih r
        refine ⟨h1, ?_, ?_⟩
        · intro z hz hz1
          rcases List.mem_cons.mp hz with rfl | hz
          · have : ‖z‖ < r := not_le.mp fun hr => hc ⟨hz1, hr⟩
            exact this.le.trans h1
          · exact h2 z hz hz1
        · rcases h3 with h3 | ⟨z, hz, hz1, hz2⟩
          · exact Or.inl h3
          · exact Or.inr ⟨z, List.mem_cons_of_mem _ hz, hz1, hz2⟩
  obtain ⟨_, h2, h3⟩ := key evs 0
  refine ⟨fun z hz => ?_, ?_⟩
  · rw [List.mem_filter, decide_eq_true_iff] at hz
    exact h2 z hz.1 hz.2
  · rcases h3 with h3 | ⟨z, hz, hz1, hz2⟩
    · obtain ⟨z, hz, hz1⟩ := h
      have := h2 z hz hz1
      rw [h3] at this
      refine ⟨z, by rw [List.mem_filter, decide_eq_true_iff]; exact ⟨hz, hz1⟩, ?_⟩
      rw [h3]
      exact le_antisymm this (norm_nonneg z)
    · exact ⟨z, by rw [List.mem_filter, decide_eq_true_iff]; exact ⟨hz, hz1⟩, hz2⟩

/-- **C116** violated: eigenvalues of modulus above one, the ones that limit the time step, are passed over. -/
theorem C116_violated (evs : List ℂ) (h : ∃ z ∈ evs, 1 < ‖z‖) : ¬ IsLargest (findMaxEigenvalueModulus evs) evs := by
  rintro ⟨h1, _⟩
  obtain ⟨z, hz, hz1⟩ := h
  have hle : findMaxEigenvalueModulus evs ≤ 1 := by
    unfold findMaxEigenvalueModulus
    have key : ∀ (l : List ℂ) (r : ℝ), r ≤ 1 →
        l.foldl (fun res z => if modulus z ≤ 1 ∧ res ≤ modulus z then modulus z else res) r ≤ 1 := by
      intro l
      induction l with
      | nil => intro r hr; exact hr
      | cons a l ih =>
        intro r hr
        rw [List.foldl_cons]
        apply ih
        split_ifs with hc
        · exact hc.1
        · exact hr
    exact key evs 0 zero_le_one
  exact absurd (h1 z hz) (not_le.mpr (lt_of_le_of_lt hle hz1))

example : IsLargest ‖calcHighestModulus [2, 3]‖ [2, 3] ∧ ¬ IsLargest (findMaxEigenvalueModulus [2, 3]) [2, 3] :=
  ⟨(C116_highest [2, 3] (by simp)).1, C116_violated [2, 3] ⟨2, by simp, by norm_num⟩⟩

example : IsLargest (findMaxEigenvalueModulus [Complex.I, 3]) ([Complex.I, 3].filter fun z => decide (‖z‖ ≤ 1)) :=
  C116_solver_partial _ ⟨Complex.I, by simp, by simp⟩

/-! ### The option -/

open Dgtd.Config (Err)

/-- **C117** violated: with the option set, no case with elements gets a time step; either an exception is raised or the
integrator is used before it exists. -/
theorem C117_violated (estimate : TimeStep.Options → Except Err ℝ) {elems : List Elem} (he : elems ≠ [])
    (o : TimeStep.Options) (rank : Nat) (r : ℝ × Nat) : construct estimate true elems o rank ≠ .ok r := by
  obtain ⟨e, es, rfl⟩ := List.exists_cons_of_ne_nil he
  unfold construct
  have hp : ∃ x, performSpectralAnalysis none o.timeStep (e :: es) = .error x := by
    unfold performSpectralAnalysis
    rw [List.forM]
    cases hs : e.shape <;> simp [bdrAttributes, absorbing, evaluateStability, bind, Except.bind]
  obtain ⟨x, hx⟩ := hp
  rw [hx]
  by_cases hr : rank = 0
  · rw [if_pos hr]
    cases TimeStep.checkOptions o <;> simp [bind, Except.bind]
  · rw [if_neg hr]
    simp [bind, Except.bind, pure, Except.pure]

/-- **C117** violated: for elements of the usual types and options that are accepted without it, it is the use of a null
pointer. -/
theorem C117_violated_null (estimate : TimeStep.Options → Except Err ℝ) {e : Elem} (es : List Elem)
    (hs : e.shape ≠ .wedge ∧ e.shape ≠ .pyramid) {o : TimeStep.Options} {rank : Nat} {r : ℝ × Nat}
    (ho : TimeStep.construct estimate o rank = .ok r) : construct estimate true (e :: es) o rank = .error .ub := by
  have hp : performSpectralAnalysis none o.timeStep (e :: es) = .error .ub := by
    unfold performSpectralAnalysis
    rw [List.forM]
    cases h : e.shape <;> simp [h] at hs <;> simp [bdrAttributes, absorbing, evaluateStability, bind, Except.bind]
  unfold construct
  rw [hp]
  unfold TimeStep.construct at ho
  by_cases hr : rank = 0
  · rw [if_pos hr] at ho ⊢
    cases hc : TimeStep.checkOptions o with
    | error x => rw [hc] at ho; simp [bind, Except.bind] at ho
    | ok a => simp [bind, Except.bind]
  · rw [if_neg hr]
    simp [bind, Except.bind, pure, Except.pure]

/-- A triangle and ordinary options. -/
example : construct (fun _ => .ok 1) true [⟨.triangle, [1], id⟩] ⟨1, 2, 1, 0, .global, 3⟩ 0 = .error .ub :=
  C117_violated_null (r := (1, 0)) _ [] (by simp) (by
    simp [TimeStep.construct, TimeStep.checkOptions, TimeStep.assignOde, bind, Except.bind, pure, Except.pure,
      if_neg (show ¬ (2 : ℝ) < 0 by norm_num), if_neg (show ¬ (1 : ℝ) ≤ 0 by norm_num)])

/-- Without the option the constructor is the one of C77 and C78. -/
theorem C117_off (estimate : TimeStep.Options → Except Err ℝ) (elems : List Elem) (o : TimeStep.Options) (rank : Nat) :
    construct estimate false elems o rank = TimeStep.construct estimate o rank := by
  unfold construct TimeStep.construct
  simp

/-- Faces of an element get the absorbing condition, each its own attribute. -/
theorem C117_absorbing {s : Shape} (hs : s ≠ .wedge ∧ s ≠ .pyramid) :
    ∃ l, bdrAttributes s s.faces = .ok l ∧ absorbing s = .ok l ∧ l.length = s.faces ∧ l.Nodup := by
  cases s <;> simp at hs <;> exact ⟨_, rfl, rfl, rfl, by decide⟩

/-- The integrator of the code on systems of two unknowns. -/
noncomputable def rk4Stepper : Stepper := fun L v dt => toList (rk4 (fun u => ofList (L (toList u))) dt (ofList v))

/-- **C117** violated, were the integrator there: a rotation, which the method damps, is rejected. -/
theorem C117_violated_stable : ∃ (L : List ℝ → List ℝ) (evs : List ℂ), (∀ a b, L [a, b] = [-b, a]) ∧
    evs = [Complex.I, -Complex.I] ∧
    (∀ a b, ∃ a' b', rk4Stepper L [a, b] 1 = [a', b'] ∧ a' ^ 2 + b' ^ 2 ≤ a ^ 2 + b ^ 2) ∧
    evaluateStability (some rk4Stepper) 1 L evs = .error .throw := by
  refine ⟨fun l => [-l.getD 1 0, l.getD 0 0], _, fun a b => rfl, rfl, fun a b => ⟨_, _, rfl, ?_⟩, ?_⟩
  · simp [rk4, ofList, toList]
    nlinarith [sq_nonneg a, sq_nonneg b]
  · change compare _ _ _ _ = _
    unfold compare
    rw [if_pos]
    simp [rk4Stepper, rk4, ofList, toList]
    left
    norm_num
    rw [one_lt_div (Real.sqrt_pos.mpr (by norm_num))]
    exact Real.sqrt_lt_sqrt (by norm_num) (by norm_num)

/-- **C117** violated, were the integrator there: a system with growing solutions is accepted. -/
theorem C117_violated_unstable : ∃ (L : List ℝ → List ℝ) (evs : List ℂ), (∀ a b, L [a, b] = [b, a]) ∧ evs = [1, -1] ∧
    (∀ a, 0 < a → ∃ a', rk4Stepper L [a, a] 1 = [a', a'] ∧ 2 * a < a') ∧
    evaluateStability (some rk4Stepper) 1 L evs = .ok () := by
  refine ⟨fun l => [l.getD 1 0, l.getD 0 0], _, fun a b => rfl, rfl, fun a ha => ⟨a + 1 / 6 * (a + 2 * (a + 1 / 2 * a) + 2 * (a + 1 / 2 * (a + 1 / 2 * a)) + (a + (a + 1 / 2 * (a + 1 / 2 * a)))), ?_, by linarith⟩, ?_⟩
  · simp [rk4Stepper, rk4, ofList, toList]
    ring
  · change compare _ _ _ _ = _
    unfold compare
    rw [if_neg]
    simp [rk4Stepper, rk4, ofList, toList]
    norm_num

end Dgtd.Spectral
