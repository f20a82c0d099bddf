/-
C64: implicit steps are always solvable and do not create energy.
-/
import Verif.Props.Implicit
import Verif.Props.Energy
import Verif.Spec.Slot
import Mathlib.LinearAlgebra.Matrix.ToLinearEquiv
import Mathlib.LinearAlgebra.Matrix.ToLin
import Mathlib.Tactic.Linarith

set_option linter.unusedSectionVars false

namespace Dgtd.Implicit

open Matrix Op Op.Spec

variable {K : Type} [Field K] [LinearOrder K] [IsStrictOrderedRing K] {ι : Type} [Fintype ι] [DecidableEq ι]

instance : Fintype FieldT := ⟨{.E, .H}, fun x => by cases x <;> simp⟩

theorem flat_unflat (x : Slot ι → K) : flat (unflat x) = x := rfl

/-- The operator is linear, so it has a matrix: the hypothesis on `A` below can always be met. -/
theorem exists_matrix (P : Prob ι K) :
    ∃ A : Matrix (Slot ι) (Slot ι) K, ∀ u : State ι K, A *ᵥ flat u = flat (globalMult P u) := by
  have hadd : ∀ (bs : List (GBlock ι K)) (u v : State ι K) (f : FieldT) (d : Dir),
      applyBlocks bs (u + v) f d = applyBlocks bs u f d + applyBlocks bs v f d := by
    intro bs u v f d
    unfold applyBlocks
    generalize bs.filter _ = l
    induction l with
    | nil => simp
    | cons b l ih =>
      simp only [List.map_cons, List.sum_cons, Pi.add_apply, mulVec_add, smul_add] at ih ⊢
      rw [ih]; abel
  have hsmul : ∀ (bs : List (GBlock ι K)) (c : K) (u : State ι K) (f : FieldT) (d : Dir),
      applyBlocks bs (c • u) f d = c • applyBlocks bs u f d := by
    intro bs c u f d
    unfold applyBlocks
    generalize bs.filter _ = l
    induction l with
    | nil => simp
    | cons b l ih =>
      simp only [List.map_cons, List.sum_cons, Pi.smul_apply, mulVec_smul, smul_add] at ih ⊢
      rw [ih, smul_comm]
  let L : (Slot ι → K) →ₗ[K] (Slot ι → K) :=
    { toFun := fun x => flat (globalMult P (unflat x))
      map_add' := by
        intro x y
        funext s
        exact congrFun (hadd _ (unflat x) (unflat y) s.1 s.2.1) s.2.2
      map_smul' := by
        intro c x
        funext s
        exact congrFun (hsmul _ c (unflat x) s.1 s.2.1) s.2.2 }
  refine ⟨LinearMap.toMatrix' L, fun u => ?_⟩
  rw [LinearMap.toMatrix'_mulVec]
  rfl

/-- **C64**: `A` is any matrix acting on flat vectors as the evolution operator of a problem with non-negative
upwinding and conductivity and positive energy.  Then the matrix of an implicit step of any non-negative size is
regular. -/
theorem C64_always_solvable (P : Prob ι K)
    (M : FieldT → Matrix ι ι K) (h : Op.Spec.Good P M) (ha : 0 ≤ P.alpha)
    (hs : ∀ v : ι → K, 0 ≤ v ⬝ᵥ P.Msig.mulVec v) (hM : ∀ u, u ≠ 0 → 0 < energy M u)
    (A : Matrix (Slot ι) (Slot ι) K) (hA : ∀ u : State ι K, A *ᵥ flat u = flat (globalMult P u))
    (dt : K) (hdt : 0 ≤ dt) : IsUnit (1 - dt • A).det := by
  rw [isUnit_iff_ne_zero]
  intro hdet
  obtain ⟨x, hx, hk⟩ := (exists_mulVec_eq_zero_iff).2 hdet
  have e : ∀ f d, unflat x f d = dt • globalMult P (unflat x) f d := by
    intro f d
    funext i
    have := congrFun hk (f, d, i)
    rw [sub_mulVec, one_mulVec, smul_mulVec, ← flat_unflat x, hA] at this
    simp only [Pi.sub_apply, Pi.smul_apply, Pi.zero_apply, flat, smul_eq_mul] at this ⊢
    linarith
  have hM' : ∀ u, 0 ≤ energy M u := by
    intro u
    by_cases hu : u = 0
    · subst hu
      simp [energy]
    · exact (hM u hu).le
  have key := C01_backward_euler P M h ha hs hM' dt hdt 0 (unflat x) (by
    intro f d
    rw [e f d]
    simp only [Pi.zero_apply, zero_add])
  have h0 : energy M (0 : State ι K) = 0 := by simp [energy]
  have : unflat x ≠ 0 := by
    intro h0
    apply hx
    rw [← flat_unflat x, h0]
    rfl
  have := hM _ this
  linarith

/-- **C64** with the cache: every history of implicit solves with positive steps completes, whatever the order of
the step sizes. -/
theorem C64_solves_complete (P : Prob ι K)
    (M : FieldT → Matrix ι ι K) (h : Op.Spec.Good P M) (ha : 0 ≤ P.alpha)
    (hs : ∀ v : ι → K, 0 ≤ v ⬝ᵥ P.Msig.mulVec v) (hM : ∀ u, u ≠ 0 → 0 < energy M u)
    (A : Matrix (Slot ι) (Slot ι) K) (hA : ∀ u : State ι K, A *ᵥ flat u = flat (globalMult P u))
    (calls : List (K × (Slot ι → K) × (Slot ι → K))) (hc : ∀ q ∈ calls, 0 < q.1) :
    ∃ ks c, solveAll A fresh calls = some (ks, c) ∧
      ∀ (i : Nat) (dt : K) (x src k : Slot ι → K), calls[i]? = some (dt, x, src) → ks[i]? = some k →
        ∀ f d j, k (f, d, j) = globalMult P (unflat (x + dt • k)) f d j + src (f, d, j) := by
  obtain ⟨⟨ks, c⟩, hr⟩ := C31_completes A calls (by
    intro q hq
    have := hc q hq
    exact ⟨by linarith, C64_always_solvable P M h ha hs hM A hA q.1 this.le⟩)
  refine ⟨ks, c, hr, ?_⟩
  intro i dt x src k hi hk f d j
  have := congrFun ((C31_never_stale A calls ks c hr).2 i dt x src k hi hk) (f, d, j)
  rw [sub_mulVec, one_mulVec, smul_mulVec] at this
  have e := congrFun (hA (unflat (x + dt • k))) (f, d, j)
  rw [flat_unflat, mulVec_add, mulVec_smul] at e
  simp only [Pi.sub_apply, Pi.smul_apply, Pi.add_apply, smul_eq_mul, flat] at this e
  linarith

lemma exMass_pos (v : Fin 4 → ℚ) : 0 ≤ v ⬝ᵥ exMass.mulVec v ∧ (v ⬝ᵥ exMass.mulVec v = 0 → v = 0) := by
  have e : v ⬝ᵥ exMass.mulVec v = 1 / 6 * (v 0 ^ 2 + v 1 ^ 2 + (v 0 + v 1) ^ 2) +
      1 / 6 * (v 2 ^ 2 + v 3 ^ 2 + (v 2 + v 3) ^ 2) := by
    simp [exMass, dotProduct, mulVec, Fin.sum_univ_four]
    ring
  rw [e]
  refine ⟨by positivity, fun h => ?_⟩
  have h0 : v 0 ^ 2 = 0 := by nlinarith [sq_nonneg (v 0), sq_nonneg (v 1), sq_nonneg (v 0 + v 1), sq_nonneg (v 2), sq_nonneg (v 3), sq_nonneg (v 2 + v 3)]
  have h1 : v 1 ^ 2 = 0 := by nlinarith [sq_nonneg (v 0), sq_nonneg (v 1), sq_nonneg (v 0 + v 1), sq_nonneg (v 2), sq_nonneg (v 3), sq_nonneg (v 2 + v 3)]
  have h2 : v 2 ^ 2 = 0 := by nlinarith [sq_nonneg (v 0), sq_nonneg (v 1), sq_nonneg (v 0 + v 1), sq_nonneg (v 2), sq_nonneg (v 3), sq_nonneg (v 2 + v 3)]
  have h3 : v 3 ^ 2 = 0 := by nlinarith [sq_nonneg (v 0), sq_nonneg (v 1), sq_nonneg (v 0 + v 1), sq_nonneg (v 2), sq_nonneg (v 3), sq_nonneg (v 2 + v 3)]
  simp only [ne_eq, OfNat.ofNat_ne_zero, not_false_eq_true, pow_eq_zero_iff] at h0 h1 h2 h3
  funext i
  fin_cases i <;> simp [h0, h1, h2, h3]

/-- The two-element problem of the energy section meets every hypothesis, with any implicit step. -/
example (dt : ℚ) (hdt : 0 ≤ dt) : ∃ A : Matrix (Slot (Fin 4)) (Slot (Fin 4)) ℚ,
    (∀ u, A *ᵥ flat u = flat (globalMult (exProb 1 .PEC .SMA) u)) ∧ IsUnit (1 - dt • A).det := by
  obtain ⟨A, hA⟩ := exists_matrix (exProb 1 .PEC .SMA)
  refine ⟨A, hA, C64_always_solvable _ (fun _ => exMass) (exGood 1 .PEC .SMA) (by simp [exProb]) ?_ ?_ A hA dt hdt⟩
  · intro v; simp [exProb]
  · intro u hu
    have h0 : 0 ≤ energy (fun _ => exMass) u := by
      unfold energy
      exact mul_nonneg (by norm_num) (Finset.sum_nonneg fun d _ => add_nonneg (exMass_pos _).1 (exMass_pos _).1)
    rcases h0.lt_or_eq with h | h
    · exact h
    · exfalso
      apply hu
      unfold energy at h
      have hs : ∑ d : Dir, (u .E d ⬝ᵥ exMass.mulVec (u .E d) + u .H d ⬝ᵥ exMass.mulVec (u .H d)) = 0 := by
        linarith
      rw [Finset.sum_eq_zero_iff_of_nonneg
        (fun d _ => add_nonneg (exMass_pos _).1 (exMass_pos _).1)] at hs
      funext f d
      have := hs d (Finset.mem_univ d)
      have a := exMass_pos (u .E d)
      have b := exMass_pos (u .H d)
      cases f
      · exact a.2 (by linarith [a.1, b.1])
      · exact b.2 (by linarith [a.1, b.1])

end Dgtd.Implicit
