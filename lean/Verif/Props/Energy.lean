/-
C01, C02: energy behaviour of the assembled evolution operator.
-/
import Verif.Lemmas.OpBalance
import Verif.Lemmas.OpCsr
import Mathlib.Analysis.Calculus.MeanValue
import Mathlib.LinearAlgebra.Matrix.Notation
import Mathlib.Analysis.Calculus.Deriv.MeanValue
import Mathlib.Analysis.Calculus.Deriv.Mul
import Mathlib.Analysis.Calculus.Deriv.Add

set_option linter.unusedSectionVars false
set_option linter.unusedSimpArgs false

namespace Dgtd.Op

open Spec Csr Csr.Spec

section
variable {ι K : Type} [Fintype ι] [DecidableEq ι] [Field K] [LinearOrder K] [IsStrictOrderedRing K]

/-- The exact energy balance of the operator: for every mesh, order, materials, `alpha`, combination of
boundary conditions and field values, energy changes at minus the sum of the face penalties, absorbing
boundary fluxes and conduction losses. -/
theorem C01_energy_balance (P : Prob ι K) (M : FieldT → Matrix ι ι K) (h : Good P M) (u : State ι K) :
    energyRate M u (globalMult P u) = -dissipation P u :=
  energy_balance P M h u

lemma tanSq_nonneg (p : Pt K) (v : Dir → K) : 0 ≤ tanSq p v := by
  unfold tanSq; positivity

lemma dissInterior_nonneg {dim : Nat} {alpha : K} (ha : 0 ≤ alpha) (f : Face ι K)
    (hp : ∀ p ∈ f.pts, GoodPt dim p) (u : State ι K) : 0 ≤ dissInterior alpha f u := by
  unfold dissInterior
  apply List.sum_nonneg
  intro x hx
  obtain ⟨p, hpm, rfl⟩ := List.mem_map.mp hx
  have g := hp p hpm
  have := g.w_nonneg
  have := g.W_pos.le
  have := tanSq_nonneg p (fun d => tr1 f p (u .E d) - tr2 f p (u .E d))
  have := tanSq_nonneg p (fun d => tr1 f p (u .H d) - tr2 f p (u .H d))
  positivity

lemma dissBdr_nonneg {dim : Nat} {alpha : K} (ha : 0 ≤ alpha) (c : BdrCond) (f : Face ι K)
    (hp : ∀ p ∈ f.pts, GoodPt dim p) (u : State ι K) : 0 ≤ dissBdr alpha c f u := by
  unfold dissBdr
  apply List.sum_nonneg
  intro x hx
  obtain ⟨p, hpm, rfl⟩ := List.mem_map.mp hx
  have g := hp p hpm
  have := g.w_nonneg
  have := g.W_pos.le
  have hw : ∀ g, 0 ≤ bdrWeight alpha c g := by
    intro g; cases c <;> cases g <;> simp only [bdrWeight] <;> positivity
  have := tanSq_nonneg p (fun d => tr1 f p (u .E d))
  have := tanSq_nonneg p (fun d => tr2 f p (u .E d))
  have := tanSq_nonneg p (fun d => tr1 f p (u .H d))
  have := tanSq_nonneg p (fun d => tr2 f p (u .H d))
  have := hw .E
  have := hw .H
  positivity

lemma dissipation_nonneg (P : Prob ι K) (M : FieldT → Matrix ι ι K) (h : Good P M) (ha : 0 ≤ P.alpha)
    (hs : ∀ v : ι → K, 0 ≤ v ⬝ᵥ P.Msig.mulVec v) (u : State ι K) : 0 ≤ dissipation P u := by
  unfold dissipation
  refine add_nonneg (add_nonneg (List.sum_nonneg ?_) (List.sum_nonneg ?_)) (Finset.sum_nonneg fun d _ => hs _)
  · intro x hx
    obtain ⟨⟨o, f⟩, hq, rfl⟩ := List.mem_map.mp hx
    have hp := h.pts f (List.mem_append_left _ (List.mem_map_of_mem (f := Prod.snd) hq))
    cases o with
    | none => exact dissInterior_nonneg ha f hp u
    | some c => exact dissBdr_nonneg ha c f hp u
  · intro x hx
    obtain ⟨⟨o, f⟩, hq, rfl⟩ := List.mem_map.mp hx
    have hp := h.pts f (List.mem_append_right _ (List.mem_map_of_mem (f := Prod.snd) hq))
    cases o with
    | none => exact le_refl _
    | some c => exact dissBdr_nonneg ha c f hp u

/-- **C01**.  With a non-negative upwind parameter and non-negative conductivity, the operator never makes
the energy of any field grow. -/
theorem C01_energy_never_grows (P : Prob ι K) (M : FieldT → Matrix ι ι K) (h : Good P M)
    (ha : 0 ≤ P.alpha) (hs : ∀ v : ι → K, 0 ≤ v ⬝ᵥ P.Msig.mulVec v) (u : State ι K) :
    energyRate M u (globalMult P u) ≤ 0 := by
  rw [energy_balance P M h u]
  have := dissipation_nonneg P M h ha hs u
  linarith

lemma energy_step (P : Prob ι K) (M : FieldT → Matrix ι ι K) (h : Good P M) (u r : State ι K) (s : K) :
    energy M (fun f d => u f d + s • r f d) =
      energy M u + s * energyRate M u r + s ^ 2 * energy M r := by
  have hsym : ∀ f, ∀ v w : ι → K, v ⬝ᵥ (M f).mulVec w = w ⬝ᵥ (M f).mulVec v := by
    intro f v w
    rw [Matrix.dotProduct_mulVec, ← Matrix.mulVec_transpose, h.symm f, dotProduct_comm]
  unfold energy energyRate
  simp only [Matrix.mulVec_add, Matrix.mulVec_smul, dotProduct_add, add_dotProduct, smul_dotProduct,
    dotProduct_smul, smul_eq_mul, Fin.sum_univ_three]
  rw [hsym .E (r .E 0) (u .E 0), hsym .E (r .E 1) (u .E 1), hsym .E (r .E 2) (u .E 2),
    hsym .H (r .H 0) (u .H 0), hsym .H (r .H 1) (u .H 1), hsym .H (r .H 2) (u .H 2)]
  ring

/-- **C01**, fully discrete, backward Euler: whatever the step size, the new fields have no more energy
than the old ones. -/
theorem C01_backward_euler (P : Prob ι K) (M : FieldT → Matrix ι ι K) (h : Good P M)
    (ha : 0 ≤ P.alpha) (hs : ∀ v : ι → K, 0 ≤ v ⬝ᵥ P.Msig.mulVec v) (hM : ∀ u, 0 ≤ energy M u)
    (dt : K) (hdt : 0 ≤ dt) (u0 u1 : State ι K)
    (hstep : ∀ f d, u1 f d = u0 f d + dt • globalMult P u1 f d) :
    energy M u1 ≤ energy M u0 := by
  have e := energy_step P M h u1 (globalMult P u1) (-dt)
  have : (fun f d => u1 f d + (-dt) • globalMult P u1 f d) = u0 := by
    funext f d
    have := hstep f d
    rw [neg_smul]
    exact sub_eq_of_eq_add this ▸ (sub_eq_add_neg _ _).symm
  rw [this] at e
  have h1 := C01_energy_never_grows P M h ha hs u1
  have h2 := hM (globalMult P u1)
  have h3 : 0 ≤ dt * -energyRate M u1 (globalMult P u1) := mul_nonneg hdt (by linarith)
  have h4 : 0 ≤ (-dt) ^ 2 * energy M (globalMult P u1) := mul_nonneg (sq_nonneg _) h2
  linarith

/-- Energy change of an implicit midpoint step. -/
lemma midpoint_change (P : Prob ι K) (M : FieldT → Matrix ι ι K) (h : Good P M) (dt : K)
    (u0 u1 m : State ι K) (hm : ∀ f d, m f d + m f d = u0 f d + u1 f d)
    (hstep : ∀ f d, u1 f d = u0 f d + dt • globalMult P m f d) :
    energy M u1 - energy M u0 = dt * energyRate M m (globalMult P m) := by
  have e1 := energy_step P M h m (globalMult P m) (dt / 2)
  have e0 := energy_step P M h m (globalMult P m) (-(dt / 2))
  have h1 : (fun f d => m f d + (dt / 2) • globalMult P m f d) = u1 := by
    funext f d i
    have a := congrFun (hm f d) i
    have b := congrFun (hstep f d) i
    simp only [Pi.add_apply, Pi.smul_apply, smul_eq_mul] at a b ⊢
    linarith
  have h0 : (fun f d => m f d + (-(dt / 2)) • globalMult P m f d) = u0 := by
    funext f d i
    have a := congrFun (hm f d) i
    have b := congrFun (hstep f d) i
    simp only [Pi.add_apply, Pi.smul_apply, smul_eq_mul] at a b ⊢
    linarith
  rw [h1] at e1
  rw [h0] at e0
  rw [e1, e0]; ring

/-- **C01**, fully discrete, implicit midpoint (and the trapezoidal rule, which is the same map for a linear
operator): whatever the step size, the energy does not grow. -/
theorem C01_implicit_midpoint (P : Prob ι K) (M : FieldT → Matrix ι ι K) (h : Good P M)
    (ha : 0 ≤ P.alpha) (hs : ∀ v : ι → K, 0 ≤ v ⬝ᵥ P.Msig.mulVec v)
    (dt : K) (hdt : 0 ≤ dt) (u0 u1 m : State ι K) (hm : ∀ f d, m f d + m f d = u0 f d + u1 f d)
    (hstep : ∀ f d, u1 f d = u0 f d + dt • globalMult P m f d) :
    energy M u1 ≤ energy M u0 := by
  have e := midpoint_change P M h dt u0 u1 m hm hstep
  have h1 := C01_energy_never_grows P M h ha hs m
  have : 0 ≤ dt * -energyRate M m (globalMult P m) := mul_nonneg hdt (by linarith)
  linarith

/-- **C02**.  Centred fluxes, no conductivity, no absorbing boundary: energy is conserved exactly. -/
theorem C02_centred_conserves (P : Prob ι K) (M : FieldT → Matrix ι ι K) (h : Good P M)
    (ha : P.alpha = 0) (hs : P.Msig = 0)
    (hsma : (∀ q ∈ P.bdr, q.1 ≠ some .SMA) ∧ ∀ q ∈ P.interior, q.1 ≠ some .SMA) (u : State ι K) :
    energyRate M u (globalMult P u) = 0 := by
  rw [energy_balance P M h u]
  have hI : ∀ f, dissInterior (0 : K) f u = 0 := by
    intro f
    unfold dissInterior
    apply sum_eq_zero'
    intro p _; ring
  have hB : ∀ c, c ≠ BdrCond.SMA → ∀ f, dissBdr (0 : K) c f u = 0 := by
    intro c hc f
    unfold dissBdr
    apply sum_eq_zero'
    intro p _
    cases c <;> simp [bdrWeight] at hc ⊢
  unfold dissipation
  rw [ha, hs, sum_eq_zero', sum_eq_zero']
  · simp
  · rintro ⟨o, f⟩ hq
    cases o with
    | none => rfl
    | some c => exact hB c (fun hc => hsma.1 _ hq (by rw [hc])) f
  · rintro ⟨o, f⟩ hq
    cases o with
    | none => exact hI f
    | some c => exact hB c (fun hc => hsma.2 _ hq (by rw [hc])) f

/-- **C02**, fully discrete: implicit midpoint steps of any size conserve the energy exactly. -/
theorem C02_implicit_midpoint (P : Prob ι K) (M : FieldT → Matrix ι ι K) (h : Good P M)
    (ha : P.alpha = 0) (hs : P.Msig = 0)
    (hsma : (∀ q ∈ P.bdr, q.1 ≠ some .SMA) ∧ ∀ q ∈ P.interior, q.1 ≠ some .SMA)
    (dt : K) (u0 u1 m : State ι K) (hm : ∀ f d, m f d + m f d = u0 f d + u1 f d)
    (hstep : ∀ f d, u1 f d = u0 f d + dt • globalMult P m f d) :
    energy M u1 = energy M u0 := by
  have e := midpoint_change P M h dt u0 u1 m hm hstep
  rw [C02_centred_conserves P M h ha hs hsma m] at e
  linarith

end

section csr
variable {K : Type} [Field K] [LinearOrder K] [IsStrictOrderedRing K]

/-- **C01** for the matrix the code stores.  The blocks of the operator, each in any sparse storage, are
merged (with whatever the fresh memory held); multiplying any vector holding the fields by the merged matrix
gives rates that do not make the energy grow. -/
theorem C01_merged_operator {n : Nat} (P : Prob (Fin n) K) (M : FieldT → Matrix (Fin n) (Fin n) K)
    (h : Good P M) (ha : 0 ≤ P.alpha) (hs : ∀ v : Fin n → K, 0 ≤ v ⬝ᵥ P.Msig.mulVec v)
    (store : GBlock (Fin n) K → List (List (Int × K)))
    (hst : ∀ b ∈ globalBlocks P, Represents b.mat (store b)) (junkJ : Int) (junkA : K) :
    ∃ m, merge junkJ junkA ((globalBlocks P).map fun b => place n b (store b)) (6 * n) (6 * n) = some m ∧
      ∀ (x : Int → K) (u r : State (Fin n) K), Holds n x u →
        Holds n (fun k => csrMul m x k.toNat) r → energyRate M u r ≤ 0 := by
  obtain ⟨m, hm, hact⟩ := csr_acts (globalBlocks P) store hst junkJ junkA
  refine ⟨m, hm, fun x u r hx hr => ?_⟩
  have : r = globalMult P u := by
    funext f d i
    rw [← holds_at hr f d i]
    exact hact x u hx f d i
  rw [this]
  exact C01_energy_never_grows P M h ha hs u

end csr

/-! ### continuous time -/

section real
variable {ι : Type} [Fintype ι] [DecidableEq ι]

lemma hasDerivAt_quad (A : Matrix ι ι ℝ) (hA : A.transpose = A) (v : ℝ → ι → ℝ) (r : ι → ℝ) (t : ℝ)
    (h : ∀ i, HasDerivAt (fun s => v s i) (r i) t) :
    HasDerivAt (fun s => v s ⬝ᵥ A.mulVec (v s)) (2 * (v t ⬝ᵥ A.mulVec r)) t := by
  have h1 : ∀ i, HasDerivAt (fun s => A.mulVec (v s) i) (A.mulVec r i) t := by
    intro i
    unfold Matrix.mulVec dotProduct
    apply HasDerivAt.fun_sum
    intro j _
    exact (h j).const_mul (A i j)
  have h2 : HasDerivAt (fun s => v s ⬝ᵥ A.mulVec (v s))
      (∑ i, (r i * A.mulVec (v t) i + v t i * A.mulVec r i)) t := by
    unfold dotProduct
    apply HasDerivAt.fun_sum
    intro i _
    exact (h i).mul (h1 i)
  have e : (∑ i, (r i * A.mulVec (v t) i + v t i * A.mulVec r i)) = 2 * (v t ⬝ᵥ A.mulVec r) := by
    rw [Finset.sum_add_distrib]
    have : (∑ i, r i * A.mulVec (v t) i) = v t ⬝ᵥ A.mulVec r := by
      change r ⬝ᵥ A.mulVec (v t) = _
      rw [Matrix.dotProduct_mulVec, ← Matrix.mulVec_transpose, hA, dotProduct_comm]
    rw [this]
    change _ + v t ⬝ᵥ A.mulVec r = _
    ring
  rw [e] at h2
  exact h2

lemma hasDerivAt_energy (M : FieldT → Matrix ι ι ℝ) (hM : ∀ f, (M f).transpose = M f)
    (u : ℝ → State ι ℝ) (r : State ι ℝ) (t : ℝ)
    (h : ∀ f d i, HasDerivAt (fun s => u s f d i) (r f d i) t) :
    HasDerivAt (fun s => energy M (u s)) (energyRate M (u t) r) t := by
  unfold energy
  have : energyRate M (u t) r = 1 / 2 * ∑ d : Dir, (2 * (u t .E d ⬝ᵥ (M .E).mulVec (r .E d)) +
      2 * (u t .H d ⬝ᵥ (M .H).mulVec (r .H d))) := by
    unfold energyRate
    rw [Finset.mul_sum]
    apply Finset.sum_congr rfl
    intro d _; ring
  rw [this]
  apply HasDerivAt.const_mul
  apply HasDerivAt.fun_sum
  intro d _
  exact (hasDerivAt_quad (M .E) (hM .E) (fun s => u s .E d) (r .E d) t (h .E d)).add
    (hasDerivAt_quad (M .H) (hM .H) (fun s => u s .H d) (r .H d) t (h .H d))

/-- **C01**, in continuous time: along every solution of the semi-discrete equations the energy is a
non-increasing function of time. -/
theorem C01_energy_antitone (P : Prob ι ℝ) (M : FieldT → Matrix ι ι ℝ) (h : Good P M)
    (ha : 0 ≤ P.alpha) (hs : ∀ v : ι → ℝ, 0 ≤ v ⬝ᵥ P.Msig.mulVec v) (u : ℝ → State ι ℝ)
    (hu : ∀ t f d i, HasDerivAt (fun s => u s f d i) (globalMult P (u t) f d i) t) :
    Antitone fun t => energy M (u t) := by
  have hd : ∀ t, HasDerivAt (fun s => energy M (u s)) (energyRate M (u t) (globalMult P (u t))) t :=
    fun t => hasDerivAt_energy M h.symm u _ t (hu t)
  apply antitone_of_deriv_nonpos
  · exact fun t => (hd t).differentiableAt
  · intro t
    rw [(hd t).deriv]
    exact C01_energy_never_grows P M h ha hs (u t)

/-- **C02**, in continuous time: the energy is constant along every solution. -/
theorem C02_energy_constant (P : Prob ι ℝ) (M : FieldT → Matrix ι ι ℝ) (h : Good P M)
    (ha : P.alpha = 0) (hs : P.Msig = 0)
    (hsma : (∀ q ∈ P.bdr, q.1 ≠ some .SMA) ∧ ∀ q ∈ P.interior, q.1 ≠ some .SMA) (u : ℝ → State ι ℝ)
    (hu : ∀ t f d i, HasDerivAt (fun s => u s f d i) (globalMult P (u t) f d i) t) (t t' : ℝ) :
    energy M (u t) = energy M (u t') := by
  have hd : ∀ t, HasDerivAt (fun s => energy M (u s)) (energyRate M (u t) (globalMult P (u t))) t :=
    fun t => hasDerivAt_energy M h.symm u _ t (hu t)
  apply is_const_of_deriv_eq_zero (f := fun s => energy M (u s))
  · exact fun t => (hd t).differentiableAt
  · intro t
    rw [(hd t).deriv]
    exact C02_centred_conserves P M h ha hs hsma (u t)

end real

/-! ### a concrete problem: two linear elements on a line, PEC on the left, SMA on the right -/

section example1

/-- One quadrature point of a 1D face. -/
def exPt (n : ℚ) (a1 b1 a2 b2 : ℚ) : Pt ℚ :=
  { w := 1, W := 1, nor := [n], sh1 := fun i => if i = 0 then a1 else b1, sh2 := fun i => if i = 0 then a2 else b2 }

def exInt : Face (Fin 4) ℚ :=
  { ndof1 := 2, ndof2 := 2, dofs := fun i => if h : i < 4 then ⟨i, h⟩ else 0, pts := [exPt 1 0 1 1 0] }

def exL : Face (Fin 4) ℚ :=
  { ndof1 := 2, ndof2 := 0, dofs := fun i => if i = 0 then 0 else 1, pts := [exPt (-1) 1 0 0 0] }

def exR : Face (Fin 4) ℚ :=
  { ndof1 := 2, ndof2 := 0, dofs := fun i => if i = 0 then 2 else 3, pts := [exPt 1 0 1 0 0] }

def exMass : Matrix (Fin 4) (Fin 4) ℚ :=
  !![1/3, 1/6, 0, 0; 1/6, 1/3, 0, 0; 0, 0, 1/3, 1/6; 0, 0, 1/6, 1/3]

def exMinv : Matrix (Fin 4) (Fin 4) ℚ :=
  !![4, -2, 0, 0; -2, 4, 0, 0; 0, 0, 4, -2; 0, 0, -2, 4]

def exD : Matrix (Fin 4) (Fin 4) ℚ :=
  !![-1/2, 1/2, 0, 0; -1/2, 1/2, 0, 0; 0, 0, -1/2, 1/2; 0, 0, -1/2, 1/2]

def exProb (alpha : ℚ) (left right : BdrCond) : Prob (Fin 4) ℚ :=
  { dim := 1, alpha := alpha, interior := [(none, exInt)], bdr := [(some left, exL), (some right, exR)]
    Minv := fun _ => exMinv, Msig := 0, D := fun _ => exD }

lemma exGood (alpha : ℚ) (left right : BdrCond) : Good (exProb alpha left right) (fun _ => exMass) := by
  refine ⟨by simp [exProb], ?_, ?_, ?_, ?_, ?_, ?_, ?_⟩
  · intro f hf p hp
    simp only [allFaces, exProb, List.map_cons, List.map_nil, List.cons_append, List.nil_append,
      List.mem_cons, List.not_mem_nil, or_false] at hf
    rcases hf with rfl | rfl | rfl <;> simp only [exInt, exL, exR, List.mem_singleton] at hp <;> subst hp <;>
      constructor <;> simp [exPt, normalTerm, exProb]
  · intro d hd v u
    have : d = 0 := by apply Fin.ext; simp [exProb] at hd; simp [hd]
    subst this
    simp only [allFaces, exProb, List.map_cons, List.map_nil, List.cons_append, List.nil_append,
      List.sum_cons, List.sum_nil, faceBoundary, exInt, exL, exR, exPt, tr1, tr2, normalTerm,
      Matrix.mulVec, dotProduct, Fin.sum_univ_four, exD, Finset.sum_range_succ, Finset.sum_range_zero]
    simp
    ring
  · intro q hq; simp [exProb] at hq; rcases hq with rfl | rfl <;> simp
  · intro q hq; simp [exProb] at hq; rcases hq with rfl | rfl <;> simp [exL, exR]
  · intro q hq; simp [exProb] at hq; subst hq; simp
  · intro f; simp only [exProb]; decide +kernel
  · intro f; decide +kernel

/-- A field with a jump in the middle: `E_y = (1, 2, 3, 5)`, `H_z = (0, 1, -1, 2)`. -/
def exU : State (Fin 4) ℚ
  | .E, d => if d = 1 then ![1, 2, 3, 5] else 0
  | .H, d => if d = 2 then ![0, 1, -1, 2] else 0

example : energyRate (fun _ => exMass) exU (globalMult (exProb 1 .PEC .SMA) exU) =
    -dissipation (exProb 1 .PEC .SMA) exU := C01_energy_balance _ _ (exGood 1 .PEC .SMA) _

example : dissipation (exProb 1 .PEC .SMA) exU = 18 := by decide +kernel

example : dissipation (exProb 0 .PEC .PMC) exU = 0 := by decide +kernel

end example1

end Dgtd.Op
