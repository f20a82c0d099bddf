/-
C131, C132: the fields do not depend on how the problem is described; components that do not act on each other.
-/
import Verif.Lemmas.OpFrame
import Verif.Lemmas.TimeIntMap
import Verif.Props.TimeInt

set_option linter.unusedSectionVars false

namespace Dgtd.Frame

open Op Op.Spec TimeInt TimeInt.Spec Implicit

variable {ι ι' : Type} [Fintype ι] [DecidableEq ι] [Fintype ι'] [DecidableEq ι']

/-! ### C131 -/

section
variable {K : Type} [Field K] [LinearOrder K] [IsStrictOrderedRing K]

/-- **C131**: the rate of the fields is the same in every description of the problem: with turned or mirrored axes, with the unknowns,
the faces and the quadrature points numbered in another order, and with either element of a face as the first. -/
theorem C131_operator {R : Matrix Dir Dir K} {s : K} {e : ι ≃ ι'} {P : Prob ι K} {P' : Prob ι' K} (h : Redescribed R s e P P')
    (u : State ι K) : globalMult P' (moved R s e u) = moved R s e (globalMult P u) := global_same h u

end

/-- Change of description as a linear map on the vectors of unknowns. -/
noncomputable def movedL (R : Matrix Dir Dir ℝ) (s : ℝ) (e : ι ≃ ι') : (Slot ι → ℝ) →ₗ[ℝ] (Slot ι' → ℝ) where
  toFun x := flat (moved R s e (unflat x))
  map_add' x y := by
    funext ⟨f, d, i⟩
    show moved R s e (unflat (x + y)) f d i = moved R s e (unflat x) f d i + moved R s e (unflat y) f d i
    simp only [moved_eq, Function.comp, unflat, Pi.add_apply, along_add, mul_add]
  map_smul' c x := by
    funext ⟨f, d, i⟩
    show moved R s e (unflat (c • x)) f d i = c * moved R s e (unflat x) f d i
    simp only [moved_eq, Function.comp, unflat, Pi.smul_apply, smul_eq_mul, along_smul]
    ring

lemma eform_pos {M : FieldT → Matrix ι ι ℝ} (hM : ∀ u, u ≠ 0 → 0 < energy M u) (x : Slot ι → ℝ) (hx : x ≠ 0) : 0 < eform M x x := by
  rw [eform_self]
  exact hM _ fun h0 => hx (by rw [← flat_unflat x, h0]; rfl)

/-- Two problems whose operators a linear map intertwines: so it does their runs. -/
theorem run_images {q : Sdirk ℝ} (hq : Ideal33 q) {P : Prob ι ℝ} {M : FieldT → Matrix ι ι ℝ} (hP : Passive P M)
    {P' : Prob ι' ℝ} {M' : FieldT → Matrix ι' ι' ℝ} (hP' : Passive P' M')
    {A : Matrix (Slot ι) (Slot ι) ℝ} (hA : ∀ u : State ι ℝ, A.mulVec (flat u) = flat (globalMult P u))
    {A' : Matrix (Slot ι') (Slot ι') ℝ} (hA' : ∀ u : State ι' ℝ, A'.mulVec (flat u) = flat (globalMult P' u))
    {src : ℝ → Slot ι → ℝ} {src' : ℝ → Slot ι' → ℝ} {L : (Slot ι → ℝ) →ₗ[ℝ] (Slot ι' → ℝ)}
    (hL : ∀ u, L (flat (globalMult P u)) = flat (globalMult P' (unflat (L (flat u))))) (hsrc : ∀ t, L (src t) = src' t)
    (o : Ode) (dts : List ℝ) (hdts : ∀ dt ∈ dts, 0 ≤ dt) (u : State ι ℝ) (t : ℝ) :
    ∃ y c c', run q o (globalTdo A src) dts (flat u) t fresh = some (flat y, t + dts.sum, c) ∧
      run q o (globalTdo A' src') dts (L (flat u)) t fresh = some (L (flat y), t + dts.sum, c') := by
  have hA1 : ∀ x, L (A.mulVecLin x) = A'.mulVecLin (L x) := by
    intro x
    rw [Matrix.mulVecLin_apply, Matrix.mulVecLin_apply, ← flat_unflat x, hA, hL]
    conv_rhs => rw [← flat_unflat (L (flat (unflat x))), hA']
  obtain ⟨y, r, r', e, e'⟩ := run_intertwine hq (global_solves hP.good hP.alpha hP.sig hP.pos hA src)
    (global_solves hP'.good hP'.alpha hP'.sig hP'.pos hA' src') hA1 hsrc
    (eform_diss hP'.good hP'.alpha hP'.sig hP'.pos hA') (eform_pos hP'.pos) o dts (flat u) t fresh fresh hdts (good_fresh A)
    (good_fresh A')
  exact ⟨unflat y, r, r', e, e'⟩

/-- **C131**: so are the fields at the end of a run, with every integrator, any steps and any sources. -/
theorem C131_run (q : Sdirk ℝ) (hq : Ideal33 q) {R : Matrix Dir Dir ℝ} {s : ℝ} {e : ι ≃ ι'} {P : Prob ι ℝ} {P' : Prob ι' ℝ}
    (h : Redescribed R s e P P') (M : FieldT → Matrix ι ι ℝ) (hP : Passive P M) (M' : FieldT → Matrix ι' ι' ℝ) (hP' : Passive P' M')
    (A : Matrix (Slot ι) (Slot ι) ℝ) (hA : ∀ u : State ι ℝ, A.mulVec (flat u) = flat (globalMult P u))
    (A' : Matrix (Slot ι') (Slot ι') ℝ) (hA' : ∀ u : State ι' ℝ, A'.mulVec (flat u) = flat (globalMult P' u))
    (src : ℝ → State ι ℝ) (o : Ode) (dts : List ℝ) (hdts : ∀ dt ∈ dts, 0 ≤ dt) (u : State ι ℝ) (t : ℝ) :
    ∃ y c c', run q o (globalTdo A fun t => flat (src t)) dts (flat u) t fresh = some (flat y, t + dts.sum, c) ∧
      run q o (globalTdo A' fun t => flat (moved R s e (src t))) dts (flat (moved R s e u)) t fresh =
        some (flat (moved R s e y), t + dts.sum, c') :=
  run_images hq hP hP' hA hA' (L := movedL R s e)
    (by
      intro u
      show flat (moved R s e (globalMult P u)) = flat (globalMult P' (moved R s e u))
      rw [global_same h])
    (fun _ => rfl) o dts hdts u t

/-- **C131**: a symmetric problem keeps its symmetry: if the mesh, the materials and the conditions look the same in the new
description, and so do the initial fields and the sources, then so do the fields at every time. -/
theorem C131_symmetric (q : Sdirk ℝ) (hq : Ideal33 q) {R : Matrix Dir Dir ℝ} {s : ℝ} {e : ι ≃ ι} {P : Prob ι ℝ}
    (h : Redescribed R s e P P) (M : FieldT → Matrix ι ι ℝ) (hP : Passive P M)
    (A : Matrix (Slot ι) (Slot ι) ℝ) (hA : ∀ u : State ι ℝ, A.mulVec (flat u) = flat (globalMult P u))
    (src : ℝ → State ι ℝ) (hsrc : ∀ t, moved R s e (src t) = src t) (o : Ode) (dts : List ℝ) (hdts : ∀ dt ∈ dts, 0 ≤ dt)
    (u : State ι ℝ) (hu : moved R s e u = u) (t : ℝ) :
    ∃ y c, run q o (globalTdo A fun t => flat (src t)) dts (flat u) t fresh = some (flat y, t + dts.sum, c) ∧ moved R s e y = y := by
  obtain ⟨y, c, c', h1, h2⟩ := C131_run q hq h M hP M hP A hA A hA src o dts hdts u t
  simp only [hsrc, hu] at h2
  refine ⟨y, c, h1, ?_⟩
  rw [h1] at h2
  have := congrArg Prod.fst (Option.some.inj h2)
  exact (congrArg unflat this).symm

section
variable {K : Type} [Field K] [LinearOrder K] [IsStrictOrderedRing K]

/-- **C131**: the energy is the same in both descriptions. -/
theorem C131_energy {R : Matrix Dir Dir K} {s : K} (hR : Op.Spec.Frame R s) {e : ι ≃ ι'} {M : FieldT → Matrix ι ι K}
    {M' : FieldT → Matrix ι' ι' K} (hM : ∀ f r c, M' f (e r) (e c) = M f r c) (u : State ι K) :
    energy M' (moved R s e u) = energy M u := by
  have hf : ∀ f, (∑ d, moved R s e u f d ⬝ᵥ (M' f).mulVec (moved R s e u f d)) = ∑ d, u f d ⬝ᵥ (M f).mulVec (u f d) := by
    intro f
    have hp : parity s f * parity s f = 1 := by
      cases f
      · exact one_mul 1
      · exact hR.sq
    have h1 : ∀ d, moved R s e u f d ⬝ᵥ (M' f).mulVec (moved R s e u f d) = ∑ b, ∑ c, R d b * R d c * form (M f) (u f b) (u f c) := by
      intro d
      show form (M' f) (moved R s e u f d) (moved R s e u f d) = _
      rw [moved_eq, form_reindex (hM f), form_along]
      have : ∀ x : ι → K, form (M f) (fun i => parity s f * along R (fun b => u f b i) d) x =
          parity s f * ∑ b, R d b * form (M f) (u f b) x := by
        intro x
        unfold along
        simp only [form_eq, Fin.sum_univ_three, Finset.mul_sum, mul_add, add_mul, Finset.sum_add_distrib]
        congr 1
        · congr 1 <;> exact Finset.sum_congr rfl fun r _ => Finset.sum_congr rfl fun c _ => by ring
        · exact Finset.sum_congr rfl fun r _ => Finset.sum_congr rfl fun c _ => by ring
      unfold along at this ⊢
      simp only [Fin.sum_univ_three] at this ⊢
      rw [this, this, this]
      linear_combination (R d 0 * (R d 0 * form (M f) (u f 0) (u f 0) + R d 1 * form (M f) (u f 1) (u f 0) + R d 2 * form (M f) (u f 2) (u f 0)) +
        R d 1 * (R d 0 * form (M f) (u f 0) (u f 1) + R d 1 * form (M f) (u f 1) (u f 1) + R d 2 * form (M f) (u f 2) (u f 1)) +
        R d 2 * (R d 0 * form (M f) (u f 0) (u f 2) + R d 1 * form (M f) (u f 1) (u f 2) + R d 2 * form (M f) (u f 2) (u f 2))) * hp
    simp only [h1]
    have h2 : ∑ d, ∑ b, ∑ c, R d b * R d c * form (M f) (u f b) (u f c) = ∑ b, ∑ c, (∑ d, R d b * R d c) * form (M f) (u f b) (u f c) := by
      simp only [Fin.sum_univ_three]
      ring
    rw [h2]
    simp only [hR.cols, ite_mul, one_mul, zero_mul, Finset.sum_ite_eq, Finset.mem_univ, if_true]
    rfl
  unfold energy
  rw [Finset.sum_add_distrib, Finset.sum_add_distrib, hf, hf]

end

/-! ### C132 -/

section
variable {K : Type} [Field K] [LinearOrder K] [IsStrictOrderedRing K]

/-- Mirror of one axis. -/
def mirror (a : Dir) : Matrix Dir Dir K := Matrix.diagonal fun d => if d = a then -1 else 1

lemma mirror_frame (a : Dir) : Op.Spec.Frame (mirror a : Matrix Dir Dir K) (-1) where
  orth := by
    unfold mirror
    rw [Matrix.diagonal_transpose, Matrix.diagonal_mul_diagonal, ← Matrix.diagonal_one]
    congr 1
    funext d
    by_cases h : d = a <;> simp [h]
  det := by
    unfold mirror
    rw [Matrix.det_diagonal]
    fin_cases a <;> simp [Fin.prod_univ_three]

lemma along_mirror (a : Dir) (t : Dir → K) (d : Dir) : along (mirror a) t d = if d = a then -t d else t d := by
  unfold along mirror
  rw [Finset.sum_eq_single d]
  · rw [Matrix.diagonal_apply_eq]
    split_ifs <;> ring
  · intro b _ hb
    rw [Matrix.diagonal_apply_ne _ hb.symm, zero_mul]
  · simp

lemma normalTerm_beyond {n : List K} {d : Dir} (h : n.length ≤ d.val) : normalTerm n d = 0 := by
  unfold normalTerm
  simp [Nat.not_lt.2 h]

/-- A problem does not change if an axis on which nothing depends is mirrored. -/
lemma mirror_same (P : Prob ι K) (hn : ∀ f ∈ allFaces P, ∀ p ∈ f.pts, p.nor.length = P.dim) (a : Dir) (ha : P.dim ≤ a.val) :
    Redescribed (mirror a) (-1) (Equiv.refl ι) P P := by
  have pt : ∀ (F : Face ι K), F ∈ allFaces P → ∀ p ∈ F.pts, SamePt (mirror a) (Equiv.refl ι) false F F p p := by
    intro F hF p hp
    refine ⟨rfl, rfl, fun b => ?_, fun x => rfl, fun x => rfl⟩
    simp only [Bool.false_eq_true, if_false, one_mul]
    rw [along_mirror]
    split_ifs with hb
    · subst hb
      rw [normalTerm_beyond (by rw [hn F hF p hp]; exact ha), neg_zero]
    · rfl
  have face : ∀ q : Option BdrCond × Face ι K, q.2 ∈ allFaces P → SameFace (mirror a) (Equiv.refl ι) q q := by
    intro q hq
    exact ⟨rfl, false, q.2.pts, List.Perm.refl _, List.forall₂_same.2 fun p hp => pt q.2 hq p hp⟩
  refine ⟨mirror_frame a, rfl, ⟨_, List.Perm.refl _, List.forall₂_same.2 fun q hq => face q ?_⟩,
    ⟨_, List.Perm.refl _, List.forall₂_same.2 fun q hq => face q ?_⟩, fun _ _ _ => rfl, fun _ _ => rfl, ?_, hn, hn⟩
  · exact List.mem_append_left _ (List.mem_map_of_mem hq)
  · exact List.mem_append_right _ (List.mem_map_of_mem hq)
  · intro b r c
    have := along_mirror a (fun b => partialD P b r c) b
    unfold along at this
    rw [this]
    split_ifs with hb
    · subst hb
      have : partialD P b = 0 := by
        unfold partialD
        rw [if_neg (by omega)]
      simp [this]
    · rfl

lemma moved_mirror (a : Dir) (u : State ι K) (f : FieldT) (d : Dir) :
    moved (mirror a) (-1) (Equiv.refl ι) u f d = if (f = .E) = (d = a) then -u f d else u f d := by
  funext i
  rw [moved_eq]
  simp only [Function.comp, Equiv.refl_symm, Equiv.refl_apply, along_mirror]
  cases f <;> by_cases h : d = a <;> simp [h, parity]

lemma globalMult_lin (P : Prob ι K) (a b : K) (u v : State ι K) :
    globalMult P (a • u + b • v) = a • globalMult P u + b • globalMult P v := by
  obtain ⟨A, hA⟩ := exists_matrix P
  have e : flat (globalMult P (a • u + b • v)) = a • flat (globalMult P u) + b • flat (globalMult P v) := by
    rw [← hA, ← hA, ← hA]
    have : flat (a • u + b • v) = a • flat u + b • flat v := rfl
    rw [this, Matrix.mulVec_add, Matrix.mulVec_smul, Matrix.mulVec_smul]
  exact congrArg unflat e

/-- The even (`c = 1`) or odd (`c = -1`) part under the mirror of an axis. -/
def half (a : Dir) (c : K) (u : State ι K) : State ι K := (1 / 2 : K) • u + (c / 2) • moved (mirror a) (-1) (Equiv.refl ι) u

lemma global_half (P : Prob ι K) (hn : ∀ f ∈ allFaces P, ∀ p ∈ f.pts, p.nor.length = P.dim) (a : Dir) (ha : P.dim ≤ a.val) (c : K)
    (u : State ι K) : globalMult P (half a c u) = half a c (globalMult P u) := by
  unfold half
  rw [globalMult_lin, global_same (mirror_same P hn a ha)]

lemma half_apply (a : Dir) (c : K) (u : State ι K) (f : FieldT) (d : Dir) (i : ι) :
    half a c u f d i = (1 / 2 + c / 2 * if (f = .E) = (d = a) then -1 else 1) * u f d i := by
  unfold half
  show 1 / 2 * u f d i + c / 2 * moved (mirror a) (-1) (Equiv.refl ι) u f d i = _
  rw [moved_mirror]
  split_ifs <;> simp <;> ring

/-- **C132**: on a line and in the plane the fields split into sets of components that do not act on each other. -/
theorem C132_operator (P : Prob ι K) (hn : ∀ f ∈ allFaces P, ∀ p ∈ f.pts, p.nor.length = P.dim) (S : FieldT → Dir → Bool)
    (hS : S ∈ modes P.dim) (u : State ι K) : globalMult P (keep S u) = keep S (globalMult P u) := by
  unfold modes at hS
  split_ifs at hS with h1 h2
  · have g1 := fun c => global_half P hn 1 h1 c
    have g2 := fun c => global_half P hn 2 (h1.trans (by decide)) c
    have key : ∃ c1 c2 : K, ∀ u : State ι K, keep S u = half 1 c1 (half 2 c2 u) := by
      simp only [List.mem_cons, List.not_mem_nil, or_false] at hS
      rcases hS with rfl | rfl | rfl | rfl
      · refine ⟨-1, 1, fun u => ?_⟩
        funext f d i
        rw [half_apply, half_apply]
        cases f <;> fin_cases d <;> simp [keep] <;> ring_nf <;> simp
      · refine ⟨1, -1, fun u => ?_⟩
        funext f d i
        rw [half_apply, half_apply]
        cases f <;> fin_cases d <;> simp [keep] <;> ring_nf <;> simp
      · refine ⟨1, 1, fun u => ?_⟩
        funext f d i
        rw [half_apply, half_apply]
        cases f <;> fin_cases d <;> simp [keep] <;> ring_nf <;> simp
      · refine ⟨-1, -1, fun u => ?_⟩
        funext f d i
        rw [half_apply, half_apply]
        cases f <;> fin_cases d <;> simp [keep] <;> ring_nf <;> simp
    obtain ⟨c1, c2, hk⟩ := key
    rw [hk, hk, g1, g2]
  · have g2 := fun c => global_half P hn 2 (by rw [h2]; decide) c
    have key : ∃ c2 : K, ∀ u : State ι K, keep S u = half 2 c2 u := by
      simp only [List.mem_cons, List.not_mem_nil, or_false] at hS
      rcases hS with rfl | rfl
      · refine ⟨-1, fun u => ?_⟩
        funext f d i
        rw [half_apply]
        cases f <;> fin_cases d <;> simp [keep] <;> ring_nf <;> simp
      · refine ⟨1, fun u => ?_⟩
        funext f d i
        rw [half_apply]
        cases f <;> fin_cases d <;> simp [keep] <;> ring_nf <;> simp
    obtain ⟨c2, hk⟩ := key
    rw [hk, hk, g2]
  · simp at hS

/-- **C132**: the sets share no component and, on a line and in the plane, leave none out. -/
theorem C132_all (dim : Nat) (hd : dim ≤ 2) (f : FieldT) (d : Dir) : ((modes dim).filter fun S => S f d).length = 1 := by
  interval_cases dim <;> cases f <;> fin_cases d <;> rfl

end

/-- Choice of components as a linear map. -/
noncomputable def keepL (S : FieldT → Dir → Bool) : (Slot ι → ℝ) →ₗ[ℝ] (Slot ι → ℝ) where
  toFun x := flat (keep S (unflat x))
  map_add' x y := by
    funext ⟨f, d, i⟩
    show (if S f d then x (f, d, i) + y (f, d, i) else 0) = (if S f d then x (f, d, i) else 0) + (if S f d then y (f, d, i) else 0)
    split_ifs <;> simp
  map_smul' c x := by
    funext ⟨f, d, i⟩
    show (if S f d then c * x (f, d, i) else 0) = c * (if S f d then x (f, d, i) else 0)
    split_ifs <;> simp

/-- **C132**: with every integrator, any steps and any sources, the part of a run in one of the sets is the run of that part of the
initial fields and of the sources: whatever is fed to the other components has no effect on it. -/
theorem C132_run (q : Sdirk ℝ) (hq : Ideal33 q) (P : Prob ι ℝ) (M : FieldT → Matrix ι ι ℝ) (hP : Passive P M)
    (A : Matrix (Slot ι) (Slot ι) ℝ) (hA : ∀ u : State ι ℝ, A.mulVec (flat u) = flat (globalMult P u))
    (S : FieldT → Dir → Bool) (hS : S ∈ modes P.dim) (src : ℝ → State ι ℝ) (o : Ode) (dts : List ℝ) (hdts : ∀ dt ∈ dts, 0 ≤ dt)
    (u : State ι ℝ) (t : ℝ) :
    ∃ y c c', run q o (globalTdo A fun t => flat (src t)) dts (flat u) t fresh = some (flat y, t + dts.sum, c) ∧
      run q o (globalTdo A fun t => flat (keep S (src t))) dts (flat (keep S u)) t fresh = some (flat (keep S y), t + dts.sum, c') :=
  run_images hq hP hP hA hA (L := keepL S)
    (by
      intro u
      show flat (keep S (globalMult P u)) = flat (globalMult P (keep S u))
      rw [C132_operator P (fun f hf p hp => (hP.good.pts f hf p hp).size) S hS])
    (fun _ => rfl) o dts hdts u t

/-! ### a line of two elements -/

section line
variable (K : Type) [Field K] [LinearOrder K] [IsStrictOrderedRing K]

def linePt (n a1 b1 a2 b2 : K) : Pt K :=
  { w := 1, W := 1, nor := [n], sh1 := fun i => if i = 0 then a1 else b1, sh2 := fun i => if i = 0 then a2 else b2 }

def lineInt : Face (Fin 4) K :=
  { ndof1 := 2, ndof2 := 2, dofs := fun i => if h : i < 4 then ⟨i, h⟩ else 0, pts := [linePt K 1 0 1 1 0] }

def lineL : Face (Fin 4) K := { ndof1 := 2, ndof2 := 0, dofs := fun i => if i = 0 then 0 else 1, pts := [linePt K (-1) 1 0 0 0] }

def lineR : Face (Fin 4) K := { ndof1 := 2, ndof2 := 0, dofs := fun i => if i = 0 then 2 else 3, pts := [linePt K 1 0 1 0 0] }

def lineMass : Matrix (Fin 4) (Fin 4) K := !![1/3, 1/6, 0, 0; 1/6, 1/3, 0, 0; 0, 0, 1/3, 1/6; 0, 0, 1/6, 1/3]

def lineMinv : Matrix (Fin 4) (Fin 4) K := !![4, -2, 0, 0; -2, 4, 0, 0; 0, 0, 4, -2; 0, 0, -2, 4]

def lineD : Matrix (Fin 4) (Fin 4) K := !![-1/2, 1/2, 0, 0; -1/2, 1/2, 0, 0; 0, 0, -1/2, 1/2; 0, 0, -1/2, 1/2]

/-- Two linear elements on a line, with a condition for the face between them and for the two ends. -/
def line (alpha : K) (mid : Option BdrCond) (left right : BdrCond) : Prob (Fin 4) K :=
  { dim := 1, alpha := alpha, interior := [(mid, lineInt K)], bdr := [(some left, lineL K), (some right, lineR K)]
    Minv := fun _ => lineMinv K, Msig := 0, D := fun _ => lineD K }

variable {K}

lemma line_size (alpha : K) (mid : Option BdrCond) (left right : BdrCond) :
    ∀ f ∈ allFaces (line K alpha mid left right), ∀ p ∈ f.pts, GoodPt 1 p := by
  intro f hf p hp
  simp only [allFaces, line, List.map_cons, List.map_nil, List.cons_append, List.nil_append,
    List.mem_cons, List.not_mem_nil, or_false] at hf
  rcases hf with rfl | rfl | rfl <;> simp only [lineInt, lineL, lineR, List.mem_singleton] at hp <;> subst hp <;>
    constructor <;> simp [linePt, normalTerm]

lemma line_good (alpha : K) (mid : Option BdrCond) (hm : mid ≠ some .SGBC) (left right : BdrCond) :
    Op.Spec.Good (line K alpha mid left right) (fun _ => lineMass K) := by
  refine ⟨by simp [line], line_size alpha mid left right, ?_, ?_, ?_, ?_, ?_, ?_⟩
  · intro d hd v u
    have : d = 0 := by apply Fin.ext; simp [line] at hd; simp [hd]
    subst this
    simp only [allFaces, line, List.map_cons, List.map_nil, List.cons_append, List.nil_append,
      List.sum_cons, List.sum_nil, faceBoundary, lineInt, lineL, lineR, linePt, tr1, tr2, normalTerm,
      Matrix.mulVec, dotProduct, Fin.sum_univ_four, lineD, Finset.sum_range_succ, Finset.sum_range_zero]
    simp
    ring
  · intro q hq; simp [line] at hq; rcases hq with rfl | rfl <;> simp
  · intro q hq; simp [line] at hq; rcases hq with rfl | rfl <;> simp [lineL, lineR]
  · intro q hq; simp [line] at hq; subst hq; exact hm
  · intro f
    simp only [line]
    ext i j
    fin_cases i <;> fin_cases j <;> simp [Matrix.mul_apply, Fin.sum_univ_four, lineMass, lineMinv] <;> norm_num
  · intro f
    ext i j
    fin_cases i <;> fin_cases j <;> simp [lineMass]

lemma lineMass_pos (v : Fin 4 → K) : 0 ≤ v ⬝ᵥ (lineMass K).mulVec v ∧ (v ⬝ᵥ (lineMass K).mulVec v = 0 → v = 0) := by
  have e : v ⬝ᵥ (lineMass K).mulVec v = 1 / 6 * (v 0 ^ 2 + v 1 ^ 2 + (v 0 + v 1) ^ 2) +
      1 / 6 * (v 2 ^ 2 + v 3 ^ 2 + (v 2 + v 3) ^ 2) := by
    simp [lineMass, dotProduct, Matrix.mulVec, Fin.sum_univ_four]
    ring
  rw [e]
  have q := fun i => sq_nonneg (v i)
  have q0 := q 0
  have q1 := q 1
  have q2 := q 2
  have q3 := q 3
  have q4 := sq_nonneg (v 0 + v 1)
  have q5 := sq_nonneg (v 2 + v 3)
  refine ⟨by positivity, fun h => ?_⟩
  have h0 : v 0 ^ 2 = 0 := by linarith
  have h1 : v 1 ^ 2 = 0 := by linarith
  have h2 : v 2 ^ 2 = 0 := by linarith
  have h3 : v 3 ^ 2 = 0 := by linarith
  simp only [ne_eq, OfNat.ofNat_ne_zero, not_false_eq_true, pow_eq_zero_iff] at h0 h1 h2 h3
  funext i
  fin_cases i <;> simp [h0, h1, h2, h3]

/-- The line can only lose energy. -/
lemma line_passive (alpha : K) (ha : 0 ≤ alpha) (mid : Option BdrCond) (hm : mid ≠ some .SGBC) (left right : BdrCond) :
    Passive (line K alpha mid left right) (fun _ => lineMass K) := by
  refine ⟨line_good alpha mid hm left right, ha, fun v => by simp [line], fun u hu => ?_⟩
  have h0 : 0 ≤ energy (fun _ => lineMass K) u := by
    unfold energy
    exact mul_nonneg (by norm_num) (Finset.sum_nonneg fun d _ => add_nonneg (lineMass_pos _).1 (lineMass_pos _).1)
  rcases h0.lt_or_eq with h | h
  · exact h
  · exfalso
    apply hu
    unfold energy at h
    have hs : ∑ d : Dir, (u .E d ⬝ᵥ (lineMass K).mulVec (u .E d) + u .H d ⬝ᵥ (lineMass K).mulVec (u .H d)) = 0 := by linarith
    rw [Finset.sum_eq_zero_iff_of_nonneg (fun d _ => add_nonneg (lineMass_pos _).1 (lineMass_pos _).1)] at hs
    funext f d
    have := hs d (Finset.mem_univ d)
    have a := lineMass_pos (u .E d)
    have b := lineMass_pos (u .H d)
    cases f
    · exact a.2 (by linarith [a.1, b.1])
    · exact b.2 (by linarith [a.1, b.1])

/-- The line read from right to left is the line with its ends exchanged: the first axis is mirrored, the unknowns are numbered
backwards, the exterior faces change places and the face between the elements changes its first side. -/
lemma line_mirrored (alpha : K) (mid : Option BdrCond) (left right : BdrCond) :
    Redescribed (mirror 0) (-1) (Fin.revPerm : Fin 4 ≃ Fin 4) (line K alpha mid left right) (line K alpha mid right left) := by
  have hsz := fun l r => fun f hf p hp => (line_size (K := K) alpha mid l r f hf p hp).size
  refine ⟨mirror_frame 0, rfl, ⟨_, List.Perm.refl _, .cons ⟨rfl, true, _, List.Perm.refl _, .cons ?_ .nil⟩ .nil⟩,
    ⟨[(some right, lineR K), (some left, lineL K)], List.Perm.swap _ _ _,
      .cons ⟨rfl, false, _, List.Perm.refl _, .cons ?_ .nil⟩ (.cons ⟨rfl, false, _, List.Perm.refl _, .cons ?_ .nil⟩ .nil)⟩,
    ?_, fun _ _ => rfl, ?_, hsz left right, hsz right left⟩
  · refine ⟨rfl, rfl, fun a => ?_, fun x => ?_, fun x => ?_⟩
    · rw [along_mirror]
      fin_cases a <;> simp [linePt, normalTerm]
    · simp [tr1, tr2, lineInt, linePt, Finset.sum_range_succ, Fin.revPerm, Fin.rev]
    · simp [tr1, tr2, lineInt, linePt, Finset.sum_range_succ, Fin.revPerm, Fin.rev]
  · refine ⟨rfl, rfl, fun a => ?_, fun x => ?_, fun x => ?_⟩
    · rw [along_mirror]
      fin_cases a <;> simp [linePt, normalTerm]
    · simp [tr1, tr2, lineL, lineR, linePt, Finset.sum_range_succ, Fin.revPerm, Fin.rev]
    · simp [tr1, tr2, lineL, lineR, linePt, Fin.revPerm, Fin.rev]
  · refine ⟨rfl, rfl, fun a => ?_, fun x => ?_, fun x => ?_⟩
    · rw [along_mirror]
      fin_cases a <;> simp [linePt, normalTerm]
    · simp [tr1, tr2, lineL, lineR, linePt, Finset.sum_range_succ, Fin.revPerm, Fin.rev]
    · simp [tr1, tr2, lineL, lineR, linePt, Fin.revPerm, Fin.rev]
  · intro f r c
    show lineMinv K _ _ = lineMinv K _ _
    fin_cases r <;> fin_cases c <;> simp [lineMinv, Fin.revPerm, Fin.rev]
  · intro a r c
    have := along_mirror 0 (fun b => partialD (line K alpha mid left right) b r c) a
    unfold along at this
    rw [this]
    fin_cases a <;> fin_cases r <;> fin_cases c <;> simp [partialD, line, lineD, Fin.revPerm, Fin.rev] <;> norm_num

end line

/-- The line mirrored: rates, runs and energies agree. -/
example (q : Sdirk ℝ) (hq : Ideal33 q) (A : Matrix (Slot (Fin 4)) (Slot (Fin 4)) ℝ)
    (hA : ∀ u : State (Fin 4) ℝ, A.mulVec (flat u) = flat (globalMult (line ℝ 1 none .PEC .SMA) u))
    (A' : Matrix (Slot (Fin 4)) (Slot (Fin 4)) ℝ)
    (hA' : ∀ u : State (Fin 4) ℝ, A'.mulVec (flat u) = flat (globalMult (line ℝ 1 none .SMA .PEC) u)) (src : ℝ → State (Fin 4) ℝ)
    (u : State (Fin 4) ℝ) (o : Ode) :
    ∃ y c c', run q o (globalTdo A fun t => flat (src t)) [0.1, 0.2, 0.1] (flat u) 0 fresh = some (flat y, 0 + [0.1, 0.2, 0.1].sum, c) ∧
      run q o (globalTdo A' fun t => flat (moved (mirror 0) (-1) Fin.revPerm (src t))) [0.1, 0.2, 0.1]
        (flat (moved (mirror 0) (-1) Fin.revPerm u)) 0 fresh =
        some (flat (moved (mirror 0) (-1) Fin.revPerm y), 0 + [0.1, 0.2, 0.1].sum, c') :=
  C131_run q hq (line_mirrored 1 none .PEC .SMA) _ (line_passive 1 (by norm_num) none (by simp) _ _) _
    (line_passive 1 (by norm_num) none (by simp) _ _) A hA A' hA' src o _ (by
      intro dt h
      simp only [List.mem_cons, List.not_mem_nil, or_false] at h
      rcases h with rfl | rfl | rfl <;> norm_num) u 0

/-- A line with equal ends is its own mirror image. -/
example : Redescribed (mirror 0) (-1) (Fin.revPerm : Fin 4 ≃ Fin 4) (line ℚ 1 none .PEC .PEC) (line ℚ 1 none .PEC .PEC) :=
  line_mirrored 1 none .PEC .PEC

/-- `E_y = (1, 2, 3, 5)`, `E_z = (0, 0, 1, 0)`: the first mode does not notice the second, and both change. -/
def lineU : State (Fin 4) ℚ
  | .E, d => if d = 1 then ![1, 2, 3, 5] else if d = 2 then ![0, 0, 1, 0] else 0
  | .H, _ => 0

example : ∃ S ∈ modes 1, globalMult (line ℚ 1 none .PEC .SMA) (keep S lineU) = keep S (globalMult (line ℚ 1 none .PEC .SMA) lineU) ∧
    keep S lineU ≠ lineU ∧ keep S (globalMult (line ℚ 1 none .PEC .SMA) lineU) .H 2 0 ≠ 0 :=
  ⟨_, List.mem_cons_self, C132_operator _ (fun f hf p hp => (line_size 1 none .PEC .SMA f hf p hp).size) _ List.mem_cons_self _,
    by
      intro h
      have := congrFun (congrFun (congrFun h .E) 2) 2
      revert this
      decide +kernel,
    by decide +kernel⟩

end Dgtd.Frame
