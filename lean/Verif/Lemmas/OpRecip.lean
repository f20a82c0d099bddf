/-
Reciprocity of the global operator.
-/
import Verif.Lemmas.OpFrame
import Verif.Spec.OpRecip
import Verif.Props.Energy
import Verif.Props.ImplicitEnergy

set_option linter.unusedSectionVars false

namespace Dgtd.Op

open Spec

variable {ι K : Type} [Fintype ι] [DecidableEq ι] [Field K] [LinearOrder K] [IsStrictOrderedRing K]

/-! ### linearity in the test function -/

lemma tr1_lin (F : Face ι K) (p : Pt K) (a b : K) (x y : ι → K) : tr1 F p (a • x + b • y) = a * tr1 F p x + b * tr1 F p y := by
  unfold tr1
  rw [Finset.mul_sum, Finset.mul_sum, ← Finset.sum_add_distrib]
  exact Finset.sum_congr rfl fun i _ => by simp only [Pi.add_apply, Pi.smul_apply, smul_eq_mul]; ring

lemma tr2_lin (F : Face ι K) (p : Pt K) (a b : K) (x y : ι → K) : tr2 F p (a • x + b • y) = a * tr2 F p x + b * tr2 F p y := by
  unfold tr2
  rw [Finset.mul_sum, Finset.mul_sum, ← Finset.sum_add_distrib]
  exact Finset.sum_congr rfl fun i _ => by simp only [Pi.add_apply, Pi.smul_apply, smul_eq_mul]; ring

lemma list_lin {α : Type} (l : List α) (g h k : α → K) (a b : K) (e : ∀ q, g q = a * h q + b * k q) :
    (l.map g).sum = a * (l.map h).sum + b * (l.map k).sum := by
  induction l with
  | nil => simp
  | cons q l ih => simp only [List.map_cons, List.sum_cons, ih, e]; ring

lemma plainTerm_lin (u : State ι K) (f : FieldT) (d : Dir) (bf bp : K) (F : Face ι K) (a b : K) (x y : ι → K) :
    plainTerm u f d bf bp F (a • x + b • y) = a * plainTerm u f d bf bp F x + b * plainTerm u f d bf bp F y := by
  unfold plainTerm
  refine list_lin _ _ _ _ a b fun p => ?_
  rw [tr1_lin, tr2_lin]
  unfold plainPt
  ring

lemma wallTerm_lin (u : State ι K) (f : FieldT) (d : Dir) (bf bp : K) (F : Face ι K) (a b : K) (x y : ι → K) :
    wallTerm u f d bf bp F (a • x + b • y) = a * wallTerm u f d bf bp F x + b * wallTerm u f d bf bp F y := by
  unfold wallTerm
  refine list_lin _ _ _ _ a b fun p => ?_
  rw [tr1_lin, tr2_lin]
  unfold wallPt
  ring

lemma form_lin (A : Matrix ι ι K) (a b : K) (x y u : ι → K) : form A (a • x + b • y) u = a * form A x u + b * form A y u := by
  unfold form
  rw [add_dotProduct, smul_dotProduct, smul_dotProduct, smul_eq_mul, smul_eq_mul]

lemma interiorTerm_lin (alpha : K) (u : State ι K) (f : FieldT) (d : Dir) (c : Option BdrCond) (F : Face ι K) (a b : K) (x y : ι → K) :
    interiorTerm alpha u f d (a • x + b • y) c F = a * interiorTerm alpha u f d x c F + b * interiorTerm alpha u f d y c F := by
  cases c with
  | none => exact plainTerm_lin u f d _ _ F a b x y
  | some c =>
    cases c with
    | SGBC => simp [interiorTerm]
    | PEC => exact wallTerm_lin u f d _ _ F a b x y
    | PMC => exact wallTerm_lin u f d _ _ F a b x y
    | SMA => exact wallTerm_lin u f d _ _ F a b x y

lemma exteriorTerm_lin (alpha : K) (u : State ι K) (f : FieldT) (d : Dir) (c : Option BdrCond) (F : Face ι K) (a b : K) (x y : ι → K) :
    exteriorTerm alpha u f d (a • x + b • y) c F = a * exteriorTerm alpha u f d x c F + b * exteriorTerm alpha u f d y c F := by
  cases c with
  | none => simp [exteriorTerm]
  | some c => exact plainTerm_lin u f d _ _ F a b x y

lemma weak_lin (P : Prob ι K) (u : State ι K) (f : FieldT) (d : Dir) (a b : K) (x y : ι → K) :
    weak P u f d (a • x + b • y) = a * weak P u f d x + b * weak P u f d y := by
  have hi := list_lin P.interior (fun q => interiorTerm P.alpha u f d (a • x + b • y) q.1 q.2)
    (fun q => interiorTerm P.alpha u f d x q.1 q.2) (fun q => interiorTerm P.alpha u f d y q.1 q.2) a b fun q =>
    interiorTerm_lin P.alpha u f d q.1 q.2 a b x y
  have he := list_lin P.bdr (fun q => exteriorTerm P.alpha u f d (a • x + b • y) q.1 q.2)
    (fun q => exteriorTerm P.alpha u f d x q.1 q.2) (fun q => exteriorTerm P.alpha u f d y q.1 q.2) a b fun q =>
    exteriorTerm_lin P.alpha u f d q.1 q.2 a b x y
  rw [weak_faces, weak_faces, weak_faces, hi, he]
  have hc : curlTerm P u f d (a • x + b • y) = a * curlTerm P u f d x + b * curlTerm P u f d y := by
    unfold curlTerm
    rw [form_lin, form_lin]
    ring
  have hl : lossTerm P u f d (a • x + b • y) = a * lossTerm P u f d x + b * lossTerm P u f d y := by
    cases f
    · exact form_lin _ a b x y _
    · simp [lossTerm]
  rw [hc, hl]
  ring

/-- The tested rate. -/
lemma weak_test (P : Prob ι K) {M : FieldT → Matrix ι ι K} (h : Good P M) (u : State ι K) (f : FieldT) (d : Dir) (x : ι → K) :
    x ⬝ᵥ (M f).mulVec (globalMult P u f d) = weak P u f d x := by
  let L : (ι → K) →ₗ[K] K :=
    { toFun := weak P u f d
      map_add' := fun x y => by
        have := weak_lin P u f d 1 1 x y
        simpa using this
      map_smul' := fun c x => by
        have := weak_lin P u f d c 0 x x
        simpa using this }
  have e : weak P u f d x = L x := rfl
  rw [e, LinearMap.pi_apply_eq_sum_univ L x]
  unfold dotProduct
  refine Finset.sum_congr rfl fun c _ => ?_
  rw [weak_mass P (fun f hf p hp => (h.pts f hf p hp).size) h.inv u f d c, smul_eq_mul]
  congr 1
  show weak P u f d _ = weak P u f d _
  congr 1
  funext j
  simp only [Pi.single_apply, eq_comm]

/-! ### one field alone -/

/-- Only one of the two fields. -/
def only (g : FieldT) (u : State ι K) : State ι K := fun f d i => if f = g then u f d i else 0

lemma only_self (g : FieldT) (u : State ι K) (d : Dir) : only g u g d = u g d := by
  funext i
  simp [only]

lemma only_alt (g : FieldT) (u : State ι K) (d : Dir) : only g u (altField g) d = 0 := by
  funext i
  cases g <;> simp [only, altField]

lemma only_add (u : State ι K) : only .E u + only .H u = u := by
  funext f d i
  show only .E u f d i + only .H u f d i = _
  cases f <;> simp [only]

lemma sum_list_comm {α : Type} (l : List α) (g : Dir → α → K) : ∑ d, (l.map (g d)).sum = (l.map fun q => ∑ d, g d q).sum := by
  induction l with
  | nil => simp
  | cons q l ih => simp only [List.map_cons, List.sum_cons, Finset.sum_add_distrib, ih]

lemma first_zero' (F : Face ι K) (p : Pt K) : tr1 F p (0 : ι → K) = 0 := by simp [tr1]

lemma second_zero' (F : Face ι K) (p : Pt K) : tr2 F p (0 : ι → K) = 0 := by simp [tr2]

lemma plain_symm (f : FieldT) (bf bp : K) (F : Face ι K) (u v : State ι K) :
    ∑ d, plainTerm (only f v) f d bf bp F (u f d) = ∑ d, plainTerm (only f u) f d bf bp F (v f d) := by
  unfold plainTerm
  rw [sum_list_comm, sum_list_comm]
  congr 1
  refine List.map_congr_left fun p _ => ?_
  simp only [only_self, only_alt, first_zero', second_zero', plainPt, crossT, pen, Fin.sum_univ_three]
  ring

lemma wall_symm (f : FieldT) (bf bp : K) (F : Face ι K) (u v : State ι K) :
    ∑ d, wallTerm (only f v) f d bf bp F (u f d) = ∑ d, wallTerm (only f u) f d bf bp F (v f d) := by
  unfold wallTerm
  rw [sum_list_comm, sum_list_comm]
  congr 1
  refine List.map_congr_left fun p _ => ?_
  simp only [only_self, only_alt, first_zero', second_zero', wallPt, crossT, pen, Fin.sum_univ_three]
  ring

lemma form_symm {A : Matrix ι ι K} (h : A.transpose = A) (x y : ι → K) : form A x y = form A y x := by
  unfold form
  rw [Matrix.dotProduct_mulVec, ← Matrix.mulVec_transpose, h, dotProduct_comm]

lemma weak_symm (P : Prob ι K) (hs : P.Msig.transpose = P.Msig) (f : FieldT) (u v : State ι K) :
    ∑ d, weak P (only f v) f d (u f d) = ∑ d, weak P (only f u) f d (v f d) := by
  simp only [weak_faces, Finset.sum_sub_distrib, Finset.sum_add_distrib]
  rw [sum_list_comm, sum_list_comm, sum_list_comm, sum_list_comm]
  congr 1
  · congr 1
    · congr 1
      · simp only [curlTerm, only_alt]
        simp [form]
      · congr 1
        refine List.map_congr_left fun q _ => ?_
        obtain ⟨c, F⟩ := q
        cases c with
        | none => exact plain_symm f _ _ F u v
        | some c =>
          cases c with
          | SGBC => rfl
          | PEC => exact wall_symm f _ _ F u v
          | PMC => exact wall_symm f _ _ F u v
          | SMA => exact wall_symm f _ _ F u v
    · congr 1
      refine List.map_congr_left fun q _ => ?_
      obtain ⟨c, F⟩ := q
      cases c with
      | none => rfl
      | some c => exact plain_symm f _ _ F u v
  · cases f with
    | E =>
      refine Finset.sum_congr rfl fun d _ => ?_
      show form P.Msig (u .E d) (only .E v .E d) = form P.Msig (v .E d) (only .E u .E d)
      rw [only_self, only_self, form_symm hs]
    | H => rfl

/-! ### both fields -/

/-- The magnetic field reversed. -/
def flipH (u : State ι K) : State ι K
  | .E => u .E
  | .H => fun d i => -u .H d i

lemma tr1_neg (F : Face ι K) (p : Pt K) (x : ι → K) : tr1 F p (fun i => -x i) = -tr1 F p x := by
  unfold tr1
  rw [← Finset.sum_neg_distrib]
  exact Finset.sum_congr rfl fun i _ => by ring

lemma tr2_neg (F : Face ι K) (p : Pt K) (x : ι → K) : tr2 F p (fun i => -x i) = -tr2 F p x := by
  unfold tr2
  rw [← Finset.sum_neg_distrib]
  exact Finset.sum_congr rfl fun i _ => by ring

lemma tanSq_neg (p : Pt K) (v w : Dir → K) (h : ∀ d, w d = -v d) : tanSq p w = tanSq p v := by
  unfold tanSq
  simp only [h]
  ring

lemma dissipation_flip (P : Prob ι K) (u : State ι K) : dissipation P (flipH u) = dissipation P u := by
  have e1 : ∀ (F : Face ι K) (p : Pt K) (d : Dir), tr1 F p (flipH u .H d) = -tr1 F p (u .H d) := fun F p d => tr1_neg F p _
  have e2 : ∀ (F : Face ι K) (p : Pt K) (d : Dir), tr2 F p (flipH u .H d) = -tr2 F p (u .H d) := fun F p d => tr2_neg F p _
  have e3 : ∀ d, flipH u .E d = u .E d := fun d => rfl
  have i : ∀ F : Face ι K, dissInterior P.alpha F (flipH u) = dissInterior P.alpha F u := by
    intro F
    unfold dissInterior
    congr 1
    refine List.map_congr_left fun p _ => ?_
    simp only [e1, e2, e3]
    rw [tanSq_neg p (fun d => tr1 F p (u .H d) - tr2 F p (u .H d)) (fun d => -tr1 F p (u .H d) - -tr2 F p (u .H d)) fun d => by ring]
  have b : ∀ (c : BdrCond) (F : Face ι K), dissBdr P.alpha c F (flipH u) = dissBdr P.alpha c F u := by
    intro c F
    unfold dissBdr
    congr 1
    refine List.map_congr_left fun p _ => ?_
    simp only [e1, e2, e3]
    rw [tanSq_neg p (fun d => tr1 F p (u .H d)) (fun d => -tr1 F p (u .H d)) fun d => rfl,
      tanSq_neg p (fun d => tr2 F p (u .H d)) (fun d => -tr2 F p (u .H d)) fun d => rfl]
  unfold dissipation
  simp only [i, b]
  rfl

/-- The form of the energy rate. -/
def rate (P : Prob ι K) (M : FieldT → Matrix ι ι K) (u v : State ι K) : K := energyRate M u (globalMult P v)

lemma energyRate_lin_left (M : FieldT → Matrix ι ι K) (a b : K) (u v w : State ι K) :
    energyRate M (a • u + b • v) w = a * energyRate M u w + b * energyRate M v w := by
  unfold energyRate
  rw [Finset.mul_sum, Finset.mul_sum, ← Finset.sum_add_distrib]
  refine Finset.sum_congr rfl fun d _ => ?_
  have e : ∀ f, (a • u + b • v) f d = a • u f d + b • v f d := fun f => rfl
  rw [e, e, add_dotProduct, add_dotProduct]
  simp only [smul_dotProduct, smul_eq_mul]
  ring

lemma energyRate_lin_right (M : FieldT → Matrix ι ι K) (a b : K) (u v w : State ι K) :
    energyRate M w (a • u + b • v) = a * energyRate M w u + b * energyRate M w v := by
  unfold energyRate
  rw [Finset.mul_sum, Finset.mul_sum, ← Finset.sum_add_distrib]
  refine Finset.sum_congr rfl fun d _ => ?_
  have e : ∀ f, (a • u + b • v) f d = a • u f d + b • v f d := fun f => rfl
  rw [e, e, Matrix.mulVec_add, Matrix.mulVec_add, dotProduct_add, dotProduct_add]
  simp only [Matrix.mulVec_smul, dotProduct_smul, smul_eq_mul]
  ring

lemma globalMult_comb (P : Prob ι K) (a b : K) (u v : State ι K) :
    globalMult P (a • u + b • v) = a • globalMult P u + b • globalMult P v := by
  obtain ⟨A, hA⟩ := Implicit.exists_matrix P
  have e : Implicit.flat (globalMult P (a • u + b • v)) = a • Implicit.flat (globalMult P u) + b • Implicit.flat (globalMult P v) := by
    rw [← hA, ← hA, ← hA]
    have : Implicit.flat (a • u + b • v) = a • Implicit.flat u + b • Implicit.flat v := rfl
    rw [this, Matrix.mulVec_add, Matrix.mulVec_smul, Matrix.mulVec_smul]
  exact congrArg Implicit.unflat e

lemma rate_lin_left (P : Prob ι K) (M : FieldT → Matrix ι ι K) (a b : K) (u v w : State ι K) :
    rate P M (a • u + b • v) w = a * rate P M u w + b * rate P M v w := energyRate_lin_left M a b u v _

lemma rate_lin_right (P : Prob ι K) (M : FieldT → Matrix ι ι K) (a b : K) (u v w : State ι K) :
    rate P M w (a • u + b • v) = a * rate P M w u + b * rate P M w v := by
  unfold rate
  rw [globalMult_comb, energyRate_lin_right]

/-- Electric and magnetic fields exchange energy. -/
lemma rate_exchange (P : Prob ι K) {M : FieldT → Matrix ι ι K} (h : Good P M) (u v : State ι K) :
    rate P M (only .E u) (only .H v) + rate P M (only .H v) (only .E u) = 0 := by
  have h1 := C01_energy_balance P M h (1 • only .E u + 1 • only .H v)
  have h2 := C01_energy_balance P M h (flipH (1 • only .E u + 1 • only .H v))
  rw [dissipation_flip] at h2
  have e : flipH ((1 : K) • only .E u + (1 : K) • only .H v) = (1 : K) • only .E u + (-1 : K) • only .H v := by
    funext f d i
    cases f
    · show 1 * only .E u .E d i + 1 * only .H v .E d i = 1 * only .E u .E d i + -1 * only .H v .E d i
      simp [only]
    · show -(1 * only .E u .H d i + 1 * only .H v .H d i) = 1 * only .E u .H d i + -1 * only .H v .H d i
      simp [only]
  have h1' : rate P M ((1 : K) • only .E u + (1 : K) • only .H v) ((1 : K) • only .E u + (1 : K) • only .H v) =
      -dissipation P ((1 : K) • only .E u + (1 : K) • only .H v) := by
    simpa only [one_smul, rate] using h1
  have h2' : rate P M (flipH ((1 : K) • only .E u + (1 : K) • only .H v)) (flipH ((1 : K) • only .E u + (1 : K) • only .H v)) =
      -dissipation P ((1 : K) • only .E u + (1 : K) • only .H v) := by
    simpa only [one_smul, rate] using h2
  rw [e, ← h1'] at h2'
  simp only [rate_lin_left, rate_lin_right] at h2'
  linarith

lemma rate_only (P : Prob ι K) {M : FieldT → Matrix ι ι K} (h : Good P M) (g : FieldT) (u v : State ι K) :
    rate P M (only g u) v = ∑ d, weak P v g d (u g d) := by
  unfold rate energyRate
  refine Finset.sum_congr rfl fun d _ => ?_
  cases g
  · rw [only_self, show only .E u .H d = 0 from only_alt .E u d, zero_dotProduct, add_zero, weak_test P h]
  · rw [only_self, show only .H u .E d = 0 from only_alt .H u d, zero_dotProduct, zero_add, weak_test P h]

lemma reading_rate (M : FieldT → Matrix ι ι K) (u w : State ι K) :
    reading M u w = energyRate M (only .E u) w - energyRate M (only .H u) w := by
  unfold reading energyRate
  rw [← Finset.sum_sub_distrib]
  refine Finset.sum_congr rfl fun d _ => ?_
  rw [only_self, only_self, show only .E u .H d = 0 from only_alt .E u d, show only .H u .E d = 0 from only_alt .H u d, zero_dotProduct,
    zero_dotProduct, add_zero, zero_add]

/-- Reciprocity of the operator. -/
lemma reading_symm_mult (P : Prob ι K) {M : FieldT → Matrix ι ι K} (h : Good P M) (hs : P.Msig.transpose = P.Msig) (u v : State ι K) :
    reading M u (globalMult P v) = reading M v (globalMult P u) := by
  rw [reading_rate, reading_rate]
  show rate P M (only .E u) v - rate P M (only .H u) v = rate P M (only .E v) u - rate P M (only .H v) u
  have split : ∀ x y : State ι K, rate P M x y = rate P M x (only .E y) + rate P M x (only .H y) := by
    intro x y
    have := rate_lin_right P M 1 1 (only .E y) (only .H y) x
    rw [one_smul, one_smul, only_add, one_mul, one_mul] at this
    exact this
  rw [split _ v, split _ v, split _ u, split _ u]
  have s : ∀ g, rate P M (only g u) (only g v) = rate P M (only g v) (only g u) := by
    intro g
    rw [rate_only P h, rate_only P h, weak_symm P hs]
  have x1 := rate_exchange P h u v
  have x2 := rate_exchange P h v u
  rw [s .E, s .H]
  linarith

end Dgtd.Op
