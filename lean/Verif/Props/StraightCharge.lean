/-
C167: charges are conserved on straight meshes with quadrilaterals and hexahedra.
-/
import Verif.Props.Charge
import Verif.Spec.StraightCharge
import Verif.Props.StraightField

set_option linter.unusedSectionVars false

namespace Dgtd.Straight
open MvPolynomial Spec Dgtd.Op Dgtd.Op.Spec
open Dgtd.Galerkin (Poly Elem massMatrix eval_bind pderiv_bind ddx_high ddx_low obeys_of cross_neg curl_gradient curl_zero dot_symm sum_zero_of list_sum_swap)
open Dgtd.Galerkin.Spec (onElem materialOf PField curl cross Obeys InSimplex Test Holds gradient ddx matOf)
open Dgtd.Implicit Dgtd.TimeInt.Spec Dgtd.Recip
open Dgtd.Config (Material)

variable {n : Nat} {ι : Type} [Fintype ι] [DecidableEq ι] {S : Setup n ι} {p : Nat}

/-! ### gradients of test functions on faces -/

lemma zero_on {D : Nat} (sh : Shape) (q : Poly D ℝ) (h : ∀ x, Inside sh x → eval x q = 0) : q = 0 := by
  cases sh with
  | simplex => exact Galerkin.zero_on_simplex q h
  | box =>
    refine funext_set (fun _ => Set.Icc 0 1) (fun _ => Set.Icc_infinite one_pos) fun x hx => ?_
    rw [map_zero]
    exact h x fun i => hx i (Set.mem_univ i)

/-- The test function on a face, as a polynomial. -/
noncomputable def testPoly (φ : Test n ι) (s : Side n ι) : Poly n ℝ := bind₁ (fun d => s.restrict (s.e.geom d)) (φ s.e)

lemma eval_testPoly (φ : Test n ι) (s : Side n ι) (x : Fin n → ℝ) : eval x (testPoly φ s) = testAt φ s x := by
  unfold testPoly testAt pos
  rw [eval_bind]

/-- Derivative of the test function along a face. -/
lemma pderiv_testPoly (φ : Test n ι) (s : Side n ι) (c : Fin n) (x : Fin n → ℝ) :
    eval x (pderiv c (testPoly φ s)) = ∑ d, eval (pos s x) (pderiv d (φ s.e)) * eval x (s.jac d c) := by
  unfold testPoly
  rw [pderiv_bind, map_sum]
  refine Finset.sum_congr rfl fun d _ => ?_
  rw [map_mul, eval_bind]
  rfl

lemma cross_of_tangents : ∀ {n : Nat} (_ : n < 3) (s : Side n ι) (x : Fin n → ℝ) (w : Dir → ℝ) (_ : ∀ d : Dir, n + 1 ≤ d.val → w d = 0)
    (_ : ∀ c : Fin n, ∑ d : Fin (n + 1), (if h : d.val < 3 then w ⟨d.val, h⟩ else 0) * eval x (s.jac d c) = 0) (d : Dir),
    cross (unitNormal s x) w d = 0
  | 0, _, s, x, w, h0, _, d => by
    have w1 := h0 1 (by decide)
    have w2 := h0 2 (by decide)
    fin_cases d <;> simp [cross, unitNormal, normal, w1, w2]
  | 1, _, s, x, w, h0, ht, d => by
    have w2 := h0 2 (by decide)
    have t0 := ht 0
    rw [Fin.sum_univ_two] at t0
    simp at t0
    obtain ⟨L, hL⟩ : ∃ L, L = stretch s x := ⟨_, rfl⟩
    have u0 : unitNormal s x 0 = eval x (s.jac 1 0) / L := by unfold unitNormal; rw [← hL]; simp [normal]
    have u1 : unitNormal s x 1 = -eval x (s.jac 0 0) / L := by unfold unitNormal; rw [← hL]; simp [normal]
    have u2 : unitNormal s x 2 = 0 := by unfold unitNormal; simp [normal]
    fin_cases d
    · simp [cross, u2, w2]
    · simp [cross, u2, w2]
    · change unitNormal s x 0 * w 1 - unitNormal s x 1 * w 0 = 0
      rw [u0, u1]
      linear_combination (1 / L) * t0
  | 2, _, s, x, w, h0, ht, d => by
    have t0 := ht 0
    have t1 := ht 1
    rw [Fin.sum_univ_three] at t0 t1
    simp at t0 t1
    have hw2 : w ⟨2, by decide⟩ = w 2 := rfl
    obtain ⟨L, hL⟩ : ∃ L, L = stretch s x := ⟨_, rfl⟩
    have u0 : unitNormal s x 0 = (eval x (s.jac 1 0) * eval x (s.jac 2 1) - eval x (s.jac 2 0) * eval x (s.jac 1 1)) / L := by
      unfold unitNormal; rw [← hL]; simp [normal]
    have u1 : unitNormal s x 1 = (eval x (s.jac 2 0) * eval x (s.jac 0 1) - eval x (s.jac 0 0) * eval x (s.jac 2 1)) / L := by
      unfold unitNormal; rw [← hL]; simp [normal]
    have u2 : unitNormal s x 2 = (eval x (s.jac 0 0) * eval x (s.jac 1 1) - eval x (s.jac 1 0) * eval x (s.jac 0 1)) / L := by
      unfold unitNormal; rw [← hL]; simp [normal]
    fin_cases d
    · change unitNormal s x 1 * w 2 - unitNormal s x 2 * w 1 = 0
      rw [u1, u2]
      linear_combination (eval x (s.jac 0 1) / L) * t0 - (eval x (s.jac 0 0) / L) * t1
    · change unitNormal s x 2 * w 0 - unitNormal s x 0 * w 2 = 0
      rw [u0, u2]
      linear_combination (eval x (s.jac 1 1) / L) * t0 - (eval x (s.jac 1 0) / L) * t1
    · change unitNormal s x 0 * w 1 - unitNormal s x 1 * w 0 = 0
      rw [u0, u1]
      linear_combination (eval x (s.jac 2 1) / L) * t0 - (eval x (s.jac 2 0) / L) * t1

/-- The tangential derivative at a level face vanishes. -/
lemma cross_level (hn : n < 3) {φ : Test n ι} {s : Side n ι} (h : Level φ s) (x : Fin n → ℝ) (d : Dir) :
    cross (unitNormal s x) (fun d => eval (pos s x) (ddx d (φ s.e))) d = 0 := by
  obtain ⟨k, hk⟩ := h
  have hp : testPoly φ s = C k := by
    rw [← sub_eq_zero]
    refine zero_on s.place.key.shape _ fun x hx => ?_
    rw [map_sub, eval_testPoly, hk x hx, eval_C, sub_self]
  refine cross_of_tangents hn s x _ (fun d hd => by rw [ddx_high _ _ hd, map_zero]) (fun c => ?_) d
  have e := pderiv_testPoly φ s c x
  rw [hp, pderiv_C, map_zero] at e
  rw [e]
  refine Finset.sum_congr rfl fun d _ => ?_
  rw [dif_pos (by omega), ddx_low hn]

/-- The same of the difference at a face where the test function is continuous. -/
lemma cross_same : ∀ {n : Nat} (_ : n < 3) {φ : Test n ι} {s s2 : Side n ι} (_ : Meet s s2) (_ : ∀ x, Inside s.place.key.shape x → testAt φ s x = testAt φ s2 x)
    (x : Fin n → ℝ) (d : Dir),
    cross (unitNormal s x) (fun d => eval (pos s x) (ddx d (φ s.e)) - eval (pos s2 x) (ddx d (φ s2.e))) d = 0
  | 0, hn, φ, s, s2, _, _, x, d =>
    cross_of_tangents hn s x _ (fun d hd => by rw [ddx_high _ _ hd, ddx_high _ _ hd, map_zero, map_zero, sub_zero]) (fun c => c.elim0) d
  | n + 1, hn, φ, s, s2, hm, h, x, d => by
    have hp : testPoly φ s - testPoly φ s2 = 0 := zero_on s.place.key.shape _ fun x hx => by
      rw [map_sub, eval_testPoly, eval_testPoly, h x hx, sub_self]
    have hj : ∀ d c, s2.jac d c = s.jac d c := fun d c => by unfold Side.jac; rw [hm.1 d]
    refine cross_of_tangents hn s x _ (fun d hd => by rw [ddx_high _ _ hd, ddx_high _ _ hd, map_zero, map_zero, sub_zero]) (fun c => ?_) d
    have e : eval x (pderiv c (testPoly φ s)) - eval x (pderiv c (testPoly φ s2)) = 0 := by
      rw [← map_sub, ← map_sub, hp, map_zero, map_zero]
    rw [pderiv_testPoly, pderiv_testPoly, ← Finset.sum_sub_distrib] at e
    rw [← e]
    refine Finset.sum_congr rfl fun d _ => ?_
    rw [dif_pos (by omega), ddx_low hn, ddx_low hn, hj]
    ring

/-- The second side of a level face, with the normal of the first. -/
lemma cross_level_two : ∀ {n : Nat} (_ : n < 3) {φ : Test n ι} {s s2 : Side n ι} (_ : Meet s s2) (_ : Level φ s2) (x : Fin n → ℝ) (d : Dir),
    cross (unitNormal s x) (fun d => eval (pos s2 x) (ddx d (φ s2.e))) d = 0
  | 0, hn, φ, s, s2, _, _, x, d =>
    cross_of_tangents hn s x _ (fun d hd => by rw [ddx_high _ _ hd, map_zero]) (fun c => c.elim0) d
  | n + 1, hn, φ, s, s2, hm, h, x, d => by
    obtain ⟨k, hk⟩ := h
    have hp : testPoly φ s2 = C k := by
      rw [← sub_eq_zero]
      refine zero_on s2.place.key.shape _ fun x hx => ?_
      rw [map_sub, eval_testPoly, hk x hx, eval_C, sub_self]
    have hj : ∀ d c, s2.jac d c = s.jac d c := fun d c => by unfold Side.jac; rw [hm.1 d]
    refine cross_of_tangents hn s x _ (fun d hd => by rw [ddx_high _ _ hd, map_zero]) (fun c => ?_) d
    have e := pderiv_testPoly φ s2 c x
    rw [hp, pderiv_C, map_zero] at e
    rw [e]
    refine Finset.sum_congr rfl fun d _ => ?_
    rw [dif_pos (by omega), ddx_low hn, hj]

lemma onSide_gradient (f : FieldT) (φ : Test n ι) (s : Side n ι) (x : Fin n → ℝ) :
    onSide (gradient f φ) s x f = fun d => eval (pos s x) (ddx d (φ s.e)) := by
  funext d; simp [onSide, gradient]

lemma onSide_other {f g : FieldT} (hg : g ≠ f) (φ : Test n ι) (s : Side n ι) (x : Fin n → ℝ) : onSide (gradient f φ) s x g = 0 := by
  funext d; simp [onSide, gradient, hg]

/-- The gradient of a test function is a field that respects interfaces and boundaries. -/
lemma gradient_admissible (h : ValidMesh S p) {f : FieldT} {φ : Test n ι} (hφ : Testing S f φ) : Admissible S (gradient f φ) := by
  have hn := h.dim
  refine ⟨?_, ?_, ?_⟩
  · rintro ⟨o, g⟩ hq rfl x hx g' d
    obtain ⟨s, hs, hc⟩ := hφ.inner _ hq rfl
    have hs : g.s2 = some s := hs
    have ho : ∀ k, onOther (gradient f φ) g x g' k = onSide (gradient f φ) s x g' k := fun k => by unfold onOther; rw [hs]
    by_cases hg : g' = f
    · subst hg
      simp only [ho]
      simp only [onSide_gradient]
      exact cross_same hn (h.two _ (mem_face (List.mem_append_left _ hq)) s hs) hc x d
    · simp only [ho]
      simp only [onSide_other hg]
      simp [cross]
  · rintro ⟨o, g⟩ hq c hc x hx
    have hw := hφ.walls _ hq c hc
    have hν := (unit_facts h (mem_face (List.mem_append_left _ hq)) x hx).2.2
    have hν' : (fun d => -unitNormal g.s1 x d) 0 ^ 2 + (fun d => -unitNormal g.s1 x d) 1 ^ 2 + (fun d => -unitNormal g.s1 x d) 2 ^ 2 = 1 := by
      rw [← hν]; ring
    refine ⟨obeys_of hν (f := f) (fun g' hg => onSide_other hg φ _ x) fun hh d => ?_, ?_⟩
    · rw [onSide_gradient]
      exact cross_level hn (hw hh).1 x d
    · cases hs : g.s2 with
      | none =>
        have ho : onOther (gradient f φ) g x = 0 := by funext f d; unfold onOther; rw [hs]; rfl
        rw [ho]
        exact obeys_of hν' (f := f) (fun _ _ => rfl) fun _ d => by simp [cross]
      | some s =>
        have ho : onOther (gradient f φ) g x = onSide (gradient f φ) s x := by funext f d; unfold onOther; rw [hs]
        rw [ho]
        refine obeys_of hν' (f := f) (fun g' hg => onSide_other hg φ _ x) fun hh d => ?_
        rw [onSide_gradient, cross_neg, cross_level_two hn (h.two _ (mem_face (List.mem_append_left _ hq)) s hs) ((hw hh).2 s hs) x d, neg_zero]
  · rintro ⟨o, g⟩ hq c hc x hx
    have hν := (unit_facts h (mem_face (List.mem_append_right _ hq)) x hx).2.2
    refine obeys_of hν (f := f) (fun g' hg => onSide_other hg φ _ x) fun hh d => ?_
    rw [onSide_gradient]
    exact cross_level hn (hφ.outer _ hq c hc hh) x d

/-! ### the operator and gradients -/

lemma weak_admissible (h : ValidMesh S p) (ms : List (Int × Material ℝ)) {Q : PField n ι} {u : State ι ℝ} (hu : Carries S Q u)
    (ha : Admissible S Q) (f : FieldT) (d : Dir) (v : ι → ℝ) :
    weak (probOf S ms) u f d v = curlTerm (probOf S ms) u f d v - lossTerm (probOf S ms) u f d v := by
  rw [weak_faces]
  have z1 : ((probOf S ms).interior.map fun q => interiorTerm (probOf S ms).alpha u f d v q.1 q.2).sum = 0 := by
    refine sum_zero_of _ _ fun q hq => ?_
    obtain ⟨b, hb, rfl⟩ := List.mem_map.1 hq
    obtain ⟨o, g⟩ := b
    cases o with
    | none => exact plain_zero h hu ha hb _ f d v
    | some c => exact wall_zero h hu ha hb _ f d v
  have z2 : ((probOf S ms).bdr.map fun q => exteriorTerm (probOf S ms).alpha u f d v q.1 q.2).sum = 0 := by
    refine sum_zero_of _ _ fun q hq => ?_
    obtain ⟨b, hb, rfl⟩ := List.mem_map.1 hq
    obtain ⟨o, g⟩ := b
    cases o with
    | none => rfl
    | some c => exact exterior_zero h hu ha hb _ f d v
  rw [z1, z2, add_zero, add_zero]

/-- What the operator makes of a gradient: losses only. -/
lemma weak_gradient (h : ValidMesh S p) (ms : List (Int × Material ℝ)) {f : FieldT} {φ : Test n ι} (hφ : Testing S f φ) {w : State ι ℝ}
    (hw : Carries S (gradient f φ) w) (g : FieldT) (d : Dir) (v : ι → ℝ) :
    weak (probOf S ms) w g d v = -lossTerm (probOf S ms) w g d v := by
  rw [weak_admissible h ms hw (gradient_admissible h hφ), curl_exact h ms hw]
  have z : ∀ e : Elem n ι ℝ, curl (gradient f φ e (altField g)) d = 0 := by
    intro e
    by_cases hg : altField g = f
    · have : gradient f φ e (altField g) = fun d => ddx d (φ e) := by funext d; simp [gradient, hg]
      rw [this]; exact curl_gradient _ _
    · have : gradient f φ e (altField g) = fun _ => 0 := by funext d; simp [gradient, hg]
      rw [this]; exact curl_zero _
  rw [sum_zero_of _ _ fun c _ => by rw [z, map_zero, mul_zero, mul_zero, map_zero, mul_zero], zero_sub]

lemma pairing_form (h : ValidMesh S p) (g : Cell n ι → ℝ) {f : FieldT} {φ : Test n ι} {w : State ι ℝ}
    (hw : Carries S (gradient f φ) w) (v : Dir → ι → ℝ) :
    ∑ d, v d ⬝ᵥ (massMatrix (weighted S g)).mulVec (w f d) = (S.cells.map fun c => g c * pairing c (φ c.e) v).sum := by
  simp only [mass_form h]
  rw [list_sum_swap]
  congr 1
  refine List.map_congr_left fun c hc => ?_
  rw [← Finset.mul_sum]
  unfold pairing
  congr 1
  refine Finset.sum_congr rfl fun d _ => ?_
  rw [hw c hc]
  simp [gradient]

lemma other_form (h : ValidMesh S p) (g : Cell n ι → ℝ) {f : FieldT} {φ : Test n ι} {w : State ι ℝ}
    (hw : Carries S (gradient f φ) w) {f' : FieldT} (hf : f' ≠ f) (v : Dir → ι → ℝ) :
    ∑ d, v d ⬝ᵥ (massMatrix (weighted S g)).mulVec (w f' d) = 0 := by
  refine Finset.sum_eq_zero fun d _ => ?_
  rw [mass_form h]
  simp only [← intl_eq]
  refine sum_zero_of _ _ fun c hc => ?_
  rw [hw c hc]
  simp [gradient, hf]

lemma charge_form (h : ValidMesh S p) (ms : List (Int × Material ℝ)) {f : FieldT} {φ : Test n ι} {w : State ι ℝ}
    (hw : Carries S (gradient f φ) w) (u : State ι ℝ) : charge S ms f φ u = -∑ d, u f d ⬝ᵥ (massOf S ms f).mulVec (w f d) := by
  cases f with
  | E => exact congrArg Neg.neg (pairing_form h (fun c => (materialOf ms c.toCell).eps) hw (u .E)).symm
  | H => exact congrArg Neg.neg (pairing_form h (fun c => (materialOf ms c.toCell).mu) hw (u .H)).symm

/-- The rate of the charge. -/
lemma charge_rate (h : ValidMesh S p) (ms : List (Int × Material ℝ)) (hm : ValidMaterials S ms)
    (hw : ∀ f ∈ faces S, ∀ x ∈ f.rule, 0 ≤ x.1) {f : FieldT} {φ : Test n ι} (hφ : Testing S f φ) {w : State ι ℝ}
    (hc : Carries S (gradient f φ) w) (u : State ι ℝ) :
    charge S ms f φ (globalMult (probOf S ms) u) = if f = .E then conduction S ms φ u else 0 := by
  have hg := good_of h ms hm hw
  have hs : (probOf S ms).Msig.transpose = (probOf S ms).Msig := mass_symm h _
  have hr := reading_symm_mult (probOf S ms) hg hs w u
  have hR : reading (massOf S ms) u (globalMult (probOf S ms) w) =
      -∑ d, u .E d ⬝ᵥ (massMatrix (weighted S fun c => ((materialOf ms c.toCell).sigma))).mulVec (w .E d) := by
    unfold reading
    rw [← Finset.sum_neg_distrib]
    refine Finset.sum_congr rfl fun d _ => ?_
    rw [weak_test _ hg, weak_test _ hg, weak_gradient h ms hφ hc, weak_gradient h ms hφ hc]
    simp only [lossTerm, neg_zero, sub_zero]
    rfl
  rw [hR] at hr
  rw [charge_form h ms hc]
  unfold reading at hr
  rw [Finset.sum_sub_distrib] at hr
  simp only [dot_symm (hg.symm _) (w _ _)] at hr
  cases f with
  | E =>
    have z := other_form h (fun c => (materialOf ms c.toCell).mu) hc (f' := .H) (by decide) (globalMult (probOf S ms) u .H)
    have e := pairing_form h (fun c => (materialOf ms c.toCell).sigma) hc (u .E)
    change _ - (∑ d, globalMult (probOf S ms) u .H d ⬝ᵥ (massMatrix (weighted S fun c => ((materialOf ms c.toCell).mu))).mulVec (w .H d)) = _ at hr
    rw [z, sub_zero] at hr
    rw [hr, e, neg_neg, if_pos rfl]
    rfl
  | H =>
    have z := other_form h (fun c => (materialOf ms c.toCell).eps) hc (f' := .E) (by decide) (globalMult (probOf S ms) u .E)
    have e := other_form h (fun c => (materialOf ms c.toCell).sigma) hc (f' := .E) (by decide) (u .E)
    change (∑ d, globalMult (probOf S ms) u .E d ⬝ᵥ (massMatrix (weighted S fun c => ((materialOf ms c.toCell).eps))).mulVec (w .E d)) - _ = _ at hr
    rw [z, e, zero_sub, neg_zero] at hr
    rw [hr, if_neg (by decide)]

/-- **C167**: on every valid mesh with valid materials, electric charge as any continuous test function sees it that is level on the walls
holding charge, and whose gradient the elements can hold, changes only by the currents in conductors; magnetic charge does not change. -/
theorem C167_continuity (h : ValidMesh S p) (ms : List (Int × Material ℝ)) (hm : ValidMaterials S ms)
    (hw : ∀ f ∈ faces S, ∀ x ∈ f.rule, 0 ≤ x.1) :
    ∃ P, S.prob ms = .ok P ∧ ∀ (φ : Test n ι) (w u : State ι ℝ),
      (Testing S .E φ → Carries S (gradient .E φ) w → charge S ms .E φ (globalMult P u) = conduction S ms φ u) ∧
      (Testing S .H φ → Carries S (gradient .H φ) w → charge S ms .H φ (globalMult P u) = 0) :=
  ⟨probOf S ms, prob_ok S ms hm, fun φ w u => ⟨fun hφ hc => by simpa using charge_rate h ms hm hw hφ hc u,
    fun hφ hc => by simpa using charge_rate h ms hm hw hφ hc u⟩⟩

/-- The charge as a linear function of the vector of unknowns. -/
noncomputable def chargeFn (S : Setup n ι) (ms : List (Int × Material ℝ)) (f : FieldT) (w : State ι ℝ) : (Slot ι → ℝ) →ₗ[ℝ] ℝ where
  toFun x := -∑ d, unflat x f d ⬝ᵥ (massOf S ms f).mulVec (w f d)
  map_add' x y := by
    have e : ∀ d, unflat (x + y) f d = unflat x f d + unflat y f d := fun d => rfl
    simp only [e, add_dotProduct, Finset.sum_add_distrib]
    ring
  map_smul' a x := by
    have e : ∀ d, unflat (a • x) f d = a • unflat x f d := fun d => rfl
    simp only [e, smul_dotProduct, smul_eq_mul, ← Finset.mul_sum, RingHom.id_apply]
    ring

/-- **C167**: with every integrator and whatever the steps, magnetic charge, and without conductors electric charge, stay what they were at
the start, if the sources bring none. -/
theorem C167_run (h : ValidMesh S p) (ms : List (Int × Material ℝ)) (hm : ValidMaterials S ms) (hal : 0 ≤ S.alpha)
    (hw : ∀ f ∈ faces S, ∀ x ∈ f.rule, 0 ≤ x.1) (f : FieldT) (φ : Test n ι) (hφ : Testing S f φ) (w : State ι ℝ)
    (hc : Carries S (gradient f φ) w) (hf : f = .H ∨ ∀ c ∈ S.cells, (materialOf ms c.toCell).sigma = 0) (j : ℝ → State ι ℝ)
    (hj : ∀ t, charge S ms f φ (j t) = 0) (q : Sdirk ℝ) (hi : Ideal33 q) :
    ∃ P A, S.prob ms = .ok P ∧ (∀ u : State ι ℝ, A.mulVec (flat u) = flat (globalMult P u)) ∧
      ∀ (u : State ι ℝ) (o : TimeInt.Ode) (dts : List ℝ) (_ : ∀ dt ∈ dts, 0 ≤ dt) (t : ℝ), ∃ y c,
        TimeInt.run q o (TimeInt.globalTdo A fun t => flat (j t)) dts (flat u) t fresh = some (flat y, t + dts.sum, c) ∧
          charge S ms f φ y = charge S ms f φ u := by
  have hg := good_of h ms hm hw
  obtain ⟨A, hA⟩ := exists_matrix (probOf S ms)
  refine ⟨probOf S ms, A, prob_ok S ms hm, hA, fun u o dts hd t => ?_⟩
  have hl : ∀ u : State ι ℝ, chargeFn S ms f w (flat u) = charge S ms f φ u := fun u => (charge_form h ms hc u).symm
  have hl0 : ∀ x, chargeFn S ms f w (A.mulVecLin x) = 0 := by
    intro x
    rw [Matrix.mulVecLin_apply, ← flat_unflat x, hA, hl, charge_rate h ms hm hw hφ hc]
    split
    · rename_i hE
      rcases hf with rfl | hf
      · exact absurd hE (by decide)
      · exact sum_zero_of _ _ fun c hc => by rw [hf c hc, zero_mul]
    · rfl
  obtain ⟨y, c, e, hy⟩ := TimeInt.run_keeps (l := chargeFn S ms f w) hl0 hi (TimeInt.global_solves hg
    hal (sigma_nonneg h ms hm) (fun u hu => by rw [energy_eq h]; exact fieldEnergy_pos h ms hm u hu) hA fun t => flat (j t))
    (fun t => by rw [hl, hj]) o dts (flat u) t fresh hd (good_fresh A)
  refine ⟨unflat y, c, e, ?_⟩
  rw [← hl, ← hl]
  exact hy

/-- Complete shape functions of the order `p` hold the gradients of all test functions of degree `p + 1` in the position, however the quadrilaterals and
hexahedra are skewed. -/
theorem C167_held (h : ValidMesh S p)
    (hcom : ∀ c ∈ S.cells, ∀ q : Poly (n + 1) ℝ, Order c.shape p q → ∃ a : Nat → ℝ, q = ∑ i ∈ Finset.range c.e.size, C (a i) * c.e.shape i)
    (f : FieldT) (φ : Test n ι) (hφ : ∀ c ∈ S.cells, (φ c.e).totalDegree ≤ p + 1) : ∃ w, Carries S (gradient f φ) w := by
  have hdeg : ∀ c ∈ S.cells, ∀ g d, (gradient f φ c.e g d).totalDegree ≤ p := by
    intro c hc g d
    unfold gradient ddx
    split_ifs
    · exact (Galerkin.totalDegree_pderiv _ _).trans (by have := hφ c hc; omega)
    · simp
    · simp
  obtain ⟨w, r, hw, -⟩ := carry_time h hcom (fun _ => gradient f φ) (fun _ => 0) (fun _ => hdeg) (fun _ c _ g d => by simp)
    fun t c _ g d a => by simpa using hasDerivAt_const t (coeff a (gradient f φ c.e g d))
  exact ⟨w 0, hw 0⟩

/-- **C167** on complete elements of the order `p`, for every continuous test function of degree `p + 1` in the position. -/
theorem C167_complete (h : ValidMesh S p) (ms : List (Int × Material ℝ)) (hm : ValidMaterials S ms) (hw : ∀ f ∈ faces S, ∀ x ∈ f.rule, 0 ≤ x.1)
    (hcom : ∀ c ∈ S.cells, ∀ q : Poly (n + 1) ℝ, Order c.shape p q → ∃ a : Nat → ℝ, q = ∑ i ∈ Finset.range c.e.size, C (a i) * c.e.shape i) :
    ∃ P, S.prob ms = .ok P ∧ ∀ φ : Test n ι, (∀ c ∈ S.cells, (φ c.e).totalDegree ≤ p + 1) → ∀ u : State ι ℝ,
      (Testing S .E φ → charge S ms .E φ (globalMult P u) = conduction S ms φ u) ∧
      (Testing S .H φ → charge S ms .H φ (globalMult P u) = 0) := by
  obtain ⟨P, e, hP⟩ := C167_continuity h ms hm hw
  refine ⟨P, e, fun φ hφ u => ⟨fun ht => ?_, fun ht => ?_⟩⟩
  · obtain ⟨w, hc⟩ := C167_held h hcom .E φ hφ
    exact (hP φ w u).1 ht hc
  · obtain ⟨w, hc⟩ := C167_held h hcom .H φ hφ
    exact (hP φ w u).2 ht hc

end Dgtd.Straight
