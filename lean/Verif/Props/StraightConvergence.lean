/-
C161: on straight meshes with quadrilaterals and hexahedra that are refined, computed fields approach smooth solutions of Maxwell's equations.
-/
import Verif.Lemmas.StraightInterp
import Verif.Props.Convergence
import Verif.Props.Straight

set_option linter.unusedSectionVars false

namespace Dgtd.Straight
open MvPolynomial Spec Dgtd.Op Dgtd.Op.Spec
open Dgtd.Galerkin (Poly Elem massMatrix corner tay tay_error tay_pderiv tay_degree tay_time contDiff_dx contDiff_dt dxs_append pow_dim
  taylorField taylorRate onElem_sub combine size_comm eval_bind)
open Dgtd.Galerkin.Spec (onElem materialOf PField curl cross Obeys Solution Event dt dxs curlAt dirDeriv ddx)
open Dgtd.Implicit Dgtd.TimeInt.Spec Dgtd.Super.Spec Dgtd.Frame
open Dgtd.Config (Material)
open scoped ContDiff

variable {n : Nat} {ι : Type} [Fintype ι] [DecidableEq ι] {S : Setup n ι} {ms : List (Int × Material ℝ)} {p : Nat}
  {ρ m0 m1 Λ h B T : ℝ} {F : Solution n ι} {node : Elem n ι ℝ → Nat → Fin (n + 1) → ℝ}

/-! ### Taylor polynomials on the elements -/

lemma approx_value (r : Resolves S ms p ρ m0 m1 Λ h B T F node) {c : Cell n ι} (hc : c ∈ S.cells) {t : ℝ} (h0 : 0 ≤ t) (hT : t ≤ T)
    {y : Fin (n + 1) → ℝ} (hy : InElem c.shape c.e y) (f : FieldT) (d : Dir) :
    |F c.e f d (t, y) - eval y (tay (corner c.e) t p (F c.e f d))| ≤ (3 * h) ^ (p + 1) * B ∧
    |dt (F c.e f d) (t, y) - eval y (tay (corner c.e) t p (dt (F c.e f d)))| ≤ (3 * h) ^ (p + 1) * B := by
  have hK : ∀ x ∈ Hull c.shape c.e, ∀ s, 0 ≤ s → s ≤ 1 → (fun i => corner c.e i + s * (x i - corner c.e i)) ∈ Hull c.shape c.e :=
    fun x hx s h0 h1 => hull_star hx h0 h1
  have hh : ∀ x ∈ Hull c.shape c.e, ∀ i, |x i - corner c.e i| ≤ h := fun x hx i => hull_size r.fine hc hx i
  have hp := mul_le_mul_of_nonneg_right (pow_dim r.mesh.dim r.fine.pos.le (p + 1)) r.bound
  exact ⟨(tay_error (Hull c.shape c.e) (corner c.e) h B t hK hh p (r.solves.smooth _ _ _)
      (fun l hl x hx => (r.bounded c hc t h0 hT x hx f d l hl).1) y (elem_hull hy)).trans hp,
    (tay_error (Hull c.shape c.e) (corner c.e) h B t hK hh p (contDiff_dt (r.solves.smooth _ _ _))
      (fun l hl x hx => (r.bounded c hc t h0 hT x hx f d l hl).2) y (elem_hull hy)).trans hp⟩

lemma approx_deriv (r : Resolves S ms p ρ m0 m1 Λ h B T F node) {c : Cell n ι} (hc : c ∈ S.cells) {t : ℝ} (h0 : 0 ≤ t) (hT : t ≤ T)
    {y : Fin (n + 1) → ℝ} (hy : InElem c.shape c.e y) (f : FieldT) (d k : Dir) :
    |dirDeriv k (F c.e f d) (t, y) - eval y (ddx k (tay (corner c.e) t p (F c.e f d)))| ≤ (3 * h) ^ p * B := by
  have hh0 := r.fine.pos.le
  have hB := r.bound
  unfold dirDeriv ddx
  split
  · rename_i hk
    obtain ⟨q, hq⟩ : ∃ q, p = q + 1 := ⟨p - 1, by have := r.mesh.order; omega⟩
    have hp := mul_le_mul_of_nonneg_right (pow_dim r.mesh.dim hh0 (q + 1)) r.bound
    rw [hq, tay_pderiv _ _ _ _ (r.solves.smooth _ _ _)]
    refine (tay_error (Hull c.shape c.e) (corner c.e) h B t (fun x hx s h0 h1 => hull_star hx h0 h1)
      (fun x hx i => hull_size r.fine hc hx i) q (contDiff_dx (r.solves.smooth _ _ _) _) (fun l hl x hx => ?_) y (elem_hull hy)).trans hp
    rw [← dxs_append]
    exact (r.bounded c hc t h0 hT x hx f d _ (by rw [List.length_append, hl, hq]; rfl)).1
  · simp only [Pi.zero_apply, map_zero, sub_zero, abs_zero]
    positivity

lemma resid_le (r : Resolves S ms p ρ m0 m1 Λ h B T F node) (hm0 : 0 < m0) {t : ℝ} (h0 : 0 ≤ t) (hT : t ≤ T) {c : Cell n ι} (hc : c ∈ S.cells)
    (f : FieldT) (d : Dir) (y : Fin (n + 1) → ℝ) (hy : InElem c.shape c.e y) :
    |eval y (resid ms (taylorField F p t) (taylorRate F p t) c f d)| ≤ (6 * m1 + 2) * 3 ^ p * B * h ^ p := by
  have hh0 := r.fine.pos.le
  have hB := r.bound
  obtain ⟨⟨e0, e1⟩, ⟨u0, u1⟩, s1⟩ := r.between c hc
  have hm1 : 0 < m1 := hm0.trans_le (e0.trans e1)
  have s0 : 0 ≤ (materialOf ms c.toCell).sigma := by
    obtain ⟨k, hk⟩ := materialOf_mem r.materials hc
    exact r.materials.sigma _ hk
  obtain ⟨P, hP⟩ : ∃ P, P = (3 * h) ^ p * B := ⟨_, rfl⟩
  have hP0 : 0 ≤ P := by rw [hP]; positivity
  have hP1 : (3 * h) ^ (p + 1) * B ≤ 3 * P := by
    rw [hP, pow_succ]
    have : 3 * h ≤ 3 := by have := r.small; linarith
    have h3 : 0 ≤ (3 * h) ^ p * B := by positivity
    nlinarith
  have hend : (6 * m1 + 2) * 3 ^ p * B * h ^ p = (6 * m1 + 2) * P := by rw [hP, mul_pow]; ring
  rw [hend]
  have mulle : ∀ {a x : ℝ}, 0 ≤ a → a ≤ m1 → |x| ≤ 3 * P → |a * x| ≤ m1 * (3 * P) := fun ha ha1 hx => by
    rw [abs_mul, abs_of_nonneg ha]
    exact mul_le_mul ha1 hx (abs_nonneg _) hm1.le
  have der := fun f d k => approx_deriv r hc h0 hT hy f d k
  cases f with
  | E =>
    have eq := r.solves.electric c hc t h0 hT y hy d
    have a1 := ((approx_value r hc h0 hT hy .E d).2).trans hP1
    have a2 := ((approx_value r hc h0 hT hy .E d).1).trans hP1
    have a3 := der .H (d + 2) (d + 1)
    have a4 := der .H (d + 1) (d + 2)
    rw [← hP] at a3 a4
    have e : eval y (resid ms (taylorField F p t) (taylorRate F p t) c .E d) =
        -((materialOf ms c.toCell).eps * (dt (F c.e .E d) (t, y) - eval y (tay (corner c.e) t p (dt (F c.e .E d))))) +
        ((dirDeriv (d + 1) (F c.e .H (d + 2)) (t, y) - eval y (ddx (d + 1) (tay (corner c.e) t p (F c.e .H (d + 2))))) -
          (dirDeriv (d + 2) (F c.e .H (d + 1)) (t, y) - eval y (ddx (d + 2) (tay (corner c.e) t p (F c.e .H (d + 1)))))) -
        (materialOf ms c.toCell).sigma * (F c.e .E d (t, y) - eval y (tay (corner c.e) t p (F c.e .E d))) := by
      simp only [resid, taylorField, taylorRate, curl, map_add, map_sub, map_mul, eval_C]
      unfold curlAt at eq
      linear_combination eq
    rw [e]
    have k1 := mulle (hm0.le.trans e0) e1 a1
    have k2 := mulle s0 s1 a2
    refine (abs_sub _ _).trans ?_
    refine (add_le_add ((abs_add_le _ _).trans (add_le_add (le_of_eq (abs_neg _)) (abs_sub _ _))) le_rfl).trans ?_
    linarith
  | H =>
    have eq := r.solves.magnetic c hc t h0 hT y hy d
    have a1 := ((approx_value r hc h0 hT hy .H d).2).trans hP1
    have a3 := der .E (d + 2) (d + 1)
    have a4 := der .E (d + 1) (d + 2)
    rw [← hP] at a3 a4
    have e : eval y (resid ms (taylorField F p t) (taylorRate F p t) c .H d) =
        -((materialOf ms c.toCell).mu * (dt (F c.e .H d) (t, y) - eval y (tay (corner c.e) t p (dt (F c.e .H d))))) -
        ((dirDeriv (d + 1) (F c.e .E (d + 2)) (t, y) - eval y (ddx (d + 1) (tay (corner c.e) t p (F c.e .E (d + 2))))) -
          (dirDeriv (d + 2) (F c.e .E (d + 1)) (t, y) - eval y (ddx (d + 2) (tay (corner c.e) t p (F c.e .E (d + 1)))))) := by
      simp only [resid, taylorField, taylorRate, curl, map_add, map_sub, map_mul, eval_C]
      unfold curlAt at eq
      linear_combination eq
    rw [e]
    have k1 := mulle (hm0.le.trans u0) u1 a1
    refine (abs_sub _ _).trans ?_
    refine (add_le_add (le_of_eq (abs_neg _)) (abs_sub _ _)).trans ?_
    have : 0 ≤ m1 * P := by positivity
    linarith

lemma pos_in (s : Side n ι) {x : Fin n → ℝ} (hx : Inside s.place.key.shape x) : InElem s.place.key.shape s.e (pos s x) :=
  ⟨fun j => eval x (loc s.place j), loc_inside s.place x hx, funext fun d => by unfold pos; rw [eval_restrict]⟩

lemma near_of (r : Resolves S ms p ρ m0 m1 Λ h B T F node) {t : ℝ} (h0 : 0 ≤ t) (hT : t ≤ T) :
    Near S (taylorField F p t) (beside F t) ((3 * h) ^ (p + 1) * B) := by
  intro g hg x hx f d
  have key : ∀ s : Side n ι, Inside s.place.key.shape x → (∃ c ∈ S.cells, s.e = c.e ∧ s.place.key.shape = c.shape) →
      |onSide (taylorField F p t) s x f d - beside F t s x f d| ≤ (3 * h) ^ (p + 1) * B := by
    rintro s hx ⟨c, hc, e, ek⟩
    have hy := pos_in s hx
    rw [e, ek] at hy
    have := (approx_value r hc h0 hT hy f d).1
    rw [← e] at this
    rw [abs_sub_comm]
    exact this
  have hs := side_cells r.mesh hg
  refine ⟨key _ hx hs.1, fun s hs' => key s ?_ (hs.2 s hs')⟩
  rcases meet_shape (r.mesh.two g hg s hs') with hd | hd
  · exact inside_one hd _ hx
  · rw [← hd]; exact hx

lemma passive_of (r : Resolves S ms p ρ m0 m1 Λ h B T F node) (hα : 0 ≤ S.alpha) : Passive (probOf S ms) (massOf S ms) :=
  ⟨good_of r.mesh ms r.materials r.fine.weights, hα, sigma_nonneg r.mesh ms r.materials, fun u hu => by
    rw [energy_eq r.mesh]; exact fieldEnergy_pos r.mesh ms r.materials u hu⟩

/-- Constant of the residual. -/
noncomputable def residConst (L ρ m0 m1 α : ℝ) (p : Nat) : ℝ :=
  3 * ((1 + 6 * ρ * L) * (((6 * m1 + 2) * 3 ^ p) ^ 2 + 18 * ρ * ((4 + 4 * α) * 3 ^ (p + 1)) ^ 2) / m0)

/-- The Taylor polynomials of a solution, as unknowns. -/
lemma interpolant (r : Resolves S ms p ρ m0 m1 Λ h B T F node) (hm0 : 0 < m0) (hα : 0 ≤ S.alpha) {L : ℝ} (hL0 : 0 ≤ L)
    (hL : TraceBound n p L) :
    ∃ w : ℝ → State ι ℝ, (∀ t, Carries S (taylorField F p t) (w t)) ∧
      Consistent (probOf S ms) (massOf S ms) 0 w 0 T (√(residConst L ρ m0 m1 S.alpha p * volume S) * (B * h ^ p)) := by
  obtain ⟨w, r', hw, hr', hd⟩ := carry_time r.mesh r.nodal.complete (taylorField F p) (taylorRate F p)
    (fun t c _ f d => tay_degree _ _ _ _) (fun t c _ f d => tay_degree _ _ _ _)
    (fun t c _ f d a => tay_time (corner c.e) t p (r.solves.smooth _ _ _) a)
  refine ⟨w, hw, fun s f d i => r' s f d i - globalMult (probOf S ms) (w s) f d i, fun s h0 hT => ⟨?_, fun f d i => ?_⟩⟩
  · have hh := r.fine.pos
    have hB := r.bound
    have key := residual_bound r.mesh ms r.materials hL0 hL r.fine hm0 (fun c hc => ⟨(r.between c hc).1.1, (r.between c hc).2.1.1⟩) hα (hw s) (hr' s)
      (V := beside F s) (a := (3 * h) ^ (p + 1) * B) (G := (6 * m1 + 2) * 3 ^ p * B * h ^ p) (by positivity) (near_of r h0 hT)
      (fun c hc f d y hy => resid_le r hm0 h0 hT hc f d y hy)
      (fun q hq hn s' hs x hx f d => r.fits.inner q hq hn s' hs s h0 hT x hx f d)
      (fun q hq c hc x hx => r.fits.walls q hq c hc s h0 hT x hx) (fun q hq c hc x hx => r.fits.outer q hq c hc s h0 hT x hx)
    have e : 3 * ((1 + 6 * ρ * L) * (((6 * m1 + 2) * 3 ^ p * B * h ^ p) ^ 2 + 18 * ρ * ((4 + 4 * S.alpha) * ((3 * h) ^ (p + 1) * B)) ^ 2 / h ^ 2) / m0 * volume S) =
        residConst L ρ m0 m1 S.alpha p * volume S * (B * h ^ p) ^ 2 := by
      unfold residConst
      rw [mul_pow 3 h]
      field_simp
      ring
    rw [e] at key
    unfold size
    refine (Real.sqrt_le_sqrt key).trans (le_of_eq ?_)
    rw [Real.sqrt_mul' _ (sq_nonneg _), Real.sqrt_sq (by positivity)]
  · have := hd s f d i
    have e : globalMult (probOf S ms) (w s) f d i + (0 : ℝ → State ι ℝ) s f d i + (r' s f d i - globalMult (probOf S ms) (w s) f d i) = r' s f d i := by
      simp
    rw [e]
    exact this

/-! ### values at the nodes -/

lemma at_node (r : Resolves S ms p ρ m0 m1 Λ h B T F node) {c : Cell n ι} (hc : c ∈ S.cells) {i : Nat} (hi : i < c.e.size) (u : ι → ℝ) :
    eval (node c.e i) (onElem c.e u) = u (c.e.dof i) := by
  unfold onElem
  rw [map_sum, Finset.sum_eq_single i]
  · rw [map_mul, eval_C, r.nodal.delta c hc i hi i hi, if_pos rfl, mul_one]
  · intro j hj hne
    rw [map_mul, eval_C, r.nodal.delta c hc i hi j (Finset.mem_range.1 hj), if_neg (Ne.symm hne), mul_zero]
  · intro hn
    exact absurd (Finset.mem_range.2 hi) hn

lemma sampled_near (r : Resolves S ms p ρ m0 m1 Λ h B T F node) {t : ℝ} (h0 : 0 ≤ t) (hT : t ≤ T) {w u : State ι ℝ}
    (hw : Carries S (taylorField F p t) w) (hu : Sampled S node F t u) {c : Cell n ι} (hc : c ∈ S.cells) (f : FieldT) (d : Dir)
    (x : Fin (n + 1) → ℝ) (hx : Inside c.shape x) : |eval x (onElem c.e (fun i => u f d i - w f d i))| ≤ Λ * ((3 * h) ^ (p + 1) * B) := by
  have hh := r.fine.pos
  have hB := r.bound
  have hv : ∀ i ∈ Finset.range c.e.size, |u f d (c.e.dof i) - w f d (c.e.dof i)| ≤ (3 * h) ^ (p + 1) * B := by
    intro i hi
    have hi := Finset.mem_range.1 hi
    rw [hu c hc i hi f d, ← at_node r hc hi (w f d), hw c hc f d, eval_bind]
    unfold taylorField
    exact (approx_value r hc h0 hT ⟨node c.e i, r.nodal.inside c hc i hi, rfl⟩ f d).1
  unfold onElem
  rw [map_sum]
  refine (Finset.abs_sum_le_sum_abs _ _).trans ?_
  calc ∑ i ∈ Finset.range c.e.size, |eval x (C (u f d (c.e.dof i) - w f d (c.e.dof i)) * c.e.shape i)|
      ≤ ∑ i ∈ Finset.range c.e.size, ((3 * h) ^ (p + 1) * B) * |eval x (c.e.shape i)| := by
        refine Finset.sum_le_sum fun i hi => ?_
        rw [map_mul, eval_C, abs_mul]
        exact mul_le_mul_of_nonneg_right (hv i hi) (abs_nonneg _)
    _ = ((3 * h) ^ (p + 1) * B) * ∑ i ∈ Finset.range c.e.size, |eval x (c.e.shape i)| := by rw [Finset.mul_sum]
    _ ≤ ((3 * h) ^ (p + 1) * B) * Λ := mul_le_mul_of_nonneg_left (r.nodal.lebesgue c hc x hx) (by positivity)
    _ = _ := mul_comm _ _

lemma sampled_size (r : Resolves S ms p ρ m0 m1 Λ h B T F node) (hm0 : 0 < m0) (hm1 : m0 ≤ m1) (hΛ : 0 ≤ Λ) {t : ℝ} (h0 : 0 ≤ t) (hT : t ≤ T) {w u : State ι ℝ}
    (hw : Carries S (taylorField F p t) w) (hu : Sampled S node F t u) :
    size (massOf S ms) (u - w) ≤ √(3 * m1) * (Λ * 3 ^ (p + 1)) * √(volume S) * (B * h ^ p) := by
  have hh := r.fine.pos
  have hB := r.bound
  have hm1' : 0 < m1 := hm0.trans_le hm1
  have hvol : 0 ≤ volume S := by
    refine List.sum_nonneg fun y hy => ?_
    obtain ⟨c, hc, rfl⟩ := List.mem_map.1 hy
    simpa using sq_nonneg' r.mesh hc 1
  have key : energy (massOf S ms) (u - w) ≤ 3 * m1 * volume S * (Λ * ((3 * h) ^ (p + 1) * B)) ^ 2 := by
    rw [energy_eq r.mesh]
    unfold fieldEnergy
    have hcell : ∀ c ∈ S.cells, ∀ f d, integral c.shape (onElem c.e ((u - w) f d) ^ 2 * c.e.jac.det) ≤
        (Λ * ((3 * h) ^ (p + 1) * B)) ^ 2 * integral c.shape c.e.jac.det := by
      intro c hc f d
      rw [← intl_eq, ← intl_eq, ← intl_scale]
      refine intl_mono (by have := r.mesh.dim; omega) _ _ _ fun x hx => ?_
      rw [map_mul, map_mul, map_pow, eval_C]
      refine mul_le_mul_of_nonneg_right ?_ (r.mesh.jacobian c hc x hx).le
      rw [← sq_abs]
      exact pow_le_pow_left₀ (abs_nonneg _) (sampled_near r h0 hT hw hu hc f d x hx) 2
    have hsum : (S.cells.map fun c => ∑ d : Dir,
        ((materialOf ms c.toCell).eps * integral c.shape (onElem c.e ((u - w) .E d) ^ 2 * c.e.jac.det) +
          (materialOf ms c.toCell).mu * integral c.shape (onElem c.e ((u - w) .H d) ^ 2 * c.e.jac.det))).sum ≤
        (S.cells.map fun c => 6 * m1 * (Λ * ((3 * h) ^ (p + 1) * B)) ^ 2 * integral c.shape c.e.jac.det).sum := by
      refine List.sum_le_sum fun c hc => ?_
      obtain ⟨⟨e0, e1⟩, ⟨u0, u1⟩, -⟩ := r.between c hc
      have i2 : 0 ≤ integral c.shape c.e.jac.det := by simpa using sq_nonneg' r.mesh hc 1
      have one : ∀ {a : ℝ} (_ : 0 ≤ a) (_ : a ≤ m1) f d, a * integral c.shape (onElem c.e ((u - w) f d) ^ 2 * c.e.jac.det) ≤
          m1 * ((Λ * ((3 * h) ^ (p + 1) * B)) ^ 2 * integral c.shape c.e.jac.det) := fun h1 h2 f d =>
        mul_le_mul h2 (hcell c hc f d) (by rw [sq]; exact sq_nonneg' r.mesh hc _) hm1'.le
      have he := one (hm0.le.trans e0) e1
      have hu := one (hm0.le.trans u0) u1
      rw [Fin.sum_univ_three]
      have := he .E 0; have := he .E 1; have := he .E 2; have := hu .H 0; have := hu .H 1; have := hu .H 2
      linarith
    rw [List.sum_map_mul_left] at hsum
    change _ ≤ 6 * m1 * _ * volume S at hsum
    linarith
  have hle : (3 * h) ^ (p + 1) * B ≤ 3 ^ (p + 1) * (B * h ^ p) := by
    rw [mul_pow, pow_succ h p]
    have h1 := r.small
    have h2 : 0 ≤ (3 : ℝ) ^ (p + 1) * h ^ p * B := by positivity
    nlinarith
  unfold size
  have k2 : energy (massOf S ms) (u - w) ≤ 3 * m1 * volume S * (Λ * (3 ^ (p + 1) * (B * h ^ p))) ^ 2 :=
    key.trans (mul_le_mul_of_nonneg_left (pow_le_pow_left₀ (by positivity) (mul_le_mul_of_nonneg_left hle hΛ) 2) (by positivity))
  refine (Real.sqrt_le_sqrt k2).trans (le_of_eq ?_)
  rw [Real.sqrt_mul' _ (sq_nonneg _), Real.sqrt_sq (by positivity), Real.sqrt_mul (by positivity)]
  ring

/-! ### the theorems -/

/-- Constant of the error, independent of the mesh. -/
noncomputable def errConst (L ρ m0 m1 Λ α : ℝ) (p : Nat) : ℝ := 2 * (√(3 * m1) * (Λ * 3 ^ (p + 1))) + √(residConst L ρ m0 m1 α p)

lemma errConst_nonneg {L ρ m0 m1 Λ α : ℝ} (hΛ : 0 ≤ Λ) (p : Nat) : 0 ≤ errConst L ρ m0 m1 Λ α p := by
  unfold errConst; positivity

lemma volume_nonneg (r : Resolves S ms p ρ m0 m1 Λ h B T F node) : 0 ≤ volume S := by
  refine List.sum_nonneg fun y hy => ?_
  obtain ⟨c, hc, rfl⟩ := List.mem_map.1 hy
  simpa using sq_nonneg' r.mesh hc 1

lemma sqrt_resid {L : ℝ} (r : Resolves S ms p ρ m0 m1 Λ h B T F node) :
    √(residConst L ρ m0 m1 S.alpha p * volume S) = √(residConst L ρ m0 m1 S.alpha p) * √(volume S) := Real.sqrt_mul' _ (volume_nonneg r)

/-- From the distance to the Taylor polynomials to the distance to the values at the nodes. -/
lemma total_error' (r : Resolves S ms p ρ m0 m1 Λ h B T F node) (hm0 : 0 < m0) (hm1 : m0 ≤ m1) (hΛ : 0 ≤ Λ) (hα : 0 ≤ S.alpha) {R : ℝ}
    {w : ℝ → State ι ℝ} (hw : ∀ t, Carries S (taylorField F p t) (w t)) {t E : ℝ} (h0 : 0 ≤ t) (hT : t ≤ T) {x y s : State ι ℝ}
    (hx : Sampled S node F 0 x) (hs : Sampled S node F t s)
    (hy : size (massOf S ms) (y - w t) ≤ size (massOf S ms) (x - w 0) + t * (√(R * volume S) * (B * h ^ p)) + E) :
    size (massOf S ms) (y - s) ≤ (2 * (√(3 * m1) * (Λ * 3 ^ (p + 1))) + √R) * (1 + t) * √(volume S) * (B * h ^ p) + E := by
  have hP := passive_of r hα
  have e2 := sampled_size r hm0 hm1 hΛ le_rfl (h0.trans hT) (hw 0) hx
  have e3 := sampled_size r hm0 hm1 hΛ h0 hT (hw t) hs
  have e4 := Super.size_tri hP y (w t) s
  rw [size_comm _ (w t) s] at e4
  rw [Real.sqrt_mul' _ (volume_nonneg r)] at hy
  have hvol := volume_nonneg r
  have hh := r.fine.pos
  have hB := r.bound
  have c1 := combine (a := √(3 * m1) * (Λ * 3 ^ (p + 1))) (b := √R) (v := √(volume S)) (X := B * h ^ p) (t := t)
    (by positivity) (by positivity) (by positivity) (by positivity) h0
  linarith

lemma total_error (r : Resolves S ms p ρ m0 m1 Λ h B T F node) (hm0 : 0 < m0) (hm1 : m0 ≤ m1) (hΛ : 0 ≤ Λ) (hα : 0 ≤ S.alpha) {L : ℝ}
    {w : ℝ → State ι ℝ} (hw : ∀ t, Carries S (taylorField F p t) (w t)) {t E : ℝ} (h0 : 0 ≤ t) (hT : t ≤ T) {x y s : State ι ℝ}
    (hx : Sampled S node F 0 x) (hs : Sampled S node F t s)
    (hy : size (massOf S ms) (y - w t) ≤ size (massOf S ms) (x - w 0) + t * (√(residConst L ρ m0 m1 S.alpha p * volume S) * (B * h ^ p)) + E) :
    size (massOf S ms) (y - s) ≤ errConst L ρ m0 m1 Λ S.alpha p * (1 + t) * √(volume S) * (B * h ^ p) + E :=
  total_error' r hm0 hm1 hΛ hα hw h0 hT hx hs hy

lemma square_error (r : Resolves S ms p ρ m0 m1 Λ h B T F node) {K t : ℝ} (hK : 0 ≤ K) (h0 : 0 ≤ t) {u : State ι ℝ}
    (hu : size (massOf S ms) u ≤ K * (1 + t) * √(volume S) * (B * h ^ p)) :
    fieldEnergy S ms u ≤ (K * (1 + t) * B * h ^ p) ^ 2 * volume S := by
  have hvol := volume_nonneg r
  have hh := r.fine.pos
  have hB := r.bound
  rw [← energy_eq r.mesh]
  unfold size at hu
  rw [Real.sqrt_le_left (by positivity)] at hu
  refine hu.trans (le_of_eq ?_)
  rw [mul_pow, mul_pow _ (√(volume S)), Real.sq_sqrt hvol]
  ring

/-- The constant of the error, from the trace inequality. -/
lemma const_exists (n p : Nat) (ρ m0 m1 Λ α : ℝ) (hΛ : 0 ≤ Λ) : ∃ L K, 0 ≤ L ∧ 0 ≤ K ∧ K = errConst L ρ m0 m1 Λ α p ∧ (n < 3 → TraceBound n p L) := by
  by_cases hn : n < 3
  · obtain ⟨L, hL0, hL⟩ := trace_bound hn p
    exact ⟨L, _, hL0, errConst_nonneg hΛ p, rfl, fun _ => hL⟩
  · exact ⟨0, _, le_rfl, errConst_nonneg hΛ p, rfl, fun h => absurd h hn⟩

/-- Fields given by their values at the nodes differ from the solution by at most the order `h ^ (p + 1)` anywhere. -/
theorem C161_nodes (n p : Nat) (ρ m0 m1 Λ : ℝ) (hm0 : 0 < m0) (ι : Type) [Fintype ι] [DecidableEq ι] (S : Setup n ι)
    (ms : List (Int × Material ℝ)) (h B T : ℝ) (F : Solution n ι) (node : Elem n ι ℝ → Nat → Fin (n + 1) → ℝ)
    (r : Resolves S ms p ρ m0 m1 Λ h B T F node) (hα : 0 ≤ S.alpha) (t : ℝ) (h0 : 0 ≤ t) (hT : t ≤ T) (s : State ι ℝ) (hs : Sampled S node F t s) :
    Close S F t ((1 + Λ) * ((3 * h) ^ (p + 1) * B)) s := by
  obtain ⟨L, hL0, hL⟩ := trace_bound r.mesh.dim p
  obtain ⟨w, hw, -⟩ := interpolant r hm0 hα hL0 hL
  intro c hc x hx f d
  have e1 := sampled_near r h0 hT (hw t) hs hc f d x hx
  have e2 := (approx_value r hc h0 hT ⟨x, hx, rfl⟩ f d).1
  have e3 : eval x (onElem c.e (w t f d)) = eval (fun k => eval x (c.e.geom k)) (tay (corner c.e) t p (F c.e f d)) := by
    rw [hw t c hc f d, eval_bind]
    rfl
  rw [onElem_sub, map_sub, e3] at e1
  rw [abs_sub_comm] at e2
  have := abs_sub_le (eval x (onElem c.e (s f d))) (eval (fun k => eval x (c.e.geom k)) (tay (corner c.e) t p (F c.e f d)))
    (F c.e f d (t, fun k => eval x (c.e.geom k)))
  linarith

/-- **C161**.  On straight meshes of order `p`, of segments, triangles, quadrilaterals,
tetrahedra and hexahedra no larger than `h` and no thinner than `h / ρ`: the solution of the equations on
the mesh that starts at the values of a smooth solution of Maxwell's equations at the nodes stays near the values of that solution at the
nodes.  The energy of the difference is at most of order `h ^ (2 p)`, with a constant that does not depend on the mesh. -/
theorem C161_solution (n p : Nat) (ρ m0 m1 Λ α : ℝ) (hm0 : 0 < m0) (hm1 : m0 ≤ m1) (hΛ : 0 ≤ Λ) (hα : 0 ≤ α) :
    ∃ K, 0 ≤ K ∧ ∀ (ι : Type) [Fintype ι] [DecidableEq ι] (S : Setup n ι) (ms : List (Int × Material ℝ)) (h B T : ℝ) (F : Solution n ι)
      (node : Elem n ι ℝ → Nat → Fin (n + 1) → ℝ), S.alpha = α → Resolves S ms p ρ m0 m1 Λ h B T F node →
      ∃ P, S.prob ms = .ok P ∧ ∀ u : ℝ → State ι ℝ, (∀ t f d i, HasDerivAt (fun t => u t f d i) (globalMult P (u t) f d i) t) →
        Sampled S node F 0 (u 0) → ∀ t, 0 ≤ t → t ≤ T → ∀ s, Sampled S node F t s →
          fieldEnergy S ms (u t - s) ≤ (K * (1 + t) * B * h ^ p) ^ 2 * volume S := by
  obtain ⟨L, K, hL0, hK0, rfl, hL⟩ := const_exists n p ρ m0 m1 Λ α hΛ
  refine ⟨_, hK0, fun ι _ _ S ms h B T F node ha r => ⟨probOf S ms, prob_ok S ms r.materials, ?_⟩⟩
  subst ha
  intro u hu hu0 t h0 hT s hs
  obtain ⟨w, hw, res, hres⟩ := interpolant r hm0 hα hL0 (hL r.mesh.dim)
  have e1 := Super.near (passive_of r hα) h0 (src := 0) (u := u) (fun r f d i => by simpa using hu r f d i) ⟨res, fun s h1 h2 => hres s h1 (h2.trans hT)⟩
  rw [sub_zero] at e1
  have e2 := total_error r hm0 hm1 hΛ hα (L := L) hw (E := 0) h0 hT hu0 hs (by rw [add_zero]; exact e1)
  rw [add_zero] at e2
  exact square_error r hK0 h0 e2

/-- Hence refinement converges: on all meshes that are fine enough the error is below any bound. -/
theorem C161_converges (n p : Nat) (ρ m0 m1 Λ α : ℝ) (hm0 : 0 < m0) (hm1 : m0 ≤ m1) (hΛ : 0 ≤ Λ) (hα : 0 ≤ α) (B T V : ℝ) (ε : ℝ) (hε : 0 < ε) :
    ∃ hmax, 0 < hmax ∧ ∀ (ι : Type) [Fintype ι] [DecidableEq ι] (S : Setup n ι) (ms : List (Int × Material ℝ)) (h : ℝ) (F : Solution n ι)
      (node : Elem n ι ℝ → Nat → Fin (n + 1) → ℝ), S.alpha = α → Resolves S ms p ρ m0 m1 Λ h B T F node →
      h ≤ hmax → volume S ≤ V →
      ∃ P, S.prob ms = .ok P ∧ ∀ u : ℝ → State ι ℝ, (∀ t f d i, HasDerivAt (fun t => u t f d i) (globalMult P (u t) f d i) t) →
        Sampled S node F 0 (u 0) → ∀ t, 0 ≤ t → t ≤ T → ∀ s, Sampled S node F t s → fieldEnergy S ms (u t - s) ≤ ε := by
  obtain ⟨K, hK0, hK⟩ := C161_solution n p ρ m0 m1 Λ α hm0 hm1 hΛ hα
  obtain ⟨D, hD⟩ : ∃ D, D = (K * (1 + |T|) * |B|) ^ 2 * |V| + 1 := ⟨_, rfl⟩
  have hD1 : 1 ≤ D := by rw [hD]; have : 0 ≤ (K * (1 + |T|) * |B|) ^ 2 * |V| := by positivity
                         linarith
  refine ⟨min 1 (ε / D), lt_min one_pos (by positivity), fun ι _ _ S ms h F node ha r hh hv => ?_⟩
  obtain ⟨P, hP, hu⟩ := hK ι S ms h B T F node ha r
  refine ⟨P, hP, fun u h1 h2 t h0 hT s hs => (hu u h1 h2 t h0 hT s hs).trans ?_⟩
  have hpos := r.fine.pos
  have hB := r.bound
  have hvol := volume_nonneg r
  have x1 : h ≤ 1 := hh.trans (min_le_left _ _)
  have x2 : h * D ≤ ε := by
    have := hh.trans (min_le_right _ _)
    rwa [le_div_iff₀ (by linarith)] at this
  have hp : (h ^ p) ^ 2 ≤ h := by
    rw [← pow_mul]
    have := r.mesh.order
    calc h ^ (p * 2) ≤ h ^ 1 := pow_le_pow_of_le_one hpos.le x1 (by omega)
      _ = h := pow_one h
  have hT' : 1 + t ≤ 1 + |T| := by have := le_abs_self T; linarith
  have hc : K * (1 + t) * B ≤ K * (1 + |T|) * |B| := by
    rw [abs_of_nonneg hB]
    exact mul_le_mul_of_nonneg_right (mul_le_mul_of_nonneg_left hT' hK0) hB
  have hc2 : (K * (1 + t) * B) ^ 2 * volume S ≤ (K * (1 + |T|) * |B|) ^ 2 * |V| :=
    mul_le_mul (pow_le_pow_left₀ (by positivity) hc 2) (hv.trans (le_abs_self V)) hvol (by positivity)
  calc (K * (1 + t) * B * h ^ p) ^ 2 * volume S = ((K * (1 + t) * B) ^ 2 * volume S) * (h ^ p) ^ 2 := by ring
    _ ≤ D * h := mul_le_mul (by rw [hD]; linarith) hp (by positivity) (by linarith)
    _ ≤ ε := by linarith

/-- A run by an implicit integrator: the error of the mesh adds to that of the steps. -/
theorem C161_implicit (n p : Nat) (ρ m0 m1 Λ α : ℝ) (hm0 : 0 < m0) (hm1 : m0 ≤ m1) (hΛ : 0 ≤ Λ) (hα : 0 ≤ α) :
    ∃ K, 0 ≤ K ∧ ∀ (ι : Type) [Fintype ι] [DecidableEq ι] (S : Setup n ι) (ms : List (Int × Material ℝ)) (h B T : ℝ) (F : Solution n ι)
      (node : Elem n ι ℝ → Nat → Fin (n + 1) → ℝ), S.alpha = α → Resolves S ms p ρ m0 m1 Λ h B T F node →
      ∃ P A, S.prob ms = .ok P ∧ (∀ u : State ι ℝ, A.mulVec (flat u) = flat (globalMult P u)) ∧
        ∀ (q : Sdirk ℝ) (_ : Ideal33 q) (o : TimeInt.Ode) (_ : o ≠ .rk4) (x : State ι ℝ), Sampled S node F 0 x →
          ∃ C, ∀ (H : ℝ) (dts : List ℝ), 0 ≤ H → H ≤ 1 → (∀ dt ∈ dts, 0 ≤ dt ∧ dt ≤ H) → dts.sum ≤ T →
            ∃ y c, TimeInt.run q o (TimeInt.globalTdo A fun _ => 0) dts (flat x) 0 fresh = some (flat y, dts.sum, c) ∧
              ∀ s, Sampled S node F dts.sum s →
                √(fieldEnergy S ms (y - s)) ≤ K * (1 + dts.sum) * √(volume S) * (B * h ^ p) + C * H ^ order o := by
  obtain ⟨L, K, hL0, hK0, rfl, hL⟩ := const_exists n p ρ m0 m1 Λ α hΛ
  refine ⟨_, hK0, fun ι _ _ S ms h B T F node ha r => ?_⟩
  subst ha
  obtain ⟨A, hA⟩ := exists_matrix (probOf S ms)
  refine ⟨probOf S ms, A, prob_ok S ms r.materials, hA, fun q hq o ho x hx => ?_⟩
  obtain ⟨w, hw, res, hres⟩ := interpolant r hm0 hα hL0 (hL r.mesh.dim)
  obtain ⟨C, hC⟩ := Super.C137_implicit q hq _ _ (passive_of r hα) A hA o ho 0 (fun f d i => contDiff_const) x 0 T
  refine ⟨C, fun H dts h1 h2 h3 h4 => ?_⟩
  obtain ⟨y, c, e, hy⟩ := hC H dts h1 h2 h3 h4
  have hsum : 0 ≤ dts.sum := List.sum_nonneg fun d hd => (h3 d hd).1
  rw [zero_add] at e hy
  refine ⟨y, c, e, fun s hs => ?_⟩
  have e1 := hy w _ ⟨res, fun s h1 h2 => hres s h1 (h2.trans h4)⟩
  rw [← energy_eq r.mesh]
  exact total_error r hm0 hm1 hΛ hα (L := L) hw hsum h4 hx hs e1

/-- A run by the explicit integrator with steps within its limit. -/
theorem C161_explicit (n p : Nat) (ρ m0 m1 Λ α : ℝ) (hm0 : 0 < m0) (hm1 : m0 ≤ m1) (hΛ : 0 ≤ Λ) (hα : 0 ≤ α) :
    ∃ K, 0 ≤ K ∧ ∀ (ι : Type) [Fintype ι] [DecidableEq ι] (S : Setup n ι) (ms : List (Int × Material ℝ)) (h B T : ℝ) (F : Solution n ι)
      (node : Elem n ι ℝ → Nat → Fin (n + 1) → ℝ), S.alpha = α → Resolves S ms p ρ m0 m1 Λ h B T F node →
      ∃ P A dtMax, S.prob ms = .ok P ∧ (∀ u : State ι ℝ, A.mulVec (flat u) = flat (globalMult P u)) ∧ 0 < dtMax ∧
        ∀ (q : Sdirk ℝ) (x : State ι ℝ), Sampled S node F 0 x →
          ∃ C, ∀ (dt last : ℝ) (k : Nat), 0 ≤ last → last ≤ dt → dt ≤ dtMax → k * dt + last ≤ T →
            ∃ y c, TimeInt.run q .rk4 (TimeInt.globalTdo A fun _ => 0) (List.replicate k dt ++ [last]) (flat x) 0 fresh =
                some (flat y, k * dt + last, c) ∧
              ∀ s, Sampled S node F (k * dt + last) s →
                √(fieldEnergy S ms (y - s)) ≤ K * (1 + (k * dt + last)) * √(volume S) * (B * h ^ p) + C * dt ^ 4 := by
  obtain ⟨L, K, hL0, hK0, rfl, hL⟩ := const_exists n p ρ m0 m1 Λ α hΛ
  refine ⟨_, hK0, fun ι _ _ S ms h B T F node ha r => ?_⟩
  subst ha
  obtain ⟨A, hA⟩ := exists_matrix (probOf S ms)
  have hP := passive_of r hα
  obtain ⟨N, hN0, hN⟩ := TimeInt.C119_bounded (probOf S ms) (massOf S ms) hP.pos
  refine ⟨probOf S ms, A, 1 / (4 * (N + 1)), prob_ok S ms r.materials, hA, by positivity, fun q x hx => ?_⟩
  obtain ⟨w, hw, res, hres⟩ := interpolant r hm0 hα hL0 (hL r.mesh.dim)
  obtain ⟨C, hC⟩ := Super.C137_explicit q _ _ hP A hA 0 (fun f d i => contDiff_const) x N hN0 hN 0 T
  refine ⟨C, fun dt last k h1 h2 h3 h4 => ?_⟩
  have hdt : dt * (4 * (N + 1)) ≤ 1 := by rwa [le_div_iff₀ (by positivity)] at h3
  have hdt0 : 0 ≤ dt := h1.trans h2
  obtain ⟨y, c, e, hy⟩ := hC dt last k h1 h2 (by nlinarith) (by nlinarith) h4
  have hsum : 0 ≤ k * dt + last := by positivity
  simp only [zero_add] at e hy
  refine ⟨y, c, e, fun s hs => ?_⟩
  have e1 := hy w _ ⟨res, fun s h1 h2 => hres s h1 (h2.trans h4)⟩
  rw [← energy_eq r.mesh]
  exact total_error r hm0 hm1 hΛ hα (L := L) hw hsum h4 hx hs e1

end Dgtd.Straight
