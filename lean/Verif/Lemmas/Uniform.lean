/-
Lemmas for C150: initial values with small high rates near given ones, and derivatives in time of solutions.
-/
import Verif.Props.Convergence
import Verif.Props.Cfl
import Verif.Spec.Uniform
import Mathlib.Analysis.Calculus.Deriv.Add

set_option linter.unusedSectionVars false

namespace Dgtd.Galerkin
open MvPolynomial Spec Dgtd.Op Dgtd.Op.Spec
open Dgtd.Implicit Dgtd.TimeInt Dgtd.TimeInt.Spec Dgtd.Super.Spec Dgtd.Frame
open Dgtd.Config (Material)
open scoped ContDiff

/-! ### smoothing initial values -/

section smoothing

variable {V : Type} [AddCommGroup V] [Module ℝ V] [FiniteDimensional ℝ V]

/-- One minus a dissipative operator has an inverse; neither the inverse nor the operator after it increases the norm. -/
lemma resolvent {Q : V →ₗ[ℝ] V →ₗ[ℝ] ℝ} {Z : V →ₗ[ℝ] V} (h : Diss Q Z) (pos : ∀ u, u ≠ 0 → 0 < Q u u) :
    ∃ R : V →ₗ[ℝ] V, (∀ x, R x - Z (R x) = x) ∧ (∀ x, R (x - Z x) = x) ∧ ∀ x, nrm Q (R x) ≤ nrm Q x ∧ nrm Q (Z (R x)) ≤ nrm Q x := by
  have key : ∀ u, Q u u + Q (Z u) (Z u) ≤ Q (u - Z u) (u - Z u) := by
    intro u
    have e : Q (u - Z u) (u - Z u) = Q u u - 2 * Q u (Z u) + Q (Z u) (Z u) := by
      simp only [map_sub, LinearMap.sub_apply]
      rw [h.symm (Z u) u]
      ring
    have := h.diss u
    linarith
  have inj : Function.Injective ((LinearMap.id : V →ₗ[ℝ] V) - Z) := by
    rw [← LinearMap.ker_eq_bot, LinearMap.ker_eq_bot']
    intro u hu
    by_contra hne
    have k := key u
    have e : u - Z u = 0 := hu
    rw [e] at k
    have := pos u hne
    have := h.nonneg (Z u)
    simp only [map_zero] at k
    linarith
  let e := LinearEquiv.ofInjectiveEndo ((LinearMap.id : V →ₗ[ℝ] V) - Z) inj
  have he : ∀ x, e x = x - Z x := fun x => rfl
  have e1 : ∀ x, e.symm x - Z (e.symm x) = x := fun x => by rw [← he, LinearEquiv.apply_symm_apply]
  refine ⟨e.symm, e1, fun x => by change e.symm (x - Z x) = x; rw [← he, LinearEquiv.symm_apply_apply], fun x => ?_⟩
  have k := key (e.symm x)
  rw [e1] at k
  have n1 := h.nonneg (e.symm x)
  have n2 := h.nonneg (Z (e.symm x))
  exact ⟨Real.sqrt_le_sqrt (show Q (e.symm x) (e.symm x) ≤ Q x x by linarith),
    Real.sqrt_le_sqrt (show Q (Z (e.symm x)) (Z (e.symm x)) ≤ Q x x by linarith)⟩

lemma nrm_sub_le {Q : V →ₗ[ℝ] V →ₗ[ℝ] ℝ} {Z : V →ₗ[ℝ] V} (h : Diss Q Z) (u v : V) : nrm Q (u - v) ≤ nrm Q u + nrm Q v := by
  have k := nrm_add_le h.symm h.nonneg u (-v)
  have e : nrm Q (-v) = nrm Q v := by unfold nrm; simp
  rw [e, ← sub_eq_add_neg] at k
  exact k

/-- Values that are almost the rates of change of each other can be changed a little so that the highest rate of change is bounded. -/
lemma smoothed {Q : V →ₗ[ℝ] V →ₗ[ℝ] ℝ} {Z : V →ₗ[ℝ] V} (h : Diss Q Z) (pos : ∀ u, u ≠ 0 → 0 < Q u u) (m : Nat) : ∀ (w : Nat → V) (δ D : ℝ),
    (∀ i < m, nrm Q (w (i + 1) - Z (w i)) ≤ δ) → (∀ i ≤ m, nrm Q (w i) ≤ D) →
    ∃ z, nrm Q (z - w 0) ≤ (2 ^ m - 1) * δ ∧ nrm Q ((Z ^ m) z) ≤ 2 ^ m * D := by
  induction m with
  | zero =>
    intro w δ D _ hD
    refine ⟨w 0, ?_, by simpa using hD 0 le_rfl⟩
    rw [sub_self, pow_zero, sub_self, zero_mul]
    unfold nrm
    simp
  | succ m ih =>
    intro w δ D hδ hD
    obtain ⟨R, r1, r2, r3⟩ := resolvent h pos
    obtain ⟨z, z1, z2⟩ := ih (fun i => w i - w (i + 1)) (2 * δ) (2 * D) (by
      intro i hi
      have e : w (i + 1) - w (i + 1 + 1) - Z (w i - w (i + 1)) = (w (i + 1) - Z (w i)) - (w (i + 1 + 1) - Z (w (i + 1))) := by
        rw [map_sub]; abel
      have k1 := hδ i (by omega)
      have k2 := hδ (i + 1) (by omega)
      have k3 := nrm_sub_le h (w (i + 1) - Z (w i)) (w (i + 1 + 1) - Z (w (i + 1)))
      change nrm Q (w (i + 1) - w (i + 1 + 1) - Z (w i - w (i + 1))) ≤ _
      rw [e]
      linarith) (by
      intro i hi
      have k1 := hD i (by omega)
      have k2 := hD (i + 1) (by omega)
      have k3 := nrm_sub_le h (w i) (w (i + 1))
      change nrm Q (w i - w (i + 1)) ≤ _
      linarith)
    have comm : ∀ (k : Nat) (x : V), (Z ^ k) (R x) = R ((Z ^ k) x) := by
      have c1 : ∀ x, Z (R x) = R (Z x) := by
        intro x
        have a1 := r1 x
        have a2 := r2 x
        rw [map_sub] at a2
        have : R x - Z (R x) = R x - R (Z x) := a1.trans a2.symm
        exact sub_right_injective this
      intro k
      induction k with
      | zero => intro x; rfl
      | succ k ihk => intro x; rw [pow_succ, Module.End.mul_apply, Module.End.mul_apply, c1, ihk]
    refine ⟨R z, ?_, ?_⟩
    · have e : R z - w 0 = R ((z - (w 0 - w (0 + 1))) - (w (0 + 1) - Z (w 0))) := by
        conv_lhs => rw [← r2 (w 0), ← map_sub]
        congr 1
        abel
      rw [e]
      refine (r3 _).1.trans ((nrm_sub_le h _ _).trans ?_)
      have k1 := hδ 0 (by omega)
      have : nrm Q (z - (w 0 - w (0 + 1))) ≤ (2 ^ m - 1) * (2 * δ) := z1
      rw [pow_succ]
      linarith
    · rw [pow_succ', Module.End.mul_apply, comm]
      refine (r3 _).2.trans (z2.trans (le_of_eq ?_))
      rw [pow_succ]
      ring

end smoothing

/-! ### derivatives in time of solutions -/

/-- Functions that agree during an interval have the same rates of change, at the ends too. -/
lemma same_rate {φ ψ : ℝ → ℝ} {a b t T : ℝ} (hT : 0 < T) (h0 : 0 ≤ t) (h1 : t ≤ T) (hφ : HasDerivAt φ a t) (hψ : HasDerivAt ψ b t)
    (e : ∀ s, 0 ≤ s → s ≤ T → φ s = ψ s) : a = b := by
  have hm : t ∈ Set.Icc 0 T := ⟨h0, h1⟩
  have k1 := hφ.hasDerivWithinAt (s := Set.Icc 0 T)
  have k2 := (hψ.hasDerivWithinAt (s := Set.Icc 0 T)).congr (fun s hs => e s hs.1 hs.2) (e t h0 h1)
  exact (uniqueDiffOn_Icc hT t hm).eq_deriv _ k1 k2

variable {n : Nat} {ι : Type} [Fintype ι] [DecidableEq ι] {S : Setup n ι} {ms : List (Int × Material ℝ)} {p : Nat}
  {ρ m0 m1 Λ h B T : ℝ} {F : Solution n ι} {node : Elem n ι ℝ → Nat → Fin (n + 1) → ℝ}

lemma dir_time {g : Event (n + 1) → ℝ} (hg : ContDiff ℝ ∞ g) (d : Dir) (y : Fin (n + 1) → ℝ) (t : ℝ) :
    HasDerivAt (fun s => dirDeriv d g (s, y)) (dirDeriv d (dt g) (t, y)) t := by
  unfold dirDeriv
  split
  · rw [← dt_dx hg]
    exact time_deriv (contDiff_dx hg _) y t
  · exact hasDerivAt_const t 0

lemma curl_time (hF : ∀ a f d, ContDiff ℝ ∞ (F a f d)) (a : Elem n ι ℝ) (f : FieldT) (d : Dir) (y : Fin (n + 1) → ℝ) (t : ℝ) :
    HasDerivAt (fun s => curlAt (F a f) d (s, y)) (curlAt (rate F a f) d (t, y)) t :=
  (dir_time (hF a f _) _ y t).sub (dir_time (hF a f _) _ y t)

lemma solves_rate (hT : 0 < T) (hs : Solves S ms T F) : Solves S ms T (rate F) where
  smooth := fun a f d => contDiff_dt (hs.smooth a f d)
  electric := fun c hc t h0 h1 y hy d =>
    same_rate hT h0 h1 ((time_deriv (contDiff_dt (hs.smooth c.e .E d)) y t).const_mul _)
      ((curl_time hs.smooth c.e .H d y t).sub ((time_deriv (hs.smooth c.e .E d) y t).const_mul _))
      (fun s k0 k1 => hs.electric c hc s k0 k1 y hy d)
  magnetic := fun c hc t h0 h1 y hy d =>
    same_rate hT h0 h1 ((time_deriv (contDiff_dt (hs.smooth c.e .H d)) y t).const_mul _) (curl_time hs.smooth c.e .E d y t).neg
      (fun s k0 k1 => hs.magnetic c hc s k0 k1 y hy d)

lemma cross_time {ν : Dir → ℝ} {v : ℝ → Dir → ℝ} {v' : Dir → ℝ} {t : ℝ} (hv : ∀ k, HasDerivAt (fun s => v s k) (v' k) t) (d : Dir) :
    HasDerivAt (fun s => cross ν (v s) d) (cross ν v' d) t :=
  ((hv _).const_mul _).sub ((hv _).const_mul _)

lemma cross_time' {ν : Dir → ℝ} {v : ℝ → Dir → ℝ} {v' : Dir → ℝ} {t : ℝ} (hv : ∀ k, HasDerivAt (fun s => v s k) (v' k) t) (d : Dir) :
    HasDerivAt (fun s => cross (v s) ν d) (cross v' ν d) t :=
  ((hv _).mul_const _).sub ((hv _).mul_const _)

lemma beside_time (hF : ∀ a f d, ContDiff ℝ ∞ (F a f d)) (s : Side n ι ℝ) (x : Fin n → ℝ) (f : FieldT) (d : Dir) (t : ℝ) :
    HasDerivAt (fun r => beside F r s x f d) (beside (rate F) t s x f d) t := time_deriv (hF _ f d) _ t

lemma obeys_rate (hT : 0 < T) {c : BdrCond} {ν : Dir → ℝ} {v : ℝ → FieldT → Dir → ℝ} {v' : FieldT → Dir → ℝ} {t : ℝ} (h0 : 0 ≤ t) (h1 : t ≤ T)
    (hv : ∀ f d, HasDerivAt (fun s => v s f d) (v' f d) t) (ho : ∀ s, 0 ≤ s → s ≤ T → Obeys c ν (v s)) : Obeys c ν v' := by
  cases c with
  | PEC => exact fun d => same_rate hT h0 h1 (cross_time (hv .E) d) (hasDerivAt_const t 0) fun s k0 k1 => ho s k0 k1 d
  | PMC => exact fun d => same_rate hT h0 h1 (cross_time (hv .H) d) (hasDerivAt_const t 0) fun s k0 k1 => ho s k0 k1 d
  | SGBC => exact fun f d => same_rate hT h0 h1 (cross_time (hv f) d) (hasDerivAt_const t 0) fun s k0 k1 => ho s k0 k1 f d
  | SMA =>
    intro d
    refine same_rate hT h0 h1 ((hv .E d).sub ?_) (cross_time' (hv .H) d) fun s k0 k1 => ho s k0 k1 d
    exact (HasDerivAt.fun_sum fun k _ => (hv .E k).const_mul _).const_mul _

lemma fits_rate (hT : 0 < T) (hF : ∀ a f d, ContDiff ℝ ∞ (F a f d)) (hf : Fits S T F) : Fits S T (rate F) where
  inner := fun q hq hn s hs t h0 h1 x hx f d =>
    same_rate hT h0 h1 (cross_time (fun k => (beside_time hF q.2.s1 x f k t).sub (beside_time hF s x f k t)) d) (hasDerivAt_const t 0)
      fun r k0 k1 => hf.inner q hq hn s hs r k0 k1 x hx f d
  walls := fun q hq c hc t h0 h1 x hx =>
    ⟨obeys_rate hT h0 h1 (fun f d => beside_time hF q.2.s1 x f d t) fun r k0 k1 => (hf.walls q hq c hc r k0 k1 x hx).1,
      fun s hs => obeys_rate hT h0 h1 (fun f d => beside_time hF s x f d t) fun r k0 k1 => (hf.walls q hq c hc r k0 k1 x hx).2 s hs⟩
  outer := fun q hq c hc t h0 h1 x hx =>
    obeys_rate hT h0 h1 (fun f d => beside_time hF q.2.s1 x f d t) fun r k0 k1 => hf.outer q hq c hc r k0 k1 x hx

/-- The rates of change of a solution are a solution. -/
lemma resolves_rate (hT : 0 < T) (r : Resolves S ms p ρ m0 m1 Λ h B T F node) (hb : Bounded S T (rate F) (p + 1) B) :
    Resolves S ms p ρ m0 m1 Λ h B T (rate F) node :=
  { r with solves := solves_rate hT r.solves, fits := fits_rate hT r.solves.smooth r.fits, bounded := hb }

lemma resolves_rates (hT : 0 < T) (r : Resolves S ms p ρ m0 m1 Λ h B T F node) {k : Nat} (hb : Regular S T F p k B) :
    ∀ i ≤ k, Resolves S ms p ρ m0 m1 Λ h B T (rate^[i] F) node := by
  intro i
  induction i with
  | zero => exact fun _ => r
  | succ i ih =>
    intro hi
    have e : rate^[i + 1] F = rate (rate^[i] F) := Function.iterate_succ_apply' _ _ _
    rw [e]
    exact resolves_rate hT (ih (by omega)) (by rw [← e]; exact (hb _ hi).1)

/-! ### sizes -/

/-- Fields that are small everywhere have little energy. -/
lemma size_sup (r : Smooth S ms p ρ m0 m1 Λ h B T F node) (hm0 : 0 < m0) (hm1 : m0 ≤ m1) {a : ℝ} (ha : 0 ≤ a) {u : State ι ℝ}
    (hu : ∀ c ∈ S.cells, ∀ x, InSimplex x → ∀ f d, |eval x (onElem c.e (u f d))| ≤ a) :
    size (massOf S ms) u ≤ √(3 * m1) * a * √(volume S) := by
  have hm1' : 0 < m1 := hm0.trans_le hm1
  have hvol := volume_nonneg r
  have key : energy (massOf S ms) u ≤ 3 * m1 * volume S * a ^ 2 := by
    rw [energy_eq r.mesh]
    unfold fieldEnergy
    have hcell : ∀ c ∈ S.cells, ∀ f d, integral (n + 1) (onElem c.e (u f d) ^ 2 * c.e.jac.det) ≤ a ^ 2 * integral (n + 1) c.e.jac.det := by
      intro c hc f d
      rw [← integral_scale]
      refine integral_mono (by have := r.mesh.simplicial.dim; omega) _ _ fun x hx => ?_
      rw [map_mul, map_mul, map_pow, eval_C]
      refine mul_le_mul_of_nonneg_right ?_ (r.mesh.jacobian c hc x hx).le
      rw [← sq_abs]
      exact pow_le_pow_left₀ (abs_nonneg _) (hu c hc x hx f d) 2
    have hsum : (S.cells.map fun c => ∑ d : Dir,
        ((materialOf ms c).eps * integral (n + 1) (onElem c.e (u .E d) ^ 2 * c.e.jac.det) +
          (materialOf ms c).mu * integral (n + 1) (onElem c.e (u .H d) ^ 2 * c.e.jac.det))).sum ≤
        (S.cells.map fun c => 6 * m1 * a ^ 2 * integral (n + 1) c.e.jac.det).sum := by
      refine List.sum_le_sum fun c hc => ?_
      obtain ⟨⟨e0, e1⟩, ⟨u0, u1⟩, -⟩ := r.between c hc
      have i2 : 0 ≤ integral (n + 1) c.e.jac.det := by simpa using sq_nonneg' r.mesh hc 1
      have one : ∀ {b : ℝ} (_ : 0 ≤ b) (_ : b ≤ m1) f d, b * integral (n + 1) (onElem c.e (u f d) ^ 2 * c.e.jac.det) ≤
          m1 * (a ^ 2 * integral (n + 1) c.e.jac.det) := fun h1 h2 f d =>
        mul_le_mul h2 (hcell c hc f d) (by rw [sq]; exact sq_nonneg' r.mesh hc _) hm1'.le
      have he := one (hm0.le.trans e0) e1
      have hu := one (hm0.le.trans u0) u1
      rw [Fin.sum_univ_three]
      have := he .E 0; have := he .E 1; have := he .E 2; have := hu .H 0; have := hu .H 1; have := hu .H 2
      linarith
    rw [List.sum_map_mul_left] at hsum
    change _ ≤ 6 * m1 * _ * volume S at hsum
    linarith
  unfold size
  refine (Real.sqrt_le_sqrt key).trans (le_of_eq ?_)
  rw [Real.sqrt_mul' _ (sq_nonneg _), Real.sqrt_sq ha, Real.sqrt_mul (by positivity)]
  ring

/-- Size of the Taylor polynomials. -/
lemma taylor_size (r : Smooth S ms p ρ m0 m1 Λ h B T F node) (hm0 : 0 < m0) (hm1 : m0 ≤ m1) (hb : Bounded S T F 0 B) {t : ℝ} (h0 : 0 ≤ t)
    (hT : t ≤ T) {w : State ι ℝ} (hw : Carries S (taylorField F p t) w) :
    size (massOf S ms) w ≤ √(3 * m1) * ((1 + 3 ^ (p + 1)) * B) * √(volume S) := by
  have hB := r.bound
  refine size_sup r hm0 hm1 (by positivity) fun c hc x hx f d => ?_
  rw [hw c hc f d, eval_bind]
  unfold taylorField
  have hy : InElem c.e fun k => eval x (c.e.geom k) := ⟨x, hx, rfl⟩
  have k1 := (approx_value r hc h0 hT hy f d).1
  have k2 : |F c.e f d (t, fun k => eval x (c.e.geom k))| ≤ B := (hb c hc t h0 hT _ hy f d [] rfl).1
  have k3 : (3 * h) ^ (p + 1) * B ≤ 3 ^ (p + 1) * B := by
    refine mul_le_mul_of_nonneg_right (pow_le_pow_left₀ (by have := r.fine.pos; positivity) ?_ _) hB
    have := r.small
    linarith
  rw [abs_sub_comm] at k1
  have k4 := abs_sub_abs_le_abs_sub (eval (fun k => eval x (c.e.geom k)) (tay (corner c.e) t p (F c.e f d)))
    (F c.e f d (t, fun k => eval x (c.e.geom k)))
  linarith

/-- The Taylor polynomials of the rates are nearly the rates the operator gives. -/
lemma taylor_resid (r : Resolves S ms p ρ m0 m1 Λ h B T F node) (hm0 : 0 < m0) (hα : 0 ≤ S.alpha) {L : ℝ} (hL0 : 0 ≤ L)
    (hL : ∀ (face : Option (Fin (n + 1))) (turn : Equiv.Perm (Fin (n + 1))) (v : Poly (n + 1) ℝ), v.totalDegree ≤ p →
      integral n (bind₁ (loc face turn) v ^ 2) ≤ L * integral (n + 1) (v ^ 2)) {t : ℝ} (h0 : 0 ≤ t) (hT : t ≤ T) {w w' : State ι ℝ}
    (hw : Carries S (taylorField F p t) w) (hw' : Carries S (taylorField (rate F) p t) w') :
    size (massOf S ms) (w' - globalMult (femOf S ms).prob w) ≤ √(residConst L ρ m0 m1 S.alpha p * volume S) * (B * h ^ p) := by
  have hh := r.fine.pos
  have hB := r.bound
  have key := residual_bound r.mesh ms r.materials hL0 hL r.fine hm0 (fun c hc => ⟨(r.between c hc).1.1, (r.between c hc).2.1.1⟩) hα hw hw'
    (V := beside F t) (a := (3 * h) ^ (p + 1) * B) (G := (6 * m1 + 2) * 3 ^ p * B * h ^ p) (by positivity) (near_of r.toSmooth h0 hT)
    (fun c hc f d y hy => resid_le r.toSmooth hm0 h0 hT hc f d y hy)
    (fun q hq hn s' hs x hx f d => r.fits.inner q hq hn s' hs t h0 hT x hx f d)
    (fun q hq c hc x hx => r.fits.walls q hq c hc t h0 hT x hx) (fun q hq c hc x hx => r.fits.outer q hq c hc t h0 hT x hx)
  have e : 3 * ((1 + 4 * ρ * L) * (((6 * m1 + 2) * 3 ^ p * B * h ^ p) ^ 2 + 12 * ρ * ((4 + 4 * S.alpha) * ((3 * h) ^ (p + 1) * B)) ^ 2 / h ^ 2) / m0 * volume S) =
      residConst L ρ m0 m1 S.alpha p * volume S * (B * h ^ p) ^ 2 := by
    unfold residConst
    rw [mul_pow 3 h]
    field_simp
    ring
  rw [e] at key
  unfold size
  refine (Real.sqrt_le_sqrt key).trans (le_of_eq ?_)
  rw [Real.sqrt_mul' _ (sq_nonneg _), Real.sqrt_sq (by positivity)]

end Dgtd.Galerkin
