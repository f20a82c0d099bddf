/-
C150: runs approach smooth solutions of Maxwell's equations when elements and steps become small, with constants that do not depend on the mesh.
-/
import Verif.Lemmas.Uniform
import Verif.Props.TimeIntDriven

set_option linter.unusedSectionVars false

namespace Dgtd.Galerkin
open MvPolynomial Spec Dgtd.Op Dgtd.Op.Spec
open Dgtd.Implicit Dgtd.TimeInt Dgtd.TimeInt.Spec Dgtd.Super.Spec Dgtd.Frame Dgtd.Super Dgtd.Par
open Dgtd.Config (Material)
open scoped ContDiff

variable {n : Nat} {ι : Type} [Fintype ι] [DecidableEq ι] {S : Setup n ι} {ms : List (Int × Material ℝ)} {p : Nat}
  {ρ m0 m1 Λ h B T : ℝ} {F : Solution n ι} {node : Elem n ι ℝ → Nat → Fin (n + 1) → ℝ}

/-- Constant of the sizes of the rates of change. -/
noncomputable def rateConst (m1 : ℝ) (p : Nat) : ℝ := √(3 * m1) * (1 + 3 ^ (p + 1))

lemma opL_pow (P : Prob ι ℝ) (m : Nat) (z : State ι ℝ) : (opL P ^ m) z = (globalMult P)^[m] z := by
  induction m generalizing z with
  | zero => rfl
  | succ m ih => rw [pow_succ, Module.End.mul_apply, ih, Function.iterate_succ, Function.comp_apply]; rfl

/-- Near the Taylor polynomials of the initial fields there are values whose high rates of change the mesh does not increase. -/
lemma smooth_start (r : Resolves S ms p ρ m0 m1 Λ h B T F node) (hT : 0 < T) {m : Nat} (hb : Regular S T F p m B) (hm0 : 0 < m0) (hm1 : m0 ≤ m1)
    (hα : 0 ≤ S.alpha) {L : ℝ} (hL0 : 0 ≤ L)
    (hL : ∀ (face : Option (Fin (n + 1))) (turn : Equiv.Perm (Fin (n + 1))) (v : Poly (n + 1) ℝ), v.totalDegree ≤ p →
      integral n (bind₁ (loc face turn) v ^ 2) ≤ L * integral (n + 1) (v ^ 2)) {w0 : State ι ℝ} (hw0 : Carries S (taylorField F p 0) w0) :
    ∃ z, size (massOf S ms) (z - w0) ≤ (2 ^ m - 1) * (√(residConst L ρ m0 m1 S.alpha p * volume S) * (B * h ^ p)) ∧
      size (massOf S ms) ((globalMult (femOf S ms).prob)^[m] z) ≤ 2 ^ m * (rateConst m1 p * B * √(volume S)) := by
  have hP := passive_of r.toSmooth hα
  have hD := sform_diss hP.good hP.alpha hP.sig hP.pos
  have res := resolves_rates hT r hb
  have ex : ∀ i, ∃ w, (i = 0 → w = w0) ∧ (i ≤ m → Carries S (taylorField (rate^[i] F) p 0) w) := by
    intro i
    by_cases hi : i ≤ m
    · by_cases h0 : i = 0
      · subst h0; exact ⟨w0, fun _ => rfl, fun _ => hw0⟩
      · obtain ⟨w, hw, -⟩ := interpolant (res i hi) hm0 hα hL0 hL
        exact ⟨w 0, fun h => absurd h h0, fun _ => hw 0⟩
    · exact ⟨w0, fun _ => rfl, fun h => absurd h hi⟩
  choose w hw1 hw2 using ex
  obtain ⟨z, z1, z2⟩ := smoothed hD (fun u hu => hP.pos u hu) m w (√(residConst L ρ m0 m1 S.alpha p * volume S) * (B * h ^ p))
    (rateConst m1 p * B * √(volume S)) (by
      intro i hi
      have hc := hw2 (i + 1) hi
      rw [Function.iterate_succ_apply'] at hc
      exact taylor_resid (res i hi.le) hm0 hα hL0 hL le_rfl hT.le (hw2 i hi.le) hc) (by
      intro i hi
      refine (taylor_size (res i hi).toSmooth hm0 hm1 (hb i hi).2 le_rfl hT.le (hw2 i hi)).trans (le_of_eq ?_)
      unfold rateConst
      ring)
  rw [hw1 0 rfl] at z1
  rw [opL_pow] at z2
  exact ⟨z, z1, z2⟩

/-- Constant of the error, of the mesh and of the steps. -/
noncomputable def runConst (L ρ m0 m1 Λ α : ℝ) (p : Nat) : ℝ :=
  errConst L ρ m0 m1 Λ α p + 96 * √(residConst L ρ m0 m1 α p) + √(3 * m1) * (Λ * 3 ^ (p + 1)) + 64 * rateConst m1 p

lemma rateConst_nonneg (m1 : ℝ) (p : Nat) : 0 ≤ rateConst m1 p := by unfold rateConst; positivity

lemma runConst_nonneg {L ρ m0 m1 Λ α : ℝ} (hΛ : 0 ≤ Λ) (p : Nat) : 0 ≤ runConst L ρ m0 m1 Λ α p := by
  have := errConst_nonneg (L := L) (ρ := ρ) (m0 := m0) (m1 := m1) (α := α) hΛ p
  have := rateConst_nonneg m1 p
  unfold runConst
  positivity

lemma collect {e s a k v b x y t : ℝ} (he : 0 ≤ e) (hs : 0 ≤ s) (ha : 0 ≤ a) (hk : 0 ≤ k) (hv : 0 ≤ v) (hb : 0 ≤ b) (hx : 0 ≤ x) (hy : 0 ≤ y)
    (ht : 0 ≤ t) : e * (1 + t) * v * (b * x) + (96 * (s * v * (b * x)) + a * v * (b * x) + 64 * t * y * (k * b * v)) ≤
      (e + 96 * s + a + 64 * k) * (1 + t) * v * (b * (x + y)) := by
  have h1 : 0 ≤ (96 * s + a) * (v * b * x) * t := by positivity
  have h2 : 0 ≤ 64 * k * (v * b) * (x * (1 + t) + y) := by positivity
  have h3 : 0 ≤ (e + 96 * s + a) * (1 + t) * (v * b * y) := by positivity
  nlinarith

/-- The error of a run, from the distance of its end to the Taylor polynomials. -/
lemma run_error (r : Resolves S ms p ρ m0 m1 Λ h B T F node) (hm0 : 0 < m0) (hm1 : m0 ≤ m1) (hΛ : 0 ≤ Λ) (hα : 0 ≤ S.alpha) {L : ℝ}
    {w : ℝ → State ι ℝ} (hw : ∀ t, Carries S (taylorField F p t) (w t)) {t Y : ℝ} (h0 : 0 ≤ t) (hT : t ≤ T) (hY : 0 ≤ Y) {x y s : State ι ℝ}
    (hx : Sampled S node F 0 x) (hs : Sampled S node F t s)
    (hy : size (massOf S ms) (y - w t) ≤ 2 * size (massOf S ms) (x - w 0) + t * (√(residConst L ρ m0 m1 S.alpha p * volume S) * (B * h ^ p)) +
      96 * (√(residConst L ρ m0 m1 S.alpha p * volume S) * (B * h ^ p)) + 64 * t * Y * (rateConst m1 p * B * √(volume S))) :
    √(fieldEnergy S ms (y - s)) ≤ runConst L ρ m0 m1 Λ S.alpha p * (1 + t) * √(volume S) * (B * (h ^ p + Y)) := by
  have e2 := sampled_size r.toSmooth hm0 hm1 hΛ le_rfl (h0.trans hT) (hw 0) hx
  have k := total_error r.toSmooth hm0 hm1 hΛ hα (L := L) hw h0 hT hx hs (E := 96 * (√(residConst L ρ m0 m1 S.alpha p) * √(volume S) * (B * h ^ p)) +
    √(3 * m1) * (Λ * 3 ^ (p + 1)) * √(volume S) * (B * h ^ p) + 64 * t * Y * (rateConst m1 p * B * √(volume S))) (by
      rw [sqrt_resid r.toSmooth] at hy ⊢
      linarith)
  have hh := r.fine.pos
  have hB := r.bound
  rw [← energy_eq r.mesh]
  refine k.trans ?_
  unfold runConst
  exact collect (errConst_nonneg hΛ p) (Real.sqrt_nonneg _) (by positivity) (rateConst_nonneg _ _) (Real.sqrt_nonneg _) hB (by positivity) hY h0

/-- The constant of the error, from the trace inequality. -/
lemma run_const (n p : Nat) (ρ m0 m1 Λ α : ℝ) (hΛ : 0 ≤ Λ) : ∃ L K, 0 ≤ L ∧ 0 ≤ K ∧ K = runConst L ρ m0 m1 Λ α p ∧ (n < 3 →
    ∀ (face : Option (Fin (n + 1))) (turn : Equiv.Perm (Fin (n + 1))) (v : Poly (n + 1) ℝ), v.totalDegree ≤ p →
      integral n (bind₁ (loc face turn) v ^ 2) ≤ L * integral (n + 1) (v ^ 2)) := by
  obtain ⟨L, -, hL0, -, -, hL⟩ := const_exists n p ρ m0 m1 Λ α hΛ
  exact ⟨L, _, hL0, runConst_nonneg hΛ p, rfl, hL⟩

lemma exact_from {P : Prob ι ℝ} {M : FieldT → Matrix ι ι ℝ} (hP : Passive P M) (z : State ι ℝ) : ∃ u : ℝ → State ι ℝ, u 0 = z ∧
    ∀ t f d i, HasDerivAt (fun s => u s f d i) (globalMult P (u t) f d i) t := by
  obtain ⟨⟨u, hu0, hu⟩, -⟩ := C122_solution P M hP.good hP.alpha hP.sig hP.pos (fun _ => 0) (fun _ _ _ => continuous_const) 0 z
  exact ⟨u, hu0, fun t f d i => by simpa using hu t f d i⟩

lemma pow_two_le {m : Nat} (hm : m ≤ 5) : (2 : ℝ) ^ m ≤ 32 := by
  calc (2 : ℝ) ^ m ≤ 2 ^ 5 := pow_le_pow_right₀ (by norm_num) hm
    _ = 32 := by norm_num

lemma order_five (o : Ode) : order o + 1 ≤ 5 := by cases o <;> decide

/-- **C150**.  Runs with an implicit integrator of order `k`, started from the values at the nodes of a smooth solution of Maxwell's equations on
meshes of straight elements of order `p`, no larger than `h` and no thinner than `h / ρ`: with steps of at most `H`, of any sizes, the values at
the end differ from those of the solution by at most the order `h ^ p + H ^ k`.  The constant depends on neither the mesh nor the steps. -/
theorem C150_implicit (n p : Nat) (ρ m0 m1 Λ α : ℝ) (hm0 : 0 < m0) (hm1 : m0 ≤ m1) (hΛ : 0 ≤ Λ) (hα : 0 ≤ α) :
    ∃ K, 0 ≤ K ∧ ∀ (ι : Type) [Fintype ι] [DecidableEq ι] (S : Setup n ι) (ms : List (Int × Material ℝ)) (h B T : ℝ) (F : Solution n ι)
      (node : Elem n ι ℝ → Nat → Fin (n + 1) → ℝ), S.alpha = α → Resolves S ms p ρ m0 m1 Λ h B T F node → 0 < T →
      ∃ P A, S.fem ms = .ok P ∧ (∀ u : State ι ℝ, A.mulVec (flat u) = flat (globalMult P.prob u)) ∧
        ∀ (q : Sdirk ℝ) (_ : Ideal33 q) (o : Ode) (_ : o ≠ .rk4), Regular S T F p (order o + 1) B → ∀ x : State ι ℝ, Sampled S node F 0 x →
          ∀ (H : ℝ) (dts : List ℝ), (∀ dt ∈ dts, 0 ≤ dt ∧ dt ≤ H) → 0 ≤ H → dts.sum ≤ T →
            ∃ y c, run q o (globalTdo A fun _ => 0) dts (flat x) 0 fresh = some (flat y, dts.sum, c) ∧
              ∀ s, Sampled S node F dts.sum s →
                √(fieldEnergy S ms (y - s)) ≤ K * (1 + dts.sum) * √(volume S) * (B * (h ^ p + H ^ order o)) := by
  obtain ⟨L, K, hL0, hK0, rfl, hL⟩ := run_const n p ρ m0 m1 Λ α hΛ
  refine ⟨_, hK0, fun ι _ _ S ms h B T F node ha r hT => ?_⟩
  subst ha
  obtain ⟨A, hA⟩ := exists_matrix (femOf S ms).prob
  refine ⟨femOf S ms, A, fem_ok S ms r.materials, hA, fun q hq o ho hb x hx H dts hd hH hsum => ?_⟩
  have hP := passive_of r.toSmooth hα
  have hL := hL r.mesh.simplicial.dim
  obtain ⟨w, hw, res, hres⟩ := interpolant r hm0 hα hL0 hL
  obtain ⟨z, z1, z2⟩ := smooth_start r hT hb hm0 hm1 hα hL0 hL (hw 0)
  obtain ⟨u, hu0, hu⟩ := exact_from hP z
  have h0 : 0 ≤ dts.sum := List.sum_nonneg fun d hd' => (hd d hd').1
  obtain ⟨y1, c1, e1, l1⟩ := C122_implicit q hq _ _ hP.good hP.alpha hP.sig hP.pos A hA u hu o ho H dts hd 0
  obtain ⟨y, y2, c, c2, ey, e2, l2⟩ := C118_implicit_stable q hq _ _ hP.good hP.alpha hP.sig hP.pos A hA (fun _ => 0) o ho dts
    (fun dt hdt => (hd dt hdt).1) x z 0
  rw [hu0, e2] at e1
  have hy : y2 = y1 := by
    have := congrArg (fun a => a.map fun b => unflat b.1) e1
    simp only [Option.map_some, Option.some.injEq] at this
    exact this
  subst hy
  rw [hu0] at l1
  rw [zero_add] at ey l1
  refine ⟨y, c, ey, fun s hs => ?_⟩
  have l2' : size (massOf S ms) (y - y2) ≤ size (massOf S ms) (x - z) := Real.sqrt_le_sqrt l2
  have l3 := near hP h0 (src := 0) (u := u) (fun r f d i => by simpa using hu r f d i) ⟨res, fun s h1 h2 => hres s h1 (h2.trans hsum)⟩
  rw [hu0, sub_zero] at l3
  have t1 := size_tri hP y y2 (w dts.sum)
  have t2 := size_tri hP y2 (u dts.sum) (w dts.sum)
  have t3 := size_tri hP x (w 0) z
  rw [size_comm _ (w 0) z] at t3
  have nx : 0 ≤ size (massOf S ms) (x - w 0) := Real.sqrt_nonneg _
  have hh := r.fine.pos
  have hB := r.bound
  obtain ⟨δ, hδ⟩ : ∃ δ, δ = √(residConst L ρ m0 m1 S.alpha p * volume S) * (B * h ^ p) := ⟨_, rfl⟩
  have hδ0 : 0 ≤ δ := by rw [hδ]; positivity
  obtain ⟨D, hD⟩ : ∃ D, D = rateConst m1 p * B * √(volume S) := ⟨_, rfl⟩
  have hD0 : 0 ≤ D := by have := rateConst_nonneg m1 p; rw [hD]; positivity
  have hm := pow_two_le (order_five o)
  refine run_error r hm0 hm1 hΛ hα (L := L) hw h0 hsum (Y := H ^ order o) (by positivity) hx hs ?_
  rw [← hδ] at z1 l3 ⊢
  rw [← hD] at z2 ⊢
  have k1 : (2 ^ (order o + 1) - 1) * δ ≤ 31 * δ := mul_le_mul_of_nonneg_right (by linarith) hδ0
  have k2 : 2 * dts.sum * H ^ order o * size (massOf S ms) ((globalMult (femOf S ms).prob)^[order o + 1] z) ≤ 2 * dts.sum * H ^ order o * (32 * D) :=
    mul_le_mul_of_nonneg_left (z2.trans (mul_le_mul_of_nonneg_right hm hD0)) (by positivity)
  linarith

/-- Meshes of elements no thinner than `h / ρ`. -/
lemma thick_fine (r : Smooth S ms p ρ m0 m1 Λ h B T F node) : Thick S (h / (|ρ| + 1)) := by
  have hρ := abs_nonneg ρ
  refine ⟨div_pos r.fine.pos (by linarith), fun g e hs x y hx hy => ?_, r.fine.weights⟩
  have k := r.fine.height g e hs x y hx hy
  have hd : 0 ≤ eval y e.jac.det := by
    obtain ⟨⟨o, ho⟩, he⟩ := hs
    obtain ⟨a1, a2⟩ := sides_cells r.mesh ho
    rcases he with rfl | ⟨s, hs, rfl⟩
    · obtain ⟨c, hc, e⟩ := a1; rw [e]; exact (r.mesh.jacobian c hc y hy).le
    · obtain ⟨c, hc, e⟩ := a2 s hs; rw [e]; exact (r.mesh.jacobian c hc y hy).le
  rw [div_mul_eq_mul_div, div_le_iff₀ (by linarith)]
  have := mul_le_mul_of_nonneg_right (le_abs_self ρ) hd
  linarith

/-- **C150** for the explicit integrator, with steps up to a fixed multiple of the size of the elements: order `h ^ p + dt ^ 4`. -/
theorem C150_explicit (n p : Nat) (ρ m0 m1 Λ α : ℝ) (hm0 : 0 < m0) (hm1 : m0 ≤ m1) (hΛ : 0 ≤ Λ) (hα : 0 ≤ α) :
    ∃ K cfl, 0 ≤ K ∧ 0 < cfl ∧ ∀ (ι : Type) [Fintype ι] [DecidableEq ι] (S : Setup n ι) (ms : List (Int × Material ℝ)) (h B T : ℝ) (F : Solution n ι)
      (node : Elem n ι ℝ → Nat → Fin (n + 1) → ℝ), S.alpha = α → Resolves S ms p ρ m0 m1 Λ h B T F node → 0 < T →
      Regular S T F p 5 B →
      ∃ P A, S.fem ms = .ok P ∧ (∀ u : State ι ℝ, A.mulVec (flat u) = flat (globalMult P.prob u)) ∧
        ∀ (q : Sdirk ℝ) (x : State ι ℝ), Sampled S node F 0 x →
          ∀ (dt last : ℝ) (k : Nat), 0 ≤ last → last ≤ dt → dt ≤ cfl * h → k * dt + last ≤ T →
            ∃ y c, run q .rk4 (globalTdo A fun _ => 0) (List.replicate k dt ++ [last]) (flat x) 0 fresh = some (flat y, k * dt + last, c) ∧
              ∀ s, Sampled S node F (k * dt + last) s →
                √(fieldEnergy S ms (y - s)) ≤ K * (1 + (k * dt + last)) * √(volume S) * (B * (h ^ p + dt ^ 4)) := by
  obtain ⟨L, K, hL0, hK0, rfl, hL⟩ := run_const n p ρ m0 m1 Λ α hΛ
  obtain ⟨N, hN, rate⟩ := C149_rate n p m0 α hm0 hα
  have hm1' : 0 < m1 := hm0.trans_le hm1
  have hρ := abs_nonneg ρ
  refine ⟨_, 1 / (4 * (N * (|ρ| + 1 + m1))), hK0, by positivity, fun ι _ _ S ms h B T F node ha r hT hb => ?_⟩
  subst ha
  obtain ⟨A, hA⟩ := exists_matrix (femOf S ms).prob
  refine ⟨femOf S ms, A, fem_ok S ms r.materials, hA, fun q x hx dt last k hl0 hl hdt hsum => ?_⟩
  have hP := passive_of r.toSmooth hα
  have hL := hL r.mesh.simplicial.dim
  have hh := r.fine.pos
  have hB := r.bound
  have hdt0 : 0 ≤ dt := hl0.trans hl
  obtain ⟨G, hG, hbd⟩ := rate ι S ms (h / (|ρ| + 1)) m1 r.mesh r.materials
    (fun c hc => ⟨(r.between c hc).1.1, (r.between c hc).2.1.1, (r.between c hc).2.2⟩) hm1'.le hα le_rfl (thick_fine r.toSmooth)
  rw [fem_ok S ms r.materials] at hG
  obtain rfl := Except.ok.inj hG
  have hbd' : ∀ u : State ι ℝ, energy (massOf S ms) (globalMult (femOf S ms).prob u) ≤ (N * (1 / (h / (|ρ| + 1)) + m1)) ^ 2 * energy (massOf S ms) u := by
    intro u
    rw [energy_eq r.mesh, energy_eq r.mesh]
    exact hbd u
  have hstep : dt * (N * (1 / (h / (|ρ| + 1)) + m1)) ≤ 1 / 4 := by
    have a1 : 1 / (h / (|ρ| + 1)) + m1 ≤ (|ρ| + 1 + m1) / h := by
      rw [one_div_div, add_div (|ρ| + 1) m1 h]
      have := r.small
      have : m1 ≤ m1 / h := by rw [le_div_iff₀ hh]; nlinarith
      linarith
    have a2 : dt * (N * (1 / (h / (|ρ| + 1)) + m1)) ≤ dt * (N * ((|ρ| + 1 + m1) / h)) :=
      mul_le_mul_of_nonneg_left (mul_le_mul_of_nonneg_left a1 hN.le) hdt0
    refine a2.trans ?_
    have a3 : 0 < N * (|ρ| + 1 + m1) := by positivity
    rw [div_mul_eq_mul_div, le_div_iff₀ (by positivity)] at hdt
    rw [← mul_div_assoc, ← mul_div_assoc, div_le_iff₀ hh]
    linarith
  have hbd0 : 0 ≤ N * (1 / (h / (|ρ| + 1)) + m1) := by positivity
  obtain ⟨w, hw, res, hres⟩ := interpolant r hm0 hα hL0 hL
  obtain ⟨z, z1, z2⟩ := smooth_start r hT hb hm0 hm1 hα hL0 hL (hw 0)
  obtain ⟨u, hu0, hu⟩ := exact_from hP z
  obtain ⟨t, ht⟩ : ∃ t, t = k * dt + last := ⟨_, rfl⟩
  have h0 : 0 ≤ t := by rw [ht]; positivity
  obtain ⟨y1, c1, e1, l1⟩ := C122_explicit q _ _ hP.good hP.alpha hP.sig hP.pos A hA u hu _ hbd0 hbd' dt last hl0 hl hstep k 0
  obtain ⟨y, y2, c, c2, ey, e2, l2⟩ := C119_explicit_stable q _ _ hP.good hP.alpha hP.sig hP.pos A hA (fun _ => 0) _ hbd0 hbd' dt last hl0 hl hstep
    k x z 0
  rw [hu0, e2] at e1
  have hy : y2 = y1 := by
    have := congrArg (fun a => a.map fun b => unflat b.1) e1
    simp only [Option.map_some, Option.some.injEq] at this
    exact this
  subst hy
  rw [hu0] at l1
  simp only [zero_add] at ey l1
  rw [← ht] at ey l1 hsum
  rw [← ht]
  refine ⟨y, c, ey, fun s hs => ?_⟩
  have l2' : size (massOf S ms) (y - y2) ≤ 2 * size (massOf S ms) (x - z) := by
    refine (Real.sqrt_le_sqrt l2).trans (le_of_eq ?_)
    rw [Real.sqrt_mul (by norm_num), show (4 : ℝ) = 2 ^ 2 by norm_num, Real.sqrt_sq (by norm_num)]
    rfl
  have l3 := near hP h0 (src := 0) (u := u) (fun r f d i => by simpa using hu r f d i) ⟨res, fun s h1 h2 => hres s h1 (h2.trans hsum)⟩
  rw [hu0, sub_zero] at l3
  have t1 := size_tri hP y y2 (w t)
  have t2 := size_tri hP y2 (u t) (w t)
  have t3 := size_tri hP x (w 0) z
  rw [size_comm _ (w 0) z] at t3
  obtain ⟨δ, hδ⟩ : ∃ δ, δ = √(residConst L ρ m0 m1 S.alpha p * volume S) * (B * h ^ p) := ⟨_, rfl⟩
  have hδ0 : 0 ≤ δ := by rw [hδ]; positivity
  obtain ⟨D, hD⟩ : ∃ D, D = rateConst m1 p * B * √(volume S) := ⟨_, rfl⟩
  have hD0 : 0 ≤ D := by have := rateConst_nonneg m1 p; rw [hD]; positivity
  refine run_error r hm0 hm1 hΛ hα (L := L) hw h0 hsum (Y := dt ^ 4) (by positivity) hx hs ?_
  rw [← hδ] at z1 l3 ⊢
  rw [← hD] at z2 ⊢
  norm_num at z1 z2
  have k2 : t * dt ^ 4 * size (massOf S ms) ((globalMult (femOf S ms).prob)^[5] z) ≤ t * dt ^ 4 * (32 * D) :=
    mul_le_mul_of_nonneg_left z2 (by positivity)
  have k3 : 0 ≤ t * dt ^ 4 * D := by positivity
  linarith

lemma small_pow {x δ : ℝ} (h0 : 0 ≤ x) (hx : x ≤ δ) (h1 : δ ≤ 1) {k : Nat} (hk : 1 ≤ k) : x ^ k ≤ δ := by
  calc x ^ k ≤ x ^ 1 := pow_le_pow_of_le_one h0 (hx.trans h1) hk
    _ ≤ δ := by rw [pow_one]; exact hx

lemma below {K B T V ε t v a b δ : ℝ} (hK : 0 ≤ K) (hB : 0 ≤ B) (h0 : 0 ≤ t) (hT : t ≤ T) (hv : v ≤ V)
    (ha : a ≤ δ) (hb : b ≤ δ) (hab : 0 ≤ a + b) (hδ : δ * (2 * (K * (1 + T) * √V * B) + 1) ≤ ε) (hδ0 : 0 ≤ δ) : K * (1 + t) * √v * (B * (a + b)) ≤ ε := by
  have k1 : K * (1 + t) * √v ≤ K * (1 + T) * √V :=
    mul_le_mul (mul_le_mul_of_nonneg_left (by linarith) hK) (Real.sqrt_le_sqrt hv) (Real.sqrt_nonneg _) (by have := h0.trans hT; positivity)
  have k2 : B * (a + b) ≤ B * (2 * δ) := mul_le_mul_of_nonneg_left (by linarith) hB
  have k3 := mul_le_mul k1 k2 (by positivity) (by have := h0.trans hT; positivity)
  have k4 : K * (1 + T) * √V * (B * (2 * δ)) = δ * (2 * (K * (1 + T) * √V * B)) := by ring
  linarith

/-- Hence runs with an implicit integrator converge: for all meshes and steps that are fine enough the error is below any bound. -/
theorem C150_converges_implicit (n p : Nat) (ρ m0 m1 Λ α : ℝ) (hm0 : 0 < m0) (hm1 : m0 ≤ m1) (hΛ : 0 ≤ Λ) (hα : 0 ≤ α) (B T V : ℝ) (hT : 0 < T)
    (ε : ℝ) (hε : 0 < ε) :
    ∃ δ, 0 < δ ∧ ∀ (ι : Type) [Fintype ι] [DecidableEq ι] (S : Setup n ι) (ms : List (Int × Material ℝ)) (h : ℝ) (F : Solution n ι)
      (node : Elem n ι ℝ → Nat → Fin (n + 1) → ℝ), S.alpha = α → Resolves S ms p ρ m0 m1 Λ h B T F node → h ≤ δ →
      volume S ≤ V →
      ∃ P A, S.fem ms = .ok P ∧ (∀ u : State ι ℝ, A.mulVec (flat u) = flat (globalMult P.prob u)) ∧
        ∀ (q : Sdirk ℝ) (_ : Ideal33 q) (o : Ode) (_ : o ≠ .rk4), Regular S T F p (order o + 1) B → ∀ x : State ι ℝ, Sampled S node F 0 x →
          ∀ dts : List ℝ, (∀ dt ∈ dts, 0 ≤ dt ∧ dt ≤ δ) → dts.sum ≤ T →
            ∃ y c, run q o (globalTdo A fun _ => 0) dts (flat x) 0 fresh = some (flat y, dts.sum, c) ∧
              ∀ s, Sampled S node F dts.sum s → √(fieldEnergy S ms (y - s)) ≤ ε := by
  obtain ⟨K, hK0, hK⟩ := C150_implicit n p ρ m0 m1 Λ α hm0 hm1 hΛ hα
  obtain ⟨Q, hQ⟩ : ∃ Q, Q = 2 * (K * (1 + T) * √V * |B|) + 1 := ⟨_, rfl⟩
  have hQ0 : 0 < Q := by rw [hQ]; positivity
  obtain ⟨δ, hδ⟩ : ∃ δ, δ = min 1 (ε / Q) := ⟨_, rfl⟩
  have hδ0 : 0 < δ := by rw [hδ]; exact lt_min one_pos (by positivity)
  have hδ1 : δ ≤ 1 := by rw [hδ]; exact min_le_left _ _
  have hδ2 : δ * Q ≤ ε := by
    have : δ ≤ ε / Q := by rw [hδ]; exact min_le_right _ _
    rwa [le_div_iff₀ hQ0] at this
  refine ⟨δ, hδ0, fun ι _ _ S ms h F node ha r hh hv => ?_⟩
  obtain ⟨P, A, hP, hA, hr⟩ := hK ι S ms h B T F node ha r hT
  refine ⟨P, A, hP, hA, fun q hq o ho hb x hx dts hd hsum => ?_⟩
  obtain ⟨y, c, e, he⟩ := hr q hq o ho hb x hx δ dts hd hδ0.le hsum
  refine ⟨y, c, e, fun s hs => (he s hs).trans ?_⟩
  have hpos := r.fine.pos
  rw [hQ, abs_of_nonneg r.bound] at hδ2
  exact below hK0 r.bound (List.sum_nonneg fun d hd' => (hd d hd').1) hsum hv (small_pow hpos.le hh hδ1 r.mesh.simplicial.order)
    (small_pow hδ0.le le_rfl hδ1 (by cases o <;> decide)) (by positivity) hδ2 hδ0.le

/-- The same for the explicit integrator: steps up to a fixed multiple of the size of the elements suffice. -/
theorem C150_converges_explicit (n p : Nat) (ρ m0 m1 Λ α : ℝ) (hm0 : 0 < m0) (hm1 : m0 ≤ m1) (hΛ : 0 ≤ Λ) (hα : 0 ≤ α) (B T V : ℝ) (hT : 0 < T)
    (ε : ℝ) (hε : 0 < ε) :
    ∃ hmax cfl, 0 < hmax ∧ 0 < cfl ∧ ∀ (ι : Type) [Fintype ι] [DecidableEq ι] (S : Setup n ι) (ms : List (Int × Material ℝ)) (h : ℝ) (F : Solution n ι)
      (node : Elem n ι ℝ → Nat → Fin (n + 1) → ℝ), S.alpha = α → Resolves S ms p ρ m0 m1 Λ h B T F node →
      Regular S T F p 5 B → h ≤ hmax → volume S ≤ V →
      ∃ P A, S.fem ms = .ok P ∧ (∀ u : State ι ℝ, A.mulVec (flat u) = flat (globalMult P.prob u)) ∧
        ∀ (q : Sdirk ℝ) (x : State ι ℝ), Sampled S node F 0 x →
          ∀ (dt last : ℝ) (k : Nat), 0 ≤ last → last ≤ dt → dt ≤ cfl * h → k * dt + last ≤ T →
            ∃ y c, run q .rk4 (globalTdo A fun _ => 0) (List.replicate k dt ++ [last]) (flat x) 0 fresh = some (flat y, k * dt + last, c) ∧
              ∀ s, Sampled S node F (k * dt + last) s → √(fieldEnergy S ms (y - s)) ≤ ε := by
  obtain ⟨K, cfl, hK0, hc, hK⟩ := C150_explicit n p ρ m0 m1 Λ α hm0 hm1 hΛ hα
  obtain ⟨Q, hQ⟩ : ∃ Q, Q = 2 * (K * (1 + T) * √V * |B|) + 1 := ⟨_, rfl⟩
  have hQ0 : 0 < Q := by rw [hQ]; positivity
  obtain ⟨δ, hδ⟩ : ∃ δ, δ = min 1 (ε / Q) := ⟨_, rfl⟩
  have hδ0 : 0 < δ := by rw [hδ]; exact lt_min one_pos (by positivity)
  have hδ1 : δ ≤ 1 := by rw [hδ]; exact min_le_left _ _
  have hδ2 : δ * Q ≤ ε := by
    have : δ ≤ ε / Q := by rw [hδ]; exact min_le_right _ _
    rwa [le_div_iff₀ hQ0] at this
  refine ⟨δ, min cfl 1, hδ0, lt_min hc one_pos, fun ι _ _ S ms h F node ha r hb hh hv => ?_⟩
  obtain ⟨P, A, hP, hA, hr⟩ := hK ι S ms h B T F node ha r hT hb
  refine ⟨P, A, hP, hA, fun q x hx dt last k h0 hl hdt hsum => ?_⟩
  have hpos := r.fine.pos
  have hdt0 : 0 ≤ dt := h0.trans hl
  have d1 : dt ≤ cfl * h := hdt.trans (mul_le_mul_of_nonneg_right (min_le_left _ _) hpos.le)
  have d2 : dt ≤ δ := by
    have := hdt.trans (mul_le_mul_of_nonneg_right (min_le_right _ _) hpos.le)
    linarith
  obtain ⟨y, c, e, he⟩ := hr q x hx dt last k h0 hl d1 hsum
  refine ⟨y, c, e, fun s hs => (he s hs).trans ?_⟩
  rw [hQ, abs_of_nonneg r.bound] at hδ2
  exact below hK0 r.bound (by positivity) hsum hv (small_pow hpos.le hh hδ1 r.mesh.simplicial.order)
    (small_pow hdt0 d2 hδ1 (by norm_num)) (by positivity) hδ2 hδ0.le

end Dgtd.Galerkin
