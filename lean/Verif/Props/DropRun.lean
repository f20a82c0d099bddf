/-
C193: runs with the operator without its negligible entries.
-/
import Verif.Props.Drop
import Verif.Props.Super
import Verif.Lemmas.TimeIntDrop
import Mathlib.Algebra.Order.Chebyshev

set_option linter.unusedSectionVars false

namespace Dgtd.Drop

open Dgtd.Op Dgtd.Op.Spec Dgtd.Csr Dgtd.Csr.Spec Dgtd.Export TimeInt TimeInt.Spec Implicit Par

lemma vectorOf_holds {K : Type} [Field K] {n : Nat} (u : State (Fin n) K) : Holds n (vectorOf u) u := by
  intro d i
  have hi := i.isLt
  have hn : 0 < n := by omega
  have dv : ∀ a, (a * n + i.val) / n = a := fun a => by
    rw [Nat.mul_comm, Nat.mul_add_div hn, Nat.div_eq_of_lt hi, add_zero]
  have md : ∀ a, (a * n + i.val) % n = i.val := fun a => by
    rw [Nat.mul_comm, Nat.mul_add_mod, Nat.mod_eq_of_lt hi]
  have hd := d.isLt
  have at_ : ∀ a, vectorOf u ((a * n + i.val : Nat) : Int) =
      u (if a < 3 then .E else .H) ⟨a % 3, Nat.mod_lt _ (by norm_num)⟩ i := by
    intro a
    unfold vectorOf
    simp only [Int.toNat_natCast, dv, md]
    rw [dif_pos hi]
  constructor
  · rw [at_, if_pos hd]
    congr 1
    exact Fin.ext (Nat.mod_eq_of_lt hd)
  · rw [at_, if_neg (by omega)]
    congr 1
    apply Fin.ext
    show (3 + d.val) % 3 = d.val
    omega

/-- A definite form bounds the values. -/
lemma form_lower {V : Type} [NormedAddCommGroup V] [NormedSpace ℝ V] [FiniteDimensional ℝ V] (B : V →ₗ[ℝ] V →ₗ[ℝ] ℝ)
    (hpos : ∀ u, u ≠ 0 → 0 < B u u) : ∃ m, 0 < m ∧ ∀ u, m * ‖u‖ ^ 2 ≤ B u u := by
  have : ProperSpace V := FiniteDimensional.proper ℝ V
  have hcont : Continuous fun u => B u u := by
    have h1 : Continuous fun u => B.toContinuousBilinearMap u := (B.toContinuousBilinearMap).continuous
    exact h1.clm_apply continuous_id
  by_cases hne : (Metric.sphere (0 : V) 1).Nonempty
  · obtain ⟨w, hw, hwm⟩ := (isCompact_sphere (0 : V) 1).exists_isMinOn hne hcont.continuousOn
    have hw0 : w ≠ 0 := by
      rintro rfl
      simp at hw
    refine ⟨B w w, hpos w hw0, fun u => ?_⟩
    by_cases hu : u = 0
    · subst hu; simp
    · have hn : ‖u‖ ≠ 0 := norm_ne_zero_iff.2 hu
      have hmem : (‖u‖⁻¹ • u) ∈ Metric.sphere (0 : V) 1 := by
        simp [norm_smul, hn]
      have hle : B w w ≤ B (‖u‖⁻¹ • u) (‖u‖⁻¹ • u) := hwm hmem
      simp only [map_smul, LinearMap.smul_apply, smul_eq_mul] at hle
      have h2 : 0 < ‖u‖ ^ 2 := by positivity
      calc B w w * ‖u‖ ^ 2 ≤ (‖u‖⁻¹ * (‖u‖⁻¹ * B u u)) * ‖u‖ ^ 2 := mul_le_mul_of_nonneg_right hle h2.le
        _ = B u u := by field_simp
  · refine ⟨1, one_pos, fun u => ?_⟩
    by_cases hu : u = 0
    · subst hu; simp
    · exfalso
      apply hne
      exact ⟨‖u‖⁻¹ • u, by simp [norm_smul, norm_ne_zero_iff.2 hu]⟩

variable {n : Nat}

/-- The magnitude of a state is bounded by its energy. -/
lemma magnitude_le (M : FieldT → Matrix (Fin n) (Fin n) ℝ) (hM : ∀ u, u ≠ 0 → 0 < energy M u) :
    ∃ a, 0 ≤ a ∧ ∀ u : State (Fin n) ℝ, magnitude u ≤ a * size M u := by
  obtain ⟨m, hm, hmin⟩ := form_lower (eform M) (by
    intro x hx
    rw [eform_self]
    apply hM
    intro h0
    exact hx (by rw [← flat_unflat x, h0]; rfl))
  refine ⟨6 * n / Real.sqrt m, by positivity, fun u => ?_⟩
  have h1 : ∀ f d i, |u f d i| ≤ ‖flat u‖ := fun f d i => norm_le_pi_norm (flat u) (f, d, i)
  have h2 : magnitude u ≤ 6 * n * ‖flat u‖ := by
    unfold magnitude
    calc _ ≤ ∑ _d : Dir, ∑ _i : Fin n, (‖flat u‖ + ‖flat u‖) :=
          Finset.sum_le_sum fun d _ => Finset.sum_le_sum fun i _ => add_le_add (h1 _ _ _) (h1 _ _ _)
      _ = 6 * n * ‖flat u‖ := by simp; ring
  have h3 : Real.sqrt m * ‖flat u‖ ≤ size M u := by
    have e : size M u = Real.sqrt (eform M (flat u) (flat u)) := by rw [eform_self]; rfl
    rw [e]
    apply Real.le_sqrt_of_sq_le
    rw [mul_pow, Real.sq_sqrt hm.le]
    exact hmin _
  have hr : 0 < Real.sqrt m := Real.sqrt_pos.2 hm
  have h4 : ‖flat u‖ ≤ size M u / Real.sqrt m := by rw [le_div_iff₀ hr, mul_comm]; exact h3
  calc magnitude u ≤ 6 * n * ‖flat u‖ := h2
    _ ≤ 6 * n * (size M u / Real.sqrt m) := mul_le_mul_of_nonneg_left h4 (by positivity)
    _ = 6 * n / Real.sqrt m * size M u := by ring

/-- Small values have small energy. -/
lemma size_le (M : FieldT → Matrix (Fin n) (Fin n) ℝ) : ∃ b, 0 ≤ b ∧ ∀ (x : State (Fin n) ℝ) (e : ℝ), 0 ≤ e →
    (∀ f d i, |x f d i| ≤ e) → size M x ≤ b * e := by
  refine ⟨Real.sqrt ‖(eform M).toContinuousBilinearMap‖, by positivity, ?_⟩
  intro x e he hx
  have hn : ‖flat x‖ ≤ e := (pi_norm_le_iff_of_nonneg he).2 fun s => hx s.1 s.2.1 s.2.2
  have h2 : size M x = Real.sqrt (eform M (flat x) (flat x)) := by rw [eform_self]; rfl
  have h3 := (eform M).toContinuousBilinearMap.le_opNorm₂ (flat x) (flat x)
  have h4 : eform M (flat x) (flat x) ≤ ‖(eform M).toContinuousBilinearMap‖ * (‖flat x‖ * ‖flat x‖) := by
    rw [← mul_assoc]
    exact (le_abs_self _).trans h3
  rw [h2]
  have hB : 0 ≤ ‖(eform M).toContinuousBilinearMap‖ := ContinuousLinearMap.opNorm_nonneg _
  have h5 := mul_self_le_mul_self (norm_nonneg _) hn
  calc Real.sqrt (eform M (flat x) (flat x))
      ≤ Real.sqrt (‖(eform M).toContinuousBilinearMap‖ * (e * e)) :=
        Real.sqrt_le_sqrt (h4.trans (mul_le_mul_of_nonneg_left h5 hB))
    _ = Real.sqrt ‖(eform M).toContinuousBilinearMap‖ * e := by
      rw [Real.sqrt_mul hB, Real.sqrt_mul_self he]

/-- Runs with the operator that is built, given how the energy bounds the values and the values bound the energy. -/
lemma run_bounds (P : Prob (Fin n) ℝ) (M : FieldT → Matrix (Fin n) (Fin n) ℝ) (h : Passive P M) {a b : ℝ} (ha0 : 0 ≤ a) (hb0 : 0 ≤ b)
    (ha : ∀ u : State (Fin n) ℝ, magnitude u ≤ a * size M u)
    (hb : ∀ (x : State (Fin n) ℝ) (e : ℝ), 0 ≤ e → (∀ f d i, |x f d i| ≤ e) → size M x ≤ b * e) {c : ℝ} (hc8 : c = 8 * (b * a)) :
    ∀ (store : GBlock (Fin n) ℝ → List (List (Int × ℝ))),
      (∀ b ∈ globalBlocks P, Represents b.mat (store b)) → ∀ (junkJ : Int) (junkA : ℝ),
      ∃ A, builtOperator junkJ junkA ((globalBlocks P).map fun b => place n b (store b)) (6 * n) (6 * n) = some A ∧
        ∀ (L : ℝ), 0 ≤ L → (∀ u, energy M (globalMult P u) ≤ L ^ 2 * energy M u) →
        ∀ (q : Sdirk ℝ) (T : Type) (s : T) (dt last : ℝ), 0 ≤ last → last ≤ dt → dt * L ≤ 1 / 4 → c * dt ≤ 10 ^ 20 →
        ∀ (k : Nat) (u : State (Fin n) ℝ) (t : ℝ), ∃ y y',
          run q .rk4 (explicitTdo fun _ v => globalMult P v) (List.replicate k dt ++ [last]) u t s =
            some (y, t + k * dt + last, s) ∧
          run q .rk4 (explicitTdo fun _ v => product A v) (List.replicate k dt ++ [last]) u t s =
            some (y', t + k * dt + last, s) ∧
          size M (y' - y) ≤ 2 * size M u * (Real.exp (c * (k * dt + last) / 10 ^ 20) - 1) := by
  subst hc8
  intro store hst junkJ junkA
  obtain ⟨A, hA, hrate⟩ := C193_rates P store hst junkJ junkA
  refine ⟨A, hA, ?_⟩
  intro L hL0 hL q T s dt last h0 hl hdt hc k u t
  have hD := sform_diss h.good h.alpha h.sig h.pos
  have hR : ∀ v, nrm (sform M) (product A v - opL P v) ≤ b * a / 10 ^ 20 * nrm (sform M) v := by
    intro v
    have e1 := hb (product A v - opL P v) (1 / 10 ^ 20 * magnitude v) (mul_nonneg (by positivity) (magnitude_nonneg v))
      fun f d i => hrate (vectorOf v) v (vectorOf_holds v) f d i
    have e2 := mul_le_mul_of_nonneg_left (ha v) (show 0 ≤ b * (1 / 10 ^ 20) by positivity)
    show size M (product A v - opL P v) ≤ b * a / 10 ^ 20 * size M v
    calc _ ≤ b * (1 / 10 ^ 20 * magnitude v) := e1
      _ = b * (1 / 10 ^ 20) * magnitude v := by ring
      _ ≤ b * (1 / 10 ^ 20) * (a * size M v) := e2
      _ = b * a / 10 ^ 20 * size M v := by ring
  have hq : ∀ d, 0 ≤ d → d ≤ dt → ∀ x, sform M ((d • opL P) x) ((d • opL P) x) ≤ 1 / 16 * sform M x x := by
    intro d hd hd' x
    have e : sform M ((d • opL P) x) ((d • opL P) x) = d ^ 2 * energy M (globalMult P x) := by
      rw [LinearMap.smul_apply, map_smul, map_smul, LinearMap.smul_apply, smul_eq_mul, smul_eq_mul, ← mul_assoc, ← sq]
      rfl
    have h1 : d * L ≤ 1 / 4 := (mul_le_mul_of_nonneg_right hd' hL0).trans hdt
    have h2 : (d * L) ^ 2 ≤ 1 / 16 := by nlinarith [mul_nonneg hd hL0]
    rw [e]
    calc d ^ 2 * energy M (globalMult P x) ≤ d ^ 2 * (L ^ 2 * energy M x) :=
          mul_le_mul_of_nonneg_left (hL x) (sq_nonneg d)
      _ = (d * L) ^ 2 * energy M x := by ring
      _ ≤ 1 / 16 * energy M x := mul_le_mul_of_nonneg_right h2 (hD.nonneg x)
  have hsm : dt * (b * a / 10 ^ 20) ≤ 1 / 4 := by
    rw [mul_div_assoc', div_le_iff₀ (by positivity)]
    nlinarith
  obtain ⟨y, y', r, r', hy⟩ := run_defect_last (S := T) q (F := explicitTdo fun _ v => globalMult P v)
    (F' := explicitTdo fun _ v => product A v) (A := opL P) (R := product A) (fun _ _ => rfl) (fun _ _ => rfl) hD h0 hl
    (by positivity) hsm (hq dt (h0.trans hl) le_rfl) (hq last h0 hl) hR k u t s s
  refine ⟨y, y', r, r', hy.trans (le_of_eq ?_)⟩
  rw [show 8 * (b * a / 10 ^ 20) * (k * dt + last) = 8 * (b * a) * (k * dt + last) / 10 ^ 20 by ring]
  rfl

/-- **C193** for runs: for every passive problem there is a constant such that any run of explicit steps with the operator that is
built, without the entries that were dropped, differs from the run with the whole operator by at most twice the initial fields times
`exp (c T / 1e20) - 1`, where `T` is the time that passed; steps within the bound of C119. -/
theorem C193_run (P : Prob (Fin n) ℝ) (M : FieldT → Matrix (Fin n) (Fin n) ℝ) (h : Passive P M) :
    ∃ c, 0 ≤ c ∧ ∀ (store : GBlock (Fin n) ℝ → List (List (Int × ℝ))),
      (∀ b ∈ globalBlocks P, Represents b.mat (store b)) → ∀ (junkJ : Int) (junkA : ℝ),
      ∃ A, builtOperator junkJ junkA ((globalBlocks P).map fun b => place n b (store b)) (6 * n) (6 * n) = some A ∧
        ∀ (L : ℝ), 0 ≤ L → (∀ u, energy M (globalMult P u) ≤ L ^ 2 * energy M u) →
        ∀ (q : Sdirk ℝ) (T : Type) (s : T) (dt last : ℝ), 0 ≤ last → last ≤ dt → dt * L ≤ 1 / 4 → c * dt ≤ 10 ^ 20 →
        ∀ (k : Nat) (u : State (Fin n) ℝ) (t : ℝ), ∃ y y',
          run q .rk4 (explicitTdo fun _ v => globalMult P v) (List.replicate k dt ++ [last]) u t s =
            some (y, t + k * dt + last, s) ∧
          run q .rk4 (explicitTdo fun _ v => product A v) (List.replicate k dt ++ [last]) u t s =
            some (y', t + k * dt + last, s) ∧
          size M (y' - y) ≤ 2 * size M u * (Real.exp (c * (k * dt + last) / 10 ^ 20) - 1) := by
  obtain ⟨a, ha0, ha⟩ := magnitude_le M h.pos
  obtain ⟨b, hb0, hb⟩ := size_le M
  exact ⟨8 * (b * a), by positivity, run_bounds P M h ha0 hb0 ha hb rfl⟩

/-- The sum of the magnitudes and the sum of the squares. -/
lemma magnitude_sq (u : State (Fin n) ℝ) : magnitude u ^ 2 ≤ 6 * n * squares u := by
  have e1 : magnitude u = ∑ p : Dir × Fin n × Bool, |u (if p.2.2 then .E else .H) p.1 p.2.1| := by
    unfold magnitude
    rw [Fintype.sum_prod_type]
    refine Finset.sum_congr rfl fun d _ => ?_
    rw [Fintype.sum_prod_type]
    refine Finset.sum_congr rfl fun i _ => ?_
    rw [Fintype.sum_bool]
    rfl
  have e2 : squares u = ∑ p : Dir × Fin n × Bool, |u (if p.2.2 then .E else .H) p.1 p.2.1| ^ 2 := by
    unfold squares
    rw [Fintype.sum_prod_type]
    refine Finset.sum_congr rfl fun d _ => ?_
    rw [Fintype.sum_prod_type]
    refine Finset.sum_congr rfl fun i _ => ?_
    rw [Fintype.sum_bool, sq_abs, sq_abs]
    rfl
  have h := sq_sum_le_card_mul_sum_sq (s := (Finset.univ : Finset (Dir × Fin n × Bool)))
    (f := fun p => |u (if p.2.2 then .E else .H) p.1 p.2.1|)
  rw [e1, e2]
  refine h.trans (le_of_eq ?_)
  congr 1
  simp [Finset.card_univ, Fintype.card_prod]
  ring

/-- **C193** for runs, with the constant: if the energy is between `m0` and `m1` times the sum of the squares of the values, it is
`48 n √(m1 / m0)` for `n` nodes. -/
theorem C193_constant (P : Prob (Fin n) ℝ) (M : FieldT → Matrix (Fin n) (Fin n) ℝ) (h : Passive P M) {m0 m1 : ℝ} (hm0 : 0 < m0)
    (hm : ∀ u, m0 * squares u ≤ energy M u ∧ energy M u ≤ m1 * squares u) :
    ∀ (store : GBlock (Fin n) ℝ → List (List (Int × ℝ))),
      (∀ b ∈ globalBlocks P, Represents b.mat (store b)) → ∀ (junkJ : Int) (junkA : ℝ),
      ∃ A, builtOperator junkJ junkA ((globalBlocks P).map fun b => place n b (store b)) (6 * n) (6 * n) = some A ∧
        ∀ (L : ℝ), 0 ≤ L → (∀ u, energy M (globalMult P u) ≤ L ^ 2 * energy M u) →
        ∀ (q : Sdirk ℝ) (T : Type) (s : T) (dt last : ℝ), 0 ≤ last → last ≤ dt → dt * L ≤ 1 / 4 → 48 * n * Real.sqrt (m1 / m0) * dt ≤ 10 ^ 20 →
        ∀ (k : Nat) (u : State (Fin n) ℝ) (t : ℝ), ∃ y y',
          run q .rk4 (explicitTdo fun _ v => globalMult P v) (List.replicate k dt ++ [last]) u t s =
            some (y, t + k * dt + last, s) ∧
          run q .rk4 (explicitTdo fun _ v => product A v) (List.replicate k dt ++ [last]) u t s =
            some (y', t + k * dt + last, s) ∧
          size M (y' - y) ≤ 2 * size M u * (Real.exp (48 * n * Real.sqrt (m1 / m0) * (k * dt + last) / 10 ^ 20) - 1) := by
  have sq0 : ∀ u : State (Fin n) ℝ, 0 ≤ squares u := fun u =>
    Finset.sum_nonneg fun d _ => Finset.sum_nonneg fun i _ => by positivity
  have s0 : 0 < Real.sqrt m0 := Real.sqrt_pos.2 hm0
  refine run_bounds P M h (a := Real.sqrt (6 * n) / Real.sqrt m0) (b := Real.sqrt m1 * Real.sqrt (6 * n)) (by positivity)
    (by positivity) ?_ ?_ ?_
  · intro u
    have h1 := magnitude_sq u
    have h2 : magnitude u ≤ Real.sqrt (6 * n) * Real.sqrt (squares u) := by
      rw [← Real.sqrt_mul (by positivity)]
      exact Real.le_sqrt_of_sq_le h1
    have h3 : Real.sqrt m0 * Real.sqrt (squares u) ≤ size M u := by
      rw [← Real.sqrt_mul hm0.le]
      exact Real.sqrt_le_sqrt (hm u).1
    have h4 : Real.sqrt (squares u) ≤ size M u / Real.sqrt m0 := by rw [le_div_iff₀ s0, mul_comm]; exact h3
    calc magnitude u ≤ Real.sqrt (6 * n) * Real.sqrt (squares u) := h2
      _ ≤ Real.sqrt (6 * n) * (size M u / Real.sqrt m0) := mul_le_mul_of_nonneg_left h4 (Real.sqrt_nonneg _)
      _ = Real.sqrt (6 * n) / Real.sqrt m0 * size M u := by ring
  · intro x e he hx
    have h1 : squares x ≤ 6 * n * e ^ 2 := by
      unfold squares
      calc _ ≤ ∑ _d : Dir, ∑ _i : Fin n, (e ^ 2 + e ^ 2) :=
            Finset.sum_le_sum fun d _ => Finset.sum_le_sum fun i _ =>
              add_le_add (sq_le_sq' (abs_le.1 (hx _ _ _)).1 (abs_le.1 (hx _ _ _)).2)
                (sq_le_sq' (abs_le.1 (hx _ _ _)).1 (abs_le.1 (hx _ _ _)).2)
        _ = 6 * n * e ^ 2 := by simp; ring
    by_cases hz : squares x = 0
    · have : energy M x ≤ 0 := by have := (hm x).2; rwa [hz, mul_zero] at this
      have : size M x = 0 := Real.sqrt_eq_zero_of_nonpos this
      rw [this]
      positivity
    · have hp : 0 < squares x := lt_of_le_of_ne (sq0 x) (Ne.symm hz)
      have hm1 : 0 ≤ m1 := by
        have := (hm x).1.trans (hm x).2
        exact hm0.le.trans (le_of_mul_le_mul_right this hp)
      calc size M x ≤ Real.sqrt (m1 * (6 * n * e ^ 2)) :=
            Real.sqrt_le_sqrt ((hm x).2.trans (mul_le_mul_of_nonneg_left h1 hm1))
        _ = Real.sqrt m1 * Real.sqrt (6 * n) * e := by
          rw [Real.sqrt_mul hm1, Real.sqrt_mul (by positivity), Real.sqrt_sq he, mul_assoc]
  · rw [Real.sqrt_div' m1 hm0.le]
    have : Real.sqrt (6 * n) * Real.sqrt (6 * n) = 6 * n := Real.mul_self_sqrt (by positivity)
    calc 48 * n * (Real.sqrt m1 / Real.sqrt m0) = 8 * (6 * n) * (Real.sqrt m1 / Real.sqrt m0) := by ring
      _ = 8 * (Real.sqrt (6 * n) * Real.sqrt (6 * n)) * (Real.sqrt m1 / Real.sqrt m0) := by rw [this]
      _ = _ := by ring

/-! ### a line of two elements -/

/-- All entries of a block, row by row. -/
noncomputable def dense (b : GBlock (Fin n) ℝ) : List (List (Int × ℝ)) :=
  (List.finRange n).map fun i => (List.finRange n).map fun j => ((j.val : Int), b.mat i j)

lemma dense_represents (b : GBlock (Fin n) ℝ) : Represents b.mat (dense b) := by
  refine ⟨by simp [dense], ?_, ?_⟩
  · intro r hr e he
    simp only [dense, List.mem_map, List.mem_finRange, true_and] at hr
    obtain ⟨i, rfl⟩ := hr
    simp only [List.mem_map, List.mem_finRange, true_and] at he
    obtain ⟨j, rfl⟩ := he
    constructor
    · positivity
    · show (j.val : Int) < n
      exact_mod_cast j.isLt
  · intro i j
    have e : ((dense b)[i.val]?).getD [] = (List.finRange n).map fun j => ((j.val : Int), b.mat i j) := by
      simp [dense]
    rw [e, List.map_map]
    have h : ((List.finRange n).map ((fun e : Int × ℝ => if e.1 = (j.val : Int) then e.2 else 0) ∘
        fun j => ((j.val : Int), b.mat i j))).sum = ∑ k : Fin n, if k = j then b.mat i k else 0 := by
      rw [Fin.sum_univ_def]
      congr 1
      apply List.map_congr_left
      intro k _
      simp [Fin.ext_iff]
    rw [h, Finset.sum_ite_eq' Finset.univ j]
    simp

open _root_.Dgtd.Frame in
/-- The hypotheses hold: a passive line between a wall and an absorbing end, its blocks stored, and its rates bounded. -/
example : Passive (line ℝ 1 none .PEC .SMA) (fun _ => lineMass ℝ) ∧
    (∀ b ∈ globalBlocks (line ℝ 1 none .PEC .SMA), Represents b.mat (dense b)) ∧
    ∃ L, 0 ≤ L ∧ ∀ u, energy (fun _ => lineMass ℝ) (globalMult (line ℝ 1 none .PEC .SMA) u) ≤ L ^ 2 * energy (fun _ => lineMass ℝ) u :=
  ⟨line_passive 1 (by norm_num) none (by simp) _ _, fun b _ => dense_represents b,
    C119_bounded _ _ (line_passive 1 (by norm_num) none (by simp) .PEC .SMA).pos⟩

/-- Four elements of order zero with unit mass: the energy is half of the sum of the squares. -/
example : Passive (rowCase (K := ℝ)).prob (fun _ => 1) ∧ ∀ u : State (Fin 4) ℝ, 1 / 2 * squares u ≤ energy (fun _ => 1) u ∧
    energy (fun _ => 1) u ≤ 1 / 2 * squares u := by
  refine ⟨Super.row_passive, fun u => ?_⟩
  have e : energy (fun _ => 1) u = 1 / 2 * squares u := by
    unfold energy squares
    simp only [Matrix.one_mulVec, dotProduct, ← Finset.sum_add_distrib, Finset.mul_sum]
    refine Finset.sum_congr rfl fun d _ => Finset.sum_congr rfl fun i _ => ?_
    ring
  exact ⟨e.ge, e.le⟩

end Dgtd.Drop
