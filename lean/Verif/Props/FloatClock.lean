/-
C165: the clock of a run in floating-point arithmetic.
-/
import Verif.Lemmas.FloatClock
import Verif.Props.TimeLoop

set_option linter.unusedSectionVars false

namespace Dgtd.FloatClock
open Spec
open Dgtd.TimeLoop (Outcome)

variable {K : Type*} [Field K] [LinearOrder K] [IsStrictOrderedRing K] [FloorRing K] [Archimedean K] {fl : K → K}

/-- What the state satisfies at the head of the loop. -/
structure Good (dt final : K) (t : K) : Prop where
  double : Double t
  nonneg : 0 ≤ t
  le : t ≤ final
  start : t = 0 ∨ dt ≤ t ∨ t = final

lemma good_zero {dt final : K} (hF : 0 < final) : Good dt final 0 := ⟨double_zero, le_rfl, hF.le, .inl rfl⟩

/-- What one step does to the clock. -/
lemma tick (hfl : Nearest fl) {dt final t : K} (hd : Double dt) (hD : Double final) (hdt : 0 < dt) (hF : 0 < final)
    (g : Good dt final t) (t' : K) (ht' : t' = fl (t + trueDt fl dt final t)) :
    Good dt final t' ∧ t ≤ t' ∧ (t' = final ∧ final - t ≤ dt ∨ t + dt ≤ final ∧ t' = fl (t + dt)) := by
  unfold trueDt at ht'
  have hr := fl_id hfl hD
  -- either the step is the declared one and stays inside, or it is exactly what is left
  have key : (t + dt ≤ final ∧ t' = fl (t + dt)) ∨ t' = final ∧ final - t ≤ dt := by
    by_cases hhalf : final ≤ 2 * t
    · have hs : fl (final - t) = final - t := fl_id hfl (sterbenz g.double hD g.le hhalf)
      rw [hs] at ht'
      rcases le_total dt (final - t) with h | h
      · left; rw [min_eq_left h] at ht'; exact ⟨by linarith, ht'⟩
      · right; rw [min_eq_right h] at ht'; exact ⟨by rw [ht', add_sub_cancel, hr], h⟩
    · push Not at hhalf
      rcases g.start with h0 | h0 | h0
      · rw [h0, sub_zero, hr] at ht'
        rcases le_total dt final with h | h
        · left; rw [min_eq_left h] at ht'; rw [h0]; exact ⟨by linarith, ht'⟩
        · right; rw [min_eq_right h, zero_add, hr] at ht'; exact ⟨ht', by linarith⟩
      · left
        have : dt ≤ fl (final - t) := le_fl hfl hd (by linarith)
        rw [min_eq_left this] at ht'
        exact ⟨by linarith, ht'⟩
      · linarith
  have hle : t ≤ t' := by
    rcases key with ⟨h1, h2⟩ | ⟨h2, -⟩
    · rw [h2]; exact le_fl hfl g.double (by linarith)
    · rw [h2]; exact g.le
  refine ⟨⟨by rw [ht']; exact hfl.double _, g.nonneg.trans hle, ?_, ?_⟩, hle, key.symm⟩
  · rcases key with ⟨h1, h2⟩ | ⟨h2, -⟩
    · rw [h2]; exact fl_le hfl hD h1
    · exact h2.le
  · rcases key with ⟨h1, h2⟩ | ⟨h2, -⟩
    · exact .inr (.inl (by rw [h2]; exact le_fl hfl hd (by linarith [g.nonneg])))
    · exact .inr (.inr h2)

/-- The number subtracted from the final time. -/
lemma slack_bounds (hfl : Nearest fl) {dt : K} (hdt : 0 < dt) (δ : K) (hδ : δ = fl (fl (1 / 10 ^ 8) * dt)) :
    99 / 10 ^ 10 * dt ≤ δ ∧ δ ≤ 101 / 10 ^ 10 * dt := by
  have h1 := fl_error hfl (x := (1 / 10 ^ 8 : K)) (by positivity)
  obtain ⟨c, hc⟩ : ∃ c, c = fl (1 / 10 ^ 8 : K) := ⟨_, rfl⟩
  rw [← hc] at h1 hδ
  have c1 : 995 / 10 ^ 11 ≤ c := by
    have := le_abs_self (1 / 10 ^ 8 - c); norm_num at *; linarith
  have c2 : c ≤ 1005 / 10 ^ 11 := by
    have := neg_le_abs (1 / 10 ^ 8 - c); norm_num at *; linarith
  have c0 : 0 < c := lt_of_lt_of_le (by positivity) c1
  have h2 := fl_error hfl (x := c * dt) (by positivity)
  rw [← hδ] at h2
  have d1 := mul_le_mul_of_nonneg_right c1 hdt.le
  have d2 := mul_le_mul_of_nonneg_right c2 hdt.le
  have a1 := le_abs_self (c * dt - δ)
  have a2 := neg_le_abs (c * dt - δ)
  constructor <;> norm_num at * <;> linarith

lemma threshold_le (hfl : Nearest fl) {dt final : K} (hD : Double final) (hdt : 0 < dt) : threshold fl dt final ≤ final := by
  unfold threshold
  have := (slack_bounds hfl hdt _ rfl).1
  exact fl_le hfl hD (by have : 0 < 99 / 10 ^ 10 * dt := by positivity
                         linarith)

/-- If the threshold is below the final time, the step is not too short. -/
lemma dt_of_threshold (hfl : Nearest fl) {dt final : K} (hD : Double final) (hdt : 0 < dt) (hF : 0 < final)
    (h : threshold fl dt final < final) : final ≤ 2 ^ 29 * dt := by
  by_contra hc
  push Not at hc
  unfold threshold at h
  obtain ⟨δ, hδ⟩ : ∃ δ, δ = fl (fl (1 / 10 ^ 8) * dt) := ⟨_, rfl⟩
  obtain ⟨b1, b2⟩ := slack_bounds hfl hdt δ hδ
  rw [← hδ] at h
  have h1 := hfl.nearest (final - δ) final hD
  have h0 : 0 < δ := lt_of_lt_of_le (by positivity) b1
  rw [abs_of_neg (by linarith : final - δ - final < 0)] at h1
  have h2 := gap hD (hfl.double (final - δ)) hF h.ne
  rw [abs_of_pos (by linarith)] at h2
  have h3 := le_abs_self (final - δ - fl (final - δ))
  have h4 := neg_le_abs (final - δ - fl (final - δ))
  norm_num at *
  linarith

/-- A run whose threshold is not below the final time goes on for ever. -/
lemma never (hfl : Nearest fl) {σ : Type*} (ode : K → K → σ → σ) {dt final : K} (hd : Double dt) (hD : Double final)
    (hdt : 0 < dt) (hF : 0 < final) (h : final ≤ threshold fl dt final) :
    ∀ (fuel : Nat) (s : Sim K σ), Good dt final s.time → run fl ode dt final fuel s = .outOfFuel := by
  intro fuel
  induction fuel with
  | zero => intro s g; unfold run; rw [if_pos (by simp only [keepGoing, decide_eq_true_eq]; exact g.le.trans h)]
  | succ n ih =>
    intro s g
    unfold run; rw [if_pos (by simp only [keepGoing, decide_eq_true_eq]; exact g.le.trans h)]
    exact ih _ (tick hfl hd hD hdt hF g _ rfl).1

/-- How a run that returns proceeds from a good instant: at most as many further steps as fit, and the instants it shows. -/
lemma ends (hfl : Nearest fl) {σ : Type*} (ode : K → K → σ → σ) {dt final : K} (hd : Double dt) (hD : Double final)
    (hdt : 0 < dt) (hF : 0 < final) (h : threshold fl dt final < final) :
    ∀ (m : Nat) (s : Sim K σ), Good dt final s.time → final - s.time < m * (dt - final / 2 ^ 53) →
      ∃ n s', n ≤ m ∧ (∀ fuel, n ≤ fuel → run fl ode dt final fuel s = .done s') ∧ Good dt final s'.time ∧
        threshold fl dt final < s'.time ∧ s'.time - s.time ≤ n * (dt + final / 2 ^ 53) ∧
        ∃ l, s'.seen = s.seen ++ l ∧ l.length = n ∧ (s.time :: l).IsChain (· < ·) ∧ (s.time :: l).getLast? = some s'.time := by
  have hbig := dt_of_threshold hfl hD hdt hF h
  intro m
  induction m with
  | zero => intro s g hm; simp at hm; linarith [g.le]
  | succ m ih =>
    intro s g hm
    by_cases hk : s.time ≤ threshold fl dt final
    · obtain ⟨s1, hs1⟩ : ∃ s1, s1 = step fl ode dt final s := ⟨_, rfl⟩
      obtain ⟨g1, hle, hcase⟩ := tick hfl hd hD hdt hF g s1.time (by rw [hs1]; rfl)
      have hseen : s1.seen = s.seen ++ [s1.time] := by rw [hs1]; rfl
      have hlt : final / 2 ^ 53 < dt := by rw [div_lt_iff₀ (by positivity)]; norm_num at *; linarith
      have hgo : ∀ fuel, run fl ode dt final (fuel + 1) s = run fl ode dt final fuel s1 := by
        intro fuel
        rw [run, if_pos (by simp only [keepGoing, decide_eq_true_eq]; exact hk), hs1]
      rcases hcase with ⟨hf, hlast⟩ | ⟨hin, hf⟩
      · refine ⟨1, s1, by omega, fun fuel hfu => ?_, g1, by rw [hf]; exact h, by rw [hf]; push_cast; linarith [div_pos hF (by positivity : (0 : K) < 2 ^ 53)],
          [s1.time], hseen, rfl, by simp [hf]; linarith, by simp⟩
        obtain ⟨k, rfl⟩ : ∃ k, fuel = k + 1 := ⟨fuel - 1, by omega⟩
        rw [hgo]; unfold run; rw [if_neg (by simp only [keepGoing, decide_eq_true_eq]; rw [hf]; exact not_le.2 h)]
      · have he := fl_error hfl (x := s.time + dt) (by linarith [g.nonneg])
        rw [← hf] at he
        have he2 : |s.time + dt - s1.time| ≤ final / 2 ^ 53 := by
          rw [le_div_iff₀ (by positivity)]; linarith
        have a1 := le_abs_self (s.time + dt - s1.time)
        have a2 := neg_le_abs (s.time + dt - s1.time)
        obtain ⟨n, s', hn, hrun, g', hth, hup, l, hl, hlen, hchain, hlst⟩ := ih s1 g1 (by push_cast at hm; linarith)
        refine ⟨n + 1, s', by omega, fun fuel hfu => ?_, g', hth, by push_cast; linarith, s1.time :: l,
          by rw [hl, hseen]; simp, by simp [hlen], ?_, ?_⟩
        · obtain ⟨k, rfl⟩ : ∃ k, fuel = k + 1 := ⟨fuel - 1, by omega⟩
          rw [hgo]; exact hrun k (by omega)
        · exact List.IsChain.cons_cons (by linarith) hchain
        · rw [List.getLast?_cons_cons]; exact hlst
    · refine ⟨0, s, Nat.zero_le _, fun fuel _ => ?_, g, not_le.1 hk, by simp, [], by simp, rfl, by simp, by simp⟩
      unfold run; rw [if_neg (by simp only [keepGoing, decide_eq_true_eq]; exact hk)]

/-- **C165, when a run ends.**  In floating-point arithmetic, with any rounding to nearest, a run with positive time step and final
time returns if and only if subtracting `1e-8` time steps from the final time changes it. -/
theorem C165_returns_iff (hfl : Nearest fl) {σ : Type*} (ode : K → K → σ → σ) (f0 : σ) {dt final : K} (hd : Double dt)
    (hD : Double final) (hdt : 0 < dt) (hF : 0 < final) :
    (∃ fuel s, run fl ode dt final fuel (construct f0) = .done s) ↔ fl (final - fl (fl (1 / 10 ^ 8) * dt)) ≠ final := by
  constructor
  · rintro ⟨fuel, s, hs⟩ h
    rw [never hfl ode hd hD hdt hF h.ge fuel _ (good_zero hF)] at hs
    cases hs
  · intro h
    have h' : threshold fl dt final < final := lt_of_le_of_ne (threshold_le hfl hD hdt) h
    have hbig := dt_of_threshold hfl hD hdt hF h'
    have hlt : 0 < dt - final / 2 ^ 53 := by
      rw [sub_pos, div_lt_iff₀ (by positivity)]; norm_num at *; linarith
    obtain ⟨m, hm⟩ := exists_nat_gt (final / (dt - final / 2 ^ 53))
    rw [div_lt_iff₀ hlt] at hm
    obtain ⟨n, s', -, hrun, -⟩ := ends hfl ode hd hD hdt hF h' m (construct f0) (good_zero hF) (by simpa [construct] using hm)
    exact ⟨n, s', hrun n le_rfl⟩

/-- **C165, runs of up to 33 million steps.**  Such a run returns.  The clock never passes the final time and stops less than `3e-8`
time steps before it; the instants shown to the probes begin with zero, grow strictly and end with the last one; and the number of
steps is that of exact arithmetic but for the accumulated rounding, `2^-53` of the final time per step. -/
theorem C165_ends_partial (hfl : Nearest fl) {σ : Type*} (ode : K → K → σ → σ) (f0 : σ) {dt final : K} (hd : Double dt)
    (hD : Double final) (hdt : 0 < dt) (hF : 0 < final) (hN : final ≤ 2 ^ 25 * dt) :
    ∃ (n : Nat) (s : Sim K σ), (∀ fuel, n ≤ fuel → run fl ode dt final fuel (construct f0) = .done s) ∧
      s.time ≤ final ∧ final - 3 / 10 ^ 8 * dt < s.time ∧
      s.seen.length = n + 1 ∧ s.seen.head? = some 0 ∧ s.seen.IsChain (· < ·) ∧ s.seen.getLast? = some s.time ∧
      ((n : K) - 1) * (dt - final / 2 ^ 53) ≤ final ∧ final - 3 / 10 ^ 8 * dt < n * (dt + final / 2 ^ 53) := by
  obtain ⟨δ, hδ⟩ : ∃ δ, δ = fl (fl (1 / 10 ^ 8) * dt) := ⟨_, rfl⟩
  obtain ⟨b1, b2⟩ := slack_bounds hfl hdt δ hδ
  have hth : threshold fl dt final = fl (final - δ) := by rw [threshold, hδ]
  have h' : threshold fl dt final < final := by
    obtain ⟨z, hz, z1, z2⟩ := below hF
    refine lt_of_le_of_lt ?_ z1
    rw [hth]
    apply fl_le hfl hz
    norm_num at *; linarith
  have hlow : final - 3 / 10 ^ 8 * dt ≤ threshold fl dt final := by
    rw [hth]
    rcases le_or_gt 0 (final - δ) with h0 | h0
    · have := fl_error hfl h0
      have := le_abs_self (final - δ - fl (final - δ))
      norm_num at *; linarith
    · have h1 := hfl.nearest (final - δ) 0 double_zero
      rw [sub_zero, abs_of_neg h0] at h1
      have := le_abs_self (final - δ - fl (final - δ))
      norm_num at *; linarith
  have hlt : 0 < dt - final / 2 ^ 53 := by
    rw [sub_pos, div_lt_iff₀ (by positivity)]; norm_num at *; linarith
  obtain ⟨q, hq⟩ : ∃ q : ℤ, q = ⌊final / (dt - final / 2 ^ 53)⌋ := ⟨_, rfl⟩
  have q0 : 0 ≤ q := by rw [hq]; exact Int.floor_nonneg.2 (div_nonneg hF.le hlt.le)
  obtain ⟨m, rfl⟩ := Int.eq_ofNat_of_zero_le q0
  have q1 : (m : K) ≤ final / (dt - final / 2 ^ 53) := by
    have := Int.floor_le (final / (dt - final / 2 ^ 53)); rw [← hq] at this; exact_mod_cast this
  have q2 : final / (dt - final / 2 ^ 53) < m + 1 := by
    have := Int.lt_floor_add_one (final / (dt - final / 2 ^ 53)); rw [← hq] at this; exact_mod_cast this
  rw [le_div_iff₀ hlt] at q1
  rw [div_lt_iff₀ hlt] at q2
  obtain ⟨n, s', hn, hrun, g', hthr, hup, l, hl, hlen, hchain, hlst⟩ :=
    ends hfl ode hd hD hdt hF h' (m + 1) (construct f0) (good_zero hF) (by simpa [construct] using q2)
  simp only [construct, sub_zero] at hup hl hchain hlst
  refine ⟨n, s', hrun, g'.le, by linarith, by rw [hl]; simp [hlen], by rw [hl]; rfl, by rw [hl]; exact hchain, by rw [hl]; exact hlst, ?_,
    by linarith⟩
  have : (n : K) - 1 ≤ m := by
    have : (n : K) ≤ m + 1 := by exact_mod_cast hn
    linarith
  exact (mul_le_mul_of_nonneg_right this hlt.le).trans q1

/-- **C165, runs of more than 537 million steps never end.**  The clock stays at the final time with steps of length zero. -/
theorem C165_long_runs_never_end (hfl : Nearest fl) {σ : Type*} (ode : K → K → σ → σ) (f0 : σ) {dt final : K} (hd : Double dt)
    (hD : Double final) (hdt : 0 < dt) (hN : 2 ^ 29 * dt < final) (fuel : Nat) :
    run fl ode dt final fuel (construct f0) = .outOfFuel := by
  have hF : 0 < final := lt_trans (by positivity) hN
  refine never hfl ode hd hD hdt hF ?_ fuel _ (good_zero hF)
  by_contra hc
  exact absurd (dt_of_threshold hfl hD hdt hF (not_le.1 hc)) (not_le.2 hN)

/-! The hypotheses are met: there is a rounding to nearest, and both kinds of runs exist. -/

lemma exists_nearest (x : K) : ∃ y, Double y ∧ ∀ z, Double z → |x - y| ≤ |x - z| := by
  have pos : ∀ x : K, 0 < x → ∃ y, Double y ∧ ∀ z, Double z → |x - y| ≤ |x - z| := by
    intro x hx
    obtain ⟨a, b, s, ha, hb, h1, h2, h3, h4, h5⟩ := neighbours hx
    rcases le_total (x - a) (b - x) with hc | hc
    · refine ⟨a, ha, fun z hz => ?_⟩
      rw [abs_of_nonneg (by linarith)]
      rcases h5 z hz with h | h
      · exact le_trans (by linarith) (le_abs_self (x - z))
      · exact le_trans (by linarith) (neg_le_abs (x - z))
    · refine ⟨b, hb, fun z hz => ?_⟩
      rw [abs_of_nonpos (by linarith)]
      rcases h5 z hz with h | h
      · exact le_trans (by linarith) (le_abs_self (x - z))
      · exact le_trans (by linarith) (neg_le_abs (x - z))
  rcases lt_trichotomy x 0 with h | h | h
  · obtain ⟨y, hy, hn⟩ := pos (-x) (by linarith)
    refine ⟨-y, double_neg hy, fun z hz => ?_⟩
    have := hn (-z) (double_neg hz)
    rwa [show -x - y = -(x - -y) by ring, abs_neg, show -x - -z = -(x - z) by ring, abs_neg] at this
  · exact ⟨0, double_zero, fun z _ => by rw [h, sub_self, abs_zero]; exact abs_nonneg _⟩
  · exact pos x h

lemma exists_rounding : ∃ fl : ℚ → ℚ, Nearest fl :=
  ⟨fun x => (exists_nearest x).choose, fun x => (exists_nearest x).choose_spec.1, fun x => (exists_nearest x).choose_spec.2⟩

/-- A run of 1024 steps. -/
example : ∃ (fl : ℚ → ℚ) (dt final : ℚ), Nearest fl ∧ Double dt ∧ Double final ∧ 0 < dt ∧ 0 < final ∧ final ≤ 2 ^ 25 * dt ∧ 1000 * dt < final := by
  obtain ⟨fl, h⟩ := exists_rounding
  exact ⟨fl, 1 / 1024, 1, h, ⟨1, -10, by norm_num, by norm_num⟩, ⟨1, 0, by norm_num, by norm_num⟩, by norm_num, by norm_num, by norm_num,
    by norm_num⟩

/-- **C165, violated.**  A run of a thousand million steps, which never ends although in exact arithmetic it does. -/
theorem C165_violated : ∃ (fl : ℚ → ℚ) (dt final : ℚ), Nearest fl ∧ Double dt ∧ Double final ∧ 0 < dt ∧ 2 ^ 29 * dt < final ∧
    (∀ fuel, run fl (fun _ _ (_ : Unit) => ()) dt final fuel (construct ()) = .outOfFuel) ∧
    ∃ s0 fuel s, TimeLoop.construct dt final () [] = some s0 ∧ TimeLoop.run (fun _ _ (_ : Unit) => ()) dt final fuel s0 = .done s := by
  obtain ⟨fl, h⟩ := exists_rounding
  have hd : Double (1 / 2 ^ 30 : ℚ) := ⟨1, -30, by norm_num, by norm_num⟩
  have hD : Double (1 : ℚ) := ⟨1, 0, by norm_num, by norm_num⟩
  refine ⟨fl, 1 / 2 ^ 30, 1, h, hd, hD, by norm_num, by norm_num,
    fun fuel => C165_long_runs_never_end h _ () hd hD (by norm_num) (by norm_num) fuel, ?_⟩
  obtain ⟨s0, s, h0, h1, -⟩ := TimeLoop.C07_run_reaches_final_time (fun _ _ (_ : Unit) => ()) (1 / 2 ^ 30 : ℚ) 1 () [] (by norm_num)
    (by norm_num) (by simp)
  exact ⟨s0, _, s, h0, h1 _ le_rfl⟩

end Dgtd.FloatClock
