/-
C182: the cross sections that are computed from recorded instants tend to those of the fields at all times.
-/
import Verif.Lemmas.Spectra
import Verif.Props.Rcs
import Verif.Lemmas.TimeLoopCount

namespace Dgtd.Spectra
open Dgtd.Rcs Dgtd.Rcs.Spec Dgtd.Spectra.Spec

noncomputable section

lemma section_scale (is3D : Bool) (f P U c : ℝ) (hc : c ≠ 0) : crossSection is3D f (c * P) (c * U) = crossSection is3D f P U := by
  unfold crossSection
  cases is3D
  · simp only [Bool.false_eq_true, if_false]
    by_cases hP : P = 0
    · simp [hP]
    by_cases hf : f = 0
    · simp [hf]
    have := Real.pi_ne_zero
    field_simp
  · simp only [if_true]
    by_cases hP : P = 0
    · simp [hP]
    field_simp

lemma eventually_mem {A : Type} (l : List A) (p : A → ℕ → Prop) (h : ∀ a ∈ l, ∀ᶠ k in Filter.atTop, p a k) :
    ∀ᶠ k in Filter.atTop, ∀ a ∈ l, p a k := by
  induction l with
  | nil => simp
  | cons a l ih =>
    filter_upwards [h a (by simp), ih fun b hb => h b (by simp [hb])] with k h1 h2 b hb
    rcases List.mem_cons.1 hb with rfl | hb
    · exact h1
    · exact h2 b hb

lemma pulse_continuous (pw : PlaneWave) : Continuous (pulse pw) := by
  unfold pulse
  by_cases h : pw.frequency = 0
  · simp only [h, if_true]
    fun_prop
  · simp only [h, if_false]
    fun_prop

section limit

variable {T : ℝ} (hT : 0 < T) (is3D : Bool) {n : Nat} (S : Fin n → Site) (hS : ∀ i, (S i).Sound is3D)
  (hu : ∀ i c, ∀ v < (S i).nDofs, ContinuousOn ((S i).u c v) (Set.Icc 0 T)) (d : ℕ → ℝ)
  (hd : Filter.Tendsto d Filter.atTop (nhds 0)) (times : ℕ → List ℝ) (hc : ∀ k, Covers (d k) T (times k))
  (R : ℕ → Fin n → Rank) (hR : ∀ k i, Records (d k) (times k) (S i) (R k i)) (pw : PlaneWave)

include hT hd hc in
lemma incident_tendsto (f : ℝ) :
    Filter.Tendsto (fun k => T ^ 2 * incident (pulse pw) (times k) f) Filter.atTop
      (nhds (‖spectralIntegral T f (pulse pw)‖ ^ 2 / 2)) := by
  have h := transform_tendsto hT f d (fun _ => 0) hd tendsto_const_nhds (pulse pw) (pulse_continuous pw).continuousOn
    (fun k => (times k).map fun t => (t, pulse pw t))
    (by intro k; simpa [List.map_map, Function.comp_def] using hc k)
    (by
      intro k p hp
      obtain ⟨t, _, rfl⟩ := List.mem_map.1 hp
      simp)
  have e : ∀ k, T ^ 2 * incident (pulse pw) (times k) f =
      ‖(T : ℂ) * transform f ((times k).map fun t => (t, pulse pw t))‖ ^ 2 / 2 := by
    intro k
    unfold incident
    rw [norm_mul, Complex.norm_real, mul_pow, Real.norm_eq_abs, sq_abs]
    ring
  simp only [e]
  exact (h.norm.pow 2).div_const 2

include hT hS hu hd hc hR in
lemma section_tendsto (f : ℝ) (hf : f ≠ 0) (hinc : spectralIntegral T f (pulse pw) ≠ 0) (a : Angles) :
    Filter.Tendsto (fun k => crossSection is3D f (incident (pulse pw) (times k) f)
      (intensity is3D f (farField (samples is3D (List.ofFn (R k))) f a))) Filter.atTop
      (nhds (exactSection is3D pw (surface is3D S) T f a)) := by
  have h1 := incident_tendsto hT d hd times hc pw f
  have h2 := intensity_tendsto hT is3D S hS hu d hd times hc R hR f a
  have hT2 : T ^ 2 ≠ 0 := by positivity
  have hP : ‖spectralIntegral T f (pulse pw)‖ ^ 2 / 2 ≠ 0 := by
    have := norm_pos_iff.2 hinc
    positivity
  refine Filter.Tendsto.congr (fun k => section_scale is3D f _ _ _ hT2) ?_
  unfold exactSection crossSection
  cases is3D
  · simp only [Bool.false_eq_true, if_false]
    refine (h2.const_mul 4).div (h1.const_mul _) ?_
    have := Real.pi_ne_zero
    positivity
  · simp only [if_true]
    exact (h2.const_mul _).div h1 hP

end limit

/-- **C182**: the cross sections in the files come as close as desired to those of the fields at all times, if the instants are close enough to
each other and the recorded values close enough to the fields. -/
theorem C182_converges (is3D : Bool) (freqsHz : List ℝ) (angles : List Angles) (pw : PlaneWave) (hang : anglesOk is3D angles)
    (hpw : pw.spread ≠ 0) (hfn : freqsHz.Nodup) (han : angles.Nodup) {T : ℝ} (hT : 0 < T) {n : Nat} (hn : 0 < n) (S : Fin n → Site)
    (hS : ∀ i, (S i).Sound is3D) (hu : ∀ i c, ∀ v < (S i).nDofs, ContinuousOn ((S i).u c v) (Set.Icc 0 T))
    (hinc : ∀ f ∈ freqsHz, f ≠ 0 ∧ spectralIntegral T (normFreq f) (pulse pw) ≠ 0) (ε : ℝ) (hε : 0 < ε) :
    ∃ δ > 0, ∀ (times : List ℝ) (R : Fin n → Rank), Covers δ T times → (∀ i, Records δ times (S i) (R i)) →
      ∃ res, run is3D none freqsHz angles pw (List.ofFn R) = some res ∧ res.map Prod.fst = angles ∧
        ∀ p ∈ res, p.2.map Row.freqHz = freqsHz ∧ ∀ row ∈ p.2, ∃ x, row.rcs = some x ∧
          |x - exactSection is3D pw (surface is3D S) T (normFreq row.freqHz) p.1| < ε := by
  by_contra hcon
  push Not at hcon
  choose times R hc hR hbad using fun k : ℕ => hcon (1 / ((k : ℝ) + 1)) (by positivity)
  have hd : Filter.Tendsto (fun k : ℕ => 1 / ((k : ℝ) + 1)) Filter.atTop (nhds 0) := tendsto_one_div_add_atTop_nhds_zero_nat
  have hnf : ∀ f ∈ freqsHz, normFreq f ≠ 0 := by
    intro f hf
    have := (hinc f hf).1
    unfold normFreq cSI
    positivity
  have ev1 : ∀ f ∈ freqsHz, ∀ᶠ k in Filter.atTop, incident (pulse pw) (times k) (normFreq f) ≠ 0 := by
    intro f hf
    have h1 := incident_tendsto hT _ hd times hc pw (normFreq f)
    have hP : ‖spectralIntegral T (normFreq f) (pulse pw)‖ ^ 2 / 2 ≠ 0 := by
      have := norm_pos_iff.2 (hinc f hf).2
      positivity
    filter_upwards [h1.eventually_ne hP] with k hk h0
    rw [h0] at hk
    simp at hk
  have ev2 : ∀ f ∈ freqsHz, ∀ a ∈ angles, ∀ᶠ k in Filter.atTop,
      |crossSection is3D (normFreq f) (incident (pulse pw) (times k) (normFreq f))
        (intensity is3D (normFreq f) (farField (samples is3D (List.ofFn (R k))) (normFreq f) a)) -
          exactSection is3D pw (surface is3D S) T (normFreq f) a| < ε := by
    intro f hf a _
    have h := section_tendsto hT is3D S hS hu _ hd times hc R hR pw (normFreq f) (hnf f hf) (hinc f hf).2 a
    filter_upwards [Metric.tendsto_nhds.1 h ε hε] with k hk
    rwa [Real.dist_eq] at hk
  have ev1' : ∀ᶠ k in Filter.atTop, ∀ f ∈ freqsHz, incident (pulse pw) (times k) (normFreq f) ≠ 0 := by
    exact eventually_mem freqsHz _ ev1
  have ev2' : ∀ᶠ k in Filter.atTop, ∀ f ∈ freqsHz, ∀ a ∈ angles,
      |crossSection is3D (normFreq f) (incident (pulse pw) (times k) (normFreq f))
        (intensity is3D (normFreq f) (farField (samples is3D (List.ofFn (R k))) (normFreq f) a)) -
          exactSection is3D pw (surface is3D S) T (normFreq f) a| < ε := by
    exact eventually_mem freqsHz _ fun f hf => eventually_mem angles _ (ev2 f hf)
  obtain ⟨k, hk1, hk2⟩ := (ev1'.and ev2').exists
  have hne : times k ≠ [] := by
    intro h0
    have := (hc k).fine
    rw [h0] at this
    simp at this
    linarith
  have hrun := C48_far_field is3D freqsHz angles pw (List.ofFn (R k)) (by simpa using hn.ne') hang
    (by
      intro Q hQ
      obtain ⟨i, rfl⟩ := (List.mem_ofFn' _ _).1 hQ
      intro f hf j hj
      rw [(hR k i).nDofs]
      rw [(hR k i).faces] at hf
      exact (hS i).1 f hf j hj)
    (times k) hne
    (by
      intro Q hQ
      obtain ⟨i, rfl⟩ := (List.mem_ofFn' _ _).1 hQ
      exact (hR k i).times)
    (by
      intro s hs
      rw [samples_index is3D S (R k) fun i => (hR k i).faces] at hs
      obtain ⟨x, hx, rfl⟩ := List.mem_map.1 hs
      exact (hS x.1).2 _ (mem_index hx).1 _ (mem_index hx).2)
    hpw (fun f hf => ⟨(hinc f hf).1, hk1 f hf⟩) hfn han
  obtain ⟨p, hp, hpb⟩ := hbad k _ hrun (by simp [List.map_map, Function.comp_def])
  obtain ⟨a, ha, rfl⟩ := List.mem_map.1 hp
  obtain ⟨r, hr, hrb⟩ := hpb (by simp [List.map_map, Function.comp_def])
  obtain ⟨f, hf, rfl⟩ := List.mem_map.1 hr
  exact absurd (hk2 f hf a ha) (not_lt.2 (hrb _ rfl))

/-! ### the instants of a run -/

lemma getElem_filter (q : Nat → Bool) : ∀ (M j : Nat) (h : j < ((List.range M).filter q).length),
    ((List.range M).filter q)[j] < M ∧ q ((List.range M).filter q)[j] = true ∧
      ((List.range ((List.range M).filter q)[j]).filter q).length = j := by
  intro M
  induction M with
  | zero => intro j h; simp at h
  | succ M ih =>
    intro j h
    have e : (List.range (M + 1)).filter q = (List.range M).filter q ++ if q M then [M] else [] := by
      rw [List.range_succ, List.filter_append]
      by_cases hq : q M <;> simp [hq]
    by_cases hj : j < ((List.range M).filter q).length
    · have hv : ((List.range (M + 1)).filter q)[j] = ((List.range M).filter q)[j] := by
        simp only [e]
        exact List.getElem_append_left hj
      rw [hv]
      obtain ⟨a, b, c⟩ := ih j hj
      exact ⟨by omega, b, c⟩
    · have hq : q M = true := by
        by_contra hq
        rw [e] at h
        simp only [hq, if_false, List.append_nil, Bool.false_eq_true] at h
        exact hj h
      have hl : j = ((List.range M).filter q).length := by
        rw [e, hq] at h
        simp at h
        simp at hj
        omega
      have hv : ((List.range (M + 1)).filter q)[j] = M := by
        simp only [e, hq, if_true]
        rw [List.getElem_append_right (by omega)]
        simp
      rw [hv]
      exact ⟨by omega, hq, hl.symm⟩

open Dgtd.TimeLoop Dgtd.TimeLoop.Spec in
/-- **C182**: a run with steps of at least 1e-8 covers the time up to any limit evenly, with the interval between records. -/
theorem C182_instants (dt final m : ℝ) (k : Nat) (hdt : 1 / 100000000 ≤ dt) (hk : 0 < k) (hm : 0 < m) (hmf : m ≤ final) :
    Covers (10 * (k * dt)) m (((records dt final k (stepCount dt final)).map Prod.snd).filter fun t => decide (t ≤ m)) := by
  have hdt0 : 0 < dt := by linarith
  set n := stepCount dt final with hn
  set q : Nat → Bool := fun c => due dt final k c && decide (instant dt final c ≤ m) with hq
  have hlist : ((records dt final k n).map Prod.snd).filter (fun t => decide (t ≤ m)) = ((List.range (n + 1)).filter q).map (instant dt final) := by
    unfold records
    rw [List.map_map, List.filter_map, List.filter_filter]
    simp only [Function.comp_def, hq]
    congr 2
    funext c
    rw [Bool.and_comm]
  have hk1 : (1 : ℝ) ≤ k := by exact_mod_cast hk
  have hkd : dt ≤ k * dt := by nlinarith
  -- the last steps
  have hgo : ∀ c : Nat, c < n → (c : ℝ) * dt ≤ final - 1 / 100000000 * dt := by
    intro c hc
    have h := (keepGoing_iff hdt0 c).2 hc
    have h' := instant_of_keepGoing hdt0 h
    unfold keepGoing slack at h
    rw [h'] at h
    exact of_decide_eq_true h
  have hend : final - 1 / 100000000 * dt < instant dt final n := by
    have h := (keepGoing_iff (final := final) hdt0 n).not.2 (lt_irrefl n)
    unfold keepGoing slack at h
    simpa using h
  have hnle : (n : ℝ) * dt ≤ final + dt := by
    rcases Nat.eq_zero_or_pos n with h0 | h0
    · rw [h0]; simp; linarith
    · have := hgo (n - 1) (by omega)
      rw [Nat.cast_sub h0] at this
      push_cast at this
      linarith
  have hmono : ∀ a b : Nat, a ≤ b → instant dt final a ≤ instant dt final b := by
    intro a b hab
    unfold instant
    apply min_le_min _ le_rfl
    have : (a : ℝ) ≤ b := by exact_mod_cast hab
    nlinarith
  have hnear : ∀ c : Nat, c ≤ n → |instant dt final c - c * dt| ≤ dt := by
    intro c hc
    have h1 : (c : ℝ) * dt ≤ n * dt := by
      have : (c : ℝ) ≤ n := by exact_mod_cast hc
      nlinarith
    unfold instant
    rcases le_total ((c : ℝ) * dt) final with h | h
    · rw [min_eq_left h]; simp [hdt0.le]
    · rw [min_eq_right h, abs_le]; constructor <;> linarith
  -- how many records there are before an instant
  have hcount : ∀ c : Nat, c ≤ n + 1 → c ≤ k * ((List.range c).filter (due dt final k)).length ∧
      k * ((List.range c).filter (due dt final k)).length ≤ c + 3 * k := by
    intro c hc
    rcases Nat.eq_zero_or_pos c with h0 | h0
    · simp [h0]
    obtain ⟨N, rfl⟩ : ∃ N, c = N + 1 := ⟨c - 1, by omega⟩
    have hdv := length_filter_dvd k N hk
    have hge := length_filter_or_ge (fun c => decide (|instant dt final c - final| < 1 / 100000000))
      (fun c : Nat => decide ((k : Int) ∣ (c : Int))) (List.range (N + 1))
    have hle := length_filter_or_le (fun c => decide (|instant dt final c - final| < 1 / 100000000))
      (fun c : Nat => decide ((k : Int) ∣ (c : Int))) (List.range (N + 1))
    have hextra := length_filter_range_le (fun c => decide (|instant dt final c - final| < 1 / 100000000)) (N + 1) 2 (by
      intro x hx
      have h2 := hgo (x + 1) (by omega)
      push_cast at h2
      have h3 : instant dt final x ≤ x * dt := min_le_left _ _
      simp only [decide_eq_false_iff_not, not_lt]
      rw [abs_sub_comm]
      refine le_trans ?_ (le_abs_self _)
      linarith)
    have e : ((List.range (N + 1)).filter (due dt final k)).length = ((List.range (N + 1)).filter fun a =>
        decide (|instant dt final a - final| < 1 / 100000000) || decide ((k : Int) ∣ (a : Int))).length := rfl
    rw [e]
    set D := ((List.range (N + 1)).filter fun a =>
        decide (|instant dt final a - final| < 1 / 100000000) || decide ((k : Int) ∣ (a : Int))).length
    have h1 : N / k + 1 ≤ D := by omega
    have h2 : D ≤ N / k + 3 := by omega
    have h3 := Nat.div_add_mod N k
    have h4 := Nat.mod_lt N hk
    constructor
    · calc N + 1 ≤ k * (N / k + 1) := by rw [Nat.mul_add]; omega
        _ ≤ k * D := Nat.mul_le_mul_left _ h1
    · calc k * D ≤ k * (N / k + 3) := Nat.mul_le_mul_left _ h2
        _ ≤ N + 1 + 3 * k := by rw [Nat.mul_add]; omega
  -- the limit
  obtain ⟨C, hC1, hCn, hCiff, hClo, hChi⟩ : ∃ C : Nat, 1 ≤ C ∧ C ≤ n + 1 ∧ (∀ c ≤ n, instant dt final c ≤ m ↔ c < C) ∧
      m ≤ C * dt + 2 * dt ∧ (C : ℝ) * dt ≤ m + 2 * dt := by
    have hz : instant dt final 0 ≤ m := by
      unfold instant
      exact (min_le_left _ _).trans (by simpa using hm.le)
    by_cases hex : ∃ c, c ≤ n ∧ m < instant dt final c
    · classical
      set C := Nat.find hex with hCdef
      obtain ⟨ha, hb⟩ := Nat.find_spec hex
      have hmin : ∀ c < C, instant dt final c ≤ m := by
        intro c hc
        by_contra h
        exact Nat.find_min hex hc ⟨by omega, not_le.1 h⟩
      have hCpos : 1 ≤ C := by
        by_contra h
        have : C = 0 := by omega
        rw [← hCdef, this] at hb
        linarith
      refine ⟨C, hCpos, by omega, fun c hc => ⟨fun h => ?_, hmin c⟩, ?_, ?_⟩
      · by_contra h'
        have := hmono C c (by omega)
        linarith
      · have : instant dt final C ≤ C * dt := min_le_left _ _
        linarith
      · have h1 := hmin (C - 1) (by omega)
        unfold instant at h1
        rw [Nat.cast_sub hCpos, min_le_iff] at h1
        push_cast at h1
        rcases h1 with h1 | h1
        · linarith
        · have : instant dt final C ≤ final := min_le_right _ _
          linarith
    · push Not at hex
      refine ⟨n + 1, by omega, le_rfl, fun c hc => ⟨fun _ => by omega, fun _ => hex c hc⟩, ?_, ?_⟩
      · have h1 : instant dt final n ≤ n * dt := min_le_left _ _
        push_cast
        linarith
      · have h1 := hex n le_rfl
        unfold instant at h1
        rw [min_le_iff] at h1
        push_cast
        rcases h1 with h1 | h1 <;> linarith
  have hqC : (List.range (n + 1)).filter q = (List.range C).filter (due dt final k) := by
    have e : n + 1 = C + (n + 1 - C) := by omega
    rw [e, List.range_add, List.filter_append]
    have h2 : (List.map (fun x => C + x) (List.range (n + 1 - C))).filter q = [] := by
      rw [List.filter_eq_nil_iff]
      intro c hc
      obtain ⟨x, hx, rfl⟩ := List.mem_map.1 hc
      have hx' := List.mem_range.1 hx
      have := (hCiff (C + x) (by omega)).not.2 (by omega)
      simp [hq, this]
    rw [h2, List.append_nil]
    apply List.filter_congr
    intro c hc
    have hc' := List.mem_range.1 hc
    simp [hq, (hCiff c (by omega)).2 hc']
  set N := ((List.range C).filter (due dt final k)).length with hN
  obtain ⟨hN1, hN2⟩ := hcount C hCn
  rw [← hN] at hN1 hN2
  have hN0 : 1 ≤ N := by
    by_contra h
    have : N = 0 := by omega
    rw [this] at hN1
    omega
  have hNR : (1 : ℝ) ≤ N := by exact_mod_cast hN0
  have hN1' : (C : ℝ) ≤ k * N := by exact_mod_cast hN1
  have hN2' : (k : ℝ) * N ≤ C + 3 * k := by exact_mod_cast hN2
  have hNlo : m ≤ N * (k * dt) + 2 * (k * dt) := by nlinarith
  have hNhi : N * (k * dt) ≤ m + 5 * (k * dt) := by nlinarith
  rw [hlist, hqC]
  refine ⟨?_, ?_, ?_⟩
  · rw [List.length_map, ← hN]
    have : 0 < k * dt := by positivity
    nlinarith
  · intro t ht
    obtain ⟨c, hc, rfl⟩ := List.mem_map.1 ht
    have hc' := List.mem_range.1 (List.mem_filter.1 hc).1
    refine ⟨?_, (hCiff c (by omega)).2 hc'⟩
    unfold instant
    exact le_min (by positivity) (by linarith)
  · intro j hj
    rw [List.length_map] at hj ⊢
    rw [← hN, List.getElem_map]
    obtain ⟨hcC, _, hcount'⟩ := getElem_filter (due dt final k) C j hj
    set c := ((List.range C).filter (due dt final k))[j] with hc
    obtain ⟨hj1, hj2⟩ := hcount c (by omega)
    rw [hcount'] at hj1 hj2
    have hj1' : (c : ℝ) ≤ k * j := by exact_mod_cast hj1
    have hj2' : (k : ℝ) * j ≤ c + 3 * k := by exact_mod_cast hj2
    have h1 := abs_le.1 (hnear c (by omega))
    have hjN : (j : ℝ) ≤ N := by exact_mod_cast hj.le
    have hj0 : (0 : ℝ) ≤ j := by positivity
    set h := (k : ℝ) * dt with hh
    have hhp : 0 < h := by positivity
    have h2 : |(j : ℝ) * h - j * m / N| ≤ 5 * h := by
      have e : (j : ℝ) * h - j * m / N = j / N * (N * h - m) := by field_simp
      rw [e, abs_mul]
      have a1 : |(j : ℝ) / N| ≤ 1 := by
        rw [abs_of_nonneg (by positivity), div_le_one (by linarith)]
        exact hjN
      have a2 : |N * h - m| ≤ 5 * h := by
        rw [abs_le]; constructor <;> linarith
      calc _ ≤ 1 * (5 * h) := mul_le_mul a1 a2 (abs_nonneg _) (by norm_num)
        _ = 5 * h := by ring
    have h3 : |(c : ℝ) * dt - j * h| ≤ 3 * h := by
      rw [abs_le]
      constructor <;> nlinarith
    have h2' := abs_le.1 h2
    have h3' := abs_le.1 h3
    rw [abs_le]
    constructor <;> linarith [h1.1, h1.2, h2'.1, h2'.2, h3'.1, h3'.2]

/-- Records that are cut at a time. -/
lemma records_upTo {e m : ℝ} {times : List ℝ} {S : Site} {R : Rank} (h : Records e times S R) :
    Records e (times.filter fun t => decide (t ≤ m)) S (upTo m R) where
  nDofs := h.nDofs
  faces := h.faces
  times := by rw [times_upTo, h.times]
  close := fun s hs => h.close s (List.mem_of_mem_filter hs)

/-- **C182** with a limit of time in the request: the cross sections tend to those of the fields up to that limit. -/
theorem C182_limit (is3D : Bool) (freqsHz : List ℝ) (angles : List Angles) (pw : PlaneWave) (hang : anglesOk is3D angles)
    (hpw : pw.spread ≠ 0) (hfn : freqsHz.Nodup) (han : angles.Nodup) {m : ℝ} (hm : 0 < m) {n : Nat} (hn : 0 < n) (S : Fin n → Site)
    (hS : ∀ i, (S i).Sound is3D) (hu : ∀ i c, ∀ v < (S i).nDofs, ContinuousOn ((S i).u c v) (Set.Icc 0 m))
    (hinc : ∀ f ∈ freqsHz, f ≠ 0 ∧ spectralIntegral m (normFreq f) (pulse pw) ≠ 0) (ε : ℝ) (hε : 0 < ε) :
    ∃ δ > 0, ∀ (times : List ℝ) (R : Fin n → Rank), Covers δ m (times.filter fun t => decide (t ≤ m)) →
      (∀ i, Records δ times (S i) (R i)) →
      ∃ res, run is3D (some m) freqsHz angles pw (List.ofFn R) = some res ∧ res.map Prod.fst = angles ∧
        ∀ p ∈ res, p.2.map Row.freqHz = freqsHz ∧ ∀ row ∈ p.2, ∃ x, row.rcs = some x ∧
          |x - exactSection is3D pw (surface is3D S) m (normFreq row.freqHz) p.1| < ε := by
  obtain ⟨δ, hδ, h⟩ := C182_converges is3D freqsHz angles pw hang hpw hfn han hm hn S hS hu hinc ε hε
  refine ⟨δ, hδ, fun times R hc hR => ?_⟩
  rw [C49_run, List.map_ofFn]
  · exact h _ _ hc fun i => records_upTo (hR i)
  · intro Q hQ
    obtain ⟨i, rfl⟩ := (List.mem_ofFn' _ _).1 hQ
    have hne : times.filter (fun t => decide (t ≤ m)) ≠ [] := by
      intro h0
      have := hc.fine
      rw [h0] at this
      simp at this
      linarith
    obtain ⟨t, ht⟩ := List.exists_mem_of_ne_nil _ hne
    have ht' := List.mem_filter.1 ht
    rw [← (hR i).times] at ht'
    obtain ⟨s, hs, rfl⟩ := List.mem_map.1 ht'.1
    exact ⟨s, hs, by simpa using ht'.2⟩

lemma covers_mono {d d' T : ℝ} {times : List ℝ} (h : Covers d T times) (hd : d ≤ d') : Covers d' T times where
  fine := h.fine.trans (mul_le_mul_of_nonneg_right hd (by positivity))
  inside := h.inside
  even := fun j hj => (h.even j hj).trans hd

open Dgtd.TimeLoop.Spec in
/-- **C182** for whole runs: with records often enough, and fields close enough to the exact ones, the cross sections are as close as desired to
the exact ones up to the limit of the request, or up to the final time without one. -/
theorem C182_run (is3D : Bool) (maxTime : Option ℝ) (freqsHz : List ℝ) (angles : List Angles) (pw : PlaneWave)
    (hang : anglesOk is3D angles) (hpw : pw.spread ≠ 0) (hfn : freqsHz.Nodup) (han : angles.Nodup) (final T : ℝ)
    (hTm : T = maxTime.getD final) (hT : 0 < T) (hTf : T ≤ final) {n : Nat} (hn : 0 < n) (S : Fin n → Site)
    (hS : ∀ i, (S i).Sound is3D) (hu : ∀ i c, ∀ v < (S i).nDofs, ContinuousOn ((S i).u c v) (Set.Icc 0 T))
    (hinc : ∀ f ∈ freqsHz, f ≠ 0 ∧ spectralIntegral T (normFreq f) (pulse pw) ≠ 0) (ε : ℝ) (hε : 0 < ε) :
    ∃ δ > 0, ∀ (dt : ℝ) (k : Nat) (R : Fin n → Rank), 1 / 100000000 ≤ dt → 0 < k → k * dt ≤ δ →
      (∀ i, Records δ ((records dt final k (stepCount dt final)).map Prod.snd) (S i) (R i)) →
      ∃ res, run is3D maxTime freqsHz angles pw (List.ofFn R) = some res ∧ res.map Prod.fst = angles ∧
        ∀ p ∈ res, p.2.map Row.freqHz = freqsHz ∧ ∀ row ∈ p.2, ∃ x, row.rcs = some x ∧
          |x - exactSection is3D pw (surface is3D S) T (normFreq row.freqHz) p.1| < ε := by
  have mono : ∀ {e e' : ℝ} {times : List ℝ} {S : Site} {R : Rank}, e ≤ e' → Records e times S R → Records e' times S R :=
    fun he h => ⟨h.nDofs, h.faces, h.times, fun s hs c v hv => (h.close s hs c v hv).trans he⟩
  cases maxTime with
  | none =>
    simp only [Option.getD_none] at hTm
    subst hTm
    obtain ⟨δ, hδ, h⟩ := C182_converges is3D freqsHz angles pw hang hpw hfn han hT hn S hS hu hinc ε hε
    refine ⟨δ / 10, by positivity, fun dt k R hdt hk hkd hR => h _ R ?_ fun i => mono (by linarith) (hR i)⟩
    have hc := covers_mono (C182_instants dt T T k hdt hk hT le_rfl) (show 10 * (k * dt) ≤ δ by linarith)
    convert hc using 1
    rw [eq_comm, List.filter_eq_self]
    intro t ht
    unfold records at ht
    rw [List.map_map] at ht
    obtain ⟨c, _, rfl⟩ := List.mem_map.1 ht
    simp [instant]
  | some m =>
    simp only [Option.getD_some] at hTm
    subst hTm
    obtain ⟨δ, hδ, h⟩ := C182_limit is3D freqsHz angles pw hang hpw hfn han hT hn S hS hu hinc ε hε
    exact ⟨δ / 10, by positivity, fun dt k R hdt hk hkd hR => h _ R
      (covers_mono (C182_instants dt final T k hdt hk hT hTf) (by linarith)) fun i => mono (by linarith) (hR i)⟩

/-- A pulse without a carrier is seen at all frequencies with less than a quarter of a period in the time of the run. -/
lemma pulse_seen (pw : PlaneWave) (hp : pw.frequency = 0) (T f : ℝ) (hT : 0 < T) (hf : 0 ≤ f) (hfT : 4 * f * T ≤ 1) :
    spectralIntegral T f (pulse pw) ≠ 0 := by
  intro h0
  have hcont : Continuous fun t : ℝ => Complex.exp (-(2 * Real.pi * f * t : ℝ) * Complex.I) * (pulse pw t : ℂ) := by
    have := pulse_continuous pw
    fun_prop
  have hre : (spectralIntegral T f (pulse pw)).re = ∫ t in (0 : ℝ)..T, Real.cos (2 * Real.pi * f * t) * pulse pw t := by
    unfold spectralIntegral
    rw [← Complex.reCLM_apply, ← ContinuousLinearMap.intervalIntegral_comp_comm _ (hcont.intervalIntegrable 0 T)]
    congr 1
    funext t
    rw [Complex.reCLM_apply, ← Complex.ofReal_neg, Complex.re_mul_ofReal, Complex.exp_ofReal_mul_I_re, Real.cos_neg]
  have hpos : 0 < ∫ t in (0 : ℝ)..T, Real.cos (2 * Real.pi * f * t) * pulse pw t := by
    apply intervalIntegral.intervalIntegral_pos_of_pos_on
    · have := pulse_continuous pw
      exact Continuous.intervalIntegrable (by fun_prop) _ _
    · intro t ht
      have hpi := Real.pi_pos
      apply mul_pos
      · apply Real.cos_pos_of_mem_Ioo
        constructor
        · have : 0 ≤ 2 * Real.pi * f * t := by have := ht.1; positivity
          linarith
        · rcases hf.eq_or_lt with h | h
          · rw [← h]; simp; linarith
          · have h1 : 4 * f * t < 1 := lt_of_lt_of_le (by nlinarith [ht.2]) hfT
            nlinarith
      · unfold pulse
        simp only [hp, if_true, mul_one]
        positivity
    · exact hT
  rw [← hre, h0] at hpos
  simp at hpos

/-- One face with one unknown, on which the third component of the magnetic field oscillates. -/
def exSite : Site where
  nDofs := 1
  faces := [⟨1, fun _ => 0, [⟨![1, 0, 0], ![1, 0, 0], 1, fun _ => 1⟩]⟩]
  u := fun c _ t => if c = 5 then Real.cos t else 0

/-- The hypotheses of `C182_run` hold for it, for a pulse and a request of two frequencies, and there are runs with such records. -/
example (ε : ℝ) (hε : 0 < ε) :
    (∃ δ > 0, ∀ (dt : ℝ) (k : Nat) (R : Fin 1 → Rank), 1 / 100000000 ≤ dt → 0 < k → k * dt ≤ δ →
      (∀ i, Records δ ((TimeLoop.Spec.records dt 1 k (TimeLoop.Spec.stepCount dt 1)).map Prod.snd) exSite (R i)) →
      ∃ res, run true none [cSI / 8, cSI / 4] [⟨Real.pi / 2, 0⟩] ⟨1, 0, 0⟩ (List.ofFn R) = some res ∧ res.map Prod.fst = [⟨Real.pi / 2, 0⟩] ∧
        ∀ p ∈ res, p.2.map Row.freqHz = [cSI / 8, cSI / 4] ∧ ∀ row ∈ p.2, ∃ x, row.rcs = some x ∧
          |x - exactSection true ⟨1, 0, 0⟩ (surface true fun _ : Fin 1 => exSite) 1 (normFreq row.freqHz) p.1| < ε) ∧
    ∀ times : List ℝ, Records 0 times exSite ⟨1, exSite.faces, times.map fun t => ⟨t, fun c v => exSite.u c v t⟩⟩ := by
  constructor
  · refine C182_run true none [cSI / 8, cSI / 4] [⟨Real.pi / 2, 0⟩] ⟨1, 0, 0⟩ (.inl rfl) one_ne_zero ?_ (by simp) 1 1 rfl one_pos le_rfl
      one_pos (fun _ => exSite) ?_ ?_ ?_ ε hε
    · simp only [List.nodup_cons, List.mem_singleton, List.not_mem_nil, not_false_eq_true, List.nodup_nil, and_true]
      unfold cSI
      norm_num
    · intro _
      refine ⟨by simp [exSite], ?_⟩
      intro f hf q hq
      simp only [exSite, List.mem_singleton] at hf
      subst hf
      simp only [List.mem_singleton] at hq
      subst hq
      intro h
      have := congrFun h 0
      simp at this
    · intro _ c v _
      unfold exSite
      by_cases h : c = 5
      · simp only [h, if_true]; fun_prop
      · simp only [h, if_false]; fun_prop
    · intro f hf
      simp only [List.mem_cons, List.not_mem_nil, or_false] at hf
      have hc : normFreq f = 1 / 8 ∨ normFreq f = 1 / 4 := by
        rcases hf with rfl | rfl
        · left; unfold normFreq cSI; norm_num
        · right; unfold normFreq cSI; norm_num
      constructor
      · rcases hf with rfl | rfl <;> unfold cSI <;> norm_num
      · apply pulse_seen _ rfl _ _ one_pos <;> rcases hc with h | h <;> rw [h] <;> norm_num
  · intro times
    refine ⟨rfl, rfl, by simp [List.map_map, Function.comp_def], ?_⟩
    intro s hs c v _
    obtain ⟨t, _, rfl⟩ := List.mem_map.1 hs
    simp

end

end Dgtd.Spectra
