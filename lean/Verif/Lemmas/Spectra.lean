/-
Sums over recorded instants are close to integrals over time.
-/
import Verif.Spec.Spectra
import Mathlib.MeasureTheory.Integral.IntervalIntegral.FundThmCalculus
import Mathlib.Topology.UniformSpace.HeineCantor

namespace Dgtd.Spectra
open Dgtd.Rcs Dgtd.Rcs.Spec Dgtd.Spectra.Spec

noncomputable section

/-- The mean over the instants times the duration is close to the integral. -/
lemma mean_close {d T : ℝ} (hT : 0 < T) {times : List ℝ} (h : Covers d T times) (g : ℝ → ℂ) (hg : ContinuousOn g (Set.Icc 0 T))
    (y : Nat → ℂ) (w e : ℝ) (hw : ∀ s ∈ Set.Icc 0 T, ∀ t ∈ Set.Icc 0 T, |s - t| ≤ 2 * d → ‖g s - g t‖ ≤ w)
    (hy : ∀ (j : Nat) (hj : j < times.length), ‖y j - g times[j]‖ ≤ e) :
    ‖(T : ℂ) * ((∑ j ∈ Finset.range times.length, y j) / (times.length : ℂ)) - ∫ t in (0 : ℝ)..T, g t‖ ≤ T * (w + e) := by
  set n := times.length with hn
  have hn0 : 0 < n := by
    rcases Nat.eq_zero_or_pos n with h0 | h0
    · have := h.fine
      rw [← hn, h0] at this
      simp at this
      linarith
    · exact h0
  have hnR : (0 : ℝ) < n := by exact_mod_cast hn0
  have hd : T / n ≤ d := by
    rw [div_le_iff₀ hnR]
    exact h.fine
  have hstep : ∀ j : Nat, ((j + 1 : ℕ) : ℝ) * T / n - j * T / n = T / n := by
    intro j
    push_cast
    ring
  have hle : ∀ j : Nat, (j : ℝ) * T / n ≤ ((j + 1 : ℕ) : ℝ) * T / n := by
    intro j
    have := hstep j
    have : 0 < T / n := by positivity
    linarith [hstep j]
  have hin : ∀ j : Nat, j ≤ n → 0 ≤ (j : ℝ) * T / n ∧ (j : ℝ) * T / n ≤ T := by
    intro j hj
    refine ⟨by positivity, ?_⟩
    rw [div_le_iff₀ hnR, mul_comm]
    have : (j : ℝ) ≤ n := by exact_mod_cast hj
    nlinarith
  have hint : ∀ a b : ℝ, 0 ≤ a → a ≤ b → b ≤ T → IntervalIntegrable g MeasureTheory.volume a b := by
    intro a b ha hab hb
    apply ContinuousOn.intervalIntegrable
    rw [Set.uIcc_of_le hab]
    exact hg.mono (Set.Icc_subset_Icc ha hb)
  have hsum : ∫ t in (0 : ℝ)..T, g t = ∑ j ∈ Finset.range n, ∫ t in ((j : ℝ) * T / n)..(((j + 1 : ℕ) : ℝ) * T / n), g t := by
    rw [intervalIntegral.sum_integral_adjacent_intervals (a := fun j : ℕ => (j : ℝ) * T / n)]
    · congr 1
      · simp
      · field_simp
    · intro j hj
      exact hint _ _ (hin j (by omega)).1 (hle j) (hin (j + 1) (by omega)).2
  have hconst : (T : ℂ) * ((∑ j ∈ Finset.range n, y j) / (n : ℂ)) =
      ∑ j ∈ Finset.range n, ∫ _ in ((j : ℝ) * T / n)..(((j + 1 : ℕ) : ℝ) * T / n), y j := by
    simp only [intervalIntegral.integral_const, hstep]
    rw [Finset.sum_div, Finset.mul_sum]
    apply Finset.sum_congr rfl
    intro j _
    rw [Complex.real_smul]
    push_cast
    ring
  rw [hconst, hsum, ← Finset.sum_sub_distrib]
  have hbound : ∀ j ∈ Finset.range n,
      ‖(∫ _ in ((j : ℝ) * T / n)..(((j + 1 : ℕ) : ℝ) * T / n), y j) - ∫ t in ((j : ℝ) * T / n)..(((j + 1 : ℕ) : ℝ) * T / n), g t‖ ≤
        (w + e) * (T / n) := by
    intro j hj
    have hjn : j < n := Finset.mem_range.1 hj
    rw [← intervalIntegral.integral_sub intervalIntegrable_const
      (hint _ _ (hin j hjn.le).1 (hle j) (hin (j + 1) hjn).2)]
    have := intervalIntegral.norm_integral_le_of_norm_le_const (a := (j : ℝ) * T / n) (b := ((j + 1 : ℕ) : ℝ) * T / n)
      (f := fun t => y j - g t) (C := w + e) (by
        intro t ht
        rw [Set.uIoc_of_le (hle j)] at ht
        have hjt := h.inside times[j] (List.getElem_mem (by omega))
        have htT : t ∈ Set.Icc 0 T := ⟨(hin j hjn.le).1.trans ht.1.le, ht.2.trans (hin (j + 1) hjn).2⟩
        have h1 := hw times[j] ⟨hjt.1, hjt.2⟩ t htT (by
          have h2 := abs_le.1 (h.even j (by omega))
          have h3 := hstep j
          rw [← hn] at h2
          rw [abs_le]
          constructor
          · linarith [h2.1, ht.2]
          · linarith [h2.2, ht.1])
        calc ‖y j - g t‖ = ‖(y j - g times[j]) + (g times[j] - g t)‖ := by congr 1; ring
          _ ≤ ‖y j - g times[j]‖ + ‖g times[j] - g t‖ := norm_add_le _ _
          _ ≤ e + w := add_le_add (hy j hjn) h1
          _ = w + e := by ring)
    rwa [hstep, abs_of_pos (by positivity)] at this
  calc _ ≤ ∑ j ∈ Finset.range n, (w + e) * (T / n) := norm_sum_le_of_le _ hbound
    _ = T * (w + e) := by
      rw [Finset.sum_const, Finset.card_range, nsmul_eq_mul]
      field_simp

lemma sum_getElem {A : Type} (l : List A) (F : A → ℂ) :
    (l.map F).sum = ∑ j ∈ Finset.range l.length, if h : j < l.length then F l[j] else 0 := by
  rw [Finset.sum_range, ← List.sum_ofFn, ← List.ofFn_getElem (xs := l.map F)]
  simp

/-- The transform of recorded values tends to the Fourier integral. -/
lemma transform_tendsto {T : ℝ} (hT : 0 < T) (f : ℝ) (d e : ℕ → ℝ) (hd : Filter.Tendsto d Filter.atTop (nhds 0))
    (he : Filter.Tendsto e Filter.atTop (nhds 0)) (g : ℝ → ℝ) (hg : ContinuousOn g (Set.Icc 0 T)) (series : ℕ → List (ℝ × ℝ))
    (hc : ∀ k, Covers (d k) T ((series k).map Prod.fst)) (hv : ∀ k, ∀ p ∈ series k, |p.2 - g p.1| ≤ e k) :
    Filter.Tendsto (fun k => (T : ℂ) * transform f (series k)) Filter.atTop (nhds (spectralIntegral T f g)) := by
  set G : ℝ → ℂ := fun t => Complex.exp (-(2 * Real.pi * f * t : ℝ) * Complex.I) * (g t : ℂ) with hG
  have hGc : ContinuousOn G (Set.Icc 0 T) := by
    apply ContinuousOn.mul
    · fun_prop
    · exact Complex.continuous_ofReal.comp_continuousOn hg
  have hu := isCompact_Icc.uniformContinuousOn_of_continuous hGc
  rw [Metric.uniformContinuousOn_iff] at hu
  rw [Metric.tendsto_atTop]
  intro x hx
  obtain ⟨w, hw, hwu⟩ := hu (x / (4 * T)) (by positivity)
  obtain ⟨k1, hk1⟩ := (Metric.tendsto_atTop.1 hd) (w / 2) (by positivity)
  obtain ⟨k2, hk2⟩ := (Metric.tendsto_atTop.1 he) (x / (4 * T)) (by positivity)
  refine ⟨max k1 k2, fun k hk => ?_⟩
  have h1 := hk1 k (le_trans (le_max_left _ _) hk)
  have h2 := hk2 k (le_trans (le_max_right _ _) hk)
  rw [Real.dist_eq, sub_zero] at h1 h2
  have h1' := (abs_lt.1 h1).2
  have h2' := (abs_lt.1 h2).2
  have key := mean_close hT (hc k) G hGc
    (fun j => if h : j < (series k).length then
      Complex.exp (-(2 * Real.pi * f * (series k)[j].1 : ℝ) * Complex.I) * ((series k)[j].2 : ℂ) else 0)
    (x / (4 * T)) (x / (4 * T))
    (by
      intro s hs t ht hst
      have := hwu s hs t ht (by rw [Real.dist_eq]; linarith)
      rw [dist_eq_norm] at this
      exact this.le)
    (by
      intro j hj
      have hj' : j < (series k).length := by simpa using hj
      rw [dif_pos hj']
      simp only [hG, List.getElem_map]
      rw [← mul_sub, norm_mul, ← Complex.ofReal_neg, Complex.norm_exp_ofReal_mul_I, one_mul, ← Complex.ofReal_sub, Complex.norm_real]
      exact (hv k _ (List.getElem_mem hj')).trans h2'.le)
  rw [dist_eq_norm]
  unfold spectralIntegral transform
  rw [sum_getElem]
  rw [List.length_map] at key
  refine lt_of_le_of_lt key ?_
  have : T * (x / (4 * T) + x / (4 * T)) = x / 2 := by field_simp; norm_num
  rw [this]
  linarith

/-- The indices of the integration points. -/
def index {n : Nat} (S : Fin n → Site) : List (Fin n × Face × Pt) :=
  (List.finRange n).flatMap fun i => (S i).faces.flatMap fun f => f.pts.map fun q => (i, f, q)

/-- The point of an index. -/
def pointAt (is3D : Bool) {n : Nat} (S : Fin n → Site) (x : Fin n × Face × Pt) : Point :=
  { pos := if is3D then x.2.2.pos else ![x.2.2.pos 0, x.2.2.pos 1, 0]
    area := if is3D then fun d => x.2.2.w * x.2.2.ortho d else ![x.2.2.w * x.2.2.ortho 0, x.2.2.w * x.2.2.ortho 1, 0]
    field := fun c t => ((List.range x.2.1.ndof).map fun i => x.2.2.shape i * (S x.1).u c (x.2.1.dofs i) t).sum }

lemma surface_index (is3D : Bool) {n : Nat} (S : Fin n → Site) : surface is3D S = (index S).map (pointAt is3D S) := by
  unfold surface index
  rw [List.ofFn_eq_map, List.flatMap_map, List.map_flatMap]
  apply List.flatMap_congr
  intro i _
  unfold Site.points
  rw [List.map_flatMap]
  apply List.flatMap_congr
  intro f _
  rw [List.map_map]
  rfl

lemma samples_index (is3D : Bool) {n : Nat} (S : Fin n → Site) (R : Fin n → Rank) (hf : ∀ i, (R i).faces = (S i).faces) :
    samples is3D (List.ofFn R) = (index S).map fun x => sampleOf is3D (R x.1).snaps x.2.1 x.2.2 := by
  unfold samples index
  rw [List.ofFn_eq_map, List.flatMap_map, List.map_flatMap]
  apply List.flatMap_congr
  intro i _
  unfold samplesOf
  rw [hf, List.map_flatMap]
  apply List.flatMap_congr
  intro f _
  rw [List.map_map]
  rfl

lemma mem_index {n : Nat} {S : Fin n → Site} {x : Fin n × Face × Pt} (h : x ∈ index S) : x.2.1 ∈ (S x.1).faces ∧ x.2.2 ∈ x.2.1.pts := by
  unfold index at h
  simp only [List.mem_flatMap, List.mem_map] at h
  obtain ⟨i, _, f, hf, q, hq, rfl⟩ := h
  exact ⟨hf, hq⟩

/-- Values between the unknowns are recorded as well as those at the unknowns. -/
lemma sum_close (l : List Nat) (a : Nat → ℝ) (x y : Nat → ℝ) (e : ℝ) (h : ∀ i ∈ l, |x i - y i| ≤ e) :
    |(l.map fun i => a i * x i).sum - (l.map fun i => a i * y i).sum| ≤ (l.map fun i => |a i|).sum * e := by
  induction l with
  | nil => simp
  | cons i l ih =>
    simp only [List.map_cons, List.sum_cons]
    have h1 := ih fun j hj => h j (by simp [hj])
    have h2 := h i (by simp)
    have e1 : a i * x i + (l.map fun i => a i * x i).sum - (a i * y i + (l.map fun i => a i * y i).sum) =
      a i * (x i - y i) + ((l.map fun i => a i * x i).sum - (l.map fun i => a i * y i).sum) := by ring
    rw [e1]
    refine (abs_add_le _ _).trans ?_
    rw [abs_mul, add_mul]
    have := mul_le_mul_of_nonneg_left h2 (abs_nonneg (a i))
    linarith

lemma continuousOn_sum (l : List Nat) (F : Nat → ℝ → ℝ) (s : Set ℝ) (h : ∀ i ∈ l, ContinuousOn (F i) s) :
    ContinuousOn (fun t => (l.map fun i => F i t).sum) s := by
  induction l with
  | nil => simpa using continuousOn_const
  | cons i l ih =>
    simp only [List.map_cons, List.sum_cons]
    exact (h i (by simp)).add (ih fun j hj => h j (by simp [hj]))

lemma cross_tendsto (area : Fin 3 → ℝ) (F : ℕ → Fin 3 → ℂ) (G : Fin 3 → ℂ)
    (h : ∀ c, Filter.Tendsto (fun k => F k c) Filter.atTop (nhds (G c))) :
    Filter.Tendsto (fun k => cross area (F k)) Filter.atTop (nhds (cross area G)) := by
  rw [tendsto_pi_nhds]
  intro c
  unfold cross
  fin_cases c
  · exact ((h 2).const_mul _).sub ((h 1).const_mul _)
  · exact ((h 0).const_mul _).sub ((h 2).const_mul _)
  · exact ((h 1).const_mul _).sub ((h 0).const_mul _)

lemma smul_cross (area : Fin 3 → ℝ) (F : Fin 3 → ℂ) (z : ℂ) : z • cross area F = cross area fun c => z * F c := by
  funext c
  unfold cross
  fin_cases c <;> simp <;> ring

lemma smul_along (v : Fin 3 → ℝ) (F : Fin 3 → ℂ) (z : ℂ) : along v (z • F) = z * along v F := by
  unfold along
  simp
  ring

lemma along_tendsto (v : Fin 3 → ℝ) (F : ℕ → Fin 3 → ℂ) (G : Fin 3 → ℂ) (h : Filter.Tendsto F Filter.atTop (nhds G)) :
    Filter.Tendsto (fun k => along v (F k)) Filter.atTop (nhds (along v G)) := by
  rw [tendsto_pi_nhds] at h
  unfold along
  exact ((((h 0).const_mul _).add ((h 1).const_mul _)).add ((h 2).const_mul _))

section limit

variable {T : ℝ} (hT : 0 < T) (is3D : Bool) {n : Nat} (S : Fin n → Site) (hS : ∀ i, (S i).Sound is3D)
  (hu : ∀ i c, ∀ v < (S i).nDofs, ContinuousOn ((S i).u c v) (Set.Icc 0 T)) (d : ℕ → ℝ)
  (hd : Filter.Tendsto d Filter.atTop (nhds 0)) (times : ℕ → List ℝ) (hc : ∀ k, Covers (d k) T (times k))
  (R : ℕ → Fin n → Rank) (hR : ∀ k i, Records (d k) (times k) (S i) (R k i))
include hT hS hu hd hc hR

/-- The transform of a component at an integration point. -/
lemma component_tendsto (f : ℝ) (x : Fin n × Face × Pt) (hx : x ∈ index S) (c : Fin 6) :
    Filter.Tendsto (fun k => (T : ℂ) * transform f ((sampleOf is3D (R k x.1).snaps x.2.1 x.2.2).series.map fun p => (p.1, p.2 c)))
      Filter.atTop (nhds (spectralIntegral T f ((pointAt is3D S x).field c))) := by
  obtain ⟨hf, hq⟩ := mem_index hx
  set a := ((List.range x.2.1.ndof).map fun i => |x.2.2.shape i|).sum with ha
  apply transform_tendsto hT f d (fun k => a * d k) hd (by simpa using hd.const_mul a)
  · unfold pointAt
    apply continuousOn_sum
    intro i hi
    exact continuousOn_const.mul (hu x.1 c _ ((hS x.1).1 _ hf i (List.mem_range.1 hi)))
  · intro k
    have := hc k
    rw [← (hR k x.1).times] at this
    convert this using 1
    simp [sampleOf, List.map_map, Function.comp_def]
  · intro k p hp
    simp only [sampleOf, List.map_map, List.mem_map, Function.comp_def] at hp
    obtain ⟨s, hs, rfl⟩ := hp
    simp only [pointAt, ha]
    apply sum_close
    intro i hi
    exact (hR k x.1).close s hs c _ ((hS x.1).1 _ hf i (List.mem_range.1 hi))

lemma N_tendsto (f : ℝ) (a : Angles) :
    Filter.Tendsto (fun k => (T : ℂ) • Rcs.Spec.N (samples is3D (List.ofFn (R k))) f a) Filter.atTop
      (nhds (Spec.N (surface is3D S) T f a)) := by
  have e : ∀ k, (T : ℂ) • Rcs.Spec.N (samples is3D (List.ofFn (R k))) f a = ((index S).map fun x =>
      phase f a (pointAt is3D S x).pos • cross (pointAt is3D S x).area fun c =>
        (T : ℂ) * (sampleOf is3D (R k x.1).snaps x.2.1 x.2.2).H f c).sum := by
    intro k
    unfold Rcs.Spec.N
    rw [samples_index is3D S (R k) fun i => (hR k i).faces, List.map_map, List.smul_sum, List.map_map]
    congr 1
    apply List.map_congr_left
    intro x _
    simp only [Function.comp_def]
    rw [smul_comm, smul_cross]
    rfl
  simp only [e]
  unfold Spec.N
  rw [surface_index, List.map_map]
  apply tendsto_list_sum
  intro x hx
  apply Filter.Tendsto.const_smul
  apply cross_tendsto
  intro c
  exact component_tendsto hT is3D S hS hu d hd times hc R hR f x hx ⟨3 + c.val, by omega⟩

lemma L_tendsto (f : ℝ) (a : Angles) :
    Filter.Tendsto (fun k => (T : ℂ) • Rcs.Spec.L (samples is3D (List.ofFn (R k))) f a) Filter.atTop
      (nhds (Spec.L (surface is3D S) T f a)) := by
  have e : ∀ k, (T : ℂ) • Rcs.Spec.L (samples is3D (List.ofFn (R k))) f a = ((index S).map fun x =>
      -(phase f a (pointAt is3D S x).pos • cross (pointAt is3D S x).area fun c =>
        (T : ℂ) * (sampleOf is3D (R k x.1).snaps x.2.1 x.2.2).E f c)).sum := by
    intro k
    unfold Rcs.Spec.L
    rw [samples_index is3D S (R k) fun i => (hR k i).faces, List.map_map, List.smul_sum, List.map_map]
    congr 1
    apply List.map_congr_left
    intro x _
    simp only [Function.comp_def]
    rw [smul_neg, smul_comm, smul_cross]
    rfl
  simp only [e]
  unfold Spec.L
  rw [surface_index, List.map_map]
  apply tendsto_list_sum
  intro x hx
  apply Filter.Tendsto.neg
  apply Filter.Tendsto.const_smul
  apply cross_tendsto
  intro c
  exact component_tendsto hT is3D S hS hu d hd times hc R hR f x hx ⟨c.val, by omega⟩

lemma intensity_tendsto (f : ℝ) (a : Angles) :
    Filter.Tendsto (fun k => T ^ 2 * intensity is3D f (farField (samples is3D (List.ofFn (R k))) f a)) Filter.atTop
      (nhds (intensity is3D f (radiated (surface is3D S) T f a))) := by
  have hN := N_tendsto hT is3D S hS hu d hd times hc R hR f a
  have hL := L_tendsto hT is3D S hS hu d hd times hc R hR f a
  have e : ∀ k, T ^ 2 * intensity is3D f (farField (samples is3D (List.ofFn (R k))) f a) =
      (2 * Real.pi * f) ^ 2 / (if is3D then 32 * Real.pi ^ 2 else 32) *
        (‖along (ePhi a) ((T : ℂ) • Rcs.Spec.L (samples is3D (List.ofFn (R k))) f a) +
            along (eTheta a) ((T : ℂ) • Rcs.Spec.N (samples is3D (List.ofFn (R k))) f a)‖ ^ 2 +
          ‖along (eTheta a) ((T : ℂ) • Rcs.Spec.L (samples is3D (List.ofFn (R k))) f a) -
            along (ePhi a) ((T : ℂ) • Rcs.Spec.N (samples is3D (List.ofFn (R k))) f a)‖ ^ 2) := by
    intro k
    unfold intensity farField
    simp only [smul_along, ← mul_add, ← mul_sub, norm_mul, Complex.norm_real, mul_pow, Real.norm_eq_abs, sq_abs]
    simp
    ring
  simp only [e]
  unfold intensity radiated
  apply Filter.Tendsto.const_mul
  apply Filter.Tendsto.add
  · exact (((along_tendsto _ _ _ hL).add (along_tendsto _ _ _ hN)).norm).pow 2
  · exact (((along_tendsto _ _ _ hL).sub (along_tendsto _ _ _ hN)).norm).pow 2

end limit

end

end Dgtd.Spectra
