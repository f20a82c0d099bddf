/-
C163: what is said about the resolution of thin layers.
-/
import Verif.Spec.SgbcReport
import Verif.Props.SgbcSub

namespace Dgtd.SgbcReport
open Spec
open Dgtd.Sgbc (Layer subSteps)
open Dgtd.Config (Material)
open Dgtd.Layer (Consts)

variable {k : Consts} {c big : ℝ} {root : Bool}

lemma fMax_iff {l : Layer ℝ (Material ℝ)} (h : Conductor l) {f : ℝ} (hf : 0 < f) : fMax k l > f ↔ Resolved k l f := by
  have hm := k.mu0_pos
  have hz := k.Z0_pos
  have hs : (0 : ℝ) < l.segs := by exact_mod_cast h.segs
  have h1 := h.width; have h2 := h.mu; have h3 := h.sigma
  have hdx : 0 < l.width / l.segs := by positivity
  obtain ⟨m, hm'⟩ : ∃ m, m = l.material.mu * k.mu0 := ⟨_, rfl⟩
  obtain ⟨s, hs'⟩ : ∃ s, s = l.material.sigma / k.Z0 := ⟨_, rfl⟩
  obtain ⟨d, hd'⟩ : ∃ d, d = l.width / l.segs := ⟨_, rfl⟩
  have m0 : 0 < m := by rw [hm']; positivity
  have s0 : 0 < s := by rw [hs']; positivity
  have d0 : 0 < d := by rw [hd']; exact hdx
  have p0 := Real.pi_pos
  unfold fMax Resolved skinDepth
  simp only
  rw [← hm', ← hs', ← hd', gt_iff_lt, lt_div_iff₀ (by positivity), lt_div_iff₀ (by positivity)]
  rw [show f * (Real.pi * m * s * d * d) = (d * √(Real.pi * f * m * s)) ^ 2 by
    rw [mul_pow, Real.sq_sqrt (by positivity)]; ring]
  constructor
  · intro hlt
    exact lt_of_pow_lt_pow_left₀ 2 zero_le_one (by simpa using hlt)
  · intro hlt
    have : 0 ≤ d * √(Real.pi * f * m * s) := by positivity
    nlinarith

lemma resolved_mono {l : Layer ℝ (Material ℝ)} (h : Conductor l) {f g : ℝ} (hf : 0 < f) (hg : f ≤ g) (hr : Resolved k l g) : Resolved k l f :=
  (fMax_iff h hf).1 (lt_of_le_of_lt hg ((fMax_iff h (hf.trans_le hg)).2 hr))

lemma verdict_iff {l : Layer ℝ (Material ℝ)} (h : Conductor l) (v : Verdict) : verdict (fMax k l) = v ↔ Deserves k l v := by
  have a := fMax_iff (k := k) h (f := 10 ^ 10) (by norm_num)
  have b := fMax_iff (k := k) h (f := 10 ^ 9) (by norm_num)
  have d := fMax_iff (k := k) h (f := 10 ^ 6) (by norm_num)
  have ab : Resolved k l (10 ^ 10) → Resolved k l (10 ^ 9) := resolved_mono h (by norm_num) (by norm_num)
  have bd : Resolved k l (10 ^ 9) → Resolved k l (10 ^ 6) := resolved_mono h (by norm_num) (by norm_num)
  rw [← a, ← b] at ab
  rw [← b, ← d] at bd
  unfold verdict
  cases v <;> simp only [Deserves, ← a, ← b, ← d] <;> split_ifs <;> simp_all

lemma onLayers_append (a b : List Line) : onLayers (a ++ b) = onLayers a ++ onLayers b := List.filterMap_append ..

lemma onSteps_append (a b : List Line) : onSteps (a ++ b) = onSteps a ++ onSteps b := List.filterMap_append ..

lemma check_steps (li : Nat) (ls : List (Layer ℝ (Material ℝ))) : onSteps (checkSkinDepth k li ls) = [] := by
  induction ls generalizing li with
  | nil => rfl
  | cons l r ih =>
    rw [checkSkinDepth, onSteps_append, ih, List.append_nil]
    split <;> rfl

lemma check_mem (li : Nat) (ls : List (Layer ℝ (Material ℝ))) (i : Nat) (v : Verdict) :
    (i, v) ∈ onLayers (checkSkinDepth k li ls) ↔ ∃ j l, ls[j]? = some l ∧ 0 < l.material.sigma ∧ i = li + j + 1 ∧ v = verdict (fMax k l) := by
  induction ls generalizing li with
  | nil => simp [checkSkinDepth, onLayers]
  | cons l r ih =>
    rw [checkSkinDepth, onLayers_append, List.mem_append, ih]
    constructor
    · rintro (h | ⟨j, l', h1, h2, h3, h4⟩)
      · split at h
        · simp [onLayers] at h
        · rename_i hs
          simp only [onLayers, List.filterMap_cons, List.filterMap_nil, List.mem_singleton, Prod.mk.injEq] at h
          exact ⟨0, l, rfl, lt_of_not_ge hs, by omega, h.2⟩
      · exact ⟨j + 1, l', by simpa using h1, h2, by omega, h4⟩
    · rintro ⟨j, l', h1, h2, h3, h4⟩
      rcases j with _ | j
      · obtain rfl : l = l' := by simpa using h1
        left
        rw [if_neg (not_le.2 h2)]
        simp [onLayers, h3, h4]
      · right
        exact ⟨j, l', by simpa using h1, h2, by omega, h4⟩

lemma solve_spatial (rec d : ℝ) (s : Flags) : (solve root c rec d s).1.spatial = s.spatial := by
  unfold solve
  split
  · rfl
  · split <;> rfl

lemma solve_layers (rec d : ℝ) (s : Flags) : onLayers (solve root c rec d s).2 = [] := by
  unfold solve
  split
  · rfl
  · split
    · rfl
    · cases root
      · rfl
      · simp only [if_true]
        split <;> rfl

lemma solves_spatial (rec : ℝ) (ds : List ℝ) (s : Flags) : (solves root c rec ds s).1.spatial = s.spatial := by
  induction ds generalizing s with
  | nil => rfl
  | cons d r ih =>
    simp only [solves]
    rw [ih, solve_spatial]

lemma solves_layers (rec : ℝ) (ds : List ℝ) (s : Flags) : onLayers (solves root c rec ds s).2 = [] := by
  induction ds generalizing s with
  | nil => rfl
  | cons d r ih =>
    simp only [solves, onLayers_append, solve_layers, ih, List.append_nil]

/-- Once a wrapper has been built nothing more is printed on layers. -/
lemma silent (es : List Event) (s s' : Flags) (out : List Line) (hs : s.spatial = true) (h : history k c big root es s = some (s', out)) :
    onLayers out = [] := by
  induction es generalizing s out with
  | nil =>
    obtain ⟨-, rfl⟩ : s = s' ∧ ([] : List Line) = out := by simpa [history] using h
    rfl
  | cons e r ih =>
    simp only [history, Option.bind_eq_bind, Option.bind_eq_some_iff, Option.some.injEq, Prod.mk.injEq] at h
    obtain ⟨a, ha, b, hb, rfl, rfl⟩ := h
    rw [onLayers_append]
    have key : a.1.spatial = true ∧ onLayers a.2 = [] := by
      cases e with
      | build ls =>
        obtain rfl := Option.some.inj ha
        rw [build, if_pos hs]
        exact ⟨hs, rfl⟩
      | step ls base dt =>
        simp only [event, Option.map_eq_some_iff] at ha
        obtain ⟨ss, -, rfl⟩ := ha
        exact ⟨by rw [solves_spatial, hs], solves_layers _ _ _⟩
    rw [key.2, ih _ _ key.1 hb, List.nil_append]

/-- **C163, proved part**: whatever else happens in the process, every conducting layer of the first wrapper that is built gets exactly the
verdict it deserves: severe if its segments are not shorter than the skin depth at 1 MHz, and so on.  Missing: the other wrappers. -/
theorem C163_first_partial (ls : List (Layer ℝ (Material ℝ))) (es : List Event) (s : Flags) (out : List Line)
    (h : history k c big root (.build ls :: es) .start = some (s, out)) :
    ∀ i v, (i, v) ∈ onLayers out ↔ ∃ j l, ls[j]? = some l ∧ 0 < l.material.sigma ∧ i = j + 1 ∧ v = verdict (fMax k l) ∧
      (Conductor l → Deserves k l v) := by
  simp only [history, event, Option.bind_eq_bind, Option.bind_some, Option.bind_eq_some_iff, Option.some.injEq, Prod.mk.injEq] at h
  obtain ⟨b, hb, rfl, rfl⟩ := h
  have h1 : build k c big ls .start = (⟨false, true⟩, checkSkinDepth k 0 ls ++ [.recommended (recommended c big ls / c)]) := rfl
  rw [h1] at hb ⊢
  intro i v
  rw [onLayers_append, silent es _ b.1 b.2 rfl hb, List.append_nil, onLayers_append]
  have : onLayers [Line.recommended (recommended c big ls / c)] = [] := rfl
  rw [this, List.append_nil, check_mem]
  constructor
  · rintro ⟨j, l, h1, h2, h3, h4⟩
    exact ⟨j, l, h1, h2, by omega, h4, fun hc => (verdict_iff hc v).1 h4.symm⟩
  · rintro ⟨j, l, h1, h2, h3, h4, -⟩
    exact ⟨j, l, h1, h2, by omega, h4⟩

/-- **C163**: the verdict decides what the layer deserves. -/
theorem C163_verdict {l : Layer ℝ (Material ℝ)} (h : Conductor l) (v : Verdict) : verdict (fMax k l) = v ↔ Deserves k l v := verdict_iff h v

/-- A layer of a conductor with `mu = sigma = 1` in SI units and waves as fast as in vacuum, in one segment of the given length. -/
noncomputable def slab (k : Consts) (w : ℝ) : Layer ℝ (Material ℝ) := ⟨⟨k.mu0, 1 / k.mu0, k.Z0⟩, w, 1, 1, 0⟩

lemma slab_conductor {w : ℝ} (hw : 0 < w) : Conductor (slab k w) :=
  ⟨hw, one_pos, by have := k.mu0_pos; simp only [slab]; positivity, k.Z0_pos⟩

lemma slab_fMax (w : ℝ) : fMax k (slab k w) = 1 / (Real.pi * w * w) := by
  have h1 := k.mu0_pos.ne'
  have h2 := k.Z0_pos.ne'
  simp only [fMax, slab, Nat.cast_one, div_one, div_self h2, one_div, inv_mul_cancel₀ h1, mul_one]

lemma slab_coarse : verdict (fMax k (slab k 1)) = .severe := by
  have hp := Real.pi_gt_three
  have : fMax k (slab k 1) ≤ 1 := by
    rw [slab_fMax, mul_one, mul_one, div_le_one (by linarith)]
    linarith
  unfold verdict
  rw [if_neg (by norm_num; linarith), if_neg (by norm_num; linarith), if_neg (by norm_num; linarith)]

lemma slab_fine : verdict (fMax k (slab k (1 / 10 ^ 6))) = .excellent := by
  have hp := Real.pi_lt_four
  have hp0 := Real.pi_pos
  unfold verdict
  rw [slab_fMax, if_pos]
  rw [gt_iff_lt, lt_div_iff₀ (by positivity)]
  nlinarith

/-- **C163, violated**: a process with two thin layers, the first fine, the second coarser than the skin depth at 1 MHz: nothing is printed on the
second one, and what is printed says that the resolution is outstanding. -/
theorem C163_violated (k : Consts) (c big : ℝ) (root : Bool) : ∃ fine coarse : Layer ℝ (Material ℝ), Conductor fine ∧ Conductor coarse ∧
    Deserves k coarse .severe ∧ ∃ s out, history k c big root [.build [fine], .build [coarse]] .start = some (s, out) ∧
      onLayers out = [(1, .excellent)] := by
  refine ⟨slab k (1 / 10 ^ 6), slab k 1, slab_conductor (by positivity), slab_conductor one_pos, (verdict_iff (slab_conductor one_pos) _).1 slab_coarse,
    _, _, rfl, ?_⟩
  have hz := k.Z0_pos
  have : ¬ (slab k (1 / 10 ^ 6)).material.sigma ≤ 0 := not_le.2 hz
  simp only [build, Flags.start, Bool.false_eq_true, if_false, if_true, List.append_nil, checkSkinDepth, this, slab_fine, onLayers_append]
  rfl

/-- A history that meets the hypotheses: a coarse layer under a fine one, then a fine layer. -/
example (k : Consts) (c big : ℝ) : ∃ s out, history k c big true [.build [slab k (1 / 10 ^ 6), slab k 1], .build [slab k 1]] .start = some (s, out) ∧
    (2, .severe) ∈ onLayers out := by
  refine ⟨_, _, rfl, ?_⟩
  exact (C163_first_partial (root := true) [slab k (1 / 10 ^ 6), slab k 1] [.build [slab k 1]] _ _ rfl 2 .severe).2
    ⟨1, slab k 1, rfl, (slab_conductor one_pos).sigma, rfl, slab_coarse.symm, fun h => (verdict_iff h _).1 slab_coarse⟩

/-! ### steps -/

lemma solves_not_coarse (hc : 0 < c) (rec : ℝ) (ds : List ℝ) (hd : ∀ d ∈ ds, d ≤ rec) (s : Flags) : true ∉ onSteps (solves root c rec ds s).2 := by
  induction ds generalizing s with
  | nil => simp [solves, onSteps]
  | cons d r ih =>
    simp only [solves, onSteps_append, List.mem_append, not_or]
    refine ⟨?_, ih (fun x hx => hd x (List.mem_cons_of_mem _ hx)) _⟩
    unfold solve
    split
    · simp [onSteps]
    · split
      · simp [onSteps]
      · cases root
        · simp [onSteps]
        · simp only [if_true]
          rw [if_neg]
          · simp [onSteps]
          · rw [gt_iff_lt, not_lt]
            exact div_le_div_of_nonneg_right (hd d List.mem_cons_self) hc.le

/-- **C163**: the message on steps longer than recommended is never printed, in no process, though steps longer than recommended are
taken: the message compares the sub-steps. -/
theorem C163_steps_never (hc : 0 < c) (es : List Event) (s0 s : Flags) (out : List Line)
    (hpos : ∀ ls base dt, Event.step ls base dt ∈ es → 0 < dt ∧ 0 < recommended c big ls)
    (h : history k c big root es s0 = some (s, out)) : true ∉ onSteps out := by
  induction es generalizing s0 out with
  | nil =>
    obtain ⟨-, rfl⟩ : s0 = s ∧ ([] : List Line) = out := by simpa [history] using h
    simp [onSteps]
  | cons e r ih =>
    simp only [history, Option.bind_eq_bind, Option.bind_eq_some_iff, Option.some.injEq, Prod.mk.injEq] at h
    obtain ⟨a, ha, b, hb, rfl, rfl⟩ := h
    rw [onSteps_append, List.mem_append, not_or]
    refine ⟨?_, ih _ _ (fun ls base dt hm => hpos ls base dt (List.mem_cons_of_mem _ hm)) hb⟩
    cases e with
    | build ls =>
      obtain rfl := Option.some.inj ha
      unfold build
      split
      · simp [onSteps]
      · rw [onSteps_append, check_steps]
        simp [onSteps]
    | step ls base dt =>
      simp only [event, Option.map_eq_some_iff] at ha
      obtain ⟨ss, hss, rfl⟩ := ha
      obtain ⟨h1, h2⟩ := hpos ls base dt List.mem_cons_self
      refine solves_not_coarse hc _ _ ?_ _
      intro d hd
      obtain ⟨x, hx, rfl⟩ := List.mem_map.1 hd
      exact ((Dgtd.Sgbc.C27_substeps_cover base dt _ h1 ss hss).1 x hx).2.2 h2

lemma slab_recommended (hc : 0 < c) (hb : 1 / 2 ≤ big * c) : recommended c big [slab k 1] = 1 / 2 := by
  have h1 := k.mu0_pos.ne'
  have h2 := hc.ne'
  simp only [recommended, Dgtd.Sgbc.recommendedDt, stepData, slab, List.map_cons, List.map_nil, List.foldl_cons, List.foldl_nil, Dgtd.Sgbc.layerDt]
  rw [if_neg (by norm_num), mul_one_div_cancel h1, Real.sqrt_one, min_eq_right]
  · push_cast; field_simp; norm_num
  · push_cast
    rw [← mul_le_mul_iff_left₀ hc]
    calc _ = (1 / 2 : ℝ) := by field_simp; norm_num
      _ ≤ _ := hb

/-- **C163, violated**: a step twice as long as recommended is taken and the message says that the step is right. -/
theorem C163_steps_violated (k : Consts) (hc : 0 < c) (hb : 1 / 2 ≤ big * c) : ∃ (l : Layer ℝ (Material ℝ)) (dt : ℝ), Conductor l ∧
    recommended c big [l] < dt ∧ ∃ s out, history k c big true [.build [l], .step [l] 0 dt] .start = some (s, out) ∧ onSteps out = [false] := by
  have hr : recommended c big [slab k 1] = 1 / 2 := slab_recommended hc hb
  have hn : subSteps (0 : ℝ) 1 (1 / 2) = some [⟨1 / 2, 0, 1 / 2⟩, ⟨1, 1 / 2, 1 / 2⟩] := by
    have h2 : ⌈(1 : ℝ) / (1 / 2)⌉ = 2 := by
      rw [show (1 : ℝ) / (1 / 2) = ((2 : ℤ) : ℝ) by norm_num, Int.ceil_intCast]
    simp only [subSteps, Dgtd.Sgbc.nSteps, h2]
    rw [show Int.toNat 2 = 2 from rfl]
    norm_num [List.range_succ]
  refine ⟨slab k 1, 1, slab_conductor one_pos, by rw [hr]; norm_num, ?_⟩
  have e2 : ∀ s, s.temporal = false → event k c big true (.step [slab k 1] 0 1) s = some ({ s with temporal := true }, [.ok (1 / 2 / c) (1 / 2 / c)]) := by
    intro s hs
    have h3 : ¬ |(1 / 2 : ℝ)| < 1 / 1000000000 := by norm_num [abs_of_pos]
    simp only [event, hr, hn, Option.map_some, List.map_cons, List.map_nil, solves, solve, h3, if_false, hs, Bool.false_eq_true, if_true, gt_iff_lt,
      lt_irrefl, List.append_nil]
  refine ⟨_, _, by simp only [history, event, Option.bind_eq_bind, Option.bind_some]; rw [← event.eq_2, e2 _ rfl]; rfl, ?_⟩
  simp only [onSteps_append]
  rw [show build k c big [slab k 1] .start = (⟨false, true⟩, checkSkinDepth k 0 [slab k 1] ++ [.recommended (recommended c big [slab k 1] / c)]) from rfl]
  simp only [onSteps_append, check_steps]
  rfl

end Dgtd.SgbcReport
