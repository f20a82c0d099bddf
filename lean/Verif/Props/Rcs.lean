/-
C48–C52 and C68: radar cross section from recorded surface fields.
-/
import Verif.Lemmas.Rcs

set_option linter.unusedSectionVars false
set_option linter.unusedSimpArgs false

namespace Dgtd.Rcs

open Spec

noncomputable section

/-! ### C50 -/

/-- C50 (away from the origin of coordinates): the phase is wave number times projection on the direction of observation;
in two dimensions of the point of the plane. -/
theorem C50_phase_partial (is3D : Bool) (f : ℝ) (p : Fin 3 → ℝ) (a : Angles)
    (h : (if is3D then p else ![p 0, p 1, 0]) ≠ 0) :
    radTerm is3D f p a = some (2 * Real.pi * f * dot (if is3D then p else ![p 0, p 1, 0]) (direction a)) :=
  radTerm_eq is3D f p a h

/-- C50 fails at the origin: the phase there is zero, but the computation divides zero by zero. -/
theorem C50_violated_origin (is3D : Bool) (f : ℝ) (a : Angles) :
    2 * Real.pi * f * dot 0 (direction a) = 0 ∧ radTerm is3D f 0 a = none := by
  refine ⟨by simp [dot], radTerm_none is3D f 0 a ?_⟩
  cases is3D
  · funext i; fin_cases i <;> rfl
  · rfl

example : radTerm true 2 ![1, 0, 0] ⟨Real.pi / 2, 0⟩ = some (4 * Real.pi) := by
  rw [C50_phase_partial true 2 _ _ (by simp)]
  simp [dot, direction]
  ring

/-! ### C51 -/

/-- C51: the three vectors are orthonormal and right-handed, and the third is the direction of observation. -/
theorem C51_frame (a : Angles) :
    dot (thetaHat a) (thetaHat a) = 1 ∧ dot (phiHat a) (phiHat a) = 1 ∧ dot (rHat a) (rHat a) = 1 ∧
    dot (thetaHat a) (phiHat a) = 0 ∧ dot (thetaHat a) (rHat a) = 0 ∧ dot (phiHat a) (rHat a) = 0 ∧
    rHat a = direction a ∧
    rHat a = ![thetaHat a 1 * phiHat a 2 - thetaHat a 2 * phiHat a 1, thetaHat a 2 * phiHat a 0 - thetaHat a 0 * phiHat a 2,
      thetaHat a 0 * phiHat a 1 - thetaHat a 1 * phiHat a 0] := by
  have h1 := Real.sin_sq_add_cos_sq a.theta
  have h2 := Real.sin_sq_add_cos_sq a.phi
  simp only [dot, thetaHat, phiHat, rHat, direction, Matrix.cons_val_zero, Matrix.cons_val_one, Matrix.cons_val]
  refine ⟨by linear_combination h1 + Real.cos a.theta ^ 2 * h2, by linear_combination h2,
    by linear_combination h1 + Real.sin a.theta ^ 2 * h2, by ring,
    by linear_combination Real.sin a.theta * Real.cos a.theta * h2, by ring, trivial, ?_⟩
  funext i
  fin_cases i
  · simp
  · simp
  · simp
    linear_combination -Real.cos a.theta * h2

lemma potRad_eq (is3D : Bool) (f : ℝ) (x : Fin 4 → ℂ) : potRad is3D f x = intensity is3D f x := by
  unfold potRad intensity
  cases is3D
  · simp only [Z0, Complex.normSq_eq_norm_sq, Bool.false_eq_true, if_false, Complex.ofReal_one, one_mul]
    ring
  · simp only [Z0, Complex.normSq_eq_norm_sq, if_true, Complex.ofReal_one, one_mul]
    ring

lemma potRad_nonneg (is3D : Bool) (f : ℝ) (x : Fin 4 → ℂ) : 0 ≤ potRad is3D f x := by
  rw [potRad_eq]
  unfold intensity
  cases is3D <;> simp <;> positivity

lemma envelope_eq (pw : PlaneWave) (h : pw.spread ≠ 0) (t : ℝ) : envelope pw t = some (pulse pw t) := by
  unfold envelope pulse
  rw [if_neg h]
  by_cases hf : pw.frequency = 0
  · simp [hf]
  · simp [hf]

lemma incident_eq (pw : PlaneWave) (h : pw.spread ≠ 0) (times : List ℝ) (ht : times ≠ []) (f : ℝ) :
    incidentPower pw times f = some (incident (pulse pw) times f) := by
  have hl : times.length ≠ 0 := by simpa using ht
  have gen : ∀ (l : List ℝ) (z : ℂ), l.foldlM (fun (acc : ℂ) t => (envelope pw t).map fun e => acc + ((e : ℝ) : ℂ) * kernel f t) z =
      some (z + (l.map fun t => ((pulse pw t : ℝ) : ℂ) * kernel f t).sum) := by
    intro l
    induction l with
    | nil => intro z; simp
    | cons t l ih =>
      intro z
      rw [List.foldlM_cons, envelope_eq pw h]
      simp only [Option.map_some, Option.bind_eq_bind, Option.bind_some]
      rw [ih]
      simp [add_assoc]
  unfold incidentPower incident transform
  rw [if_neg hl, gen]
  simp only [Option.map_some, Option.some.injEq, zero_add, Complex.normSq_eq_norm_sq, Z0, mul_one, List.map_map,
    Function.comp_def, List.length_map, kernel_exp]
  congr 3
  · congr 2
    apply List.map_congr_left
    intro t _
    rw [mul_comm]

lemma incidentPower_nonneg (pw : PlaneWave) (times : List ℝ) (f P : ℝ) (h : incidentPower pw times f = some P) : 0 ≤ P := by
  unfold incidentPower at h
  split at h
  · cases h
  · rw [Option.map_eq_some_iff] at h
    obtain ⟨v, _, rfl⟩ := h
    have := Complex.normSq_nonneg (v / ((times.length : ℝ) : ℂ))
    simp only [Z0]
    positivity

/-- C51: whatever the data, everything written is non-negative: intensities always, cross sections whenever the problem is
three-dimensional or the frequency is not negative. -/
theorem C51_nonneg (is3D : Bool) (maxTime : Option ℝ) (freqsHz : List ℝ) (angles : List Angles) (pw : PlaneWave)
    (ranks : List Rank) (res : List (Angles × List Row)) (h : run is3D maxTime freqsHz angles pw ranks = some res)
    (hf : is3D = true ∨ ∀ f ∈ freqsHz, 0 ≤ f) :
    ∀ p ∈ res, ∀ r ∈ p.2, 0 ≤ r.pot ∧ ∀ x, r.rcs = some x → 0 ≤ x := by
  unfold run at h
  split at h
  · cases h
  · cases h
  · split at h
    · rw [Option.map_eq_some_iff] at h
      obtain ⟨acc, _, rfl⟩ := h
      intro p hp r hr
      obtain ⟨a, ha, rfl⟩ := List.mem_map.1 hp
      obtain ⟨f, hfm, rfl⟩ := List.mem_map.1 hr
      refine ⟨potRad_nonneg _ _ _, ?_⟩
      intro x hx
      simp only [row] at hx
      rw [Option.bind_eq_some_iff] at hx
      obtain ⟨P, hP, hx⟩ := hx
      have hP0 := incidentPower_nonneg _ _ _ _ hP
      have hpot := potRad_nonneg is3D f (acc (a, f))
      have hpi := Real.pi_pos
      unfold rcs at hx
      cases is3D with
      | true =>
        simp only [if_true] at hx
        split at hx
        · cases hx
        · cases hx; positivity
      | false =>
        simp only [Bool.false_eq_true, if_false] at hx
        obtain ⟨g, hg, rfl⟩ := List.mem_map.1 hfm
        have hg0 : 0 ≤ g := by
          rcases hf with hf | hf
          · cases hf
          · exact hf g hg
        have : 0 ≤ normFreq g := by unfold normFreq cSI; positivity
        split at hx
        · cases hx
        · cases hx; positivity
    · cases h

/-! ### C52 -/

/-- C52: the transform is linear in the recorded data. -/
theorem C52_linear (x y : ℝ) (u v : List Snapshot) (ht : u.map Snapshot.time = v.map Snapshot.time) (f : ℝ) (c : Fin 6) (d : Nat)
    (U V : ℂ) (hu : dft u f c d = some U) (hv : dft v f c d = some V) :
    dft (List.zipWith (combine x y) u v) f c d = some (x * U + y * V) := by
  have hlen : u.length = v.length := by simpa using congrArg List.length ht
  have hune : u ≠ [] := by rintro rfl; simp [dft] at hu
  have hvne : v ≠ [] := by rintro rfl; simp [dft] at hv
  have hz : List.zipWith (combine x y) u v ≠ [] := by
    intro hc
    have := congrArg List.length hc
    simp [hlen] at this
    exact hvne this
  rw [dft_eq u hune] at hu
  rw [dft_eq v hvne] at hv
  rw [dft_eq _ hz]
  cases hu
  cases hv
  simp only [Option.some.injEq]
  unfold transform
  simp only [List.map_map, List.length_map, Function.comp_def, List.length_zipWith, hlen, min_self]
  rw [← mul_div_assoc, ← mul_div_assoc, ← add_div]
  congr 1
  clear hune hvne hz
  induction u generalizing v with
  | nil => cases v with
    | nil => simp
    | cons t v => simp at hlen
  | cons s u ih =>
    cases v with
    | nil => simp at hlen
    | cons t v =>
      simp only [List.map_cons, List.cons.injEq] at ht
      simp only [List.zipWith_cons_cons, List.map_cons, List.sum_cons]
      rw [ih v ht.2 (by simpa using hlen)]
      simp only [combine, ht.1]
      push_cast
      ring

example : ([⟨0, fun _ _ => 1⟩, ⟨1, fun _ _ => 2⟩] : List Snapshot).map Snapshot.time =
    ([⟨0, fun _ _ => 5⟩, ⟨1, fun _ _ => 6⟩] : List Snapshot).map Snapshot.time := rfl

lemma execOps_filter {V : Type} (upd : Nat → Nat → V → V) (fi : Nat) (ops : List Op) (ff : Nat → V) :
    execOps upd ops ff fi = (ops.filter fun o => o.fi = fi).foldl (fun x o => upd o.t o.fi x) (ff fi) := by
  unfold execOps
  induction ops generalizing ff with
  | nil => rfl
  | cons o ops ih =>
    rw [List.foldl_cons, ih, List.filter_cons]
    by_cases h : o.fi = fi
    · subst h; simp
    · simp [h, Function.update_of_ne (Ne.symm h)]

lemma filter_range_eq (n fi : Nat) (h : fi < n) : (List.range n).filter (fun g => decide (g = fi)) = [fi] := by
  rw [List.filter_eq, List.count_eq_one_of_mem List.nodup_range (List.mem_range.2 h)]
  rfl

lemma program_filter (nSnap nFreq : Nat) (owner : Nat → Nat) (fi : Nat) (h : fi < nFreq) :
    (program nSnap nFreq owner (owner fi)).filter (fun o => o.fi = fi) =
      (List.range nSnap).map fun t => ⟨owner fi, t, fi⟩ := by
  unfold program
  rw [List.filter_flatMap]
  rw [← List.flatMap_pure_eq_map]
  congr 1
  funext t
  rw [List.filter_map, List.filter_filter]
  have : ((List.range nFreq).filter fun a => ((fun o : Op => decide (o.fi = fi)) ∘ fun g => ⟨owner fi, t, g⟩) a &&
      decide (owner a = owner fi)) = [fi] := by
    rw [← filter_range_eq nFreq fi h]
    apply List.filter_congr
    intro g _
    by_cases hg : g = fi
    · subst hg; simp
    · simp [hg]
  rw [this]
  rfl

/-- C52: whatever is stored per frequency and however it is updated (rounding included), any interleaving of the threads
leaves at each frequency the result of processing the snapshots one after the other.  In particular the number of threads and
the assignment of frequencies to them do not matter. -/
theorem C52_schedule {V : Type} (upd : Nat → Nat → V → V) (nSnap nFreq : Nat) (owner : Nat → Nat) (ops : List Op)
    (h : Interleaving nSnap nFreq owner ops) (ff : Nat → V) (fi : Nat) (hf : fi < nFreq) :
    execOps upd ops ff fi = (List.range nSnap).foldl (fun x t => upd t fi x) (ff fi) := by
  rw [execOps_filter]
  have hall : ∀ o ∈ ops, o.fi = fi → o.thread = owner fi := by
    intro o ho hfi
    have : o ∈ ops.filter (fun p => p.thread = o.thread) := List.mem_filter.2 ⟨ho, by simp⟩
    rw [h o.thread] at this
    unfold program at this
    obtain ⟨t, _, ht⟩ := List.mem_flatMap.1 this
    obtain ⟨g, hg, hgo⟩ := List.mem_map.1 ht
    have hown := (List.mem_filter.1 hg).2
    have hgf : g = fi := by rw [← hfi, ← hgo]
    rw [hgf] at hown
    simpa using (of_decide_eq_true hown).symm
  have : ops.filter (fun o => o.fi = fi) = (ops.filter fun o => o.thread = owner fi).filter fun o => o.fi = fi := by
    rw [List.filter_filter]
    apply List.filter_congr
    intro o ho
    by_cases hfi : o.fi = fi
    · simp [hfi, hall o ho hfi]
    · simp [hfi]
  rw [this, h (owner fi), program_filter nSnap nFreq owner fi hf, List.foldl_map]

/-- Two threads, two times, two frequencies; the second thread runs ahead. -/
example : Interleaving 2 2 (fun fi => fi) [⟨1, 0, 1⟩, ⟨1, 1, 1⟩, ⟨0, 0, 0⟩, ⟨0, 1, 0⟩] := by
  intro th
  by_cases h0 : th = 0
  · subst h0; decide
  by_cases h1 : th = 1
  · subst h1; decide
  · have e0 : ¬ 0 = th := fun h => h0 h.symm
    have e1 : ¬ 1 = th := fun h => h1 h.symm
    simp [program, List.range_succ, e0, e1]

/-! ### C49 -/

lemma filterTime_some (m : ℝ) (snaps : List Snapshot) :
    filterTime (some m) snaps = if snaps.filter (fun s => decide (s.time ≤ m)) = [] then none
      else some (snaps.filter fun s => decide (s.time ≤ m)) := by
  have : snaps.filter (fun s => !decide (s.time > m)) = snaps.filter fun s => decide (s.time ≤ m) := by
    apply List.filter_congr
    intro s _
    rw [← decide_not, decide_eq_decide, not_lt]
  unfold filterTime
  simp only [this]
  split
  · next h => rw [if_pos h]
  · next h => rw [if_neg (by rw [h]; simp), h]

/-- C49: the filter returns the recordings not later than the limit, in order, and fails exactly if there is none. -/
theorem C49_filter (m : ℝ) (snaps : List Snapshot) :
    (∀ l, filterTime (some m) snaps = some l →
      l.Sublist snaps ∧ l ≠ [] ∧ (∀ s ∈ l, s.time ≤ m) ∧ ∀ s ∈ snaps, s.time ≤ m → s ∈ l) ∧
    (filterTime (some m) snaps = none ↔ ∀ s ∈ snaps, m < s.time) := by
  rw [filterTime_some]
  constructor
  · intro l hl
    split at hl
    · cases hl
    · next hne =>
      cases hl
      refine ⟨List.filter_sublist, hne, fun s hs => by simpa using (List.mem_filter.1 hs).2, fun s hs ht => ?_⟩
      exact List.mem_filter.2 ⟨hs, by simpa using ht⟩
  · constructor
    · intro h s hs
      split at h
      · next he =>
        rw [List.filter_eq_nil_iff] at he
        simpa using he s hs
      · cases h
    · intro h
      rw [if_pos]
      rw [List.filter_eq_nil_iff]
      intro s hs
      simpa using h s hs

lemma mapM_some {A B : Type} (g : A → Option B) (k : A → B) (l : List A) (h : ∀ x ∈ l, g x = some (k x)) :
    l.mapM g = some (l.map k) := by
  induction l with
  | nil => rfl
  | cons x l ih =>
    rw [List.mapM_cons, h x (by simp), ih (fun y hy => h y (List.mem_cons_of_mem _ hy))]
    rfl

lemma mapM_none {A B : Type} (g : A → Option B) (l : List A) (x : A) (hx : x ∈ l) (h : g x = none) : l.mapM g = none := by
  induction l with
  | nil => cases hx
  | cons y l ih =>
    rw [List.mapM_cons]
    rcases List.mem_cons.1 hx with rfl | hx
    · rw [h]; rfl
    · cases hg : g y with
      | none => rfl
      | some z => rw [ih hx]; rfl

/-- C49: a limit in the request has the effect of cutting the recordings of all ranks at that time. -/
theorem C49_run (is3D : Bool) (m : ℝ) (freqsHz : List ℝ) (angles : List Angles) (pw : PlaneWave) (ranks : List Rank)
    (h : ∀ R ∈ ranks, ∃ s ∈ R.snaps, s.time ≤ m) :
    run is3D (some m) freqsHz angles pw ranks = run is3D none freqsHz angles pw (ranks.map (upTo m)) := by
  have h1 : ranks.mapM (filterRank (some m)) = some (ranks.map (upTo m)) := by
    apply mapM_some
    intro R hR
    obtain ⟨s, hs, hm⟩ := h R hR
    unfold filterRank
    rw [filterTime_some, if_neg]
    · rfl
    · rw [List.filter_eq_nil_iff]
      intro hc
      exact hc s hs (by simpa using hm)
  have h2 : (ranks.map (upTo m)).mapM (filterRank none) = some (ranks.map (upTo m)) := by
    rw [mapM_some _ id]
    · simp
    · intro R _; rfl
  unfold run
  rw [h1, h2]

/-- C49: it fails if the recording of some rank starts later. -/
theorem C49_error (is3D : Bool) (m : ℝ) (freqsHz : List ℝ) (angles : List Angles) (pw : PlaneWave) (ranks : List Rank) (R : Rank)
    (hR : R ∈ ranks) (h : ∀ s ∈ R.snaps, m < s.time) : run is3D (some m) freqsHz angles pw ranks = none := by
  unfold run
  rw [mapM_none _ ranks R hR]
  unfold filterRank
  rw [(C49_filter m R.snaps).2.2 h]
  rfl

/-! ### C48 and C68 -/

lemma filterRank_none (ranks : List Rank) : ranks.mapM (filterRank none) = some ranks := by
  rw [mapM_some _ id]
  · simp
  · intro R _; rfl

/-- The result, in terms of the whole surface: every requested line carries `(occurrences)²` times the intensity of the
surface. -/
theorem run_eq (is3D : Bool) (freqsHz : List ℝ) (angles : List Angles) (pw : PlaneWave) (ranks : List Rank)
    (hne : ranks ≠ []) (hang : anglesOk is3D angles) (hwf : ∀ R ∈ ranks, WF R) (T : List ℝ) (hT : T ≠ [])
    (ht : ∀ R ∈ ranks, R.snaps.map Snapshot.time = T) (h : AwayFromOrigin is3D ranks) :
    ∃ acc : Acc, run is3D none freqsHz angles pw ranks =
      some (angles.map fun a => (a, (freqsHz.map normFreq).map (row is3D pw T acc a))) ∧
      ∀ a f, acc (a, f) = (occ f (freqsHz.map normFreq) * occ a angles) • farField (samples is3D ranks) f a := by
  have hs : ∀ R ∈ ranks, R.snaps ≠ [] := by
    intro R hR hc
    have := ht R hR
    rw [hc] at this
    exact hT this.symm
  obtain ⟨acc, e1, e2⟩ := coherentSum_eq is3D (freqsHz.map normFreq) angles ranks hwf hs h
  refine ⟨acc, ?_, e2⟩
  unfold run
  rw [filterRank_none]
  cases ranks with
  | nil => exact absurd rfl hne
  | cons R Rs =>
    simp only
    rw [if_pos hang, e1]
    have : R.snaps.map (fun s => s.time / c0) = T := by
      rw [← ht R (by simp)]
      simp [c0]
    simp only [Option.map_some, this]

lemma samples_upTo (is3D : Bool) (m : ℝ) (ranks : List Rank) :
    samples is3D (ranks.map (upTo m)) =
      (samples is3D ranks).map fun s => { s with series := s.series.filter fun p => decide (p.1 ≤ m) } := by
  unfold samples samplesOf
  simp only [List.flatMap_map, List.map_flatMap, List.map_map, upTo]
  congr 1
  funext R
  congr 1
  funext G
  apply List.map_congr_left
  intro q _
  simp only [Function.comp_def, sampleOf, List.filter_map]

lemma farField_perm (l m : List Sample) (h : l.Perm m) (f : ℝ) (a : Angles) : farField l f a = farField m f a := by
  unfold farField N L
  rw [(h.map _).sum_eq, (h.map fun s => -(phase f a s.pos • cross s.area (s.E f))).sum_eq]

lemma times_upTo (m : ℝ) (R : Rank) : (upTo m R).snaps.map Snapshot.time =
    (R.snaps.map Snapshot.time).filter fun t => decide (t ≤ m) := by
  simp [upTo, List.filter_map, Function.comp_def]

lemma split_none (is3D : Bool) (freqsHz : List ℝ) (angles : List Angles) (pw : PlaneWave) (r₁ r₂ : List Rank)
    (hne₁ : r₁ ≠ []) (hne₂ : r₂ ≠ []) (hwf₁ : ∀ R ∈ r₁, WF R) (hwf₂ : ∀ R ∈ r₂, WF R) (T : List ℝ) (hT : T ≠ [])
    (ht₁ : ∀ R ∈ r₁, R.snaps.map Snapshot.time = T) (ht₂ : ∀ R ∈ r₂, R.snaps.map Snapshot.time = T)
    (haway : AwayFromOrigin is3D r₁) (hperm : (samples is3D r₁).Perm (samples is3D r₂)) :
    run is3D none freqsHz angles pw r₁ = run is3D none freqsHz angles pw r₂ := by
  have haway₂ : AwayFromOrigin is3D r₂ := fun s hs => haway s (hperm.symm.subset hs)
  by_cases hang : anglesOk is3D angles
  · obtain ⟨acc₁, e₁, f₁⟩ := run_eq is3D freqsHz angles pw r₁ hne₁ hang hwf₁ T hT ht₁ haway
    obtain ⟨acc₂, e₂, f₂⟩ := run_eq is3D freqsHz angles pw r₂ hne₂ hang hwf₂ T hT ht₂ haway₂
    have : acc₁ = acc₂ := by
      funext ⟨a, f⟩
      rw [f₁, f₂, farField_perm _ _ hperm]
    rw [e₁, e₂, this]
  · unfold run
    rw [filterRank_none, filterRank_none]
    cases r₁ with
    | nil => exact absurd rfl hne₁
    | cons R Rs => cases r₂ with
      | nil => exact absurd rfl hne₂
      | cons S Ss => simp only; rw [if_neg hang, if_neg hang]

/-- C48: two ways of distributing the same surface samples (position, normal, recorded history) among ranks, in any order,
give the same files, for any request and time limit.  Numbers of ranks, elements per rank, numbering of degrees of freedom and
order of faces may all differ. -/
theorem C48_split (is3D : Bool) (maxTime : Option ℝ) (freqsHz : List ℝ) (angles : List Angles) (pw : PlaneWave) (r₁ r₂ : List Rank)
    (hne₁ : r₁ ≠ []) (hne₂ : r₂ ≠ []) (hwf₁ : ∀ R ∈ r₁, WF R) (hwf₂ : ∀ R ∈ r₂, WF R) (T : List ℝ) (hT : T ≠ [])
    (ht₁ : ∀ R ∈ r₁, R.snaps.map Snapshot.time = T) (ht₂ : ∀ R ∈ r₂, R.snaps.map Snapshot.time = T)
    (haway : AwayFromOrigin is3D r₁) (hperm : (samples is3D r₁).Perm (samples is3D r₂)) :
    run is3D maxTime freqsHz angles pw r₁ = run is3D maxTime freqsHz angles pw r₂ := by
  cases maxTime with
  | none => exact split_none is3D freqsHz angles pw r₁ r₂ hne₁ hne₂ hwf₁ hwf₂ T hT ht₁ ht₂ haway hperm
  | some m =>
    by_cases hm : ∃ t ∈ T, t ≤ m
    · have ex : ∀ (r : List Rank), (∀ R ∈ r, R.snaps.map Snapshot.time = T) → ∀ R ∈ r, ∃ s ∈ R.snaps, s.time ≤ m := by
        intro r hr R hR
        obtain ⟨t, htT, htm⟩ := hm
        rw [← hr R hR] at htT
        obtain ⟨s, hs, rfl⟩ := List.mem_map.1 htT
        exact ⟨s, hs, htm⟩
      rw [C49_run _ _ _ _ _ _ (ex r₁ ht₁), C49_run _ _ _ _ _ _ (ex r₂ ht₂)]
      apply split_none is3D freqsHz angles pw _ _ (by simpa using hne₁) (by simpa using hne₂) ?_ ?_
        (T.filter fun t => decide (t ≤ m)) ?_ ?_ ?_ ?_ ?_
      · intro R hR; obtain ⟨R', hR', rfl⟩ := List.mem_map.1 hR; exact hwf₁ R' hR'
      · intro R hR; obtain ⟨R', hR', rfl⟩ := List.mem_map.1 hR; exact hwf₂ R' hR'
      · obtain ⟨t, htT, htm⟩ := hm
        intro hc
        have : t ∈ T.filter fun t => decide (t ≤ m) := List.mem_filter.2 ⟨htT, by simpa using htm⟩
        rw [hc] at this
        cases this
      · intro R hR; obtain ⟨R', hR', rfl⟩ := List.mem_map.1 hR; rw [times_upTo, ht₁ R' hR']
      · intro R hR; obtain ⟨R', hR', rfl⟩ := List.mem_map.1 hR; rw [times_upTo, ht₂ R' hR']
      · intro s hs
        rw [samples_upTo] at hs
        obtain ⟨s', hs', rfl⟩ := List.mem_map.1 hs
        exact haway s' hs'
      · rw [samples_upTo, samples_upTo]
        exact hperm.map _
    · have err : ∀ r : List Rank, r ≠ [] → (∀ R ∈ r, R.snaps.map Snapshot.time = T) →
          run is3D (some m) freqsHz angles pw r = none := by
        intro r hr ht
        obtain ⟨R, l, rfl⟩ := List.exists_cons_of_ne_nil hr
        apply C49_error _ _ _ _ _ _ R (by simp)
        intro s hs
        by_contra hc
        exact hm ⟨s.time, by rw [← ht R (by simp)]; exact List.mem_map_of_mem hs, by linarith⟩
      rw [err r₁ hne₁ ht₁, err r₂ hne₂ ht₂]

lemma normFreq_inj {f g : ℝ} (h : normFreq f = normFreq g) : f = g := by
  unfold normFreq cSI at h
  linarith

/-- C48, C68 (requests without repetitions): the files contain, for each requested direction and frequency, the intensity and
the cross section of the whole surface. -/
theorem C48_far_field (is3D : Bool) (freqsHz : List ℝ) (angles : List Angles) (pw : PlaneWave) (ranks : List Rank)
    (hne : ranks ≠ []) (hang : anglesOk is3D angles) (hwf : ∀ R ∈ ranks, WF R) (T : List ℝ) (hT : T ≠ [])
    (ht : ∀ R ∈ ranks, R.snaps.map Snapshot.time = T) (h : AwayFromOrigin is3D ranks) (hpw : pw.spread ≠ 0)
    (hinc : ∀ f ∈ freqsHz, f ≠ 0 ∧ incident (pulse pw) T (normFreq f) ≠ 0)
    (hfn : freqsHz.Nodup) (han : angles.Nodup) :
    run is3D none freqsHz angles pw ranks = some (angles.map fun a => (a, freqsHz.map fun f =>
      let U := intensity is3D (normFreq f) (farField (samples is3D ranks) (normFreq f) a)
      { freqHz := f
        pot := U
        rcs := some (crossSection is3D (normFreq f) (incident (pulse pw) T (normFreq f)) U)
        norm := if is3D then (1 / normFreq f) ^ 2 else 1 / normFreq f })) := by
  obtain ⟨acc, e, hacc⟩ := run_eq is3D freqsHz angles pw ranks hne hang hwf T hT ht h
  rw [e, Option.some.injEq]
  apply List.map_congr_left
  intro a ha
  simp only [Prod.mk.injEq, true_and, List.map_map]
  apply List.map_congr_left
  intro f hf
  obtain ⟨hf0, hP⟩ := hinc f hf
  have hn : (freqsHz.map normFreq).Nodup := hfn.map fun _ _ => normFreq_inj
  have h1 : acc (a, normFreq f) = farField (samples is3D ranks) (normFreq f) a := by
    rw [hacc, occ_nodup _ _ hn (List.mem_map_of_mem hf), occ_nodup _ _ han ha]
    simp
  have hnf : normFreq f ≠ 0 := by unfold normFreq cSI; positivity
  simp only [Function.comp_def, row, h1, potRad_eq, incident_eq pw hpw T hT, Option.bind_some, Row.mk.injEq]
  refine ⟨by unfold normFreq cSI; field_simp, trivial, ?_, ?_⟩
  · unfold rcs crossSection
    have hpi := Real.pi_ne_zero
    cases is3D with
    | true => simp [hP]; ring
    | false => simp [hP, hnf, hpi]; ring
  · cases is3D <;> simp [c0, pow_two]

/-- C68 fails: a direction (or frequency) requested several times gets the square of the number of repetitions as a factor. -/
theorem C68_repetition_scales (is3D : Bool) (freqsHz : List ℝ) (angles : List Angles) (pw : PlaneWave) (ranks : List Rank)
    (hne : ranks ≠ []) (hang : anglesOk is3D angles) (hwf : ∀ R ∈ ranks, WF R) (T : List ℝ) (hT : T ≠ [])
    (ht : ∀ R ∈ ranks, R.snaps.map Snapshot.time = T) (h : AwayFromOrigin is3D ranks) :
    ∃ res, run is3D none freqsHz angles pw ranks = some res ∧ res.map Prod.fst = angles ∧
      ∀ p ∈ res, p.2.map Row.pot = freqsHz.map fun f =>
        ((occ f freqsHz * occ p.1 angles : ℕ) : ℝ) ^ 2 * intensity is3D (normFreq f) (farField (samples is3D ranks) (normFreq f) p.1) := by
  obtain ⟨acc, e, hacc⟩ := run_eq is3D freqsHz angles pw ranks hne hang hwf T hT ht h
  refine ⟨_, e, by simp [Function.comp_def], ?_⟩
  intro p hp
  obtain ⟨a, ha, rfl⟩ := List.mem_map.1 hp
  simp only [List.map_map]
  apply List.map_congr_left
  intro f hf
  have ho : occ (normFreq f) (freqsHz.map normFreq) = occ f freqsHz := by
    classical
    unfold occ
    exact List.count_map_of_injective _ _ (fun _ _ => normFreq_inj) _
  simp only [Function.comp_def, row, hacc, potRad_eq, ho]
  unfold intensity
  generalize occ f freqsHz * occ a angles = n
  set x := farField (samples is3D ranks) (normFreq f) a
  have e1 : ‖(n • x) 3 + (n • x) 0‖ ^ 2 = (n : ℝ) ^ 2 * ‖x 3 + x 0‖ ^ 2 := by
    rw [Pi.smul_apply, Pi.smul_apply, ← smul_add, nsmul_eq_mul, norm_mul, mul_pow]
    simp
  have e2 : ‖(n • x) 2 - (n • x) 1‖ ^ 2 = (n : ℝ) ^ 2 * ‖x 2 - x 1‖ ^ 2 := by
    rw [Pi.smul_apply, Pi.smul_apply, ← smul_sub, nsmul_eq_mul, norm_mul, mul_pow]
    simp
  rw [e1, e2]
  ring

/-! ### concrete cases -/

/-- One snapshot at time zero with `H_z = 1`. -/
def exSnap : Snapshot := ⟨0, fun c _ => if c = 5 then 1 else 0⟩
def exFace (pos : Fin 3 → ℝ) (d : Nat) : Face := ⟨1, fun _ => d, [⟨pos, pos, 1, fun _ => 1⟩]⟩
def exRank : Rank := ⟨1, [exFace ![1, 0, 0] 0], [exSnap]⟩

lemma exRank_samples : samples true [exRank] = [⟨![1, 0, 0], ![1, 0, 0], [(0, fun c => if c = 5 then 1 else 0)]⟩] := by
  simp [samples, samplesOf, exRank, exFace, sampleOf, exSnap]

/-- The same surface on one rank and on two, in another order and numbering. -/
example : run true (some 3) [1000000, 2000000] [⟨0, 0⟩, ⟨1, 2⟩] ⟨1, -5, 0⟩
      [⟨2, [exFace ![1, 0, 0] 0, exFace ![0, 1, 0] 1], [exSnap]⟩] =
    run true (some 3) [1000000, 2000000] [⟨0, 0⟩, ⟨1, 2⟩] ⟨1, -5, 0⟩
      [⟨1, [exFace ![0, 1, 0] 0], [exSnap]⟩, ⟨1, [exFace ![1, 0, 0] 0], [exSnap]⟩] := by
  apply C48_split true (some 3) _ _ _ _ _ (by simp) (by simp) ?_ ?_ [0] (by simp) ?_ ?_ ?_ ?_
  · intro R hR
    simp only [List.mem_singleton] at hR
    subst hR
    intro G hG i hi
    simp only [List.mem_cons, List.not_mem_nil, or_false] at hG
    rcases hG with rfl | rfl <;> simp [exFace]
  · intro R hR
    simp only [List.mem_cons, List.not_mem_nil, or_false] at hR
    rcases hR with rfl | rfl <;> intro G hG i hi <;> simp only [List.mem_singleton] at hG <;> subst hG <;> simp [exFace]
  · intro R hR; simp only [List.mem_singleton] at hR; subst hR; rfl
  · intro R hR
    simp only [List.mem_cons, List.not_mem_nil, or_false] at hR
    rcases hR with rfl | rfl <;> rfl
  · intro s hs
    simp [samples, samplesOf, exFace, sampleOf] at hs
    rcases hs with rfl | rfl <;> simp
  · simp [samples, samplesOf, exFace, sampleOf, exSnap]
    exact List.Perm.swap _ _ _

lemma ex_far (f : ℝ) : (farField (samples true [exRank]) f ⟨Real.pi / 2, 0⟩) 2 = 0 ∧
    ‖(farField (samples true [exRank]) f ⟨Real.pi / 2, 0⟩) 1‖ = 1 := by
  rw [exRank_samples]
  constructor
  · simp [farField, L, along, eTheta, cross, Sample.E, transform]
  · simp only [farField, N, along, ePhi, cross, Sample.H, transform, phase, List.map_cons, List.map_nil, List.sum_cons, List.sum_nil]
    simp
    rw [← Complex.ofReal_ofNat, ← Complex.ofReal_mul, ← Complex.ofReal_mul]
    norm_cast
    exact Complex.norm_exp_ofReal_mul_I _

lemma ex_intensity : 0 < intensity true (normFreq cSI) (farField (samples true [exRank]) (normFreq cSI) ⟨Real.pi / 2, 0⟩) := by
  obtain ⟨h2, h1⟩ := ex_far (normFreq cSI)
  unfold intensity
  rw [h2, zero_sub, norm_neg, h1]
  have : normFreq cSI = 1 := by unfold normFreq cSI; norm_num
  rw [this]
  have := Real.pi_pos
  simp only [if_true]
  positivity

/-- C68 fails: asking for the same direction twice multiplies the intensity written for it by four. -/
theorem C68_violated : ∃ (a : Angles) (ranks : List Rank) (pw : PlaneWave) (r r' r'' : Row),
    run true none [cSI] [a] pw ranks = some [(a, [r])] ∧
    run true none [cSI] [a, a] pw ranks = some [(a, [r']), (a, [r''])] ∧
    0 < r.pot ∧ r'.pot = 4 * r.pot ∧ r''.pot = 4 * r.pot := by
  have hwf : ∀ R ∈ [exRank], WF R := by
    intro R hR
    simp only [List.mem_singleton] at hR
    subst hR
    intro G hG i hi
    simp only [exRank, List.mem_singleton] at hG
    subst hG
    simp [exFace, exRank]
  have ht : ∀ R ∈ [exRank], R.snaps.map Snapshot.time = [0] := by
    intro R hR; simp only [List.mem_singleton] at hR; subst hR; rfl
  have haway : AwayFromOrigin true [exRank] := by
    intro s hs
    rw [exRank_samples] at hs
    simp only [List.mem_singleton] at hs
    subst hs
    simp
  obtain ⟨acc₁, e₁, f₁⟩ := run_eq true [cSI] [⟨Real.pi / 2, 0⟩] ⟨1, -5, 0⟩ [exRank] (by simp) (Or.inl rfl) hwf [0] (by simp) ht haway
  obtain ⟨acc₂, e₂, f₂⟩ := run_eq true [cSI] [⟨Real.pi / 2, 0⟩, ⟨Real.pi / 2, 0⟩] ⟨1, -5, 0⟩ [exRank] (by simp) (Or.inl rfl) hwf [0]
    (by simp) ht haway
  refine ⟨⟨Real.pi / 2, 0⟩, [exRank], ⟨1, -5, 0⟩, _, _, _, e₁, e₂, ?_, ?_, ?_⟩
  · have : acc₁ (⟨Real.pi / 2, 0⟩, normFreq cSI) = farField (samples true [exRank]) (normFreq cSI) ⟨Real.pi / 2, 0⟩ := by
      rw [f₁]; simp [occ]
    simp only [row, this, potRad_eq]
    exact ex_intensity
  all_goals
    have h1 : acc₁ (⟨Real.pi / 2, 0⟩, normFreq cSI) = farField (samples true [exRank]) (normFreq cSI) ⟨Real.pi / 2, 0⟩ := by
      rw [f₁]; simp [occ]
    have h2 : acc₂ (⟨Real.pi / 2, 0⟩, normFreq cSI) = (2 : ℂ) • farField (samples true [exRank]) (normFreq cSI) ⟨Real.pi / 2, 0⟩ := by
      rw [f₂, two_smul]; simp [occ, two_smul]
    simp only [row, h1, h2, potRad_eq]
    unfold intensity
    simp only [Pi.smul_apply, ← smul_add, ← smul_sub, norm_smul, mul_pow]
    norm_num
    ring

end

end Dgtd.Rcs
