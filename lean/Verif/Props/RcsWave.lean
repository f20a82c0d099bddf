/-
C95: the wave that normalises the cross sections.
-/
import Verif.Model.RcsWave
import Verif.Props.RcsDriver
import Verif.Props.Delay

namespace Dgtd.Rcs
open Dgtd.Wave (V3 Planewave)

noncomputable section

lemma minPhase_eq (l : List ℝ) : minPhase l = Wave.minOrZero l := by
  cases l with
  | nil => rfl
  | cons a l => simp only [minPhase, Wave.minOrZero, List.min?_cons', Option.getD_some]

lemma projMean_rcsSource (e : WaveEntry) (hd : Wave.norm e.prop ≠ 0) (h : e.mean ≠ none ∨ e.elems ≠ none) :
    projMean e.rcsSource = Wave.projMean e.solverMean e.prop := by
  unfold projMean WaveEntry.rcsSource WaveEntry.solverMean
  cases hm : e.mean with
  | some m =>
    simp only [Option.map_some, Wave.projMean, Wave.dot]
    field_simp
  | none =>
    cases he : e.elems with
    | none => simp_all
    | some l =>
      simp only [Option.map_none, Option.map_some]
      rw [Wave.projMean_auto _ _ hd, minPhase_eq]

/-- **C95** (partial): if the case has one plane wave, with a mean or tags, and the wave has not passed the origin at the
beginning of the run, the pulse used to normalise is the electric field that the solver launches, seen at the origin.
Missing: waves whose mean lies downstream of the origin (`C95_violated_downstream`), and several waves
(`C95_violated_several`). -/
theorem C95_same_wave_partial (before after : List JsonSource) (hb : ∀ s ∈ before, s.planewave = false)
    (ha : ∀ s ∈ after, s.planewave = false) (e : WaveEntry) (hs : e.spread ≠ 0)
    (hme : e.mean ≠ none ∨ e.elems ≠ none) (w : Planewave) (hw : e.solverWave = some w)
    (hup : Wave.dot e.solverMean e.prop ≤ 0) (pw : PlaneWave)
    (hpw : buildPlaneWaveData (before ++ e.rcsSource :: after) = some pw) (t : ℝ) :
    ∃ v, envelope pw t = some v ∧ ∀ d, w.eval [0, 0, 0] t .E d = v * w.pol d := by
  have hd : Wave.norm e.prop ≠ 0 := by
    unfold WaveEntry.solverWave Wave.buildPlanewave at hw
    cases hf : e.freqHz <;> rw [hf] at hw <;> exact (Wave.make_unit hw).2.2
  have hm := projMean_rcsSource e hd hme
  have hneg : Wave.projMean e.solverMean e.prop ≤ 0 :=
    div_nonpos_of_nonpos_of_nonneg hup (Real.sqrt_nonneg _)
  have hl : ∀ (l : List JsonSource) (pw : PlaneWave), (∀ s ∈ l, s.planewave = false) → l.foldl planeWaveLoop pw = pw := by
    intro l
    induction l with
    | nil => intro pw _; rfl
    | cons s l ih =>
      intro pw hs
      rw [List.foldl_cons, show planeWaveLoop pw s = pw from by simp [planeWaveLoop, hs s (by simp)]]
      exact ih pw fun s' h' => hs s' (List.mem_cons_of_mem _ h')
  unfold buildPlaneWaveData at hpw
  rw [List.foldl_append, List.foldl_cons, hl after _ ha, hl before _ hb] at hpw
  simp only at hpw
  split at hpw
  · cases hpw
  cases hpw
  have hpl : e.rcsSource.planewave = true := rfl
  have hsp : e.rcsSource.spread = e.spread := rfl
  have hfr : e.rcsSource.frequencyHz = e.freqHz := rfl
  simp only [planeWaveLoop, hpl, if_true, hsp, hfr, hm]
  unfold envelope
  rw [if_neg (by simpa using hs)]
  refine ⟨_, rfl, ?_⟩
  intro d
  unfold WaveEntry.solverWave Wave.buildPlanewave at hw
  generalize Wave.projMean e.solverMean e.prop = m at *
  simp only
  rw [abs_of_nonpos hneg]
  have hpad : ∀ k, Wave.dot (Wave.pad [0, 0, 0]) k = 0 := by intro k; simp [Wave.dot, Wave.pad]
  cases hf : e.freqHz with
  | none =>
    rw [hf] at hw
    obtain ⟨hw, -, -⟩ := Wave.make_unit hw
    rw [hw]
    simp only [Planewave.eval, Planewave.dirOf, hpad, Wave.gaussian, ne_eq, not_true_eq_false, if_false]
    congr 2
    ring
  | some f =>
    rw [hf] at hw
    obtain ⟨hw, -, -⟩ := Wave.make_unit hw
    rw [hw]
    simp only [Planewave.eval, Planewave.dirOf, hpad, Wave.modulated]
    have e1 : -(0 / 1 - t - m) * (0 / 1 - t - m) / (2 * e.spread * e.spread) = -(t - -m) ^ 2 / (2 * e.spread ^ 2) := by ring
    have e2 : Real.cos (2 * Real.pi * (f / 299792458) * (0 / 1 - t - m)) =
        Real.cos (2 * Real.pi * (f / cSI) * (t - -m)) := by
      rw [← Real.cos_neg, show cSI = 299792458 from rfl]
      congr 1
      ring
    rw [e1, e2]
    split
    · rfl
    · next h0 =>
      simp only [ne_eq, not_not] at h0
      rw [h0]
      simp

/-- An entry with tags and no mean: the solver and the post-processing agree. -/
def exEntry : WaveEntry := ⟨1, none, some [[![-1, 0, 0]], [![1, 0, 0]]], some 1000000000, ![0, 0, 1], ![2, 0, 0]⟩

lemma exEntry_norm : Wave.norm exEntry.prop = 2 := by
  simp only [Wave.norm, Wave.dot, exEntry]
  rw [Real.sqrt_eq_iff_mul_self_eq] <;> simp

example : exEntry.spread ≠ 0 ∧ (exEntry.mean ≠ none ∨ exEntry.elems ≠ none) ∧ (∃ w, exEntry.solverWave = some w) ∧
    Wave.dot exEntry.solverMean exEntry.prop ≤ 0 ∧
    ∃ pw, buildPlaneWaveData [exEntry.rcsSource] = some pw := by
  have hn := exEntry_norm
  have hp : Wave.norm exEntry.pol = 1 := by simp [Wave.norm, Wave.dot, exEntry]
  have hm : Wave.projMean exEntry.solverMean exEntry.prop = -1 - 5 * Real.sqrt 2 := by
    have := Wave.projMean_auto exEntry.spread exEntry.prop (by rw [hn]; norm_num) [[![-1, 0, 0]], [![1, 0, 0]]]
    rw [hn] at this
    refine this.trans ?_
    simp [Wave.minOrZero, Wave.centroid, Wave.dot, exEntry]
  have hs2 : 0 ≤ Real.sqrt 2 := Real.sqrt_nonneg _
  have hr := projMean_rcsSource exEntry (by rw [hn]; norm_num) (by right; simp [exEntry])
  refine ⟨by simp [exEntry], by right; simp [exEntry], ?_, ?_, ?_⟩
  · unfold WaveEntry.solverWave Wave.buildPlanewave Planewave.make
    rw [hp, hn]
    simp [exEntry]
  · unfold Wave.projMean at hm
    rw [hn, div_eq_iff (by norm_num)] at hm
    rw [hm]
    linarith
  · unfold buildPlaneWaveData
    simp only [List.foldl_cons, List.foldl_nil, planeWaveLoop]
    have hpl : exEntry.rcsSource.planewave = true := rfl
    have hsp : exEntry.rcsSource.spread = 1 := rfl
    simp only [hpl, if_true, hsp, hr, hm]
    rw [if_neg]
    · exact ⟨_, rfl⟩
    · rintro (h | h)
      · norm_num at h
      · rw [abs_of_neg (by linarith)] at h
        linarith

/-- **C95** fails for a wave whose mean lies downstream of the origin: the sign of the delay is lost.  Here the pulse of the
post-processing is at its peak at time one, while the solver's has decayed to `exp (-2)`. -/
theorem C95_violated_downstream :
    ∃ (e : WaveEntry) (w : Planewave) (pw : PlaneWave), e.solverWave = some w ∧
      buildPlaneWaveData [e.rcsSource] = some pw ∧ envelope pw 1 = some 1 ∧ w.eval [0, 0, 0] 1 .E 2 = Real.exp (-2) := by
  have hp : Wave.norm ![0, 0, 1] = 1 := by simp [Wave.norm, Wave.dot]
  have hn : Wave.norm ![1, 0, 0] = 1 := by simp [Wave.norm, Wave.dot]
  refine ⟨⟨1, some ![1, 0, 0], none, none, ![0, 0, 1], ![1, 0, 0]⟩, ?_⟩
  refine ⟨⟨Wave.gaussian 1 1, ![0, 0, 1], ![1, 0, 0], .E⟩, ⟨1, 1, 0⟩, ?_, ?_, ?_, ?_⟩
  · simp only [WaveEntry.solverWave, Wave.buildPlanewave, Planewave.make, hp, hn, WaveEntry.solverMean, Wave.projMean]
    simp [Wave.dot]
  · simp only [buildPlaneWaveData, List.foldl_cons, List.foldl_nil, planeWaveLoop, WaveEntry.rcsSource, if_true, hn,
      Option.map_some, projMean]
    simp only [Wave.dot, Matrix.cons_val_zero, Matrix.cons_val_one, Matrix.cons_val]
    norm_num
  · simp [envelope]
  · simp only [Planewave.eval, Planewave.dirOf, Wave.gaussian, Wave.dot, Wave.pad]
    simp only [Matrix.cons_val_zero, Matrix.cons_val_one, Matrix.cons_val]
    norm_num

/-- **C95** fails for several waves: the carrier of an earlier wave modulates the pulse of a later one without carrier. -/
theorem C95_violated_several (a b : WaveEntry) (f : ℝ) (ha : a.freqHz = some f) (hb : b.freqHz = none) (pw : PlaneWave)
    (h : buildPlaneWaveData [a.rcsSource, b.rcsSource] = some pw) :
    pw.spread = b.spread ∧ pw.frequency = f / cSI := by
  unfold buildPlaneWaveData at h
  simp only at h
  split at h
  · cases h
  · cases h
    rw [List.foldl_cons, List.foldl_cons, List.foldl_nil]
    simp [planeWaveLoop, WaveEntry.rcsSource, ha, hb]

end

end Dgtd.Rcs
