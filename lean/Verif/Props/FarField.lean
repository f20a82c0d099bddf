/-
C55 and C69: the per-rank far-field implementation and its merging.
-/
import Verif.Model.FarField
import Verif.Props.Rcs

set_option linter.unusedSimpArgs false

namespace Dgtd.Rcs

open Spec

noncomputable section

/-! ### C55 -/

/-- C55: merging files of equal length adds the contributions line by line, and keeps the directions and frequencies of the
first file. -/
theorem C55_merge_sums_partial (base : List RowData) (others : List (List RowData)) (h : ∀ f ∈ others, f.length = base.length) :
    ∃ m, mergeFiles (base :: others) = some m ∧ m.length = base.length ∧
      ∀ (i : Nat) (b : RowData), base[i]? = some b → ∃ r : RowData, m[i]? = some r ∧ r.theta = b.theta ∧ r.phi = b.phi ∧ r.frequency = b.frequency ∧
        r.pot = ((base :: others).map fun f => ((f[i]?).map RowData.pot).getD 0).sum ∧
        r.norm = ((base :: others).map fun f => ((f[i]?).map RowData.norm).getD 0).sum := by
  have hm : ∀ b o, mergeFiles (b :: o) = o.foldlM addRows b := fun _ _ => rfl
  simp only [hm]
  clear hm
  induction others generalizing base with
  | nil => exact ⟨base, rfl, rfl, fun i b hb => ⟨b, hb, by simp [hb]⟩⟩
  | cons f l ih =>
    have hf : f.length = base.length := h f (by simp)
    have e : addRows base f = some (List.zipWith (fun b r => { b with pot := b.pot + r.pot, norm := b.norm + r.norm }) base f) := by
      unfold addRows; rw [if_neg (by simp [hf])]
    obtain ⟨m, h1, h2, h3⟩ := ih (List.zipWith (fun b r => { b with pot := b.pot + r.pot, norm := b.norm + r.norm }) base f)
      (fun g hg => by simp [h g (List.mem_cons_of_mem _ hg), hf])
    refine ⟨m, ?_, by simpa [hf] using h2, ?_⟩
    · rw [List.foldlM_cons, e]; exact h1
    · intro i b hb
      have hi : i < base.length := by
        by_contra hc
        rw [List.getElem?_eq_none (by omega)] at hb
        cases hb
      obtain ⟨r, hr⟩ : ∃ r, f[i]? = some r := ⟨_, List.getElem?_eq_getElem (by omega)⟩
      have hz : (List.zipWith (fun b r => { b with pot := b.pot + r.pot, norm := b.norm + r.norm : RowData }) base f)[i]? =
          some { b with pot := b.pot + r.pot, norm := b.norm + r.norm } := by
        rw [List.getElem?_zipWith, hb, hr]
      obtain ⟨q, hq, h4, h5, h6, h7, h8⟩ := h3 i _ hz
      refine ⟨q, hq, h4, h5, h6, ?_, ?_⟩
      · rw [h7]; simp [hb, hr, hz, add_assoc]
      · rw [h8]; simp [hb, hr, hz, add_assoc]

/-- C55 fails: the normalisation column, the same in all files, is multiplied by the number of ranks. -/
theorem C55_violated (base : List RowData) (others : List (List RowData)) (h : ∀ f ∈ others, f.length = base.length)
    (i : Nat) (b : RowData) (hb : base[i]? = some b)
    (hn : ∀ f ∈ others, ∀ r, f[i]? = some r → r.norm = b.norm) :
    ∃ m r, mergeFiles (base :: others) = some m ∧ m[i]? = some r ∧ r.norm = ((others.length : ℝ) + 1) * b.norm := by
  obtain ⟨m, h1, _, h3⟩ := C55_merge_sums_partial base others h
  obtain ⟨r, hr, _, _, _, _, h8⟩ := h3 i b hb
  refine ⟨m, r, h1, hr, ?_⟩
  rw [h8, List.map_cons, List.sum_cons, hb]
  have hi : i < base.length := by
    by_contra hc
    rw [List.getElem?_eq_none (by omega)] at hb
    cases hb
  have : (others.map fun f => ((f[i]?).map RowData.norm).getD 0) = others.map fun _ => b.norm := by
    apply List.map_congr_left
    intro f hf
    have hl : i < f.length := by rw [h f hf]; exact hi
    rw [List.getElem?_eq_getElem hl]
    simp only [Option.map_some, Option.getD_some]
    exact hn f hf _ (List.getElem?_eq_getElem hl)
  rw [this]
  simp
  ring

/-- Two ranks, one line each: normalisation 4 becomes 8. -/
example : mergeFiles [[⟨0, 0, 1, 2, 4⟩], [⟨0, 0, 1, 3, 4⟩]] = some [⟨0, 0, 1, 5, 8⟩] := by
  simp [mergeFiles, addRows]
  norm_num

/-! ### C69 -/

lemma inner_eq (n : Nat) (lfR lfI : Nat → ℝ) (F : Nat → ℂ) :
    inner n (fun i => ⟨lfR i, lfI i⟩) F = pairing n lfR lfI F := by
  rw [pairing_eq]
  unfold inner
  rw [foldl_sum, zero_add]
  congr 1
  apply List.map_congr_left
  intro v _
  simp only
  rw [show (⟨lfR v, lfI v⟩ : ℂ) = (lfR v : ℂ) + (lfI v : ℂ) * Complex.I from by apply Complex.ext <;> simp]

lemma complexForm_eq (is3D : Bool) (R : Rank) (h : ∀ s ∈ samplesOf is3D R, s.pos ≠ 0) (f : ℝ) (a : Angles) (dir : Fin 3) :
    complexForm is3D f a dir R.faces =
      some fun i => ⟨formVal is3D Real.cos f a dir R.faces i, formVal is3D Real.sin f a dir R.faces i⟩ := by
  unfold complexForm
  rw [linForm_some is3D Real.cos f a dir R h, linForm_some is3D Real.sin f a dir R h]
  rfl

/-- The rank implementation projects the opposite vectors. -/
lemma nlPair_H (is3D : Bool) (R : Rank) (hwf : WF R) (h : ∀ s ∈ samplesOf is3D R, s.pos ≠ 0) (f : ℝ) (a : Angles) :
    nlPair is3D R f a (fun c v => transform f (R.snaps.map fun s => (s.time, s.f ⟨3 + c.val, by omega⟩ v))) false =
      some (-(along (eTheta a) (N (samplesOf is3D R) f a)), -(along (ePhi a) (N (samplesOf is3D R) f a))) := by
  unfold nlPair
  simp only [complexForm_eq is3D R h, Option.bind_eq_bind, Option.bind_some]
  have hN := N_eq (samplesOf is3D R) f a
  have e : ∀ (d c : Fin 3), inner R.nDofs (fun i => ⟨formVal is3D Real.cos f a d R.faces i, formVal is3D Real.sin f a d R.faces i⟩)
      (fun v => transform f (R.snaps.map fun s => (s.time, s.f ⟨3 + c.val, by omega⟩ v))) =
      intg (samplesOf is3D R) f a d (fun s => s.H f c) := by
    intro d c
    rw [inner_eq, pairing_samples is3D f a d R hwf]
    rfl
  have h0 := congrFun hN 0
  have h1 := congrFun hN 1
  have h2 := congrFun hN 2
  simp only [Matrix.cons_val_zero, Matrix.cons_val_one, Matrix.cons_val] at h0 h1 h2
  have e00 := e 0 1; have e01 := e 0 2; have e10 := e 1 0; have e12 := e 1 2; have e20 := e 2 0; have e21 := e 2 1
  simp only [dc, Bool.false_eq_true, if_false, Matrix.cons_val_zero, Matrix.cons_val_one, Matrix.cons_val, along, eTheta, ePhi]
  rw [e00, e01, e10, e12, e20, e21, ← h0, ← h1, ← h2]
  simp only [Option.some.injEq, Prod.mk.injEq]
  constructor <;> (push_cast; ring)

lemma nlPair_E (is3D : Bool) (R : Rank) (hwf : WF R) (h : ∀ s ∈ samplesOf is3D R, s.pos ≠ 0) (f : ℝ) (a : Angles) :
    nlPair is3D R f a (fun c v => transform f (R.snaps.map fun s => (s.time, s.f ⟨c.val, by omega⟩ v))) true =
      some (-(along (eTheta a) (L (samplesOf is3D R) f a)), -(along (ePhi a) (L (samplesOf is3D R) f a))) := by
  unfold nlPair
  simp only [complexForm_eq is3D R h, Option.bind_eq_bind, Option.bind_some]
  have hN := L_eq (samplesOf is3D R) f a
  have e : ∀ (d c : Fin 3), inner R.nDofs (fun i => ⟨formVal is3D Real.cos f a d R.faces i, formVal is3D Real.sin f a d R.faces i⟩)
      (fun v => transform f (R.snaps.map fun s => (s.time, s.f ⟨c.val, by omega⟩ v))) =
      intg (samplesOf is3D R) f a d (fun s => s.E f c) := by
    intro d c
    rw [inner_eq, pairing_samples is3D f a d R hwf]
    rfl
  have h0 := congrFun hN 0
  have h1 := congrFun hN 1
  have h2 := congrFun hN 2
  simp only [Matrix.cons_val_zero, Matrix.cons_val_one, Matrix.cons_val] at h0 h1 h2
  have e00 := e 0 1; have e01 := e 0 2; have e10 := e 1 0; have e12 := e 1 2; have e20 := e 2 0; have e21 := e 2 1
  simp only [dc, if_true, Matrix.cons_val_zero, Matrix.cons_val_one, Matrix.cons_val, along, eTheta, ePhi]
  rw [e00, e01, e10, e12, e20, e21, ← h0, ← h1, ← h2]
  simp only [Option.some.injEq, Prod.mk.injEq]
  constructor <;> (push_cast; ring)

theorem potFarField_eq (is3D : Bool) (R : Rank) (hwf : WF R) (hs : R.snaps ≠ []) (h : ∀ s ∈ samplesOf is3D R, s.pos ≠ 0)
    (f : ℝ) (a : Angles) :
    potFarField is3D R f a = some (intensity true f (farField (samplesOf is3D R) f a)) := by
  unfold potFarField
  rw [freqField_eq R.snaps hs f]
  simp only [Option.bind_eq_bind, Option.bind_some, nlPair_H is3D R hwf h, nlPair_E is3D R hwf h, Option.some.injEq]
  unfold potPair intensity
  simp only [farField, Matrix.cons_val_zero, Matrix.cons_val_one, Matrix.cons_val, Z0, Complex.ofReal_one, one_mul, if_true, c0]
  rw [one_div, div_inv_eq_mul, ← neg_add, norm_neg,
    show ∀ x y : ℂ, -x - -y = -(x - y) from fun x y => by ring, norm_neg, mul_one]

/-- C69: in three dimensions, for one rank, both implementations compute the same radiation intensity. -/
theorem C69_same_intensity_partial (R : Rank) (hwf : WF R) (hs : R.snaps ≠ []) (h : ∀ s ∈ samplesOf true R, s.pos ≠ 0)
    (f : ℝ) (a : Angles) (x : Fin 4 → ℂ) (hx : amplitudes true R f a = some x) :
    potFarField true R f a = some (potRad true f x) := by
  rw [amplitudes_eq true R hwf hs h, Option.some.injEq] at hx
  rw [potFarField_eq true R hwf hs h, potRad_eq, hx]

/-- C69 fails in two dimensions: the intensities differ by a factor `π²`. -/
theorem C69_violated_2D (R : Rank) (hwf : WF R) (hs : R.snaps ≠ []) (h : ∀ s ∈ samplesOf false R, s.pos ≠ 0)
    (f : ℝ) (a : Angles) (x : Fin 4 → ℂ) (hx : amplitudes false R f a = some x) :
    ∃ p, potFarField false R f a = some p ∧ potRad false f x = Real.pi ^ 2 * p := by
  rw [amplitudes_eq false R hwf hs h, Option.some.injEq] at hx
  refine ⟨_, potFarField_eq false R hwf hs h f a, ?_⟩
  rw [potRad_eq, hx]
  unfold intensity
  simp only [Bool.false_eq_true, if_false, if_true]
  have := Real.pi_ne_zero
  field_simp

/-- C69 fails for cross sections in three dimensions: with an unmodulated pulse, the rank implementation gives the cross section
of the other one divided by the number of snapshots. -/
theorem C69_violated_rcs (pw : PlaneWave) (hm : pw.frequency = 0) (hspread : pw.spread ≠ 0) (R : Rank) (hwf : WF R)
    (hs : R.snaps ≠ []) (h : ∀ s ∈ samplesOf true R, s.pos ≠ 0) (f : ℝ) (a : Angles)
    (hP : incident (pulse pw) (R.snaps.map Snapshot.time) f ≠ 0) :
    let U := intensity true f (farField (samplesOf true R) f a)
    rcsManager true pw R f a =
      some (crossSection true f (incident (pulse pw) (R.snaps.map Snapshot.time) f) U / (R.snaps.length : ℝ)) := by
  intro U
  have hl : R.snaps.length ≠ 0 := by simpa using hs
  have hlr : (R.snaps.length : ℝ) ≠ 0 := by exact_mod_cast hl
  have hinc : incomingPower pw (R.snaps.map fun s => s.time / c0) f =
      some (incident (pulse pw) (R.snaps.map Snapshot.time) f * (R.snaps.length : ℝ)) := by
    unfold incomingPower
    rw [if_neg (by simp [hs, hspread])]
    simp only [Option.some.injEq]
    rw [foldl_sum, zero_add]
    unfold incident transform
    have hg : ∀ t, gauss pw t = pulse pw t := by intro t; simp [gauss, pulse, hm]
    simp only [List.map_map, Function.comp_def, List.length_map, hg, kernel_exp, c0, div_one, Complex.normSq_eq_norm_sq, Z0, mul_one,
      norm_div, Complex.norm_natCast, div_pow]
    have hsum : (R.snaps.map fun x => ((pulse pw x.time : ℝ) : ℂ) * Complex.exp (-((2 * Real.pi * f * x.time : ℝ) : ℂ) * Complex.I)).sum =
        (R.snaps.map fun x => Complex.exp (-((2 * Real.pi * f * x.time : ℝ) : ℂ) * Complex.I) * ((pulse pw x.time : ℝ) : ℂ)).sum := by
      congr 1
      apply List.map_congr_left
      intro x _
      rw [mul_comm]
    rw [hsum]
    generalize (R.snaps.map fun x => Complex.exp (-((2 * Real.pi * f * x.time : ℝ) : ℂ) * Complex.I) * ((pulse pw x.time : ℝ) : ℂ)).sum = S
    field_simp
  unfold rcsManager
  rw [potFarField_eq true R hwf hs h, hinc]
  simp only [Option.bind_eq_bind, Option.bind_some]
  rw [if_neg (mul_ne_zero hP hlr)]
  simp only [Option.some.injEq, crossSection, if_true]
  field_simp
  rfl

/-- The concrete rank of `C68_violated` meets the hypotheses. -/
example : ∃ x, amplitudes true exRank 1 ⟨Real.pi / 2, 0⟩ = some x ∧
    potFarField true exRank 1 ⟨Real.pi / 2, 0⟩ = some (potRad true 1 x) := by
  have hwf : WF exRank := by
    intro G hG i hi
    simp only [exRank, List.mem_singleton] at hG
    subst hG
    simp [exFace, exRank]
  have h : ∀ s ∈ samplesOf true exRank, s.pos ≠ 0 := by
    intro s hs
    have : s ∈ samples true [exRank] := by simpa [samples] using hs
    rw [exRank_samples] at this
    simp only [List.mem_singleton] at this
    subst this
    simp
  have hs : exRank.snaps ≠ [] := by simp [exRank]
  exact ⟨_, amplitudes_eq true exRank hwf hs h 1 _, C69_same_intensity_partial exRank hwf hs h 1 _ _ (amplitudes_eq true exRank hwf hs h 1 _)⟩

/-- C69 fails for several ranks: merging adds intensities, not amplitudes.  Two ranks holding the same piece of surface radiate
four times the intensity of one, but twice is reported. -/
theorem C69_violated_ranks : ∃ (R : Rank) (a : Angles) (f U : ℝ), WF R ∧ 0 < U ∧
    potFarField true R f a = some U ∧
    intensity true f (farField (samples true [R, R]) f a) = 4 * U ∧
    mergeFiles [[⟨a.theta, a.phi, f, U, 1⟩], [⟨a.theta, a.phi, f, U, 1⟩]] = some [⟨a.theta, a.phi, f, 2 * U, 2⟩] := by
  have hwf : WF exRank := by
    intro G hG i hi
    simp only [exRank, List.mem_singleton] at hG
    subst hG
    simp [exFace, exRank]
  have h : ∀ s ∈ samplesOf true exRank, s.pos ≠ 0 := by
    intro s hs
    have : s ∈ samples true [exRank] := by simpa [samples] using hs
    rw [exRank_samples] at this
    simp only [List.mem_singleton] at this
    subst this
    simp
  have hs : exRank.snaps ≠ [] := by simp [exRank]
  refine ⟨exRank, ⟨Real.pi / 2, 0⟩, normFreq cSI, _, hwf, ?_, potFarField_eq true exRank hwf hs h _ _, ?_, ?_⟩
  · have := ex_intensity
    simpa [samples] using this
  · have : samples true [exRank, exRank] = samplesOf true exRank ++ samplesOf true exRank := by simp [samples]
    rw [this, farField_append, ← two_smul ℂ]
    unfold intensity
    simp only [Pi.smul_apply, ← smul_add, ← smul_sub, norm_smul, mul_pow]
    norm_num
    ring
  · simp only [mergeFiles, addRows, List.foldlM_cons, List.foldlM_nil, List.length_singleton, ne_eq, not_true_eq_false, if_false,
      List.zipWith_cons_cons, List.zipWith_nil_left, Option.pure_def, Option.bind_eq_bind, Option.bind_some, Option.some.injEq]
    norm_num
    ring

end

end Dgtd.Rcs
