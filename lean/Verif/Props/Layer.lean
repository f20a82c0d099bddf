import Verif.Spec.Layer
import Mathlib.Tactic.Linarith
import Mathlib.Tactic.FieldSimp
import Mathlib.Tactic.NormNum
import Mathlib.Tactic.Positivity

/-
C19, C58, C74: materials, thin-layer resolution, source bandwidth.
-/
namespace Dgtd.Layer

open Spec Dgtd.Config

/-! ### C19 -/

/-- **C19.** A material exists exactly for physical values. -/
theorem C19_exists (eps mu sigma : ℝ) :
    (∃ m, Material.make eps mu sigma = .ok m) ↔ 1 ≤ eps ∧ 1 ≤ mu ∧ 0 ≤ sigma := by
  unfold Material.make
  split_ifs with h1 h2 h3
  · simp; intro h; linarith
  · simp; intro _ h; linarith
  · simp; intro _ _; exact h3
  · simp; exact ⟨not_lt.1 h1, not_lt.1 h2, not_lt.1 h3⟩

/-- **C19.** It holds the values it was given; otherwise an error is raised. -/
theorem C19_values (eps mu sigma : ℝ) :
    Material.make eps mu sigma =
      if 1 ≤ eps ∧ 1 ≤ mu ∧ 0 ≤ sigma then .ok ⟨eps, mu, sigma⟩ else .error .throw := by
  unfold Material.make
  by_cases h1 : eps < 1
  · rw [if_pos h1, if_neg (fun h => absurd h.1 (not_le.2 h1))]
  rw [if_neg h1]
  by_cases h2 : mu < 1
  · rw [if_pos h2, if_neg (fun h => absurd h.2.1 (not_le.2 h2))]
  rw [if_neg h2]
  by_cases h3 : sigma < 0
  · rw [if_pos h3, if_neg (fun h => absurd h.2.2 (not_le.2 h3))]
  rw [if_neg h3, if_pos ⟨not_lt.1 h1, not_lt.1 h2, not_lt.1 h3⟩]

/-- **C19.** Without losses impedance and admittance are inverse to each other, their quotient and product
with the wave speed give back the parameters, and waves are not faster than light. -/
theorem C19_waves (eps mu sigma : ℝ) (m : Material ℝ) (h : Material.make eps mu sigma = .ok m)
    (h0 : sigma = 0) :
    ∃ Z Y v, impedance m = .ok Z ∧ admittance m = .ok Y ∧ speedOfWave m = .ok v ∧
      Z * Y = 1 ∧ 0 < Z ∧ 0 < v ∧ v ≤ 1 ∧ v * Z * eps = 1 ∧ v * mu = Z ∧ v ^ 2 * (eps * mu) = 1 := by
  rw [C19_values] at h
  split_ifs at h with hp
  simp only [Except.ok.injEq] at h
  subst h
  obtain ⟨h1, h2, _⟩ := hp
  have he : 0 < eps := by linarith
  have hm : 0 < mu := by linarith
  refine ⟨Real.sqrt (mu / eps), Real.sqrt (eps / mu), 1 / Real.sqrt (mu * eps), ?_, ?_, ?_, ?_⟩
  · simp [impedance, h0]
  · simp [admittance, h0]
  · simp [speedOfWave, h0]
  have e1 : Real.sqrt (mu / eps) = Real.sqrt mu / Real.sqrt eps := Real.sqrt_div hm.le eps
  have e2 : Real.sqrt (eps / mu) = Real.sqrt eps / Real.sqrt mu := Real.sqrt_div he.le mu
  have e3 : Real.sqrt (mu * eps) = Real.sqrt mu * Real.sqrt eps := Real.sqrt_mul hm.le eps
  have a : 0 < Real.sqrt eps := Real.sqrt_pos.2 he
  have b : 0 < Real.sqrt mu := Real.sqrt_pos.2 hm
  have sa : Real.sqrt eps * Real.sqrt eps = eps := Real.mul_self_sqrt he.le
  have sb : Real.sqrt mu * Real.sqrt mu = mu := Real.mul_self_sqrt hm.le
  have ge1 : 1 ≤ Real.sqrt eps := by rw [Real.one_le_sqrt]; exact h1
  have ge2 : 1 ≤ Real.sqrt mu := by rw [Real.one_le_sqrt]; exact h2
  rw [e1, e2, e3]
  generalize Real.sqrt eps = p at *
  generalize Real.sqrt mu = q at *
  subst sa sb
  refine ⟨by field_simp, by positivity, by positivity, ?_, by field_simp, by field_simp, by field_simp⟩
  rw [div_le_one (by positivity)]
  nlinarith

/-- **C19.** With losses all three raise an error. -/
theorem C19_lossy (eps mu sigma : ℝ) (m : Material ℝ) (h : Material.make eps mu sigma = .ok m)
    (h0 : sigma ≠ 0) :
    impedance m = .error .throw ∧ admittance m = .error .throw ∧ speedOfWave m = .error .throw := by
  rw [C19_values] at h
  split_ifs at h
  simp only [Except.ok.injEq] at h
  subst h
  simp [impedance, admittance, speedOfWave, h0]

example : Material.make (4 : ℝ) 1 0 = .ok ⟨4, 1, 0⟩ := by rw [C19_values]; norm_num
example : Material.make (4 : ℝ) 1 5 = .ok ⟨4, 1, 5⟩ ∧ (5 : ℝ) ≠ 0 := by rw [C19_values]; norm_num

/-! ### C74: highest frequency of the sources -/

/-- The state after some sources bounds all of them from above and is attained. -/
structure FInv (c : ℝ) (done : List (Option Magnitude)) (s : FreqState) : Prop where
  nn : 0 ≤ s.maxFreq
  modUp : ∀ m f w, some m ∈ done → m.frequency = some f → m.spread = some w → f + c / (2 * w) ≤ s.maxFreq
  modAt : s.foundModulated = true → 0 < s.maxFreq ∧ ∃ m f w, some m ∈ done ∧ m.frequency = some f ∧
    m.spread = some w ∧ s.maxFreq = f + c / (2 * w)
  modNo : s.foundModulated = false → s.maxFreq = 0
  plainUp : ∀ m w, some m ∈ done → m.frequency = none → m.spread = some w → m.gaussianType = true → 0 < w →
    ∃ w0, s.minSpread = some w0 ∧ w0 ≤ w
  plainAt : ∀ w0, s.minSpread = some w0 → 0 < w0 ∧ ∃ m, some m ∈ done ∧ m.frequency = none ∧
    m.spread = some w0 ∧ m.gaussianType = true

theorem FInv.mono_src {c : ℝ} {done : List (Option Magnitude)} {s : FreqState} (h : FInv c done s)
    (x : Option Magnitude)
    (h1 : ∀ m f w, x = some m → m.frequency = some f → m.spread = some w → f + c / (2 * w) ≤ s.maxFreq)
    (h2 : ∀ m w, x = some m → m.frequency = none → m.spread = some w → m.gaussianType = true → 0 < w →
      ∃ w0, s.minSpread = some w0 ∧ w0 ≤ w) : FInv c (done ++ [x]) s where
  nn := h.nn
  modUp m f w hm e1 e2 := by
    rcases List.mem_append.1 hm with hm | hm
    · exact h.modUp m f w hm e1 e2
    · exact h1 m f w (List.mem_singleton.1 hm).symm e1 e2
  modAt e := by
    obtain ⟨p, m, f, w, hm, r⟩ := h.modAt e
    exact ⟨p, m, f, w, by simp [hm], r⟩
  modNo := h.modNo
  plainUp m w hm e1 e2 e3 e4 := by
    rcases List.mem_append.1 hm with hm | hm
    · exact h.plainUp m w hm e1 e2 e3 e4
    · exact h2 m w (List.mem_singleton.1 hm).symm e1 e2 e3 e4
  plainAt w0 e := by
    obtain ⟨p, m, hm, r⟩ := h.plainAt w0 e
    exact ⟨p, m, by simp [hm], r⟩

theorem freqStep_inv (c : ℝ) (done : List (Option Magnitude)) (s : FreqState) (h : FInv c done s)
    (x : Option Magnitude) : FInv c (done ++ [x]) (freqStep c s x) := by
  cases x with
  | none => exact h.mono_src none (by simp) (by simp)
  | some m =>
    cases hw : m.spread with
    | none =>
      have : freqStep c s (some m) = s := by
        unfold freqStep; cases hf : m.frequency <;> simp [hw]
      rw [this]
      refine h.mono_src (some m) ?_ ?_
      · intro m' f w e _ e2; simp only [Option.some.injEq] at e; subst e; rw [hw] at e2; simp at e2
      · intro m' w e _ e2; simp only [Option.some.injEq] at e; subst e; rw [hw] at e2; simp at e2
    | some w =>
      cases hf : m.frequency with
      | some f =>
        have hno : ∀ m' w', some m = some m' → m'.frequency = none → m'.spread = some w' →
            m'.gaussianType = true → 0 < w' → ∃ w0, s.minSpread = some w0 ∧ w0 ≤ w' := by
          intro m' w' e e1
          simp only [Option.some.injEq] at e; subst e; rw [hf] at e1; simp at e1
        by_cases hgt : f + c / (2 * w) > s.maxFreq
        · have e : freqStep c s (some m) = { s with maxFreq := f + c / (2 * w), foundModulated := true } := by
            simp [freqStep, hw, hf, hgt]
          rw [e]
          have hb : FInv c (done ++ [some m]) { s with maxFreq := f + c / (2 * w), foundModulated := true } := {
            nn := h.nn.trans hgt.le
            modUp := fun m' f' w' hm e1 e2 => by
              rcases List.mem_append.1 hm with hm | hm
              · exact (h.modUp m' f' w' hm e1 e2).trans hgt.le
              · simp only [List.mem_singleton, Option.some.injEq] at hm
                subst hm
                rw [hf] at e1; rw [hw] at e2
                simp only [Option.some.injEq] at e1 e2
                subst e1 e2
                exact le_refl _
            modAt := fun _ => ⟨lt_of_le_of_lt h.nn hgt, m, f, w, by simp, hf, hw, rfl⟩
            modNo := fun e => by simp at e
            plainUp := fun m' w' hm e1 e2 e3 e4 => by
              rcases List.mem_append.1 hm with hm | hm
              · exact h.plainUp m' w' hm e1 e2 e3 e4
              · exact hno m' w' (List.mem_singleton.1 hm).symm e1 e2 e3 e4
            plainAt := fun w0 e => by
              obtain ⟨p, m', hm, r⟩ := h.plainAt w0 e
              exact ⟨p, m', by simp [hm], r⟩ }
          exact hb
        · have e : freqStep c s (some m) = s := by simp [freqStep, hw, hf, hgt]
          rw [e]
          refine h.mono_src (some m) ?_ hno
          intro m' f' w' e e1 e2
          simp only [Option.some.injEq] at e
          subst e
          rw [hf] at e1; rw [hw] at e2
          simp only [Option.some.injEq] at e1 e2
          subst e1 e2
          exact not_lt.1 hgt
      | none =>
        have hno : ∀ (s' : FreqState) m' f' w', some m = some m' → m'.frequency = some f' →
            m'.spread = some w' → f' + c / (2 * w') ≤ s'.maxFreq := by
          intro s' m' f' w' e e1
          simp only [Option.some.injEq] at e; subst e; rw [hf] at e1; simp at e1
        have upd : ∀ (hg : m.gaussianType = true) (hp : 0 < w) (hlt : ∀ w0, s.minSpread = some w0 → w < w0),
            FInv c (done ++ [some m]) { s with minSpread := some w } := fun hg hp hlt => {
          nn := h.nn
          modUp := fun m' f' w' hm e1 e2 => by
            rcases List.mem_append.1 hm with hm | hm
            · exact h.modUp m' f' w' hm e1 e2
            · exact hno s m' f' w' (List.mem_singleton.1 hm).symm e1 e2
          modAt := fun e => by
            obtain ⟨p, m', f', w', hm, r⟩ := h.modAt e
            exact ⟨p, m', f', w', by simp [hm], r⟩
          modNo := h.modNo
          plainUp := fun m' w' hm e1 e2 e3 e4 => by
            rcases List.mem_append.1 hm with hm | hm
            · obtain ⟨w0, h0, hle⟩ := h.plainUp m' w' hm e1 e2 e3 e4
              exact ⟨w, rfl, (hlt w0 h0).le.trans hle⟩
            · simp only [List.mem_singleton, Option.some.injEq] at hm
              subst hm
              rw [hw] at e2
              simp only [Option.some.injEq] at e2
              exact ⟨w, rfl, e2.le⟩
          plainAt := fun w0 e => by
            simp only [Option.some.injEq] at e
            subst e
            exact ⟨hp, m, by simp, hf, hw, hg⟩ }
        by_cases hg : m.gaussianType = true
        · cases hs : s.minSpread with
          | none =>
            by_cases hp : w > 0
            · have e : freqStep c s (some m) = { s with minSpread := some w } := by
                simp [freqStep, hw, hf, hg, hs, hp]
              rw [e]
              exact upd hg hp (fun w0 h0 => by rw [hs] at h0; simp at h0)
            · have e : freqStep c s (some m) = s := by simp [freqStep, hw, hf, hg, hs, hp]
              rw [e]
              refine h.mono_src (some m) (hno s) ?_
              intro m' w' e _ e2 _ e4
              simp only [Option.some.injEq] at e
              subst e
              rw [hw] at e2
              simp only [Option.some.injEq] at e2
              subst e2
              exact absurd e4 hp
          | some w0 =>
            by_cases hp : w > 0 ∧ w < w0
            · have e : freqStep c s (some m) = { s with minSpread := some w } := by
                simp [freqStep, hw, hf, hg, hs, hp]
              rw [e]
              exact upd hg hp.1 (fun w1 h1 => by
                rw [hs] at h1; simp only [Option.some.injEq] at h1; exact h1 ▸ hp.2)
            · have e : freqStep c s (some m) = s := by simp [freqStep, hw, hf, hg, hs, hp]
              rw [e]
              refine h.mono_src (some m) (hno s) ?_
              intro m' w' e _ e2 _ e4
              simp only [Option.some.injEq] at e
              subst e
              rw [hw] at e2
              simp only [Option.some.injEq] at e2
              subst e2
              exact ⟨w0, hs, not_lt.1 (fun hh => hp ⟨e4, hh⟩)⟩
        · have e : freqStep c s (some m) = s := by simp [freqStep, hw, hf, hg]
          rw [e]
          refine h.mono_src (some m) (hno s) ?_
          intro m' w' e _ _ e3
          simp only [Option.some.injEq] at e
          subst e
          exact absurd e3 hg

theorem foldl_inv (c : ℝ) (srcs : List (Option Magnitude)) : ∀ done s, FInv c done s →
    FInv c (done ++ srcs) (srcs.foldl (freqStep c) s) := by
  induction srcs with
  | nil => intro done s h; simpa using h
  | cons x srcs ih =>
    intro done s h
    have := ih (done ++ [x]) _ (freqStep_inv c done s h x)
    simpa using this

theorem final_inv (c : ℝ) (srcs : List (Option Magnitude)) :
    FInv c srcs (srcs.foldl (freqStep c) ⟨none, 0, false⟩) := by
  have := foldl_inv c srcs [] ⟨none, 0, false⟩ {
    nn := le_refl _
    modUp := by simp
    modAt := by simp
    modNo := by simp
    plainUp := by simp
    plainAt := by simp }
  simpa using this

/-- **C74.** The frequency used for the resolution is always positive. -/
theorem C74_positive (c : ℝ) (hc : 0 < c) (srcs : List (Option Magnitude)) : 0 < maxFrequency c srcs := by
  have h := final_inv c srcs
  unfold maxFrequency
  simp only
  split_ifs with hm
  · exact (h.modAt hm).1
  · cases hs : (srcs.foldl (freqStep c) ⟨none, 0, false⟩).minSpread with
    | none => norm_num
    | some w => have := (h.plainAt w hs).1; simp only; positivity

/-- **C74 (one kind of pulse).** When all the pulses have a carrier, or none has, the frequency is that of
the fastest pulse: none exceeds it and one attains it. -/
theorem C74_fastest_partial (c : ℝ) (hc : 0 < c) (srcs : List (Option Magnitude))
    (hsound : ∀ m, some m ∈ srcs → Sound m) (hne : ∃ m, some m ∈ srcs ∧ pulseTop c m ≠ none)
    (hkind : (∀ m, some m ∈ srcs → pulseTop c m ≠ none → Modulated m) ∨
      ∀ m, some m ∈ srcs → pulseTop c m ≠ none → Plain m) :
    (∀ m t, some m ∈ srcs → pulseTop c m = some t → t ≤ maxFrequency c srcs) ∧
    ∃ m, some m ∈ srcs ∧ pulseTop c m = some (maxFrequency c srcs) := by
  have h := final_inv c srcs
  have hmf : maxFrequency c srcs =
      (if (srcs.foldl (freqStep c) ⟨none, 0, false⟩).foundModulated = true then
        (srcs.foldl (freqStep c) ⟨none, 0, false⟩).maxFreq
      else match (srcs.foldl (freqStep c) ⟨none, 0, false⟩).minSpread with
        | some w => c / (2 * w)
        | none => 10 ^ 9) := rfl
  generalize srcs.foldl (freqStep c) ⟨none, 0, false⟩ = s at h hmf
  obtain ⟨m0, hm0, ht0⟩ := hne
  rcases hkind with hk | hk
  · have hall : ∀ m t, some m ∈ srcs → pulseTop c m = some t →
        ∃ f w, m.frequency = some f ∧ m.spread = some w ∧ t = f + c / (2 * w) ∧ 0 < t := by
      intro m t hm ht
      obtain ⟨h1, h2⟩ := hk m hm (by rw [ht]; simp)
      obtain ⟨f, hf⟩ := Option.ne_none_iff_exists'.1 h1
      obtain ⟨w, hw⟩ := Option.ne_none_iff_exists'.1 h2
      have hw0 := (hsound m hm).1 w hw
      have hf0 := (hsound m hm).2 f hf
      simp only [pulseTop, hf, hw, Option.some.injEq] at ht
      refine ⟨f, w, hf, hw, ht.symm, ?_⟩
      rw [← ht]; positivity
    have hfound : s.foundModulated = true := by
      by_contra hno
      have h0 := h.modNo (by simpa using hno)
      obtain ⟨t0, ht0'⟩ := Option.ne_none_iff_exists'.1 ht0
      obtain ⟨f, w, hf, hw, e, hp⟩ := hall m0 t0 hm0 ht0'
      have := h.modUp m0 f w hm0 hf hw
      rw [h0, ← e] at this
      linarith
    rw [if_pos hfound] at hmf
    refine ⟨fun m t hm ht => ?_, ?_⟩
    · obtain ⟨f, w, hf, hw, e, _⟩ := hall m t hm ht
      rw [hmf, e]
      exact h.modUp m f w hm hf hw
    · obtain ⟨_, m, f, w, hm, hf, hw, e⟩ := h.modAt hfound
      exact ⟨m, hm, by simp [pulseTop, hf, hw, hmf, e]⟩
  · have hall : ∀ m t, some m ∈ srcs → pulseTop c m = some t →
        ∃ w, m.frequency = none ∧ m.spread = some w ∧ m.gaussianType = true ∧ t = c / (2 * w) ∧ 0 < w := by
      intro m t hm ht
      obtain ⟨h1, h2, h3⟩ := hk m hm (by rw [ht]; simp)
      obtain ⟨w, hw⟩ := Option.ne_none_iff_exists'.1 h2
      simp only [pulseTop, h1, hw, h3, if_true, Option.some.injEq] at ht
      exact ⟨w, h1, hw, h3, ht.symm, (hsound m hm).1 w hw⟩
    have hnot : s.foundModulated = false := by
      by_contra hno
      obtain ⟨_, m, f, w, hm, hf, hw, _⟩ := h.modAt (by simpa using hno)
      have := (hk m hm (by simp [pulseTop, hf, hw])).1
      rw [hf] at this
      simp at this
    obtain ⟨t0, ht0'⟩ := Option.ne_none_iff_exists'.1 ht0
    obtain ⟨w1, a1, a2, a3, _, a5⟩ := hall m0 t0 hm0 ht0'
    obtain ⟨w0, hw0, _⟩ := h.plainUp m0 w1 hm0 a1 a2 a3 a5
    rw [hnot, hw0] at hmf
    simp only [Bool.false_eq_true, if_false] at hmf
    obtain ⟨hp0, m, hm, b1, b2, b3⟩ := h.plainAt w0 hw0
    refine ⟨fun m t hm ht => ?_, m, hm, by simp [pulseTop, b1, b2, b3, hmf]⟩
    obtain ⟨w, c1, c2, c3, e, hp⟩ := hall m t hm ht
    obtain ⟨w0', h0', hle⟩ := h.plainUp m w hm c1 c2 c3 hp
    rw [hw0] at h0'
    simp only [Option.some.injEq] at h0'
    subst h0'
    rw [hmf, e]
    gcongr

/-- A wide modulated pulse and a narrow plain one. -/
noncomputable def mixedSources : List (Option Magnitude) :=
  [some ⟨some 1, some 1, true⟩, some ⟨some (1 / 1000), none, true⟩]

example : ∀ m, some m ∈ [some (⟨some (1 / 2), none, true⟩ : Magnitude), none, some ⟨some 1, none, true⟩] →
    Sound m ∧ (pulseTop 1 m ≠ none → Plain m) := by
  intro m hm
  simp only [List.mem_cons, Option.some.injEq, List.not_mem_nil, or_false, reduceCtorEq, false_or] at hm
  rcases hm with rfl | rfl <;> (unfold Sound Plain; simp)

/-- **C74 is false for mixtures.** A plain pulse next to a modulated one is ignored, even when it is
hundreds of times faster. -/
theorem C74_violated : ∃ (c : ℝ) (srcs : List (Option Magnitude)), 0 < c ∧ (∀ m, some m ∈ srcs → Sound m) ∧
    ∃ m t, some m ∈ srcs ∧ pulseTop c m = some t ∧ 300 * maxFrequency c srcs < t := by
  refine ⟨1, mixedSources, one_pos, ?_, ⟨some (1 / 1000), none, true⟩, 500, by simp [mixedSources], ?_, ?_⟩
  · intro m hm
    simp only [mixedSources, List.mem_cons, Option.some.injEq, List.not_mem_nil, or_false] at hm
    rcases hm with rfl | rfl <;> (unfold Sound; simp)
  · simp [pulseTop]; norm_num
  · have : maxFrequency 1 mixedSources = 1 + 1 / (2 * 1) := by
      unfold maxFrequency mixedSources
      simp [freqStep]
      norm_num
    rw [this]
    norm_num

/-! ### C58: resolution of thin layers -/

theorem autoOrder_cases (k : Consts) (f e s : ℝ) :
    autoOrder k f e s = 2 ∨ autoOrder k f e s = 3 ∨ autoOrder k f e s = 4 := by
  unfold autoOrder; split_ifs <;> simp

theorem clamp_range (x : Int) : 4 ≤ clamp x 4 1000 ∧ clamp x 4 1000 ≤ 1000 := by
  unfold clamp; split_ifs <;> omega

/-- What a successful parse produced. -/
theorem parse_ok (k : Consts) (f : ℝ) (j : LayerJson) (L : Layer) (h : parseLayer k f j = .ok L) :
    ∃ sigma width mat, j.bulkConductivity = some sigma ∧ j.materialWidth = some width ∧
      Material.make (j.relPermittivity.getD 1) (j.relPermeability.getD 1) (sigma * k.Z0) = .ok mat ∧
      L.material = mat ∧ L.width = width ∧
      L.order = j.order.getD (autoOrder k f (j.relPermittivity.getD 1) sigma) ∧
      L.segments = j.numOfSegments.getD (clamp ⌈width / targetDx k f (j.relPermittivity.getD 1)
        (j.relPermeability.getD 1) sigma (autoOrder k f (j.relPermittivity.getD 1) sigma)⌉ 4 1000).toNat ∧
      L.nSkinDepths = if sigma > 0 ∧ skinDepth k f (j.relPermeability.getD 1) sigma > 0 then
        width / skinDepth k f (j.relPermeability.getD 1) sigma else 0 := by
  unfold parseLayer at h
  simp only at h
  cases hs : j.bulkConductivity with
  | none => rw [hs] at h; simp at h
  | some sigma =>
    rw [hs] at h
    simp only at h
    cases hm : Material.make (j.relPermittivity.getD 1) (j.relPermeability.getD 1) (sigma * k.Z0) with
    | error x => rw [hm] at h; simp at h
    | ok mat =>
      rw [hm] at h
      simp only at h
      cases hw : j.materialWidth with
      | none => rw [hw] at h; simp at h
      | some width =>
        rw [hw] at h
        simp only at h
        unfold toInt at h
        split_ifs at h
        all_goals
          simp only [Except.ok.injEq] at h
          subst h
          refine ⟨sigma, width, mat, rfl, rfl, hm, rfl, rfl, rfl, rfl, ?_⟩
          simp_all

/-- **C58.** Automatic layers have between 4 and 1000 segments and order two, three or four. -/
theorem C58_range (k : Consts) (f : ℝ) (j : LayerJson) (L : Layer) (h : parseLayer k f j = .ok L)
    (h1 : j.numOfSegments = none) (h2 : j.order = none) :
    4 ≤ L.segments ∧ L.segments ≤ 1000 ∧ (L.order = 2 ∨ L.order = 3 ∨ L.order = 4) := by
  obtain ⟨sigma, width, mat, _, _, _, _, _, ho, hseg, _⟩ := parse_ok k f j L h
  rw [h2] at ho
  rw [h1] at hseg
  simp only [Option.getD_none] at ho hseg
  obtain ⟨a, b⟩ := clamp_range ⌈width / targetDx k f (j.relPermittivity.getD 1)
        (j.relPermeability.getD 1) sigma (autoOrder k f (j.relPermittivity.getD 1) sigma)⌉
  refine ⟨by omega, by omega, ?_⟩
  rw [ho]
  exact autoOrder_cases _ _ _ _

/-- **C58.** Values written in the case replace the automatic ones. -/
theorem C58_overrides (k : Consts) (f : ℝ) (j : LayerJson) (L : Layer) (h : parseLayer k f j = .ok L) :
    (∀ n, j.numOfSegments = some n → L.segments = n) ∧ (∀ p, j.order = some p → L.order = p) := by
  obtain ⟨sigma, width, mat, _, _, _, _, _, ho, hseg, _⟩ := parse_ok k f j L h
  exact ⟨fun n e => by rw [hseg, e]; rfl, fun p e => by rw [ho, e]; rfl⟩

/-- **C58.** A layer without conductivity or width, or with an unphysical material, raises an error. -/
theorem C58_rejects (k : Consts) (f : ℝ) (j : LayerJson)
    (h : j.bulkConductivity = none ∨ j.materialWidth = none ∨ j.relPermittivity.getD 1 < 1 ∨
      j.relPermeability.getD 1 < 1 ∨ j.bulkConductivity.getD 0 < 0) :
    parseLayer k f j = .error .throw := by
  unfold parseLayer
  simp only
  cases hs : j.bulkConductivity with
  | none => rfl
  | some sigma =>
    rw [hs] at h
    simp only [reduceCtorEq, false_or, Option.getD_some] at h
    simp only
    rw [C19_values]
    by_cases hp : 1 ≤ j.relPermittivity.getD 1 ∧ 1 ≤ j.relPermeability.getD 1 ∧ 0 ≤ sigma * k.Z0
    · rw [if_pos hp]
      simp only
      cases hw : j.materialWidth with
      | none => rfl
      | some width =>
        rw [hw] at h
        obtain ⟨p1, p2, p3⟩ := hp
        have : 0 ≤ sigma := by
          by_contra hc
          have := mul_neg_of_neg_of_pos (not_le.1 hc) k.Z0_pos
          linarith
        rcases h with h | h | h | h
        · simp at h
        · linarith
        · linarith
        · linarith
    · rw [if_neg hp]

theorem wavelength_pos (k : Consts) (f e m : ℝ) (hf : 0 < f) (he : 1 ≤ e) (hm : 1 ≤ m) :
    0 < wavelength k f e m := by
  have := k.mu0_pos
  have := k.eps0_pos
  have : 0 < e := by linarith
  have : 0 < m := by linarith
  have : 0 < Real.sqrt (m * k.mu0 * (e * k.eps0)) := Real.sqrt_pos.2 (by positivity)
  unfold wavelength
  positivity

theorem skinDepth_pos (k : Consts) (f m s : ℝ) (hf : 0 < f) (hm : 1 ≤ m) (hs : 0 < s) :
    0 < skinDepth k f m s := by
  have := k.mu0_pos
  have := Real.pi_pos
  have : 0 < m := by linarith
  have : 0 < Real.sqrt (Real.pi * f * (m * k.mu0) * s) := Real.sqrt_pos.2 (by positivity)
  unfold skinDepth
  positivity

theorem wavelength_is (k : Consts) (f e m : ℝ) (hf : 0 < f) (he : 1 ≤ e) (hm : 1 ≤ m) :
    IsWavelength k f e m (wavelength k f e m) := by
  refine ⟨wavelength_pos k f e m hf he hm, ?_⟩
  have := k.mu0_pos
  have := k.eps0_pos
  have : 0 < e := by linarith
  have : 0 < m := by linarith
  have h0 : 0 < m * k.mu0 * (e * k.eps0) := by positivity
  have hs : Real.sqrt (m * k.mu0 * (e * k.eps0)) ^ 2 = m * k.mu0 * (e * k.eps0) := Real.sq_sqrt h0.le
  have hp : 0 < Real.sqrt (m * k.mu0 * (e * k.eps0)) := Real.sqrt_pos.2 h0
  unfold wavelength
  generalize Real.sqrt (m * k.mu0 * (e * k.eps0)) = r at *
  rw [← hs]
  field_simp

theorem skinDepth_is (k : Consts) (f m s : ℝ) (hf : 0 < f) (hm : 1 ≤ m) (hs : 0 < s) :
    IsSkinDepth k f m s (skinDepth k f m s) := by
  refine ⟨skinDepth_pos k f m s hf hm hs, ?_⟩
  have := k.mu0_pos
  have := Real.pi_pos
  have : 0 < m := by linarith
  have h0 : 0 < Real.pi * f * (m * k.mu0) * s := by positivity
  have hq : Real.sqrt (Real.pi * f * (m * k.mu0) * s) ^ 2 = Real.pi * f * (m * k.mu0) * s := Real.sq_sqrt h0.le
  have hp : 0 < Real.sqrt (Real.pi * f * (m * k.mu0) * s) := Real.sqrt_pos.2 h0
  unfold skinDepth
  generalize Real.sqrt (Real.pi * f * (m * k.mu0) * s) = r at *
  rw [← hq]
  field_simp

theorem segs_pos (p : Nat) (hp : 0 < p) : (20 : ℝ) ≤ (p : ℝ) * (segsPerWavelength p : ℝ) ∧
    (0 : ℝ) < (segsPerWavelength p : ℝ) := by
  have hp' : (0 : ℝ) < (p : ℝ) := by exact_mod_cast hp
  have h1 : (20 : ℝ) / (p : ℝ) ≤ (segsPerWavelength p : ℝ) := Int.le_ceil _
  have h2 : (0 : ℝ) < 20 / (p : ℝ) := by positivity
  refine ⟨?_, lt_of_lt_of_le h2 h1⟩
  rw [div_le_iff₀ hp'] at h1
  linarith

theorem targetDx_pos (k : Consts) (f e m s : ℝ) (p : Nat) (hp : 0 < p) (hf : 0 < f) (he : 1 ≤ e) (hm : 1 ≤ m) :
    0 < targetDx k f e m s p := by
  have h1 := wavelength_pos k f e m hf he hm
  have h2 := (segs_pos p hp).2
  unfold targetDx
  split_ifs with hs
  · have h3 := skinDepth_pos k f m s hf hm hs
    exact lt_min (by positivity) (by positivity)
  · positivity

/-- **C58.** Below the limit of a thousand segments, an automatic layer has at least twenty unknowns per
wavelength at the given frequency and, if it conducts, two segments per skin depth. -/
theorem C58_resolves (k : Consts) (f : ℝ) (hf : 0 < f) (j : LayerJson) (L : Layer)
    (h : parseLayer k f j = .ok L) (h1 : j.numOfSegments = none) (h2 : j.order = none)
    (hlim : L.segments < 1000) :
    Resolved k f L.material.eps L.material.mu (j.bulkConductivity.getD 0) L.width L.segments L.order := by
  obtain ⟨sigma, width, mat, hsig, _, hmat, rfl, rfl, ho, hseg, _⟩ := parse_ok k f j L h
  rw [C19_values] at hmat
  split_ifs at hmat with hp
  simp only [Except.ok.injEq] at hmat
  obtain ⟨p1, p2, _⟩ := hp
  rw [h2] at ho
  rw [h1] at hseg
  simp only [Option.getD_none] at ho hseg
  rw [hsig, ← hmat]
  simp only [Option.getD_some]
  generalize j.relPermittivity.getD 1 = e at *
  generalize j.relPermeability.getD 1 = m at *
  have hpos : 0 < L.order := by
    rw [ho]; rcases autoOrder_cases k f e sigma with h | h | h <;> omega
  rw [← ho] at hseg
  have hT := targetDx_pos k f e m sigma L.order hpos hf p1 p2
  have hn4 : 4 ≤ L.segments := by
    have := (clamp_range ⌈L.width / targetDx k f e m sigma L.order⌉).1; omega
  have hcl : ⌈L.width / targetDx k f e m sigma L.order⌉ ≤ (L.segments : Int) := by
    generalize ⌈L.width / targetDx k f e m sigma L.order⌉ = x at hseg
    unfold clamp at hseg
    split_ifs at hseg <;> omega
  have hle : L.width / targetDx k f e m sigma L.order ≤ (L.segments : ℝ) :=
    (Int.le_ceil _).trans (by exact_mod_cast hcl)
  have hnpos : (0 : ℝ) < (L.segments : ℝ) := by exact_mod_cast (by omega : 0 < L.segments)
  have hdx : L.width / (L.segments : ℝ) ≤ targetDx k f e m sigma L.order := by
    rw [div_le_iff₀ hnpos]
    rw [div_le_iff₀ hT] at hle
    linarith
  obtain ⟨s1, s2⟩ := segs_pos L.order hpos
  have hwv := wavelength_pos k f e m hf p1 p2
  have hop : (0 : ℝ) < (L.order : ℝ) := by exact_mod_cast hpos
  have hwave : targetDx k f e m sigma L.order ≤ wavelength k f e m / (segsPerWavelength L.order : ℝ) := by
    unfold targetDx; split_ifs
    · exact min_le_left _ _
    · exact le_refl _
  refine ⟨⟨_, wavelength_is k f e m hf p1 p2, ?_⟩, ?_⟩
  · have h3 := hdx.trans hwave
    rw [le_div_iff₀ s2] at h3
    by_cases hw0 : 0 ≤ L.width / (L.segments : ℝ)
    · nlinarith
    · nlinarith
  · intro hs
    have : targetDx k f e m sigma L.order ≤ skinDepth k f m sigma / 2 := by
      unfold targetDx; rw [if_pos hs]; exact min_le_right _ _
    exact ⟨_, skinDepth_is k f m sigma hf p2 hs, by linarith [hdx.trans this]⟩

/-- **C58.** No more segments than needed: with one less (and more than the minimum of four) the target size
would be exceeded. -/
theorem C58_not_wasteful (k : Consts) (f : ℝ) (hf : 0 < f) (j : LayerJson) (L : Layer)
    (h : parseLayer k f j = .ok L) (h1 : j.numOfSegments = none) (h2 : j.order = none)
    (h4 : 4 < L.segments) :
    TooLong k f L.material.eps L.material.mu (j.bulkConductivity.getD 0) (L.width / ((L.segments : ℝ) - 1)) L.order := by
  obtain ⟨sigma, width, mat, hsig, _, hmat, rfl, rfl, ho, hseg, _⟩ := parse_ok k f j L h
  rw [C19_values] at hmat
  split_ifs at hmat with hp
  simp only [Except.ok.injEq] at hmat
  obtain ⟨p1, p2, _⟩ := hp
  rw [h2] at ho
  rw [h1] at hseg
  simp only [Option.getD_none] at ho hseg
  rw [hsig, ← hmat]
  simp only [Option.getD_some]
  generalize j.relPermittivity.getD 1 = e at *
  generalize j.relPermeability.getD 1 = m at *
  have hpos : 0 < L.order := by
    rw [ho]; rcases autoOrder_cases k f e sigma with h | h | h <;> omega
  rw [← ho] at hseg
  have hT := targetDx_pos k f e m sigma L.order hpos hf p1 p2
  have hcl : (L.segments : Int) ≤ ⌈L.width / targetDx k f e m sigma L.order⌉ := by
    generalize ⌈L.width / targetDx k f e m sigma L.order⌉ = x at hseg
    unfold clamp at hseg
    split_ifs at hseg <;> omega
  have hlt : ((L.segments : Int) - 1 : Int) < ⌈L.width / targetDx k f e m sigma L.order⌉ := by omega
  rw [Int.lt_ceil] at hlt
  push_cast at hlt
  have hn : (0 : ℝ) < (L.segments : ℝ) - 1 := by
    have : (4 : ℝ) < (L.segments : ℝ) := by exact_mod_cast h4
    linarith
  rw [lt_div_iff₀ hT] at hlt
  have hlt' : targetDx k f e m sigma L.order < L.width / ((L.segments : ℝ) - 1) := by
    rw [lt_div_iff₀ hn]; linarith
  have hseg2 := (segs_pos L.order hpos).2
  have hwave : wavelength k f e m / (segsPerWavelength L.order : ℝ) < L.width / ((L.segments : ℝ) - 1) →
      ∃ l, IsWavelength k f e m l ∧ l < (⌈(20 : ℝ) / L.order⌉ : Int) * (L.width / ((L.segments : ℝ) - 1)) := by
    intro hw
    refine ⟨_, wavelength_is k f e m hf p1 p2, ?_⟩
    rw [div_lt_iff₀ hseg2] at hw
    rw [mul_comm]
    exact hw
  unfold targetDx at hlt'
  split_ifs at hlt' with hs
  · rcases min_lt_iff.1 hlt' with h | h
    · exact Or.inl (hwave h)
    · exact Or.inr ⟨hs, _, skinDepth_is k f m sigma hf p2 hs, by linarith⟩
  · exact Or.inl (hwave hlt')

/-- **C58.** The thickness of a conducting layer is reported in skin depths at the given frequency, and a layer without
losses reports none. -/
theorem C58_depths (k : Consts) (f : ℝ) (hf : 0 < f) (j : LayerJson) (L : Layer) (h : parseLayer k f j = .ok L) (sigma : ℝ)
    (hs : j.bulkConductivity = some sigma) :
    (0 < sigma → ∃ d, IsSkinDepth k f L.material.mu sigma d ∧ L.width = L.nSkinDepths * d) ∧
    (sigma ≤ 0 → L.nSkinDepths = 0) := by
  obtain ⟨sigma', width, mat, hsig, _, hmat, rfl, rfl, _, _, hd⟩ := parse_ok k f j L h
  rw [hs] at hsig
  simp only [Option.some.injEq] at hsig
  subst hsig
  rw [C19_values] at hmat
  split_ifs at hmat with hp
  simp only [Except.ok.injEq] at hmat
  rw [← hmat]
  constructor
  · intro h0
    have hpos := skinDepth_pos k f (j.relPermeability.getD 1) sigma hf hp.2.1 h0
    refine ⟨_, skinDepth_is k f _ sigma hf hp.2.1 h0, ?_⟩
    rw [hd, if_pos ⟨h0, hpos⟩]
    exact (div_mul_cancel₀ _ hpos.ne').symm
  · intro h0
    rw [hd, if_neg (fun h => absurd h.1 (not_lt.2 h0))]

/-- **C58.** The order decreases with the losses: two for good conductors, four for very small losses. -/
theorem C58_order (k : Consts) (f : ℝ) (j : LayerJson) (L : Layer) (h : parseLayer k f j = .ok L)
    (h2 : j.order = none) (sigma : ℝ) (hs : j.bulkConductivity = some sigma) (h0 : 0 < sigma) :
    (L.order = 2 ↔ 100 < sigma / (f * (L.material.eps * k.eps0))) ∧
    (L.order = 4 ↔ sigma / (f * (L.material.eps * k.eps0)) < 1 / 10 ∧ sigma < 1 / 1000) := by
  obtain ⟨sigma', width, mat, hsig, _, hmat, rfl, rfl, ho, _, _⟩ := parse_ok k f j L h
  rw [hs] at hsig
  simp only [Option.some.injEq] at hsig
  subst hsig
  rw [C19_values] at hmat
  split_ifs at hmat with hp
  simp only [Except.ok.injEq] at hmat
  rw [h2] at ho
  simp only [Option.getD_none] at ho
  rw [ho, ← hmat]
  simp only
  have hpe : peclet k f (j.relPermittivity.getD 1) sigma =
      sigma / (f * (j.relPermittivity.getD 1 * k.eps0)) := by unfold peclet; rw [if_pos h0]
  unfold autoOrder
  rw [hpe]
  generalize sigma / (f * (j.relPermittivity.getD 1 * k.eps0)) = x
  constructor
  · split_ifs with a b <;> simp <;> first | exact a | exact not_lt.1 a
  · split_ifs with a b
    · simp; intro hx; linarith
    · simp only [true_iff]; exact b
    · simp only [Nat.reduceEqDiff, false_iff]; exact b

/-- **C58, limits of the claim.** When the number of segments needed does not fit an integer, the conversion
is undefined: the limit of a thousand does not protect against it. -/
theorem C58_too_large_undefined (k : Consts) (f : ℝ) (j : LayerJson) (sigma width : ℝ)
    (hs : j.bulkConductivity = some sigma) (hw : j.materialWidth = some width)
    (hp : 1 ≤ j.relPermittivity.getD 1 ∧ 1 ≤ j.relPermeability.getD 1 ∧ 0 ≤ sigma)
    (hbig : 2147483647 < width / targetDx k f (j.relPermittivity.getD 1) (j.relPermeability.getD 1) sigma
      (autoOrder k f (j.relPermittivity.getD 1) sigma)) : parseLayer k f j = .error .ub := by
  unfold parseLayer
  simp only [hs, hw]
  rw [C19_values, if_pos ⟨hp.1, hp.2.1, mul_nonneg hp.2.2 k.Z0_pos.le⟩]
  simp only
  unfold toInt
  rw [if_neg]
  rintro ⟨_, h⟩
  have h2 : (2147483647 : Int) < ⌈width / targetDx k f (j.relPermittivity.getD 1) (j.relPermeability.getD 1)
      sigma (autoOrder k f (j.relPermittivity.getD 1) sigma)⌉ := by
    rw [Int.lt_ceil]; exact_mod_cast hbig
  omega

/-- Units in which all the constants are one. -/
def unitConsts : Consts := ⟨1, 1, 1, one_pos, one_pos, one_pos⟩

/-- A lossless layer of a hundred wavelengths. -/
noncomputable def demoLayer : LayerJson := ⟨some 1, none, some 0, some 100, none, none⟩

theorem demo_target : targetDx unitConsts 1 1 1 0 (autoOrder unitConsts 1 1 0) = 1 / 5 := by
  have h1 : autoOrder unitConsts 1 1 0 = 4 := by unfold autoOrder peclet; norm_num
  have h2 : segsPerWavelength 4 = 5 := by
    unfold segsPerWavelength; norm_num
  rw [h1]
  unfold targetDx wavelength
  rw [h2]
  simp [unitConsts]

theorem demo_parses : ∃ L, parseLayer unitConsts 1 demoLayer = .ok L ∧ L.segments = 500 := by
  unfold parseLayer demoLayer
  simp only [Option.getD_some, Option.getD_none]
  rw [C19_values, demo_target]
  have : toInt ((100 : ℝ) / (1 / 5)) = .ok 500 := by
    unfold toInt
    have : ⌈(100 : ℝ) / (1 / 5)⌉ = 500 := by norm_num
    rw [this]; simp
  rw [this]
  norm_num
  decide

example : ∃ L, parseLayer unitConsts 1 demoLayer = .ok L ∧ demoLayer.numOfSegments = none ∧
    demoLayer.order = none ∧ 4 < L.segments ∧ L.segments < 1000 := by
  obtain ⟨L, h, hs⟩ := demo_parses
  exact ⟨L, h, rfl, rfl, by omega, by omega⟩

example : (2147483647 : ℝ) < 10 ^ 9 / targetDx unitConsts 1 1 1 0 (autoOrder unitConsts 1 1 0) := by
  rw [demo_target]; norm_num

/-! ### C58: ends of thin layers -/

/-- **C58.** The conditions at the ends are those written at the boundary; those of its material are used
exactly when the boundary writes none. -/
theorem C58_ends (b : Option EndsJson) (m : Option (Option EndsJson))
    (hb : ∀ j, b = some j → EndWord j.left ∧ EndWord j.right)
    (hm : ∀ j, m = some (some j) → EndWord j.left ∧ EndWord j.right) :
    ∃ e, layerEnds b m = .ok e ∧
      (((b.bind (·.left)).isSome = true ∨ (b.bind (·.right)).isSome = true) →
        (e.leftOn, e.leftCond) = endOf (b.bind (·.left)) ∧ (e.rightOn, e.rightCond) = endOf (b.bind (·.right))) ∧
      (b.bind (·.left) = none → b.bind (·.right) = none →
        (e.leftOn, e.leftCond) = endOf (m.bind fun x => x.bind (·.left)) ∧
        (e.rightOn, e.rightCond) = endOf (m.bind fun x => x.bind (·.right))) := by
  have key : ∀ src : Option EndsJson, (∀ j, src = some j → EndWord j.left ∧ EndWord j.right) →
      parseEnds src ⟨false, .sma, false, .sma⟩ =
        .ok ⟨(endOf (src.bind (·.left))).1, (endOf (src.bind (·.left))).2,
          (endOf (src.bind (·.right))).1, (endOf (src.bind (·.right))).2⟩ := by
    intro src h
    cases src with
    | none => rfl
    | some j =>
      obtain ⟨h1, h2⟩ := h j rfl
      have aux : ∀ w : String, (w = "PEC" ∨ w = "PMC" ∨ w = "SMA") →
          assignBoundaryType w = .ok (endOf (some w)).2 ∧ (endOf (some w)).1 = true := by
        intro w hw
        rcases hw with rfl | rfl | rfl <;> simp [assignBoundaryType, endOf]
      unfold parseEnds
      cases hl : j.left with
      | none =>
        cases hr : j.right with
        | none => simp [hl, hr, endOf]
        | some r =>
          obtain ⟨a1, a2⟩ := aux r (h2 r hr)
          simp [hl, hr, a1, a2]
          simp [endOf]
      | some l =>
        obtain ⟨b1, b2⟩ := aux l (h1 l hl)
        cases hr : j.right with
        | none => simp [hl, hr, b1, b2]; simp [endOf]
        | some r =>
          obtain ⟨a1, a2⟩ := aux r (h2 r hr)
          simp [hl, hr, a1, a2, b1, b2]
  have hon : ∀ s : Option String, (endOf s).1 = s.isSome := by
    intro s
    cases s with
    | none => rfl
    | some w => unfold endOf; simp only; split_ifs <;> rfl
  unfold layerEnds
  rw [key b hb]
  simp only [hon]
  by_cases h : (b.bind (·.left)).isSome = true ∨ (b.bind (·.right)).isSome = true
  · have : ¬ ((!(b.bind (·.left)).isSome && !(b.bind (·.right)).isSome) = true) := by
      simp only [Bool.and_eq_true, Bool.not_eq_true', not_and, Bool.not_eq_false]
      rcases h with h | h
      · intro h'; rw [h] at h'; simp at h'
      · intro _; exact h
    rw [if_neg this]
    refine ⟨_, rfl, fun _ => ⟨Prod.ext (hon _).symm rfl, Prod.ext (hon _).symm rfl⟩, fun e1 e2 => ?_⟩
    rw [e1, e2] at h
    simp at h
  · have hl : b.bind (·.left) = none := by
      by_contra hc; exact h (Or.inl (Option.isSome_iff_ne_none.2 hc))
    have hr : b.bind (·.right) = none := by
      by_contra hc; exact h (Or.inr (Option.isSome_iff_ne_none.2 hc))
    rw [hl, hr]
    simp only [Option.isSome_none, Bool.not_false, Bool.and_self, if_true]
    cases m with
    | none => exact ⟨_, rfl, by simp, fun _ _ => ⟨rfl, rfl⟩⟩
    | some x =>
      have hk := key x (fun j hj => hm j (by rw [hj]))
      simp only [endOf] at hk ⊢
      refine ⟨_, hk, by simp, fun _ _ => ⟨rfl, rfl⟩⟩

example : layerEnds (some ⟨none, none⟩) (some (some ⟨some "PEC", none⟩)) = .ok ⟨true, .pec, false, .sma⟩ ∧
    layerEnds (some ⟨none, some "PMC"⟩) (some (some ⟨some "PEC", none⟩)) = .ok ⟨false, .sma, true, .pmc⟩ := by
  constructor <;> decide

end Dgtd.Layer
