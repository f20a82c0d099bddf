/-
C54, C56 and C68: requests for cross sections.
-/
import Verif.Model.RcsDriver
import Verif.Props.Rcs

namespace Dgtd.Rcs

open Spec

noncomputable section

/-! ### C56 -/

/-- C56: the grid has the requested number of points. -/
theorem C56_count (a b : ℝ) (n : Nat) : (linspace a b n).length = n := by
  rcases n with _ | _ | n <;> simp [linspace]

/-- C56: points are evenly spaced from the first value to the last one. -/
theorem C56_values (a b : ℝ) (n i : Nat) (h : i < n) :
    (linspace a b n)[i]? = some (if n = 1 then a else a + (b - a) * ((i : ℝ) / ((n : ℝ) - 1))) := by
  rcases n with _ | _ | n
  · omega
  · have : i = 0 := by omega
    subst this
    simp [linspace]
  · rw [if_neg (by omega)]
    simp only [linspace, List.getElem?_map, List.getElem?_range h, Option.map_some, Option.some.injEq]
    push_cast
    ring

theorem C56_first (a b : ℝ) (n : Nat) (h : 0 < n) : (linspace a b n)[0]? = some a := by
  rw [C56_values a b n 0 h]
  simp

theorem C56_last (a b : ℝ) (n : Nat) (h : 2 ≤ n) : (linspace a b n)[n - 1]? = some b := by
  rw [C56_values a b n (n - 1) (by omega), if_neg (by omega)]
  have h1 : ((n - 1 : ℕ) : ℝ) = (n : ℝ) - 1 := by rw [Nat.cast_sub (by omega)]; simp
  have h2 : (n : ℝ) - 1 ≠ 0 := by
    have : (2 : ℝ) ≤ n := by exact_mod_cast h
    linarith
  rw [h1, div_self h2]
  simp

/-- C56: no point is outside the interval. -/
theorem C56_inside (a b : ℝ) (hab : a ≤ b) (n : Nat) : ∀ x ∈ linspace a b n, a ≤ x ∧ x ≤ b := by
  intro x hx
  obtain ⟨i, hi, rfl⟩ := List.getElem_of_mem hx
  rw [C56_count] at hi
  have h := C56_values a b n i hi
  rw [List.getElem?_eq_getElem (by rw [C56_count]; exact hi), Option.some.injEq] at h
  rw [h]
  split
  · exact ⟨le_refl _, hab⟩
  · next hn =>
    have h1 : (i : ℝ) ≤ (n : ℝ) - 1 := by
      have : (i : ℝ) + 1 ≤ n := by exact_mod_cast hi
      linarith
    have h2 : (0 : ℝ) < (n : ℝ) - 1 := by
      have : (2 : ℝ) ≤ n := by exact_mod_cast (by omega : 2 ≤ n)
      linarith
    have h3 : 0 ≤ (i : ℝ) / ((n : ℝ) - 1) := by positivity
    have h4 : (i : ℝ) / ((n : ℝ) - 1) ≤ 1 := by rw [div_le_one h2]; exact h1
    constructor <;> nlinarith

/-- C56: the points are different from each other exactly if the ends are, or there is at most one. -/
theorem C56_distinct (a b : ℝ) (n : Nat) : (linspace a b n).Nodup ↔ n ≤ 1 ∨ a ≠ b := by
  rcases n with _ | _ | n
  · simp [linspace]
  · simp [linspace]
  · constructor
    · intro h
      right
      rintro rfl
      have h0 := C56_values a a (n + 2) 0 (by omega)
      have h1 := C56_values a a (n + 2) 1 (by omega)
      simp only [sub_self, zero_mul, add_zero, ite_self] at h0 h1
      have hl : 1 < (linspace a a (n + 2)).length := by rw [C56_count]; omega
      have hl0 : 0 < (linspace a a (n + 2)).length := by omega
      rw [List.getElem?_eq_getElem hl0, Option.some.injEq] at h0
      rw [List.getElem?_eq_getElem hl, Option.some.injEq] at h1
      have := (List.Nodup.getElem_inj_iff h (hi := hl0) (hj := hl)).1 (h0.trans h1.symm)
      omega
    · rintro (h | h)
      · omega
      · simp only [linspace]
        apply List.Nodup.map _ List.nodup_range
        intro i j hij
        simp only [add_right_inj] at hij
        have hd : (b - a) / ((n + 1 : ℕ) : ℝ) ≠ 0 := by
          apply div_ne_zero (sub_ne_zero.2 (Ne.symm h))
          exact_mod_cast Nat.succ_ne_zero n
        have := mul_right_cancel₀ hd hij
        exact_mod_cast this

lemma angleList_eq (ts ps : List ℝ) : angleList ts ps = ts.flatMap fun t => ps.map fun p => ⟨t, p⟩ := by
  have inner : ∀ (ps : List ℝ) (t : ℝ) (acc : List Angles),
      ps.foldl (fun acc p => acc ++ [(⟨t, p⟩ : Angles)]) acc = acc ++ ps.map fun p => ⟨t, p⟩ := by
    intro ps t
    induction ps with
    | nil => intro acc; simp
    | cons p ps ih => intro acc; simp [ih]
  have outer : ∀ (ts : List ℝ) (acc : List Angles),
      ts.foldl (fun acc t => ps.foldl (fun acc p => acc ++ [(⟨t, p⟩ : Angles)]) acc) acc =
        acc ++ ts.flatMap fun t => ps.map fun p => ⟨t, p⟩ := by
    intro ts
    induction ts with
    | nil => intro acc; simp
    | cons t ts ih => intro acc; rw [List.foldl_cons, inner, ih]; simp
  unfold angleList
  rw [outer]
  simp

/-- C56: the directions are all pairs, `theta` varying slowest. -/
theorem C56_product (ts ps : List ℝ) :
    (angleList ts ps).length = ts.length * ps.length ∧
    (∀ a, a ∈ angleList ts ps ↔ a.theta ∈ ts ∧ a.phi ∈ ps) ∧
    ∀ i j t p, ts[i]? = some t → ps[j]? = some p → (angleList ts ps)[i * ps.length + j]? = some ⟨t, p⟩ := by
  rw [angleList_eq]
  refine ⟨?_, ?_, ?_⟩
  · induction ts with
    | nil => simp
    | cons t ts ih => simp only [List.flatMap_cons, List.length_append, ih, List.length_map, List.length_cons]; ring
  · rintro ⟨t, p⟩
    simp only [List.mem_flatMap, List.mem_map, Angles.mk.injEq]
    constructor
    · rintro ⟨t', ht, p', hp, rfl, rfl⟩; exact ⟨ht, hp⟩
    · rintro ⟨ht, hp⟩; exact ⟨t, ht, p, hp, rfl, rfl⟩
  · induction ts with
    | nil => intro i j t p h; simp at h
    | cons t0 ts ih =>
      intro i j t p hi hj
      have hjl : j < ps.length := by
        by_contra hc
        rw [List.getElem?_eq_none (by omega)] at hj
        cases hj
      cases i with
      | zero =>
        simp only [List.getElem?_cons_zero, Option.some.injEq] at hi
        subst hi
        rw [List.flatMap_cons, List.getElem?_append_left (by simp; omega)]
        simp [hj]
      | succ i =>
        rw [List.getElem?_cons_succ] at hi
        rw [List.flatMap_cons, List.getElem?_append_right (by simp; nlinarith), List.length_map,
          show (i + 1) * ps.length + j - ps.length = i * ps.length + j from by
            rw [Nat.succ_mul]; omega]
        exact ih i j t p hi hj

/-- C56: no direction is repeated if none of the two grids repeats a value. -/
theorem C56_product_distinct (ts ps : List ℝ) (ht : ts.Nodup) (hp : ps.Nodup) : (angleList ts ps).Nodup := by
  rw [angleList_eq, List.nodup_flatMap]
  refine ⟨fun t _ => hp.map fun p q h => by simpa using h, ?_⟩
  apply List.Pairwise.imp _ ht
  intro t t' htt
  simp only [Function.onFun]
  intro a ha hb
  obtain ⟨p, _, rfl⟩ := List.mem_map.1 ha
  obtain ⟨q, _, hq⟩ := List.mem_map.1 hb
  simp only [Angles.mk.injEq] at hq
  exact htt hq.1.symm

example : linspace 0 90 4 = [0, 30, 60, 90] := by
  simp [linspace, List.range_succ]
  norm_num

/-! ### C68 for requests -/

/-- C68 (partial): a request whose grids have different ends, or at most one point, asks for each direction and frequency
once, so `C48_far_field` applies. -/
theorem C68_request_partial (f0 f1 : ℝ) (nf : Nat) (t0 t1 : ℝ) (nt : Nat) (p0 p1 : ℝ) (np : Nat)
    (hf : nf ≤ 1 ∨ f0 ≠ f1) (ht : nt ≤ 1 ∨ t0 ≠ t1) (hp : np ≤ 1 ∨ p0 ≠ p1) :
    (linspace f0 f1 nf).Nodup ∧ (angleList (linspace t0 t1 nt) (linspace p0 p1 np)).Nodup :=
  ⟨(C56_distinct f0 f1 nf).2 hf, C56_product_distinct _ _ ((C56_distinct t0 t1 nt).2 ht) ((C56_distinct p0 p1 np).2 hp)⟩

/-- C68 fails for requests with equal ends and several steps: every direction of an `m`-step grid with equal ends is listed `m`
times, so the intensity carries a factor `m²` (`C68_repetition_scales`). -/
theorem C68_request_repeats (t p : ℝ) (m : Nat) : occ (⟨t, p⟩ : Angles) (angleList (linspace t t m) (linspace p p 1)) = m := by
  classical
  rw [angleList_eq]
  have h : linspace t t m = List.replicate m t := by
    rw [List.eq_replicate_iff]
    refine ⟨C56_count t t m, fun x hx => ?_⟩
    have := C56_inside t t (le_refl t) m x hx
    linarith
  rw [h]
  unfold occ
  simp [linspace, List.flatMap_replicate]

/-! ### C54 -/

/-- C54 fails: for every case without plane wave the check does not fire, and placeholder values are returned. -/
theorem C54_violated (sources : List JsonSource) (h : ∀ s ∈ sources, s.planewave = false) :
    buildPlaneWaveData sources = some ⟨-100000, -100000, 0⟩ := by
  have hl : ∀ (l : List JsonSource) (pw : PlaneWave), (∀ s ∈ l, s.planewave = false) → l.foldl planeWaveLoop pw = pw := by
    intro l
    induction l with
    | nil => intro pw _; rfl
    | cons s l ih =>
      intro pw hs
      rw [List.foldl_cons, show planeWaveLoop pw s = pw from by simp [planeWaveLoop, hs s (by simp)]]
      exact ih pw fun s' h' => hs s' (List.mem_cons_of_mem _ h')
  unfold buildPlaneWaveData
  rw [hl sources _ h]
  norm_num

/-- C54 (partial): with plane waves, the parameters of the last one are returned (frequency: the last one given), unless its
spread or mean is the magic number. -/
theorem C54_last_wave_partial (before after : List JsonSource) (s : JsonSource) (hs : s.planewave = true)
    (ha : ∀ s ∈ after, s.planewave = false) (pw : PlaneWave) (h : buildPlaneWaveData (before ++ s :: after) = some pw) :
    pw.spread = s.spread ∧ pw.mean = projMean s ∧ ∀ f, s.frequencyHz = some f → pw.frequency = f / cSI := by
  have hl : ∀ (l : List JsonSource) (pw : PlaneWave), (∀ s ∈ l, s.planewave = false) → l.foldl planeWaveLoop pw = pw := by
    intro l
    induction l with
    | nil => intro pw _; rfl
    | cons s l ih =>
      intro pw hs
      rw [List.foldl_cons, show planeWaveLoop pw s = pw from by simp [planeWaveLoop, hs s (by simp)]]
      exact ih pw fun s' h' => hs s' (List.mem_cons_of_mem _ h')
  unfold buildPlaneWaveData at h
  rw [List.foldl_append, List.foldl_cons, hl after _ ha] at h
  simp only at h
  split at h
  · cases h
  · cases h
    simp only [planeWaveLoop, hs, if_true, true_and]
    intro f hf
    rw [hf]

/-- A case with a dipole only; one with a plane wave. -/
example : buildPlaneWaveData [⟨false, 0, none, none, none⟩] = some ⟨-100000, -100000, 0⟩ :=
  C54_violated _ (by simp)
example : buildPlaneWaveData [⟨false, 0, none, none, none⟩, ⟨true, 2, some (-7), none, none⟩] = some ⟨2, -7, 0⟩ := by
  simp [buildPlaneWaveData, planeWaveLoop, projMean]
  norm_num

end

end Dgtd.Rcs
