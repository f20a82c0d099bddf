/-
A line of cells with one value each between two conducting walls, centred fluxes.
-/
import Verif.Lemmas.OpFrame
import Verif.Lemmas.OpEnergy
import Verif.Props.TimeInt

set_option linter.unusedSectionVars false

namespace Dgtd.Line

open Dgtd.Op Dgtd.Op.Spec

/-- The point of a face with normal `s`. -/
noncomputable def linePt (s : ℝ) : Pt ℝ := ⟨1, 1, [s], fun _ => 1, fun _ => 1⟩

/-- The face between cells `i` and `j`. -/
noncomputable def lineFace {m : ℕ} (i j : Fin (m + 1)) : Face (Fin (m + 1)) ℝ :=
  ⟨1, 1, fun k => if k = 0 then i else j, [linePt 1]⟩

/-- The wall at cell `i`. -/
noncomputable def lineWall {m : ℕ} (i : Fin (m + 1)) (s : ℝ) : Face (Fin (m + 1)) ℝ := ⟨1, 0, fun _ => i, [linePt s]⟩

/-- `m + 1` cells of unit size in vacuum. -/
noncomputable def line (m : ℕ) : Prob (Fin (m + 1)) ℝ where
  dim := 1
  alpha := 0
  interior := (List.finRange m).map fun i => (none, lineFace i.castSucc i.succ)
  bdr := [(some .PEC, lineWall 0 (-1)), (some .PEC, lineWall (Fin.last m) 1)]
  Minv := fun _ => 1
  Msig := 0
  D := fun _ => 0

lemma lineFace_tr1 {m : ℕ} (i j : Fin (m + 1)) (p : Pt ℝ) (hp : p = linePt 1) (v : Fin (m + 1) → ℝ) : tr1 (lineFace i j) p v = v i := by
  simp [tr1, lineFace, hp, linePt]

lemma lineFace_tr2 {m : ℕ} (i j : Fin (m + 1)) (p : Pt ℝ) (hp : p = linePt 1) (v : Fin (m + 1) → ℝ) : tr2 (lineFace i j) p v = v j := by
  simp [tr2, lineFace, hp, linePt]

lemma lineWall_tr1 {m : ℕ} (i : Fin (m + 1)) (s : ℝ) (v : Fin (m + 1) → ℝ) : tr1 (lineWall i s) (linePt s) v = v i := by
  simp [tr1, lineWall, linePt]

lemma lineWall_tr2 {m : ℕ} (i : Fin (m + 1)) (s : ℝ) (p : Pt ℝ) (v : Fin (m + 1) → ℝ) : tr2 (lineWall i s) p v = 0 := by
  simp [tr2, lineWall]

lemma linePt_nor (s : ℝ) : normalTerm (linePt s).nor 0 = s ∧ normalTerm (linePt s).nor 1 = 0 ∧ normalTerm (linePt s).nor 2 = 0 := by
  refine ⟨?_, ?_, ?_⟩ <;> simp [normalTerm, linePt]

/-- Sum over the faces between cells. -/
lemma sum_faces {m : ℕ} (φ : Fin m → ℝ) : ((List.finRange m).map φ).sum = ∑ i, φ i := by
  rw [← List.ofFn_eq_map, List.sum_ofFn]

lemma sum_step {m : ℕ} (g : Fin (m + 1) → ℝ) : ∑ i : Fin m, (g i.castSucc - g i.succ) = g 0 - g (Fin.last m) := by
  have h1 := Fin.sum_univ_castSucc g
  have h2 := Fin.sum_univ_succ g
  rw [Finset.sum_sub_distrib]
  linarith

lemma line_good (m : ℕ) : Spec.Good (line m) (fun _ => 1) where
  dim_le := by simp [line]
  pts := by
    intro f hf p hp
    have key : ∃ s : ℝ, s ^ 2 = 1 ∧ p = linePt s := by
      unfold allFaces line at hf
      simp only [List.map_map, List.mem_append, List.mem_map, Function.comp_apply, List.map_cons, List.map_nil, List.mem_cons,
        List.not_mem_nil, or_false] at hf
      rcases hf with ⟨i, -, rfl⟩ | rfl | rfl
      · exact ⟨1, by norm_num, by simpa [lineFace] using hp⟩
      · exact ⟨-1, by norm_num, by simpa [lineWall] using hp⟩
      · exact ⟨1, by norm_num, by simpa [lineWall] using hp⟩
    obtain ⟨s, hs, rfl⟩ := key
    obtain ⟨h0, h1, h2⟩ := linePt_nor s
    refine ⟨by simp [linePt], by simp [linePt], by simp [linePt, line], ?_⟩
    rw [h0, h1, h2]
    simp [linePt, hs]
  sbp := by
    intro d hd v u
    have hd0 : d = 0 := by
      have : d.val = 0 := by simpa [line] using hd
      exact Fin.ext this
    subst hd0
    have hI : ∀ i : Fin m, faceBoundary (lineFace i.castSucc i.succ) 0 v u = v i.castSucc * u i.castSucc - v i.succ * u i.succ := by
      intro i
      unfold faceBoundary
      have : (lineFace i.castSucc i.succ).pts = [linePt 1] := rfl
      rw [this]
      simp only [List.map_cons, List.map_nil, List.sum_cons, List.sum_nil, lineFace_tr1 _ _ _ rfl, lineFace_tr2 _ _ _ rfl, (linePt_nor 1).1]
      simp [linePt]
    have hB : ∀ i s, faceBoundary (lineWall i s) 0 v u = s * (v i * u i) := by
      intro i s
      unfold faceBoundary
      have : (lineWall i s).pts = [linePt s] := rfl
      rw [this]
      simp only [List.map_cons, List.map_nil, List.sum_cons, List.sum_nil, lineWall_tr1, lineWall_tr2, (linePt_nor s).1]
      simp [linePt]
    have : (allFaces (line m)).map (fun f => faceBoundary f 0 v u) =
        (List.finRange m).map (fun i => v i.castSucc * u i.castSucc - v i.succ * u i.succ) ++ [-1 * (v 0 * u 0), 1 * (v (Fin.last m) * u (Fin.last m))] := by
      unfold allFaces line
      simp only [List.map_map, List.map_append, List.map_cons, List.map_nil, hB]
      congr 1
      exact List.map_congr_left fun i _ => hI i
    rw [this, List.sum_append, sum_faces, sum_step fun i => v i * u i]
    simp [line]
  bdr_cond := by simp [line]
  bdr_one_side := by simp [line, lineWall]
  no_sgbc := by simp [line]
  inv := by simp [line]
  symm := by simp

/-- What a cell receives from its two sides; `β`: the part of its own value a wall returns. -/
noncomputable def exchange {m : ℕ} (β : ℝ) (t : Fin (m + 1) → ℝ) (c : Fin (m + 1)) : ℝ :=
  (∑ i : Fin m, 1 / 2 * (t i.castSucc - t i.succ) * ((if i.castSucc = c then 1 else 0) + if i.succ = c then 1 else 0)) +
    (if Fin.last m = c then β * t c else 0) - if 0 = c then β * t c else 0

/-- The wall's share. -/
def wallShare : FieldT → ℝ
  | .E => 0
  | .H => 1

/-- Sign of a component's equation; components along the line do not change. -/
noncomputable def turn (f : FieldT) (d : Dir) : ℝ := sgn f * (if d = 1 then 1 else if d = 2 then -1 else 0)

/-- The component it is fed by. -/
def other (d : Dir) : Dir := if d = 1 then 2 else if d = 2 then 1 else 0

theorem line_mult {m : ℕ} (u : State (Fin (m + 1)) ℝ) (f : FieldT) (d : Dir) (c : Fin (m + 1)) :
    globalMult (line m) u f d c = turn f d * exchange (wallShare f) (u (altField f) (other d)) c := by
  have hg := line_good m
  have h1 := weak_mass (line m) (fun F hF p hp => (hg.pts F hF p hp).size) hg.inv u f d c
  rw [Matrix.one_mulVec] at h1
  rw [h1, weak_faces]
  have cT : ∀ (s : ℝ) (a : Dir → ℝ), sgn f * crossT (normalTerm (linePt s).nor) a d = turn f d * (s * a (other d)) := by
    intro s a
    obtain ⟨n0, n1, n2⟩ := linePt_nor s
    unfold crossT turn other
    obtain rfl | rfl | rfl : d = 0 ∨ d = 1 ∨ d = 2 := by fin_cases d <;> simp
    · simp [n1, n2]
    · have e1 : (1 : Dir) + 2 = 0 := rfl
      have e2 : (1 : Dir) + 1 = 2 := rfl
      rw [e1, e2, n0, n2]
      simp
    · have e1 : (2 : Dir) + 2 = 1 := rfl
      have e2 : (2 : Dir) + 1 = 0 := rfl
      rw [e1, e2, n0, n1]
      simp
  obtain ⟨v, hv⟩ : ∃ v : Fin (m + 1) → ℝ, v = Pi.single c 1 := ⟨_, rfl⟩
  rw [← hv]
  have hcurl : curlTerm (line m) u f d v = 0 := by
    have : ∀ x, derivativeSub (line m) x = 0 := fun x => by unfold derivativeSub line; simp
    simp [curlTerm, this, form]
  have hloss : lossTerm (line m) u f d v = 0 := by
    cases f <;> simp [lossTerm, form, line]
  have hI : ∀ i : Fin m, interiorTerm (line m).alpha u f d v none (lineFace i.castSucc i.succ) =
      turn f d * (1 / 2 * (u (altField f) (other d) i.castSucc - u (altField f) (other d) i.succ) * (v i.castSucc + v i.succ)) := by
    intro i
    unfold interiorTerm plainTerm plainPt
    have hp : (lineFace i.castSucc i.succ).pts = [linePt 1] := rfl
    have ha : (line m).alpha = 0 := rfl
    dsimp only
    rw [hp, ha]
    simp only [List.map_cons, List.map_nil, List.sum_cons, List.sum_nil, lineFace_tr1 _ _ _ rfl, lineFace_tr2 _ _ _ rfl, mul_one, cT, zero_mul, sub_zero]
    simp only [linePt]
    ring
  have hB : ∀ i s, exteriorTerm (line m).alpha u f d v (some .PEC) (lineWall i s) = turn f d * (s * wallShare f * u (altField f) (other d) i * v i) := by
    intro i s
    unfold exteriorTerm plainTerm plainPt
    have hp : (lineWall i s).pts = [linePt s] := rfl
    have ha : (line m).alpha = 0 := rfl
    dsimp only
    rw [hp, ha]
    have comm : ∀ b : ℝ, sgn f * b * crossT (normalTerm (linePt s).nor) (fun k => u (altField f) k i - 0) d =
        b * (turn f d * (s * u (altField f) (other d) i)) := by
      intro b
      have := cT s fun k => u (altField f) k i - 0
      rw [sub_zero] at this
      rw [← this]
      ring
    simp only [List.map_cons, List.map_nil, List.sum_cons, List.sum_nil, lineWall_tr1, lineWall_tr2, comm]
    cases f <;> simp [linePt, fluxCoeff, bdrCoeff, wallShare, altField]; ring
  have hint : ((line m).interior.map fun q => interiorTerm (line m).alpha u f d v q.1 q.2).sum =
      turn f d * ∑ i : Fin m, 1 / 2 * (u (altField f) (other d) i.castSucc - u (altField f) (other d) i.succ) * (v i.castSucc + v i.succ) := by
    have : (line m).interior = (List.finRange m).map fun i => (none, lineFace i.castSucc i.succ) := rfl
    rw [this, List.map_map]
    simp only [Function.comp_def]
    rw [sum_faces, Finset.mul_sum]
    exact Finset.sum_congr rfl fun i _ => hI i
  have hb : (line m).bdr = [(some .PEC, lineWall 0 (-1)), (some .PEC, lineWall (Fin.last m) 1)] := rfl
  rw [hint, hcurl, hloss, hb]
  simp only [List.map_cons, List.map_nil, List.sum_cons, List.sum_nil, hB]
  unfold exchange
  have hs : ∀ j, v j = if j = c then 1 else 0 := fun j => by rw [hv, Pi.single_apply]
  simp only [hs]
  rw [zero_add, sub_zero, add_zero, mul_sub, mul_add, sub_eq_add_neg, add_assoc]
  congr 1
  by_cases h0 : (0 : Fin (m + 1)) = c
  · by_cases hl : Fin.last m = c
    · rw [if_pos h0, if_pos hl, if_pos h0, if_pos hl, ← h0]; rw [h0, hl]; ring
    · rw [if_pos h0, if_neg hl, if_pos h0, if_neg hl, h0]; ring
  · by_cases hl : Fin.last m = c
    · rw [if_neg h0, if_pos hl, if_neg h0, if_pos hl, hl]; ring
    · rw [if_neg h0, if_neg hl, if_neg h0, if_neg hl]; ring

/-! ### The exchange cell by cell -/

lemma exchange_sum {m : ℕ} (g : Fin m → ℝ) (c : Fin (m + 1)) :
    (∑ i : Fin m, g i * ((if i.castSucc = c then 1 else 0) + if i.succ = c then 1 else 0)) =
      (if h : c.val < m then g ⟨c.val, h⟩ else 0) + if h : 0 < c.val then g ⟨c.val - 1, by omega⟩ else 0 := by
  have e : ∀ i : Fin m, g i * ((if i.castSucc = c then (1 : ℝ) else 0) + if i.succ = c then 1 else 0) =
      (if i.castSucc = c then g i else 0) + if i.succ = c then g i else 0 := by
    intro i
    split_ifs <;> ring
  rw [Finset.sum_congr rfl fun i _ => e i, Finset.sum_add_distrib]
  congr 1
  · split_ifs with h
    · rw [Finset.sum_eq_single (⟨c.val, h⟩ : Fin m)]
      · exact if_pos (Fin.ext rfl)
      · intro i _ hi
        refine if_neg fun hc => hi (Fin.ext ?_)
        simpa using congrArg Fin.val hc
      · simp
    · refine Finset.sum_eq_zero fun i _ => if_neg fun hc => h ?_
      rw [← hc]
      exact i.isLt
  · split_ifs with h
    · rw [Finset.sum_eq_single (⟨c.val - 1, by omega⟩ : Fin m)]
      · exact if_pos (Fin.ext (by simp; omega))
      · intro i _ hi
        refine if_neg fun hc => hi (Fin.ext ?_)
        have := congrArg Fin.val hc
        simp at this ⊢
        omega
      · simp
    · refine Finset.sum_eq_zero fun i _ => if_neg fun hc => h ?_
      rw [← hc]
      simp

/-- Away from the walls. -/
lemma exchange_inside {m : ℕ} (β : ℝ) (t : ℕ → ℝ) (c : Fin (m + 1)) (h0 : 0 < c.val) (hm : c.val < m) :
    exchange β (fun i => t i.val) c = 1 / 2 * (t (c.val - 1) - t (c.val + 1)) := by
  unfold exchange
  rw [exchange_sum, dif_pos hm, dif_pos h0, if_neg, if_neg]
  · simp only [Fin.val_castSucc, Fin.val_succ]
    rw [Nat.sub_add_cancel h0]
    ring
  · intro h; rw [← h] at h0; simp at h0
  · intro h; rw [← h] at hm; simp at hm

/-- Whatever happens at the walls, a cell receives at most twice the largest value. -/
lemma exchange_le {m : ℕ} {β : ℝ} (h0 : 0 ≤ β) (h1 : β ≤ 1) {t : Fin (m + 1) → ℝ} {B : ℝ} (ht : ∀ i, |t i| ≤ B) (c : Fin (m + 1)) :
    |exchange β t c| ≤ 2 * B := by
  have hB : 0 ≤ B := (abs_nonneg _).trans (ht 0)
  have b1 : ∀ i j, |1 / 2 * (t i - t j)| ≤ B := by
    intro i j
    have := abs_sub (t i) (t j)
    rw [abs_mul, abs_of_pos (by norm_num : (0 : ℝ) < 1 / 2)]
    linarith [ht i, ht j]
  have b2 : |β * t c| ≤ B := by
    rw [abs_mul, abs_of_nonneg h0]
    nlinarith [ht c, abs_nonneg (t c)]
  have key : ∃ x y, exchange β t c = x + y ∧ |x| ≤ B ∧ |y| ≤ B := by
    unfold exchange
    rw [exchange_sum]
    by_cases hm : c.val < m
    · have l : Fin.last m ≠ c := fun h => by rw [← h] at hm; simp at hm
      rw [dif_pos hm, if_neg l]
      by_cases h : 0 < c.val
      · have z : (0 : Fin (m + 1)) ≠ c := fun h' => by rw [← h'] at h; simp at h
        rw [dif_pos h, if_neg z]
        exact ⟨_, _, by rw [add_zero, sub_zero], b1 _ _, b1 _ _⟩
      · have z : (0 : Fin (m + 1)) = c := Fin.ext (by simp; omega)
        rw [dif_neg h, if_pos z]
        exact ⟨_, -(β * t c), by rw [add_zero, add_zero, sub_eq_add_neg], b1 _ _, by rwa [abs_neg]⟩
    · have l : Fin.last m = c := Fin.ext (by simp; omega)
      rw [dif_neg hm, if_pos l]
      by_cases h : 0 < c.val
      · have z : (0 : Fin (m + 1)) ≠ c := fun h' => by rw [← h'] at h; simp at h
        rw [dif_pos h, if_neg z]
        exact ⟨_, _, by rw [zero_add, sub_zero], b1 _ _, b2⟩
      · have z : (0 : Fin (m + 1)) = c := Fin.ext (by simp; omega)
        rw [dif_neg h, if_pos z]
        exact ⟨0, 0, by ring, by simpa using hB, by simpa using hB⟩
  obtain ⟨x, y, e, hx, hy⟩ := key
  rw [e]
  have := abs_add_le x y
  linarith

/-- A cell with nothing in it and next to it receives nothing. -/
lemma exchange_zero {m : ℕ} {β : ℝ} {t : Fin (m + 1) → ℝ} {c : Fin (m + 1)}
    (h : ∀ i : Fin (m + 1), c.val ≤ i.val + 1 → i.val ≤ c.val + 1 → t i = 0) : exchange β t c = 0 := by
  unfold exchange
  rw [exchange_sum, h c (by omega) (by omega), mul_zero, ite_self, ite_self]
  have a : (if h : c.val < m then 1 / 2 * (t (⟨c.val, h⟩ : Fin m).castSucc - t (⟨c.val, h⟩ : Fin m).succ) else 0) = 0 := by
    split_ifs with hm
    · rw [h _ (by simp) (by simp), h _ (by simp; omega) (by simp)]
      norm_num
    · rfl
  have b : (if h : 0 < c.val then 1 / 2 * (t (⟨c.val - 1, by omega⟩ : Fin m).castSucc - t (⟨c.val - 1, by omega⟩ : Fin m).succ) else 0) = 0 := by
    split_ifs with hm
    · rw [h _ (by simp only [Fin.val_castSucc]; omega) (by simp only [Fin.val_castSucc]; omega),
        h _ (by simp only [Fin.val_succ]; omega) (by simp only [Fin.val_succ]; omega)]
      norm_num
    · rfl
  rw [a, b]
  norm_num

/-- The first cell a signal from the left reaches. -/
lemma exchange_front {m : ℕ} {β : ℝ} {t : Fin (m + 1) → ℝ} {l : ℕ} (hl : l + 1 ≤ m) (h : ∀ i : Fin (m + 1), l < i.val → t i = 0) :
    exchange β t ⟨l + 1, by omega⟩ = 1 / 2 * t ⟨l, by omega⟩ := by
  unfold exchange
  have z : (0 : Fin (m + 1)) ≠ ⟨l + 1, by omega⟩ := fun h => by simpa using congrArg Fin.val h
  rw [exchange_sum, h ⟨l + 1, by omega⟩ (by simp), mul_zero, ite_self, ite_self]
  rw [dif_pos (Nat.succ_pos l : 0 < (⟨l + 1, by omega⟩ : Fin (m + 1)).val)]
  have a : (if h : l + 1 < m then 1 / 2 * (t (⟨l + 1, h⟩ : Fin m).castSucc - t (⟨l + 1, h⟩ : Fin m).succ) else 0) = 0 := by
    split_ifs with hm
    · rw [h _ (by simp), h _ (by simp)]
      norm_num
    · rfl
  simp only
  rw [a, h (Fin.succ _) (by simp)]
  have : (⟨l + 1 - 1, by omega⟩ : Fin m).castSucc = ⟨l, by omega⟩ := Fin.ext (by simp)
  rw [this]
  ring

end Dgtd.Line
