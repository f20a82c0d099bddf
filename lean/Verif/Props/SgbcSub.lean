/-
C27: sub-steps add up to the global step.  C28: ghost values interpolate between old and new interface fields.
-/
import Verif.Model.SgbcSub
import Verif.Lemmas.SgbcMesh
import Mathlib.Tactic.Ring
import Mathlib.Tactic.Linarith
import Mathlib.Tactic.FieldSimp
import Mathlib.Tactic.NormNum
import Mathlib.Tactic.Positivity
import Mathlib.Tactic.FinCases
import Mathlib.Tactic.IntervalCases

set_option linter.unusedSectionVars false
set_option linter.unusedSimpArgs false

namespace Dgtd.Sgbc

section Ghost

variable {K : Type}

lemma mem_sideWrites {n G : Nat} {idx : Nat → Int} {e h : Fin 3 → K} {w : Int × K} :
    w ∈ sideWrites n G idx e h ↔ ∃ d : Fin 3, ∃ dof, dof < G ∧
      (w = (((d.val * n : Nat) : Int) + idx dof, e d) ∨
       w = ((((3 + d.val) * n : Nat) : Int) + idx dof, h d)) := by
  simp only [sideWrites, List.mem_flatMap, List.mem_range, List.mem_cons, List.not_mem_nil, or_false]
  constructor
  · rintro ⟨d, -, dof, hd, hw⟩; exact ⟨d, dof, hd, hw⟩
  · rintro ⟨d, dof, hd, hw⟩
    refine ⟨d, ?_, dof, hd, hw⟩
    fin_cases d <;> simp

/-- The six values written on one side, by component. -/
def six (e h : Fin 3 → K) (c : Fin 6) : K := if hc : c.val < 3 then e ⟨c.val, hc⟩ else h ⟨c.val - 3, by omega⟩

lemma block_eq {n a b : Nat} {i j : Int} (hi : 0 ≤ i ∧ i < n) (hj : 0 ≤ j ∧ j < n)
    (h : ((a * n : Nat) : Int) + i = ((b * n : Nat) : Int) + j) : a = b ∧ i = j := by
  have h1 : ((a : Int) - b) * n = j - i := by push_cast at h; linarith
  have h2 : (a : Int) - b = 0 := by
    by_contra hne
    rcases lt_or_gt_of_ne hne with hlt | hgt
    · have : ((a : Int) - b) * n ≤ (-1) * n := by
        apply mul_le_mul_of_nonneg_right <;> omega
      omega
    · have : (1 : Int) * n ≤ ((a : Int) - b) * n := by
        apply mul_le_mul_of_nonneg_right <;> omega
      omega
  rw [h2] at h1
  simp at h1
  constructor <;> omega

lemma side_exec (n G : Nat) (idx : Nat → Int) (hidx : ∀ dof, dof < G → 0 ≤ idx dof ∧ idx dof < n)
    (e h : Fin 3 → K) (a : Nat → K) :
    ∃ b, exec (6 * n) (sideWrites n G idx e h) a = some b ∧
      ∀ (c : Fin 6) (j : Nat), j < n →
        ((∃ dof, dof < G ∧ idx dof = j) → b (c.val * n + j) = six e h c) ∧
        ((∀ dof, dof < G → idx dof ≠ j) → b (c.val * n + j) = a (c.val * n + j)) := by
  obtain ⟨b, hb⟩ := exec_completes (6 * n) (sideWrites n G idx e h) a (by
    intro w hw
    obtain ⟨d, dof, hd, hw⟩ := mem_sideWrites.1 hw
    have hi := hidx dof hd
    have hdl := d.isLt
    rcases hw with rfl | rfl
    · refine ⟨by simp only; omega, ?_⟩
      have : ((d.val * n : Nat) : Int) ≤ ((2 * n : Nat) : Int) := by
        exact_mod_cast Nat.mul_le_mul_right n (by omega)
      simp only; push_cast at *; omega
    · refine ⟨by simp only; omega, ?_⟩
      have : (((3 + d.val) * n : Nat) : Int) ≤ ((5 * n : Nat) : Int) := by
        exact_mod_cast Nat.mul_le_mul_right n (by omega)
      simp only; push_cast at *; omega)
  refine ⟨b, hb, fun c j hj => ⟨?_, ?_⟩⟩
  · rintro ⟨dof, hd, hdj⟩
    apply exec_value hb
    · intro w hw hwk
      obtain ⟨d, dof', hd', hw⟩ := mem_sideWrites.1 hw
      have hi := hidx dof' hd'
      rcases hw with rfl | rfl
      · simp only at hwk
        have := (block_eq (a := d.val) (b := c.val) (j := (j : Int)) hi (by omega) (by push_cast at hwk ⊢; exact hwk)).1
        simp [six, ← this, d.isLt]
      · simp only at hwk
        have := (block_eq (a := 3 + d.val) (b := c.val) (j := (j : Int)) hi (by omega) (by push_cast at hwk ⊢; exact hwk)).1
        simp [six, ← this]
    · by_cases hc : c.val < 3
      · refine ⟨_, mem_sideWrites.2 ⟨⟨c.val, hc⟩, dof, hd, Or.inl rfl⟩, ?_⟩
        simp only; push_cast; omega
      · refine ⟨_, mem_sideWrites.2 ⟨⟨c.val - 3, by omega⟩, dof, hd, Or.inr rfl⟩, ?_⟩
        simp only
        rw [show 3 + (c.val - 3) = c.val by omega]
        push_cast; omega
  · intro hno
    apply exec_other hb
    intro w hw hwk
    obtain ⟨d, dof', hd', hw⟩ := mem_sideWrites.1 hw
    have hi := hidx dof' hd'
    rcases hw with rfl | rfl
    · simp only at hwk
      exact hno dof' hd' (block_eq (a := d.val) (b := c.val) (j := (j : Int)) hi (by omega)
        (by push_cast at hwk ⊢; exact hwk)).2
    · simp only at hwk
      exact hno dof' hd' (block_eq (a := 3 + d.val) (b := c.val) (j := (j : Int)) hi (by omega)
        (by push_cast at hwk ⊢; exact hwk)).2

/-- Both sides: node `j` of component `c` gets the left value, the right value, or keeps its own. -/
lemma two_sides (n G : Nat) (hG : 2 * G ≤ n) (right : Bool) (e h e2 h2 : Fin 3 → K) (a : Nat → K) :
    ∃ b, ((exec (6 * n) (sideWrites n G leftIdx e h) a).bind fun all =>
        if right then exec (6 * n) (sideWrites n G (rightIdx n) e2 h2) all else some all) = some b ∧
      ∀ (c : Fin 6) (j : Nat), j < n → b (c.val * n + j) =
        if j < G then six e h c else if right = true ∧ n - G ≤ j then six e2 h2 c else a (c.val * n + j) := by
  obtain ⟨b1, hb1, g1⟩ := side_exec n G leftIdx (fun dof hd => by simp [leftIdx]; omega) e h a
  have h1 : ∀ (c : Fin 6) (j : Nat), j < n → b1 (c.val * n + j) = if j < G then six e h c else a (c.val * n + j) := by
    intro c j hj
    by_cases hjG : j < G
    · rw [if_pos hjG]; exact (g1 c j hj).1 ⟨j, hjG, rfl⟩
    · rw [if_neg hjG]
      exact (g1 c j hj).2 (fun dof hd he => by simp [leftIdx] at he; omega)
  rw [hb1]
  cases right with
  | false =>
    refine ⟨b1, rfl, fun c j hj => ?_⟩
    rw [h1 c j hj]; simp
  | true =>
    obtain ⟨b2, hb2, g2⟩ := side_exec n G (rightIdx n) (fun dof hd => by simp [rightIdx]; omega) e2 h2 b1
    refine ⟨b2, by simpa using hb2, fun c j hj => ?_⟩
    by_cases hjr : n - G ≤ j
    · rw [(g2 c j hj).1 ⟨n - 1 - j, by omega, by simp [rightIdx]; omega⟩, if_neg (by omega),
        if_pos ⟨rfl, hjr⟩]
    · rw [(g2 c j hj).2 (fun dof hd he => by simp [rightIdx] at he; omega), h1 c j hj]
      by_cases hjG : j < G
      · rw [if_pos hjG, if_pos hjG]
      · rw [if_neg hjG, if_neg hjG, if_neg (by omega)]

/-- Linear interpolation. -/
def lerp [Ring K] (alpha x y : K) : K := (1 - alpha) * x + alpha * y

/-- **C28**: after setting the ghost values at fraction `alpha`, the `G` first nodes of every component hold the
interpolated left value, the `G` last ones the interpolated right value if the face has a right neighbour, and no
other node changed. -/
theorem C28_ghost_nodes [Ring K] (n G : Nat) (hG : 2 * G ≤ n) (alpha : K) (pair : NodePair)
    (old new : Fin 12 → K) (all : Nat → K) :
    ∃ b, updateInterpolated n G alpha pair old new all = some b ∧
      ∀ (c : Fin 6) (j : Nat), j < n → b (c.val * n + j) =
        if j < G then lerp alpha (old ⟨c.val, by omega⟩) (new ⟨c.val, by omega⟩)
        else if pair.2 ≠ -1 ∧ n - G ≤ j then lerp alpha (old ⟨6 + c.val, by omega⟩) (new ⟨6 + c.val, by omega⟩)
        else all (c.val * n + j) := by
  obtain ⟨b, hb, g⟩ := two_sides n G hG (decide (pair.2 ≠ -1))
    (fun d => (1 - alpha) * old ⟨d.val, by omega⟩ + alpha * new ⟨d.val, by omega⟩)
    (fun d => (1 - alpha) * old ⟨3 + d.val, by omega⟩ + alpha * new ⟨3 + d.val, by omega⟩)
    (fun d => (1 - alpha) * old ⟨6 + d.val, by omega⟩ + alpha * new ⟨6 + d.val, by omega⟩)
    (fun d => (1 - alpha) * old ⟨6 + 3 + d.val, by omega⟩ + alpha * new ⟨6 + 3 + d.val, by omega⟩) all
  refine ⟨b, by simpa [updateInterpolated] using hb, fun c j hj => ?_⟩
  rw [g c j hj]
  simp only [decide_eq_true_eq]
  congr 1
  · fin_cases c <;> simp [six, lerp]
  · congr 1
    fin_cases c <;> simp [six, lerp]

/-- **C28**: fraction zero is the old field, fraction one the new field. -/
theorem C28_ends [Ring K] (x y : K) : lerp 0 x y = x ∧ lerp 1 x y = y := by
  simp [lerp]

/-- **C28**: in between, the value stays between the two fields and moves monotonically. -/
theorem C28_between [Ring K] [LinearOrder K] [IsStrictOrderedRing K] (alpha x y : K) (h0 : 0 ≤ alpha) (h1 : alpha ≤ 1) :
    min x y ≤ lerp alpha x y ∧ lerp alpha x y ≤ max x y ∧
      ∀ beta, alpha ≤ beta → x ≤ y → lerp alpha x y ≤ lerp beta x y := by
  have hb : 0 ≤ 1 - alpha := sub_nonneg.2 h1
  refine ⟨?_, ?_, ?_⟩
  · calc min x y = (1 - alpha) * min x y + alpha * min x y := by rw [← add_mul]; simp
      _ ≤ _ := add_le_add (mul_le_mul_of_nonneg_left (min_le_left _ _) hb)
        (mul_le_mul_of_nonneg_left (min_le_right _ _) h0)
  · calc lerp alpha x y ≤ (1 - alpha) * max x y + alpha * max x y :=
          add_le_add (mul_le_mul_of_nonneg_left (le_max_left _ _) hb)
            (mul_le_mul_of_nonneg_left (le_max_right _ _) h0)
      _ = max x y := by rw [← add_mul]; simp
  · intro beta hab hxy
    have e : ∀ a : K, lerp a x y = x + a * (y - x) := fun a => by
      simp only [lerp, sub_mul, mul_sub, one_mul]; abel
    rw [e, e]
    have := mul_le_mul_of_nonneg_right hab (sub_nonneg.2 hxy)
    exact add_le_add le_rfl this

/-- Component `c` of the field vector at a node. -/
def nodeVec (ndofs : Nat) (inp : Nat → K) (off : Nat) (node : Int) : Fin 3 → K :=
  ![inp ((off + 0) * ndofs + node.toNat), inp ((off + 1) * ndofs + node.toNat),
    inp ((off + 2) * ndofs + node.toNat)]

lemma read3_some {ndofs : Nat} (inp : Nat → K) (off : Nat) (hoff : off = 0 ∨ off = 3) {node : Int}
    (h : 0 ≤ node ∧ node < ndofs) :
    read3 ndofs inp off node = some (nodeVec ndofs inp off node) := by
  obtain ⟨k, rfl⟩ : ∃ k : Nat, node = k := ⟨node.toNat, by omega⟩
  have hk : k < ndofs := by omega
  have r : ∀ m, m ≤ 5 → rd1 (6 * ndofs) inp (((m * ndofs : Nat) : Int) + (k : Int)) = some (inp (m * ndofs + k)) := by
    intro m hm
    have : m * ndofs + k < 6 * ndofs := by
      have := Nat.mul_le_mul_right ndofs hm
      omega
    unfold rd1
    rw [if_pos (by constructor <;> omega)]
    congr 2
  unfold read3
  rw [r (off + 0) (by omega), r (off + 1) (by omega), r (off + 2) (by omega)]
  rfl

/-- **C28**, where the values come from: setting the ghosts straight from a field vector writes the field of the
two sides of the face, rotated to the local frame, on the ghost nodes, and nothing else. -/
theorem C28_ghosts_from_fields [Add K] [Mul K] (n G ndofs : Nat) (hG : 2 * G ≤ n) (inp : Nat → K) (pair : NodePair)
    (h1 : 0 ≤ pair.1 ∧ pair.1 < ndofs) (h2 : pair.2 ≠ -1 → 0 ≤ pair.2 ∧ pair.2 < ndofs) (R : Fin 9 → K)
    (all : Nat → K) :
    ∃ b, updateFromGlobal n G ndofs inp pair R all = some b ∧
      ∀ (c : Fin 6) (j : Nat), j < n → b (c.val * n + j) =
        if j < G then six (FaceRotation.toLocal R (nodeVec ndofs inp 0 pair.1))
            (FaceRotation.toLocal R (nodeVec ndofs inp 3 pair.1)) c
        else if pair.2 ≠ -1 ∧ n - G ≤ j then six (FaceRotation.toLocal R (nodeVec ndofs inp 0 pair.2))
            (FaceRotation.toLocal R (nodeVec ndofs inp 3 pair.2)) c
        else all (c.val * n + j) := by
  obtain ⟨b, hb, g⟩ := two_sides n G hG (decide (pair.2 ≠ -1))
    (FaceRotation.toLocal R (nodeVec ndofs inp 0 pair.1)) (FaceRotation.toLocal R (nodeVec ndofs inp 3 pair.1))
    (FaceRotation.toLocal R (nodeVec ndofs inp 0 pair.2)) (FaceRotation.toLocal R (nodeVec ndofs inp 3 pair.2)) all
  refine ⟨b, ?_, fun c j hj => by rw [g c j hj]; simp only [decide_eq_true_eq]⟩
  rw [← hb]
  unfold updateFromGlobal
  rw [read3_some inp 0 (Or.inl rfl) h1, read3_some inp 3 (Or.inr rfl) h1]
  simp only [Option.bind_eq_bind, Option.bind_some]
  congr 1
  funext all'
  by_cases hp : pair.2 = -1
  · simp [hp]
  · rw [read3_some inp 0 (Or.inl rfl) (h2 hp), read3_some inp 3 (Or.inr rfl) (h2 hp)]
    simp [hp]

/-- **C28**, consistency: at fraction one the interpolated ghosts are those of the new field vector, at fraction
zero those of the old one. -/
theorem C28_interpolation_meets_fields [Ring K] (n G ndofs : Nat) (hG : 2 * G ≤ n) (fOld fNew : Nat → K)
    (pair : NodePair) (h1 : 0 ≤ pair.1 ∧ pair.1 < ndofs) (h2 : pair.2 ≠ -1 → 0 ≤ pair.2 ∧ pair.2 < ndofs)
    (R : Fin 9 → K) (pOld pNew gOld gNew : Fin 12 → K)
    (ho : ghostValues ndofs fOld R pair pOld = some gOld) (hn : ghostValues ndofs fNew R pair pNew = some gNew)
    (all bOld bNew iOld iNew : Nat → K)
    (eOld : updateFromGlobal n G ndofs fOld pair R all = some bOld)
    (eNew : updateFromGlobal n G ndofs fNew pair R all = some bNew)
    (e0 : updateInterpolated n G 0 pair gOld gNew all = some iOld)
    (e1 : updateInterpolated n G 1 pair gOld gNew all = some iNew) (c : Fin 6) (j : Nat) (hj : j < n) :
    iOld (c.val * n + j) = bOld (c.val * n + j) ∧ iNew (c.val * n + j) = bNew (c.val * n + j) := by
  -- what the recorded ghost values are
  have key : ∀ (f : Nat → K) (p g : Fin 12 → K), ghostValues ndofs f R pair p = some g →
      (∀ c : Fin 6, g ⟨c.val, by omega⟩ = six (FaceRotation.toLocal R (nodeVec ndofs f 0 pair.1))
            (FaceRotation.toLocal R (nodeVec ndofs f 3 pair.1)) c) ∧
      (pair.2 ≠ -1 → ∀ c : Fin 6, g ⟨6 + c.val, by omega⟩ = six (FaceRotation.toLocal R (nodeVec ndofs f 0 pair.2))
            (FaceRotation.toLocal R (nodeVec ndofs f 3 pair.2)) c) := by
    intro f p g hg
    unfold ghostValues rotateToLocal at hg
    rw [read3_some f 0 (Or.inl rfl) h1, read3_some f 3 (Or.inr rfl) h1] at hg
    by_cases hp : pair.2 = -1
    · simp [hp] at hg
      subst hg
      refine ⟨fun c => ?_, fun h => absurd hp h⟩
      fin_cases c <;> rfl
    · rw [read3_some f 0 (Or.inl rfl) (h2 hp), read3_some f 3 (Or.inr rfl) (h2 hp)] at hg
      simp [hp] at hg
      subst hg
      refine ⟨fun c => ?_, fun _ c => ?_⟩ <;> fin_cases c <;> rfl
  obtain ⟨kO1, kO2⟩ := key fOld pOld gOld ho
  obtain ⟨kN1, kN2⟩ := key fNew pNew gNew hn
  obtain ⟨b0, hb0, g0⟩ := C28_ghost_nodes n G hG 0 pair gOld gNew all
  obtain ⟨b1, hb1, g1⟩ := C28_ghost_nodes n G hG 1 pair gOld gNew all
  obtain ⟨c0, hc0, f0⟩ := C28_ghosts_from_fields n G ndofs hG fOld pair h1 h2 R all
  obtain ⟨c1, hc1, f1⟩ := C28_ghosts_from_fields n G ndofs hG fNew pair h1 h2 R all
  rw [e0] at hb0; rw [e1] at hb1; rw [eOld] at hc0; rw [eNew] at hc1
  obtain rfl := Option.some.inj hb0
  obtain rfl := Option.some.inj hb1
  obtain rfl := Option.some.inj hc0
  obtain rfl := Option.some.inj hc1
  rw [g0 c j hj, g1 c j hj, f0 c j hj, f1 c j hj]
  simp only [(C28_ends _ _).1, (C28_ends _ _).2, kO1 c, kN1 c]
  by_cases hp : pair.2 = -1
  · simp [hp]
  · simp only [kO2 hp c, kN2 hp c]
    exact ⟨trivial, trivial⟩

example : (updateInterpolated 4 1 (1/2 : ℚ) (0, 1) (fun _ => 1) (fun _ => 3) (fun k => (k : ℚ))).map
    (fun b => (List.range 8).map b) = some [2, 1, 2, 2, 2, 5, 6, 2] := by decide +kernel

end Ghost

section Steps

variable {K : Type} [Field K] [LinearOrder K] [IsStrictOrderedRing K] [FloorRing K]

/-- The number of sub-steps is the least one that keeps the sub-step within the recommendation. -/
lemma nSteps_spec {sub dt : K} {n : Nat} (hdt : 0 < dt) (h : nSteps sub dt = some n) :
    0 < n ∧ (0 < sub → dt / n ≤ sub) ∧ (0 < sub → ∀ m : Nat, 0 < m → dt / m ≤ sub → n ≤ m) := by
  unfold nSteps at h
  split at h
  · rename_i hs
    split at h
    · simp only [Option.some.injEq] at h
      have hq : 0 < dt / sub := div_pos hdt hs.1
      have hc : 0 < ⌈dt / sub⌉ := Int.ceil_pos.2 hq
      have hn : (n : Int) = ⌈dt / sub⌉ := by omega
      have hnK : (n : K) = ((⌈dt / sub⌉ : Int) : K) := by exact_mod_cast congrArg (Int.cast : Int → K) hn
      have hn0 : 0 < n := by omega
      have hnK0 : (0 : K) < n := by exact_mod_cast hn0
      refine ⟨hn0, fun _ => ?_, fun _ m hm hle => ?_⟩
      · rw [div_le_iff₀ hnK0, hnK]
        have := Int.le_ceil (dt / sub)
        rwa [div_le_iff₀' hs.1] at this
      · have hmK : (0 : K) < m := by exact_mod_cast hm
        rw [div_le_iff₀ hmK] at hle
        have : dt / sub ≤ ((m : Int) : K) := by
          rw [div_le_iff₀' hs.1]; exact_mod_cast hle
        have := Int.ceil_le.2 this
        omega
    · exact absurd h (by simp)
  · rename_i hs
    simp only [Option.some.injEq] at h
    subst h
    refine ⟨by omega, fun h0 => ?_, fun _ m hm _ => hm⟩
    have : dt ≤ sub := not_lt.1 (fun hlt => hs ⟨h0, hlt⟩)
    simpa using this

/-- **C27**, existence: the sub-steps are defined whenever their number fits in an `int`. -/
theorem C27_defined (base dt sub : K) (hdt : 0 < dt) (h : 0 < sub → dt ≤ (2 ^ 31 - 1 : Nat) * sub) :
    ∃ ss, subSteps base dt sub = some ss ∧ ss ≠ [] := by
  obtain ⟨n, hn⟩ : ∃ n, nSteps sub dt = some n := by
    unfold nSteps
    split
    · rename_i hs
      have : ⌈dt / sub⌉ ≤ ((2 ^ 31 - 1 : Nat) : Int) := by
        apply Int.ceil_le.2
        rw [div_le_iff₀ hs.1]
        exact_mod_cast h hs.1
      rw [if_pos (by omega)]
      exact ⟨_, rfl⟩
    · exact ⟨1, rfl⟩
  have := (nSteps_spec hdt hn).1
  refine ⟨_, by simp only [subSteps, hn]; rfl, ?_⟩
  simp; omega

/-- **C27**: the sub-steps all have the same length, which is positive and not longer than the recommended one
(when there is a recommendation), their number is the least possible for this, and they cover the global step:
the first starts at its beginning, each starts where the previous one ends, the last ends at its end. -/
theorem C27_substeps_cover (base dt sub : K) (hdt : 0 < dt) (ss : List (SubStep K))
    (h : subSteps base dt sub = some ss) :
    (∀ s ∈ ss, s.len = dt / (ss.length : K) ∧ 0 < s.len ∧ (0 < sub → s.len ≤ sub)) ∧
    (0 < sub → ∀ m : Nat, 0 < m → dt / m ≤ sub → ss.length ≤ m) ∧
    (∃ s, ss.head? = some s ∧ s.start = base) ∧
    (∃ s, ss.getLast? = some s ∧ s.start + s.len = base + dt) ∧
    (∀ i s s', ss[i]? = some s → ss[i + 1]? = some s' → s'.start = s.start + s.len) := by
  unfold subSteps at h
  simp only [Option.bind_eq_bind, Option.bind_eq_some_iff, Option.some.injEq] at h
  obtain ⟨n, hn, rfl⟩ := h
  obtain ⟨h0, h1, h2⟩ := nSteps_spec hdt hn
  have hK : (0 : K) < n := by exact_mod_cast h0
  refine ⟨?_, ?_, ?_, ?_, ?_⟩
  · intro s hs
    simp only [List.mem_map, List.mem_range] at hs
    obtain ⟨i, hi, rfl⟩ := hs
    simp only [List.length_map, List.length_range]
    exact ⟨trivial, div_pos hdt hK, h1⟩
  · simpa using h2
  · obtain ⟨m, rfl⟩ : ∃ m, n = m + 1 := ⟨n - 1, by omega⟩
    rw [List.range_succ_eq_map]
    exact ⟨_, rfl, by simp⟩
  · obtain ⟨m, rfl⟩ : ∃ m, n = m + 1 := ⟨n - 1, by omega⟩
    rw [List.range_succ, List.map_append, List.map_singleton, List.getLast?_concat]
    refine ⟨_, rfl, ?_⟩
    simp only
    push_cast at hK ⊢
    field_simp
    ring
  · intro i s s' hs hs'
    simp only [List.getElem?_map, Option.map_eq_some_iff] at hs hs'
    obtain ⟨a, ha, rfl⟩ := hs
    obtain ⟨b, hb, rfl⟩ := hs'
    have ha' := (List.getElem?_eq_some_iff.1 ha).2
    have hb' := (List.getElem?_eq_some_iff.1 hb).2
    simp only [List.getElem_range] at ha' hb'
    subst ha'; subst hb'
    simp only
    push_cast
    ring

/-- **C27**: the interface field imposed during a sub-step is the one of the end of this sub-step, as a fraction
of the global step; for the last sub-step it is the new field. -/
theorem C27_fractions (base dt sub : K) (hdt : 0 < dt) (ss : List (SubStep K))
    (h : subSteps base dt sub = some ss) :
    (∀ s ∈ ss, s.alpha * dt = s.start + s.len - base ∧ 0 < s.alpha ∧ s.alpha ≤ 1) ∧
    (∃ s, ss.getLast? = some s ∧ s.alpha = 1) := by
  unfold subSteps at h
  simp only [Option.bind_eq_bind, Option.bind_eq_some_iff, Option.some.injEq] at h
  obtain ⟨n, hn, rfl⟩ := h
  obtain ⟨h0, -, -⟩ := nSteps_spec hdt hn
  have hK : (0 : K) < n := by exact_mod_cast h0
  refine ⟨?_, ?_⟩
  · intro s hs
    simp only [List.mem_map, List.mem_range] at hs
    obtain ⟨i, hi, rfl⟩ := hs
    simp only
    refine ⟨?_, ?_, ?_⟩
    · push_cast; field_simp; ring
    · exact div_pos (by exact_mod_cast Nat.succ_pos i) hK
    · rw [div_le_one hK]; exact_mod_cast hi
  · obtain ⟨m, rfl⟩ : ∃ m, n = m + 1 := ⟨n - 1, by omega⟩
    rw [List.range_succ, List.map_append, List.map_singleton, List.getLast?_concat]
    exact ⟨_, rfl, div_self hK.ne'⟩

lemma advanced_eq (ss : List (SubStep K)) (acc : K) (d : K)
    (h : ∀ s ∈ ss, s.len = d) (hd : 1 / 1000000000 ≤ d) :
    ss.foldl (fun acc s => acc + advance1 s) acc = acc + ss.length * d := by
  induction ss generalizing acc with
  | nil => simp
  | cons s r ih =>
    have hs := h s (by simp)
    have hpos : (0 : K) < d := lt_of_lt_of_le (by positivity) hd
    have e : advance1 s = d := by
      unfold advance1 solveStep
      rw [hs, abs_of_pos hpos, if_neg (not_lt.2 hd)]
      simp
    rw [List.foldl_cons, e, ih _ (fun s hs => h s (List.mem_cons_of_mem _ hs))]
    push_cast [List.length_cons]
    ring

/-- **C27**, what the inner solver really does: if the sub-step is at least `1e-9` time units, the inner solver
advances by exactly the global step.  Missing part: shorter sub-steps, for which the claim is false, see
`C27_tiny_substeps_freeze`. -/
theorem C27_advances_global_step_partial (base dt sub : K) (hdt : 0 < dt) (ss : List (SubStep K))
    (h : subSteps base dt sub = some ss) (hbig : ∀ s ∈ ss, 1 / 1000000000 ≤ s.len) : advanced ss = dt := by
  obtain ⟨h1, -, ⟨s0, hs0, -⟩, -, -⟩ := C27_substeps_cover base dt sub hdt ss h
  have hmem : s0 ∈ ss := List.mem_of_mem_head? hs0
  have hlen : ss.length ≠ 0 := by
    intro h0
    rw [List.length_eq_zero_iff.1 h0] at hs0
    simp at hs0
  have hK : (ss.length : K) ≠ 0 := by exact_mod_cast hlen
  unfold advanced
  rw [advanced_eq ss 0 (dt / ss.length) (fun s hs => (h1 s hs).1) (by rw [← (h1 s0 hmem).1]; exact hbig s0 hmem)]
  field_simp
  ring

/-- Failing case: when the sub-step is below `1e-9` time units (about 3 as of physical time, reached by layers
thinner than a micrometre in a thousand segments) every inner solve returns at once and the layer does not
advance at all, whatever the global step. -/
theorem C27_tiny_substeps_freeze (base dt sub : K) (hdt : 0 < dt) (hsub : 0 < sub)
    (hsmall : sub < 1 / 1000000000) (ss : List (SubStep K)) (h : subSteps base dt sub = some ss) :
    advanced ss = 0 := by
  obtain ⟨h1, -⟩ := C27_substeps_cover base dt sub hdt ss h
  have key : ∀ (l : List (SubStep K)) (acc : K), (∀ s ∈ l, 0 < s.len ∧ s.len < 1 / 1000000000) →
      l.foldl (fun acc s => acc + advance1 s) acc = acc := by
    intro l
    induction l with
    | nil => simp
    | cons s r ih =>
      intro acc hl
      have hs := hl s (by simp)
      have e : advance1 s = 0 := by
        unfold advance1 solveStep
        rw [abs_of_pos hs.1, if_pos hs.2]
      rw [List.foldl_cons, e, add_zero]
      exact ih acc (fun s hs => hl s (List.mem_cons_of_mem _ hs))
  exact key ss 0 (fun s hs => ⟨(h1 s hs).2.1, ((h1 s hs).2.2 hsub).trans_lt hsmall⟩)

example : subSteps (10 : ℚ) 1 (3/10) =
    some [⟨1/4, 10, 1/4⟩, ⟨1/2, 41/4, 1/4⟩, ⟨3/4, 21/2, 1/4⟩, ⟨1, 43/4, 1/4⟩] := by decide +kernel

example : (subSteps (10 : ℚ) 1 (3/10)).map advanced = some 1 := by decide +kernel

/-- A layer of one micrometre in a thousand segments, global step of four times the recommended one: nothing
is advanced. -/
example : (subSteps (0 : ℚ) (1/500000000) (1/2000000000)).map advanced = some 0 := by decide +kernel

end Steps

section Recommended

/-- **C27**, the recommendation: it is positive for layers of positive width made of real materials, and it never
exceeds half (relaxed at most fifty times for opaque layers) the time light needs to cross an element of any
layer. -/
theorem C27_recommended (c big : ℝ) (hc : 0 < c) (hbig : 0 < big) (ls : List (Layer ℝ Mat))
    (h : ∀ l ∈ ls, 0 < l.width ∧ 0 < l.segs ∧ 1 ≤ l.material.eps ∧ 1 ≤ l.material.mu) :
    0 < recommendedDt c big ls ∧
    ∀ l ∈ ls, recommendedDt c big ls ≤ (l.width / l.segs * Real.sqrt (l.material.eps * l.material.mu)) * 0.5 *
      (if l.nSkin > 3 then min (l.nSkin * l.nSkin) 50 else 1) := by
  have hl : ∀ l ∈ ls, 0 < layerDt c l := by
    intro l hl
    obtain ⟨h1, h2, h3, h4⟩ := h l hl
    have h2' : (0 : ℝ) < l.segs := by exact_mod_cast h2
    have hs : 0 < Real.sqrt (l.material.eps * l.material.mu) := Real.sqrt_pos.2 (by positivity)
    unfold layerDt
    simp only
    split
    · rename_i hn
      have : 0 < min (l.nSkin * l.nSkin) 50 := lt_min (by nlinarith) (by norm_num)
      positivity
    · positivity
  have key : ∀ (ls : List (Layer ℝ Mat)) (b : ℝ), 0 < b → (∀ l ∈ ls, 0 < layerDt c l) →
      0 < ls.foldl (fun r l => min r (layerDt c l)) b ∧
      ls.foldl (fun r l => min r (layerDt c l)) b ≤ b ∧
      ∀ l ∈ ls, ls.foldl (fun r l => min r (layerDt c l)) b ≤ layerDt c l := by
    intro ls
    induction ls with
    | nil => intro b hb _; simp [hb]
    | cons a r ih =>
      intro b hb hh
      obtain ⟨i1, i2, i3⟩ := ih (min b (layerDt c a)) (lt_min hb (hh a (by simp)))
        (fun l hl => hh l (List.mem_cons_of_mem _ hl))
      refine ⟨i1, i2.trans (min_le_left _ _), ?_⟩
      intro l hl
      rcases List.mem_cons.1 hl with rfl | hl
      · exact i2.trans (min_le_right _ _)
      · exact i3 l hl
  obtain ⟨k1, -, k3⟩ := key ls big hbig hl
  refine ⟨mul_pos k1 hc, fun l hl' => ?_⟩
  have := mul_le_mul_of_nonneg_right (k3 l hl') hc.le
  refine this.trans (le_of_eq ?_)
  unfold layerDt
  simp only
  split <;> field_simp

end Recommended

end Dgtd.Sgbc
