/-
C41, C42, C87-C90: fluxes, boundary conditions, energy and incident fields of the nodal operator.
-/
import Verif.Spec.Nodal
import Mathlib.Tactic.Ring
import Mathlib.Tactic.Linarith
import Mathlib.Tactic.FieldSimp
import Mathlib.Tactic.LinearCombination
import Mathlib.Algebra.Order.BigOperators.Group.Finset
import Mathlib.Algebra.BigOperators.Fin
import Mathlib.Algebra.BigOperators.Field
import Mathlib.Algebra.Order.Field.Rat
import Mathlib.Data.List.Induction
import Mathlib.Tactic.FinCases
import Mathlib.Tactic.NormNum

set_option linter.unusedSectionVars false

namespace Dgtd.Nodal
open Spec Finset

variable {K : Type} [Field K] [LinearOrder K] [IsStrictOrderedRing K]

/-! ### C41 -/

theorem flux_cross (alpha : K) (n dE dH : V3 K) :
    (∀ x, fluxH alpha n dE dH x = - cross n dE x + alpha * (dH x - dot n dH * n x)) ∧
    (∀ x, fluxE alpha n dE dH x = cross n dH x + alpha * (dE x - dot n dE * n x)) := by
  constructor <;> intro x <;> fin_cases x <;> simp [fluxH, fluxE, cross, dot, ndot] <;> ring

/-- **C41**: the flux has no component along the normal. -/
theorem C41_tangential (alpha : K) (n dE dH : V3 K) (hn : dot n n = 1) :
    dot n (fluxH alpha n dE dH) = 0 ∧ dot n (fluxE alpha n dE dH) = 0 := by
  unfold dot at *
  simp only [(flux_cross alpha n dE dH).1, (flux_cross alpha n dE dH).2]
  unfold cross dot
  simp only [Matrix.cons_val_zero, Matrix.cons_val_one, Matrix.cons_val]
  constructor
  · linear_combination (-alpha * (n 0 * dH 0 + n 1 * dH 1 + n 2 * dH 2)) * hn
  · linear_combination (-alpha * (n 0 * dE 0 + n 1 * dE 1 + n 2 * dE 2)) * hn

theorem tang2_nonneg (n d : V3 K) (hn : dot n n = 1) : 0 ≤ tang2 n d := by
  have h : tang2 n d = (d 0 - dot n d * n 0) * (d 0 - dot n d * n 0) + (d 1 - dot n d * n 1) * (d 1 - dot n d * n 1)
      + (d 2 - dot n d * n 2) * (d 2 - dot n d * n 2) := by
    unfold tang2
    unfold dot at *
    linear_combination (-(n 0 * d 0 + n 1 * d 1 + n 2 * d 2) ^ 2) * hn
  rw [h]
  have h0 := mul_self_nonneg (d 0 - dot n d * n 0)
  have h1 := mul_self_nonneg (d 1 - dot n d * n 1)
  have h2 := mul_self_nonneg (d 2 - dot n d * n 2)
  linarith

example : dot ![3 / 5, 4 / 5, (0 : ℚ)] ![3 / 5, 4 / 5, 0] = 1 := by decide +kernel

/-! ### C42 -/

/-- One assignment of jumps. -/
structure Write (K : Type) where
  pos  : Nat
  node : Nat
  ce   : K
  ch   : K

def run (u : Fields K) (l : List (Write K)) (j : Fields K) : Fields K :=
  l.foldl (fun j w => assign u j w.pos w.node w.ce w.ch) j

theorem run_append (u : Fields K) (l l' : List (Write K)) (j : Fields K) : run u (l ++ l') j = run u l' (run u l j) := by
  unfold run; rw [List.foldl_append]

/-- The last assignment to a position counts. -/
theorem run_last (u : Fields K) (l : List (Write K)) (j : Fields K) (p : Nat) :
    (run u l j).e p = (match (l.filter fun w => decide (w.pos = p)).getLast? with
      | some w => fun x => w.ce * u.e w.node x
      | none => j.e p) ∧
    (run u l j).h p = (match (l.filter fun w => decide (w.pos = p)).getLast? with
      | some w => fun x => w.ch * u.h w.node x
      | none => j.h p) := by
  induction l using List.reverseRecOn with
  | nil => exact ⟨rfl, rfl⟩
  | append_singleton l w ih =>
    rw [run_append, List.filter_append]
    by_cases h : w.pos = p
    · constructor <;> (funext x; simp [run, assign, h])
    · constructor
      · funext x
        have : (run u [w] (run u l j)).e p = (run u l j).e p := by funext x; simp [run, assign, Ne.symm h]
        rw [this, ih.1]
        simp [h]
      · funext x
        have : (run u [w] (run u l j)).h p = (run u l j).h p := by funext x; simp [run, assign, Ne.symm h]
        rw [this, ih.2]
        simp [h]

def bdrWrites (curved : Nat → Bool) (ce ch : K) (l : List (Nat × Nat)) : List (Write K) :=
  (l.filter fun q => !curved q.2).map fun q => ⟨q.1, q.2, ce, ch⟩

def intWrites (curved : Nat → Bool) (ce ch : K) (l : List IntPair) : List (Write K) :=
  (l.filter fun q => !(curved q.node1 && curved q.node2)).flatMap fun q => [⟨q.pos1, q.node1, ce, ch⟩, ⟨q.pos2, q.node2, ce, ch⟩]

theorem applyBdr_run (curved : Nat → Bool) (u : Fields K) (ce ch : K) (l : List (Nat × Nat)) (j : Fields K) :
    applyBdr curved u ce ch l j = run u (bdrWrites curved ce ch l) j := by
  induction l generalizing j with
  | nil => rfl
  | cons q l ih =>
    unfold applyBdr at *
    rw [List.foldl_cons, ih]
    unfold bdrWrites
    cases h : curved q.2
    · rw [List.filter_cons_of_pos (by simp [h])]
      rfl
    · rw [List.filter_cons_of_neg (by simp [h])]
      rfl

theorem applyInt_run (curved : Nat → Bool) (u : Fields K) (ce ch : K) (l : List IntPair) (j : Fields K) :
    applyInt curved u ce ch l j = run u (intWrites curved ce ch l) j := by
  induction l generalizing j with
  | nil => rfl
  | cons q l ih =>
    unfold applyInt at *
    rw [List.foldl_cons, ih]
    unfold intWrites
    cases h : (curved q.node1 && curved q.node2)
    · rw [List.filter_cons_of_pos (by rw [h]; rfl)]
      rfl
    · rw [List.filter_cons_of_neg (by rw [h]; simp)]
      rfl

def allWrites (curved : Nat → Bool) (alpha : K) (b : BdrMaps) : List (Write K) :=
  bdrWrites curved (-2) 0 b.pec ++ bdrWrites curved 0 (-2) b.pmc ++ bdrWrites curved (-1 / alpha) (-1 / alpha) b.sma ++
  intWrites curved (-1) 0 b.ipec ++ intWrites curved 0 (-1) b.ipmc ++ intWrites curved (-1 / 2) (-1 / 2) b.isma

theorem applyBC_run (curved : Nat → Bool) (alpha : K) (b : BdrMaps) (u j : Fields K) :
    applyBC curved alpha b u j = run u (allWrites curved alpha b) j := by
  unfold applyBC allWrites
  simp only [applyBdr_run, applyInt_run, run_append]

theorem mem_bdrWrites (curved : Nat → Bool) (ce ch : K) (l : List (Nat × Nat)) (w : Write K) :
    w ∈ bdrWrites curved ce ch l ↔ (w.pos, w.node) ∈ l ∧ curved w.node = false ∧ w.ce = ce ∧ w.ch = ch := by
  unfold bdrWrites
  simp only [List.mem_map, List.mem_filter, Prod.exists, Bool.not_eq_true']
  constructor
  · rintro ⟨a, b, ⟨h1, h2⟩, rfl⟩
    exact ⟨h1, h2, rfl, rfl⟩
  · rintro ⟨h1, h2, h3, h4⟩
    exact ⟨w.pos, w.node, ⟨h1, h2⟩, by rw [← h3, ← h4]⟩

theorem intWrites_pos (curved : Nat → Bool) (ce ch : K) (l : List IntPair) (w : Write K) (h : w ∈ intWrites curved ce ch l) :
    ∃ q ∈ l, w.pos = q.pos1 ∨ w.pos = q.pos2 := by
  unfold intWrites at h
  rw [List.mem_flatMap] at h
  obtain ⟨q, hq, hw⟩ := h
  refine ⟨q, (List.mem_filter.1 hq).1, ?_⟩
  simp only [List.mem_cons, List.not_mem_nil, or_false] at hw
  rcases hw with rfl | rfl
  · exact .inl rfl
  · exact .inr rfl

theorem allWrites_pos (curved : Nat → Bool) (alpha : K) (b : BdrMaps) (w : Write K) (h : w ∈ allWrites curved alpha b) :
    w.pos ∈ listed b := by
  unfold allWrites at h
  unfold listed
  simp only [List.mem_append, List.mem_map, List.mem_flatMap, mem_bdrWrites] at h ⊢
  rcases h with ((((h | h) | h) | h) | h) | h
  · exact .inl ⟨_, .inl (.inl h.1), rfl⟩
  · exact .inl ⟨_, .inl (.inr h.1), rfl⟩
  · exact .inl ⟨_, .inr h.1, rfl⟩
  · obtain ⟨q, hq, hw⟩ := intWrites_pos _ _ _ _ _ h
    exact .inr ⟨q, .inl (.inl hq), by rcases hw with e | e <;> simp [e]⟩
  · obtain ⟨q, hq, hw⟩ := intWrites_pos _ _ _ _ _ h
    exact .inr ⟨q, .inl (.inr hq), by rcases hw with e | e <;> simp [e]⟩
  · obtain ⟨q, hq, hw⟩ := intWrites_pos _ _ _ _ _ h
    exact .inr ⟨q, .inr hq, by rcases hw with e | e <;> simp [e]⟩

/-- **C42**: positions that no condition lists keep their jumps. -/
theorem C42_others (curved : Nat → Bool) (alpha : K) (b : BdrMaps) (u j : Fields K) (p : Nat) (h : p ∉ listed b) :
    (applyBC curved alpha b u j).e p = j.e p ∧ (applyBC curved alpha b u j).h p = j.h p := by
  rw [applyBC_run]
  obtain ⟨h1, h2⟩ := run_last u (allWrites curved alpha b) j p
  have : (allWrites curved alpha b).filter (fun w => decide (w.pos = p)) = [] := by
    rw [List.filter_eq_nil_iff]
    intro w hw
    have := allWrites_pos curved alpha b w hw
    simp only [decide_eq_true_eq]
    rintro rfl
    exact h this
  rw [this] at h1 h2
  exact ⟨h1, h2⟩

/-- A write that is the only one at its position decides. -/
theorem run_unique (u : Fields K) (l : List (Write K)) (j : Fields K) (w : Write K) (hw : w ∈ l)
    (hu : ∀ w' ∈ l, w'.pos = w.pos → w' = w) :
    (∀ x, (run u l j).e w.pos x = w.ce * u.e w.node x) ∧ ∀ x, (run u l j).h w.pos x = w.ch * u.h w.node x := by
  obtain ⟨h1, h2⟩ := run_last u l j w.pos
  have : ∃ w', (l.filter fun w' => decide (w'.pos = w.pos)).getLast? = some w' := by
    cases h : (l.filter fun w' => decide (w'.pos = w.pos)).getLast? with
    | none =>
      rw [List.getLast?_eq_none_iff, List.filter_eq_nil_iff] at h
      exact absurd (by simp) (h w hw)
    | some w' => exact ⟨w', rfl⟩
  obtain ⟨w', hw'⟩ := this
  have hm := List.mem_filter.1 (List.mem_of_getLast? hw')
  have := hu w' hm.1 (by simpa using hm.2)
  subst this
  rw [hw'] at h1 h2
  exact ⟨fun x => by rw [h1], fun x => by rw [h2]⟩

theorem bdrWrites_sub (curved : Nat → Bool) (ce ch : K) (l : List (Nat × Nat)) :
    ((bdrWrites curved ce ch l).map Write.pos).Sublist (l.map Prod.fst) := by
  unfold bdrWrites
  rw [List.map_map]
  exact List.Sublist.map _ List.filter_sublist

theorem intWrites_sub (curved : Nat → Bool) (ce ch : K) (l : List IntPair) :
    ((intWrites curved ce ch l).map Write.pos).Sublist (l.flatMap fun q => [q.pos1, q.pos2]) := by
  induction l with
  | nil => exact List.Sublist.refl _
  | cons q l ih =>
    unfold intWrites at *
    cases h : (curved q.node1 && curved q.node2)
    · rw [List.filter_cons_of_pos (by rw [h]; rfl), List.flatMap_cons, List.flatMap_cons, List.map_append]
      exact List.Sublist.append (List.Sublist.refl _) ih
    · rw [List.filter_cons_of_neg (by rw [h]; simp), List.flatMap_cons]
      exact ih.trans (List.sublist_append_right _ _)

theorem listed_once (curved : Nat → Bool) (alpha : K) (b : BdrMaps) (hnd : (listed b).Nodup) (w : Write K)
    (hw : w ∈ allWrites curved alpha b) : ∀ w' ∈ allWrites curved alpha b, w'.pos = w.pos → w' = w := by
  have hsub : ((allWrites curved alpha b).map Write.pos).Sublist (listed b) := by
    unfold allWrites listed
    simp only [List.map_append, List.flatMap_append, ← List.append_assoc]
    exact ((((((bdrWrites_sub _ _ _ _).append (bdrWrites_sub _ _ _ _)).append (bdrWrites_sub _ _ _ _)).append
      (intWrites_sub _ _ _ _)).append (intWrites_sub _ _ _ _)).append (intWrites_sub _ _ _ _))
  intro w' hw' hp
  exact List.inj_on_of_nodup_map (hsub.nodup hnd) hw' hw hp

/-- **C42**: with every position listed once, the conditions of outer faces set the jumps as they should: perfect electric
conductor, perfect magnetic conductor, absorbing. -/
theorem C42_conditions (curved : Nat → Bool) (alpha : K) (b : BdrMaps) (u j : Fields K) (hnd : (listed b).Nodup) (p a : Nat)
    (hc : curved a = false) :
    ((p, a) ∈ b.pec → ∀ x, (applyBC curved alpha b u j).e p x = -2 * u.e a x ∧ (applyBC curved alpha b u j).h p x = 0) ∧
    ((p, a) ∈ b.pmc → ∀ x, (applyBC curved alpha b u j).e p x = 0 ∧ (applyBC curved alpha b u j).h p x = -2 * u.h a x) ∧
    ((p, a) ∈ b.sma → ∀ x, (applyBC curved alpha b u j).e p x = -(u.e a x) / alpha ∧
      (applyBC curved alpha b u j).h p x = -(u.h a x) / alpha) := by
  rw [applyBC_run]
  have key : ∀ ce ch : K, (⟨p, a, ce, ch⟩ : Write K) ∈ allWrites curved alpha b →
      ∀ x, (run u (allWrites curved alpha b) j).e p x = ce * u.e a x ∧ (run u (allWrites curved alpha b) j).h p x = ch * u.h a x := by
    intro ce ch hw x
    have := run_unique u (allWrites curved alpha b) j ⟨p, a, ce, ch⟩ hw (listed_once curved alpha b hnd _ hw)
    exact ⟨this.1 x, this.2 x⟩
  refine ⟨fun h x => ?_, fun h x => ?_, fun h x => ?_⟩
  · have := key (-2) 0 (by simp only [allWrites, List.mem_append, mem_bdrWrites]; simp [h, hc]) x
    rw [zero_mul] at this
    exact this
  · have := key 0 (-2) (by simp only [allWrites, List.mem_append, mem_bdrWrites]; simp [h, hc]) x
    rw [zero_mul] at this
    exact this
  · have := key (-1 / alpha) (-1 / alpha) (by simp only [allWrites, List.mem_append, mem_bdrWrites]; simp [h, hc]) x
    rw [this.1, this.2]
    constructor <;> ring

theorem mem_intWrites (curved : Nat → Bool) (ce ch : K) (l : List IntPair) (q : IntPair) (hq : q ∈ l)
    (hc : (curved q.node1 && curved q.node2) = false) :
    (⟨q.pos1, q.node1, ce, ch⟩ : Write K) ∈ intWrites curved ce ch l ∧
    (⟨q.pos2, q.node2, ce, ch⟩ : Write K) ∈ intWrites curved ce ch l := by
  unfold intWrites
  simp only [List.mem_flatMap, List.mem_filter]
  exact ⟨⟨q, ⟨hq, by rw [hc]; rfl⟩, by simp⟩, ⟨q, ⟨hq, by rw [hc]; rfl⟩, by simp⟩⟩

/-- **C42**: the same for the conditions inside, each side from its own trace, unless both nodes are in curved elements. -/
theorem C42_inside (curved : Nat → Bool) (alpha : K) (b : BdrMaps) (u j : Fields K) (hnd : (listed b).Nodup) (q : IntPair)
    (hc : ¬ (curved q.node1 = true ∧ curved q.node2 = true)) (p a : Nat)
    (hpa : (p = q.pos1 ∧ a = q.node1) ∨ (p = q.pos2 ∧ a = q.node2)) :
    (q ∈ b.ipec → ∀ x, (applyBC curved alpha b u j).e p x = -(u.e a x) ∧ (applyBC curved alpha b u j).h p x = 0) ∧
    (q ∈ b.ipmc → ∀ x, (applyBC curved alpha b u j).e p x = 0 ∧ (applyBC curved alpha b u j).h p x = -(u.h a x)) ∧
    (q ∈ b.isma → ∀ x, (applyBC curved alpha b u j).e p x = -(u.e a x) / 2 ∧
      (applyBC curved alpha b u j).h p x = -(u.h a x) / 2) := by
  rw [applyBC_run]
  have hc' : (curved q.node1 && curved q.node2) = false := by
    cases h1 : curved q.node1 <;> cases h2 : curved q.node2 <;> simp_all
  have key : ∀ ce ch : K, (⟨p, a, ce, ch⟩ : Write K) ∈ allWrites curved alpha b →
      ∀ x, (run u (allWrites curved alpha b) j).e p x = ce * u.e a x ∧ (run u (allWrites curved alpha b) j).h p x = ch * u.h a x := by
    intro ce ch hw x
    have := run_unique u (allWrites curved alpha b) j ⟨p, a, ce, ch⟩ hw (listed_once curved alpha b hnd _ hw)
    exact ⟨this.1 x, this.2 x⟩
  have mem : ∀ (ce ch : K) (l : List IntPair), q ∈ l → (⟨p, a, ce, ch⟩ : Write K) ∈ intWrites curved ce ch l := by
    intro ce ch l hl
    have := mem_intWrites curved ce ch l q hl hc'
    rcases hpa with ⟨rfl, rfl⟩ | ⟨rfl, rfl⟩
    · exact this.1
    · exact this.2
  refine ⟨fun h x => ?_, fun h x => ?_, fun h x => ?_⟩
  · have := key (-1) 0 (by unfold allWrites; simp only [List.mem_append]; exact .inl (.inl (.inr (mem _ _ _ h)))) x
    rw [this.1, this.2]
    constructor <;> ring
  · have := key 0 (-1) (by unfold allWrites; simp only [List.mem_append]; exact .inl (.inr (mem _ _ _ h))) x
    rw [this.1, this.2]
    constructor <;> ring
  · have := key (-1 / 2) (-1 / 2) (by unfold allWrites; simp only [List.mem_append]; exact .inr (mem _ _ _ h)) x
    rw [this.1, this.2]
    constructor <;> ring

theorem not_int (curved : Nat → Bool) (ce ch : K) (l : List IntPair) (p : Nat) (h : ∀ q ∈ l, p ≠ q.pos1 ∧ p ≠ q.pos2) (w : Write K)
    (hw : w ∈ intWrites curved ce ch l) : w.pos ≠ p := by
  obtain ⟨q, hq, hx⟩ := intWrites_pos curved ce ch l w hw
  obtain ⟨h1, h2⟩ := h q hq
  rintro rfl
  rcases hx with hx | hx
  · exact h1 hx
  · exact h2 hx

/-- **C42**, overlaps: a position listed by several conditions of outer faces (always with its own node) is absorbing if any of
them is, otherwise a magnetic conductor if any is. -/
theorem C42_overlap (curved : Nat → Bool) (alpha : K) (b : BdrMaps) (u j : Fields K) (p a : Nat) (hc : curved a = false)
    (hint : ∀ q ∈ b.ipec ++ b.ipmc ++ b.isma, p ≠ q.pos1 ∧ p ≠ q.pos2)
    (hnode : ∀ a', (p, a') ∈ b.pec ++ b.pmc ++ b.sma → a' = a) :
    ((p, a) ∈ b.sma → ∀ x, (applyBC curved alpha b u j).e p x = -(u.e a x) / alpha ∧
      (applyBC curved alpha b u j).h p x = -(u.h a x) / alpha) ∧
    ((p, a) ∉ b.sma → (p, a) ∈ b.pmc → ∀ x, (applyBC curved alpha b u j).e p x = 0 ∧
      (applyBC curved alpha b u j).h p x = -2 * u.h a x) := by
  rw [applyBC_run]
  have ints : ∀ w ∈ intWrites curved (-1 : K) 0 b.ipec ++ intWrites curved 0 (-1) b.ipmc ++ intWrites curved (-1 / 2) (-1 / 2) b.isma,
      w.pos ≠ p := by
    intro w hw
    simp only [List.mem_append] at hw
    rcases hw with (hw | hw) | hw
    · exact not_int _ _ _ _ p (fun q hq => hint q (by simp [hq])) w hw
    · exact not_int _ _ _ _ p (fun q hq => hint q (by simp [hq])) w hw
    · exact not_int _ _ _ _ p (fun q hq => hint q (by simp [hq])) w hw
  constructor
  · intro h x
    have e : allWrites curved alpha b = (bdrWrites curved (-2) 0 b.pec ++ bdrWrites curved 0 (-2) b.pmc) ++
        (bdrWrites curved (-1 / alpha) (-1 / alpha) b.sma ++ (intWrites curved (-1 : K) 0 b.ipec ++ intWrites curved 0 (-1) b.ipmc ++
          intWrites curved (-1 / 2) (-1 / 2) b.isma)) := by
      unfold allWrites; simp only [List.append_assoc]
    rw [e, run_append]
    have := run_unique u (bdrWrites curved (-1 / alpha) (-1 / alpha) b.sma ++ (intWrites curved (-1 : K) 0 b.ipec ++
      intWrites curved 0 (-1) b.ipmc ++ intWrites curved (-1 / 2) (-1 / 2) b.isma))
      (run u (bdrWrites curved (-2) 0 b.pec ++ bdrWrites curved 0 (-2) b.pmc) j) ⟨p, a, -1 / alpha, -1 / alpha⟩
      (List.mem_append_left _ ((mem_bdrWrites _ _ _ _ _).2 ⟨h, hc, rfl, rfl⟩)) (by
        intro w hw hp
        rcases List.mem_append.1 hw with hw | hw
        · obtain ⟨g1, g2, g3, g4⟩ := (mem_bdrWrites _ _ _ _ _).1 hw
          have hp : w.pos = p := hp
          rw [hp] at g1
          have := hnode w.node (by simp [g1])
          cases w
          simp only at *
          subst hp this g3 g4
          rfl
        · exact absurd hp (ints w hw))
    simp only at this
    rw [this.1 x, this.2 x]
    constructor <;> ring
  · intro hs h x
    have e : allWrites curved alpha b = bdrWrites curved (-2) 0 b.pec ++
        (bdrWrites curved 0 (-2) b.pmc ++ (bdrWrites curved (-1 / alpha) (-1 / alpha) b.sma ++
        (intWrites curved (-1 : K) 0 b.ipec ++ intWrites curved 0 (-1) b.ipmc ++
          intWrites curved (-1 / 2) (-1 / 2) b.isma))) := by
      unfold allWrites; simp only [List.append_assoc]
    rw [e, run_append]
    have := run_unique u (bdrWrites curved 0 (-2) b.pmc ++ (bdrWrites curved (-1 / alpha) (-1 / alpha) b.sma ++
      (intWrites curved (-1 : K) 0 b.ipec ++ intWrites curved 0 (-1) b.ipmc ++ intWrites curved (-1 / 2) (-1 / 2) b.isma)))
      (run u (bdrWrites curved (-2) 0 b.pec) j) ⟨p, a, 0, -2⟩
      (List.mem_append_left _ ((mem_bdrWrites _ _ _ _ _).2 ⟨h, hc, rfl, rfl⟩)) (by
        intro w hw hp
        have hp : w.pos = p := hp
        rcases List.mem_append.1 hw with hw | hw
        · obtain ⟨g1, g2, g3, g4⟩ := (mem_bdrWrites _ _ _ _ _).1 hw
          rw [hp] at g1
          have := hnode w.node (by simp [g1])
          cases w
          simp only at *
          subst hp this g3 g4
          rfl
        · rcases List.mem_append.1 hw with hw | hw
          · obtain ⟨g1, g2, g3, g4⟩ := (mem_bdrWrites _ _ _ _ _).1 hw
            rw [hp] at g1
            have := hnode w.node (by simp [g1])
            rw [this] at g1
            exact absurd g1 hs
          · exact absurd hp (ints w hw))
    simp only at this
    rw [this.1 x, this.2 x]
    constructor <;> ring

/-- A position listed twice follows the condition applied last: a node that is conductor and absorbing is absorbing. -/
example : ((applyBC (fun _ => false) (1 : ℚ) ⟨[(0, 0)], [], [(0, 0)], [], [], []⟩ ⟨fun _ => ![3, 0, 0], fun _ => ![5, 0, 0]⟩
    ⟨fun _ _ => 0, fun _ _ => 0⟩).e 0 0) = -3 := by decide +kernel

example : (listed ⟨[(0, 0)], [(3, 2)], [], [⟨1, 2, 1, 4⟩], [], []⟩).Nodup := by decide

/-! ### Energy -/

theorem inner_add (N : Nat) (M : Nat → Nat → K) (u v v' : Nat → K) :
    inner N M u (fun i => v i + v' i) = inner N M u v + inner N M u v' := by
  unfold inner
  rw [← sum_add_distrib]
  apply sum_congr rfl; intro i _
  rw [← sum_add_distrib]
  apply sum_congr rfl; intro j _
  ring

theorem inner_sub (N : Nat) (M : Nat → Nat → K) (u v v' : Nat → K) :
    inner N M u (fun i => v i - v' i) = inner N M u v - inner N M u v' := by
  unfold inner
  rw [← sum_sub_distrib]
  apply sum_congr rfl; intro i _
  rw [← sum_sub_distrib]
  apply sum_congr rfl; intro j _
  ring

theorem inner_neg (N : Nat) (M : Nat → Nat → K) (u v : Nat → K) :
    inner N M u (fun i => -1 * v i) = - inner N M u v := by
  unfold inner
  rw [← sum_neg_distrib]
  apply sum_congr rfl; intro i _
  rw [← sum_neg_distrib]
  apply sum_congr rfl; intro j _
  ring

theorem inner_symm (N : Nat) (M : Nat → Nat → K) (hM : ∀ i j, M i j = M j i) (u v : Nat → K) :
    inner N M u v = inner N M v u := by
  unfold inner
  rw [sum_comm]
  apply sum_congr rfl; intro i _
  apply sum_congr rfl; intro j _
  rw [hM]; ring

theorem inner_outE (N : Nat) (M : Nat → Nat → K) (o : Ops K) (alpha : K) (n : Nat → V3 K) (u j : Fields K) (v : Nat → K)
    (x : Fin 3) : inner N M v (outE o alpha n u j x) = inner N M v (o.D (x + 1) (fun i => u.h i (x + 2)))
      - inner N M v (o.D (x + 2) (fun i => u.h i (x + 1)))
      + inner N M v (o.lift fun p => fluxE alpha (n p) (j.e p) (j.h p) x) := by
  unfold outE
  rw [inner_add N M v (fun i => o.D (x + 1) (fun i => u.h i (x + 2)) i - 1 * o.D (x + 2) (fun i => u.h i (x + 1)) i)]
  congr 1
  rw [inner_sub N M v (o.D (x + 1) (fun i => u.h i (x + 2))) (fun i => 1 * o.D (x + 2) (fun i => u.h i (x + 1)) i)]
  simp only [one_mul]

theorem inner_outH (N : Nat) (M : Nat → Nat → K) (o : Ops K) (alpha : K) (n : Nat → V3 K) (u j : Fields K) (v : Nat → K)
    (x : Fin 3) : inner N M v (outH o alpha n u j x) = - inner N M v (o.D (x + 1) (fun i => u.e i (x + 2)))
      + inner N M v (o.D (x + 2) (fun i => u.e i (x + 1)))
      + inner N M v (o.lift fun p => fluxH alpha (n p) (j.e p) (j.h p) x) := by
  unfold outH
  rw [inner_add N M v (fun i => -1 * o.D (x + 1) (fun i => u.e i (x + 2)) i + o.D (x + 2) (fun i => u.e i (x + 1)) i)]
  congr 1
  rw [inner_add N M v (fun i => -1 * o.D (x + 1) (fun i => u.e i (x + 2)) i), inner_neg]

/-- The rate of the energy is a sum over face nodes. -/
theorem rate_faces (N P : Nat) (M : Nat → Nat → K) (o : Ops K) (node : Nat → Nat) (w : Nat → K) (n : Nat → V3 K)
    (hs : SBP N P M o node w n) (alpha : K) (u j : Fields K) :
    rate N M u (outE o alpha n u j) (outH o alpha n u j) =
      ∑ p ∈ range P, w p * face alpha (n p) (u.e (node p)) (u.h (node p)) (j.e p) (j.h p) := by
  unfold rate
  simp only [Fin.sum_univ_three, inner_outE, inner_outH, hs.lift]
  have pair : ∀ (d x y : Fin 3), inner N M (fun i => u.e i x) (o.D d fun i => u.h i y) =
      (∑ p ∈ range P, w p * (n p d * (u.e (node p) x * u.h (node p) y))) - inner N M (fun i => u.h i y) (o.D d fun i => u.e i x) := by
    intro d x y
    have := hs.parts d (fun i => u.e i x) (fun i => u.h i y)
    rw [inner_symm N M hs.symm (o.D d fun i => u.e i x)] at this
    linear_combination this
  have e1 : (0 : Fin 3) + 1 = 1 := rfl
  have e2 : (0 : Fin 3) + 2 = 2 := rfl
  have e3 : (1 : Fin 3) + 1 = 2 := rfl
  have e4 : (1 : Fin 3) + 2 = 0 := rfl
  have e5 : (2 : Fin 3) + 1 = 0 := rfl
  have e6 : (2 : Fin 3) + 2 = 1 := rfl
  simp only [e1, e2, e3, e4, e5, e6]
  rw [pair 1 0 2, pair 2 0 1, pair 2 1 0, pair 0 1 2, pair 0 2 1, pair 1 2 0]
  have hface : ∀ p, w p * face alpha (n p) (u.e (node p)) (u.h (node p)) (j.e p) (j.h p) =
      w p * (n p 1 * (u.e (node p) 0 * u.h (node p) 2)) - w p * (n p 2 * (u.e (node p) 0 * u.h (node p) 1))
      + w p * (n p 2 * (u.e (node p) 1 * u.h (node p) 0)) - w p * (n p 0 * (u.e (node p) 1 * u.h (node p) 2))
      + w p * (n p 0 * (u.e (node p) 2 * u.h (node p) 1)) - w p * (n p 1 * (u.e (node p) 2 * u.h (node p) 0))
      + w p * (u.e (node p) 0 * fluxE alpha (n p) (j.e p) (j.h p) 0) / 2
      + w p * (u.e (node p) 1 * fluxE alpha (n p) (j.e p) (j.h p) 1) / 2
      + w p * (u.e (node p) 2 * fluxE alpha (n p) (j.e p) (j.h p) 2) / 2
      + w p * (u.h (node p) 0 * fluxH alpha (n p) (j.e p) (j.h p) 0) / 2
      + w p * (u.h (node p) 1 * fluxH alpha (n p) (j.e p) (j.h p) 1) / 2
      + w p * (u.h (node p) 2 * fluxH alpha (n p) (j.e p) (j.h p) 2) / 2 := by
    intro p
    unfold face dot cross
    simp only [Matrix.cons_val_zero, Matrix.cons_val_one, Matrix.cons_val]
    ring
  simp only [hface, sum_add_distrib, sum_sub_distrib]
  ring

theorem face_congr (alpha : K) (n E H dE dH dE' dH' : V3 K) (h1 : ∀ x, dE x = dE' x) (h2 : ∀ x, dH x = dH' x) :
    face alpha n E H dE dH = face alpha n E H dE' dH' := by
  rw [funext h1, funext h2]

/-- Two sides of an inner face together only lose energy. -/
theorem face_pair (alpha : K) (n n' E H E' H' : V3 K) (hn' : ∀ d, n' d = - n d) :
    face alpha n E H (fun x => E' x - E x) (fun x => H' x - H x) + face alpha n' E' H' (fun x => E x - E' x) (fun x => H x - H' x) =
      - alpha / 2 * (tang2 n (fun x => E' x - E x) + tang2 n (fun x => H' x - H x)) := by
  unfold face tang2 dot
  simp only [(flux_cross _ _ _ _).1, (flux_cross _ _ _ _).2, hn']
  unfold cross dot
  simp only [Matrix.cons_val_zero, Matrix.cons_val_one, Matrix.cons_val, hn']
  ring

/-- **C41**: on an inner face the two sides together, flow and flux, change the energy by minus `alpha / 2` times the squared
tangential jumps: never up for `alpha ≥ 0`. -/
theorem C41_dissipative (alpha : K) (n n' E H E' H' : V3 K) (hn : dot n n = 1) (hn' : ∀ d, n' d = - n d) :
    face alpha n E H (fun x => E' x - E x) (fun x => H' x - H x) + face alpha n' E' H' (fun x => E x - E' x) (fun x => H x - H' x) =
      - alpha / 2 * (tang2 n (fun x => E' x - E x) + tang2 n (fun x => H' x - H x)) ∧
    (0 ≤ alpha → face alpha n E H (fun x => E' x - E x) (fun x => H' x - H x)
      + face alpha n' E' H' (fun x => E x - E' x) (fun x => H x - H' x) ≤ 0) := by
  have h := face_pair alpha n n' E H E' H' hn'
  refine ⟨h, fun ha => ?_⟩
  rw [h]
  have := mul_nonneg ha (add_nonneg (tang2_nonneg n (fun x => E' x - E x) hn) (tang2_nonneg n (fun x => H' x - H x) hn))
  linarith

/-- Face with jumps proportional to the traces. -/
theorem face_bc (alpha ce ch : K) (n E H : V3 K) :
    face alpha n E H (fun x => ce * E x) (fun x => ch * H x) =
      (1 + (ce + ch) / 2) * dot E (cross n H) + alpha / 2 * (ce * tang2 n E + ch * tang2 n H) := by
  unfold face tang2 dot
  simp only [(flux_cross _ _ _ _).1, (flux_cross _ _ _ _).2]
  unfold cross dot
  simp only [Matrix.cons_val_zero, Matrix.cons_val_one, Matrix.cons_val]
  ring

/-- The flow through a face is bounded by the tangential fields. -/
theorem flow_bound (n E H : V3 K) (hn : dot n n = 1) :
    dot E (cross n H) ≤ (tang2 n E + tang2 n H) / 2 ∧ - dot E (cross n H) ≤ (tang2 n E + tang2 n H) / 2 := by
  have expand : ∀ s : K, s * s = 1 → 0 ≤ tang2 n E + tang2 n H - 2 * s * dot E (cross n H) := by
    intro s hs
    have h : tang2 n E + tang2 n H - 2 * s * dot E (cross n H) =
        tang2 n (fun x => E x - s * cross n H x) := by
      unfold tang2
      unfold dot at *
      unfold cross
      simp only [Matrix.cons_val_zero, Matrix.cons_val_one, Matrix.cons_val]
      linear_combination (-(H 0 * H 0 + H 1 * H 1 + H 2 * H 2)) * hn
        - ((n 1 * H 2 - n 2 * H 1) ^ 2 + (n 2 * H 0 - n 0 * H 2) ^ 2 + (n 0 * H 1 - n 1 * H 0) ^ 2) * hs
    rw [h]
    exact tang2_nonneg n _ hn
  constructor
  · have := expand 1 (by ring); linarith
  · have := expand (-1) (by ring); linarith

/-- **C87**: for every conforming mesh whose outer faces are conductors (electric or magnetic) or absorbing, every field and
every `alpha ≥ 0`, the nodal operator never increases the energy; with absorbing faces `alpha` must be at least one half. -/
theorem C87_energy (N P : Nat) (M : Nat → Nat → K) (o : Ops K) (c : Nat → Nat × Nat) (mate : Nat → Nat) (w : Nat → K)
    (n : Nat → V3 K) (b : BdrMaps) (hs : SBP N P M o (fun p => (c p).1) w n) (hc : Conforming P c mate w n b) (alpha : K)
    (ha : 0 ≤ alpha) (hsma : b.sma = [] ∨ 1 / 2 ≤ alpha) (u : Fields K) :
    rate N M u (outE o alpha n u (applyBC (fun _ => false) alpha b u (jumps c u)))
      (outH o alpha n u (applyBC (fun _ => false) alpha b u (jumps c u))) ≤ 0 := by
  rw [rate_faces N P M o _ w n hs]
  set j := applyBC (fun _ => false) alpha b u (jumps c u) with hj
  set t := fun p => w p * face alpha (n p) (u.e (c p).1) (u.h (c p).1) (j.e p) (j.h p) with ht
  have hlisted : listed b = (b.pec ++ b.pmc ++ b.sma).map Prod.fst := by
    unfold listed; rw [hc.noInt.1, hc.noInt.2.1, hc.noInt.2.2]; simp
  have hnd : (listed b).Nodup := by rw [hlisted]; exact hc.once
  have hpair : ∀ p ∈ range P, t p + t (mate p) ≤ 0 := by
    intro p hp
    have hp := mem_range.1 hp
    have hw := hc.weight p hp
    have hn := hc.unit p hp
    by_cases hm : mate p = p
    · rw [hm]
      have hout := hc.outside p hp hm
      suffices h : face alpha (n p) (u.e (c p).1) (u.h (c p).1) (j.e p) (j.h p) ≤ 0 by
        have := mul_nonpos_of_nonneg_of_nonpos hw h
        simp only [ht]
        linarith
      obtain ⟨c1, c2, c3⟩ := C42_conditions (fun _ => false) alpha b u (jumps c u) hnd p (c p).1 rfl
      rw [← hj] at c1 c2 c3
      have hE := tang2_nonneg (n p) (u.e (c p).1) hn
      have hH := tang2_nonneg (n p) (u.h (c p).1) hn
      rcases List.mem_append.1 hout with h | h
      · rcases List.mem_append.1 h with h | h
        · rw [face_congr alpha (n p) _ _ _ _ (fun x => -2 * u.e (c p).1 x) (fun x => 0 * u.h (c p).1 x)
            (fun x => (c1 h x).1) (fun x => by rw [(c1 h x).2]; ring), face_bc]
          have := mul_nonneg ha hE
          linarith
        · rw [face_congr alpha (n p) _ _ _ _ (fun x => 0 * u.e (c p).1 x) (fun x => -2 * u.h (c p).1 x)
            (fun x => by rw [(c2 h x).1]; ring) (fun x => (c2 h x).2), face_bc]
          have := mul_nonneg ha hH
          linarith
      · have hal : 1 / 2 ≤ alpha := by
          rcases hsma with hx | hx
          · rw [hx] at h; cases h
          · exact hx
        have hpos : 0 < alpha := by linarith
        rw [face_congr alpha (n p) _ _ _ _ (fun x => -1 / alpha * u.e (c p).1 x) (fun x => -1 / alpha * u.h (c p).1 x)
            (fun x => by rw [(c3 h x).1]; ring) (fun x => by rw [(c3 h x).2]; ring), face_bc]
        obtain ⟨f1, f2⟩ := flow_bound (n p) (u.e (c p).1) (u.h (c p).1) hn
        generalize dot (u.e (c p).1) (cross (n p) (u.h (c p).1)) = X at f1 f2 ⊢
        generalize tang2 (n p) (u.e (c p).1) = A at *
        generalize tang2 (n p) (u.h (c p).1) = B at *
        have e : (1 + (-1 / alpha + -1 / alpha) / 2) * X + alpha / 2 * (-1 / alpha * A + -1 / alpha * B) =
            (1 - 1 / alpha) * X - (A + B) / 2 := by
          field_simp
          ring
        rw [e]
        have hinv : 1 / alpha ≤ 2 := by
          rw [div_le_iff₀ hpos]; linarith
        have hinv0 : 0 < 1 / alpha := by positivity
        have hAB : 0 ≤ (A + B) / 2 := by linarith
        by_cases hx : 0 ≤ 1 - 1 / alpha
        · have h1 := mul_le_mul_of_nonneg_left f1 hx
          have h2 : (1 - 1 / alpha) * ((A + B) / 2) ≤ 1 * ((A + B) / 2) :=
            mul_le_mul_of_nonneg_right (by linarith) hAB
          linarith
        · have hx' : 0 ≤ -(1 - 1 / alpha) := by linarith
          have h1 := mul_le_mul_of_nonneg_left f2 hx'
          have h2 : -(1 - 1 / alpha) * ((A + B) / 2) ≤ 1 * ((A + B) / 2) :=
            mul_le_mul_of_nonneg_right (by linarith) hAB
          linarith
    · obtain ⟨⟨h1, h2, h3⟩, h4⟩ := hc.inside p hp hm
      have hmm : mate (mate p) ≠ mate p := by rw [hc.mate_mate p hp]; exact Ne.symm hm
      obtain ⟨_, h5⟩ := hc.inside (mate p) (hc.mate_lt p hp) hmm
      have j1 := C42_others (fun _ => false) alpha b u (jumps c u) p (by rw [hlisted]; exact h4)
      have j2 := C42_others (fun _ => false) alpha b u (jumps c u) (mate p) (by rw [hlisted]; exact h5)
      rw [← hj] at j1 j2
      have key := face_pair alpha (n p) (n (mate p)) (u.e (c p).1) (u.h (c p).1) (u.e (c p).2) (u.h (c p).2) h2
      have e1 : t p = w p * face alpha (n p) (u.e (c p).1) (u.h (c p).1) (fun x => u.e (c p).2 x - u.e (c p).1 x)
          (fun x => u.h (c p).2 x - u.h (c p).1 x) := by
        simp only [ht]
        rw [j1.1, j1.2]
        rfl
      have e2 : t (mate p) = w p * face alpha (n (mate p)) (u.e (c p).2) (u.h (c p).2) (fun x => u.e (c p).1 x - u.e (c p).2 x)
          (fun x => u.h (c p).1 x - u.h (c p).2 x) := by
        simp only [ht]
        rw [j2.1, j2.2, h3]
        unfold jumps
        simp only [h1]
      rw [e1, e2, ← mul_add, key]
      apply mul_nonpos_of_nonneg_of_nonpos hw
      have q1 := tang2_nonneg (n p) (fun x => u.e (c p).2 x - u.e (c p).1 x) hn
      have q2 := tang2_nonneg (n p) (fun x => u.h (c p).2 x - u.h (c p).1 x) hn
      have := mul_nonneg ha (add_nonneg q1 q2)
      linarith
  have hperm : ∑ p ∈ range P, t (mate p) = ∑ p ∈ range P, t p := by
    apply sum_nbij' mate mate
    · intro p hp; exact mem_range.2 (hc.mate_lt p (mem_range.1 hp))
    · intro p hp; exact mem_range.2 (hc.mate_lt p (mem_range.1 hp))
    · intro p hp; exact hc.mate_mate p (mem_range.1 hp)
    · intro p hp; exact hc.mate_mate p (mem_range.1 hp)
    · intro p _; rfl
  have hsum : ∑ p ∈ range P, (t p + t (mate p)) ≤ 0 := sum_nonpos hpair
  rw [sum_add_distrib, hperm] at hsum
  linarith

/-! ### A mesh with two segments -/

/-- Derivatives of two elements with two nodes each; the lift is the identity (weights and lumped masses cancel). -/
def exOps : Ops ℚ where
  D := fun d u i => if d = 0 then (if i < 2 then u 1 - u 0 else u 3 - u 2) else 0
  lift := fun f i => f i

/-- Lumped mass. -/
def exM : Nat → Nat → ℚ := fun i j => if i = j then 1 / 2 else 0

/-- Positions coincide with nodes; nodes 1 and 2 face each other. -/
def exC : Nat → Nat × Nat := fun p => if p = 1 then (1, 2) else if p = 2 then (2, 1) else (p, p)

def exMate : Nat → Nat := fun p => if p = 1 then 2 else if p = 2 then 1 else p

def exN : Nat → V3 ℚ := fun p => if p % 2 = 0 then ![-1, 0, 0] else ![1, 0, 0]

def exB : BdrMaps := ⟨[(0, 0)], [], [(3, 3)], [], [], []⟩

theorem ex_sbp : SBP 4 4 exM exOps (fun p => (exC p).1) (fun _ => 1) exN where
  symm := by intro i j; unfold exM; simp only [eq_comm]
  parts := by
    intro d u v
    unfold inner
    fin_cases d
    · simp [sum_range_succ, exM, exOps, exN, exC]
      ring
    · simp [sum_range_succ, exM, exOps, exN, exC]
    · simp [sum_range_succ, exM, exOps, exN, exC]
  lift := by
    intro u f
    unfold inner
    simp [sum_range_succ, exM, exOps, exC]
    ring

theorem ex_conforming : Conforming 4 exC exMate (fun _ => (1 : ℚ)) exN exB where
  weight := by intro p _; norm_num
  unit := by decide +kernel
  mate_lt := by decide +kernel
  mate_mate := by decide +kernel
  inside := by decide +kernel
  outside := by decide +kernel
  once := by decide +kernel
  noInt := ⟨rfl, rfl, rfl⟩

/-- C87 is about something: the hypotheses hold for this mesh, and energy is really lost. -/
def exU : Fields ℚ := ⟨fun i => ![0, if i = 3 then 1 else 0, 0], fun i => ![0, 0, if i = 3 then 2 else 0]⟩

example : rate 4 exM exU (outE exOps 1 exN exU (applyBC (fun _ => false) 1 exB exU (jumps exC exU)))
    (outH exOps 1 exN exU (applyBC (fun _ => false) 1 exB exU (jumps exC exU))) < 0 := by
  unfold rate inner
  simp only [Fin.sum_univ_three, sum_range_succ, range_zero, sum_empty]
  decide +kernel

/-! ### C88 -/

/-- **C88**: an absorbing face never adds energy, whatever the fields, exactly when `alpha` is at least one half. -/
theorem C88_threshold (alpha : K) (ha : 0 < alpha) :
    (∀ n E H : V3 K, dot n n = 1 → face alpha n E H (fun x => -(E x) / alpha) (fun x => -(H x) / alpha) ≤ 0) ↔ 1 / 2 ≤ alpha := by
  have form : ∀ n E H : V3 K, face alpha n E H (fun x => -(E x) / alpha) (fun x => -(H x) / alpha) =
      (1 - 1 / alpha) * dot E (cross n H) - (tang2 n E + tang2 n H) / 2 := by
    intro n E H
    rw [face_congr alpha n E H _ _ (fun x => -1 / alpha * E x) (fun x => -1 / alpha * H x) (fun x => by ring) (fun x => by ring),
      face_bc]
    field_simp
    ring
  constructor
  · intro h
    have := h ![1, 0, 0] ![0, 1, 0] ![0, 0, 1] (by simp [dot])
    rw [form] at this
    simp [dot, cross, tang2] at this
    rw [one_div, inv_le_comm₀ (by norm_num) ha]
    linarith
  · intro hal n E H hn
    rw [form]
    obtain ⟨f1, f2⟩ := flow_bound n E H hn
    have hE := tang2_nonneg n E hn
    have hH := tang2_nonneg n H hn
    generalize dot E (cross n H) = X at *
    generalize tang2 n E = A at *
    generalize tang2 n H = B at *
    have hinv : 1 / alpha ≤ 2 := by
      rw [div_le_iff₀ ha]; linarith
    have hinv0 : 0 < 1 / alpha := by positivity
    have hAB : 0 ≤ (A + B) / 2 := by linarith
    by_cases hx : 0 ≤ 1 - 1 / alpha
    · have h1 := mul_le_mul_of_nonneg_left f1 hx
      have h2 : (1 - 1 / alpha) * ((A + B) / 2) ≤ 1 * ((A + B) / 2) :=
        mul_le_mul_of_nonneg_right (by linarith) hAB
      linarith
    · have hx' : 0 ≤ -(1 - 1 / alpha) := by linarith
      have h1 := mul_le_mul_of_nonneg_left f2 hx'
      have h2 : -(1 - 1 / alpha) * ((A + B) / 2) ≤ 1 * ((A + B) / 2) :=
        mul_le_mul_of_nonneg_right (by linarith) hAB
      linarith

/-- **C88** fails below one half: energy grows in a conforming mesh with an absorbing end. -/
theorem C88_violated :
    let u : Fields ℚ := ⟨fun i => ![0, if i = 3 then 1 else 0, 0], fun i => ![0, 0, if i = 3 then 1 else 0]⟩
    SBP 4 4 exM exOps (fun p => (exC p).1) (fun _ => 1) exN ∧ Conforming 4 exC exMate (fun _ => (1 : ℚ)) exN exB ∧
    0 < rate 4 exM u (outE exOps (1 / 4) exN u (applyBC (fun _ => false) (1 / 4) exB u (jumps exC u)))
      (outH exOps (1 / 4) exN u (applyBC (fun _ => false) (1 / 4) exB u (jumps exC u))) := by
  refine ⟨ex_sbp, ex_conforming, ?_⟩
  unfold rate inner
  simp only [Fin.sum_univ_three, sum_range_succ, range_zero, sum_empty]
  decide +kernel

/-! ### C89 -/

/-- **C89** for an absorbing face inside: no energy is added, whatever the fields, exactly when `alpha` is at least one.
Each side separately, with its own trace. -/
theorem C89_absorbing_partial (alpha : K) :
    (∀ n E H : V3 K, dot n n = 1 → face alpha n E H (fun x => -(E x) / 2) (fun x => -(H x) / 2) ≤ 0) ↔ 1 ≤ alpha := by
  have form : ∀ n E H : V3 K, face alpha n E H (fun x => -(E x) / 2) (fun x => -(H x) / 2) =
      dot E (cross n H) / 2 - alpha / 4 * (tang2 n E + tang2 n H) := by
    intro n E H
    rw [face_congr alpha n E H _ _ (fun x => -1 / 2 * E x) (fun x => -1 / 2 * H x) (fun x => by ring) (fun x => by ring),
      face_bc]
    ring
  constructor
  · intro h
    have := h ![1, 0, 0] ![0, 1, 0] ![0, 0, -1] (by simp [dot])
    rw [form] at this
    simp [dot, cross, tang2] at this
    linarith
  · intro hal n E H hn
    rw [form]
    obtain ⟨f1, f2⟩ := flow_bound n E H hn
    have hE := tang2_nonneg n E hn
    have hH := tang2_nonneg n H hn
    have := mul_le_mul_of_nonneg_right hal (add_nonneg hE hH)
    linarith

/-- **C89** fails for conductors inside, whatever `alpha`: some trace gains energy on one side, with the other side empty. -/
theorem C89_violated_face (alpha : K) :
    (∃ n E H : V3 K, dot n n = 1 ∧ 0 < face alpha n E H (fun x => -(E x)) (fun _ => 0)) ∧
    (∃ n E H : V3 K, dot n n = 1 ∧ 0 < face alpha n E H (fun _ => 0) (fun x => -(H x))) := by
  constructor
  · refine ⟨![1, 0, 0], ![0, 1, 0], ![0, 0, -(alpha + 1)], by simp [dot], ?_⟩
    rw [face_congr alpha _ _ _ _ _ (fun x => -1 * (![0, 1, 0] : V3 K) x) (fun x => 0 * (![0, 0, -(alpha + 1)] : V3 K) x)
      (fun x => by ring) (fun x => by ring), face_bc]
    simp [dot, cross, tang2]
    linarith
  · refine ⟨![1, 0, 0], ![0, alpha + 1, 0], ![0, 0, -1], by simp [dot], ?_⟩
    rw [face_congr alpha _ _ _ _ _ (fun x => 0 * (![0, alpha + 1, 0] : V3 K) x) (fun x => -1 * (![0, 0, -1] : V3 K) x)
      (fun x => by ring) (fun x => by ring), face_bc]
    simp [dot, cross, tang2]
    linarith

/-- **C89** fails: energy grows in a mesh with conducting ends and a conductor between its two elements, with full upwinding. -/
theorem C89_violated :
    let u : Fields ℚ := ⟨fun i => ![0, if i = 1 then 1 else 0, 0], fun i => ![0, 0, if i = 1 then -2 else 0]⟩
    let b : BdrMaps := ⟨[(0, 0), (3, 3)], [], [], [⟨1, 2, 1, 2⟩], [], []⟩
    SBP 4 4 exM exOps (fun p => (exC p).1) (fun _ => 1) exN ∧
    0 < rate 4 exM u (outE exOps 1 exN u (applyBC (fun _ => false) 1 b u (jumps exC u)))
      (outH exOps 1 exN u (applyBC (fun _ => false) 1 b u (jumps exC u))) := by
  refine ⟨ex_sbp, ?_⟩
  unfold rate inner
  simp only [Fin.sum_univ_three, sum_range_succ, range_zero, sum_empty]
  decide +kernel

/-! ### C90 -/

/-- What one source adds at a position. -/
def net (inc : Nat → V3 K) (l : List TfNode) (p : Nat) (x : Fin 3) : K :=
  (l.map fun q => (if p = q.tf then inc q.node x else 0) - (if p = q.sf then inc q.node x else 0)).sum

theorem addIncident_all (inc : Fields K) (l : List TfNode) (j : Fields K) (p : Nat) (x : Fin 3) :
    (l.foldl (addIncident inc) j).e p x = j.e p x + net inc.e l p x ∧
    (l.foldl (addIncident inc) j).h p x = j.h p x + net inc.h l p x := by
  induction l generalizing j with
  | nil => simp [net]
  | cons q l ih =>
    rw [List.foldl_cons, (ih _).1, (ih _).2]
    unfold net addIncident
    simp only [List.map_cons, List.sum_cons]
    constructor
    · split_ifs <;> ring
    · split_ifs <;> ring

theorem net_zero (inc : Nat → V3 K) (l : List TfNode) (p : Nat) (x : Fin 3) (h : ∀ q ∈ l, p ≠ q.sf ∧ p ≠ q.tf) :
    net inc l p x = 0 := by
  induction l with
  | nil => rfl
  | cons q l ih =>
    unfold net at *
    rw [List.map_cons, List.sum_cons, ih fun q hq => h q (List.mem_cons_of_mem _ hq),
      if_neg (h q (List.mem_cons_self)).2, if_neg (h q (List.mem_cons_self)).1]
    ring

theorem net_at (inc : Nat → V3 K) (l : List TfNode) (hnd : (positions l).Nodup) (q : TfNode) (hq : q ∈ l) (x : Fin 3) :
    net inc l q.sf x = - inc q.node x ∧ net inc l q.tf x = inc q.node x := by
  induction l with
  | nil => cases hq
  | cons r l ih =>
    unfold positions at hnd
    rw [List.flatMap_cons, List.nodup_append] at hnd
    obtain ⟨n1, n2, n3⟩ := hnd
    have hne : r.sf ≠ r.tf := by simpa using n1
    have mem : ∀ q' ∈ l, q'.sf ∈ l.flatMap (fun q => [q.sf, q.tf]) ∧ q'.tf ∈ l.flatMap (fun q => [q.sf, q.tf]) := by
      intro q' hq'
      exact ⟨List.mem_flatMap.2 ⟨q', hq', by simp⟩, List.mem_flatMap.2 ⟨q', hq', by simp⟩⟩
    have e : ∀ p, net inc (r :: l) p x = (if p = r.tf then inc r.node x else 0) - (if p = r.sf then inc r.node x else 0) + net inc l p x := by
      intro p; unfold net; rw [List.map_cons, List.sum_cons]
    rw [e, e]
    rcases List.mem_cons.1 hq with rfl | hq
    · rw [net_zero inc l q.sf x, net_zero inc l q.tf x, if_neg hne, if_pos rfl, if_pos rfl, if_neg (Ne.symm hne)]
      · constructor <;> ring
      · intro q' hq'
        exact ⟨n3 _ (by simp) _ (mem q' hq').1, n3 _ (by simp) _ (mem q' hq').2⟩
      · intro q' hq'
        exact ⟨n3 _ (by simp) _ (mem q' hq').1, n3 _ (by simp) _ (mem q' hq').2⟩
    · have h1 := n3 r.sf (by simp) _ (mem q hq).1
      have h2 := n3 r.sf (by simp) _ (mem q hq).2
      have h3 := n3 r.tf (by simp) _ (mem q hq).1
      have h4 := n3 r.tf (by simp) _ (mem q hq).2
      obtain ⟨i1, i2⟩ := ih n2 hq
      rw [i1, i2, if_neg (Ne.symm h3), if_neg (Ne.symm h1), if_neg (Ne.symm h4), if_neg (Ne.symm h2)]
      constructor <;> ring

theorem evaluate_sum (sources : List (Option (Fields K))) (l : List TfNode) (j : Fields K) (p : Nat) (x : Fin 3) :
    (evaluateTFSF sources l j).e p x = j.e p x + ((sources.filterMap id).map fun f => net f.e l p x).sum ∧
    (evaluateTFSF sources l j).h p x = j.h p x + ((sources.filterMap id).map fun f => net f.h l p x).sum := by
  unfold evaluateTFSF
  induction sources generalizing j with
  | nil => simp
  | cons s ss ih =>
    rw [List.foldl_cons, (ih _).1, (ih _).2]
    cases s with
    | none => exact ⟨rfl, rfl⟩
    | some f =>
      have e : ((some f :: ss).filterMap id) = f :: ss.filterMap id := rfl
      rw [e, List.map_cons, List.map_cons, List.sum_cons, List.sum_cons]
      have h := addIncident_all f l j p x
      unfold addSource
      rw [h.1, h.2]
      constructor <;> ring

theorem sum_map_neg' {A : Type} (l : List A) (f : A → K) : (l.map fun a => - f a).sum = - (l.map f).sum := by
  induction l with
  | nil => simp
  | cons a l ih => rw [List.map_cons, List.sum_cons, List.map_cons, List.sum_cons, ih]; ring

/-- **C90**: the incident field enters with its own sign on each side and nowhere else. -/
theorem C90_correction (sources : List (Option (Fields K))) (l : List TfNode) (hnd : (positions l).Nodup) (j : Fields K) (x : Fin 3) :
    (∀ q ∈ l, (evaluateTFSF sources l j).e q.sf x = j.e q.sf x - (incident sources).e q.node x ∧
      (evaluateTFSF sources l j).h q.sf x = j.h q.sf x - (incident sources).h q.node x ∧
      (evaluateTFSF sources l j).e q.tf x = j.e q.tf x + (incident sources).e q.node x ∧
      (evaluateTFSF sources l j).h q.tf x = j.h q.tf x + (incident sources).h q.node x) ∧
    (∀ p ∉ positions l, (evaluateTFSF sources l j).e p x = j.e p x ∧ (evaluateTFSF sources l j).h p x = j.h p x) := by
  constructor
  · intro q hq
    obtain ⟨a1, a2⟩ := evaluate_sum sources l j q.sf x
    obtain ⟨b1, b2⟩ := evaluate_sum sources l j q.tf x
    rw [a1, a2, b1, b2]
    simp only [(net_at _ l hnd q hq x).1, (net_at _ l hnd q hq x).2]
    unfold incident
    refine ⟨?_, ?_, rfl, rfl⟩
    · rw [sub_eq_add_neg, ← sum_map_neg']
    · rw [sub_eq_add_neg, ← sum_map_neg']
  · intro p hp
    obtain ⟨a1, a2⟩ := evaluate_sum sources l j p x
    have hz : ∀ inc : Nat → V3 K, net inc l p x = 0 := by
      intro inc
      apply net_zero
      intro q hq
      constructor
      · rintro rfl; exact hp (List.mem_flatMap.2 ⟨q, hq, by simp⟩)
      · rintro rfl; exact hp (List.mem_flatMap.2 ⟨q, hq, by simp⟩)
    rw [a1, a2]
    simp [hz]

/-- **C90**: if across the surface the fields differ exactly by the incident field, no flux is seen on either side: the incident
field passes without reflection. -/
theorem C90_transparent (sources : List (Option (Fields K))) (l : List TfNode) (hnd : (positions l).Nodup) (c : Nat → Nat × Nat)
    (u : Fields K) (q : TfNode) (hq : q ∈ l) (a : Nat) (h1 : c q.sf = (q.node, a)) (h2 : c q.tf = (a, q.node))
    (hE : ∀ x, u.e a x = u.e q.node x + (incident sources).e q.node x)
    (hH : ∀ x, u.h a x = u.h q.node x + (incident sources).h q.node x) (x : Fin 3) :
    (evaluateTFSF sources l (jumps c u)).e q.sf x = 0 ∧ (evaluateTFSF sources l (jumps c u)).h q.sf x = 0 ∧
    (evaluateTFSF sources l (jumps c u)).e q.tf x = 0 ∧ (evaluateTFSF sources l (jumps c u)).h q.tf x = 0 := by
  obtain ⟨a1, a2, a3, a4⟩ := (C90_correction sources l hnd (jumps c u) x).1 q hq
  rw [a1, a2, a3, a4]
  unfold jumps
  simp only [h1, h2, hE, hH]
  refine ⟨?_, ?_, ?_, ?_⟩ <;> ring

example : (positions [⟨1, 2, 1⟩, ⟨5, 6, 5⟩]).Nodup := by decide

/-- Two sources and a source of another type. -/
example : (incident [some ⟨fun _ => ![0, 1, 0], fun _ => ![0, 0, (1 : ℚ)]⟩, none, some ⟨fun _ => ![0, 2, 0], fun _ => ![0, 0, 3]⟩]).e 0 1
    = 3 := by decide +kernel

end Dgtd.Nodal
