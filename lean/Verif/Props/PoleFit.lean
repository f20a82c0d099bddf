/-
C45, C92-C94: pole fit.
-/
import Verif.Spec.PoleFit
import Mathlib.Tactic.Ring
import Mathlib.Tactic.Linarith
import Mathlib.Tactic.FieldSimp
import Mathlib.Tactic.LinearCombination
import Mathlib.Algebra.BigOperators.Intervals
import Mathlib.Algebra.BigOperators.Field
import Mathlib.Algebra.Order.Field.Rat
import Mathlib.Data.List.Induction

set_option linter.unusedSectionVars false

namespace Dgtd.PoleFit
open Spec Finset

/-! ### C45 -/

section Choice
variable {K : Type} [Field K] [LinearOrder K] [IsStrictOrderedRing K]

theorem ltF_some (a b : K) : ltF (some a) (some b) = true ↔ a < b := by simp [ltF]

/-- Fits skipped by the loop. -/
theorem loop_append (fit : Nat → Fit K) (tol : K) (res : Fit K) (l l' : List Nat)
    (h : ∀ N ∈ l, (fit N).stable = false ∨ ltF (fit N).err (some tol) = false) :
    loop fit tol res (l ++ l') = loop fit tol (loop fit tol res l) l' := by
  induction l generalizing res with
  | nil => rfl
  | cons N l ih =>
    have hN := h N List.mem_cons_self
    have ih := fun res => ih res fun M hM => h M (List.mem_cons_of_mem _ hM)
    have e : ∀ m, loop fit tol res (N :: m) = if (fit N).stable = false then loop fit tol res m
      else if ltF (fit N).err (some tol) then fit N
      else loop fit tol (if ltF (fit N).err res.err then fit N else res) m := fun _ => rfl
    rw [List.cons_append, e, e]
    by_cases hs : (fit N).stable = false
    · rw [if_pos hs, if_pos hs, ih]
    · rw [if_neg hs, if_neg hs]
      rcases hN with hN | hN
      · exact absurd hN hs
      · rw [hN]
        simp only [Bool.false_eq_true, if_false]
        rw [ih]

/-- **C45**: the search stops at the first stable fit below the tolerance, and returns it; no stable fit of a lower order is
better. -/
theorem C45_stops (fit : Nat → Fit K) (maxPoles : Nat) (tol : K) (N : Nat) (h1 : 1 ≤ N) (h2 : N ≤ maxPoles) (e : K)
    (hs : (fit N).stable = true) (he : (fit N).err = some e) (ht : e < tol)
    (hfirst : ∀ M, 1 ≤ M → M < N → (fit M).stable = true → ∃ x, (fit M).err = some x ∧ tol ≤ x) :
    findOptimal fit maxPoles tol = fit N ∧
    ∀ M, 1 ≤ M → M ≤ N → (fit M).stable = true → ∃ x, (fit M).err = some x ∧ e ≤ x := by
  constructor
  · unfold findOptimal
    have hsplit : (List.range maxPoles).map (· + 1) = (List.range (N - 1)).map (· + 1) ++ (N :: ((List.range (maxPoles - N)).map (· + (N + 1)))) := by
      have e1 : maxPoles = (N - 1) + ((maxPoles - N) + 1) := by omega
      conv_lhs => rw [e1]
      rw [List.range_add, List.map_append, List.range_succ_eq_map]
      congr 1
      simp only [List.map_cons, List.map_map]
      congr 1
      · omega
      · apply List.map_congr_left
        intro a _
        simp only [Function.comp]
        omega
    rw [hsplit, loop_append]
    · have e : ∀ res m, loop fit tol res (N :: m) = if (fit N).stable = false then loop fit tol res m
        else if ltF (fit N).err (some tol) then fit N
        else loop fit tol (if ltF (fit N).err res.err then fit N else res) m := fun _ _ => rfl
      rw [e, if_neg (by rw [hs]; decide), he, if_pos ((ltF_some _ _).2 ht)]
    · intro M hM
      simp only [List.mem_map, List.mem_range] at hM
      obtain ⟨a, ha, rfl⟩ := hM
      cases hst : (fit (a + 1)).stable with
      | false => exact .inl rfl
      | true =>
        obtain ⟨x, hx, hle⟩ := hfirst (a + 1) (by omega) (by omega) hst
        right
        rw [hx]
        simpa [ltF] using hle
  · intro M hM1 hM2 hst
    rcases Nat.lt_or_eq_of_le hM2 with hlt | rfl
    · obtain ⟨x, hx, hle⟩ := hfirst M hM1 hlt hst
      exact ⟨x, hx, le_trans ht.le hle⟩
    · exact ⟨e, he, le_refl _⟩

/-- The state of the loop when nothing is below the tolerance. -/
theorem loop_best (fit : Nat → Fit K) (tol : K) (l : List Nat)
    (hreal : ∀ N ∈ l, (fit N).stable = true → ∃ x, (fit N).err = some x ∧ tol ≤ x) :
    (∃ x, (loop fit tol start l).err = some x ∧ x ≤ 1000000000) ∧
    (loop fit tol start l = start ∨ ∃ N ∈ l, loop fit tol start l = fit N ∧ (fit N).stable = true ∧
      ∀ x, (fit N).err = some x → x < 1000000000) ∧
    (∀ N ∈ l, (fit N).stable = true → ∀ x y, (fit N).err = some x → (loop fit tol start l).err = some y → y ≤ x) ∧
    (loop fit tol start l = start → ∀ N ∈ l, (fit N).stable = true → ∀ x, (fit N).err = some x → 1000000000 ≤ x) := by
  induction l using List.reverseRecOn with
  | nil => exact ⟨⟨_, rfl, le_refl _⟩, .inl rfl, by simp, by simp⟩
  | append_singleton l N ih =>
    obtain ⟨⟨y, hy, hy9⟩, i1, i2, i3⟩ := ih fun M hM => hreal M (by simp [hM])
    have hN := hreal N (by simp)
    rw [loop_append]
    · have e : ∀ res, loop fit tol res [N] = if (fit N).stable = false then res
        else if ltF (fit N).err (some tol) then fit N
        else (if ltF (fit N).err res.err then fit N else res) := fun _ => rfl
      rw [e]
      generalize loop fit tol start l = r at *
      cases hst : (fit N).stable with
      | false =>
        rw [if_pos rfl]
        refine ⟨⟨y, hy, hy9⟩, ?_, ?_, ?_⟩
        · rcases i1 with i1 | ⟨M, hM, i1⟩
          · exact .inl i1
          · exact .inr ⟨M, by simp [hM], i1⟩
        · intro M hM hs x z hx hz
          rcases List.mem_append.1 hM with hM | hM
          · exact i2 M hM hs x z hx hz
          · simp only [List.mem_singleton] at hM; subst hM; rw [hst] at hs; cases hs
        · intro hr M hM hs x hx
          rcases List.mem_append.1 hM with hM | hM
          · exact i3 hr M hM hs x hx
          · simp only [List.mem_singleton] at hM; subst hM; rw [hst] at hs; cases hs
      | true =>
        obtain ⟨x, hx, hle⟩ := hN hst
        rw [if_neg (by decide), if_neg (by rw [hx, ltF_some]; exact not_lt.2 hle), hx, hy]
        by_cases hlt : x < y
        · rw [if_pos ((ltF_some _ _).2 hlt)]
          refine ⟨⟨x, hx, le_trans hlt.le hy9⟩, .inr ⟨N, by simp, rfl, hst, ?_⟩, ?_, ?_⟩
          · intro x' hx'; rw [hx] at hx'; cases hx'; exact lt_of_lt_of_le hlt hy9
          · intro M hM hs x' z hx' hz
            rw [hx] at hz; cases hz
            rcases List.mem_append.1 hM with hM | hM
            · exact le_trans hlt.le (i2 M hM hs x' y hx' hy)
            · simp only [List.mem_singleton] at hM; subst hM; rw [hx] at hx'; cases hx'; exact le_refl _
          · intro hr
            exfalso
            rw [hr] at hst; exact absurd hst (by simp [start])
        · rw [if_neg (by rw [ltF_some]; exact hlt)]
          refine ⟨⟨y, hy, hy9⟩, ?_, ?_, ?_⟩
          · rcases i1 with i1 | ⟨M, hM, i1⟩
            · exact .inl i1
            · exact .inr ⟨M, by simp [hM], i1⟩
          · intro M hM hs x' z hx' hz
            rw [hy] at hz; cases hz
            rcases List.mem_append.1 hM with hM | hM
            · exact i2 M hM hs x' y hx' hy
            · simp only [List.mem_singleton] at hM; subst hM; rw [hx] at hx'; cases hx'; exact not_lt.1 hlt
          · intro hr M hM hs x' hx'
            rcases List.mem_append.1 hM with hM | hM
            · exact i3 hr M hM hs x' hx'
            · simp only [List.mem_singleton] at hM; subst hM; rw [hx] at hx'; cases hx'
              rw [hr] at hy
              have : y = 1000000000 := by cases hy; rfl
              rw [← this]; exact not_lt.1 hlt
    · intro M hM
      cases hst : (fit M).stable with
      | false => exact .inl rfl
      | true =>
        obtain ⟨x, hx, hle⟩ := hreal M (by simp [hM]) hst
        right
        rw [hx]
        simpa [ltF] using hle

/-- **C45**: if no stable fit is below the tolerance, the result is the stable fit with the smallest error, provided that some
stable fit has an error below `1e9`; otherwise the result says that it is not stable. -/
theorem C45_best (fit : Nat → Fit K) (maxPoles : Nat) (tol : K)
    (hreal : ∀ N, 1 ≤ N → N ≤ maxPoles → (fit N).stable = true → ∃ x, (fit N).err = some x ∧ tol ≤ x) :
    ((∃ N x, 1 ≤ N ∧ N ≤ maxPoles ∧ (fit N).stable = true ∧ (fit N).err = some x ∧ x < 1000000000) →
      ∃ N, 1 ≤ N ∧ N ≤ maxPoles ∧ findOptimal fit maxPoles tol = fit N ∧ (fit N).stable = true ∧
        ∀ M, 1 ≤ M → M ≤ maxPoles → (fit M).stable = true → ∀ x y, (fit M).err = some x → (fit N).err = some y → y ≤ x) ∧
    ((∀ N x, 1 ≤ N → N ≤ maxPoles → (fit N).stable = true → (fit N).err = some x → 1000000000 ≤ x) →
      (findOptimal fit maxPoles tol).stable = false ∧ (findOptimal fit maxPoles tol).n = 0) := by
  have hmem : ∀ N, N ∈ (List.range maxPoles).map (· + 1) ↔ 1 ≤ N ∧ N ≤ maxPoles := by
    intro N
    simp only [List.mem_map, List.mem_range]
    constructor
    · rintro ⟨a, ha, rfl⟩; omega
    · intro h; exact ⟨N - 1, by omega, by omega⟩
  obtain ⟨⟨y, hy, hy9⟩, i1, i2, i3⟩ := loop_best fit tol ((List.range maxPoles).map (· + 1))
    fun N hN hs => hreal N ((hmem N).1 hN).1 ((hmem N).1 hN).2 hs
  have hfo : findOptimal fit maxPoles tol = loop fit tol start ((List.range maxPoles).map (· + 1)) := rfl
  rw [hfo]
  generalize loop fit tol start ((List.range maxPoles).map (· + 1)) = r at *
  constructor
  · rintro ⟨N, x, h1, h2, h3, h4, h5⟩
    rcases i1 with i1 | ⟨M, hM, i1, hs, hlt⟩
    · exact absurd (i3 i1 N ((hmem N).2 ⟨h1, h2⟩) h3 x h4) (not_le.2 h5)
    · refine ⟨M, ((hmem M).1 hM).1, ((hmem M).1 hM).2, i1, hs, ?_⟩
      intro M' h1 h2 hs' x y hx hy
      rw [← i1] at hy
      exact i2 M' ((hmem M').2 ⟨h1, h2⟩) hs' x y hx hy
  · intro hall
    rcases i1 with i1 | ⟨M, hM, i1, hs, hlt⟩
    · rw [i1]; exact ⟨rfl, rfl⟩
    · -- a returned fit has an error below 1e9
      exfalso
      obtain ⟨x, hx, _⟩ := hreal M ((hmem M).1 hM).1 ((hmem M).1 hM).2 hs
      have h9 := hall M x ((hmem M).1 hM).1 ((hmem M).1 hM).2 hs hx
      exact absurd (hlt x hx) (not_lt.2 h9)

/-- **C45**: without not-a-numbers the reported error is the largest of the relative errors (or zero), and the flag says whether
no pole has a real part above `1e-6`. -/
theorem C45_quality (errs re : List K) :
    (∃ e, maxError (errs.map some) = some e ∧ (e = 0 ∨ e ∈ errs) ∧ 0 ≤ e ∧ ∀ x ∈ errs, x ≤ e) ∧
    (isStable (re.map some) = true ↔ ∀ r ∈ re, r ≤ 1 / 1000000) := by
  constructor
  · unfold maxError
    induction errs using List.reverseRecOn with
    | nil => exact ⟨0, rfl, .inl rfl, le_refl _, by simp⟩
    | append_singleton l x ih =>
      obtain ⟨e, h1, h2, h3, h4⟩ := ih
      rw [List.map_append, List.foldl_append, h1]
      simp only [List.map_cons, List.map_nil, List.foldl_cons, List.foldl_nil]
      by_cases hx : e < x
      · rw [if_pos ((ltF_some _ _).2 hx)]
        refine ⟨x, rfl, .inr (by simp), le_trans h3 hx.le, fun y hy => ?_⟩
        rcases List.mem_append.1 hy with hy | hy
        · exact le_trans (h4 y hy) hx.le
        · simp only [List.mem_singleton] at hy; rw [hy]
      · rw [if_neg (by rw [ltF_some]; exact hx)]
        refine ⟨e, rfl, h2.imp_right fun h => by simp [h], h3, fun y hy => ?_⟩
        rcases List.mem_append.1 hy with hy | hy
        · exact h4 y hy
        · simp only [List.mem_singleton] at hy; rw [hy]; exact not_lt.1 hx
  · unfold isStable
    simp only [Bool.not_eq_true', List.any_eq_false, List.mem_map, forall_exists_index, and_imp, forall_apply_eq_imp_iff₂]
    constructor
    · intro h r hr
      have := h r hr
      rw [ltF_some] at this
      exact not_lt.1 this
    · intro h r hr
      rw [ltF_some]
      exact not_lt.2 (h r hr)

/-- **C45** fails for not-a-numbers: a fit all of whose poles and errors are not-a-number is reported as stable and exact, and is
returned at once, whatever the other fits. -/
theorem C45_violated (n k : Nat) (fit : Nat → Fit K) (maxPoles : Nat) (hm : 1 ≤ maxPoles) (tol : K) (ht : 0 < tol) (d : List K)
    (h1 : fit 1 = ⟨1, maxError (List.replicate n none), isStable (K := K) (List.replicate k none), d⟩) :
    (fit 1).stable = true ∧ (fit 1).err = some 0 ∧ findOptimal fit maxPoles tol = fit 1 := by
  have e1 : isStable (List.replicate k (none : Option K)) = true := by
    unfold isStable
    simp only [Bool.not_eq_true', List.any_eq_false]
    intro r hr
    rw [(List.mem_replicate.1 hr).2]
    simp [ltF]
  have e2 : maxError (List.replicate n (none : Option K)) = some 0 := by
    unfold maxError
    clear h1
    induction n with
    | zero => rfl
    | succ n ih =>
      rw [List.replicate_succ, List.foldl_cons]
      exact ih
  have hs : (fit 1).stable = true := by rw [h1]; exact e1
  have he : (fit 1).err = some 0 := by rw [h1]; exact e2
  refine ⟨hs, he, (C45_stops fit maxPoles tol 1 (le_refl _) hm 0 hs he ht ?_).1⟩
  intro M h2 h3
  omega

/-- Three orders: the first is unstable, the second good, the third better; the tolerance decides. -/
def exFit : Nat → Fit ℚ := fun N => ([⟨1, some (1 / 10), false, []⟩, ⟨2, some (1 / 20), true, []⟩, ⟨3, some (1 / 100), true, []⟩] : List (Fit ℚ)).getD (N - 1) start

example : (findOptimal exFit 3 (1 / 10)).n = 2 ∧ (findOptimal exFit 3 (1 / 1000)).n = 3 ∧ (findOptimal exFit 1 (1 / 10)).n = 0 := by
  decide +kernel

end Choice

/-! ### C92 -/

section Poles
variable {F : Type} [Field F]

/-- **C92**: a row of the system is satisfied exactly when numerator and denominator give the impedance at its frequency (for a
weight that is not zero). -/
theorem C92_row (n : Nat) (x : Nat → F) (w z s : F) (hw : w ≠ 0) :
    ∑ j ∈ range (2 * n + 1), row n w z s j * x j = rhs w z ↔ num n x s = z * den n x s := by
  have e : 2 * n + 1 = (n + 1) + n := by ring
  rw [e, sum_range_add]
  have h1 : ∑ j ∈ range (n + 1), row n w z s j * x j = w * num n x s := by
    unfold num
    rw [mul_sum]
    apply sum_congr rfl
    intro j hj
    unfold row
    rw [if_pos (Nat.lt_succ_iff.1 (mem_range.1 hj))]
    ring
  have h2 : ∑ j ∈ range n, row n w z s (n + 1 + j) * x (n + 1 + j) = - (w * z) * ∑ j ∈ range n, x (n + 1 + j) * s ^ (j + 1) := by
    rw [mul_sum]
    apply sum_congr rfl
    intro j _
    unfold row
    rw [if_neg (by omega)]
    have : n + 1 + j - (n + 1) + 1 = j + 1 := by omega
    rw [this]
    ring
  rw [h1, h2]
  unfold rhs den
  generalize ∑ j ∈ range n, x (n + 1 + j) * s ^ (j + 1) = S
  constructor
  · intro h
    have : w * (num n x s) = w * (z * (1 + S)) := by linear_combination h
    exact mul_left_cancel₀ hw this
  · intro h
    rw [h]; ring

/-- Horner's rule from the highest coefficient. -/
def horner (c : Nat → F) (lam : F) : Nat → F
  | 0 => 1
  | k + 1 => lam * horner c lam k + c k

theorem horner_sum (c : Nat → F) (lam : F) (k : Nat) :
    horner c lam k = lam ^ k + ∑ j ∈ range k, c j * lam ^ (k - 1 - j) := by
  induction k with
  | zero => simp [horner]
  | succ k ih =>
    rw [horner, ih, sum_range_succ, mul_add, mul_sum]
    have : ∑ j ∈ range k, lam * (c j * lam ^ (k - 1 - j)) = ∑ j ∈ range k, c j * lam ^ (k + 1 - 1 - j) := by
      apply sum_congr rfl
      intro j hj
      have hj := mem_range.1 hj
      have : k + 1 - 1 - j = (k - 1 - j) + 1 := by omega
      rw [this]; ring
    rw [this]
    have e : k + 1 - 1 - k = 0 := by omega
    rw [e]
    ring

theorem companion_mul (m : Nat) (c v : Nat → F) (i : Nat) (hi : i < m + 1) :
    ∑ j ∈ range (m + 1), companion (m + 1) c i j * v j = (if i = 0 then 0 else v (i - 1)) - c (m - i) * v m := by
  rw [sum_range_succ]
  have h1 : companion (m + 1) c i m = - c (m - i) := by
    unfold companion; rw [if_pos (by omega)]; simp
  have h2 : ∑ j ∈ range m, companion (m + 1) c i j * v j = if i = 0 then 0 else v (i - 1) := by
    have : ∀ j ∈ range m, companion (m + 1) c i j * v j = if i = j + 1 then v j else 0 := by
      intro j hj
      have hj := mem_range.1 hj
      unfold companion
      rw [if_neg (by omega)]
      split_ifs <;> simp
    rw [sum_congr rfl this]
    by_cases h0 : i = 0
    · subst h0; simp
    · rw [if_neg h0, sum_eq_single (i - 1)]
      · rw [if_pos (by omega)]
      · intro j _ hj; rw [if_neg (by omega)]
      · intro hj
        exfalso; apply hj; rw [mem_range]; omega
  rw [h1, h2]
  ring

/-- The eigenvalues of the matrix are the zeros of the polynomial. -/
theorem eigen_iff (m : Nat) (c : Nat → F) (lam : F) :
    IsEigenvalue (m + 1) (companion (m + 1) c) lam ↔ horner c lam (m + 1) = 0 := by
  constructor
  · rintro ⟨v, ⟨i, hi, hv⟩, h⟩
    have hrec : ∀ k, k ≤ m → v (m - k) = horner c lam k * v m := by
      intro k
      induction k with
      | zero => intro _; simp [horner]
      | succ k ih =>
        intro hk
        have hv := h (m - k) (by omega)
        rw [companion_mul m c v (m - k) (by omega), if_neg (by omega), ih (by omega)] at hv
        have e1 : m - k - 1 = m - (k + 1) := by omega
        have e2 : m - (m - k) = k := by omega
        rw [e1, e2] at hv
        rw [horner]
        linear_combination hv
    have hm : v m ≠ 0 := by
      intro hz
      apply hv
      have := hrec (m - i) (by omega)
      have e : m - (m - i) = i := by omega
      rw [e, hz] at this
      rw [this]; ring
    have h0 := h 0 (by omega)
    rw [companion_mul m c v 0 (by omega), if_pos rfl] at h0
    have hr := hrec m (le_refl _)
    rw [Nat.sub_self] at hr
    rw [hr, Nat.sub_zero] at h0
    have : horner c lam (m + 1) * v m = 0 := by
      rw [horner]; linear_combination -h0
    rcases mul_eq_zero.1 this with h | h
    · exact h
    · exact absurd h hm
  · intro h
    refine ⟨fun i => horner c lam (m - i), ⟨m, by omega, ?_⟩, ?_⟩
    · simp [horner]
    · intro i hi
      rw [companion_mul m c _ i hi]
      have e0 : m - m = 0 := by omega
      by_cases h0 : i = 0
      · subst h0
        rw [if_pos rfl, e0, Nat.sub_zero]
        rw [horner] at h
        simp only [horner]
        linear_combination -h
      · rw [if_neg h0, e0]
        have e : m - (i - 1) = (m - i) + 1 := by omega
        rw [e]
        simp only [horner]
        ring

/-- **C92**: the poles are exactly the zeros of the denominator of the fitted function, back in unscaled frequency. -/
theorem C92_poles (n : Nat) (hn : 1 ≤ n) (x : Nat → F) (scale lam : F) (hs : scale ≠ 0) (hx : x (2 * n) ≠ 0) :
    IsEigenvalue n (companion n (coeffs n x scale)) lam ↔ den n x (lam / scale) = 0 := by
  obtain ⟨m, rfl⟩ : ∃ m, n = m + 1 := ⟨n - 1, by omega⟩
  rw [eigen_iff, horner_sum]
  have hlead : aFull (m + 1) x scale (m + 1) = x (2 * (m + 1)) / scale ^ (m + 1) := by
    unfold aFull
    rw [if_neg (by omega)]
    congr 2
    omega
  have hne : aFull (m + 1) x scale (m + 1) ≠ 0 := by
    rw [hlead]; exact div_ne_zero hx (pow_ne_zero _ hs)
  have key : aFull (m + 1) x scale (m + 1) * (lam ^ (m + 1) + ∑ j ∈ range (m + 1), coeffs (m + 1) x scale j * lam ^ (m + 1 - 1 - j))
      = den (m + 1) x (lam / scale) := by
    rw [mul_add, mul_sum]
    have h1 : ∑ j ∈ range (m + 1), aFull (m + 1) x scale (m + 1) * (coeffs (m + 1) x scale j * lam ^ (m + 1 - 1 - j)) =
        ∑ j ∈ range (m + 1), aFull (m + 1) x scale (m + 1 - 1 - j) * lam ^ (m + 1 - 1 - j) := by
      apply sum_congr rfl
      intro j _
      unfold coeffs
      field_simp
    rw [h1, sum_range_reflect (fun i => aFull (m + 1) x scale i * lam ^ i) (m + 1), add_comm,
      ← sum_range_succ (fun i => aFull (m + 1) x scale i * lam ^ i) (m + 1), sum_range_succ']
    unfold den
    have h0 : aFull (m + 1) x scale 0 * lam ^ 0 = 1 := by simp [aFull]
    rw [h0, add_comm]
    congr 1
    apply sum_congr rfl
    intro j _
    unfold aFull
    rw [if_neg (by omega), div_pow]
    have : j + 1 - 1 = j := by omega
    rw [this]
    field_simp
  rw [← key]
  constructor
  · intro h; rw [h, mul_zero]
  · intro h
    rcases mul_eq_zero.1 h with h | h
    · exact absurd h hne
    · exact h

/-- Order two with denominator `1 + 3 (s / 2) + 2 (s / 2)²`: the poles are `-2` and `-1`. -/
example : IsEigenvalue 2 (companion 2 (coeffs 2 (fun i => ([0, 0, 0, 3, 2] : List ℚ).getD i 0) 2)) (-2 : ℚ) := by
  rw [C92_poles 2 (by norm_num) _ 2 (-2) (by norm_num) (by norm_num)]
  simp [den, sum_range_succ]
  norm_num

end Poles

/-! ### C93 -/

section Target
variable {K : Type} [Field K] [LinearOrder K] [IsStrictOrderedRing K]

/-- **C93**, one layer: the impedance is that of the layer. -/
theorem C93_single_partial (l : Layer K) : targetInput [l] = some l := by
  simp [targetInput]

/-- **C93**, layers of one material: the impedance is that of one layer as wide as all of them. -/
theorem C93_same_material_partial {ls : List (Layer K)} (hne : ls ≠ []) {e m s : K}
    (h : ∀ l ∈ ls, l.eps = e ∧ l.mu = m ∧ l.sigma = s) : targetInput ls = some ⟨e, m, s, (ls.map Layer.width).sum⟩ := by
  obtain ⟨l, ls', rfl⟩ := List.exists_cons_of_ne_nil hne
  obtain ⟨h1, h2, h3⟩ := h l (by simp)
  simp [targetInput, h1, h2, h3]

/-- Two layers of one material. -/
example : targetInput [⟨1, 1, 5, 1⟩, ⟨1, 1, 5, 2⟩] = some ⟨(1 : ℚ), 1, 5, 3⟩ := by
  rw [C93_same_material_partial (e := 1) (m := 1) (s := 5) (by simp) (by simp)]
  norm_num

/-- **C93** fails for several layers: the materials of all but the first are not looked at. -/
theorem C93_violated (l : Layer K) (ls ls' : List (Layer K)) (h : ls.map Layer.width = ls'.map Layer.width) :
    targetInput (l :: ls) = targetInput (l :: ls') := by
  simp [targetInput, h]

/-- A conductor behind an insulator is taken as an insulator. -/
example : targetInput [⟨1, 1, 0, 1⟩, ⟨1, 1, 1000, 1⟩] = targetInput [⟨(1 : ℚ), 1, 0, 1⟩, ⟨1, 1, 0, 1⟩] :=
  C93_violated _ _ _ rfl

end Target

/-! ### C94 -/

theorem freq_eq (f0 f1 : ℝ) (n i : Nat) : freq f0 f1 n i = f0 * ((f1 / f0) ^ ((1 : ℝ) / ((n : ℝ) - 1))) ^ i := by
  induction i with
  | zero => simp [freq]
  | succ i ih => rw [freq, ih]; ring

/-- **C94**: the sampled frequencies go from the first to the last one, in geometric progression. -/
theorem C94_ends (f0 f1 : ℝ) (h0 : 0 < f0) (h1 : 0 < f1) (n : Nat) (hn : 2 ≤ n) :
    freq f0 f1 n 0 = f0 ∧ freq f0 f1 n (n - 1) = f1 ∧
    ∀ i, freq f0 f1 n (i + 1) * freq f0 f1 n 0 = freq f0 f1 n i * freq f0 f1 n 1 := by
  refine ⟨rfl, ?_, ?_⟩
  · rw [freq_eq, ← Real.rpow_natCast, ← Real.rpow_mul (div_pos h1 h0).le]
    have hc : ((n - 1 : Nat) : ℝ) = (n : ℝ) - 1 := by
      rw [Nat.cast_sub (by omega)]; simp
    have hne : (n : ℝ) - 1 ≠ 0 := by
      have : (2 : ℝ) ≤ n := by exact_mod_cast hn
      linarith
    rw [hc, one_div, inv_mul_cancel₀ hne, Real.rpow_one]
    field_simp
  · intro i
    rw [freq_eq, freq_eq, freq_eq, freq_eq]
    ring

/-- **C94**: increasing, if the last one is greater than the first. -/
theorem C94_increasing (f0 f1 : ℝ) (h0 : 0 < f0) (h1 : f0 < f1) (n : Nat) (hn : 2 ≤ n) (i : Nat) :
    freq f0 f1 n i < freq f0 f1 n (i + 1) := by
  have hn' : (2 : ℝ) ≤ n := by exact_mod_cast hn
  have hr : 1 < (f1 / f0) ^ ((1 : ℝ) / ((n : ℝ) - 1)) :=
    Real.one_lt_rpow ((one_lt_div h0).2 h1) (by apply one_div_pos.2; linarith)
  have hpos : 0 < freq f0 f1 n i := by
    rw [freq_eq]
    exact mul_pos h0 (pow_pos (by linarith) _)
  rw [freq]
  exact lt_mul_of_one_lt_right hpos hr

example : freq 1 1000 4 3 = 1000 := (C94_ends 1 1000 (by norm_num) (by norm_num) 4 (by norm_num)).2.1

end Dgtd.PoleFit
