/-
C96, C97, C98 and C99: numbers written as text.
-/
import Verif.Spec.Decimal
import Mathlib.Algebra.Order.Group.Unbundled.Int
import Mathlib.Algebra.Order.Field.Power

namespace Dgtd.Decimal
open Spec

theorem roundEven_near (q : ℚ) : |q - roundEven q| ≤ 1 / 2 := by
  have h0 := Int.floor_le q
  have h1 := Int.lt_floor_add_one q
  unfold roundEven
  rw [abs_le]
  split
  · constructor <;> linarith
  · split
    · push_cast; constructor <;> linarith
    · split
      · constructor <;> linarith
      · push_cast; constructor <;> linarith

/-- Printing with `p` digits after the first one keeps a number up to half a unit of the last digit. -/
theorem sci_near (p : ℕ) (x : ℚ) : |(sci p x).value p - x| ≤ |x| / (2 * 10 ^ p) := by
  by_cases hx : x = 0
  · subst hx; simp [sci, Sci.value]
  have hpos : 0 < |x| := abs_pos.2 hx
  set k := Int.log 10 |x| with hk
  have hlow : (10 : ℚ) ^ k ≤ |x| := by exact_mod_cast Int.zpow_log_le_self (b := 10) (by norm_num) hpos
  set n := roundEven (|x| / 10 ^ (k - p)) with hn
  have hval : (sci p x).value p = (if x < 0 then -1 else 1) * ((n : ℚ) * 10 ^ (k - p)) := by
    unfold sci
    rw [if_neg hx]
    simp only
    rw [← hk, ← hn]
    split
    · next h =>
      rw [h]
      simp only [Sci.value, decide_eq_true_eq]
      rw [mul_assoc]
      congr 1
      push_cast
      rw [show k + 1 - (p : ℤ) = (k - p) + 1 by ring, zpow_add₀ (by norm_num : (10 : ℚ) ≠ 0), pow_succ]
      ring
    · simp only [Sci.value, decide_eq_true_eq]
      rw [mul_assoc]
  have hs : x = (if x < 0 then -1 else 1) * |x| := by
    split
    · next h => rw [abs_of_neg h]; ring
    · next h => rw [abs_of_nonneg (not_lt.1 h)]; ring
  have hu : (0 : ℚ) < 10 ^ (k - (p : ℤ)) := by positivity
  have hsub : (sci p x).value p - x = (if x < 0 then -1 else 1) * ((n : ℚ) * 10 ^ (k - p) - |x|) := by
    rw [hval]
    conv_lhs => rw [hs]
    have : (if (if x < 0 then (-1 : ℚ) else 1) * |x| < 0 then (-1 : ℚ) else 1) = if x < 0 then -1 else 1 := by rw [← hs]
    rw [this]
    ring
  rw [hsub, abs_mul, show |(if x < 0 then (-1 : ℚ) else 1)| = 1 by split <;> simp, one_mul]
  have hr := roundEven_near (|x| / 10 ^ (k - (p : ℤ)))
  rw [← hn] at hr
  have he : (n : ℚ) * 10 ^ (k - (p : ℤ)) - |x| = -(|x| / 10 ^ (k - (p : ℤ)) - n) * 10 ^ (k - (p : ℤ)) := by
    field_simp
    ring
  rw [he, abs_mul, abs_neg, abs_of_pos hu]
  calc |(|x| / 10 ^ (k - (p : ℤ)) - n)| * 10 ^ (k - (p : ℤ)) ≤ 1 / 2 * 10 ^ (k - (p : ℤ)) :=
        mul_le_mul_of_nonneg_right hr hu.le
    _ = 10 ^ k / (2 * 10 ^ p) := by
        rw [zpow_sub₀ (by norm_num : (10 : ℚ) ≠ 0), zpow_natCast]; field_simp
    _ ≤ |x| / (2 * 10 ^ p) := by gcongr

/-- Different doubles are never closer than `2⁻⁵³` of one of them. -/
theorem double_gap (x y : ℚ) (hx : IsDouble x) (hy : IsDouble y) (h : y ≠ x) : |x| / 2 ^ 53 ≤ |x - y| := by
  obtain ⟨m, e, hm, -, -, rfl⟩ := hx
  obtain ⟨n, f, hn, -, -, rfl⟩ := hy
  have two : (2 : ℚ) ≠ 0 := by norm_num
  have he : (0 : ℚ) < 2 ^ e := by positivity
  have hf : (0 : ℚ) < 2 ^ f := by positivity
  have hm' : (|m| : ℚ) ≤ 2 ^ 53 := by exact_mod_cast hm.le
  have hn' : (|n| : ℚ) ≤ 2 ^ 53 - 1 := by
    have : |n| ≤ 2 ^ 53 - 1 := by omega
    exact_mod_cast this
  rcases le_total e f with hef | hef
  · -- `y` is a multiple of the unit of `x`
    obtain ⟨d, rfl⟩ := Int.le.dest hef
    have e1 : (m : ℚ) * 2 ^ e - n * 2 ^ (e + (d : ℤ)) = ((m - n * 2 ^ d : ℤ) : ℚ) * 2 ^ e := by
      rw [zpow_add₀ two, zpow_natCast]; push_cast; ring
    have hne : m - n * 2 ^ d ≠ 0 := by
      intro h0
      apply h
      have := e1
      rw [h0] at this
      simp only [Int.cast_zero, zero_mul] at this
      linarith
    have h1 : (1 : ℚ) ≤ |((m - n * 2 ^ d : ℤ) : ℚ)| := by
      rw [← Int.cast_abs]
      exact_mod_cast Int.one_le_abs hne
    rw [e1, abs_mul, abs_mul, abs_of_pos he, div_le_iff₀ (by positivity)]
    nlinarith
  · obtain ⟨d, rfl⟩ := Int.le.dest hef
    have e1 : (m : ℚ) * 2 ^ (f + (d : ℤ)) - n * 2 ^ f = ((m * 2 ^ d - n : ℤ) : ℚ) * 2 ^ f := by
      rw [zpow_add₀ two, zpow_natCast]; push_cast; ring
    have e2 : (m : ℚ) * 2 ^ (f + (d : ℤ)) = ((m * 2 ^ d : ℤ) : ℚ) * 2 ^ f := by
      rw [zpow_add₀ two, zpow_natCast]; push_cast; ring
    have hne : m * 2 ^ d - n ≠ 0 := by
      intro h0
      apply h
      have := e1
      rw [h0] at this
      simp only [Int.cast_zero, zero_mul] at this
      linarith
    rw [e1, e2, abs_mul, abs_mul, abs_of_pos hf, div_le_iff₀ (by positivity)]
    generalize m * 2 ^ d = c at *
    have h1 : (1 : ℚ) ≤ |((c - n : ℤ) : ℚ)| := by
      rw [← Int.cast_abs]
      exact_mod_cast Int.one_le_abs hne
    have h2 : |(c : ℚ)| - |(n : ℚ)| ≤ |((c - n : ℤ) : ℚ)| := by
      push_cast
      exact abs_sub_abs_le_abs_sub _ _
    have key : |(c : ℚ)| ≤ |((c - n : ℤ) : ℚ)| * 2 ^ 53 := by
      by_cases hc : |(c : ℚ)| ≤ 2 ^ 53
      · nlinarith
      · push Not at hc
        generalize |((c - n : ℤ) : ℚ)| = z at *
        norm_num at hc hn' ⊢
        linarith
    nlinarith

/-- A double printed with 17 significant digits is read back. -/
theorem sci_round_trip (read : ℚ → ℚ) (hr : Reads read) (x : ℚ) (hx : IsDouble x) : read ((sci 16 x).value 16) = x := by
  have hn := sci_near 16 x
  set D := (sci 16 x).value 16
  have hb : |x| ≤ 2 ^ 1024 - 2 ^ 971 := by
    obtain ⟨m, e, hm, -, he, rfl⟩ := hx
    rw [abs_mul, abs_of_pos (by positivity : (0 : ℚ) < 2 ^ e)]
    have hm' : |(m : ℚ)| ≤ 2 ^ 53 - 1 := by
      have : |m| ≤ 2 ^ 53 - 1 := by omega
      exact_mod_cast this
    have he' : (2 : ℚ) ^ e ≤ 2 ^ 971 := by
      have := zpow_le_zpow_right₀ (by norm_num : (1 : ℚ) ≤ 2) he
      exact_mod_cast this
    calc |(m : ℚ)| * 2 ^ e ≤ (2 ^ 53 - 1) * 2 ^ 971 := by
          apply mul_le_mul hm' he' (by positivity)
          norm_num
      _ = 2 ^ 1024 - 2 ^ 971 := by rw [sub_mul, ← pow_add, one_mul]
  apply hr D x hx
  · have h1 : |D| ≤ |x| + |D - x| := by
      have := abs_add_le x (D - x)
      rwa [add_sub_cancel] at this
    have h2 : |x| / (2 * 10 ^ 16) ≤ (2 ^ 1024 - 2 ^ 971) / (2 * 10 ^ 16) := by gcongr
    have h4 : (2 : ℚ) ^ 971 = 2 * 2 ^ 970 := by rw [← pow_succ']
    have h5 : (2 : ℚ) ^ 1024 = 2 ^ 54 * 2 ^ 970 := by rw [← pow_add]
    rw [h4, h5] at hb h2
    rw [h5]
    have hA : (0 : ℚ) < 2 ^ 970 := by positivity
    generalize (2 : ℚ) ^ 970 = A at *
    clear h4 h5
    have h3 : (2 ^ 54 * A - 2 * A) / (2 * 10 ^ 16) < A := by
      rw [div_lt_iff₀ (by positivity)]
      norm_num
      linarith
    linarith
  · intro y hy hne
    have hg := double_gap x y hx hy hne
    have h1 : |x - y| ≤ |D - x| + |D - y| := by
      have := abs_add_le (x - D) (D - y)
      rw [abs_sub_comm x D] at this
      simpa using this
    by_cases h0 : x = 0
    · subst h0
      simp only [abs_zero, zero_div] at hn
      have hd := le_antisymm hn (abs_nonneg _)
      rw [hd]
      have : 0 < |(0 : ℚ) - y| := abs_pos.2 (by simpa using hne)
      linarith
    · have hpos : 0 < |x| := abs_pos.2 h0
      have : |x| / (2 * 10 ^ 16) < |x| / 2 ^ 53 / 2 := by
        rw [div_div]
        apply div_lt_div_of_pos_left hpos (by norm_num) (by norm_num)
      linarith

/-- **C96**: a snapshot for reduction is read back exactly, instant and degrees of freedom, whatever doubles they are. -/
theorem C96_round_trip (read : ℚ → ℚ) (hr : Reads read) (t : ℚ) (x : List ℚ) (ht : IsDouble t)
    (hx : ∀ v ∈ x, IsDouble v) : readSnapshot read (morFile t x) = some (t, x) := by
  have e : readSnapshot read (morFile t x) =
      if (x.map fun x => Line.num (sci 16 x)).length = x.length then
        ((x.map fun x => Line.num (sci 16 x)).mapM fun (l : Line) => match l with
          | .num d => some (read (d.value 16))
          | .count _ => none).map fun xs => (read ((sci 16 t).value 16), xs)
      else none := rfl
  rw [e, if_pos (by simp), sci_round_trip read hr t ht]
  have : ∀ l : List ℚ, (∀ v ∈ l, IsDouble v) → ((l.map fun x => Line.num (sci 16 x)).mapM fun (l : Line) => match l with
      | .num d => some (read (d.value 16))
      | .count _ => none) = some l := by
    intro l
    induction l with
    | nil => intro _; rfl
    | cons a l ih =>
      intro h
      simp only [List.map_cons, List.mapM_cons]
      rw [ih fun v hv => h v (List.mem_cons_of_mem _ hv), sci_round_trip read hr a (h a (by simp))]
      rfl
  rw [this x hx]
  rfl

open Classical in
/-- A correctly rounded reader. -/
noncomputable def nearest (D : ℚ) : ℚ :=
  if h : ∃ x, IsDouble x ∧ ∀ y, IsDouble y → y ≠ x → |D - x| < |D - y| then h.choose else 0

/-- Correctly rounded readers exist. -/
theorem nearest_reads : Reads nearest := by
  intro D x hx _ hn
  have h : ∃ x, IsDouble x ∧ ∀ y, IsDouble y → y ≠ x → |D - x| < |D - y| := ⟨x, hx, hn⟩
  unfold nearest
  rw [dif_pos h]
  by_contra hc
  have h1 := hn _ h.choose_spec.1 hc
  have h2 := h.choose_spec.2 x hx (Ne.symm hc)
  linarith

/-- **C96**: different instants or states give different snapshots. -/
theorem C96_injective (t s : ℚ) (x y : List ℚ) (ht : IsDouble t) (hs : IsDouble s) (hx : ∀ v ∈ x, IsDouble v)
    (hy : ∀ v ∈ y, IsDouble v) (h : morFile t x = morFile s y) : t = s ∧ x = y := by
  have h1 := C96_round_trip nearest nearest_reads t x ht hx
  rw [h, C96_round_trip nearest nearest_reads s y hs hy] at h1
  simp only [Option.some.injEq, Prod.mk.injEq] at h1
  exact ⟨h1.1.symm, h1.2.symm⟩

/-- Doubles: one third rounded, the smallest one, the largest one. -/
example : IsDouble (6004799503160661 / 18014398509481984) ∧ IsDouble (2 ^ (-1074 : ℤ)) ∧ IsDouble ((2 ^ 53 - 1) * 2 ^ 971) :=
  ⟨⟨6004799503160661, -54, by norm_num, by norm_num, by norm_num, by norm_num⟩,
   ⟨1, -1074, by norm_num, by norm_num, by norm_num, by simp⟩,
   ⟨2 ^ 53 - 1, 971, by norm_num, by norm_num, by norm_num, by rw [zpow_ofNat]; congr 1; norm_num⟩⟩

/-! ### C97 -/

/-- **C97** (partial): on one rank the snapshot holds the whole state. -/
theorem C97_one_rank_partial (t : ℚ) (x : List ℚ) : morShared t [x] = some (morFile t x) := rfl

/-- **C97** fails: on several ranks that all have degrees of freedom, in whatever order they write, the snapshot never has the
number of degrees of freedom of the whole state; it holds the part of the rank that wrote last. -/
theorem C97_violated (t : ℚ) (ranks : List (List ℚ)) (last : List ℚ) (hne : ranks ≠ []) (h : ∀ r ∈ ranks, r ≠ []) :
    morShared t (ranks ++ [last]) = some (morFile t last) ∧
      ∀ (x : List ℚ), x.length = ((ranks ++ [last]).map List.length).sum → morShared t (ranks ++ [last]) ≠ some (morFile t x) := by
  have e : morShared t (ranks ++ [last]) = some (morFile t last) := by simp [morShared, List.foldl_append]
  refine ⟨e, ?_⟩
  intro x hx hc
  rw [e] at hc
  simp only [Option.some.injEq, morFile, List.cons.injEq, Line.count.injEq] at hc
  have hlen := hc.2.1
  rw [hx] at hlen
  cases ranks with
  | nil => exact hne rfl
  | cons r rs =>
    have hr := h r (by simp)
    have : 0 < r.length := List.length_pos_iff.2 hr
    simp at hlen
    omega

example : morShared 0 [[1, 2], [3]] = some (morFile 0 [3]) := rfl

/-! ### C98 -/

/-- **C98** (partial): printed instants (probe files, `time.txt`) are within five millionths of the instant; instants whose
distance exceeds a hundred-thousandth of the larger one are printed differently and in order.  Missing: closer
instants (`C98_violated_printed`). -/
theorem C98_printed_partial (s t : ℚ) (hs : 0 ≤ s) (h : s + t / 100000 < t) :
    |(sci 5 t).value 5 - t| ≤ t / 200000 ∧ (sci 5 s).value 5 < (sci 5 t).value 5 := by
  have ht : 0 ≤ t := by linarith
  have h1 := sci_near 5 t
  have h2 := sci_near 5 s
  rw [abs_of_nonneg ht] at h1
  rw [abs_of_nonneg hs] at h2
  have e : (2 : ℚ) * 10 ^ 5 = 200000 := by norm_num
  rw [e] at h1 h2
  refine ⟨h1, ?_⟩
  rw [abs_le] at h1 h2
  linarith

/-- **C98** fails for steps below a hundred-thousandth of the instant: two instants a step of one millionth apart get the
same text. -/
theorem C98_violated_printed : sci 5 2 = sci 5 (2 + 1 / 1000000) := by
  have hl : ∀ r : ℚ, 1 ≤ r → r < 10 → Int.log 10 r = 0 := by
    intro r h1 h2
    apply le_antisymm
    · have := (Int.lt_zpow_iff_log_lt (b := 10) (by norm_num) (by linarith) (x := 1) (r := r)).1 (by simpa using h2)
      omega
    · exact (Int.zpow_le_iff_le_log (b := 10) (by norm_num) (by linarith) (x := 0) (r := r)).1 (by simpa using h1)
  have hs : ∀ r : ℚ, 1 ≤ r → r < 10 → roundEven (r * 100000) = 200000 → sci 5 r = ⟨false, 200000, 0⟩ := by
    intro r h1 h2 h3
    have hr : ¬ r < 0 := by linarith
    unfold sci
    rw [if_neg (by linarith), abs_of_nonneg (by linarith), hl r h1 h2]
    have : r / 10 ^ ((0 : ℤ) - (5 : ℕ)) = r * 100000 := by
      rw [show ((0 : ℤ) - (5 : ℕ)) = -5 by norm_num, zpow_neg, div_inv_eq_mul]
      norm_num
    simp only [this, h3]
    rw [if_neg (by norm_num)]
    simp [hr]
  rw [hs 2 (by norm_num) (by norm_num) (by decide +kernel),
    hs (2 + 1 / 1000000) (by norm_num) (by norm_num) (by decide +kernel)]

/-- **C98** (partial): the times of visualisation frames never decrease, are within half a thousandth of the instant, and
those of instants a thousandth apart are different.  Missing: closer instants (`C98_violated_frames`). -/
theorem C98_frames_partial (s t : ℚ) (hs : 0 ≤ s) (hst : s ≤ t) :
    |frameTime t - t| ≤ 1 / 2000 ∧ frameTime s ≤ frameTime t ∧ (s + 1 / 1000 ≤ t → frameTime s < frameTime t) := by
  have ht : 0 ≤ t := by linarith
  have e : ∀ r : ℚ, 0 ≤ r → frameTime r = (⌊r * 1000 + 1 / 2⌋ : ℚ) / 1000 := by
    intro r hr
    unfold frameTime roundAway
    rw [if_pos (by linarith)]
  rw [e t ht, e s hs]
  have f1 := Int.floor_le (t * 1000 + 1 / 2)
  have f2 := Int.lt_floor_add_one (t * 1000 + 1 / 2)
  refine ⟨?_, ?_, ?_⟩
  · rw [abs_le]
    constructor
    · rw [le_sub_iff_add_le, le_div_iff₀ (by norm_num)]
      linarith
    · rw [sub_le_iff_le_add, div_le_iff₀ (by norm_num)]
      linarith
  · have : ⌊s * 1000 + 1 / 2⌋ ≤ ⌊t * 1000 + 1 / 2⌋ := Int.floor_mono (by linarith)
    have : ((⌊s * 1000 + 1 / 2⌋ : ℤ) : ℚ) ≤ (⌊t * 1000 + 1 / 2⌋ : ℤ) := by exact_mod_cast this
    gcongr
  · intro h
    have h1 : ⌊s * 1000 + 1 / 2⌋ + 1 ≤ ⌊t * 1000 + 1 / 2⌋ := by
      rw [Int.le_floor]
      push_cast
      have := Int.floor_le (s * 1000 + 1 / 2)
      linarith
    have : ((⌊s * 1000 + 1 / 2⌋ : ℤ) : ℚ) < (⌊t * 1000 + 1 / 2⌋ : ℤ) := by exact_mod_cast (by omega : _ < _)
    gcongr

/-- **C98** fails for frames closer than a thousandth: all the instants within half a thousandth of zero share the time zero. -/
theorem C98_violated_frames (t : ℚ) (h0 : 0 ≤ t) (h : t < 1 / 2000) : frameTime t = 0 := by
  unfold frameTime roundAway
  rw [if_pos (by linarith)]
  have : ⌊t * 1000 + 1 / 2⌋ = 0 := by
    rw [Int.floor_eq_iff]
    push_cast
    constructor <;> linarith
  rw [this]
  simp

example : (0 : ℚ) ≤ 1 ∧ (1 : ℚ) + 2 / 100000 < 2 := by norm_num

/-! ### C99 -/

/-- **C99** (partial): angles at least a millionth apart have different texts in the names of the result files.
Missing: closer angles (`C99_violated`). -/
theorem C99_names_partial (a b : ℚ) (h : a + 1 / 1000000 < b) : toStr a ≠ toStr b := by
  intro hc
  unfold toStr at hc
  simp only [Fixed.mk.injEq, decide_eq_decide] at hc
  have ha := roundEven_near (|a| * 1000000)
  have hb := roundEven_near (|b| * 1000000)
  rw [hc.2] at ha
  rw [abs_le] at ha hb
  rcases lt_or_ge a 0 with h1 | h1
  · have h2 := hc.1.1 h1
    rw [abs_of_neg h1, abs_of_neg h2] at *
    linarith
  · have h2 : 0 ≤ b := by linarith
    rw [abs_of_nonneg h1, abs_of_nonneg h2] at *
    linarith

/-- **C99** fails: two directions less than a millionth apart share their files. -/
theorem C99_violated : toStr (1 / 2) = toStr (1 / 2 + 1 / 4000000) := by decide +kernel

example : (1 : ℚ) + 1 / 1000000 < 2 := by norm_num

theorem resultFiles_find {α : Type} (rows : ℚ × ℚ → α) (angles : List (ℚ × ℚ)) (a : ℚ × ℚ) (ha : a ∈ angles)
    (hu : ∀ b ∈ angles, b ≠ a → (toStr b.1, toStr b.2) ≠ (toStr a.1, toStr a.2)) (fs : List ((Fixed × Fixed) × α)) :
    Assoc.find (angles.foldl (fun fs a => Assoc.assign fs (toStr a.1, toStr a.2) (rows a)) fs) (toStr a.1, toStr a.2) =
      some (rows a) := by
  have keep : ∀ (l : List (ℚ × ℚ)) (fs : List ((Fixed × Fixed) × α)),
      (∀ b ∈ l, b ≠ a → (toStr b.1, toStr b.2) ≠ (toStr a.1, toStr a.2)) →
      Assoc.find fs (toStr a.1, toStr a.2) = some (rows a) →
      Assoc.find (l.foldl (fun fs a => Assoc.assign fs (toStr a.1, toStr a.2) (rows a)) fs) (toStr a.1, toStr a.2) =
        some (rows a) := by
    intro l
    induction l with
    | nil => intro fs _ h; exact h
    | cons b l ih =>
      intro fs hl h
      rw [List.foldl_cons]
      apply ih _ fun c hc => hl c (List.mem_cons_of_mem _ hc)
      rw [Assoc.find_assign]
      by_cases hb : b = a
      · subst hb; simp
      · rw [if_neg (fun e => hl b (by simp) hb e.symm)]
        exact h
  induction angles generalizing fs with
  | nil => cases ha
  | cons b l ih =>
    rw [List.foldl_cons]
    by_cases hb : b = a
    · subst hb
      apply keep _ _ fun c hc => hu c (List.mem_cons_of_mem _ hc)
      rw [Assoc.find_assign, if_pos rfl]
    · exact ih ((List.mem_cons.1 ha).resolve_left (Ne.symm hb)) (fun c hc => hu c (List.mem_cons_of_mem _ hc)) _

/-- **C99** (partial): when two different directions always differ by more than a millionth in one of the angles, the file of every
direction holds its own results. -/
theorem C99_files_partial {α : Type} (angles : List (ℚ × ℚ)) (rows : ℚ × ℚ → α)
    (hsep : ∀ a ∈ angles, ∀ b ∈ angles, a ≠ b → 1 / 1000000 < |a.1 - b.1| ∨ 1 / 1000000 < |a.2 - b.2|)
    (a : ℚ × ℚ) (ha : a ∈ angles) :
    Assoc.find (resultFiles angles rows) (toStr a.1, toStr a.2) = some (rows a) := by
  have far : ∀ x y : ℚ, 1 / 1000000 < |x - y| → toStr x ≠ toStr y := by
    intro x y h
    rcases lt_abs.1 h with h | h
    · exact (C99_names_partial y x (by linarith)).symm
    · exact C99_names_partial x y (by linarith)
  apply resultFiles_find rows angles a ha
  intro b hb hne hc
  rw [Prod.mk.injEq] at hc
  rcases hsep b hb a ha hne with h | h
  · exact far _ _ h hc.1
  · exact far _ _ h hc.2

/-- **C99** fails: of two close directions only the results of the last are left. -/
theorem C99_violated_files :
    resultFiles [(1 / 2, 0), (1 / 2 + 1 / 4000000, 0)] id = [((toStr (1 / 2), toStr 0), (1 / 2 + 1 / 4000000, 0))] := by
  decide +kernel

example : ∀ a ∈ [((0 : ℚ), (0 : ℚ)), (1, 0), (1, 2)], ∀ b ∈ [((0 : ℚ), (0 : ℚ)), (1, 0), (1, 2)], a ≠ b →
    1 / 1000000 < |a.1 - b.1| ∨ 1 / 1000000 < |a.2 - b.2| := by decide +kernel

end Dgtd.Decimal
