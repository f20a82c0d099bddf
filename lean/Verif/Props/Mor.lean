/-
C10, C76: snapshots for model order reduction.
-/
import Verif.Spec.Mor
import Verif.Props.TimeLoop
import Mathlib.Tactic.Push
import Mathlib.Data.List.Induction

set_option linter.unusedSectionVars false

namespace Dgtd.Mor
open Spec

variable {K : Type} [Field K] [LinearOrder K] [IsStrictOrderedRing K] {σ : Type}

/-- One visit, seen from the files: the next snapshot is taken if it is still wanted and the instant fits. -/
def pick (p : Probe K) (fs : List (Int × K × σ)) (tx : K × σ) : List (Int × K × σ) :=
  if (fs.length : Int) < p.saves ∧ Fit p fs.length tx.1 then fs ++ [((fs.length : Int), tx.1, tx.2)] else fs

/-- What holds between two visits. -/
structure Inv (p : Probe K) (s : St K σ) : Prop where
  off : s.ctx.inited = false → s.files = []
  count : s.ctx.inited = true → s.ctx.count = s.files.length
  gap : s.ctx.inited = true → s.ctx.dtSave = if p.saves > 1 then spacing p else 0
  next : s.ctx.inited = true → (s.files.length : Int) < p.saves → s.ctx.next = target p s.files.length

theorem init_inv (p : Probe K) (s : St K σ) (h : Inv p s) :
    (initCtx p s.ctx).inited = true ∧ (initCtx p s.ctx).count = s.files.length ∧
    (initCtx p s.ctx).dtSave = (if p.saves > 1 then spacing p else 0) ∧
    ((s.files.length : Int) < p.saves → (initCtx p s.ctx).next = target p s.files.length) := by
  unfold initCtx
  cases hi : s.ctx.inited with
  | true =>
    simp only [if_true]
    exact ⟨hi, h.count hi, h.gap hi, h.next hi⟩
  | false =>
    have hf := h.off hi
    simp only [Bool.false_eq_true, if_false, hf, List.length_nil, Nat.cast_zero, true_and]
    refine ⟨?_, fun _ => ?_⟩
    · unfold spacing; simp
    · unfold target; simp

theorem tol_eq (p : Probe K) (c : Ctx K) (h : c.dtSave = if p.saves > 1 then spacing p else 0) :
    tol c = early p := by
  unfold tol early
  rw [h]
  by_cases hs : p.saves > 1
  · simp only [hs, if_true, true_and, tiny]
    split <;> ring
  · simp [hs, tiny]

theorem update_pick (p : Probe K) (s : St K σ) (h : Inv p s) (tx : K × σ) :
    (update p s tx).files = pick p s.files tx ∧ Inv p (update p s tx) := by
  obtain ⟨h1, h2, h3, h4⟩ := init_inv p s h
  have ht := tol_eq p _ h3
  have keep : Inv p { s with ctx := initCtx p s.ctx } :=
    ⟨fun hf => (by simp only at hf; rw [h1] at hf; cases hf), fun _ => h2, fun _ => h3, fun _ => h4⟩
  unfold update pick
  by_cases c1 : p.saves ≤ 0
  · rw [if_pos c1, if_neg (by intro hh; have := hh.1; omega)]; exact ⟨rfl, h⟩
  rw [if_neg c1]
  by_cases c2 : tx.1 < p.start - tiny
  · rw [if_pos c2, if_neg (by intro hh; exact absurd hh.2.1.1 (not_le.2 c2))]; exact ⟨rfl, h⟩
  rw [if_neg c2]
  by_cases c3 : p.final + tiny < tx.1
  · rw [if_pos c3, if_neg (by intro hh; exact absurd hh.2.1.2 (not_le.2 c3))]; exact ⟨rfl, h⟩
  rw [if_neg c3]
  simp only
  by_cases c4 : p.saves ≤ (initCtx p s.ctx).count
  · rw [if_pos c4, if_neg (by intro hh; have := hh.1; omega)]; exact ⟨rfl, keep⟩
  rw [if_neg c4]
  have hlt : (s.files.length : Int) < p.saves := by omega
  have hn := h4 hlt
  by_cases c5 : tx.1 < (initCtx p s.ctx).next - tol (initCtx p s.ctx)
  · rw [if_pos c5, if_neg (by rw [hn, ht] at c5; intro hh; exact absurd hh.2.2 (not_le.2 c5))]; exact ⟨rfl, keep⟩
  rw [if_neg c5]
  have hfit : Fit p s.files.length tx.1 := by
    rw [hn, ht] at c5
    exact ⟨⟨not_lt.1 c2, not_lt.1 c3⟩, not_lt.1 c5⟩
  have hboth : (s.files.length : Int) < p.saves ∧ Fit p s.files.length tx.1 := ⟨hlt, hfit⟩
  rw [if_pos hboth]
  refine ⟨by simp only [h2], ⟨fun hf => (by simp only at hf; rw [h1] at hf; cases hf), fun _ => ?_, fun _ => h3,
    fun _ hl => ?_⟩⟩
  · simp only [h2, List.length_append, List.length_cons, List.length_nil]; push_cast; ring
  · simp only [List.length_append, List.length_cons, List.length_nil] at hl ⊢
    have hs : p.saves > 1 := by omega
    rw [if_pos hs, h3, if_pos hs, h2]
    unfold target
    rw [if_pos hs]; push_cast; ring

theorem fold_pick (p : Probe K) (ins : List (K × σ)) : ∀ s : St K σ, Inv p s →
    (ins.foldl (update p) s).files = ins.foldl (pick p) s.files := by
  induction ins with
  | nil => intro s _; rfl
  | cons a ins ih =>
    intro s h
    obtain ⟨h1, h2⟩ := update_pick p s h a
    rw [List.foldl_cons, List.foldl_cons, ih _ h2, h1]

theorem run_pick (p : Probe K) (ins : List (K × σ)) : run p ins = ins.foldl (pick p) [] :=
  fold_pick p ins fresh ⟨fun _ => rfl, fun h => by simp [fresh] at h, fun h => by simp [fresh] at h,
    fun h => by simp [fresh] at h⟩

/-- Runs grow: the files of a longer run extend those of a shorter one. -/
theorem run_snoc (p : Probe K) (ins : List (K × σ)) (a : K × σ) : run p (ins ++ [a]) = pick p (run p ins) a := by
  rw [run_pick, run_pick, List.foldl_append]; rfl

/-- **C10**: never more snapshots than requested, and they are numbered 0, 1, 2, ... in the order of writing. -/
theorem C10_budget (p : Probe K) (ins : List (K × σ)) :
    (run p ins).length ≤ p.saves.toNat ∧
    (run p ins).map Prod.fst = (List.range (run p ins).length).map fun k : Nat => (k : Int) := by
  induction ins using List.reverseRecOn with
  | nil => simp [run_pick]
  | append_singleton ins a ih =>
    rw [run_snoc]
    unfold pick
    split
    · rename_i h
      refine ⟨by simp only [List.length_append, List.length_cons, List.length_nil]; have := h.1; omega, ?_⟩
      rw [List.map_append, ih.2, List.length_append, List.length_cons, List.length_nil, List.range_succ,
        List.map_append]
      rfl
    · exact ih

/-- **C10**: the snapshots are states the solver went through, in the same order, no visit being used twice. -/
theorem C10_subsequence (p : Probe K) (ins : List (K × σ)) : List.Sublist ((run p ins).map Prod.snd) ins := by
  induction ins using List.reverseRecOn with
  | nil => simp [run_pick]
  | append_singleton ins a ih =>
    rw [run_snoc]
    unfold pick
    split
    · rw [List.map_append]
      exact ih.append (List.Sublist.refl _)
    · exact ih.trans (List.sublist_append_left _ _)

/-- **C10**: the `k`-th snapshot is inside the window and not earlier than the `k`-th requested instant (up to a
millionth of the spacing). -/
theorem C10_window (p : Probe K) (ins : List (K × σ)) (k : Nat) (f : Int × K × σ) (h : (run p ins)[k]? = some f) :
    f.1 = k ∧ Fit p k f.2.1 := by
  induction ins using List.reverseRecOn with
  | nil => simp [run_pick] at h
  | append_singleton ins a ih =>
    rw [run_snoc] at h
    unfold pick at h
    split at h
    · rename_i hc
      rcases lt_trichotomy k (run p ins).length with hk | hk | hk
      · rw [List.getElem?_append_left hk] at h; exact ih h
      · rw [List.getElem?_append_right (le_of_eq hk.symm), hk, Nat.sub_self] at h
        simp only [List.getElem?_cons_zero, Option.some.injEq] at h
        subst h; subst hk
        exact ⟨rfl, hc.2⟩
      · rw [List.getElem?_eq_none (by simp only [List.length_append, List.length_cons, List.length_nil]; omega)] at h
        cases h
    · exact ih h

/-- **C10**: the requested instants increase strictly from the beginning of the window to its end. -/
theorem C10_targets (p : Probe K) (hs : 1 < p.saves) (hw : p.start < p.final) :
    target p 0 = p.start ∧ target p (p.saves - 1).toNat = p.final ∧ ∀ j k : Nat, j < k → target p j < target p k := by
  have hpos : (0 : K) < (p.saves : K) - 1 := by
    have : ((1 : Int) : K) < (p.saves : K) := by exact_mod_cast hs
    push_cast at this; linarith
  have hsp : 0 < spacing p := div_pos (by linarith) hpos
  refine ⟨by simp [target], ?_, fun j k hjk => ?_⟩
  · have hc : (((p.saves - 1).toNat : Nat) : K) = (p.saves : K) - 1 := by
      have : (((p.saves - 1).toNat : Nat) : Int) = p.saves - 1 := Int.toNat_of_nonneg (by omega)
      have h2 : (((((p.saves - 1).toNat : Nat) : Int)) : K) = ((p.saves - 1 : Int) : K) := by rw [this]
      push_cast at h2; exact h2
    unfold target
    rw [if_pos hs, hc, spacing, mul_div_assoc', mul_div_cancel_left₀ _ hpos.ne']; ring
  · unfold target
    rw [if_pos hs, if_pos hs]
    have : (j : K) < k := by exact_mod_cast hjk
    nlinarith

/-- **C10**: with a single snapshot it is taken at the first visit inside the window. -/
theorem C10_single (p : Probe K) (hs : p.saves = 1) (ins : List (K × σ)) :
    (run p ins).map Prod.snd = (ins.find? fun tx => decide (Fit p 0 tx.1)).toList := by
  induction ins using List.reverseRecOn with
  | nil => simp [run_pick]
  | append_singleton ins a ih =>
    rw [run_snoc]
    unfold pick
    rw [List.find?_append]
    cases hf : ins.find? fun tx => decide (Fit p 0 tx.1) with
    | none =>
      rw [hf] at ih
      simp only [Option.toList_none, List.map_eq_nil_iff] at ih
      rw [ih]
      simp only [List.length_nil, Nat.cast_zero, hs, zero_lt_one, true_and, List.nil_append, Option.none_or]
      by_cases h : Fit p 0 a.1
      · rw [if_pos h, List.find?_cons_of_pos (by simpa using h)]; rfl
      · rw [if_neg h, List.find?_cons_of_neg (by simpa using h)]; rfl
    | some b =>
      rw [hf] at ih
      have hl : (run p ins).length = 1 := by
        have := congrArg List.length ih; simpa using this
      rw [if_neg (by rw [hl, hs]; rintro ⟨h, -⟩; exact absurd h (lt_irrefl _))]
      simpa using ih

/-- The earliest instant at which snapshot `k` can be taken. -/
def ready (p : Probe K) (k : Nat) : K := max (target p k - early p) (p.start - 1 / 1000000000000)

theorem fit_iff (p : Probe K) (k : Nat) (t : K) :
    Fit p k t ↔ ready p k ≤ t ∧ t ≤ p.final + 1 / 1000000000000 := by
  unfold Fit InWindow ready
  rw [max_le_iff]
  tauto

/-- Consecutive instants are at most `h` apart. -/
def Fine (h : K) : List (K × σ) → Prop
  | a :: b :: rest => a.1 ≤ b.1 ∧ b.1 ≤ a.1 + h ∧ Fine h (b :: rest)
  | _ => True

theorem Fine.snoc {h : K} : ∀ {ins : List (K × σ)} {a : K × σ}, Fine h (ins ++ [a]) →
    Fine h ins ∧ ∀ b, ins.getLast? = some b → b.1 ≤ a.1 ∧ a.1 ≤ b.1 + h
  | [], a, _ => ⟨trivial, fun b hb => by simp at hb⟩
  | [c], a, hf => ⟨trivial, fun b hb => by
      simp only [List.getLast?_singleton, Option.some.injEq] at hb; subst hb; exact ⟨hf.1, hf.2.1⟩⟩
  | c :: d :: rest, a, hf => by
      obtain ⟨h1, h2, h3⟩ := hf
      obtain ⟨i1, i2⟩ := Fine.snoc (ins := d :: rest) h3
      exact ⟨⟨h1, h2, i1⟩, fun b hb => i2 b (by simpa using hb)⟩

theorem Fine.le_last {h : K} : ∀ {ins : List (K × σ)}, Fine h ins → ∀ b, ins.getLast? = some b → ∀ c ∈ ins, c.1 ≤ b.1
  | [], _, b, hb => by simp at hb
  | [c], _, b, hb => by
      simp only [List.getLast?_singleton, Option.some.injEq] at hb; subst hb
      intro d hd; simp only [List.mem_singleton] at hd; subst hd; exact le_refl _
  | c :: d :: rest, hf, b, hb => by
      obtain ⟨h1, h2, h3⟩ := hf
      have hb' : (d :: rest).getLast? = some b := by simpa using hb
      have ih := Fine.le_last h3 b hb'
      intro e he
      rcases List.mem_cons.1 he with rfl | he
      · exact h1.trans (ih d (by simp))
      · exact ih e he

/-- With steps shorter than the spacing, the solver never runs past a snapshot that has not been taken: while one is
missing, all the visits so far are too early for it (or the window is over); and each snapshot taken is the first
visit at which it could be. -/
theorem progress (p : Probe K) (hs : 1 < p.saves) (hw : p.start < p.final) (h : K)
    (hh : h ≤ spacing p - spacing p / 1000000) (ins : List (K × σ)) (hf : Fine h ins)
    (h0 : ∀ a, ins.head? = some a → a.1 ≤ p.start) :
    (((run p ins).length : Int) < p.saves → ∀ c ∈ ins, c.1 ≤ p.final + 1 / 1000000000000 →
      c.1 < ready p (run p ins).length) ∧
    (∀ k f, (run p ins)[k]? = some f → ins.find? (fun tx => decide (Fit p k tx.1)) = some f.2) := by
  have hpos : (0 : K) < (p.saves : K) - 1 := by
    have : ((1 : Int) : K) < (p.saves : K) := by exact_mod_cast hs
    push_cast at this; linarith
  have hsp : 0 < spacing p := div_pos (by linarith) hpos
  have hearly : early p = spacing p / 1000000 := by unfold early; rw [if_pos ⟨hs, hsp⟩]
  have htgt : ∀ k : Nat, target p k = p.start + (k : K) * spacing p := fun k => by unfold target; rw [if_pos hs]
  have htiny : (0 : K) < 1 / 1000000000000 := by norm_num
  have next_ready : ∀ k : Nat, ready p k + h ≤ ready p (k + 1) := by
    intro k
    have h1 : target p (k + 1) - early p ≤ ready p (k + 1) := le_max_left _ _
    refine le_trans ?_ h1
    rw [← le_sub_iff_add_le]
    refine max_le ?_ ?_
    · rw [htgt, htgt, hearly]; push_cast; linarith
    · rw [htgt, hearly]; push_cast
      have : (0 : K) ≤ k := Nat.cast_nonneg k
      nlinarith
  induction ins using List.reverseRecOn with
  | nil => simp [run_pick]
  | append_singleton ins a ih =>
    obtain ⟨hf1, hf2⟩ := hf.snoc
    obtain ⟨ih1, ih2⟩ := ih hf1 (fun b hb => h0 b (by
      cases ins with
      | nil => simp at hb
      | cons c cs => simpa using hb))
    rw [run_snoc]
    unfold pick
    by_cases hc : ((run p ins).length : Int) < p.saves ∧ Fit p (run p ins).length a.1
    · rw [if_pos hc]
      have hfit := (fit_iff p _ _).1 hc.2
      constructor
      · intro _ c hcm hcf
        simp only [List.length_append, List.length_cons, List.length_nil]
        -- the visit just used is too early for the next snapshot
        have ha : a.1 < ready p ((run p ins).length + 1) := by
          cases hl : ins.getLast? with
          | none =>
            have hi : ins = [] := by simpa using hl
            have hz : a.1 ≤ p.start := h0 a (by rw [hi]; rfl)
            have h1 : target p ((run p ins).length + 1) - early p ≤ ready p ((run p ins).length + 1) := le_max_left _ _
            refine lt_of_lt_of_le ?_ h1
            rw [htgt, hearly]
            have : (0 : K) ≤ ((run p ins).length : K) := Nat.cast_nonneg _
            push_cast
            nlinarith
          | some b =>
            obtain ⟨hb1, hb2⟩ := hf2 b hl
            have hb : b.1 < ready p (run p ins).length :=
              ih1 hc.1 b (List.mem_of_getLast? hl) (hb1.trans hfit.2)
            have := next_ready (run p ins).length
            linarith
        rcases List.mem_append.1 hcm with hcm | hcm
        · have hle : c.1 ≤ a.1 := by
            cases hl : ins.getLast? with
            | none => have hi : ins = [] := by simpa using hl
                      rw [hi] at hcm; simp at hcm
            | some b => exact (hf1.le_last b hl c hcm).trans (hf2 b hl).1
          exact lt_of_le_of_lt hle ha
        · simp only [List.mem_singleton] at hcm; subst hcm; exact ha
      · intro k f hk
        rcases lt_trichotomy k (run p ins).length with hlt | heq | hgt
        · rw [List.getElem?_append_left hlt] at hk
          rw [List.find?_append, ih2 k f hk]; rfl
        · subst heq
          rw [List.getElem?_append_right (le_refl _), Nat.sub_self] at hk
          simp only [List.getElem?_cons_zero, Option.some.injEq] at hk
          subst hk
          have hnone : ins.find? (fun tx => decide (Fit p (run p ins).length tx.1)) = none := by
            rw [List.find?_eq_none]
            intro c hcm hcf
            have hcf' := (fit_iff p _ _).1 (by simpa using hcf)
            exact absurd (ih1 hc.1 c hcm hcf'.2) (not_lt.2 hcf'.1)
          rw [List.find?_append, hnone, Option.none_or, List.find?_cons_of_pos (by simpa using hc.2)]
        · rw [List.getElem?_eq_none (by simp only [List.length_append, List.length_cons, List.length_nil]; omega)] at hk
          cases hk
    · rw [if_neg hc]
      constructor
      · intro hl c hcm hcf
        rcases List.mem_append.1 hcm with hcm | hcm
        · exact ih1 hl c hcm hcf
        · simp only [List.mem_singleton] at hcm; subst hcm
          by_contra hnot
          exact hc ⟨hl, (fit_iff p _ _).2 ⟨not_lt.1 hnot, hcf⟩⟩
      · intro k f hk
        rw [List.find?_append, ih2 k f hk]; rfl

/-- **C10**: when the run starts no later than the window and its steps are a little shorter than the spacing, the
`k`-th snapshot is the state at the first instant of the run that reaches the `k`-th requested instant. -/
theorem C10_first_instant (p : Probe K) (hs : 1 < p.saves) (hw : p.start < p.final) (h : K)
    (hh : h ≤ spacing p - spacing p / 1000000) (ins : List (K × σ)) (hf : Fine h ins)
    (h0 : ∀ a, ins.head? = some a → a.1 ≤ p.start) (k : Nat) (f : Int × K × σ) (hk : (run p ins)[k]? = some f) :
    ins.find? (fun tx => decide (Fit p k tx.1)) = some f.2 :=
  (progress p hs hw h hh ins hf h0).2 k f hk

/-- **C76** (partial): if moreover the run has an instant at the end of the window, or earlier by no more than a
millionth of the spacing, all the requested snapshots are written.  Missing: runs that step over the end of the
window, see `C76_violated`. -/
theorem C76_all_written_partial (p : Probe K) (hs : 1 < p.saves) (hw : p.start < p.final) (h : K)
    (hh : h ≤ spacing p - spacing p / 1000000) (ins : List (K × σ)) (hf : Fine h ins)
    (h0 : ∀ a, ins.head? = some a → a.1 ≤ p.start) (c : K × σ) (hc : c ∈ ins)
    (hlow : p.final - spacing p / 1000000 ≤ c.1) (hup : c.1 ≤ p.final) :
    ((run p ins).length : Int) = p.saves := by
  have hb := (C10_budget p ins).1
  by_contra hne
  have hlt : ((run p ins).length : Int) < p.saves := by omega
  have htiny : (0 : K) < 1 / 1000000000000 := by norm_num
  have h1 := (progress p hs hw h hh ins hf h0).1 hlt c hc (by linarith)
  obtain ⟨h2, h3, h4⟩ := C10_targets p hs hw
  have hone : (1 : K) ≤ (p.saves : K) - 1 := by
    have : ((2 : Int) : K) ≤ (p.saves : K) := by exact_mod_cast hs
    push_cast at this; linarith
  have hsp : 0 < spacing p := div_pos (by linarith) (by linarith)
  have hsl : spacing p ≤ p.final - p.start := by
    unfold spacing
    exact div_le_self (by linarith) hone
  have hearly : early p = spacing p / 1000000 := by unfold early; rw [if_pos ⟨hs, hsp⟩]
  have hle : target p (run p ins).length ≤ p.final := by
    rw [← h3]
    rcases Nat.lt_or_ge (run p ins).length (p.saves - 1).toNat with hl | hl
    · exact (h4 _ _ hl).le
    · have : (run p ins).length = (p.saves - 1).toNat := by omega
      rw [this]
  unfold ready at h1
  rcases lt_max_iff.1 h1 with h1 | h1 <;> linarith

/-- A run in steps of 3/10 and a window from 0 to 1 with three snapshots: the last one is never written. -/
theorem C76_violated : ∃ (p : Probe ℚ) (ins : List (ℚ × Unit)), 1 < p.saves ∧ p.start < p.final ∧
    Fine (3 / 10) ins ∧ (3 / 10 : ℚ) ≤ spacing p - spacing p / 1000000 ∧ (∃ c ∈ ins, p.final < c.1) ∧
    (run p ins).map (fun f => (f.1, f.2.1)) = [(0, 0), (1, 6 / 10)] := by
  refine ⟨⟨0, 1, 3⟩, [(0, ()), (3 / 10, ()), (6 / 10, ()), (9 / 10, ()), (12 / 10, ()), (15 / 10, ())], by decide +kernel,
    by decide +kernel, ?_, ?_, ⟨(12 / 10, ()), by simp, by norm_num⟩, by decide +kernel⟩
  · simp only [Fine]; norm_num
  · simp only [spacing]; norm_num

/-- The instants of a whole run, with the state at each of them. -/
def visits (dt final : K) (n : Nat) (x : Nat → σ) : List (K × σ) :=
  (List.range (n + 1)).map fun c : Nat => (TimeLoop.Spec.instant dt final c, x c)

theorem visits_fine (dt final : K) (hdt : 0 < dt) (n : Nat) (x : Nat → σ) : Fine dt (visits dt final n x) := by
  have key : ∀ m k : Nat, Fine dt ((List.range' k m).map fun c : Nat => (TimeLoop.Spec.instant dt final c, x c)) := by
    intro m
    induction m with
    | zero => intro k; trivial
    | succ m ih =>
      intro k
      cases m with
      | zero => trivial
      | succ m =>
        have := ih (k + 1)
        simp only [List.range'_succ, List.map_cons] at this ⊢
        refine ⟨?_, ?_, this⟩
        · unfold TimeLoop.Spec.instant; refine min_le_min_right _ ?_; push_cast; nlinarith
        · unfold TimeLoop.Spec.instant
          rw [← min_add_add_right]
          refine min_le_min ?_ (by linarith)
          push_cast; linarith
  have := key (n + 1) 0
  rwa [← List.range_eq_range'] at this

/-- **C76** (partial): a run up to the end of the window, in steps a little shorter than the spacing, writes every
snapshot requested.  The run has `stepCount` steps, see `C07_run_reaches_final_time`. -/
theorem C76_whole_run_partial [FloorRing K] (p : Probe K) (hs : 1 < p.saves) (h0 : 0 ≤ p.start)
    (hw : p.start < p.final) (dt : K) (hdt : 0 < dt) (hh : dt ≤ spacing p - spacing p / 1000000) (x : Nat → σ) :
    ((run p (visits dt p.final (TimeLoop.Spec.stepCount dt p.final) x)).length : Int) = p.saves := by
  set n := TimeLoop.Spec.stepCount dt p.final with hn
  have hlast : p.final - 1 / 100000000 * dt < TimeLoop.Spec.instant dt p.final n := by
    have h : ¬ TimeLoop.keepGoing dt p.final (TimeLoop.Spec.instant dt p.final n) = true := by
      rw [TimeLoop.keepGoing_iff hdt]; omega
    unfold TimeLoop.keepGoing at h
    have h := of_decide_eq_false (Bool.not_eq_true _ ▸ h)
    have e : (TimeLoop.slack : K) = 1 / 100000000 := rfl
    rw [e] at h
    exact not_le.mp h
  have hsp : 0 < spacing p := by
    by_contra hneg
    have : spacing p - spacing p / 1000000 = spacing p * (999999 / 1000000) := by ring
    nlinarith
  refine C76_all_written_partial p hs hw dt hh _ (visits_fine dt _ hdt n x) ?_
    (TimeLoop.Spec.instant dt p.final n, x n) ?_ ?_ (min_le_right _ _)
  · intro a ha
    unfold visits at ha
    rw [List.range_succ_eq_map, List.map_cons, List.head?_cons, Option.some.injEq] at ha
    subst ha
    simp only [TimeLoop.Spec.instant, Nat.cast_zero, zero_mul]
    exact (min_le_left _ _).trans h0
  · unfold visits
    rw [List.mem_map]
    exact ⟨n, by simp, rfl⟩
  · simp only
    linarith

/-- Three snapshots of a run in steps of 1/4. -/
example : (run (⟨0, 1, 3⟩ : Probe ℚ) (visits (1 / 4) 1 4 fun c : Nat => c)) = [(0, 0, 0), (1, 1 / 2, 2), (2, 1, 4)] := by
  decide +kernel

/-- A window in the middle of the run, one snapshot. -/
example : (run (⟨1 / 3, 2 / 3, 1⟩ : Probe ℚ) (visits (1 / 4) 1 4 fun c : Nat => c)) = [(0, 1 / 2, 2)] := by
  decide +kernel

/-- The hypotheses of `C76_whole_run_partial` are met by that run. -/
example : (1 : Int) < (⟨0, 1, 3⟩ : Probe ℚ).saves ∧ (1 / 4 : ℚ) ≤ spacing ⟨0, 1, 3⟩ - spacing ⟨0, 1, 3⟩ / 1000000 := by
  refine ⟨by decide, ?_⟩
  simp only [spacing]; norm_num

end Dgtd.Mor
