import Verif.Model.Gmsh
import Mathlib.Data.List.Basic
import Mathlib.Tactic.Common

/-
Lemmas about the text primitives of `Model/Gmsh.lean`.
-/
namespace Dgtd.Gmsh

/-! ### Lines -/

theorem lines_append (l : Line) (h : '\n' ∉ l) (r : List Char) :
    lines (l ++ '\n' :: r) = l :: lines r := by
  induction l with
  | nil => simp [lines]
  | cons c l ih =>
    have hc : c ≠ '\n' := fun e => h (by simp [e])
    have hl : '\n' ∉ l := fun e => h (by simp [e])
    simp [lines, hc, ih hl]

theorem lines_unlines (ls : List Line) (h : ∀ l ∈ ls, '\n' ∉ l) : lines (unlines ls) = ls := by
  induction ls with
  | nil => simp [unlines, lines]
  | cons l ls ih =>
    have h1 : unlines (l :: ls) = l ++ '\n' :: unlines ls := by simp [unlines]
    rw [h1, lines_append l (h l (by simp)), ih fun m hm => h m (by simp [hm])]

theorem no_nl_of_lines (t : List Char) : ∀ l ∈ lines t, '\n' ∉ l := by
  induction t with
  | nil => simp [lines]
  | cons c r ih =>
    intro l hl
    by_cases hc : c = '\n'
    · simp only [lines, if_pos hc, List.mem_cons] at hl
      rcases hl with h | h
      · simp [h]
      · exact ih l h
    · simp only [lines, if_neg hc] at hl
      cases hr : lines r with
      | nil =>
        rw [hr] at hl
        simp only [List.mem_singleton] at hl
        rw [hl]
        simp only [List.mem_singleton]
        exact fun e => hc e.symm
      | cons m ms =>
        rw [hr] at hl
        simp only [List.mem_cons] at hl
        rcases hl with h | h
        · rw [h]
          have := ih m (by simp [hr])
          simp only [List.mem_cons, not_or]
          exact ⟨fun e => hc e.symm, this⟩
        · exact ih l (by simp [hr, h])

/-! ### Tokens -/

/-- A token: not empty, no blank. -/
def IsTok (t : Line) : Prop := t ≠ [] ∧ ∀ c ∈ t, isSpace c = false

/-- Either nothing or a blank follows. -/
def Ends (r : Line) : Prop := r = [] ∨ ∃ c r', r = c :: r' ∧ isSpace c = true

theorem tokens_space (c : Char) (r : Line) (h : isSpace c = true) : tokens (c :: r) = tokens r := by
  rw [tokens.eq_def]; simp [h]

theorem tokens_append (t : Line) (ht : IsTok t) (r : Line) (hr : Ends r) :
    tokens (t ++ r) = t :: tokens r := by
  obtain ⟨h0, h1⟩ := ht
  induction t with
  | nil => exact absurd rfl h0
  | cons c t ih =>
    have hc : isSpace c = false := h1 c (by simp)
    cases t with
    | nil =>
      rcases hr with hr | ⟨d, r', hr, hd⟩
      · subst hr; simp [tokens, hc]
      · subst hr
        have : [c] ++ d :: r' = c :: d :: r' := rfl
        rw [this, tokens.eq_def]
        simp [hc, hd]
    | cons d t =>
      have hd : isSpace d = false := h1 d (by simp)
      have ih' := ih (by simp) (fun x hx => h1 x (by simp [hx]))
      have e : (c :: d :: t) ++ r = c :: d :: (t ++ r) := rfl
      have e' : (d :: t) ++ r = d :: (t ++ r) := rfl
      rw [e'] at ih'
      rw [e, tokens.eq_def]
      simp only [hc, hd, Bool.false_eq_true, if_false]
      rw [ih']

theorem tokens_join (ts : List Line) (h : ∀ t ∈ ts, IsTok t) : tokens (join ts) = ts := by
  induction ts with
  | nil => simp [join, tokens]
  | cons t ts ih =>
    have ht := h t (by simp)
    cases ts with
    | nil =>
      have := tokens_append t ht [] (Or.inl rfl)
      simpa [join, tokens] using this
    | cons u ts =>
      have e : join (t :: u :: ts) = t ++ ' ' :: join (u :: ts) := rfl
      rw [e, tokens_append t ht _ (Or.inr ⟨' ', _, rfl, by decide⟩), tokens_space _ _ (by decide),
        ih fun m hm => h m (by simp [hm])]

theorem dropWhile_space (c : Char) (r : Line) (h : isSpace c = true) :
    (c :: r).dropWhile isSpace = r.dropWhile isSpace := by simp [h]

theorem tokens_spec (l : Line) :
    (tokens l = [] ∧ l.dropWhile isSpace = []) ∨
    ∃ t ts r, tokens l = t :: ts ∧ l.dropWhile isSpace = t ++ r ∧ IsTok t ∧ Ends r ∧ tokens r = ts := by
  induction l with
  | nil => left; simp [tokens]
  | cons c l ih =>
    by_cases hc : isSpace c = true
    · rw [tokens_space c l hc, dropWhile_space c l hc]; exact ih
    · right
      have hc' : isSpace c = false := by simpa using hc
      have hd : (c :: l).dropWhile isSpace = c :: l := by simp [hc']
      cases l with
      | nil =>
        exact ⟨[c], [], [], by simp [tokens, hc'], by simp [hc'], ⟨by simp, by simp [hc']⟩, Or.inl rfl,
          by simp [tokens]⟩
      | cons d l =>
        by_cases hds : isSpace d = true
        · refine ⟨[c], tokens (d :: l), d :: l, ?_, by simp [hc'], ⟨by simp, by simp [hc']⟩,
            Or.inr ⟨d, l, rfl, hds⟩, rfl⟩
          rw [tokens.eq_def]; simp [hc', hds]
        · have hds' : isSpace d = false := by simpa using hds
          have hdd : (d :: l).dropWhile isSpace = d :: l := by simp [hds']
          rcases ih with ⟨_, h2⟩ | ⟨t, ts, r, h1, h2, h3, h4, h5⟩
          · rw [hdd] at h2; exact absurd h2 (by simp)
          · rw [hdd] at h2
            refine ⟨c :: t, ts, r, ?_, ?_, ⟨by simp, ?_⟩, h4, h5⟩
            · rw [tokens.eq_def]; simp only [hc', hds', Bool.false_eq_true, if_false]; rw [h1]
            · rw [hd, h2]; rfl
            · intro x hx
              simp only [List.mem_cons] at hx
              rcases hx with hx | hx
              · rw [hx]; exact hc'
              · exact h3.2 x hx

theorem tokens_nil_iff (l : Line) : tokens l = [] ↔ l.dropWhile isSpace = [] := by
  rcases tokens_spec l with ⟨h1, h2⟩ | ⟨t, ts, r, h1, h2, h3, h4, h5⟩
  · simp [h1, h2]
  · rw [h1, h2]; simp [h3.1]

theorem tokens_cons (l : Line) (t : Line) (ts : List Line) (h : tokens l = t :: ts) :
    ∃ r, l.dropWhile isSpace = t ++ r ∧ IsTok t ∧ Ends r ∧ tokens r = ts := by
  rcases tokens_spec l with ⟨h1, _⟩ | ⟨t', ts', r, h1, h2, h3, h4, h5⟩
  · rw [h] at h1; exact absurd h1 (by simp)
  · rw [h] at h1
    simp only [List.cons.injEq] at h1
    obtain ⟨e1, e2⟩ := h1
    exact ⟨r, by rw [h2, e1], by rw [e1]; exact h3, h4, by rw [h5, e2]⟩

theorem tokens_tok : ∀ (ts : List Line) (l : Line), tokens l = ts → ∀ t ∈ ts, IsTok t ∧ t <:+: l := by
  intro ts
  induction ts with
  | nil => intro l _ t ht; simp at ht
  | cons u us ih =>
    intro l h t ht
    obtain ⟨r, h1, h2, _, h4⟩ := tokens_cons l u us h
    have hsuf : u ++ r <:+ l := h1 ▸ List.dropWhile_suffix _
    simp only [List.mem_cons] at ht
    rcases ht with e | ht
    · rw [e]; exact ⟨h2, (List.prefix_append u r).isInfix.trans hsuf.isInfix⟩
    · obtain ⟨g1, g2⟩ := ih r h4 t ht
      exact ⟨g1, g2.trans ((List.suffix_append u r).isInfix.trans hsuf.isInfix)⟩

/-! ### Substrings -/

theorem infix_append_space (s a b : Line) (hs : ' ' ∉ s) (h : s <:+: a ++ ' ' :: b) :
    s <:+: a ∨ s <:+: b := by
  obtain ⟨p, q, e⟩ := h
  have e' : p ++ (s ++ q) = a ++ ' ' :: b := by rw [← e]; simp
  rcases List.append_eq_append_iff.1 e' with ⟨u, e1, e2⟩ | ⟨u, e1, e2⟩
  · -- a = p ++ u, s ++ q = u ++ ' ' :: b
    rcases List.append_eq_append_iff.1 e2 with ⟨w, f1, _⟩ | ⟨w, f1, f2⟩
    · left; exact ⟨p, w, by rw [e1, f1]; simp⟩
    · cases w with
      | nil => left; exact ⟨p, [], by rw [e1]; simp only [List.append_nil] at f1; rw [f1]; simp⟩
      | cons c w =>
        simp only [List.cons_append, List.cons.injEq] at f2
        exact absurd (by rw [f1, ← f2.1]; simp) hs
  · cases u with
    | nil =>
      simp only [List.nil_append] at e2
      cases s with
      | nil => left; exact List.nil_infix
      | cons c s =>
        simp only [List.cons_append, List.cons.injEq] at e2
        exact absurd (by simp [← e2.1]) hs
    | cons c u =>
      simp only [List.cons_append, List.cons.injEq] at e2
      right; exact ⟨u, q, by rw [e2.2]; simp⟩

theorem infix_join (s : Line) (hs : ' ' ∉ s) (hne : s ≠ []) (ts : List Line) (h : s <:+: join ts) :
    ∃ t ∈ ts, s <:+: t := by
  induction ts with
  | nil => simp [join] at h; exact absurd h hne
  | cons t ts ih =>
    cases ts with
    | nil => exact ⟨t, by simp, h⟩
    | cons u ts =>
      have e : join (t :: u :: ts) = t ++ ' ' :: join (u :: ts) := rfl
      rw [e] at h
      rcases infix_append_space s t _ hs h with h | h
      · exact ⟨t, by simp, h⟩
      · obtain ⟨v, hv, hv'⟩ := ih h
        exact ⟨v, by simp only [List.mem_cons] at hv ⊢; right; exact hv, hv'⟩

theorem mem_join (c : Char) (ts : List Line) (h : c ∈ join ts) : c = ' ' ∨ ∃ t ∈ ts, c ∈ t := by
  induction ts with
  | nil => simp [join] at h
  | cons t ts ih =>
    cases ts with
    | nil => right; exact ⟨t, by simp, h⟩
    | cons u ts =>
      have e : join (t :: u :: ts) = t ++ ' ' :: join (u :: ts) := rfl
      rw [e] at h
      simp only [List.mem_append, List.mem_cons] at h
      rcases h with h | h | h
      · right; exact ⟨t, by simp, h⟩
      · left; exact h
      · rcases ih h with h | ⟨v, hv, hv'⟩
        · left; exact h
        · right; exact ⟨v, by simp only [List.mem_cons] at hv ⊢; right; exact hv, hv'⟩

/-! ### Numbers -/

theorem space_not_digit (c : Char) (h : isSpace c = true) : c.isDigit = false := by
  simp only [isSpace, Bool.or_eq_true, beq_iff_eq] at h
  rcases h with ((((h | h) | h) | h) | h) | h <;> subst h <;> decide

theorem digit_not_space (c : Char) (h : c.isDigit = true) : isSpace c = false := by
  by_contra hc
  have := space_not_digit c (by simpa using hc)
  rw [h] at this; exact absurd this (by simp)

theorem sign_append (t r : Line) (h : t ≠ []) : sign (t ++ r) = ((sign t).1, (sign t).2 ++ r) := by
  cases t with
  | nil => exact absurd rfl h
  | cons c t =>
    by_cases h1 : c = '-'
    · simp [sign, h1]
    · by_cases h2 : c = '+'
      · simp [sign, h2]
      · simp [sign, h1, h2]

theorem takeWhile_ends (u r : Line) (hr : Ends r) :
    (u ++ r).takeWhile Char.isDigit = u.takeWhile Char.isDigit ∧
    (u ++ r).dropWhile Char.isDigit = u.dropWhile Char.isDigit ++ r := by
  induction u with
  | nil =>
    rcases hr with hr | ⟨c, r', hr, hc⟩
    · subst hr; simp
    · subst hr
      have := space_not_digit c hc
      simp [this]
  | cons c u ih =>
    by_cases hc : c.isDigit = true
    · simp [hc, ih.1, ih.2]
    · simp [hc]

theorem readInt_dropWhile (l : Line) : readInt (l.dropWhile isSpace) = readInt l := by
  have : (l.dropWhile isSpace).dropWhile isSpace = l.dropWhile isSpace := by
    induction l with
    | nil => simp
    | cons c l ih =>
      by_cases h : isSpace c = true
      · simp [h, ih]
      · simp [h]
  unfold readInt
  rw [this]

theorem tok_dropWhile (t : Line) (ht : IsTok t) (r : Line) : (t ++ r).dropWhile isSpace = t ++ r := by
  obtain ⟨h0, h1⟩ := ht
  cases t with
  | nil => exact absurd rfl h0
  | cons c t => simp [h1 c (by simp)]

theorem readInt_append (t : Line) (ht : IsTok t) (r : Line) (hr : Ends r) :
    readInt (t ++ r) = (readInt t).map fun p => (p.1, p.2 ++ r) := by
  have e1 := tok_dropWhile t ht r
  have e2 : t.dropWhile isSpace = t := by simpa using tok_dropWhile t ht []
  unfold readInt
  rw [e1, e2, sign_append t r ht.1]
  simp only [(takeWhile_ends (sign t).2 r hr).1, (takeWhile_ends (sign t).2 r hr).2]
  split_ifs <;> simp_all

theorem lineType_of_tokens (l t0 t1 : Line) (ts : List Line) (v : Int)
    (h : tokens l = t0 :: t1 :: ts) (h0 : readInt t0 = some (v, [])) : lineType l = stoi t1 := by
  obtain ⟨r, e1, e2, e3, e4⟩ := tokens_cons l t0 _ h
  obtain ⟨r', f1, f2, f3, _⟩ := tokens_cons r t1 _ e4
  have g1 : readInt l = some (v, r) := by
    rw [← readInt_dropWhile, e1, readInt_append t0 e2 r e3, h0]; simp
  have g2 : stoi r = stoi t1 := by
    unfold stoi
    rw [← readInt_dropWhile r, f1, readInt_append t1 f2 r' f3]
    cases readInt t1 <;> simp
  unfold lineType
  rw [g1]
  exact g2

theorem natStr_digit (n : Nat) : ∀ c ∈ natStr n, c.isDigit = true := fun _ hc =>
  Nat.isDigit_of_mem_toDigits (by decide) (by decide) hc

theorem natStr_tok (n : Nat) : IsTok (natStr n) :=
  ⟨Nat.toDigits_ne_nil, fun c hc => digit_not_space c (natStr_digit n c hc)⟩

theorem takeWhile_all (p : Char → Bool) (l : Line) (h : ∀ c ∈ l, p c = true) :
    l.takeWhile p = l ∧ l.dropWhile p = [] := by
  induction l with
  | nil => simp
  | cons c l ih =>
    have := ih fun x hx => h x (by simp [hx])
    have hc := h c (by simp)
    rw [List.takeWhile_cons_of_pos hc, List.dropWhile_cons_of_pos hc, this.1]
    exact ⟨rfl, this.2⟩

theorem readInt_natStr (n : Nat) (h : n < 2147483648) : readInt (natStr n) = some ((n : Int), []) := by
  have ht := natStr_tok n
  have e2 : (natStr n).dropWhile isSpace = natStr n := by simpa using tok_dropWhile _ ht []
  have e3 : sign (natStr n) = (false, natStr n) := by
    cases hn : natStr n with
    | nil => exact absurd hn ht.1
    | cons c t =>
      have hc : c.isDigit = true := natStr_digit n c (by simp [hn])
      have h1 : c ≠ '-' := fun e => by subst e; exact absurd hc (by decide)
      have h2 : c ≠ '+' := fun e => by subst e; exact absurd hc (by decide)
      simp [sign, h1, h2]
  obtain ⟨e4, e5⟩ := takeWhile_all Char.isDigit (natStr n) (natStr_digit n)
  have e6 : Nat.ofDigitChars 10 (natStr n) 0 = n := Nat.ofDigitChars_ten_toDigits
  unfold readInt
  rw [e2, e3]
  simp only [e4, e5, e6, Bool.false_eq_true, if_false, if_neg ht.1]
  rw [if_pos ⟨by omega, by omega⟩]

/-- Characters that are digits never form the markers. -/
theorem natStr_not_dollar (n : Nat) : '$' ∉ natStr n := fun h =>
  absurd (natStr_digit n _ h) (by decide)

theorem has_iff (s : String) (l : Line) : has s l = true ↔ s.toList <:+: l := by simp [has]

theorem not_has_natStr (s : String) (h : '$' ∈ s.toList) (n : Nat) : has s (natStr n) = false := by
  by_contra hc
  have : has s (natStr n) = true := by simpa using hc
  rw [has_iff] at this
  exact natStr_not_dollar n (this.subset h)

/-! ### Detection of the dimension -/

theorem detect_eq (ls : List Line) : ∀ d, d = 1 ∨ d = 2 →
    detect d ls = if ∃ l ∈ ls, ∃ t ∈ kTetTypes, lineType l = some t then 3
      else if d = 2 ∨ ∃ l ∈ ls, ∃ t ∈ kTriTypes, lineType l = some t then 2 else 1 := by
  induction ls with
  | nil => intro d hd; rcases hd with h | h <;> subst h <;> simp [detect]
  | cons l ls ih =>
    intro d hd
    cases ht : lineType l with
    | none =>
      have := ih d hd
      simp only [detect, ht, this, List.mem_cons, exists_eq_or_imp]
      simp
    | some t =>
      by_cases h3 : t ∈ kTetTypes
      · simp only [detect, ht, if_pos h3]
        rw [if_pos ⟨l, by simp, t, h3, ht⟩]
      · by_cases h2 : t ∈ kTriTypes
        · have := ih 2 (Or.inr rfl)
          have hm : max d 2 = 2 := by rcases hd with h | h <;> subst h <;> rfl
          simp only [detect, ht, if_neg h3, if_pos h2, hm, this, List.mem_cons, exists_eq_or_imp]
          have a1 : ¬ ∃ t' ∈ kTetTypes, some t = some t' := by
            rintro ⟨t', h, e⟩; simp only [Option.some.injEq] at e; exact h3 (e ▸ h)
          have a2 : ∃ t' ∈ kTriTypes, some t = some t' := ⟨t, h2, rfl⟩
          simp only [a1, a2, true_or, or_true, false_or, if_true]
        · have := ih d hd
          simp only [detect, ht, if_neg h3, if_neg h2, this, List.mem_cons, exists_eq_or_imp]
          have a1 : ¬ ∃ t' ∈ kTetTypes, some t = some t' := by
            rintro ⟨t', h, e⟩; simp only [Option.some.injEq] at e; exact h3 (e ▸ h)
          have a2 : ¬ ∃ t' ∈ kTriTypes, some t = some t' := by
            rintro ⟨t', h, e⟩; simp only [Option.some.injEq] at e; exact h2 (e ▸ h)
          simp only [a1, a2, false_or]

theorem shouldDelete_mono (t : Int) (ls ms : List Line)
    (h : ∀ l ∈ ls, ∀ u, lineType l = some u → ∃ m ∈ ms, lineType m = some u)
    (hd : shouldDelete t (detect 1 ls) = true) : shouldDelete t (detect 1 ms) = true := by
  rw [detect_eq ls 1 (Or.inl rfl)] at hd
  rw [detect_eq ms 1 (Or.inl rfl)]
  by_cases h3 : ∃ l ∈ ls, ∃ t ∈ kTetTypes, lineType l = some t
  · obtain ⟨l, hl, u, hu, e⟩ := h3
    obtain ⟨m, hm, e'⟩ := h l hl u e
    rw [if_pos ⟨m, hm, u, hu, e'⟩]
    rw [if_pos ⟨l, hl, u, hu, e⟩] at hd
    exact hd
  · rw [if_neg h3] at hd
    by_cases h2 : (1 : Nat) = 2 ∨ ∃ l ∈ ls, ∃ t ∈ kTriTypes, lineType l = some t
    · rw [if_pos h2] at hd
      simp only [shouldDelete] at hd
      simp only [Nat.reduceEqDiff, if_false, if_true, decide_eq_true_eq] at hd
      rcases h2 with h2 | ⟨l, hl, u, hu, e⟩
      · exact absurd h2 (by decide)
      · obtain ⟨m, hm, e'⟩ := h l hl u e
        by_cases h3' : ∃ m ∈ ms, ∃ t ∈ kTetTypes, lineType m = some t
        · rw [if_pos h3']; simp [shouldDelete, hd]
        · rw [if_neg h3', if_pos (Or.inr ⟨m, hm, u, hu, e'⟩)]; simp [shouldDelete, hd]
    · rw [if_neg h2] at hd
      simp [shouldDelete] at hd

end Dgtd.Gmsh
