import Verif.Lemmas.Gmsh
import Verif.Spec.Gmsh
import Mathlib.Data.List.GetD

/-
C16: normalising a Gmsh file.
-/
namespace Dgtd.Gmsh

open Spec

theorem has_false_iff (s : String) (l : Line) : has s l = false ↔ ¬ s.toList <:+: l := by simp [has]

/-! ### Reading -/

theorem scan_els (els tail : List Line) (h : ∀ l ∈ els, has "$EndElements" l = false) :
    ∀ s : Scan, scan true true s (els ++ tail) =
      scan true true { s with elems := s.elems ++ els } tail := by
  induction els with
  | nil => intro s; simp
  | cons l els ih =>
    intro s
    have hl := h l (by simp)
    rw [List.cons_append, scan.eq_def]
    simp only [hl, Bool.not_true, Bool.and_false, Bool.false_eq_true, if_false, if_true]
    rw [ih (fun m hm => h m (by simp [hm]))]
    simp

theorem scan_foot (tail : List Line) : ∀ s : Scan, s.footer ≠ [] →
    scan true false s tail = { s with footer := s.footer ++ tail } := by
  induction tail with
  | nil => intro s _; rw [scan.eq_def]; simp
  | cons l tail ih =>
    intro s hs
    rw [scan.eq_def]
    simp only [Bool.not_true, Bool.and_false, Bool.false_eq_true, if_false, if_neg hs]
    by_cases hl : has "$EndElements" l = true
    · rw [if_pos hl, ih _ (by simp)]; simp
    · rw [if_neg hl, ih _ (by simp)]; simp

theorem scan_tail (tail : List Line)
    (h : tail = [] ∨ ∃ e r, tail = e :: r ∧ has "$EndElements" e = true) (s : Scan) :
    scan true true s tail = { s with footer := s.footer ++ tail } := by
  rcases h with h | ⟨e, r, h, he⟩
  · subst h; rw [scan.eq_def]; simp
  · subst h
    rw [scan.eq_def]
    simp only [Bool.not_true, Bool.and_false, Bool.false_eq_true, if_false, he, if_true]
    rw [scan_foot r _ (by simp)]; simp

theorem scan_pre (pre r : List Line)
    (h : ∀ l ∈ pre, has "$Elements" l = false ∧ has "$EndElements" l = false) :
    ∀ s : Scan, s.footer = [] → scan false false s (pre ++ r) =
      scan false false { s with header := s.header ++ pre } r := by
  induction pre with
  | nil => intro s _; simp
  | cons l pre ih =>
    intro s hs
    obtain ⟨h1, h2⟩ := h l (by simp)
    rw [List.cons_append, scan.eq_def]
    simp only [h1, h2, Bool.false_and, Bool.false_eq_true, if_false, if_pos hs]
    rw [ih (fun m hm => h m (by simp [hm])) { s with header := s.header ++ [l] } hs]
    simp

/-- The lines are sorted into header, elements and footer. -/
theorem scan_sections (pre : List Line) (o c : Line) (els tail : List Line)
    (h1 : ∀ l ∈ pre, has "$Elements" l = false ∧ has "$EndElements" l = false)
    (h2 : has "$Elements" o = true) (h3 : ∀ l ∈ els, has "$EndElements" l = false)
    (h4 : tail = [] ∨ ∃ e r, tail = e :: r ∧ has "$EndElements" e = true) :
    scan false false ⟨[], [], []⟩ (pre ++ o :: c :: (els ++ tail)) =
      ⟨pre ++ [o, c], els, tail⟩ := by
  rw [scan_pre pre _ h1 _ rfl, scan.eq_def]
  simp only [h2, Bool.not_false, Bool.and_true, if_true]
  rw [scan_els els tail h3, scan_tail tail h4]
  simp

/-- What is known while reading. -/
structure ScanInv (ls : List Line) (inEl reading : Bool) (s : Scan) : Prop where
  elems : ∀ l ∈ s.elems, has "$EndElements" l = false
  src : ∀ l, l ∈ s.header ∨ l ∈ s.elems ∨ l ∈ s.footer → l ∈ ls
  foot : s.footer = [] ∨ ∃ e r, s.footer = e :: r ∧ has "$EndElements" e = true
  before : inEl = false → (∀ l ∈ s.header, has "$Elements" l = false ∧ has "$EndElements" l = false) ∧
    s.elems = [] ∧ reading = false
  inside : inEl = true → (∃ pre o c, s.header = pre ++ [o, c] ∧ has "$Elements" o = true ∧
    ∀ l ∈ pre, has "$Elements" l = false ∧ has "$EndElements" l = false) ∧
    (reading = true ∨ s.footer ≠ [])

theorem scan_inv (all : List Line) : ∀ (ls : List Line) (inEl reading : Bool) (s : Scan),
    (∀ l ∈ ls, l ∈ all) → ScanInv all inEl reading s →
    (scan inEl reading s ls).elems = [] ∨ ScanInv all true true (scan inEl reading s ls) ∨
      ScanInv all true false (scan inEl reading s ls)
  | [], inEl, reading, s, _, h => by
    rw [scan.eq_def]
    cases inEl with
    | false => left; exact (h.before rfl).2.1
    | true =>
      cases reading with
      | true => right; left; exact h
      | false => right; right; exact h
  | l :: r, inEl, reading, s, hsub, h => by
    rw [scan.eq_def]
    by_cases h1 : (has "$Elements" l && !inEl) = true
    · simp only [if_pos h1]
      simp only [Bool.and_eq_true, Bool.not_eq_true'] at h1
      obtain ⟨h1, hin⟩ := h1
      obtain ⟨hb1, hb2, hb3⟩ := h.before hin
      cases r with
      | nil => left; exact hb2
      | cons c r' =>
        apply scan_inv all r' true true
        · intro m hm; exact hsub m (by simp [hm])
        · refine ⟨h.elems, ?_, h.foot, fun e => absurd e (by simp), fun _ => ⟨⟨s.header, l, c, rfl, h1, hb1⟩,
            Or.inl rfl⟩⟩
          intro m hm
          simp only [List.mem_append, List.mem_cons, List.not_mem_nil, or_false] at hm
          rcases hm with (hm | hm | hm) | hm | hm
          · exact h.src m (Or.inl hm)
          · exact hsub m (by simp [hm])
          · exact hsub m (by simp [hm])
          · exact h.src m (Or.inr (Or.inl hm))
          · exact h.src m (Or.inr (Or.inr hm))
    · simp only [if_neg h1]
      by_cases h2 : has "$EndElements" l = true
      · simp only [if_pos h2]
        apply scan_inv all r inEl false
        · intro m hm; exact hsub m (by simp [hm])
        · refine ⟨h.elems, ?_, ?_, ?_, ?_⟩
          · intro m hm
            simp only [List.mem_append, List.mem_cons, List.not_mem_nil, or_false] at hm
            rcases hm with hm | hm | hm | hm
            · exact h.src m (Or.inl hm)
            · exact h.src m (Or.inr (Or.inl hm))
            · exact h.src m (Or.inr (Or.inr hm))
            · exact hsub m (by simp [hm])
          · right
            rcases h.foot with hf | ⟨e, q, hf, he⟩
            · exact ⟨l, [], by simp [hf], h2⟩
            · exact ⟨e, q ++ [l], by simp [hf], he⟩
          · intro hin; obtain ⟨a, b, _⟩ := h.before hin; exact ⟨a, b, rfl⟩
          · intro hin; exact ⟨(h.inside hin).1, Or.inr (by simp)⟩
      · simp only [if_neg h2]
        have h2' : has "$EndElements" l = false := by simpa using h2
        by_cases h3 : reading = true
        · simp only [if_pos h3]
          have hin : inEl = true := by
            cases inEl with
            | true => rfl
            | false => have := (h.before rfl).2.2; rw [h3] at this; exact absurd this (by simp)
          apply scan_inv all r inEl reading
          · intro m hm; exact hsub m (by simp [hm])
          · refine ⟨?_, ?_, h.foot, fun e => absurd (hin.symm.trans e) (by simp), fun _ => h.inside hin⟩
            · intro m hm
              simp only [List.mem_append, List.mem_cons, List.not_mem_nil, or_false] at hm
              rcases hm with hm | hm
              · exact h.elems m hm
              · rw [hm]; exact h2'
            · intro m hm
              simp only [List.mem_append, List.mem_cons, List.not_mem_nil, or_false] at hm
              rcases hm with hm | (hm | hm) | hm
              · exact h.src m (Or.inl hm)
              · exact h.src m (Or.inr (Or.inl hm))
              · exact hsub m (by simp [hm])
              · exact h.src m (Or.inr (Or.inr hm))
        · simp only [if_neg h3]
          by_cases h4 : s.footer = []
          · simp only [if_pos h4]
            have hin : inEl = false := by
              cases inEl with
              | false => rfl
              | true => rcases (h.inside rfl).2 with e | e
                        · exact absurd e h3
                        · exact absurd h4 e
            have h1' : has "$Elements" l = false := by
              subst hin; simpa using h1
            obtain ⟨a, b, c⟩ := h.before hin
            apply scan_inv all r inEl reading
            · intro m hm; exact hsub m (by simp [hm])
            · refine ⟨h.elems, ?_, h.foot, fun _ => ⟨?_, b, c⟩, fun e => absurd (hin.symm.trans e) (by simp)⟩
              · intro m hm
                simp only [List.mem_append, List.mem_cons, List.not_mem_nil, or_false] at hm
                rcases hm with (hm | hm) | hm | hm
                · exact h.src m (Or.inl hm)
                · exact hsub m (by simp [hm])
                · exact h.src m (Or.inr (Or.inl hm))
                · exact h.src m (Or.inr (Or.inr hm))
              · intro m hm
                simp only [List.mem_append, List.mem_cons, List.not_mem_nil, or_false] at hm
                rcases hm with hm | hm
                · exact a m hm
                · rw [hm]; exact ⟨h1', h2'⟩
          · simp only [if_neg h4]
            apply scan_inv all r inEl reading
            · intro m hm; exact hsub m (by simp [hm])
            · refine ⟨h.elems, ?_, ?_, fun e => h.before e, fun e => ⟨(h.inside e).1, Or.inr (by simp)⟩⟩
              · intro m hm
                simp only [List.mem_append, List.mem_cons, List.not_mem_nil, or_false] at hm
                rcases hm with hm | hm | hm | hm
                · exact h.src m (Or.inl hm)
                · exact h.src m (Or.inr (Or.inl hm))
                · exact h.src m (Or.inr (Or.inr hm))
                · exact hsub m (by simp [hm])
              · right
                rcases h.foot with hf | ⟨e, q, hf, he⟩
                · exact absurd hf h4
                · exact ⟨e, q ++ [l], by simp [hf], he⟩
termination_by ls => ls.length

/-- Whatever the text, when element lines were found the three lists can be told apart again. -/
theorem scan_shape (ls : List Line) (h : (scan false false ⟨[], [], []⟩ ls).elems ≠ []) :
    ∃ pre o c els tail, scan false false ⟨[], [], []⟩ ls = ⟨pre ++ [o, c], els, tail⟩ ∧
      (∀ l ∈ pre, has "$Elements" l = false ∧ has "$EndElements" l = false) ∧
      has "$Elements" o = true ∧ (∀ l ∈ els, has "$EndElements" l = false) ∧
      (tail = [] ∨ ∃ e r, tail = e :: r ∧ has "$EndElements" e = true) ∧
      (∀ l, l ∈ pre ++ [o, c] ∨ l ∈ els ∨ l ∈ tail → l ∈ ls) := by
  have key : ∃ b, ScanInv ls true b (scan false false ⟨[], [], []⟩ ls) := by
    rcases scan_inv ls ls false false ⟨[], [], []⟩ (fun l hl => hl)
      ⟨by simp, by simp, Or.inl rfl, by simp, by simp⟩ with e | e | e
    · exact absurd e h
    · exact ⟨_, e⟩
    · exact ⟨_, e⟩
  obtain ⟨b, k⟩ := key
  obtain ⟨⟨pre, o, c, e1, e2, e3⟩, _⟩ := k.inside rfl
  refine ⟨pre, o, c, _, _, ?_, e3, e2, k.elems, k.foot, ?_⟩
  · rw [← e1]
  · intro l hl
    rw [← e1] at hl
    exact k.src l hl

/-! ### Rewriting elements -/

theorem rewrite_tokens (raw : Line) (h : 5 ≤ (tokens raw).length) (id : Nat) :
    tokens (rewrite (tokens raw) id) =
      ((tokens raw).set 3 ((tokens raw).getD 4 [])).set 0 (natStr id) := by
  unfold rewrite
  apply tokens_join
  intro t ht
  rcases List.mem_or_eq_of_mem_set ht with h1 | h1
  · rcases List.mem_or_eq_of_mem_set h1 with h2 | h2
    · exact (tokens_tok _ raw rfl t h2).1
    · rw [h2]
      refine (tokens_tok _ raw rfl _ ?_).1
      rw [List.getD_eq_getElem _ _ (by omega)]
      exact List.getElem_mem _
  · rw [h1]; exact natStr_tok id

theorem five (ts : List Line) (h : 5 ≤ ts.length) :
    ∃ a b c d e r, ts = a :: b :: c :: d :: e :: r := by
  match ts, h with
  | a :: b :: c :: d :: e :: r, _ => exact ⟨a, b, c, d, e, r, rfl⟩

/-- Element lines kept, with the words they had. -/
theorem fixElems_out (dim : Nat) : ∀ (els : List Line) (id : Nat) (out : List Line),
    fixElems dim id els = some out →
    ∀ i o, out[i]? = some o → ∃ raw ∈ els, 5 ≤ (tokens raw).length ∧ o = rewrite (tokens raw) (id + i) ∧
      ∃ t, stoi ((tokens raw).getD 1 []) = some t ∧ shouldDelete t dim = false := by
  intro els
  induction els with
  | nil => intro id out h i o ho; simp only [fixElems, Option.some.injEq] at h; subst h; simp at ho
  | cons raw els ih =>
    intro id out h i o ho
    rw [fixElems] at h
    by_cases h5 : (tokens raw).length < 5
    · rw [if_pos h5] at h
      obtain ⟨raw', m, rest⟩ := ih id out h i o ho
      exact ⟨raw', by simp [m], rest⟩
    · rw [if_neg h5] at h
      cases hs : stoi ((tokens raw).getD 1 []) with
      | none => rw [hs] at h; exact absurd h (by simp)
      | some t =>
        rw [hs] at h
        simp only at h
        by_cases hd : shouldDelete t dim = true
        · rw [if_pos hd] at h
          obtain ⟨raw', m, rest⟩ := ih id out h i o ho
          exact ⟨raw', by simp [m], rest⟩
        · rw [if_neg hd] at h
          cases hr : fixElems dim (id + 1) els with
          | none => rw [hr] at h; exact absurd h (by simp)
          | some out' =>
            rw [hr] at h
            simp only [Option.some.injEq] at h
            subst h
            cases i with
            | zero =>
              simp only [List.getElem?_cons_zero, Option.some.injEq] at ho
              exact ⟨raw, by simp, by omega, ho.symm, t, hs, by simpa using hd⟩
            | succ i =>
              simp only [List.getElem?_cons_succ] at ho
              obtain ⟨raw', m, a, b, c⟩ := ih (id + 1) out' hr i o ho
              exact ⟨raw', by simp [m], a, by rw [b]; congr 1; omega, c⟩

/-- The keyword is not in a rewritten line unless it was in the line. -/
theorem rewrite_not_has (s : String) (hd : '$' ∈ s.toList) (hsp : ' ' ∉ s.toList) (raw : Line)
    (h5 : 5 ≤ (tokens raw).length) (hraw : has s raw = false) (id : Nat) :
    has s (rewrite (tokens raw) id) = false := by
  rw [has_false_iff] at hraw ⊢
  intro hc
  obtain ⟨t, ht, hst⟩ := infix_join _ hsp (fun e => by rw [e] at hd; simp at hd) _ hc
  rcases List.mem_or_eq_of_mem_set ht with h1 | h1
  · have h2 : t ∈ tokens raw := by
      rcases List.mem_or_eq_of_mem_set h1 with h2 | h2
      · exact h2
      · rw [h2, List.getD_eq_getElem _ _ (by omega)]; exact List.getElem_mem _
    exact hraw (hst.trans (tokens_tok _ raw rfl t h2).2)
  · rw [h1] at hst
    exact natStr_not_dollar id (hst.subset hd)

theorem isSpace_nl : isSpace '\n' = true := by decide

theorem rewrite_no_nl (raw : Line) (h5 : 5 ≤ (tokens raw).length) (id : Nat) :
    '\n' ∉ rewrite (tokens raw) id := by
  intro hc
  have hall : ∀ t ∈ ((tokens raw).set 3 ((tokens raw).getD 4 [])).set 0 (natStr id), IsTok t := by
    intro t ht
    rcases List.mem_or_eq_of_mem_set ht with h1 | h1
    · rcases List.mem_or_eq_of_mem_set h1 with h2 | h2
      · exact (tokens_tok _ raw rfl t h2).1
      · rw [h2, List.getD_eq_getElem _ _ (by omega)]
        exact (tokens_tok _ raw rfl _ (List.getElem_mem _)).1
    · rw [h1]; exact natStr_tok id
  rcases mem_join _ _ hc with h | ⟨t, ht, hm⟩
  · exact absurd h (by decide)
  · have := (hall t ht).2 _ hm
    rw [isSpace_nl] at this; exact absurd this (by simp)

/-- Fixing elements that are already fixed. -/
theorem fixElems_again (dim : Nat) : ∀ (out : List Line) (id : Nat),
    (∀ i o, out[i]? = some o → ∃ raw, 5 ≤ (tokens raw).length ∧ o = rewrite (tokens raw) (id + i) ∧
      ∃ t, stoi ((tokens raw).getD 1 []) = some t ∧ shouldDelete t dim = false) →
    fixElems dim id out = some out := by
  intro out
  induction out with
  | nil => intro id _; rfl
  | cons o out ih =>
    intro id h
    obtain ⟨raw, h5, e, t, hs, hd⟩ := h 0 o rfl
    have ih' := ih (id + 1) (fun i o' ho => by
      obtain ⟨raw', a, b, c⟩ := h (i + 1) o' (by simpa using ho)
      exact ⟨raw', a, by rw [b]; congr 1; omega, c⟩)
    have ht := rewrite_tokens raw h5 id
    simp only [Nat.add_zero] at e
    rw [← e] at ht
    obtain ⟨a, b, c, d, g, r, hts⟩ := five (tokens raw) h5
    rw [hts] at ht hs
    simp only [List.set_cons_succ, List.set_cons_zero, List.getD_cons_succ, List.getD_cons_zero] at ht hs
    have hl : ¬ (tokens o).length < 5 := by rw [ht]; simp
    have e2 : rewrite (tokens o) id = o := by
      rw [ht, e, hts]
      simp [rewrite]
    rw [fixElems, if_neg hl, ih', ht]
    simp only [List.getD_cons_succ, List.getD_cons_zero, hs, hd, Bool.false_eq_true, if_false]
    rw [ht] at e2
    rw [e2]

/-- Types seen in rewritten lines. -/
theorem lineType_rewrite (raw : Line) (h5 : 5 ≤ (tokens raw).length) (id : Nat) (hid : id < 2147483648) :
    lineType (rewrite (tokens raw) id) = stoi ((tokens raw).getD 1 []) := by
  have ht := rewrite_tokens raw h5 id
  obtain ⟨a, b, c, d, g, r, hts⟩ := five (tokens raw) h5
  rw [hts] at ht ⊢
  simp only [List.set_cons_succ, List.set_cons_zero, List.getD_cons_succ, List.getD_cons_zero] at ht
  rw [lineType_of_tokens _ _ _ _ _ ht (readInt_natStr id hid)]
  simp

/-- **C16 (stability).** Normalising a normalised file changes nothing, for every path and content whose
element lines start with an integer; fewer than 2^31 lines.  The general statement is false, see
`C16_violated_twice`. -/
theorem C16_twice_partial (path content : List Char) (out : List Char)
    (hlen : (lines content).length < 2 ^ 31 - 1)
    (hid : ∀ l ∈ lines content, ∀ w ws, tokens l = w :: ws → 4 ≤ ws.length →
      ∃ v, readInt w = some (v, []))
    (h : fixFile path content = some out) : fixFile path out = some out := by
  unfold fixFile at h ⊢
  by_cases hp : isMsh path = true
  · simp only [if_pos hp] at h ⊢
    by_cases he : (scan false false ⟨[], [], []⟩ (lines content)).elems = []
    · rw [if_pos he] at h
      simp only [Option.some.injEq] at h
      subst h
      rw [if_pos he]
    · rw [if_neg he] at h
      obtain ⟨pre, o, c, els, tail, hs, hpre, ho, hels, htail, hsrc⟩ := scan_shape _ he
      rw [hs] at h he
      simp only at h he
      cases hf : fixElems (detect 1 els) 1 els with
      | none => rw [hf] at h; exact absurd h (by simp)
      | some fixed =>
        rw [hf] at h
        simp only [Option.some.injEq] at h
        have hdl : (pre ++ [o, c]).dropLast = pre ++ [o] := by
          rw [show pre ++ [o, c] = (pre ++ [o]) ++ [c] by simp, List.dropLast_concat]
        rw [hdl] at h
        have hout := fixElems_out _ els 1 fixed hf
        have hsub : fixed.length ≤ els.length := by
          clear hout h
          have : ∀ (els : List Line) (id : Nat) (fixed : List Line) (dim : Nat),
              fixElems dim id els = some fixed → fixed.length ≤ els.length := by
            intro els
            induction els with
            | nil => intro id fixed dim h; simp only [fixElems, Option.some.injEq] at h; subst h; simp
            | cons raw els ih =>
              intro id fixed dim h
              rw [fixElems] at h
              split_ifs at h with h5
              · exact (ih _ _ _ h).trans (by simp)
              · cases hs : stoi ((tokens raw).getD 1 []) with
                | none => rw [hs] at h; exact absurd h (by simp)
                | some t =>
                  rw [hs] at h
                  simp only at h
                  split_ifs at h with hd
                  · exact (ih _ _ _ h).trans (by simp)
                  · cases hr : fixElems dim (id + 1) els with
                    | none => rw [hr] at h; exact absurd h (by simp)
                    | some out' =>
                      rw [hr] at h
                      simp only [Option.some.injEq] at h
                      subst h
                      simpa using ih _ _ _ hr
          exact this _ _ _ _ hf
        have hels_len : els.length ≤ (lines content).length := by
          have : ∀ (ls : List Line) (a b : Bool) (s : Scan),
              (scan a b s ls).elems.length ≤ s.elems.length + ls.length := by
            intro ls
            induction hn : ls.length using Nat.strong_induction_on generalizing ls with
            | _ n ih =>
              intro a b s
              cases ls with
              | nil => rw [scan.eq_def]; simp
              | cons l r =>
                rw [scan.eq_def]
                simp only [List.length_cons] at hn
                simp only
                split_ifs
                · cases r with
                  | nil => simp
                  | cons c r' =>
                    simp only [List.length_cons] at hn
                    have := ih r'.length (by omega) r' rfl true true { s with header := s.header ++ [l, c] }
                    simp only at this ⊢
                    omega
                all_goals
                  have := ih r.length (by omega) r rfl
                · have := this a false { s with footer := s.footer ++ [l] }
                  simp only at this; omega
                · have := this a b { s with elems := s.elems ++ [l] }
                  simp only [List.length_append, List.length_cons, List.length_nil] at this; omega
                · have := this a b { s with header := s.header ++ [l] }
                  simp only at this; omega
                · have := this a b { s with footer := s.footer ++ [l] }
                  simp only at this; omega
          have := this (lines content) false false ⟨[], [], []⟩
          rw [hs] at this
          simpa using this
        have hmem : ∀ l ∈ fixed, ∃ i, fixed[i]? = some l := fun l hl => by
          obtain ⟨i, hi, e⟩ := List.getElem_of_mem hl
          exact ⟨i, by rw [List.getElem?_eq_getElem hi, e]⟩
        have hfe : ∀ l ∈ fixed, has "$EndElements" l = false ∧ '\n' ∉ l := by
          intro l hl
          obtain ⟨i, hi⟩ := hmem l hl
          obtain ⟨raw, hraw, h5, e, _⟩ := hout i l hi
          rw [e]
          exact ⟨rewrite_not_has _ (by decide) (by decide) raw h5 (hels raw hraw) _,
            rewrite_no_nl raw h5 _⟩
        have hnl : ∀ l ∈ pre ++ o :: natStr fixed.length :: (fixed ++ tail), '\n' ∉ l := by
          have hsrc' : ∀ l, l ∈ pre ++ [o, c] ∨ l ∈ els ∨ l ∈ tail → '\n' ∉ l := fun l hl =>
            no_nl_of_lines content l (hsrc l hl)
          intro l hl
          simp only [List.mem_append, List.mem_cons] at hl
          rcases hl with hl | hl | hl | hl | hl
          · exact hsrc' l (Or.inl (by simp [hl]))
          · exact hsrc' l (Or.inl (by simp [hl]))
          · rw [hl]
            intro hc
            exact absurd (natStr_digit _ _ hc) (by decide)
          · exact (hfe l hl).2
          · exact hsrc' l (Or.inr (Or.inr hl))
        have heq : (pre ++ [o]) ++ natStr fixed.length :: (fixed ++ tail) =
            pre ++ o :: natStr fixed.length :: (fixed ++ tail) := by simp
        rw [heq] at h
        have hlines : lines out = pre ++ o :: natStr fixed.length :: (fixed ++ tail) := by
          rw [← h]; exact lines_unlines _ hnl
        rw [hlines, scan_sections pre o _ fixed tail hpre ho (fun l hl => (hfe l hl).1) htail]
        simp only
        by_cases hfx : fixed = []
        · rw [if_pos hfx]
        · rw [if_neg hfx]
          have hkeep : fixElems (detect 1 fixed) 1 fixed = some fixed := by
            apply fixElems_again
            intro i x hx
            obtain ⟨raw, hraw, h5, e, t, hst, hsd⟩ := hout i x hx
            refine ⟨raw, h5, e, t, hst, ?_⟩
            by_contra hcon
            have hdel : shouldDelete t (detect 1 fixed) = true := by simpa using hcon
            have := shouldDelete_mono t fixed els (fun l hl u hu => by
              obtain ⟨j, hj⟩ := hmem l hl
              have hjlt : j < fixed.length := (List.getElem?_eq_some_iff.1 hj).1
              obtain ⟨raw', hraw', h5', e', t', hst', _⟩ := hout j l hj
              refine ⟨raw', hraw', ?_⟩
              rw [e', lineType_rewrite raw' h5' _ (by omega)] at hu
              obtain ⟨a, b, c', d, g, r, hts⟩ := five (tokens raw') h5'
              obtain ⟨v, hv⟩ := hid raw' (hsrc raw' (Or.inr (Or.inl hraw'))) a _ hts (by simp)
              rw [lineType_of_tokens raw' a b _ v hts hv]
              rw [hts] at hu
              simpa using hu) hdel
            rw [hsd] at this
            exact absurd this (by simp)
          rw [hkeep]
          have hdl' : (pre ++ [o, natStr fixed.length]).dropLast = pre ++ [o] := by
            rw [show pre ++ [o, natStr fixed.length] = (pre ++ [o]) ++ [natStr fixed.length] by simp,
              List.dropLast_concat]
          simp only [hdl', heq, h]
  · rw [if_neg hp]

/-! ### Well-formed files -/

theorem shouldDelete_spec (es : List Elem) (ls : List Line) (h : List.Forall₂ Writes ls es) (e : Elem) :
    shouldDelete (e.type : Int) (detect 1 ls) = !wanted es e := by
  have hty : ∀ l x, Writes l x → lineType l = some (x.type : Int) := by
    intro l x hw
    rw [lineType_of_tokens l _ _ _ _ hw.1 (readInt_natStr _ hw.2.1)]
    simp [stoi, readInt_natStr _ hw.2.2]
  have hex : ∀ (ts : List Int) (p : Nat → Bool), (∀ n : Nat, (n : Int) ∈ ts ↔ p n = true) →
      ((∃ l ∈ ls, ∃ t ∈ ts, lineType l = some t) ↔ es.any (fun x => p x.type) = true) := by
    intro ts p hp
    induction h with
    | nil => simp
    | cons hw _ ih =>
      simp only [List.mem_cons, exists_eq_or_imp, ih, List.any_cons, Bool.or_eq_true, hty _ _ hw,
        Option.some.injEq]
      rw [← hp]
      constructor
      · rintro (⟨t, ht, e⟩ | h)
        · left; exact e ▸ ht
        · right; exact h
      · rintro (h | h)
        · left; exact ⟨_, h, rfl⟩
        · right; exact h
  have h3 := hex kTetTypes isTet (fun n => by simp [kTetTypes, isTet]; omega)
  have h2 := hex kTriTypes isTri (fun n => by simp [kTriTypes, isTri]; omega)
  have hp : decide ((e.type : Int) ∈ kPointTypes) = isPoint e.type := by
    rw [Bool.eq_iff_iff]; simp [kPointTypes, isPoint]; omega
  have hl : decide ((e.type : Int) ∈ kLineTypes) = isLine e.type := by
    rw [Bool.eq_iff_iff]; simp [kLineTypes, isLine]; omega
  rw [detect_eq ls 1 (Or.inl rfl)]
  unfold wanted
  by_cases a3 : es.any (fun x => isTet x.type) = true
  · rw [if_pos (h3.2 a3), if_pos a3]
    simp [shouldDelete, hp, hl]
  · rw [if_neg (fun c => a3 (h3.1 c)), if_neg a3]
    by_cases a2 : es.any (fun x => isTri x.type) = true
    · rw [if_pos (Or.inr (h2.2 a2)), if_pos a2]
      simp [shouldDelete, hp]
    · rw [if_neg (fun c => a2 (h2.1 (c.resolve_left (by decide)))), if_neg a2]
      simp [shouldDelete]

theorem fixElems_spec (dim : Nat) (keep : Elem → Bool)
    (hk : ∀ e : Elem, shouldDelete (e.type : Int) dim = !keep e) :
    ∀ (ls : List Line) (es : List Elem), List.Forall₂ Writes ls es → ∀ id,
      fixElems dim id ls = some ((renumber id (es.filter keep)).map fun e => join e.words) := by
  intro ls es h
  induction h with
  | nil => intro id; rfl
  | @cons l e ls es hw _ ih =>
    intro id
    have h5 : ¬ (tokens l).length < 5 := by rw [hw.1]; simp [Elem.words]
    rw [fixElems, if_neg h5, hw.1]
    have h1 : stoi (e.words.getD 1 []) = some (e.type : Int) := by
      simp [Elem.words, stoi, readInt_natStr _ hw.2.2]
    rw [h1]
    simp only [hk e]
    by_cases hke : keep e = true
    · simp only [hke, Bool.not_true, Bool.false_eq_true, if_false, ih (id + 1), List.filter_cons, if_true,
        renumber, List.map_cons]
      simp [rewrite, Elem.words]
    · have hke' : keep e = false := by simpa using hke
      simp only [hke', Bool.not_false, if_true, ih id, List.filter_cons, Bool.false_eq_true, if_false]

/-- **C16.** A file with an element section is rewritten to the same lines outside the section, and inside
to the count and the normal form of the elements. -/
theorem C16_normal (path : List Char) (s : Sections) (hs : s.Ok) (es : List Elem)
    (hw : List.Forall₂ Writes s.elems es) (hne : es ≠ []) (hp : ∃ b, path = b ++ ".msh".toList) :
    fixFile path (unlines s.lines) = some (unlines
      { s with
        count := natStr (normal es).length
        elems := (normal es).map fun e : Elem => join e.words }.lines) := by
  obtain ⟨b, hb⟩ := hp
  have hm : isMsh path = true := by
    subst hb
    simp [isMsh, List.takeWhile]
  have hb' : ∀ l, has "$Elements" l = false ↔ ¬ "$Elements".toList <:+: l := has_false_iff _
  have he' : ∀ l, has "$EndElements" l = false ↔ ¬ "$EndElements".toList <:+: l := has_false_iff _
  have hsc : scan false false ⟨[], [], []⟩ (lines (unlines s.lines)) =
      ⟨s.pre ++ [s.opening, s.count], s.elems, s.rest⟩ := by
    rw [lines_unlines _ hs.oneLine]
    apply scan_sections
    · intro l hl; exact ⟨(hb' l).2 (hs.pre l hl).1, (he' l).2 (hs.pre l hl).2⟩
    · rw [has_iff]; exact hs.opening
    · intro l hl; exact (he' l).2 (hs.elems l hl)
    · rcases hs.rest with h | ⟨e, r, h1, h2⟩
      · left; exact h
      · right; exact ⟨e, r, h1, by rw [has_iff]; exact h2⟩
  have hel : s.elems ≠ [] := by
    intro h
    rw [h] at hw
    cases hw
    exact hne rfl
  unfold fixFile
  simp only [if_pos hm, hsc, if_neg hel]
  rw [fixElems_spec _ (wanted es) (fun e => shouldDelete_spec es s.elems hw e) _ _ hw]
  simp only
  have hdl : (s.pre ++ [s.opening, s.count]).dropLast = s.pre ++ [s.opening] := by
    rw [show s.pre ++ [s.opening, s.count] = (s.pre ++ [s.opening]) ++ [s.count] by simp,
      List.dropLast_concat]
  rw [hdl]
  simp [Sections.lines, normal]

/-- **C16.** Nothing is touched when the path does not end in `.msh` or no element line is found. -/
theorem C16_untouched (path content : List Char)
    (h : (¬ ∃ b, path = b ++ ".msh".toList) ∨ (∀ l ∈ lines content, ¬ "$Elements".toList <:+: l)) :
    fixFile path content = some content := by
  unfold fixFile
  by_cases hp : isMsh path = true
  · simp only [if_pos hp]
    rcases h with h | h
    · exfalso
      apply h
      simp only [isMsh, Bool.and_eq_true, decide_eq_true_eq] at hp
      obtain ⟨h1, h2⟩ := hp
      have h3 := List.takeWhile_append_dropWhile (p := fun c : Char => decide (c ≠ '.')) (l := path.reverse)
      have h4 : path = (path.reverse.dropWhile fun c => decide (c ≠ '.')).reverse ++
          (path.reverse.takeWhile fun c => decide (c ≠ '.')).reverse := by
        rw [← List.reverse_append, h3, List.reverse_reverse]
      rw [h2] at h4
      cases hd : path.reverse.dropWhile fun c => decide (c ≠ '.') with
      | nil =>
        rw [hd] at h4
        rw [h4] at h1
        exact absurd h1 (by decide)
      | cons c r =>
        have hc : c = '.' := by
          have := List.head_dropWhile_not (fun c : Char => decide (c ≠ '.')) (l := path.reverse)
            (by rw [hd]; simp)
          simp only [hd, List.head_cons] at this
          simpa using this
        rw [hd] at h4
        exact ⟨r.reverse, by rw [h4, hc]; simp⟩
    · have : (scan false false ⟨[], [], []⟩ (lines content)).elems = [] := by
        by_contra hc
        obtain ⟨pre, o, c, els, tail, _, _, ho, _, _, hsrc⟩ := scan_shape _ hc
        exact h o (hsrc o (Or.inl (by simp))) ((has_iff _ _).1 ho)
      rw [if_pos this]
  · rw [if_neg hp]

/-! The normal form, in words: consecutive numbers from one, wanted elements in order, tags copied. -/

theorem renumber_get (es : List Elem) : ∀ (n i : Nat),
    (renumber n es)[i]? = (es[i]?).map fun e => { e with id := n + i, physical := e.geometrical } := by
  induction es with
  | nil => intro n i; simp [renumber]
  | cons e es ih =>
    intro n i
    cases i with
    | zero => simp [renumber]
    | succ i =>
      simp only [renumber, List.getElem?_cons_succ, ih]
      congr 1
      funext e
      congr 1
      omega

/-- **C16.** The i-th line of the new section is the i-th wanted element, with number i+1 and its
geometrical tag in both places. -/
theorem C16_entries (es : List Elem) (i : Nat) :
    (normal es)[i]? = ((es.filter (wanted es))[i]?).map fun e =>
      { e with id := i + 1, physical := e.geometrical } := by
  unfold normal
  rw [renumber_get]
  congr 1
  funext e
  congr 1
  omega

/-- **C16.** The count line states the number of lines of the new section. -/
theorem C16_count (es : List Elem) : (normal es).length = (es.filter (wanted es)).length := by
  have : ∀ (l : List Elem) n, (renumber n l).length = l.length := by
    intro l
    induction l with
    | nil => intro n; rfl
    | cons e l ih => intro n; simp [renumber, ih]
  exact this _ _

/-- A triangle mesh with a stray point and irregular blanks. -/
def demo : Sections :=
  ⟨["$Nodes".toList, "0".toList, "$EndNodes".toList], "$Elements".toList, "3".toList,
    ["1 15 2 0 5 1".toList, "7  2 2\t0 9 1 2 3 ".toList, "8 2 2 0 4 1 2 3\r".toList],
    ["$EndElements".toList, "end".toList]⟩

def demoElems : List Elem :=
  [⟨1, 15, "2".toList, "0".toList, "5".toList, ["1".toList]⟩,
   ⟨7, 2, "2".toList, "0".toList, "9".toList, ["1".toList, "2".toList, "3".toList]⟩,
   ⟨8, 2, "2".toList, "0".toList, "4".toList, ["1".toList, "2".toList, "3".toList]⟩]

/-- The hypotheses of `C16_normal` hold for a file with points, triangles and irregular blanks. -/
example : demo.Ok ∧ List.Forall₂ Writes demo.elems demoElems ∧ demoElems ≠ [] := by
  refine ⟨⟨?_, ?_, ?_, ?_, ?_⟩, ?_, by decide⟩
  · unfold Plain; decide +kernel
  · decide +kernel
  · decide +kernel
  · right; exact ⟨"$EndElements".toList, ["end".toList], rfl, by decide +kernel⟩
  · decide +kernel
  · exact .cons ⟨by decide +kernel, by decide, by decide⟩ (.cons ⟨by decide +kernel, by decide, by decide⟩
      (.cons ⟨by decide +kernel, by decide, by decide⟩ .nil))

/-- What the code writes for it. -/
example : fixFile "box.msh".toList (unlines demo.lines) = some (unlines
    ["$Nodes".toList, "0".toList, "$EndNodes".toList, "$Elements".toList, "2".toList,
     "1 2 2 9 9 1 2 3".toList, "2 2 2 4 4 1 2 3".toList, "$EndElements".toList, "end".toList]) := by
  decide +kernel

/-- The hypotheses of `C16_twice_partial` hold for the same file. -/
example : (lines (unlines demo.lines)).length < 2 ^ 31 - 1 ∧
    ∀ l ∈ lines (unlines demo.lines), ∀ w ws, tokens l = w :: ws → 4 ≤ ws.length →
      ∃ v, readInt w = some (v, []) := by
  have h : ∀ l ∈ lines (unlines demo.lines), (tokens l).length < 5 ∨
      (readInt ((tokens l).headD [])).map Prod.snd = some [] := by decide +kernel
  refine ⟨by decide +kernel, fun l hl w ws e h4 => ?_⟩
  rcases h l hl with h | h
  · rw [e] at h; simp at h; omega
  · rw [e] at h
    simp only [List.headD_cons, Option.map_eq_some_iff] at h
    obtain ⟨⟨v, r⟩, h1, h2⟩ := h
    exact ⟨v, by rw [h1]; simp at h2; rw [h2]⟩

/-- A file whose triangle has a number that is not an integer. -/
def oddFile : List Char := unlines
  ["$Elements".toList, "2".toList, "1 15 2 0 5 1".toList, "t1 2 2 0 9 1 2 3".toList, "$EndElements".toList]

/-- **C16 is false in general.** The dimension is guessed from lines whose number is readable, and the first
pass makes numbers readable: a second pass can delete more elements than the first. -/
theorem C16_violated_twice : ∃ once twice, fixFile "a.msh".toList oddFile = some once ∧
    fixFile "a.msh".toList once = some twice ∧ once ≠ twice := by
  refine ⟨unlines ["$Elements".toList, "2".toList, "1 15 2 5 5 1".toList, "2 2 2 9 9 1 2 3".toList,
      "$EndElements".toList], unlines ["$Elements".toList, "1".toList, "1 2 2 9 9 1 2 3".toList,
      "$EndElements".toList], ?_, ?_, ?_⟩
  · decide +kernel
  · decide +kernel
  · decide +kernel

/-! ### C70: stray points and lines in meshes of quadrilaterals and hexahedra -/

/-- Points and lines have no place in a mesh with volume elements (Gmsh types 4, 5, 6, 7: tetrahedron,
hexahedron, prism, pyramid), points none in one with surface elements (types 2, 3). -/
def stray (es : List Elem) (e : Elem) : Bool :=
  if es.any (fun x => x.type == 4 || x.type == 5 || x.type == 6 || x.type == 7) then
    isPoint e.type || isLine e.type
  else if es.any (fun x => x.type == 2 || x.type == 3) then isPoint e.type
  else false

/-- **C70 (simplices).** In meshes of first-order triangles and tetrahedra no stray element is left. -/
theorem C70_simplices_partial (es : List Elem)
    (h : ∀ e ∈ es, e.type = 1 ∨ e.type = 2 ∨ e.type = 4 ∨ e.type = 15) :
    ∀ e ∈ normal es, stray es e = false := by
  intro e he
  obtain ⟨i, hi⟩ := List.getElem?_of_mem he
  rw [C16_entries] at hi
  simp only [Option.map_eq_some_iff] at hi
  obtain ⟨x, hx, hxe⟩ := hi
  have hxm := List.mem_of_getElem? hx
  rw [List.mem_filter] at hxm
  obtain ⟨_, hwant⟩ := hxm
  have ht : e.type = x.type := by rw [← hxe]
  have c3 : es.any (fun x => x.type == 4 || x.type == 5 || x.type == 6 || x.type == 7) =
      es.any (fun x => isTet x.type) := by
    rw [Bool.eq_iff_iff]
    simp only [List.any_eq_true, isTet, Bool.or_eq_true, beq_iff_eq]
    constructor <;> rintro ⟨y, hy, hh⟩ <;> refine ⟨y, hy, ?_⟩ <;> have := h y hy <;> omega
  have c2 : es.any (fun x => x.type == 2 || x.type == 3) = es.any (fun x => isTri x.type) := by
    rw [Bool.eq_iff_iff]
    simp only [List.any_eq_true, isTri, Bool.or_eq_true, beq_iff_eq]
    constructor <;> rintro ⟨y, hy, hh⟩ <;> refine ⟨y, hy, ?_⟩ <;> have := h y hy <;> omega
  unfold stray
  unfold wanted at hwant
  rw [c3, c2, ht]
  split_ifs at hwant ⊢ with h1 h2
  · simp only [Bool.and_eq_true, Bool.not_eq_true'] at hwant
    simp [hwant.1, hwant.2]
  · simpa using hwant
  · rfl

example : ∀ e ∈ demoElems, e.type = 1 ∨ e.type = 2 ∨ e.type = 4 ∨ e.type = 15 := by decide

/-- **C70 is false for hexahedra.** A file with one hexahedron, one line and one point keeps all three. -/
theorem C70_violated_hexahedra : ∃ es : List Elem, (∃ e ∈ es, e.type = 5) ∧
    ∃ e ∈ normal es, stray es e = true := by
  refine ⟨[⟨1, 15, [], [], [], []⟩, ⟨2, 1, [], [], [], []⟩, ⟨3, 5, [], [], [], []⟩], ?_, ?_⟩
  · decide
  · decide

end Dgtd.Gmsh
