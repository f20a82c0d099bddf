import Verif.Spec.Launch
import Mathlib.Tactic.Common

/-
C53, C57, C75: command lines, case naming, mesh files.
-/
namespace Dgtd.Launch

open Spec

/-! ### C57 -/

/-- The meaning of a line, given the values seen before it. -/
def meaningFrom (items : List Item) (path dev : Str) : Outcome :=
  match items.find? Item.stops with
  | some .help => .exit 2
  | some _ => .throw
  | none =>
    let path := ((items.filterMap Item.path?).getLast?).getD path
    let dev := ((items.filterMap Item.device?).getLast?).getD dev
    if dotJson <:+: path then .run path dev else .exit 3

theorem getLast_cons {α : Type} (a b : α) (l : List α) : ((a :: l).getLast?).getD b = (l.getLast?).getD a := by
  cases l with
  | nil => rfl
  | cons x l => simp [List.getLast?_eq_some_getLast]

theorem from_input (p : Str) (rest : List Item) (path dev : Str) :
    meaningFrom (.input p :: rest) path dev = meaningFrom rest p dev := by
  unfold meaningFrom
  rw [List.find?_cons_of_neg (by simp [Item.stops])]
  simp only [List.filterMap_cons, Item.path?, Item.device?, getLast_cons]

theorem from_other (w : Str) (rest : List Item) (path dev : Str) :
    meaningFrom (.other w :: rest) path dev = meaningFrom rest path dev := by
  unfold meaningFrom
  rw [List.find?_cons_of_neg (by simp [Item.stops])]
  rfl

theorem from_device (l : Bool) (d : Str) (h : known d = true) (rest : List Item) (path dev : Str) :
    meaningFrom (.device l d :: rest) path dev = meaningFrom rest path d := by
  unfold meaningFrom
  rw [List.find?_cons_of_neg (by simp [Item.stops, h])]
  simp only [List.filterMap_cons, Item.path?, Item.device?, getLast_cons]

theorem from_bad (l : Bool) (d : Str) (h : known d = false) (rest : List Item) (path dev : Str) :
    meaningFrom (.device l d :: rest) path dev = .throw := by
  unfold meaningFrom
  rw [List.find?_cons_of_pos (by simp [Item.stops, h])]

theorem from_help (rest : List Item) (path dev : Str) : meaningFrom (.help :: rest) path dev = .exit 2 := by
  unfold meaningFrom
  rw [List.find?_cons_of_pos (by simp [Item.stops])]

theorem loop_meaning (items : List Item) : WellFormed items → ∀ path dev,
    launcherLoop (render items) path dev = meaningFrom items path dev := by
  induction items with
  | nil => intro _ path dev; rfl
  | cons i rest ih =>
    intro hw path dev
    cases i with
    | input p =>
      have hw' : WellFormed rest := hw
      rw [from_input, ← ih hw']
      have e : render (.input p :: rest) = flagI :: p :: render rest := rfl
      rw [e, launcherLoop, if_pos rfl]
    | help =>
      rw [from_help]
      have e : render (.help :: rest) = flagH :: render rest := rfl
      rw [e]
      cases hr : render rest with
      | nil => simp [launcherLoop]
      | cons b t =>
        rw [launcherLoop, if_neg (by decide), if_pos rfl]
    | device l d =>
      have hw' : WellFormed rest := hw
      have e : launcherLoop (render (.device l d :: rest)) path dev =
          if d = cpu ∨ d = omp ∨ d = cuda then launcherLoop (render rest) path d else .throw := by
        cases l
        · have e : render (.device false d :: rest) = flagD :: d :: render rest := rfl
          rw [e, launcherLoop, if_neg (by decide), if_neg (by decide), if_pos (Or.inr rfl)]
        · have e : render (.device true d :: rest) = flagDevice :: d :: render rest := rfl
          rw [e, launcherLoop, if_neg (by decide), if_neg (by decide), if_pos (Or.inl rfl)]
      rw [e]
      by_cases hk : d = cpu ∨ d = omp ∨ d = cuda
      · rw [if_pos hk, from_device l d (decide_eq_true hk), ih hw']
      · rw [if_neg hk, from_bad l d (decide_eq_false hk)]
    | other w =>
      rw [from_other]
      have e : render (.other w :: rest) = w :: render rest := rfl
      rw [e]
      cases rest with
      | nil =>
        have : w ≠ flagH := hw
        show launcherLoop [w] path dev = _
        rw [launcherLoop, if_neg this]
        rfl
      | cons j t =>
        have hw' : plain w ∧ WellFormed (j :: t) := hw
        obtain ⟨b, t', hb⟩ : ∃ b t', render (j :: t) = b :: t' := by
          cases j with
          | input p => exact ⟨_, _, rfl⟩
          | help => exact ⟨_, _, rfl⟩
          | device l d => cases l <;> exact ⟨_, _, rfl⟩
          | other w' => exact ⟨_, _, rfl⟩
        have hp : w ≠ flagI ∧ w ≠ flagH ∧ w ≠ flagD ∧ w ≠ flagDevice := hw'.1
        obtain ⟨p1, p2, p3, p4⟩ := hp
        rw [← ih hw'.2, hb, launcherLoop, if_neg p1, if_neg p2, if_neg]
        rintro (h | h)
        · exact p4 h
        · exact p3 h

theorem decode : ∀ (n : Nat) (args : List Str), args.length ≤ n → ∃ items, WellFormed items ∧ render items = args := by
  intro n
  induction n with
  | zero =>
    intro args h
    have : args = [] := List.eq_nil_of_length_eq_zero (by omega)
    exact ⟨[], trivial, by rw [this]; rfl⟩
  | succ n ih =>
    intro args h
    cases args with
    | nil => exact ⟨[], trivial, rfl⟩
    | cons a rest =>
      by_cases hH : a = flagH
      · obtain ⟨it, h1, h2⟩ := ih rest (by simp at h; omega)
        exact ⟨.help :: it, h1, by rw [hH, ← h2]; rfl⟩
      cases rest with
      | nil => exact ⟨[.other a], hH, rfl⟩
      | cons b rest =>
        obtain ⟨it, h1, h2⟩ := ih rest (by simp at h; omega)
        by_cases hI : a = flagI
        · exact ⟨.input b :: it, h1, by rw [hI, ← h2]; rfl⟩
        by_cases hD : a = flagD
        · exact ⟨.device false b :: it, h1, by rw [hD, ← h2]; rfl⟩
        by_cases hE : a = flagDevice
        · exact ⟨.device true b :: it, h1, by rw [hE, ← h2]; rfl⟩
        obtain ⟨it2, h3, h4⟩ := ih (b :: rest) (by simp at h ⊢; omega)
        refine ⟨.other a :: it2, ?_, by rw [← h4]; rfl⟩
        cases it2 with
        | nil => simp [render] at h4
        | cons x t => exact ⟨⟨hI, hH, hD, hE⟩, h3⟩

/-- **C57.** Every non-empty command line reads as a sequence of pieces, and the launcher does what the
sequence means. -/
theorem C57_meaning (args : List Str) (h : args ≠ []) :
    ∃ items, WellFormed items ∧ render items = args ∧ launcher args = meaning items := by
  obtain ⟨items, h1, h2⟩ := decode args.length args (le_refl _)
  refine ⟨items, h1, h2, ?_⟩
  unfold launcher
  rw [if_neg h, ← h2, loop_meaning items h1]
  rfl

/-- **C57.** The launcher does what a line means, however it was composed. -/
theorem C57_composed (items : List Item) (hw : WellFormed items) (hne : items ≠ []) :
    launcher (render items) = meaning items := by
  unfold launcher
  rw [if_neg, loop_meaning items hw]
  · rfl
  · cases items with
    | nil => exact absurd rfl hne
    | cons j t =>
      cases j with
      | input p => exact List.cons_ne_nil _ _
      | help => exact List.cons_ne_nil _ _
      | device l d => cases l <;> exact List.cons_ne_nil _ _
      | other w' => exact List.cons_ne_nil _ _

/-- **C57.** Without arguments the exit code is one. -/
theorem C57_no_arguments : launcher [] = .exit 1 := rfl

/-- **C57.** Four outcomes have different codes; a run only starts with a path that contains `.json` and was
written after the input flag. -/
theorem C57_run_only_json (args : List Str) (p d : Str) (h : launcher args = .run p d) :
    ['.', 'j', 's', 'o', 'n'] <:+: p ∧ (d = ['c', 'p', 'u'] ∨ d = ['o', 'm', 'p'] ∨ d = ['c', 'u', 'd', 'a']) ∧
      ∃ pre post, args = pre ++ ['-', 'i'] :: p :: post := by
  have hne : args ≠ [] := by rintro rfl; simp [launcher] at h
  obtain ⟨items, _, h2, h3⟩ := C57_meaning args hne
  rw [h] at h3
  unfold meaning at h3
  cases hf : items.find? Item.stops with
  | some x =>
    rw [hf] at h3
    cases x <;> simp at h3
  | none =>
    rw [hf] at h3
    simp only at h3
    split_ifs at h3 with hj
    simp only [Outcome.run.injEq] at h3
    obtain ⟨hp, hd⟩ := h3
    rw [← hp] at hj
    refine ⟨hj, ?_, ?_⟩
    · rw [hd]
      generalize hl : (items.filterMap Item.device?) = l
      cases hg : l.getLast? with
      | none => left; rfl
      | some x =>
        simp only [Option.getD_some]
        have hx : x ∈ l := List.mem_of_getLast? hg
        rw [← hl, List.mem_filterMap] at hx
        obtain ⟨i, hi, e⟩ := hx
        rw [List.find?_eq_none] at hf
        have := hf i hi
        cases i <;> simp [Item.device?] at e
        subst e
        simp only [Item.stops, Bool.not_eq_true', Bool.not_eq_false] at this
        simpa only [known, decide_eq_true_eq] using this
    · generalize hl : (items.filterMap Item.path?) = l at hp
      cases hg : l.getLast? with
      | none =>
        rw [hg] at hp
        simp only [Option.getD_none] at hp
        rw [hp] at hj
        exact absurd hj (by decide)
      | some x =>
        rw [hg] at hp
        simp only [Option.getD_some] at hp
        have hx : x ∈ l := List.mem_of_getLast? hg
        rw [← hl, List.mem_filterMap] at hx
        obtain ⟨i, hi, e⟩ := hx
        cases i <;> simp [Item.path?] at e
        subst e
        obtain ⟨s, t, rfl⟩ := List.append_of_mem hi
        refine ⟨render s, render t, ?_⟩
        rw [← h2, hp]
        simp [render, Item.words]

def word (s : String) : Str := s.toList

example : launcher [word "-d", word "omp", word "x", word "-i", word "a/a.json"] =
    .run (word "a/a.json") (word "omp") := by decide +kernel
example : WellFormed [.device false omp, .other (word "x"), .input (word "a/a.json"), .other flagI] :=
  ⟨by unfold plain; decide, show flagI ≠ flagH by decide⟩
example : launcher [word "-i", word "a.msh"] = .exit 3 ∧ launcher [word "-i", word "a.json", word "-h"] = .exit 2 ∧
    launcher [word "-d", word "gpu"] = .throw := by decide +kernel

/-- **C57 (post-processor).** It runs exactly on the last path given, unless help is asked for. -/
theorem C57_rcs_run_only_path (args : List Str) (p d : Str) (h : rcsLauncher args = .run p d) :
    p ≠ [] ∧ ∃ pre post, args = pre ++ ['-', 'i'] :: p :: post := by
  have gen : ∀ (n : Nat) (args : List Str) (q : Str), args.length ≤ n → rcsLoop args q = .run p d →
      p ≠ [] ∧ ((∃ pre post, args = pre ++ flagI :: p :: post) ∨ p = q) := by
    intro n
    induction n with
    | zero =>
      intro args q hl h
      have : args = [] := List.eq_nil_of_length_eq_zero (by omega)
      subst this
      simp only [rcsLoop] at h
      split_ifs at h with hq
      simp only [Outcome.run.injEq] at h
      exact ⟨h.1 ▸ hq, Or.inr h.1.symm⟩
    | succ n ih =>
      intro args q hl h
      match args with
      | [] =>
        simp only [rcsLoop] at h
        split_ifs at h with hq
        simp only [Outcome.run.injEq] at h
        exact ⟨h.1 ▸ hq, Or.inr h.1.symm⟩
      | [a] =>
        rw [rcsLoop] at h
        split_ifs at h
        obtain ⟨h1, h2⟩ := ih [] q (by simp) h
        refine ⟨h1, Or.inr ?_⟩
        rcases h2 with ⟨pre, post, e⟩ | e
        · exact absurd (congrArg List.length e) (by simp)
        · exact e
      | a :: b :: rest =>
        rw [rcsLoop] at h
        simp only [List.length_cons] at hl
        split_ifs at h with h1 h2
        · obtain ⟨r1, r2⟩ := ih rest b (by omega) h
          refine ⟨r1, Or.inl ?_⟩
          rcases r2 with ⟨pre, post, e⟩ | e
          · exact ⟨a :: b :: pre, post, by rw [e]; rfl⟩
          · exact ⟨[], rest, by rw [h1, e]; rfl⟩
        · obtain ⟨r1, r2⟩ := ih (b :: rest) q (by simp; omega) h
          refine ⟨r1, ?_⟩
          rcases r2 with ⟨pre, post, e⟩ | e
          · exact Or.inl ⟨a :: pre, post, by rw [e]; rfl⟩
          · exact Or.inr e
  unfold rcsLauncher at h
  split_ifs at h
  obtain ⟨h1, h2⟩ := gen args.length args [] (le_refl _) h
  exact ⟨h1, h2.resolve_right h1⟩

theorem rcs_meaning_from (items : List RcsItem) : RcsWellFormed items → ∀ path,
    rcsLoop (items.flatMap RcsItem.words) path =
      if items.any RcsItem.isHelp then .exit 0
      else if ((items.filterMap RcsItem.path?).getLast?).getD path = [] then .exit 1
      else .run (((items.filterMap RcsItem.path?).getLast?).getD path) [] := by
  induction items with
  | nil => intro _ path; rfl
  | cons i rest ih =>
    intro hw path
    cases i with
    | input p =>
      have hw' : RcsWellFormed rest := hw
      have e : (RcsItem.input p :: rest).flatMap RcsItem.words = flagI :: p :: rest.flatMap RcsItem.words := rfl
      rw [e, rcsLoop, if_pos rfl, ih hw']
      simp only [List.any_cons, RcsItem.isHelp, Bool.false_or, List.filterMap_cons, RcsItem.path?, getLast_cons]
    | help =>
      have e : (RcsItem.help :: rest).flatMap RcsItem.words = flagH :: rest.flatMap RcsItem.words := rfl
      rw [e, if_pos (by simp [RcsItem.isHelp])]
      cases hr : rest.flatMap RcsItem.words with
      | nil => simp [rcsLoop]
      | cons b t => rw [rcsLoop, if_neg (by decide), if_pos rfl]
    | other w =>
      have e : (RcsItem.other w :: rest).flatMap RcsItem.words = w :: rest.flatMap RcsItem.words := rfl
      simp only [List.any_cons, RcsItem.isHelp, Bool.false_or, List.filterMap_cons, RcsItem.path?]
      rw [e]
      cases rest with
      | nil =>
        have : w ≠ flagH := hw
        show rcsLoop [w] path = _
        rw [rcsLoop, if_neg this]
        rfl
      | cons j t =>
        have hw' : (w ≠ flagI ∧ w ≠ flagH) ∧ RcsWellFormed (j :: t) := hw
        obtain ⟨b, t', hb⟩ : ∃ b t', (j :: t).flatMap RcsItem.words = b :: t' := by
          cases j <;> exact ⟨_, _, rfl⟩
        have hl : rcsLoop (w :: (j :: t).flatMap RcsItem.words) path = rcsLoop ((j :: t).flatMap RcsItem.words) path := by
          rw [hb, rcsLoop, if_neg hw'.1.1, if_neg hw'.1.2]
        exact hl.trans (ih hw'.2 path)

/-- **C57 (post-processor).** It does what a line means, however it was composed; the empty line included. -/
theorem C57_rcs_meaning (items : List RcsItem) (hw : RcsWellFormed items) :
    rcsLauncher (items.flatMap RcsItem.words) = rcsMeaning items := by
  have main : rcsLoop (items.flatMap RcsItem.words) [] = rcsMeaning items := by
    rw [rcs_meaning_from items hw]
    unfold rcsMeaning
    cases (items.filterMap RcsItem.path?).getLast? <;> rfl
  unfold rcsLauncher
  split_ifs with h
  · rw [h] at main
    rw [← main]
    rfl
  · exact main

/-- **C57 (post-processor).** Every line is composed of such pieces. -/
theorem C57_rcs_total : ∀ args : List Str, ∃ items, RcsWellFormed items ∧ items.flatMap RcsItem.words = args := by
  have gen : ∀ (n : Nat) (args : List Str), args.length ≤ n →
      ∃ items, RcsWellFormed items ∧ items.flatMap RcsItem.words = args := by
    intro n
    induction n with
    | zero =>
      intro args h
      exact ⟨[], trivial, (List.eq_nil_of_length_eq_zero (by omega)).symm⟩
    | succ n ih =>
      intro args h
      cases args with
      | nil => exact ⟨[], trivial, rfl⟩
      | cons a rest =>
        by_cases hH : a = flagH
        · obtain ⟨it, h1, h2⟩ := ih rest (by simp at h; omega)
          exact ⟨.help :: it, h1, by rw [hH, ← h2]; rfl⟩
        cases rest with
        | nil => exact ⟨[.other a], hH, rfl⟩
        | cons b rest =>
          by_cases hI : a = flagI
          · obtain ⟨it, h1, h2⟩ := ih rest (by simp at h; omega)
            exact ⟨.input b :: it, h1, by rw [hI, ← h2]; rfl⟩
          obtain ⟨it2, h3, h4⟩ := ih (b :: rest) (by simp at h ⊢; omega)
          refine ⟨.other a :: it2, ?_, by rw [← h4]; rfl⟩
          cases it2 with
          | nil => simp at h4
          | cons x t => exact ⟨⟨hI, hH⟩, h3⟩
  exact fun args => gen args.length args (le_refl _)

example : RcsWellFormed [.input (word "a.json"), .other (word "x"), .input (word "b.json"), .other (word "-i")] ∧
    rcsMeaning [.input (word "a.json"), .other (word "x"), .input (word "b.json"), .other (word "-i")] =
      .run (word "b.json") [] := ⟨⟨by decide, show word "-i" ≠ ['-', 'h'] by decide⟩, by decide +kernel⟩

example : rcsLauncher [word "-i", word "a", word "-i", word "b"] = .run (word "b") [] := by decide +kernel

/-! ### C53 -/

theorem filename_append (a b : Str) (hb : '/' ∉ b) (ha : a = [] ∨ a.getLast? = some '/') :
    filename (a ++ b) = b := by
  unfold filename
  rw [List.reverse_append, List.takeWhile_append_of_pos]
  · rcases ha with rfl | ha
    · simp
    · obtain ⟨a', rfl⟩ : ∃ a', a = a' ++ ['/'] := by
        rw [List.getLast?_eq_some_iff] at ha; exact ha
      simp [notSlash]
  · intro c hc
    simp only [List.mem_reverse] at hc
    simp only [notSlash, bne_iff_ne]
    intro e; exact hb (e ▸ hc)

theorem filename_noSlash (p : Str) : '/' ∉ filename p := by
  unfold filename
  intro h
  rw [List.mem_reverse] at h
  have := List.all_takeWhile (p := notSlash) (l := p.reverse)
  rw [List.all_eq_true] at this
  exact absurd (this _ h) (by decide)

/-- Every path is what precedes its file name, which is empty or ends with a separator, and the name. -/
theorem filename_split (p : Str) : ∃ a, p = a ++ filename p ∧ (a = [] ∨ a.getLast? = some '/') ∧
    p.reverse.dropWhile notSlash = a.reverse := by
  refine ⟨(p.reverse.dropWhile notSlash).reverse, ?_, ?_, by simp⟩
  · unfold filename
    rw [← List.reverse_append, List.takeWhile_append_dropWhile, List.reverse_reverse]
  · cases h : p.reverse.dropWhile notSlash with
    | nil => left; rfl
    | cons c t =>
      right
      have hne : p.reverse.dropWhile notSlash ≠ [] := by rw [h]; simp
      have := List.head_dropWhile_not notSlash hne
      simp only [h, List.head_cons, notSlash, bne_eq_false_iff_eq] at this
      simp [this]

/-- The trailing separators of a path. -/
theorem trailing (a : Str) : ∃ k, a = (a.reverse.dropWhile isSlash).reverse ++ List.replicate k '/' ∧
    ((a.reverse.dropWhile isSlash).reverse).getLast? ≠ some '/' := by
  refine ⟨(a.reverse.takeWhile isSlash).length, ?_, ?_⟩
  · have h1 : (a.reverse.takeWhile isSlash) = List.replicate (a.reverse.takeWhile isSlash).length '/' := by
      rw [List.eq_replicate_iff]
      refine ⟨rfl, fun b hb => ?_⟩
      have := List.all_takeWhile (p := isSlash) (l := a.reverse)
      rw [List.all_eq_true] at this
      simpa [isSlash] using this b hb
    have h2 : a.reverse = a.reverse.takeWhile isSlash ++ a.reverse.dropWhile isSlash :=
      (List.takeWhile_append_dropWhile).symm
    have h3 := congrArg List.reverse h2
    rw [List.reverse_reverse, List.reverse_append] at h3
    rw [h1, List.reverse_replicate] at h3
    exact h3
  · rw [List.getLast?_reverse]
    cases h : a.reverse.dropWhile isSlash with
    | nil => simp
    | cons c t =>
      have hne : a.reverse.dropWhile isSlash ≠ [] := by rw [h]; simp
      have := List.head_dropWhile_not isSlash hne
      simp only [h, List.head_cons, isSlash, beq_eq_false_iff_ne] at this
      simpa using this

theorem parent_of (a b : Str) (hb : '/' ∉ b) (k : Nat) (hk : k ≠ 0) (ha : a.getLast? ≠ some '/') (hne : a ≠ []) :
    parentPath (a ++ List.replicate k '/' ++ b) = a := by
  unfold parentPath
  have hd : (a ++ List.replicate k '/' ++ b).reverse.dropWhile notSlash = List.replicate k '/' ++ a.reverse := by
    rw [List.reverse_append, List.dropWhile_append_of_pos]
    · rw [List.reverse_append, List.reverse_replicate]
      cases k with
      | zero => exact absurd rfl hk
      | succ k => rw [List.replicate_succ]; simp [notSlash]
    · intro c hc
      simp only [List.mem_reverse] at hc
      simp only [notSlash, bne_iff_ne]
      intro e; exact hb (e ▸ hc)
  simp only [hd]
  rw [if_neg]
  · have h2 : (List.replicate k '/' ++ a.reverse).dropWhile isSlash = a.reverse := by
      rw [List.dropWhile_append_of_pos]
      · cases h : a.reverse with
        | nil => rfl
        | cons c t =>
          have hc : a.getLast? = some c := by
            rw [← List.head?_reverse, h]; rfl
          have : c ≠ '/' := by intro e; rw [e] at hc; exact ha hc
          simp [isSlash, this]
      · intro c hc
        simpa [isSlash] using List.eq_of_mem_replicate hc
    rw [h2, List.reverse_reverse, if_neg hne]
  · cases k with
    | zero => exact absurd rfl hk
    | succ k => simp

theorem splitExt_json (case : Str) (h : case ≠ []) : splitExt (case ++ dotJson) = (case, dotJson) := by
  unfold splitExt
  have hlen : 0 < case.length := List.length_pos_iff.2 h
  rw [if_neg]
  · have hr : (case ++ dotJson).reverse = ['n', 'o', 's', 'j'] ++ '.' :: case.reverse := by
      simp [dotJson]
    have h1 : (case ++ dotJson).reverse.takeWhile notDot = ['n', 'o', 's', 'j'] := by
      rw [hr]; rfl
    have h2 : (case ++ dotJson).reverse.dropWhile notDot = '.' :: case.reverse := by
      rw [hr]; rfl
    simp only [h1, h2]
    rw [if_neg (by simp), if_neg (by simpa using h)]
    simp [dotJson]
  · rintro (e | e)
    · have := congrArg List.length e; simp [dotJson] at this
    · have := congrArg List.length e; simp [dotJson] at this

theorem splitExt_inv (f : Str) (h : (splitExt f).2 = dotJson) :
    f = (splitExt f).1 ++ dotJson ∧ (splitExt f).1 ≠ [] := by
  unfold splitExt at h ⊢
  simp only at h ⊢
  by_cases h1 : f = ['.'] ∨ f = ['.', '.']
  · rw [if_pos h1] at h; simp [dotJson] at h
  rw [if_neg h1] at h ⊢
  by_cases h2 : f.reverse.dropWhile notDot = []
  · rw [if_pos h2] at h; simp [dotJson] at h
  rw [if_neg h2] at h ⊢
  by_cases h3 : (f.reverse.dropWhile notDot).drop 1 = []
  · rw [if_pos h3] at h; simp [dotJson] at h
  rw [if_neg h3] at h ⊢
  · simp only at h ⊢
    refine ⟨?_, by simpa using h3⟩
    have hne : f.reverse.dropWhile notDot ≠ [] := h2
    have hhead := List.head_dropWhile_not notDot hne
    simp only [notDot, bne_eq_false_iff_eq] at hhead
    have hdec : f.reverse.dropWhile notDot = '.' :: (f.reverse.dropWhile notDot).drop 1 := by
      cases hc : f.reverse.dropWhile notDot with
      | nil => exact absurd hc hne
      | cons c t =>
        have : c = '.' := by
          have e : (f.reverse.dropWhile notDot).head hne = c := by simp [hc]
          rw [← e]
          exact hhead
        simp [this]
    have hf : f = (f.reverse.dropWhile notDot).reverse ++ (f.reverse.takeWhile notDot).reverse := by
      rw [← List.reverse_append, List.takeWhile_append_dropWhile, List.reverse_reverse]
    rw [hdec] at hf
    rw [List.reverse_cons, List.append_assoc] at hf
    rw [← h]
    exact hf

/-- **C53.** A case is accepted exactly when it is consistently named. -/
theorem C53_accepted_iff (fileExists : Str → Bool) (p : Str) (mesh : Option Str) :
    validate fileExists p mesh = true ↔ ∃ before slashes case, Consistent fileExists p mesh before slashes case := by
  constructor
  · intro h
    unfold validate at h
    simp only at h
    by_cases h1 : (splitExt (filename p)).2 ≠ dotJson
    · rw [if_pos h1] at h; simp at h
    rw [if_neg h1] at h
    by_cases h2 : parentPath p = []
    · rw [if_pos h2] at h; simp at h
    rw [if_neg h2] at h
    cases mesh with
    | none => simp at h
    | some m =>
      simp only at h
      by_cases h3 : filename (parentPath p) ≠ (splitExt (filename p)).1
      · rw [if_pos h3] at h; simp at h
      rw [if_neg h3] at h
      by_cases h4 : filename m ≠ (splitExt (filename p)).1 ++ dotMsh
      · rw [if_pos h4] at h; simp at h
      rw [if_neg h4] at h
      by_cases h5 : parentPath m ≠ []
      · rw [if_pos h5] at h; simp at h
      rw [if_neg h5] at h
      simp only [ne_eq, not_not] at h1 h3 h4 h5
      obtain ⟨hf, hcase⟩ := splitExt_inv _ h1
      generalize (splitExt (filename p)).1 = case at *
      have hslash : '/' ∉ case := by
        intro hc
        exact filename_noSlash p (by rw [hf]; simp [hc])
      obtain ⟨a, hp, ha, hda⟩ := filename_split p
      have hane : a ≠ [] := by
        rintro rfl
        apply h2
        unfold parentPath
        simp [hda]
      have ha' := ha.resolve_left hane
      obtain ⟨k, hk1, hk2⟩ := trailing a
      generalize (a.reverse.dropWhile isSlash).reverse = r at hk1 hk2
      have hk0 : k ≠ 0 := by
        rintro rfl
        rw [List.replicate_zero, List.append_nil] at hk1
        rw [hk1] at ha'
        exact hk2 ha'
      have hrne : r ≠ [] := by
        rintro rfl
        apply hcase
        rw [← h3]
        have : parentPath p = ['/'] := by
          unfold parentPath
          simp only [hda]
          rw [if_neg (by simpa using hane), hk1]
          have hdw : ∀ k, List.dropWhile isSlash (List.replicate k '/') = [] := by
            intro k
            induction k with
            | zero => rfl
            | succ k ih => rw [List.replicate_succ, List.dropWhile_cons_of_pos (by decide)]; exact ih
          simp only [List.nil_append, List.reverse_replicate, hdw, List.reverse_nil, if_true]
        rw [this]
        decide
      have hpar : parentPath p = r := by
        rw [hp, hk1]
        exact parent_of r _ (filename_noSlash p) k hk0 hk2 hrne
      rw [hpar] at h3 h
      obtain ⟨b, hb1, hb2, _⟩ := filename_split r
      rw [h3] at hb1
      obtain ⟨c, hc1, hc2, hc3⟩ := filename_split m
      have hm : m = case ++ dotMsh := by
        have hcnil : c = [] := by
          by_contra hc
          apply h5 |> fun h => ?_
          unfold parentPath at h5
          simp only [hc3] at h5
          rw [if_neg (by simpa using hc)] at h5
          split_ifs at h5 with h6
          exact h6 h5
        rw [hc1, hcnil, h4]
        rfl
      refine ⟨b, k, case, hcase, hslash, hk0, hb2, ?_, congrArg some hm, ?_⟩
      · show p = b ++ case ++ List.replicate k '/' ++ case ++ dotJson
        rw [← hb1, ← hk1, List.append_assoc, ← hf, ← hp]
      · rw [if_neg hk2] at h
        rw [hb1] at h
        exact h
  · rintro ⟨b, k, case, hc⟩
    obtain ⟨h1, h2, h3, h4, h5, h6, h7⟩ := hc
    change p = b ++ case ++ List.replicate k '/' ++ case ++ dotJson at h5
    change mesh = some (case ++ dotMsh) at h6
    have hlast : (b ++ case).getLast? ≠ some '/' := by
      rw [List.getLast?_append]
      cases hl : case.getLast? with
      | none => simp [List.getLast?_eq_none_iff] at hl; exact absurd hl h1
      | some x =>
        simp only [Option.some_or, ne_eq, Option.some.injEq]
        intro e
        exact h2 (e ▸ List.mem_of_getLast? hl)
    have hjs : '/' ∉ case ++ dotJson := by
      simp only [List.mem_append, not_or]; exact ⟨h2, by decide⟩
    have hms : '/' ∉ case ++ dotMsh := by
      simp only [List.mem_append, not_or]; exact ⟨h2, by decide⟩
    have hfile : filename p = case ++ dotJson := by
      rw [h5, List.append_assoc]
      apply filename_append _ _ hjs
      right
      rw [List.getLast?_append, List.getLast?_replicate, if_neg h3]
      rfl
    have hpar : parentPath p = b ++ case := by
      rw [h5, List.append_assoc]
      exact parent_of _ _ hjs k h3 hlast (by simp [h1])
    have hmn : filename (case ++ dotMsh) = case ++ dotMsh := by
      have := filename_append [] (case ++ dotMsh) hms (Or.inl rfl)
      simpa using this
    have hmp : parentPath (case ++ dotMsh) = [] := by
      obtain ⟨c, hc1, _, hc3⟩ := filename_split (case ++ dotMsh)
      rw [hmn] at hc1
      have : c = [] := by
        have := congrArg List.length hc1
        simp only [List.length_append] at this
        exact List.eq_nil_of_length_eq_zero (by omega)
      unfold parentPath
      simp only [hc3, this, List.reverse_nil, if_true]
    unfold validate
    simp only [hfile, splitExt_json case h1, hpar, h6, filename_append b case h2 h4, hmn, hmp]
    rw [if_neg (by simp), if_neg (by simp [h1]), if_neg (by simp), if_neg (by simp), if_neg (by simp), if_neg hlast]
    exact h7

example : Consistent (fun s => s == word "t/a/a.msh") (word "t/a//a.json") (some (word "a.msh")) (word "t/") 2
    (word "a") := by
  refine ⟨by decide, by decide, by decide, by decide, by decide, by decide, by decide⟩

example : validate (fun s => s == word "t/a/a.msh") (word "t/a//a.json") (some (word "a.msh")) = true ∧
    validate (fun _ => true) (word "t/b/a.json") (some (word "a.msh")) = false ∧
    validate (fun _ => true) (word "a.json") (some (word "a.msh")) = false ∧
    validate (fun _ => true) (word "a/a.json") (some (word "x/a.msh")) = false := by decide +kernel

/-- **C53.** Results of an accepted case are stored under the name of the case. -/
theorem C53_result_name (fileExists : Str → Bool) (p mesh before : Str) (slashes : Nat) (case : Str)
    (h : Consistent fileExists p (some mesh) before slashes case) : meshName mesh = some case := by
  have h6 : some mesh = some (case ++ dotMsh) := h.names
  simp only [Option.some.injEq] at h6
  subst h6
  unfold meshName
  rw [if_pos (List.suffix_append _ _)]
  simp [dotMsh]

/-- **C53.** For every mesh file name, results are stored under the name without its extension `.msh` or `.mesh`; other extensions
are refused. -/
theorem C53_result_name_iff (mesh name : Str) : meshName mesh = some name ↔
    mesh = name ++ ['.', 'm', 's', 'h'] ∨ mesh = name ++ ['.', 'm', 'e', 's', 'h'] := by
  change _ ↔ mesh = name ++ dotMsh ∨ mesh = name ++ dotMesh
  have hex : ∀ a : Str, ¬ dotMsh <:+ a ++ dotMesh := by
    rintro a ⟨b, hb⟩
    have := congrArg List.reverse hb
    simp [dotMsh, dotMesh] at this
  constructor
  · unfold meshName
    split
    · rintro h
      next hs =>
        obtain ⟨b, rfl⟩ := hs
        left
        cases h
        simp [dotMsh]
    · split
      · rintro h
        next hs =>
          obtain ⟨b, rfl⟩ := hs
          right
          cases h
          simp [dotMesh]
      · intro h; cases h
  · rintro (rfl | rfl)
    · unfold meshName
      rw [if_pos (List.suffix_append _ _)]
      simp [dotMsh]
    · unfold meshName
      rw [if_neg (hex name), if_pos (List.suffix_append _ _)]
      simp [dotMesh]

example : meshName (word "a.mesh") = some (word "a") ∧ meshName (word "a.stl") = none := by decide +kernel

/-! ### C75 -/

theorem eraseFirst_none (pat s : Str) (hp : pat ≠ []) : eraseFirst pat s = none ↔ ¬ pat <:+: s := by
  induction s with
  | nil => simp [eraseFirst, hp]
  | cons c cs ih =>
    rw [eraseFirst, List.infix_cons_iff]
    split_ifs with h
    · simp [h]
    · simp only [Option.map_eq_none_iff, ih, h, false_or]

/-- The first occurrence is the one at the end when there is no other. -/
theorem eraseFirst_end (pat a : Str) (hp : pat ≠ [])
    (h : ∀ x y z : Str, a = x ++ y → y ≠ [] → y ++ pat ≠ pat ++ z) : eraseFirst pat (a ++ pat) = some a := by
  induction a with
  | nil =>
    cases pat with
    | nil => exact absurd rfl hp
    | cons c cs =>
      rw [List.nil_append, eraseFirst, if_pos (List.prefix_refl _)]
      simp
  | cons c a ih =>
    rw [List.cons_append, eraseFirst, if_neg, ih]
    · rfl
    · intro x y z e hy
      exact h (c :: x) y z (by rw [e]; rfl) hy
    · rintro ⟨z, hz⟩
      exact h [] (c :: a) z rfl (by simp) (by rw [List.cons_append]; exact hz.symm)

theorem json_unique (a : Str) (h : ¬ dotJson <:+: a) : ∀ x y z : Str, a = x ++ y → y ≠ [] →
    y ++ dotJson ≠ dotJson ++ z := by
  intro x y z e hy he
  match y, hy with
  | [y1], _ => simp [dotJson] at he
  | [y1, y2], _ => simp [dotJson] at he
  | [y1, y2, y3], _ => simp [dotJson] at he
  | [y1, y2, y3, y4], _ => simp [dotJson] at he
  | y1 :: y2 :: y3 :: y4 :: y5 :: t, _ =>
    simp only [dotJson, List.cons_append, List.nil_append, List.cons.injEq] at he
    obtain ⟨rfl, rfl, rfl, rfl, rfl, _⟩ := he
    apply h
    exact ⟨x, t, by rw [e]; simp [dotJson]⟩

theorem mesh_not_in (case : Str) (h : ¬ dotMesh <:+: case) : ¬ dotMesh <:+: case ++ dotMsh := by
  rintro ⟨x, z, e⟩
  rw [List.append_assoc] at e
  rcases List.append_eq_append_iff.1 e with ⟨y, e1, e2⟩ | ⟨y, e1, e2⟩
  · -- case = x ++ y, dotMesh ++ z = y ++ dotMsh
    match y with
    | [] => simp [dotMesh, dotMsh] at e2
    | [y1] => simp [dotMesh, dotMsh] at e2
    | [y1, y2] => simp [dotMesh, dotMsh] at e2
    | [y1, y2, y3] => simp [dotMesh, dotMsh] at e2
    | [y1, y2, y3, y4] => simp [dotMesh, dotMsh] at e2
    | y1 :: y2 :: y3 :: y4 :: y5 :: t =>
      simp only [dotMesh, dotMsh, List.cons_append, List.nil_append, List.cons.injEq] at e2
      obtain ⟨rfl, rfl, rfl, rfl, rfl, _⟩ := e2
      exact h ⟨x, t, by rw [e1]; simp [dotMesh]⟩
  · -- x = case ++ y, dotMsh = y ++ dotMesh ++ z
    have := congrArg List.length e2
    simp [dotMesh, dotMsh] at this
    omega

/-- What C75 asks for: the mesh that is loaded is the one whose existence was checked, up to repeated
separators. -/
def LoadsOwnMesh (p mesh before : Str) (slashes : Nat) (case : Str) : Prop :=
  launcherMesh mesh p = some (before ++ case ++ List.replicate slashes '/' ++ case ++ ['.', 'm', 's', 'h'])

/-- **C75 (part).** An accepted case loads its own mesh if `.json` occurs only at the end of its path and
`.mesh` does not occur in its name. -/
theorem C75_own_mesh_partial (fileExists : Str → Bool) (p mesh before : Str) (slashes : Nat) (case : Str)
    (h : Consistent fileExists p (some mesh) before slashes case)
    (h1 : ¬ ['.', 'j', 's', 'o', 'n'] <:+: before ++ case ++ List.replicate slashes '/' ++ case)
    (h2 : ¬ ['.', 'm', 'e', 's', 'h'] <:+: case) :
    LoadsOwnMesh p mesh before slashes case := by
  have h6 : some mesh = some (case ++ dotMsh) := h.names
  simp only [Option.some.injEq] at h6
  subst h6
  have hf : p = before ++ case ++ List.replicate slashes '/' ++ case ++ dotJson := h.file
  unfold LoadsOwnMesh launcherMesh
  rw [hf, eraseFirst_end _ _ (by decide) (json_unique _ h1)]
  simp only [Option.map_some]
  have hm : dotMsh <:+: case ++ dotMsh := ⟨case, [], by simp⟩
  rw [if_pos hm, if_neg (mesh_not_in case h2)]
  rfl

example : ¬ dotJson <:+: word "t/" ++ word "a" ++ List.replicate 2 '/' ++ word "a" ∧ ¬ dotMesh <:+: word "a" := by
  decide

/-- **C75 is false in general.** Accepted cases whose names contain `.json` or `.mesh` load another file. -/
theorem C75_violated :
    (∃ case : Str, Consistent (fun _ => true) (case ++ '/' :: (case ++ dotJson)) (some (case ++ dotMsh)) [] 1 case ∧
      launcherMesh (case ++ dotMsh) (case ++ '/' :: (case ++ dotJson)) = some (word "ab/a.jsonb.json.msh")) ∧
    (∃ case : Str, Consistent (fun _ => true) (case ++ '/' :: (case ++ dotJson)) (some (case ++ dotMsh)) [] 1 case ∧
      launcherMesh (case ++ dotMsh) (case ++ '/' :: (case ++ dotJson)) =
        some (word "x.mesh/x.mesh.msh.mesh")) := by
  refine ⟨⟨word "a.jsonb", ?_, by decide +kernel⟩, ⟨word "x.mesh", ?_, by decide +kernel⟩⟩ <;>
  exact ⟨by decide, by decide, by decide, by decide, by decide, by decide, by decide⟩

end Dgtd.Launch
