/-
C155: every rank reads the whole mesh.  C156: a crash at start leaves the mesh of the user intact.
-/
import Verif.Model.MeshRead
import Verif.Props.Gmsh

namespace Dgtd.MeshRead

open Dgtd.Gmsh

variable {ι : Type*} [DecidableEq ι]

/-- What can happen from a state on, in any order of the ranks. -/
inductive Reach (path : List Char) (R : ℕ) (root : ι) (σ : St ι) : St ι → Prop
  | refl : Reach path R root σ σ
  | step {τ τ' : St ι} (h : Reach path R root σ τ) (hs : Step path R root τ τ') : Reach path R root σ τ'

/-- The text after `k` normalisations, if they all succeed. -/
def Texts (path c : List Char) (R : ℕ) (cs : ℕ → List Char) : Prop :=
  cs 0 = c ∧ ∀ k < R, fixFile path (cs k) = some (cs (k + 1))

theorem fix_untouched {path c : List Char} (ht : touches path c = false) (hf : (fixFile path c).isSome) :
    fixFile path c = some c := by
  unfold touches at ht
  unfold fixFile at hf ⊢
  by_cases hp : isMsh path = true
  · simp only [hp, if_true, Bool.true_and, Bool.and_eq_false_iff, decide_eq_false_iff_not, not_not] at ht hf ⊢
    rcases ht with ht | ht
    · rw [if_pos ht]
    · split
      · rfl
      · rename_i he
        rw [if_neg he] at hf
        cases hx : fixElems (detect 1 (scan false false ⟨[], [], []⟩ (lines c)).elems) 1
            (scan false false ⟨[], [], []⟩ (lines c)).elems with
        | none => rw [hx] at hf; simp at hf
        | some v => rw [hx] at ht; simp at ht
  · rw [if_neg hp]

/-- The texts of the first `k` calls. -/
def pre (cs : ℕ → List Char) (k : ℕ) : List (List Char) := (List.range k).map fun j => cs (j + 1)

/-- What is true of the file and of rank zero. -/
def RootOk (R : ℕ) (cs : ℕ → List Char) (file : List Char) (texts : List (List Char)) : Phase → Prop
  | .fix k => k < R ∧ texts = pre cs k ∧ file = cs k
  | .cut k out => k < R ∧ texts = pre cs k ∧ file = cs k ∧ out = cs (k + 1)
  | .write k rest => k < R ∧ texts = pre cs k ∧ file ++ rest = cs (k + 1)
  | .wait k => k < R ∧ texts = pre cs k ∧ file = cs (k + 1)
  | .read k acc => k < R ∧ texts = pre cs k ∧ file = cs (k + 1) ∧ acc <+: file
  | .loaded => texts = pre cs R ∧ file = cs R
  | .failed => False

/-- What is true of the other ranks; `E` says that rank zero is past its last writing. -/
def RankOk (R : ℕ) (cs : ℕ → List Char) (E : Prop) (texts : List (List Char)) : Phase → Prop
  | .wait k => k < R ∧ texts.length = k
  | .read k acc => (k < R ∧ texts.length = k) ∧ (k + 1 = R → E ∧ acc <+: cs R)
  | .loaded => E ∧ texts.getLast? = some (cs R) ∧ texts.length = R
  | _ => False

/-- What is true of every state. -/
def Inv (R : ℕ) (root : ι) (cs : ℕ → List Char) (σ : St ι) : Prop :=
  RootOk R cs σ.file (σ.texts root) (σ.phase root) ∧
    ∀ s, s ≠ root → RankOk R cs (entered R (σ.phase root) = R) (σ.texts s) (σ.phase s)

theorem stable {R : ℕ} {cs : ℕ → List Char} {file : List Char} {ts : List (List Char)} {p : Phase}
    (h : RootOk R cs file ts p) (he : entered R p = R) : file = cs R := by
  cases p <;> simp only [RootOk, entered] at h he
  · omega
  · omega
  · omega
  · rw [← he]; exact h.2.2
  · rw [← he]; exact h.2.2.1
  · exact h.2

theorem rank_mono {R : ℕ} {cs : ℕ → List Char} {E E' : Prop} {ts : List (List Char)} {p : Phase}
    (h : RankOk R cs E ts p) (hE : E → E') : RankOk R cs E' ts p := by
  cases p <;> simp only [RankOk] at h ⊢
  · exact h
  · exact ⟨h.1, fun hk => ⟨hE (h.2 hk).1, (h.2 hk).2⟩⟩
  · exact ⟨hE h.1, h.2⟩

theorem prefix_get {acc file : List Char} (h : acc <+: file) (n : ℕ) :
    acc ++ (file.drop acc.length).take n <+: file := by
  obtain ⟨t, rfl⟩ := h
  rw [List.drop_left]
  exact (List.prefix_append_right_inj acc).2 (List.take_prefix n t)

theorem prefix_end {acc file : List Char} (h : acc <+: file) (he : file.length ≤ acc.length) : acc = file :=
  h.eq_of_length_le he

theorem pre_succ (cs : ℕ → List Char) (k : ℕ) : pre cs k ++ [cs (k + 1)] = pre cs (k + 1) := by
  simp [pre, List.range_succ]

theorem root_step {R : ℕ} {root : ι} {cs : ℕ → List Char} {σ : St ι} {f : List Char} {p : Phase}
    (hinv : Inv R root cs σ) (hp : RootOk R cs f (σ.texts root) p)
    (hE : entered R (σ.phase root) = R → entered R p = R) :
    Inv R root cs ⟨f, Function.update σ.phase root p, σ.texts⟩ := by
  refine ⟨by simpa using hp, fun s hs => ?_⟩
  simp only [Function.update_self, Function.update_of_ne hs]
  exact rank_mono (hinv.2 s hs) hE

theorem other_step {R : ℕ} {root s : ι} {cs : ℕ → List Char} {σ : St ι} {p : Phase}
    (hinv : Inv R root cs σ) (hs : s ≠ root)
    (hp : RankOk R cs (entered R (σ.phase root) = R) (σ.texts s) p) :
    Inv R root cs ⟨σ.file, Function.update σ.phase s p, σ.texts⟩ := by
  refine ⟨by simpa [Function.update_of_ne hs.symm] using hinv.1, fun t ht => ?_⟩
  simp only [Function.update_of_ne hs.symm]
  by_cases h : t = s
  · subst h; simpa using hp
  · simpa [Function.update_of_ne h] using hinv.2 t ht

theorem inv_step {path : List Char} {R : ℕ} {root : ι} {cs : ℕ → List Char} {c : List Char}
    (hcs : Texts path c R cs) {σ τ : St ι} (hinv : Inv R root cs σ) (hs : Step path R root σ τ) :
    Inv R root cs τ := by
  cases hs with
  | same k h ht hf =>
    have hr := hinv.1
    rw [h] at hr
    simp only [RootOk] at hr
    have h1 := fix_untouched ht hf
    rw [hr.2.2, hcs.2 k hr.1] at h1
    refine root_step hinv ⟨hr.1, hr.2.1, ?_⟩ (fun he => ?_)
    · rw [hr.2.2]; exact (Option.some.inj h1).symm
    · rw [h] at he; simp only [entered] at he; omega
  | fails k h hf =>
    have hr := hinv.1
    rw [h] at hr
    simp only [RootOk] at hr
    rw [hr.2.2, hcs.2 k hr.1] at hf
    cases hf
  | plan k out h ht hf =>
    have hr := hinv.1
    rw [h] at hr
    simp only [RootOk] at hr
    refine root_step hinv ⟨hr.1, hr.2.1, hr.2.2, ?_⟩ (fun he => ?_)
    · rw [hr.2.2, hcs.2 k hr.1] at hf; exact (Option.some.inj hf).symm
    · rw [h] at he; simp only [entered] at he; omega
  | empty k out h =>
    have hr := hinv.1
    rw [h] at hr
    simp only [RootOk] at hr
    refine root_step hinv ⟨hr.1, hr.2.1, by simpa using hr.2.2.2⟩ (fun he => ?_)
    rw [h] at he; simp only [entered] at he; omega
  | put k a b h =>
    have hr := hinv.1
    rw [h] at hr
    simp only [RootOk] at hr
    refine root_step hinv ⟨hr.1, hr.2.1, by simpa using hr.2.2⟩ (fun he => ?_)
    rw [h] at he; simp only [entered] at he; omega
  | close k h =>
    have hr := hinv.1
    rw [h] at hr
    simp only [RootOk] at hr
    refine root_step hinv ⟨hr.1, hr.2.1, by simpa using hr.2.2⟩ (fun he => ?_)
    rw [h] at he; simp only [entered] at he; omega
  | go s k h hall =>
    by_cases hs : s = root
    · subst hs
      have hr := hinv.1
      rw [h] at hr
      simp only [RootOk] at hr
      exact root_step hinv ⟨hr.1, hr.2.1, hr.2.2, List.nil_prefix⟩ (fun he => by rw [h] at he; exact he)
    · have hr := hinv.2 s hs
      rw [h] at hr
      simp only [RankOk] at hr
      refine other_step hinv hs ⟨hr, fun hk => ⟨?_, List.nil_prefix⟩⟩
      have h1 := hall root
      have h2 : entered R (σ.phase root) ≤ R := by
        have h3 := hinv.1
        cases hp : σ.phase root <;> rw [hp] at h3 <;> simp only [RootOk, entered] at h3 ⊢ <;> omega
      omega
  | get s k n acc h =>
    by_cases hs : s = root
    · subst hs
      have hr := hinv.1
      rw [h] at hr
      simp only [RootOk] at hr
      exact root_step hinv ⟨hr.1, hr.2.1, hr.2.2.1, prefix_get hr.2.2.2 n⟩
        (fun he => by rw [h] at he; exact he)
    · have hr := hinv.2 s hs
      rw [h] at hr
      simp only [RankOk] at hr
      refine other_step hinv hs ⟨hr.1, fun hk => ⟨(hr.2 hk).1, ?_⟩⟩
      have hf := stable hinv.1 (hr.2 hk).1
      rw [hf]
      exact prefix_get (hr.2 hk).2 n
  | eof s k acc h he =>
    by_cases hs : s = root
    · subst hs
      have hr := hinv.1
      rw [h] at hr
      simp only [RootOk] at hr
      have hacc : acc = cs (k + 1) := by rw [← hr.2.2.1]; exact prefix_end hr.2.2.2 he
      have htx : σ.texts s ++ [acc] = pre cs (k + 1) := by rw [hr.2.1, hacc, pre_succ]
      by_cases hk : k + 1 < R
      · refine ⟨?_, fun t ht => ?_⟩
        · simp only [Function.update_self, next, if_pos hk, begins, if_true]
          exact ⟨hk, htx, hr.2.2.1⟩
        · simp only [Function.update_self, Function.update_of_ne ht]
          refine rank_mono (hinv.2 t ht) fun hE => ?_
          rw [h] at hE; simp only [entered] at hE; omega
      · have hk' : k + 1 = R := by omega
        refine ⟨?_, fun t ht => ?_⟩
        · simp only [Function.update_self, next, if_neg hk]
          exact ⟨by rw [htx, hk'], by rw [hr.2.2.1, hk']⟩
        · simp only [Function.update_self, Function.update_of_ne ht, next, if_neg hk]
          exact rank_mono (hinv.2 t ht) fun _ => rfl
    · have hr := hinv.2 s hs
      rw [h] at hr
      simp only [RankOk] at hr
      refine ⟨?_, fun t ht => ?_⟩
      · simpa [Function.update_of_ne (Ne.symm hs)] using hinv.1
      · simp only [Function.update_of_ne (Ne.symm hs)]
        by_cases hts : t = s
        · subst hts
          simp only [Function.update_self]
          by_cases hk : k + 1 < R
          · simp only [next, if_pos hk, begins, if_neg hs]
            exact ⟨hk, by simp [hr.1.2]⟩
          · have hk' : k + 1 = R := by omega
            obtain ⟨hE, hp⟩ := hr.2 hk'
            have hf := stable hinv.1 hE
            simp only [next, if_neg hk, RankOk]
            refine ⟨hE, ?_, by simp [hr.1.2, hk']⟩
            rw [List.getLast?_concat, prefix_end (hf ▸ hp) he, hf]
        · simp only [Function.update_of_ne hts]
          exact hinv.2 t ht

theorem inv_start {path : List Char} {R : ℕ} (hR : 0 < R) {root : ι} {cs : ℕ → List Char} {c : List Char}
    (hcs : Texts path c R cs) : Inv R root cs (start root c) := by
  refine ⟨?_, fun s hs => ?_⟩
  · simp only [start, begins, if_true]
    exact ⟨hR, rfl, hcs.1.symm⟩
  · simp only [start, begins, if_neg hs]
    exact ⟨hR, rfl⟩

theorem inv_reach {path : List Char} {R : ℕ} (hR : 0 < R) {root : ι} {cs : ℕ → List Char} {c : List Char}
    (hcs : Texts path c R cs) {σ : St ι} (h : Reach path R root (start root c) σ) : Inv R root cs σ := by
  induction h with
  | refl => exact inv_start hR hcs
  | step _ hs ih => exact inv_step hcs ih hs

theorem Reach.trans {path : List Char} {R : ℕ} {root : ι} {σ τ υ : St ι} (h : Reach path R root σ τ)
    (h' : Reach path R root τ υ) : Reach path R root σ υ := by
  induction h' with
  | refl => exact h
  | step _ hs ih => exact ih.step hs

/-- C155: once a rank is past the reading of the mesh, the text it read last is the whole file as rank
zero left it, whatever the order in which the ranks moved; this is the mesh the run uses when it is read
once, and the one that replaces the first when it is read twice.  `_partial`: nothing is said of the first
of two readings, which fixes the attributes of materials and boundaries. -/
theorem C155_last_partial {path c : List Char} {R : ℕ} (hR : 0 < R) {root : ι} {cs : ℕ → List Char}
    (hcs : Texts path c R cs) {σ : St ι} (h : Reach path R root (start root c) σ) (s : ι)
    (hs : σ.phase s = .loaded) : (σ.texts s).getLast? = some (cs R) ∧ (σ.texts s).length = R ∧ σ.file = cs R := by
  have hinv := inv_reach hR hcs h
  by_cases hsr : s = root
  · subst hsr
    have h1 := hinv.1
    rw [hs] at h1
    simp only [RootOk] at h1
    obtain ⟨n, rfl⟩ : ∃ n, R = n + 1 := ⟨R - 1, by omega⟩
    exact ⟨by rw [h1.1, ← pre_succ, List.getLast?_concat], by rw [h1.1]; simp [pre], h1.2⟩
  · have h1 := hinv.2 s hsr
    rw [hs] at h1
    exact ⟨h1.2.1, h1.2.2, stable hinv.1 h1.1⟩

/-- C155: when the mesh is read once, every text any rank has read is the whole normalised file. -/
theorem C155_once {path c c' : List Char} (hfix : fixFile path c = some c') {root : ι} {σ : St ι}
    (h : Reach path 1 root (start root c) σ) (s : ι) : ∀ m ∈ σ.texts s, m = c' := by
  have hcs : Texts path c 1 (fun k => if k = 0 then c else c') :=
    ⟨rfl, fun k hk => by obtain rfl : k = 0 := by omega
                         simpa using hfix⟩
  have hinv := inv_reach Nat.one_pos hcs h
  intro m hm
  by_cases hsr : s = root
  · subst hsr
    have h1 := hinv.1
    cases hp : σ.phase s <;> rw [hp] at h1 <;> simp only [RootOk, Nat.lt_one_iff] at h1
    case loaded => rw [h1.1] at hm; simpa [pre] using hm
    all_goals rw [h1.2.1, h1.1] at hm; simp [pre] at hm
  · have h1 := hinv.2 s hsr
    cases hp : σ.phase s <;> rw [hp] at h1 <;> simp only [RankOk, Nat.lt_one_iff] at h1
    case loaded =>
      obtain ⟨x, hx⟩ := List.length_eq_one_iff.1 h1.2.2
      rw [hx] at hm h1
      simp only [List.getLast?_singleton, if_neg Nat.one_ne_zero, Option.some.injEq] at h1
      rw [List.mem_singleton.1 hm]
      exact h1.2.1
    case wait => rw [h1.1] at h1; rw [List.length_eq_zero_iff.1 h1.2] at hm; cases hm
    case read => rw [h1.1.1] at h1; rw [List.length_eq_zero_iff.1 h1.1.2] at hm; cases hm

/-- C155: rank zero, and so a run on a single rank, always reads whole files: its `k`-th text is the file
normalised `k` times. -/
theorem C155_root {path c : List Char} {R : ℕ} (hR : 0 < R) {root : ι} {cs : ℕ → List Char}
    (hcs : Texts path c R cs) {σ : St ι} (h : Reach path R root (start root c) σ) :
    ∃ n ≤ R, σ.texts root = (List.range n).map fun k => cs (k + 1) := by
  have h1 := (inv_reach hR hcs h).1
  cases hp : σ.phase root <;> rw [hp] at h1 <;> simp only [RootOk] at h1
  case loaded => exact ⟨R, le_rfl, h1.1⟩
  all_goals exact ⟨_, h1.1.le, h1.2.1⟩

/-- Rank zero alone rewrites the file, up to any point of the writing. -/
theorem rewriting {path : List Char} {R : ℕ} {root : ι} {c' a b : List Char} (σ : St ι) (k : ℕ)
    (hp : σ.phase root = .fix k) (ht : touches path σ.file = true) (hf : fixFile path σ.file = some c')
    (hab : c' = a ++ b) :
    Reach path R root σ ⟨a, Function.update σ.phase root (.write k b), σ.texts⟩ := by
  subst hab
  have h1 := Reach.refl.step (Step.plan (R := R) (σ := σ) k (a ++ b) hp ht hf)
  have h2 := h1.step (Step.empty k (a ++ b) (by simp))
  have h3 := h2.step (Step.put k a b (by simp))
  simpa using h3

theorem touched_of {path c c' : List Char} (hf : fixFile path c = some c') (ht : touches path c' = true) :
    touches path c = true := by
  by_contra hc
  have h1 := fix_untouched (by simpa using hc) (by rw [hf]; rfl)
  rw [hf] at h1
  rw [Option.some.inj h1] at ht
  exact hc ht

/-- C155 is violated: if the mesh is a Gmsh file that is read twice, then any rank but rank zero may come
to read, the first time, any beginning of the file, such as nothing at all: rank zero rewrites the file
for the second reading without waiting for the others to finish the first. -/
theorem C155_violated {path c c' c'' : List Char} (hf : fixFile path c = some c')
    (hf' : fixFile path c' = some c'') (ht : touches path c' = true) {R : ℕ} (hR : 2 ≤ R) {root s : ι}
    (hs : s ≠ root) {part : List Char} (hpart : part <+: c'') :
    ∃ σ, Reach path R root (start root c) σ ∧ σ.texts s = [part] := by
  obtain ⟨b, hb⟩ := hpart
  have h1 := rewriting (path := path) (R := R) (root := root) (start root c) 0 (by simp [start, begins])
    (touched_of hf ht) hf (a := c') (b := []) (by simp)
  have h2 := h1.step (Step.close 0 (by simp))
  have he : ∀ t, 1 ≤ entered R (Function.update (start root c).phase root (.wait 0) t) := by
    intro t
    by_cases htr : t = root
    · subst htr; simp [entered]
    · simp [Function.update_of_ne htr, start, begins, htr, entered]
  have h3 := h2.step (Step.go s 0 (by simp [Function.update_of_ne hs, start, begins, hs])
    (by simpa using he))
  have h4 := h3.step (Step.go root 0 (by simp [Function.update_of_ne hs.symm]) (by
    intro t
    by_cases hts : t = s
    · subst hts; simp [entered]
    · simpa [Function.update_of_ne hts] using he t))
  have h5 := h4.step (Step.get root 0 c'.length [] (by simp))
  have h6 := h5.step (Step.eof root 0 c' (by simp) (by simp))
  have h7 := h6.trans (rewriting _ 1 (by simp [next, begins, show 1 < R by omega]) ht hf'
    (a := part) (b := b) hb.symm)
  have h8 := h7.step (Step.get s 0 part.length [] (by simp [Function.update_of_ne hs]))
  have h9 := h8.step (Step.eof s 0 part (by simp) (by simp))
  exact ⟨_, h9, by simp [Function.update_of_ne hs, start]⟩

/-- C156: whenever the program is stopped while the mesh is being read, the file is the one the user gave,
normalised some number of times, or the beginning of such a one.  `_partial`: see `C156_violated`. -/
theorem C156_partial {path c : List Char} {R : ℕ} (hR : 0 < R) {root : ι} {cs : ℕ → List Char}
    (hcs : Texts path c R cs) {σ : St ι} (h : Reach path R root (start root c) σ) :
    σ.file = c ∨ ∃ k < R, σ.file <+: cs (k + 1) := by
  have h1 := (inv_reach hR hcs h).1
  have hk : ∀ k, k ≤ R → σ.file = cs k → σ.file = c ∨ ∃ k < R, σ.file <+: cs (k + 1) := by
    intro k hk he
    cases k with
    | zero => exact .inl (he.trans hcs.1)
    | succ k => exact .inr ⟨k, hk, he ▸ List.prefix_rfl⟩
  cases hp : σ.phase root <;> rw [hp] at h1 <;> simp only [RootOk] at h1
  case fix k => exact hk k h1.1.le h1.2.2
  case cut k o => exact hk k h1.1.le h1.2.2.1
  case write k r => exact .inr ⟨k, h1.1, ⟨r, h1.2.2⟩⟩
  case wait k => exact hk (k + 1) h1.1 h1.2.2
  case read k a => exact hk (k + 1) h1.1 h1.2.2.1
  case loaded => exact hk R le_rfl h1.2

/-- C156: a file that is not named as a Gmsh mesh, or has no elements, or has an element whose type is not
a number, is the same at every moment. -/
theorem C156_untouched {path c : List Char} (ht : touches path c = false) {R : ℕ} {root : ι} {σ : St ι}
    (h : Reach path R root (start root c) σ) : σ.file = c := by
  suffices hx : σ.file = c ∧ (∀ k o, σ.phase root ≠ .cut k o) ∧ ∀ k o, σ.phase root ≠ .write k o from hx.1
  induction h with
  | refl => simp [start, begins]
  | step _ hs ih =>
    obtain ⟨hc, hn, hw⟩ := ih
    cases hs with
    | same k h ht hf => exact ⟨hc, by simp, by simp⟩
    | fails k h hf => exact ⟨hc, by simp, by simp⟩
    | plan k out h ht' hf => rw [hc, ht] at ht'; cases ht'
    | empty k out h => exact (hn _ _ h).elim
    | put k a b h => exact (hw _ _ h).elim
    | close k h => exact (hw _ _ h).elim
    | go s k h hall =>
      refine ⟨hc, ?_, ?_⟩ <;> intro k' o <;> by_cases hs : root = s
      · subst hs; simp
      · simpa [Function.update_of_ne hs] using hn k' o
      · subst hs; simp
      · simpa [Function.update_of_ne hs] using hw k' o
    | get s k n acc h =>
      refine ⟨hc, ?_, ?_⟩ <;> intro k' o <;> by_cases hs : root = s
      · subst hs; simp
      · simpa [Function.update_of_ne hs] using hn k' o
      · subst hs; simp
      · simpa [Function.update_of_ne hs] using hw k' o
    | eof s k acc h he =>
      refine ⟨hc, ?_, ?_⟩ <;> intro k' o <;> by_cases hs : root = s
      · subst hs; simp only [Function.update_self, next, begins]; split <;> simp
      · simpa [Function.update_of_ne hs] using hn k' o
      · subst hs; simp only [Function.update_self, next, begins]; split <;> simp
      · simpa [Function.update_of_ne hs] using hw k' o

/-- C156 is violated: stopping the program at start can leave of a Gmsh mesh any beginning of the
normalised file, such as nothing at all. -/
theorem C156_violated {path c c' : List Char} (hf : fixFile path c = some c') (ht : touches path c = true)
    {R : ℕ} {root : ι} {part : List Char} (hpart : part <+: c') :
    ∃ σ, Reach path R root (start root c) σ ∧ σ.file = part := by
  obtain ⟨b, hb⟩ := hpart
  exact ⟨_, rewriting (start root c) 0 (by simp [start, begins]) ht hf hb.symm, rfl⟩

/-- What the file of two points, a line and two triangles becomes. -/
def twice (c c' c'' : List Char) : ℕ → List Char
  | 0 => c
  | 1 => c'
  | _ => c''

theorem twice_texts {path c c' c'' : List Char} (h : fixFile path c = some c')
    (h' : fixFile path c' = some c'') : Texts path c 2 (twice c c' c'') :=
  ⟨rfl, fun k hk => by
    obtain rfl | rfl : k = 0 ∨ k = 1 := by omega
    · exact h
    · exact h'⟩

/-- The Gmsh mesh of C16 is rewritten both times: the hypotheses of all theorems above hold of it. -/
example : ∃ c' c'', fixFile "box.msh".toList (unlines demo.lines) = some c' ∧
    fixFile "box.msh".toList c' = some c'' ∧ touches "box.msh".toList (unlines demo.lines) = true ∧
    touches "box.msh".toList c' = true ∧ c' ≠ [] ∧ c'' ≠ [] ∧
    Texts "box.msh".toList (unlines demo.lines) 2 (twice (unlines demo.lines) c' c'') := by
  have h1 : (fixFile "box.msh".toList (unlines demo.lines)).isSome := by decide +kernel
  obtain ⟨c', hc'⟩ := Option.isSome_iff_exists.1 h1
  have h2 : (fixFile "box.msh".toList (unlines demo.lines)).any (fun c' =>
      touches "box.msh".toList c' && decide (c' ≠ []) &&
        (fixFile "box.msh".toList c').any (fun c'' => decide (c'' ≠ []))) = true := by decide +kernel
  rw [hc'] at h2
  simp only [Option.any_some, Bool.and_eq_true, decide_eq_true_eq, Option.any_eq_true] at h2
  obtain ⟨⟨ht, hn⟩, c'', hc'', hn'⟩ := h2
  exact ⟨c', c'', hc', hc'', by decide +kernel, ht, hn, hn', twice_texts hc' hc''⟩

/-- A file that is not a Gmsh mesh is never touched. -/
example : touches "box.mesh".toList (unlines demo.lines) = false := by decide +kernel

end Dgtd.MeshRead
