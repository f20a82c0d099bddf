/-
C176: the statistics files of a run.
-/
import Verif.Spec.Stats
import Verif.Props.ProbeFiles
import Mathlib.Algebra.BigOperators.Group.Finset.Basic
import Mathlib.Algebra.BigOperators.Ring.Finset

set_option linter.unusedSectionVars false

namespace Dgtd.Stats
open Spec Dgtd.ProbeFiles.Spec
open Dgtd.ProbeFiles (Name Path FS Op exec execAll touch fileExec find_execAll interleaving_filter interleaving_mem execAll_append)

variable {K : Type} [Field K]

lemma toString_inj {a b : Nat} (h : toString a = toString b) : a = b := by
  have h' : Nat.toDigits 10 a = Nat.toDigits 10 b := by
    have := congrArg String.toList h
    simpa [ToString.toString, Nat.repr] using this
  rw [← Nat.ofDigitChars_ten_toDigits (n := a), h', Nat.ofDigitChars_ten_toDigits]

lemma head_ne {a b : Char} (hab : a ≠ b) (x y : List Char) {s t : String} (hs : s.toList = a :: x) (ht : t.toList = b :: y) : s ≠ t := by
  intro h
  rw [h, ht] at hs
  exact hab (List.cons.inj hs).1.symm

/-- **C176**: runs on different numbers of ranks or devices have different directories. -/
theorem C176_modes (c c' : Bool) (n n' : Nat) (h : tag c n = tag c' n') : c = c' ∧ n = n' := by
  have hc : ∀ m : Nat, ("cuda-" ++ toString m).toList = 'c' :: ("uda-".toList ++ (toString m).toList) := fun m => by
    rw [String.toList_append]; rfl
  have hm : ∀ m : Nat, ("mpi-" ++ toString m).toList = 'm' :: ("pi-".toList ++ (toString m).toList) := fun m => by
    rw [String.toList_append]; rfl
  have hs : "single-core".toList = 's' :: "ingle-core".toList := rfl
  have app : ∀ p : String, ∀ a b : Nat, p ++ toString a = p ++ toString b → a = b := fun p a b e => by
    have := congrArg String.toList e
    rw [String.toList_append, String.toList_append] at this
    exact toString_inj (String.toList_inj.1 (List.append_cancel_left this))
  unfold tag at h
  cases c <;> cases c' <;> simp only [Bool.false_eq_true, if_false, if_true] at h
  · split at h <;> split at h
    · rename_i a b
      exact ⟨rfl, a.trans b.symm⟩
    · exact absurd h (head_ne (by decide) _ _ hs (hm _))
    · exact absurd h (head_ne (by decide) _ _ (hm _) hs)
    · exact ⟨rfl, app _ _ _ h⟩
  · split at h
    · exact absurd h (head_ne (by decide) _ _ hs (hc _))
    · exact absurd h (head_ne (by decide) _ _ (hm _) (hc _))
  · split at h
    · exact absurd h (head_ne (by decide) _ _ (hc _) hs)
    · exact absurd h (head_ne (by decide) _ _ (hc _) (hm _))
  · exact ⟨rfl, app _ _ _ h⟩

lemma prog_eq (R : Run K) (r : Nat) : prog R.cuda R.n R.case R.light R.final R.dt (R.layers r) r (R.own r) =
    (report R r).map fun b => .append (fileOf R.cuda R.n R.case r) b := by
  have : (R.layers r).flatMap (initOps true R.cuda R.n R.case r) = [] := by
    simp [initOps]
  unfold prog
  rw [this]
  cases h : (R.own r).operator <;>
    simp [initOps, runOps, report, statsOf, nanoseconds, average, pow_two, h]

lemma touch_own (R : Run K) (r s : Nat) (b : Block K) : touch (fileOf R.cuda R.n R.case r) (.append (fileOf R.cuda R.n R.case s) b) = decide (s = r) := by
  simp [touch, fileOf]

lemma fold_append (p : Path) (l : List (Block K)) : ∀ (c : List (Block K)),
    (l.map fun b => (.append p b : Op (Block K))).foldl fileExec (some c) = some (c ++ l) := by
  induction l with
  | nil => simp
  | cons b l ih => intro c; simp [fileExec, ih]

lemma fold_none (p : Path) (l : List (Block K)) :
    (l.map fun b => (.append p b : Op (Block K))).foldl fileExec none = if l = [] then none else some l := by
  cases l with
  | nil => rfl
  | cons b l => simp [fileExec, fold_append]

lemma dir_prefix (R : Run K) (r : Nat) : (dirOf R.cuda R.n R.case).isPrefixOf (fileOf R.cuda R.n R.case r) = true := by
  simp [fileOf, List.isPrefixOf_iff_prefix]

/-- After the barrier nothing is left in the directory. -/
lemma cleared (R : Run K) (hn : 0 < R.n) {A : List (Nat × Op (Block K))} (hA : Interleaving R.n (clearOps R.cuda R.n R.case) A) (fs : FS (Block K))
    (p : Path) (hp : (dirOf R.cuda R.n R.case).isPrefixOf p = true) : Assoc.find (after fs A) p = none := by
  unfold after
  have hf := interleaving_filter hA (touch p) 0 hn fun s _ hs => by simp [clearOps, hs]
  rw [find_execAll, hf]
  simp [clearOps, touch, hp, fileExec]

/-- **C176**: after a run, whatever was there before and in whatever order the ranks work, the file of every rank has exactly the two blocks of
this run, ranks the run does not have left none, and no file elsewhere is changed. -/
theorem C176_files (R : Run K) (hn : 0 < R.n) (fs : FS (Block K)) (tr : List (Nat × Op (Block K))) (h : Executes R tr) :
    (∀ r < R.n, Assoc.find (after fs tr) (fileOf R.cuda R.n R.case r) = some (report R r)) ∧
    (∀ p, (dirOf R.cuda R.n R.case).isPrefixOf p = true → (∀ r < R.n, p ≠ fileOf R.cuda R.n R.case r) → Assoc.find (after fs tr) p = none) ∧
    (∀ p, (dirOf R.cuda R.n R.case).isPrefixOf p = false → Assoc.find (after fs tr) p = Assoc.find fs p) := by
  obtain ⟨A, B, rfl, hA, hB⟩ := h
  have split : after fs (A ++ B) = after (after fs A) B := by
    unfold after
    rw [List.map_append, execAll_append]
  refine ⟨fun r hr => ?_, fun p hp hne => ?_, fun p hp => ?_⟩
  · rw [split]
    have h0 := cleared R hn hA fs _ (dir_prefix R r)
    have hf := interleaving_filter hB (touch (fileOf R.cuda R.n R.case r)) r hr fun s _ hs => by
      rw [prog_eq, List.filter_map, List.map_eq_nil_iff, List.filter_eq_nil_iff]
      intro b _
      simp [touch_own, hs]
    have ht : (((report R r).map fun b => (.append (fileOf R.cuda R.n R.case r) b : Op (Block K))).filter (touch (fileOf R.cuda R.n R.case r))) =
        (report R r).map fun b => .append (fileOf R.cuda R.n R.case r) b := by
      rw [List.filter_eq_self]
      intro o ho
      obtain ⟨b, _, rfl⟩ := List.mem_map.1 ho
      simp [touch_own]
    rw [prog_eq, ht] at hf
    rw [after, find_execAll, h0, hf, fold_none]
    simp [report]
  · rw [split]
    have h0 := cleared R hn hA fs _ hp
    have hf : (B.map Prod.snd).filter (touch p) = [] := by
      rw [List.filter_eq_nil_iff]
      intro o ho
      obtain ⟨r, hr, ho⟩ := interleaving_mem hB o ho
      rw [prog_eq] at ho
      obtain ⟨b, _, rfl⟩ := List.mem_map.1 ho
      simpa [touch] using fun e => hne r hr e.symm
    rw [after, find_execAll, h0, hf]
    rfl
  · have hf : ((A ++ B).map Prod.snd).filter (touch p) = [] := by
      rw [List.filter_eq_nil_iff]
      intro o ho
      rw [List.map_append, List.mem_append] at ho
      rcases ho with ho | ho
      · obtain ⟨r, hr, ho⟩ := interleaving_mem hA o ho
        unfold clearOps at ho
        split at ho
        · simp only [List.mem_cons, List.not_mem_nil, or_false] at ho
          subst ho
          simp [touch, hp]
        · simp at ho
      · obtain ⟨r, hr, ho⟩ := interleaving_mem hB o ho
        rw [prog_eq] at ho
        obtain ⟨b, _, rfl⟩ := List.mem_map.1 ho
        intro ht
        simp only [touch, decide_eq_true_eq] at ht
        rw [← ht, dir_prefix] at hp
        exact absurd hp (by decide)
    rw [after, find_execAll, hf]
    rfl

lemma filter_map_ops {p : Path} {l : List (Block K)} {o : List (Op (Block K))} (h : o <+: l.map fun b => .append p b) :
    ∃ l', l' <+: l ∧ o = l'.map fun b => .append p b := by
  obtain ⟨l', h1, h2⟩ := List.prefix_map_iff.1 h
  exact ⟨l', h1, h2⟩

/-- **C176**: a run that is stopped at any point leaves in the file of a rank what was there before, or only blocks of this run, in order: never a
mixture. -/
theorem C176_stopped (R : Run K) (hn : 0 < R.n) (fs : FS (Block K)) (tr rest : List (Nat × Op (Block K))) (h : Executes R (tr ++ rest)) (r : Nat)
    (hr : r < R.n) : Assoc.find (after fs tr) (fileOf R.cuda R.n R.case r) = Assoc.find fs (fileOf R.cuda R.n R.case r) ∨
      ∃ l, l <+: report R r ∧ Assoc.find (after fs tr) (fileOf R.cuda R.n R.case r) = if l = [] then none else some l := by
  obtain ⟨A, B, e, hA, hB⟩ := h
  rcases List.append_eq_append_iff.1 e with ⟨a, rfl, rfl⟩ | ⟨b, rfl, rfl⟩
  · have hf : ((tr.map Prod.snd).filter (touch (fileOf R.cuda R.n R.case r))) = [] ∨
        ((tr.map Prod.snd).filter (touch (fileOf R.cuda R.n R.case r))) = [.removeAll (dirOf R.cuda R.n R.case)] := by
      have hf := interleaving_filter hA (touch (fileOf R.cuda R.n R.case r)) 0 hn fun s _ hs => by simp [clearOps, hs]
      have : clearOps (K := K) R.cuda R.n R.case 0 = [.removeAll (dirOf R.cuda R.n R.case)] := rfl
      rw [this, List.filter_singleton, List.map_append, List.filter_append] at hf
      simp only [touch, dir_prefix, if_true] at hf
      rcases List.append_eq_singleton_iff.1 hf with h | h
      · exact Or.inl h.1
      · exact Or.inr h.1
    rw [after, find_execAll]
    rcases hf with hf | hf
    · left; rw [hf]; rfl
    · right
      exact ⟨[], List.nil_prefix, by rw [hf]; rfl⟩
  · right
    have h0 := cleared R hn hA fs _ (dir_prefix R r)
    have hf := interleaving_filter hB (touch (fileOf R.cuda R.n R.case r)) r hr fun s _ hs => by
      rw [prog_eq, List.filter_map, List.map_eq_nil_iff, List.filter_eq_nil_iff]
      intro b _
      simp [touch_own, hs]
    have ht : (((report R r).map fun b => (.append (fileOf R.cuda R.n R.case r) b : Op (Block K))).filter (touch (fileOf R.cuda R.n R.case r))) =
        (report R r).map fun b => .append (fileOf R.cuda R.n R.case r) b := by
      rw [List.filter_eq_self]
      intro o ho
      obtain ⟨b, _, rfl⟩ := List.mem_map.1 ho
      simp [touch_own]
    rw [prog_eq, ht, List.map_append, List.filter_append] at hf
    obtain ⟨l, hl, e⟩ := filter_map_ops (l := report R r) ⟨_, hf⟩
    refine ⟨l, hl, ?_⟩
    have split : after fs (A ++ b) = after (after fs A) b := by
      unfold after
      rw [List.map_append, execAll_append]
    rw [split, after, find_execAll, h0, e, fold_none]

/-- The elements that a partition gives a rank. -/
lemma parts_length {α : Type} (n : Nat) (l : List (α × Nat)) (h : ∀ x ∈ l, x.2 < n) :
    ∑ r ∈ Finset.range n, (l.filter fun x => x.2 = r).length = l.length := by
  induction l with
  | nil => simp
  | cons x l ih =>
    have hx := h x List.mem_cons_self
    have e : ∀ r, ((x :: l).filter fun x => x.2 = r).length = (if x.2 = r then 1 else 0) + (l.filter fun x => x.2 = r).length := by
      intro r
      by_cases hr : x.2 = r <;> simp [List.filter_cons, hr, add_comm]
    simp only [e, Finset.sum_add_distrib, ih fun y hy => h y (List.mem_cons_of_mem _ hy)]
    simp [hx, add_comm]

lemma parts_sum (n : Nat) (l : List (K × Nat)) (h : ∀ x ∈ l, x.2 < n) :
    ∑ r ∈ Finset.range n, ((l.filter fun x => x.2 = r).map Prod.fst).sum = (l.map Prod.fst).sum := by
  induction l with
  | nil => simp
  | cons x l ih =>
    have hx := h x List.mem_cons_self
    have e : ∀ r, (((x :: l).filter fun x => x.2 = r).map Prod.fst).sum =
        (if x.2 = r then x.1 else 0) + ((l.filter fun x => x.2 = r).map Prod.fst).sum := by
      intro r
      by_cases hr : x.2 = r <;> simp [List.filter_cons, hr]
    simp only [e, Finset.sum_add_distrib, ih fun y hy => h y (List.mem_cons_of_mem _ hy)]
    simp [hx]

/-- **C176**: the files of the ranks together tell the number of elements of the mesh and their total size, however the mesh is divided; each gives
the final time and the time step in nanoseconds. `mesh` lists the size of every element and its rank. -/
theorem C176_totals [CharZero K] (R : Run K) (hn : 0 < R.n) (fs : FS (Block K)) (tr : List (Nat × Op (Block K))) (h : Executes R tr)
    (mesh : List (K × Nat)) (hp : ∀ x ∈ mesh, x.2 < R.n) (hd : ∀ r < R.n, (R.own r).sizes = (mesh.filter fun x => x.2 = r).map Prod.fst) :
    ∃ (i : Nat → Block K) (s : Nat → Stats K), (∀ r < R.n, Assoc.find (after fs tr) (fileOf R.cuda R.n R.case r) = some [i r, .run (s r)]) ∧
      ∑ r ∈ Finset.range R.n, (s r).elements = mesh.length ∧
      ∑ r ∈ Finset.range R.n, ((s r).elements : K) * (s r).avgSize = (mesh.map Prod.fst).sum ∧
      ∀ r, (s r).finalNs = R.final / R.light * 10 ^ 9 ∧ (s r).stepNs = R.dt / R.light * 10 ^ 9 := by
  refine ⟨_, _, fun r hr => (C176_files R hn fs tr h).1 r hr, ?_, ?_, fun r => ⟨rfl, rfl⟩⟩
  · rw [← parts_length R.n mesh hp]
    refine Finset.sum_congr rfl fun r hr => ?_
    dsimp only
    rw [hd r (Finset.mem_range.1 hr), List.length_map]
  · rw [← parts_sum R.n mesh hp]
    refine Finset.sum_congr rfl fun r hr => ?_
    dsimp only
    rw [← hd r (Finset.mem_range.1 hr)]
    by_cases h0 : (R.own r).sizes = []
    · simp [h0]
    · have : ((R.own r).sizes.length : K) ≠ 0 := by simpa using h0
      field_simp

/-! ### a case -/

/-- Three elements on two ranks, after a run of the same kind that left more. -/
def two : Run ℚ where
  cuda := false
  n := 2
  case := "sphere"
  light := 3
  final := 6
  dt := 1 / 2
  layers := fun _ => [⟨[1], 4, none, 1, 10, 1, 10⟩]
  own := fun r => if r = 0 then ⟨[1, 2], 8, some (8, 12, 30), 5, 100, 7, 200⟩ else ⟨[4], 4, some (4, 8, 16), 6, 101, 8, 201⟩

def twoTrace : List (Nat × Op (Block ℚ)) :=
  [(0, .removeAll (dirOf false 2 "sphere"))] ++
  ([(1, .append (fileOf false 2 "sphere" 1) (.init 6 101)), (0, .append (fileOf false 2 "sphere" 0) (.init 5 100)),
    (0, .append (fileOf false 2 "sphere" 0) (.run (statsOf 3 6 (1 / 2) (two.own 0)))),
    (1, .append (fileOf false 2 "sphere" 1) (.run (statsOf 3 6 (1 / 2) (two.own 1))))])

lemma two_executes : Executes two twoTrace := by
  refine ⟨_, _, rfl, ⟨?_, ?_⟩, ⟨?_, ?_⟩⟩
  · decide +kernel
  · decide +kernel
  · decide +kernel
  · decide +kernel

example := C176_totals two (by decide) [(fileOf false 2 "sphere" 0, [.init 1 2]), (fileOf false 2 "sphere" 5, [.init 1 2])] twoTrace two_executes
  [(1, 0), (4, 1), (2, 0)] (by decide) (by decide +kernel)

example : Assoc.find (after [(fileOf false 2 "sphere" 5, [.init 1 2])] twoTrace) (fileOf false 2 "sphere" 5) = none := by decide +kernel

end Dgtd.Stats
