/-
C179: the post-processor works on the surface data of the last run.  C180: surface probes on any number of ranks.
-/
import Verif.Spec.SurfaceDirs
import Verif.Props.Stats
import Verif.Props.NtffMesh
import Mathlib.Data.List.Sort

set_option linter.unusedSectionVars false

namespace Dgtd.SurfaceDirs
open Spec Dgtd.ProbeFiles.Spec
open Dgtd.ProbeFiles (Name Path FS Op exec execAll touch fileExec find_execAll interleaving_filter interleaving_mem execAll_append
  flatMap_filter_unique mapM_some_eq)
open Dgtd.TimeLoop (gate)
open Dgtd.Stats (tag)

variable {K G F T : Type} [Field K] [LinearOrder K]

/-! ### names of folders -/

lemma rankName_toList (r : Nat) : (rankName r).toList = 'r' :: 'a' :: 'n' :: 'k' :: Nat.toDigits 10 r := by
  unfold rankName
  rw [String.toList_append]
  simp [ToString.toString, Nat.repr]

lemma rankName_inj {a b : Nat} (h : rankName a = rankName b) : a = b := by
  have := congrArg String.toList h
  rw [rankName_toList, rankName_toList] at this
  simp only [List.cons.injEq, true_and] at this
  rw [← Nat.ofDigitChars_ten_toDigits (n := a), this, Nat.ofDigitChars_ten_toDigits]

lemma digits_cons (r : Nat) : ∃ d ds, Nat.toDigits 10 r = d :: ds ∧ (d :: ds).all Char.isDigit = true := by
  cases h : Nat.toDigits 10 r with
  | nil => exact absurd h (by simp)
  | cons d ds =>
    refine ⟨d, ds, rfl, ?_⟩
    rw [List.all_eq_true]
    intro c hc
    rw [← h] at hc
    exact Nat.isDigit_of_mem_toDigits (by decide) (by decide) hc

lemma isRank_rankName (r : Nat) : isRank (rankName r) = true := by
  obtain ⟨d, ds, h, ha⟩ := digits_cons r
  unfold isRank
  rw [rankName_toList, h]
  exact ha

lemma zero_le_digit {c : Char} (h : c.isDigit = true) : '0' ≤ c := by
  simp only [Char.isDigit, Bool.and_eq_true, decide_eq_true_eq] at h
  exact h.1

lemma rank_zero_le (r : Nat) : rankName 0 ≤ rankName r := by
  rw [String.le_iff_toList_le, rankName_toList, rankName_toList]
  obtain ⟨d, ds, h, ha⟩ := digits_cons r
  rw [h]
  have h0 : Nat.toDigits 10 0 = ['0'] := rfl
  rw [h0]
  rw [List.all_cons, Bool.and_eq_true] at ha
  have h1 := zero_le_digit ha.1
  refine not_lt.1 fun hlt => ?_
  simp only [List.cons_lt_cons_iff, lt_irrefl, true_and, false_or, List.not_lt_nil, and_false, or_false] at hlt
  exact absurd hlt (not_lt.2 h1)

/-- **C179**: the order in which the file system gives the folders does not matter. -/
theorem C179_order (l l' : List String) (h : l.Perm l') : findRankDirs l = findRankDirs l' := by
  unfold findRankDirs
  refine List.Perm.eq_of_pairwise (le := (· ≤ ·)) (fun a b _ _ h1 h2 => le_antisymm h1 h2) ?_ ?_ ?_
  · exact (List.pairwise_mergeSort (le := fun a b : String => decide (a ≤ b)) (by simpa using fun a b c => le_trans)
      (by simpa using fun a b => le_total a b) _).imp (by simp)
  · exact (List.pairwise_mergeSort (le := fun a b : String => decide (a ≤ b)) (by simpa using fun a b c => le_trans)
      (by simpa using fun a b => le_total a b) _).imp (by simp)
  · exact (List.mergeSort_perm _ _).trans ((h.filter _).trans (List.mergeSort_perm _ _).symm)

/-- If the folders of ranks are those of the ranks below `n`, they are found, each once, that of the first rank first. -/
lemma found (n : Nat) (hn : 0 < n) (l : List String) (hl : l.Nodup) (h : ∀ s, s ∈ l ∧ isRank s = true ↔ ∃ r < n, s = rankName r) :
    ∃ σ : List Nat, σ.Perm (List.range n) ∧ σ.head? = some 0 ∧ findRankDirs l = σ.map rankName := by
  have hp : (findRankDirs l).Perm ((List.range n).map rankName) := by
    refine (List.mergeSort_perm _ _).trans ?_
    refine (List.perm_ext_iff_of_nodup (hl.filter _) (List.nodup_range.map fun a b => rankName_inj)).2 fun s => ?_
    rw [List.mem_filter, h]
    simp only [List.mem_map, List.mem_range]
    exact ⟨fun ⟨r, hr, e⟩ => ⟨r, hr, e.symm⟩, fun ⟨r, hr, e⟩ => ⟨r, hr, e.symm⟩⟩
  have hm : ∀ s ∈ findRankDirs l, ∃ r, rankName r = s := fun s hs => by
    obtain ⟨r, _, e⟩ := List.mem_map.1 (hp.mem_iff.1 hs)
    exact ⟨r, e⟩
  obtain ⟨σ, hσ⟩ : ∃ σ : List Nat, σ.map rankName = findRankDirs l := by
    have : ∀ L : List String, (∀ s ∈ L, ∃ r, rankName r = s) → ∃ σ : List Nat, σ.map rankName = L := by
      intro L
      induction L with
      | nil => exact fun _ => ⟨[], rfl⟩
      | cons a L ih =>
        intro h
        obtain ⟨r, hr⟩ := h a (by simp)
        obtain ⟨σ, hσ⟩ := ih fun s hs => h s (List.mem_cons_of_mem _ hs)
        exact ⟨r :: σ, by simp [hr, hσ]⟩
    exact this _ hm
  have hperm : σ.Perm (List.range n) := by
    rw [← hσ] at hp
    exact (List.map_perm_map_iff fun a b => rankName_inj).1 hp
  refine ⟨σ, hperm, ?_, hσ.symm⟩
  have h0 : 0 ∈ σ := hperm.mem_iff.2 (List.mem_range.2 hn)
  cases hs : σ with
  | nil => rw [hs] at h0; cases h0
  | cons a σ' =>
    have hw : (findRankDirs l).Pairwise (· ≤ ·) :=
      (List.pairwise_mergeSort (le := fun a b : String => decide (a ≤ b)) (by simpa using fun a b c => le_trans)
        (by simpa using fun a b => le_total a b) _).imp (by simp)
    rw [← hσ, hs, List.map_cons, List.pairwise_cons] at hw
    rw [hs] at h0
    rcases List.mem_cons.1 h0 with e | e
    · rw [← e]; rfl
    · have h1 := hw.1 _ (List.mem_map_of_mem e)
      rw [rankName_inj (le_antisymm h1 (rank_zero_le a))]
      rfl

/-! ### the files of a run -/

lemma gate_recorded (final : K) (steps : Int) (i : Instant K F) (b : Bool) (h : gate final i.cycle steps i.time = some b) :
    b = true ↔ Spec.Recorded final steps i := by
  unfold gate TimeLoop.slack at h
  unfold Spec.Recorded
  split at h
  · next hs =>
    split at h
    · cases h
    · cases h
      rw [decide_eq_true_eq]
      exact ⟨Or.inl, fun h => h.elim id fun h => absurd h (not_lt.2 hs)⟩
  · next hs =>
    cases h
    simp only [true_iff]
    exact Or.inr (not_le.1 hs)

lemma base_inj {c c' : Bool} {n n' : Nat} {a a' b b' : String} (h : baseOf c n a b = baseOf c' n' a' b') :
    c = c' ∧ n = n' ∧ a = a' ∧ b = b' := by
  simp only [baseOf, List.cons.injEq, Name.dir.injEq, and_true, true_and] at h
  obtain ⟨h1, h2⟩ := Stats.C176_modes _ _ _ _ h.1
  exact ⟨h1, h2, h.2⟩

lemma data_inj {c c' : Bool} {n n' : Nat} {a a' b b' s s' : String} (h : dataFile (baseOf c n a b) s = dataFile (baseOf c' n' a' b') s') :
    c = c' ∧ n = n' ∧ a = a' ∧ b = b' ∧ s = s' := by
  simp only [dataFile, baseOf, List.cons_append, List.nil_append, List.cons.injEq, Name.dir.injEq, and_true, true_and] at h
  obtain ⟨h1, h2⟩ := Stats.C176_modes _ _ _ _ h.1
  exact ⟨h1, h2, h.2⟩

lemma mesh_inj {c c' : Bool} {n n' : Nat} {a a' b b' s s' : String} (h : meshFile (baseOf c n a b) s = meshFile (baseOf c' n' a' b') s') :
    c = c' ∧ n = n' ∧ a = a' ∧ b = b' ∧ s = s' := by
  simp only [meshFile, baseOf, List.cons_append, List.nil_append, List.cons.injEq, Name.dir.injEq, and_true, true_and] at h
  obtain ⟨h1, h2⟩ := Stats.C176_modes _ _ _ _ h.1
  exact ⟨h1, h2, h.2⟩

lemma mesh_ne_data {c c' : Bool} {n n' : Nat} {a a' b b' s s' : String} : meshFile (baseOf c n a b) s ≠ dataFile (baseOf c' n' a' b') s' := by
  simp [meshFile, dataFile, baseOf]

/-- The program of a rank, written without failures. -/
lemma prog_some {R : Run K G F} {r : Nat} {ops : List (Op (Chunk K G F T))} (h : prog R r = some ops) :
    (∀ p ∈ R.probes, ∃ g, p.part r = some g ∧ ∀ i ∈ R.instants, (gate R.final i.cycle p.steps i.time).isSome) ∧
    ops = (R.probes.flatMap fun p => (openOps (R.base p) r p).getD []) ++
      R.instants.flatMap fun i => R.probes.flatMap fun p => (updateOps (R.base p) R.final r i p).getD [] := by
  unfold prog at h
  obtain ⟨a, ha, h⟩ := Option.bind_eq_some_iff.1 h
  obtain ⟨b, hb, h⟩ := Option.bind_eq_some_iff.1 h
  cases h
  obtain ⟨ha1, ha2⟩ := mapM_some_eq _ [] _ _ ha
  obtain ⟨hb1, hb2⟩ := mapM_some_eq _ [] _ _ hb
  refine ⟨fun p hp => ?_, ?_⟩
  · have h1 := ha2 p hp
    cases hg : p.part r with
    | none => simp [openOps, hg] at h1
    | some g =>
      refine ⟨g, rfl, fun i hi => ?_⟩
      obtain ⟨L, hL⟩ := Option.isSome_iff_exists.1 (hb2 i hi)
      have h2 := (mapM_some_eq _ [] _ _ hL).2 p hp
      simpa [updateOps, hg] using h2
  · subst ha1 hb1
    congr 1
    rw [← List.flatMap_def]
    rw [List.flatMap_def, List.flatten_flatten, List.map_map]
    congr 1
    refine List.map_congr_left fun i hi => ?_
    obtain ⟨L, hL⟩ := Option.isSome_iff_exists.1 (hb2 i hi)
    have h2 := (mapM_some_eq _ [] _ _ hL).1
    simp only [Function.comp_apply, hL, Option.getD_some]
    rw [h2, List.flatMap_def]

lemma open_paths {base : Path} {r : Nat} {p : Probe G} {o : Op (Chunk K G F T)} (ho : o ∈ (openOps base r p).getD []) :
    ∃ q, creates o = some q ∧ (q = meshFile base (rankName r) ∨ q = dataFile base (rankName r)) ∧ ∀ x, touch x o = decide (q = x) := by
  unfold openOps at ho
  cases hg : p.part r with
  | none => simp [hg] at ho
  | some g =>
    simp only [hg, Option.map_some, Option.getD_some, List.mem_cons, List.not_mem_nil, or_false] at ho
    rcases ho with rfl | rfl
    · exact ⟨_, rfl, Or.inl rfl, fun x => rfl⟩
    · exact ⟨_, rfl, Or.inr rfl, fun x => rfl⟩

lemma update_paths {base : Path} {final : K} {r : Nat} {i : Instant K F} {p : Probe G} {o : Op (Chunk K G F T)}
    (ho : o ∈ (updateOps base final r i p).getD []) :
    ∃ q, creates o = some q ∧ (q = meshFile base (rankName r) ∨ q = dataFile base (rankName r)) ∧ ∀ x, touch x o = decide (q = x) := by
  unfold updateOps at ho
  cases hg : p.part r with
  | none => simp [hg] at ho
  | some g =>
    cases hb : gate final i.cycle p.steps i.time with
    | none => simp [hg, hb] at ho
    | some b =>
      cases b with
      | false => simp [hg, hb] at ho
      | true =>
        simp only [hg, hb, Option.map_some, Option.getD_some, if_true, List.mem_cons, List.not_mem_nil, or_false] at ho
        subst ho
        exact ⟨_, rfl, Or.inr rfl, fun x => rfl⟩

lemma prog_paths {R : Run K G F} {r : Nat} {o : Op (Chunk K G F T)} (ho : o ∈ (prog R r).getD []) :
    ∃ p ∈ R.probes, ∃ q, creates o = some q ∧ (q = meshFile (R.base p) (rankName r) ∨ q = dataFile (R.base p) (rankName r)) ∧
      ∀ x, touch x o = decide (q = x) := by
  cases h : prog (T := T) R r with
  | none => simp [h] at ho
  | some ops =>
    rw [h, Option.getD_some, (prog_some h).2, List.mem_append] at ho
    rcases ho with ho | ho
    · obtain ⟨p, hp, ho⟩ := List.mem_flatMap.1 ho
      exact ⟨p, hp, open_paths ho⟩
    · obtain ⟨i, _, ho⟩ := List.mem_flatMap.1 ho
      obtain ⟨p, hp, ho⟩ := List.mem_flatMap.1 ho
      exact ⟨p, hp, update_paths ho⟩

/-- Other ranks do not touch the files of a rank. -/
lemma prog_other {R : Run K G F} {r s : Nat} (hs : s ≠ r) (p : Probe G) (x : Path)
    (hx : x = meshFile (R.base p) (rankName r) ∨ x = dataFile (R.base p) (rankName r)) :
    ((prog (T := T) R s).getD []).filter (touch x) = [] := by
  rw [List.filter_eq_nil_iff]
  intro o ho ht
  obtain ⟨p', _, q, _, hq, e⟩ := prog_paths ho
  rw [e, decide_eq_true_eq] at ht
  subst ht
  rcases hq with rfl | rfl <;> rcases hx with hx | hx
  · exact hs (rankName_inj (mesh_inj hx).2.2.2.2)
  · exact mesh_ne_data hx
  · exact mesh_ne_data hx.symm
  · exact hs (rankName_inj (data_inj hx).2.2.2.2)

lemma fold_append (p : Path) (ls : List (Chunk K G F T)) (c : List (Chunk K G F T)) :
    (ls.map fun l => Op.append p l).foldl fileExec (some c) = some (c ++ ls) := by
  induction ls generalizing c with
  | nil => simp
  | cons l ls ih => simp [fileExec, ih]

/-- What a rank does to its two files of a probe. -/
lemma prog_own {R : Run K G F} (hd : (R.probes.map Probe.name).Nodup) {p : Probe G} (hp : p ∈ R.probes) {r : Nat}
    {ops : List (Op (Chunk K G F T))} (h : prog R r = some ops) {g : G} (hg : p.part r = some g) :
    ops.filter (touch (meshFile (R.base p) (rankName r))) = [.write (meshFile (R.base p) (rankName r)) [.mesh g]] ∧
    ops.filter (touch (dataFile (R.base p) (rankName r))) = .write (dataFile (R.base p) (rankName r)) [.geometry g] ::
      ((expected R p g r).snaps.map fun s => .snapshot s.1 s.2.1 s.2.2).map fun l => Op.append (dataFile (R.base p) (rankName r)) l := by
  obtain ⟨h1, h2⟩ := prog_some h
  have other : ∀ q : Probe G, q.name ≠ p.name → ∀ (o : Op (Chunk K G F T)) (y x : Path),
      (y = meshFile (R.base q) (rankName r) ∨ y = dataFile (R.base q) (rankName r)) →
      (x = meshFile (R.base p) (rankName r) ∨ x = dataFile (R.base p) (rankName r)) → (∀ x, touch x o = decide (y = x)) →
      touch x o = false := by
    intro q hq o y x hy hx e
    rw [e, decide_eq_false_iff_not]
    rintro rfl
    rcases hy with rfl | rfl <;> rcases hx with hx | hx
    · exact hq (mesh_inj hx).2.2.2.1
    · exact mesh_ne_data hx
    · exact mesh_ne_data hx.symm
    · exact hq (data_inj hx).2.2.2.1
  have key : ∀ x, (x = meshFile (R.base p) (rankName r) ∨ x = dataFile (R.base p) (rankName r)) →
      ops.filter (touch x) = ((openOps (R.base p) r p).getD []).filter (touch x) ++
        R.instants.flatMap fun i => ((updateOps (R.base p) R.final r i p).getD []).filter (touch x) := by
    intro x hx
    rw [h2, List.filter_append, flatMap_filter_unique Probe.name R.probes hd p hp, List.filter_flatMap]
    · congr 1
      refine List.flatMap_congr fun i hi => ?_
      rw [flatMap_filter_unique Probe.name R.probes hd p hp]
      intro q _ hq
      rw [List.filter_eq_nil_iff]
      intro o ho
      obtain ⟨y, _, hy, e⟩ := update_paths ho
      rw [other q hq o y x hy hx e]
      exact Bool.false_ne_true
    · intro q _ hq
      rw [List.filter_eq_nil_iff]
      intro o ho
      obtain ⟨y, _, hy, e⟩ := open_paths ho
      rw [other q hq o y x hy hx e]
      exact Bool.false_ne_true
  obtain ⟨g', hg', hgate⟩ := h1 p hp
  have md : meshFile (R.base p) (rankName r) ≠ dataFile (R.base p) (rankName r) := mesh_ne_data
  refine ⟨?_, ?_⟩
  · rw [key _ (Or.inl rfl)]
    have : (R.instants.flatMap fun i => ((updateOps (T := T) (R.base p) R.final r i p).getD []).filter
        (touch (meshFile (R.base p) (rankName r)))) = [] := by
      rw [List.flatMap_eq_nil_iff]
      intro i hi
      obtain ⟨b, hb⟩ := Option.isSome_iff_exists.1 (hgate i hi)
      cases b <;> simp [updateOps, hg, hb, touch, md.symm]
    rw [this, List.append_nil]
    simp [openOps, hg, touch, md.symm]
  · rw [key _ (Or.inr rfl)]
    have h3 : ((openOps (R.base p) r p).getD []).filter (touch (dataFile (R.base p) (rankName r))) =
        [(.write (dataFile (R.base p) (rankName r)) [.geometry g] : Op (Chunk K G F T))] := by
      simp [openOps, hg, touch, md]
    rw [h3, List.singleton_append]
    congr 1
    unfold expected
    clear h h2 h3 key
    generalize R.instants = is at *
    induction is with
    | nil => rfl
    | cons i is ih =>
      have ih := ih (fun q hq => by
        obtain ⟨g, a, b⟩ := h1 q hq
        exact ⟨g, a, fun j hj => b j (List.mem_cons_of_mem _ hj)⟩) fun j hj => hgate j (List.mem_cons_of_mem _ hj)
      rw [List.flatMap_cons, ih]
      obtain ⟨b, hb⟩ := Option.isSome_iff_exists.1 (hgate i (by simp))
      have hr := gate_recorded R.final p.steps i b hb
      cases b with
      | false =>
        rw [List.filter_cons_of_neg (by simpa using fun hc => Bool.noConfusion (hr.2 hc))]
        simp [updateOps, hg, hb]
      | true =>
        rw [List.filter_cons_of_pos (by simpa using hr.1 rfl)]
        simp [updateOps, hg, hb, touch]

lemma mapM_snaps (l : List (K × G × F)) : (l.map fun s => (.snapshot s.1 s.2.1 s.2.2 : Chunk K G F T)).mapM toSnap = some l := by
  induction l with
  | nil => rfl
  | cons a l ih => rw [List.map_cons, List.mapM_cons, ih]; rfl

/-- **C179**: after a run that came to its end, whatever was there before and in whatever order the ranks worked, the folder of every rank of
every surface probe holds the piece of the surface of that rank and exactly the snapshots of this run, in order. -/
theorem C179_files (R : Run K G F) (hd : (R.probes.map Probe.name).Nodup) (fs : FS (Chunk K G F T)) (tr : List (Nat × Op (Chunk K G F T)))
    (h : Finishes R tr) (p : Probe G) (hp : p ∈ R.probes) (r : Nat) (hr : r < R.n) :
    ∃ g, p.part r = some g ∧ readRank (after fs tr) (R.base p) (rankName r) = some (expected R p g r) := by
  obtain ⟨ops, ho⟩ := h.1 r hr
  obtain ⟨g, hg, _⟩ := (prog_some ho).1 p hp
  obtain ⟨h1, h2⟩ := prog_own hd hp ho hg
  refine ⟨g, hg, ?_⟩
  have e1 := interleaving_filter h.2 (touch (meshFile (R.base p) (rankName r))) r hr fun s _ hs => prog_other hs p _ (Or.inl rfl)
  have e2 := interleaving_filter h.2 (touch (dataFile (R.base p) (rankName r))) r hr fun s _ hs => prog_other hs p _ (Or.inr rfl)
  rw [ho, Option.getD_some] at e1 e2
  rw [h1] at e1
  rw [h2] at e2
  unfold meshFile at e1
  unfold dataFile at e2
  unfold readRank after
  rw [find_execAll, find_execAll, e1, e2, List.foldl_cons, fileExec, fold_append]
  simp only [List.foldl_cons, List.foldl_nil, fileExec, List.singleton_append]
  rw [mapM_snaps]
  rfl

/-! ### the folders that are there -/

/-- Every folder of a rank belongs to a rank that runs in this mode have. -/
def Tidy (fs : FS (Chunk K G F T)) : Prop :=
  ∀ cuda n case name s p, Assoc.find fs p ≠ none → InRankFolder cuda n case name s p → ∃ r < n, s = rankName r

lemma rank_of_path {c : Bool} {n : Nat} {a b s : String} {c' : Bool} {n' : Nat} {a' b' s' : String} {q : Path}
    (hq : q = meshFile (baseOf c n a b) s ∨ q = dataFile (baseOf c n a b) s) (h : InRankFolder c' n' a' b' s' q) : n = n' ∧ s = s' := by
  obtain ⟨_, t, ht⟩ := h
  rcases hq with rfl | rfl <;>
  · simp only [meshFile, dataFile, baseOf, List.cons_append, List.nil_append, List.cons.injEq, Name.dir.injEq, true_and] at ht
    obtain ⟨_, h2⟩ := Stats.C176_modes _ _ _ _ ht.1
    exact ⟨h2.symm, ht.2.2.2.1.symm⟩

lemma find_of_exec {fs : FS (Chunk K G F T)} {o : Op (Chunk K G F T)} {p : Path} (h : Assoc.find (exec fs o) p ≠ none) :
    Assoc.find fs p ≠ none ∨ creates o = some p := by
  have e : Assoc.find (execAll fs [o]) p ≠ none := h
  rw [find_execAll] at e
  by_cases ht : touch p o = true
  · cases o with
    | removeAll d => simp [ht, fileExec] at e
    | write q c => right; simp only [touch, decide_eq_true_eq] at ht; rw [← ht]; rfl
    | append q c => right; simp only [touch, decide_eq_true_eq] at ht; rw [← ht]; rfl
  · left
    simpa [List.filter_cons, ht] using e

lemma tidy_exec {fs : FS (Chunk K G F T)} (h : Tidy fs) {o : Op (Chunk K G F T)} (ho : Earlier o) : Tidy (exec fs o) := by
  intro cuda n case name s p hp hi
  rcases find_of_exec hp with hp | hp
  · exact h cuda n case name s p hp hi
  · rcases ho with ⟨c, m, a, b, r, hr, q, hq, hf⟩ | ho
    · rw [hp] at hq
      cases hq
      obtain ⟨rfl, rfl⟩ := rank_of_path hf hi
      exact ⟨r, hr, rfl⟩
    · exact absurd hi (ho p hp _ _ _ _ _)

lemma tidy_execAll {fs : FS (Chunk K G F T)} (h : Tidy fs) {ops : List (Op (Chunk K G F T))} (ho : ∀ o ∈ ops, Earlier o) : Tidy (execAll fs ops) := by
  unfold execAll
  induction ops generalizing fs with
  | nil => exact h
  | cons o ops ih => exact ih (tidy_exec h (ho o (by simp))) fun o' h' => ho o' (List.mem_cons_of_mem _ h')

lemma finishes_earlier {R : Run K G F} {tr : List (Nat × Op (Chunk K G F T))} (h : Finishes R tr) : ∀ o ∈ tr.map Prod.snd, Earlier o := by
  intro o ho
  obtain ⟨r, hr, ho⟩ := interleaving_mem h.2 o ho
  obtain ⟨p, _, q, hq, hf, _⟩ := prog_paths ho
  exact Or.inl ⟨R.cuda, R.n, R.case, p.name, r, hr, q, hq, hf⟩

lemma childDir_some {base p : Path} {s : String} (h : childDir base p = some s) : ∃ x t, p = base ++ .dir s :: x :: t := by
  unfold childDir at h
  split at h
  · next hp =>
    obtain ⟨t, rfl⟩ := List.isPrefixOf_iff_prefix.1 hp
    rw [List.drop_left] at h
    split at h
    · next s' x t' =>
      cases h
      exact ⟨x, t', rfl⟩
    · cases h
  · cases h

lemma childDir_own (base : Path) (s : String) (x : Name) : childDir base (base ++ [.dir s, x]) = some s := by
  unfold childDir
  rw [if_pos (List.isPrefixOf_iff_prefix.2 (List.prefix_append _ _)), List.drop_left]

/-- In a tidy file system that has the data of all ranks, these are the folders found. -/
lemma folders {fs : FS (Chunk K G F T)} (ht : Tidy fs) {cuda : Bool} {n : Nat} {case name : String} {l : List String}
    (hl : Listing fs (baseOf cuda n case name) l) (hf : ∀ r < n, Assoc.find fs (dataFile (baseOf cuda n case name) (rankName r)) ≠ none) (s : String) :
    s ∈ l ∧ isRank s = true ↔ ∃ r < n, s = rankName r := by
  constructor
  · rintro ⟨h1, h2⟩
    obtain ⟨p, hp, hc⟩ := (hl.2 s).1 h1
    obtain ⟨x, t, rfl⟩ := childDir_some hc
    exact ht cuda n case name s _ hp ⟨h2, x :: t, by simp [baseOf]⟩
  · rintro ⟨r, hr, rfl⟩
    exact ⟨(hl.2 _).2 ⟨_, hf r hr, childDir_own _ _ _⟩, isRank_rankName r⟩

/-- **C179**: whatever happened before — runs on any number of ranks, of any case, finished or not, and post-processing — after a run that came
to its end the post-processor works on exactly the data of this run: those of each of its ranks once, those of the first rank first. -/
theorem C179_reads (ops : List (Op (Chunk K G F T))) (he : ∀ o ∈ ops, Earlier o) (R : Run K G F) (hn : 0 < R.n)
    (hd : (R.probes.map Probe.name).Nodup) (tr : List (Nat × Op (Chunk K G F T))) (h : Finishes R tr) (p : Probe G) (hp : p ∈ R.probes)
    (l : List String) (hl : Listing (after (execAll [] ops) tr) (R.base p) l) :
    ∃ (g : Nat → G) (σ : List Nat), (∀ r < R.n, p.part r = some (g r)) ∧ σ.Perm (List.range R.n) ∧ σ.head? = some 0 ∧
      inputs (after (execAll [] ops) tr) (R.base p) l = some (σ.map fun r => expected R p (g r) r) := by
  have hr := fun r (hr : r < R.n) => C179_files R hd (execAll [] ops) tr h p hp r hr
  have : ∃ g : Nat → G, ∀ r < R.n, p.part r = some (g r) := by
    obtain ⟨g0, _⟩ := hr 0 hn
    exact ⟨fun r => (p.part r).getD g0, fun r h' => by obtain ⟨g, hg, _⟩ := hr r h'; simp [hg]⟩
  obtain ⟨g, hg⟩ := this
  have hread : ∀ r < R.n, readRank (after (execAll [] ops) tr) (R.base p) (rankName r) = some (expected R p (g r) r) := fun r h' => by
    obtain ⟨g', hg', e⟩ := hr r h'
    rw [hg r h'] at hg'
    cases hg'
    exact e
  have ht : Tidy (after (execAll [] ops) tr) :=
    tidy_execAll (tidy_execAll (fun _ _ _ _ _ _ h => absurd rfl h) he) (finishes_earlier h)
  have hf : ∀ r < R.n, Assoc.find (after (execAll [] ops) tr) (dataFile (R.base p) (rankName r)) ≠ none := fun r h' e => by
    have := hread r h'
    unfold readRank at this
    unfold dataFile at e
    rw [e] at this
    cases this
  obtain ⟨σ, h1, h2, h3⟩ := found R.n hn l hl.1 (folders ht hl hf)
  refine ⟨g, σ, hg, h1, h2, ?_⟩
  have hm : ∀ τ : List Nat, (∀ r ∈ τ, r < R.n) →
      (τ.map rankName).mapM (readRank (after (execAll [] ops) tr) (R.base p)) = some (τ.map fun r => expected R p (g r) r) := by
    intro τ
    induction τ with
    | nil => intro _; rfl
    | cons a τ ih =>
      intro hτ
      rw [List.map_cons, List.mapM_cons, hread a (hτ a (by simp)), ih fun r hr => hτ r (List.mem_cons_of_mem _ hr)]
      rfl
  have hm := hm σ fun r hr => List.mem_range.1 (h1.mem_iff.1 hr)
  unfold inputs
  rw [h3]
  split
  · next e =>
    rw [List.map_eq_nil_iff] at e
    rw [e] at h2
    cases h2
  · exact hm

/-! ### results -/

lemma results_earlier (cuda : Bool) (n : Nat) (case name : String) (ts : List (String × T × T)) :
    ∀ o ∈ resultOps (K := K) (G := G) (F := F) (baseOf cuda n case name) ts, Earlier o := by
  have nr : ∀ x : Name, ∀ d : String, isRank d = false → ∀ c n' a b s, ¬ InRankFolder c n' a b s (baseOf cuda n case name ++ [.dir d, x]) := by
    intro x d hd c n' a b s ⟨h, t, ht⟩
    simp only [baseOf, List.cons_append, List.nil_append, List.cons.injEq, Name.dir.injEq, true_and] at ht
    rw [ht.2.2.2.1, hd] at h
    cases h
  intro o ho
  right
  intro p hp
  unfold resultOps at ho
  rw [List.mem_append] at ho
  rcases ho with ho | ho
  · simp only [List.mem_cons, List.not_mem_nil, or_false] at ho
    rcases ho with rfl | rfl <;> cases hp
  · obtain ⟨t, _, ho⟩ := List.mem_flatMap.1 ho
    simp only [List.mem_cons, List.not_mem_nil, or_false] at ho
    rcases ho with rfl | rfl
    · cases hp
      exact nr _ _ rfl
    · cases hp
      exact nr _ _ rfl

/-- **C179**: so a request that names the mode and the case of that run works on the data of the run, and a request that names another
mode or case looks elsewhere. -/
theorem C179_request (ops : List (Op (Chunk K G F T))) (he : ∀ o ∈ ops, Earlier o) (R : Run K G F) (hn : 0 < R.n)
    (hd : (R.probes.map Probe.name).Nodup) (tr : List (Nat × Op (Chunk K G F T))) (h : Finishes R tr) (p : Probe G) (hp : p ∈ R.probes)
    (l : List String) (hl : Listing (after (execAll [] ops) tr) (requested (tag R.cuda R.n) R.case p.name) l) :
    (∃ (g : Nat → G) (σ : List Nat), (∀ r < R.n, p.part r = some (g r)) ∧ σ.Perm (List.range R.n) ∧ σ.head? = some 0 ∧
      inputs (after (execAll [] ops) tr) (requested (tag R.cuda R.n) R.case p.name) l = some (σ.map fun r => expected R p (g r) r)) ∧
    ∀ runmode casename, (runmode ≠ tag R.cuda R.n ∨ casename ≠ R.case) → ∀ name, requested runmode casename name ≠ R.base p := by
  refine ⟨C179_reads ops he R hn hd tr h p hp l hl, ?_⟩
  rintro m c hmc name e
  simp only [requested, Run.base, baseOf, List.cons.injEq, Name.dir.injEq, true_and, and_true] at e
  rcases hmc with h' | h'
  · exact h' e.1
  · exact h' e.2.1

/-- **C179**: after post-processing, the two folders of results hold exactly one file for every direction asked for, with the results of this
post-processing, whatever they held before; and the data of the ranks are as they were, so that it can be repeated. -/
theorem C179_results (cuda : Bool) (n : Nat) (case name : String) (fs : FS (Chunk K G F T)) (ts : List (String × T × T))
    (hd : (ts.map Prod.fst).Nodup) :
    (∀ t ∈ ts, Assoc.find (execAll fs (resultOps (baseOf cuda n case name) ts))
        (baseOf cuda n case name ++ [.dir "farfield", .dir ("farfieldData_" ++ t.1)]) = some [.table t.2.1] ∧
      Assoc.find (execAll fs (resultOps (baseOf cuda n case name) ts))
        (baseOf cuda n case name ++ [.dir "rcs", .dir ("rcsData_" ++ t.1)]) = some [.table t.2.2]) ∧
    (∀ q, Assoc.find (execAll fs (resultOps (baseOf cuda n case name) ts)) (baseOf cuda n case name ++ .dir "farfield" :: q) ≠ none →
      ∃ t ∈ ts, q = [.dir ("farfieldData_" ++ t.1)]) ∧
    (∀ q, Assoc.find (execAll fs (resultOps (baseOf cuda n case name) ts)) (baseOf cuda n case name ++ .dir "rcs" :: q) ≠ none →
      ∃ t ∈ ts, q = [.dir ("rcsData_" ++ t.1)]) ∧
    (∀ s, isRank s = true → readRank (execAll fs (resultOps (baseOf cuda n case name) ts)) (baseOf cuda n case name) s =
      readRank fs (baseOf cuda n case name) s) := by
  have app : ∀ a b c : String, a ++ b = a ++ c → b = c := fun a b c e => by
    have := congrArg String.toList e
    rw [String.toList_append, String.toList_append] at this
    exact String.toList_inj.1 (List.append_cancel_left this)
  have pre : ∀ (d : String) (q : Path), (baseOf cuda n case name ++ [Name.dir d]).isPrefixOf (baseOf cuda n case name ++ Name.dir d :: q) = true := by
    intro d q
    rw [List.isPrefixOf_iff_prefix]
    exact ⟨q, by simp⟩
  have npre : ∀ (d d' : String) (q : Path), d ≠ d' →
      (baseOf cuda n case name ++ [Name.dir d]).isPrefixOf (baseOf cuda n case name ++ Name.dir d' :: q) = false := by
    intro d d' q h
    rw [Bool.eq_false_iff]
    intro hp
    obtain ⟨t, ht⟩ := List.isPrefixOf_iff_prefix.1 hp
    rw [List.append_assoc] at ht
    have := List.append_cancel_left ht
    simp only [List.singleton_append, List.cons.injEq, Name.dir.injEq] at this
    exact h this.1
  have hne : ("farfield" : String) ≠ "rcs" := by decide
  have far : ∀ q, (resultOps (K := K) (G := G) (F := F) (baseOf cuda n case name) ts).filter (touch (baseOf cuda n case name ++ .dir "farfield" :: q)) =
      .removeAll (baseOf cuda n case name ++ [.dir "farfield"]) ::
        (ts.filter fun t => decide (q = [.dir ("farfieldData_" ++ t.1)])).map fun t =>
          .write (baseOf cuda n case name ++ [.dir "farfield", .dir ("farfieldData_" ++ t.1)]) [.table t.2.1] := by
    intro q
    unfold resultOps
    rw [List.filter_append, List.filter_cons_of_pos (by simp [touch]), List.filter_cons_of_neg (by simp [touch])]
    rw [List.filter_nil, List.singleton_append, List.filter_flatMap]
    congr 1
    clear hd
    induction ts with
    | nil => rfl
    | cons t ts ih =>
      rw [List.flatMap_cons, ih, List.filter_cons (x := t)]
      have e2 : touch (baseOf cuda n case name ++ .dir "farfield" :: q)
          (.write (baseOf cuda n case name ++ [.dir "rcs", .dir ("rcsData_" ++ t.1)]) [(.table t.2.2 : Chunk K G F T)]) = false := by
        simp [touch]
      by_cases hq : q = [.dir ("farfieldData_" ++ t.1)]
      · subst hq
        rw [List.filter_cons_of_pos (by simp [touch]), List.filter_cons_of_neg (by simp [e2])]
        simp
      · rw [List.filter_cons_of_neg (by simpa [touch] using fun e => hq e.symm), List.filter_cons_of_neg (by simp [e2])]
        simp [hq]
  have rcs : ∀ q, (resultOps (K := K) (G := G) (F := F) (baseOf cuda n case name) ts).filter (touch (baseOf cuda n case name ++ .dir "rcs" :: q)) =
      .removeAll (baseOf cuda n case name ++ [.dir "rcs"]) ::
        (ts.filter fun t => decide (q = [.dir ("rcsData_" ++ t.1)])).map fun t =>
          .write (baseOf cuda n case name ++ [.dir "rcs", .dir ("rcsData_" ++ t.1)]) [.table t.2.2] := by
    intro q
    unfold resultOps
    rw [List.filter_append, List.filter_cons_of_neg (by simp [touch]), List.filter_cons_of_pos (by simp [touch])]
    rw [List.filter_nil, List.singleton_append, List.filter_flatMap]
    congr 1
    clear hd far
    induction ts with
    | nil => rfl
    | cons t ts ih =>
      rw [List.flatMap_cons, ih, List.filter_cons (x := t)]
      have e2 : touch (baseOf cuda n case name ++ .dir "rcs" :: q)
          (.write (baseOf cuda n case name ++ [.dir "farfield", .dir ("farfieldData_" ++ t.1)]) [(.table t.2.1 : Chunk K G F T)]) = false := by
        simp [touch]
      rw [List.filter_cons_of_neg (by simp [e2])]
      by_cases hq : q = [.dir ("rcsData_" ++ t.1)]
      · subst hq
        rw [List.filter_cons_of_pos (by simp [touch])]
        simp
      · rw [List.filter_cons_of_neg (by simpa [touch] using fun e => hq e.symm)]
        simp [hq]
  have one : ∀ (f : String → String) (hf : ∀ a b, f a = f b → a = b) (t : String × T × T), t ∈ ts →
      (ts.filter fun u => decide (([.dir (f t.1)] : Path) = [.dir (f u.1)])) = [t] := by
    intro f hf t ht
    clear far rcs
    induction ts with
    | nil => cases ht
    | cons u ts ih =>
      rw [List.map_cons, List.nodup_cons] at hd
      rcases List.mem_cons.1 ht with rfl | ht
      · rw [List.filter_cons_of_pos (by simp)]
        congr 1
        rw [List.filter_eq_nil_iff]
        intro u hu
        simp only [List.cons.injEq, Name.dir.injEq, and_true, decide_eq_true_eq]
        exact fun e => hd.1 (hf _ _ e ▸ List.mem_map_of_mem hu)
      · rw [List.filter_cons_of_neg, ih hd.2 ht]
        simp only [List.cons.injEq, Name.dir.injEq, and_true, decide_eq_true_eq]
        exact fun e => hd.1 (hf _ _ e ▸ List.mem_map_of_mem ht)
  refine ⟨fun t ht => ⟨?_, ?_⟩, fun q hq => ?_, fun q hq => ?_, fun s hs => ?_⟩
  · rw [find_execAll, far, one _ (app _) t ht]
    rfl
  · rw [find_execAll, rcs, one _ (app _) t ht]
    rfl
  · rw [find_execAll, far] at hq
    cases hl : ts.filter fun t => decide (q = [.dir ("farfieldData_" ++ t.1)]) with
    | nil => rw [hl] at hq; exact absurd rfl hq
    | cons t l =>
      have := List.mem_filter.1 (hl ▸ List.mem_cons_self : t ∈ ts.filter _)
      exact ⟨t, this.1, by simpa using this.2⟩
  · rw [find_execAll, rcs] at hq
    cases hl : ts.filter fun t => decide (q = [.dir ("rcsData_" ++ t.1)]) with
    | nil => rw [hl] at hq; exact absurd rfl hq
    | cons t l =>
      have := List.mem_filter.1 (hl ▸ List.mem_cons_self : t ∈ ts.filter _)
      exact ⟨t, this.1, by simpa using this.2⟩
  · have hs1 : s ≠ "farfield" := by rintro rfl; cases hs
    have hs2 : s ≠ "rcs" := by rintro rfl; cases hs
    have same : ∀ x : Name, Assoc.find (execAll fs (resultOps (baseOf cuda n case name) ts)) (baseOf cuda n case name ++ [.dir s, x]) =
        Assoc.find fs (baseOf cuda n case name ++ [.dir s, x]) := by
      intro x
      rw [find_execAll]
      have : (resultOps (K := K) (G := G) (F := F) (baseOf cuda n case name) ts).filter (touch (baseOf cuda n case name ++ [.dir s, x])) = [] := by
        rw [List.filter_eq_nil_iff]
        intro o ho
        unfold resultOps at ho
        rw [List.mem_append] at ho
        rcases ho with ho | ho
        · simp only [List.mem_cons, List.not_mem_nil, or_false] at ho
          rcases ho with rfl | rfl
          · simp [touch, hs1.symm]
          · simp [touch, hs2.symm]
        · obtain ⟨t, _, ho⟩ := List.mem_flatMap.1 ho
          simp only [List.mem_cons, List.not_mem_nil, or_false] at ho
          rcases ho with rfl | rfl
          · simp [touch, hs1.symm]
          · simp [touch, hs2.symm]
      rw [this]
      rfl
    unfold readRank
    rw [same, same]

/-! ### where it fails -/

/-- **C180** does not hold for every division of the mesh: a rank whose part of the mesh has no face of the surface of a probe throws, whatever
else the case is, so that the run does not come to its end. -/
theorem C180_violated (R : Run K G F) (p : Probe G) (hp : p ∈ R.probes) (r : Nat) (hr : r < R.n) (h : p.part r = none) :
    ¬ ∃ tr : List (Nat × Op (Chunk K G F T)), Finishes R tr := by
  rintro ⟨tr, hf, _⟩
  obtain ⟨ops, ho⟩ := hf r hr
  obtain ⟨g, hg, _⟩ := (prog_some ho).1 p hp
  rw [h] at hg
  cases hg

lemma mapM_some_of {γ δ : Type} (f : γ → Option δ) (l : List γ) (h : ∀ x ∈ l, (f x).isSome) : ∃ L, l.mapM f = some L := by
  induction l with
  | nil => exact ⟨[], rfl⟩
  | cons a l ih =>
    obtain ⟨L, hL⟩ := ih fun x hx => h x (List.mem_cons_of_mem _ hx)
    obtain ⟨b, hb⟩ := Option.isSome_iff_exists.1 (h a (by simp))
    exact ⟨b :: L, by rw [List.mapM_cons, hb, hL]; rfl⟩

/-- Programs can be executed one after the other. -/
lemma sequential {β : Type} (n : Nat) (prog : Nat → List β) :
    Interleaving n prog ((List.range n).flatMap fun r => (prog r).map fun o => (r, o)) := by
  refine ⟨fun x hx => ?_, fun r hr => ?_⟩
  · obtain ⟨r, hr, hx⟩ := List.mem_flatMap.1 hx
    obtain ⟨o, _, rfl⟩ := List.mem_map.1 hx
    exact List.mem_range.1 hr
  · rw [flatMap_filter_unique id (List.range n) (by simpa using List.nodup_range) r (List.mem_range.2 hr)]
    · rw [List.filter_map, List.map_map]
      have : (prog r).filter ((fun x : Nat × β => decide (x.1 = r)) ∘ fun o => (r, o)) = prog r := by
        rw [List.filter_eq_self]
        simp
      rw [this]
      exact List.map_id _
    · intro q _ hq
      rw [List.filter_eq_nil_iff]
      intro x hx
      obtain ⟨o, _, rfl⟩ := List.mem_map.1 hx
      simpa using hq

/-- **C180**, as far as it goes: when every rank has a piece of the surface of every probe, no rank throws. -/
theorem C180_partial (R : Run K G F) (hs : ∀ p ∈ R.probes, p.steps ≠ 0) (hp : ∀ p ∈ R.probes, ∀ r < R.n, p.part r ≠ none) :
    ∃ tr : List (Nat × Op (Chunk K G F T)), Finishes R tr := by
  refine ⟨_, fun r hr => ?_, sequential R.n _⟩
  obtain ⟨a, ha⟩ := mapM_some_of (fun p => openOps (K := K) (F := F) (T := T) (R.base p) r p) R.probes fun p h => by
    obtain ⟨g, hg⟩ := Option.ne_none_iff_exists'.1 (hp p h r hr)
    simp [openOps, hg]
  obtain ⟨b, hb⟩ := mapM_some_of (fun i => R.probes.mapM fun p => updateOps (T := T) (R.base p) R.final r i p) R.instants fun i _ => by
    obtain ⟨L, hL⟩ := mapM_some_of (fun p => updateOps (T := T) (R.base p) R.final r i p) R.probes fun p h => by
      obtain ⟨g, hg⟩ := Option.ne_none_iff_exists'.1 (hp p h r hr)
      simp only [updateOps, hg, Option.isSome_map]
      unfold gate
      split
      · rw [if_neg (hs p h)]; rfl
      · rfl
    rw [hL]
    rfl
  exact ⟨a.flatten ++ b.flatten.flatten, by unfold prog; rw [ha]; simp only [Option.bind_eq_bind, Option.bind_some]; rw [hb]; rfl⟩

/-- **C180**, exactly: with the meshes of the ranks, in two or three dimensions, the run comes to its end if and only if on every rank some
boundary element has a tag of every probe. -/
theorem C180_exact_partial {L : Type} [Field L] [LinearOrder L] [IsStrictOrderedRing L] (dim : Nat) (hdim : dim = 2 ∨ dim = 3) (R : Run K G F)
    (mesh : Probe G → Nat → SubMesh.Mesh L)
    (hpart : ∀ p ∈ R.probes, ∀ r < R.n, (p.part r = none ↔ SubMesh.ntffConstruct dim (mesh p r) = none)) (hs : ∀ p ∈ R.probes, p.steps ≠ 0) :
    (∃ tr : List (Nat × Op (Chunk K G F T)), Finishes R tr) ↔ ∀ p ∈ R.probes, ∀ r < R.n, ∃ f ∈ (mesh p r).bdr, f.marked = true := by
  have key : ∀ p ∈ R.probes, ∀ r < R.n, (p.part r = none ↔ ∀ f ∈ (mesh p r).bdr, f.marked = false) := fun p hp r hr => by
    rw [hpart p hp r hr, SubMesh.C85_rejects]
    exact or_iff_right (by omega)
  constructor
  · intro h p hp r hr
    by_contra hc
    push Not at hc
    refine C180_violated R p hp r hr ((key p hp r hr).2 fun f hf => ?_) h
    exact Bool.eq_false_iff.2 (hc f hf)
  · intro h
    refine C180_partial R hs fun p hp r hr hn => ?_
    obtain ⟨f, hf, hm⟩ := h p hp r hr
    rw [(key p hp r hr).1 hn f hf] at hm
    cases hm

/-- A probe on two ranks that both have a piece of the surface; twelve of them to see that the order of names is not that of numbers. -/
def far (n : Nat) : Run ℚ String Nat where
  cuda := false
  n := n
  case := "sphere"
  final := 2
  probes := [⟨"box", 2, fun r => some ("piece " ++ toString r)⟩, ⟨"ball", 1, fun _ => some "ball"⟩]
  instants := [⟨0, 0, fun r => r⟩, ⟨1, 1, fun r => r + 10⟩, ⟨2, 2, fun r => r + 20⟩]

/-- The ranks one after the other. -/
def inTurn (R : Run ℚ String Nat) : List (Nat × Op (Chunk ℚ String Nat Nat)) :=
  (List.range R.n).flatMap fun r => ((prog R r).getD []).map fun o => (r, o)

lemma far_finishes : Finishes (far 2) (inTurn (far 2)) := by
  refine ⟨?_, ?_, ?_⟩
  · have h : ∀ r < 2, (prog (T := Nat) (far 2) r).isSome = true := by decide +kernel
    exact fun r hr => Option.isSome_iff_exists.1 (h r hr)
  · decide +kernel
  · decide +kernel

/-- What an earlier run on two ranks may have left, and one on twelve. -/
def old : List (Op (Chunk ℚ String Nat Nat)) :=
  [.write (dataFile (baseOf false 2 "sphere" "box") (rankName 1)) [.geometry "old"],
   .write (dataFile (baseOf false 12 "sphere" "box") (rankName 11)) [.geometry "old"]]

lemma old_earlier : ∀ o ∈ old, Earlier o := by
  intro o ho
  simp only [old, List.mem_cons, List.not_mem_nil, or_false] at ho
  rcases ho with rfl | rfl
  · exact Or.inl ⟨_, _, _, _, 1, by decide, _, rfl, Or.inr rfl⟩
  · exact Or.inl ⟨_, _, _, _, 11, by decide, _, rfl, Or.inr rfl⟩

/-- There is a listing: the premises of `C179_reads` are met. -/
lemma listing_exists (fs : FS (Chunk K G F T)) (base : Path) : ∃ l, Listing fs base l := by
  refine ⟨((fs.map Prod.fst).filterMap (childDir base)).dedup, List.nodup_dedup _, fun s => ?_⟩
  have hm : ∀ p, p ∈ fs.map Prod.fst ↔ Assoc.find fs p ≠ none := by
    intro p
    induction fs with
    | nil => simp [Assoc.find]
    | cons f fs ih =>
      obtain ⟨a, b⟩ := f
      by_cases h : a = p
      · simp [Assoc.find, h]
      · simp [Assoc.find, h, Ne.symm h] at ih ⊢
        exact ih
  simp only [List.mem_dedup, List.mem_filterMap, hm]

example := fun l hl => C179_reads old old_earlier (far 2) (by decide) (by decide) (inTurn (far 2)) far_finishes _ List.mem_cons_self l hl

example := fun l hl => C179_request old old_earlier (far 2) (by decide) (by decide) (inTurn (far 2)) far_finishes _ List.mem_cons_self l hl

/-- **C179** is not true of runs that stop: a run that stops before all ranks have opened their files leaves the data of two runs, and the post-processor takes them together. -/
theorem C179_stopped_violated : ∃ (first second : List (Nat × Op (Chunk ℚ String Nat Nat))) (R : Run ℚ String Nat) (p : Probe String),
    Finishes R first ∧ second <+: inTurn R ∧ p ∈ R.probes ∧
    readRank (after (after [] first) second) (R.base p) (rankName 0) = some ⟨"piece 0", "piece 0", []⟩ ∧
    readRank (after (after [] first) second) (R.base p) (rankName 1) =
      some ⟨"piece 1", "piece 1", [(0, "piece 1", 1), (2, "piece 1", 21)]⟩ := by
  refine ⟨inTurn (far 2), (inTurn (far 2)).take 2, far 2, ⟨"box", 2, fun r => some ("piece " ++ toString r)⟩, far_finishes,
    List.take_prefix _ _, List.mem_cons_self, ?_, ?_⟩
  · decide +kernel
  · decide +kernel

example := C179_results false 2 "sphere" "box" (after (execAll [] old) (inTurn (far 2))) [("Th_0_Phi_0_dgtd.dat", 1, 2), ("Th_1_Phi_0_dgtd.dat", 3, 4)]
  (by decide)

example := C180_partial (T := Nat) (far 12) (by decide) fun p hp r _ => by
  simp only [far, List.mem_cons, List.not_mem_nil, or_false] at hp
  rcases hp with rfl | rfl <;> simp

/-- A surface that is wholly in the part of the first rank. -/
def corner (n : Nat) : Run ℚ String Nat := { far n with probes := [⟨"box", 1, fun r => if r = 0 then some "box" else none⟩] }

/-- It can be used on one rank, not on two. -/
example : (∃ tr : List (Nat × Op (Chunk ℚ String Nat Nat)), Finishes (corner 1) tr) ∧
    ¬ ∃ tr : List (Nat × Op (Chunk ℚ String Nat Nat)), Finishes (corner 2) tr := by
  refine ⟨C180_partial (corner 1) ?_ ?_, C180_violated (corner 2) _ List.mem_cons_self 1 (by decide) rfl⟩
  · intro p hp
    simp only [corner, List.mem_cons, List.not_mem_nil, or_false] at hp
    subst hp
    decide
  · intro p hp r hr
    simp only [corner, List.mem_cons, List.not_mem_nil, or_false] at hp
    subst hp
    have : r = 0 := by simp only [corner, far] at hr; omega
    simp [this]

/-- The two triangles that one rank has, with the surface, and the one that the other has, without. -/
example : ¬ ∃ tr : List (Nat × Op (Chunk ℚ String Nat Nat)), Finishes (corner 2) tr := by
  rw [C180_exact_partial 2 (Or.inl rfl) (corner 2) (fun _ r => if r = 0 then SubMesh.exNtff else { SubMesh.exNtff with bdr := [] })]
  · intro h
    obtain ⟨f, hf, _⟩ := h _ List.mem_cons_self 1 (by decide)
    simp at hf
  · intro p hp r hr
    simp only [corner, List.mem_cons, List.not_mem_nil, or_false] at hp
    subst hp
    have hr : r < 2 := hr
    match r, hr with
    | 0, _ => decide +kernel
    | 1, _ => decide +kernel
  · intro p hp
    simp only [corner, List.mem_cons, List.not_mem_nil, or_false] at hp
    subst hp
    decide

end Dgtd.SurfaceDirs
