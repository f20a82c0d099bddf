/-
C38, C39, C40, C43, C44, C60, C86: tables of the nodal operator.
-/
import Verif.Spec.NodalMaps
import Mathlib.Data.List.Nodup
import Mathlib.Data.List.Sort
import Mathlib.Tactic.Ring
import Mathlib.Tactic.Linarith
import Mathlib.Algebra.Order.Field.Rat

set_option linter.unusedSectionVars false

namespace Dgtd.NodalMaps
open Spec

/-! ### C38 -/

theorem idxOf_rotate (b : List Nat) (hn : b.Nodup) (k : Nat) (hk : k < b.length) :
    b.idxOf ((b.rotate k).getD 0 0) = k := by
  have : (b.rotate k).getD 0 0 = b[k] := by
    have h0 : 0 < (b.rotate k).length := by rw [List.length_rotate]; omega
    rw [List.getD_eq_getElem?_getD, List.getElem?_eq_getElem h0, Option.getD_some, List.getElem_rotate]
    congr 1
    rw [Nat.zero_add, Nat.mod_eq_of_lt hk]
  rw [this, hn.idxOf_getElem]

theorem sameTriangle_iff (a b : List Nat) (hb : b.Nodup) (hl : b ≠ []) :
    sameTriangle a b = true ↔ ∃ k, a = b.rotate k := by
  unfold sameTriangle
  simp only
  constructor
  · intro h
    split_ifs at h
    exact ⟨_, by simpa using h⟩
  · rintro ⟨k, rfl⟩
    have hpos : 0 < b.length := List.length_pos_iff.2 hl
    have hm : k % b.length < b.length := Nat.mod_lt _ hpos
    rw [← List.rotate_mod]
    rw [idxOf_rotate b hb _ hm, if_neg (by omega)]
    simp

/-- **C38**: on segments and triangles with distinct vertices the comparison says whether the orientations are the same. -/
theorem C38_iff (a b : Elem) (ha : Valid a) (hb : Valid b) (hg : a.geo = b.geo) :
    ∃ r, sameOrientation a b = some r ∧ (r = true ↔ Same a b) := by
  unfold sameOrientation Same
  rw [if_neg (by simpa using hg)]
  rcases ha.2 with ⟨h, _⟩ | ⟨h, _⟩
  · rw [h]
    exact ⟨_, rfl, by simp⟩
  · rw [h]
    refine ⟨_, rfl, sameTriangle_iff _ _ hb.1 ?_⟩
    rcases hb.2 with ⟨h', _⟩ | ⟨_, h'⟩
    · rw [← hg, h] at h'; cases h'
    · intro hc; rw [hc] at h'; cases h'

/-- **C38**: elements of different types, and other types, are rejected. -/
theorem C38_rejects (a b : Elem) : sameOrientation a b = none ↔ a.geo ≠ b.geo ∨ a.geo = .other := by
  unfold sameOrientation
  by_cases h : a.geo = b.geo
  · rw [if_neg (by simpa using h)]
    cases hg : a.geo <;> simp [← h, hg]
  · rw [if_pos h]; simp [h]

theorem same_refl (a : Elem) : Same a a := by
  unfold Same
  split
  · exact ⟨0, by simp⟩
  · rfl

theorem same_symm (a b : Elem) (hg : a.geo = b.geo) (h : Same a b) : Same b a := by
  unfold Same at *
  rw [← hg]
  split at h
  · rename_i hx
    obtain ⟨k, hk⟩ := h
    have : b.verts ~r a.verts := ⟨k, hk.symm⟩
    obtain ⟨j, hj⟩ := this.symm
    exact ⟨j, hj.symm⟩
  · exact h.symm

theorem same_trans (a b c : Elem) (hg : a.geo = b.geo) (h : Same a b) (h' : Same b c) : Same a c := by
  unfold Same at *
  rw [← hg] at h'
  cases hx : a.geo <;> rw [hx] at h h'
  · exact h.trans h'
  · obtain ⟨k, hk⟩ := h
    obtain ⟨j, hj⟩ := h'
    exact ⟨j + k, by rw [hk, hj, List.rotate_rotate]⟩
  · exact h.trans h'

/-- **C38**: the comparison is an equivalence on segments and on triangles. -/
theorem C38_equivalence (g : Geo) :
    (∀ a, Valid a → a.geo = g → sameOrientation a a = some true) ∧
    (∀ a b, Valid a → Valid b → a.geo = g → b.geo = g → sameOrientation a b = some true → sameOrientation b a = some true) ∧
    (∀ a b c, Valid a → Valid b → Valid c → a.geo = g → b.geo = g → c.geo = g →
      sameOrientation a b = some true → sameOrientation b c = some true → sameOrientation a c = some true) := by
  have key : ∀ a b, Valid a → Valid b → a.geo = b.geo → (sameOrientation a b = some true ↔ Same a b) := by
    intro a b ha hb hg
    obtain ⟨r, hr, hi⟩ := C38_iff a b ha hb hg
    rw [hr, ← hi]; simp
  refine ⟨fun a ha _ => (key a a ha ha rfl).2 (same_refl a), ?_, ?_⟩
  · intro a b ha hb h1 h2 h
    have hg : a.geo = b.geo := by rw [h1, h2]
    exact (key b a hb ha hg.symm).2 (same_symm a b hg ((key a b ha hb hg).1 h))
  · intro a b c ha hb hc h1 h2 h3 h h'
    have hab : a.geo = b.geo := by rw [h1, h2]
    have hbc : b.geo = c.geo := by rw [h2, h3]
    exact (key a c ha hc (hab.trans hbc)).2 (same_trans a b c hab ((key a b ha hb hab).1 h) ((key b c hb hc hbc).1 h'))

example : Valid ⟨.triangle, [4, 7, 2]⟩ ∧ Valid ⟨.triangle, [2, 4, 7]⟩ ∧ Valid ⟨.triangle, [2, 7, 4]⟩ ∧
    sameOrientation ⟨.triangle, [4, 7, 2]⟩ ⟨.triangle, [2, 4, 7]⟩ = some true ∧
    sameOrientation ⟨.triangle, [4, 7, 2]⟩ ⟨.triangle, [2, 7, 4]⟩ = some false := by
  refine ⟨⟨by decide, .inr ⟨rfl, rfl⟩⟩, ⟨by decide, .inr ⟨rfl, rfl⟩⟩, ⟨by decide, .inr ⟨rfl, rfl⟩⟩, by decide, by decide⟩

/-- Repeated vertices: the same cycle is told apart. -/
theorem C38_repeated_vertices : Same ⟨.triangle, [0, 0, 1]⟩ ⟨.triangle, [0, 1, 0]⟩ ∧
    sameOrientation ⟨.triangle, [0, 0, 1]⟩ ⟨.triangle, [0, 1, 0]⟩ = some false :=
  ⟨⟨2, by decide⟩, by decide⟩

/-! ### C39 -/

variable {K : Type} [Field K] [LinearOrder K]

theorem lexLt_cons (p : Nat × Nat) (ps : List (Nat × Nat)) (f g : Nat → Nat → K) :
    lexLt (p :: ps) f g = true ↔ f p.1 p.2 < g p.1 p.2 ∨ (f p.1 p.2 = g p.1 p.2 ∧ lexLt ps f g = true) := by
  have e : lexLt (p :: ps) f g = if f p.1 p.2 ≠ g p.1 p.2 then decide (f p.1 p.2 < g p.1 p.2) else lexLt ps f g := rfl
  rw [e]
  by_cases h : f p.1 p.2 = g p.1 p.2
  · simp [h]
  · simp [h]

theorem lexLt_irrefl (ps : List (Nat × Nat)) (f : Nat → Nat → K) : lexLt ps f f = false := by
  induction ps with
  | nil => rfl
  | cons p ps ih => unfold lexLt; simp [ih]

theorem lexLt_trans (ps : List (Nat × Nat)) (f g h : Nat → Nat → K) (h1 : lexLt ps f g = true) (h2 : lexLt ps g h = true) :
    lexLt ps f h = true := by
  induction ps with
  | nil => cases h1
  | cons p ps ih =>
    rw [lexLt_cons] at *
    rcases h1 with h1 | ⟨e1, h1⟩
    · rcases h2 with h2 | ⟨e2, _⟩
      · exact .inl (h1.trans h2)
      · exact .inl (e2 ▸ h1)
    · rcases h2 with h2 | ⟨e2, h2⟩
      · exact .inl (e1 ▸ h2)
      · exact .inr ⟨e1.trans e2, ih h1 h2⟩

theorem lexLt_total (ps : List (Nat × Nat)) (f g : Nat → Nat → K) (h1 : lexLt ps f g = false) (h2 : lexLt ps g f = false) :
    ∀ p ∈ ps, f p.1 p.2 = g p.1 p.2 := by
  induction ps with
  | nil => simp
  | cons p ps ih =>
    have n1 : ¬ lexLt (p :: ps) f g = true := by simp [h1]
    have n2 : ¬ lexLt (p :: ps) g f = true := by simp [h2]
    rw [lexLt_cons] at n1 n2
    push Not at n1 n2
    have e : f p.1 p.2 = g p.1 p.2 := le_antisymm n2.1 n1.1
    intro q hq
    rcases List.mem_cons.1 hq with rfl | hq
    · exact e
    · exact ih (by simpa using n1.2 e) (by simpa using n2.2 e.symm) q hq

theorem lexLt_congr (ps : List (Nat × Nat)) (f g f' g' : Nat → Nat → K) (h : ∀ p ∈ ps, f p.1 p.2 = f' p.1 p.2)
    (h' : ∀ p ∈ ps, g p.1 p.2 = g' p.1 p.2) : lexLt ps f g = lexLt ps f' g' := by
  induction ps with
  | nil => rfl
  | cons p ps ih =>
    unfold lexLt
    rw [h p (by simp), h' p (by simp), ih (fun q hq => h q (by simp [hq])) (fun q hq => h' q (by simp [hq]))]

theorem mem_positions (r c i j : Nat) : (i, j) ∈ positions r c ↔ i < r ∧ j < c := by
  simp [positions]

theorem matLt_iff (l r : Mat K) : matLt l r = true ↔
    l.rows < r.rows ∨ (l.rows = r.rows ∧ (l.cols < r.cols ∨ (l.cols = r.cols ∧ lexLt (positions l.rows l.cols) l.val r.val = true))) := by
  unfold matLt
  split_ifs with h1 h2 h3 h4
  · simp [h1]
  · simp [h1]; omega
  · simp [h3, h1]; omega
  · simp; omega
  · have e1 : l.rows = r.rows := by omega
    have e2 : l.cols = r.cols := by omega
    simp [e1, e2]

/-- **C39**: the comparison is a strict weak order, and the matrices it does not tell apart are the equal ones. -/
theorem C39_order :
    (∀ a : Mat K, matLt a a = false) ∧
    (∀ a b c : Mat K, matLt a b = true → matLt b c = true → matLt a c = true) ∧
    (∀ a b : Mat K, (matLt a b = false ∧ matLt b a = false) ↔ Equal a b) := by
  refine ⟨fun a => ?_, fun a b c h1 h2 => ?_, fun a b => ?_⟩
  · by_contra h
    rw [Bool.not_eq_false, matLt_iff] at h
    simp [lexLt_irrefl] at h
  · rw [matLt_iff] at *
    rcases h1 with h1 | ⟨e1, h1⟩
    · rcases h2 with h2 | ⟨e2, h2⟩
      · exact .inl (by omega)
      · exact .inl (by omega)
    · rcases h2 with h2 | ⟨e2, h2⟩
      · exact .inl (by omega)
      · refine .inr ⟨e1.trans e2, ?_⟩
        rcases h1 with h1 | ⟨f1, h1⟩
        · rcases h2 with h2 | ⟨f2, h2⟩
          · exact .inl (by omega)
          · exact .inl (by omega)
        · rcases h2 with h2 | ⟨f2, h2⟩
          · exact .inl (by omega)
          · rw [← e1, ← f1] at h2
            exact .inr ⟨f1.trans f2, lexLt_trans _ _ _ _ h1 h2⟩
  · constructor
    · rintro ⟨h1, h2⟩
      have n1 : ¬ matLt a b = true := by simp [h1]
      have n2 : ¬ matLt b a = true := by simp [h2]
      rw [matLt_iff] at n1 n2
      push Not at n1 n2
      have er : a.rows = b.rows := by omega
      have n1' := n1.2 er
      have n2' := n2.2 er.symm
      have ec : a.cols = b.cols := by omega
      have m1 := n1'.2 ec
      have m2 := n2'.2 ec.symm
      rw [← er, ← ec] at m2
      refine ⟨er, ec, fun i hi j hj => ?_⟩
      exact lexLt_total _ _ _ (by simpa using m1) (by simpa using m2) (i, j) ((mem_positions _ _ _ _).2 ⟨hi, hj⟩)
    · rintro ⟨er, ec, hv⟩
      have hp : ∀ p ∈ positions a.rows a.cols, a.val p.1 p.2 = b.val p.1 p.2 := by
        rintro ⟨i, j⟩ hp
        obtain ⟨hi, hj⟩ := (mem_positions _ _ _ _).1 hp
        exact hv i hi j hj
      constructor
      · by_contra h
        rw [Bool.not_eq_false, matLt_iff] at h
        rcases h with h | ⟨_, h | ⟨_, h⟩⟩
        · omega
        · omega
        · rw [lexLt_congr _ a.val b.val b.val b.val hp (fun _ _ => rfl), lexLt_irrefl] at h; cases h
      · by_contra h
        rw [Bool.not_eq_false, matLt_iff] at h
        rcases h with h | ⟨_, h | ⟨_, h⟩⟩
        · omega
        · omega
        · rw [← er, ← ec, lexLt_congr _ b.val a.val b.val b.val (fun _ _ => rfl) hp, lexLt_irrefl] at h; cases h

theorem equal_refl (a : Mat K) : Equal a a := ⟨rfl, rfl, fun _ _ _ _ => rfl⟩

theorem equal_symm {a b : Mat K} (h : Equal a b) : Equal b a :=
  ⟨h.1.symm, h.2.1.symm, fun i hi j hj => (h.2.2 i (h.1 ▸ hi) j (h.2.1 ▸ hj)).symm⟩

theorem find_spec (s : List (Mat K)) (m : Mat K) :
    (∀ x, find s m = some x → x ∈ s ∧ Equal x m) ∧ (find s m = none → ∀ x ∈ s, ¬ Equal x m) := by
  unfold find
  constructor
  · intro x h
    have := List.find?_some h
    simp only [Bool.and_eq_true, Bool.not_eq_true'] at this
    exact ⟨List.mem_of_find?_eq_some h, (C39_order.2.2 x m).1 this⟩
  · intro h x hx he
    have := List.find?_eq_none.1 h x hx
    have hc := (C39_order.2.2 x m).2 he
    simp [hc] at this

theorem storeMat_spec (s : List (Mat K)) (m : Mat K) (hs : s.Pairwise fun a b => ¬ Equal a b) :
    Equal (storeMat s m).2 m ∧ (storeMat s m).2 ∈ (storeMat s m).1 ∧
    ((storeMat s m).1.Pairwise fun a b => ¬ Equal a b) ∧ ∀ x ∈ s, x ∈ (storeMat s m).1 := by
  unfold storeMat
  cases h : find s m with
  | none =>
    have h' := (find_spec s m).2 h
    refine ⟨equal_refl m, by simp, List.pairwise_cons.2 ⟨fun x hx he => h' x hx (equal_symm he), hs⟩, fun x hx => by simp [hx]⟩
  | some x =>
    obtain ⟨h1, h2⟩ := (find_spec s m).1 x h
    exact ⟨h2, h1, hs, fun _ hx => hx⟩

/-- **C39**: whatever the sequence of matrices, each one is given a stored matrix with exactly its size and entries; no two
stored matrices are equal; and stored matrices stay. -/
theorem C39_stored (s ms : List (Mat K)) (hs : s.Pairwise fun a b => ¬ Equal a b) :
    List.Forall₂ (fun x m => Equal x m ∧ x ∈ (storeAll s ms).1) (storeAll s ms).2 ms ∧
    ((storeAll s ms).1.Pairwise fun a b => ¬ Equal a b) ∧ ∀ x ∈ s, x ∈ (storeAll s ms).1 := by
  induction ms generalizing s with
  | nil => exact ⟨.nil, hs, fun _ h => h⟩
  | cons m ms ih =>
    obtain ⟨h1, h2, h3, h4⟩ := storeMat_spec s m hs
    obtain ⟨i1, i2, i3⟩ := ih (storeMat s m).1 h3
    exact ⟨.cons ⟨h1, i3 _ h2⟩ i1, i2, fun x hx => i3 x (h4 x hx)⟩

/-- A second matrix with the entries of the first one is not stored again. -/
example : (storeAll [] [⟨1, 2, fun _ j => (j : ℚ)⟩, ⟨1, 2, fun i j => (i + j : ℚ)⟩, ⟨2, 1, fun i j => (i + j : ℚ)⟩]).1.length = 2 := by
  decide +kernel

/-! ### C40 -/

theorem columns_removeColumn (m : Mat K) (c : Nat) (hc : c < m.cols) :
    columns (removeColumn m c) = (columns m).eraseIdx c := by
  unfold columns removeColumn
  apply List.ext_getElem
  · rw [List.length_eraseIdx_of_lt (by simpa using hc)]
    simp
  · intro i h1 h2
    simp only [List.length_map, List.length_range] at h1
    rw [List.getElem_eraseIdx]
    by_cases h : i < c
    · rw [dif_pos h]
      simp only [List.getElem_map, List.getElem_range]
      apply List.map_congr_left
      intro r _
      rw [if_neg (by omega)]
    · rw [dif_neg h]
      simp only [List.getElem_map, List.getElem_range]
      apply List.map_congr_left
      intro r _
      rw [if_pos (by omega)]

theorem erase_foldr {α : Type} (P : α → Bool) (l : List α) :
    ((List.range l.length).filter fun c => (l[c]?.map P).getD false).foldr (fun c l => l.eraseIdx c) l =
      l.filter fun x => !P x := by
  induction l with
  | nil => rfl
  | cons x l ih =>
    have shift : ∀ (is : List Nat) (t : List α),
        (is.map Nat.succ).foldr (fun c l => l.eraseIdx c) (x :: t) = x :: is.foldr (fun c l => l.eraseIdx c) t := by
      intro is t
      induction is with
      | nil => rfl
      | cons i is ih => simp [ih]
    rw [List.length_cons, List.range_succ_eq_map, List.filter_cons]
    have hf : (List.map Nat.succ (List.range l.length)).filter (fun c => ((x :: l)[c]?.map P).getD false) =
        ((List.range l.length).filter fun c => (l[c]?.map P).getD false).map Nat.succ := by
      rw [List.filter_map]
      congr 1
    rw [hf]
    cases hx : P x
    · simp only [List.getElem?_cons_zero, Option.map_some, Option.getD_some, hx, Bool.false_eq_true, if_false]
      rw [shift, ih]
      simp [hx]
    · simp only [List.getElem?_cons_zero, Option.map_some, Option.getD_some, hx, if_true]
      rw [List.foldr_cons, shift, ih]
      simp [hx]

/-- **C40**: removing the zero columns leaves exactly the columns with an entry of magnitude at least 1e-6, in order, with
all their entries. -/
theorem C40_columns (m : Mat K) :
    columns (removeZeroColumns m) = (columns m).filter fun col => col.any fun x => decide (1 / 1000000 ≤ |x|) := by
  have hfold : ∀ (is : List Nat), is.Pairwise (· < ·) → (∀ i ∈ is, i < m.cols) →
      columns (is.foldr (fun c m => removeColumn m c) m) = is.foldr (fun c l => l.eraseIdx c) (columns m) ∧
      (is.foldr (fun c m => removeColumn m c) m).cols = m.cols - is.length ∧
      (∀ k, (∀ i ∈ is, k < i) → k < m.cols → k < (is.foldr (fun c m => removeColumn m c) m).cols) := by
    intro is
    induction is with
    | nil => intro _ _; exact ⟨rfl, by simp, fun k _ hk => by simpa using hk⟩
    | cons i is ih =>
      intro hp hb
      rw [List.pairwise_cons] at hp
      obtain ⟨h1, h2, h3⟩ := ih hp.2 fun j hj => hb j (by simp [hj])
      have hi := h3 i hp.1 (hb i (by simp))
      refine ⟨?_, ?_, ?_⟩
      · rw [List.foldr_cons, columns_removeColumn _ _ hi, h1]; rfl
      · rw [List.foldr_cons]
        show (List.foldr (fun c m => removeColumn m c) m is).cols - 1 = _
        rw [h2, List.length_cons]; omega
      · intro k hk hkc
        rw [List.foldr_cons]
        show k < (List.foldr (fun c m => removeColumn m c) m is).cols - 1
        have := hk i (by simp)
        omega
  unfold removeZeroColumns
  rw [(hfold _ (List.Pairwise.filter _ List.pairwise_lt_range) (by
    intro i hi; exact List.mem_range.1 (List.mem_filter.1 hi).1)).1]
  have hlen : (columns m).length = m.cols := by simp [columns]
  have := erase_foldr (fun col : List K => col.all fun x => !decide (1 / 1000000 ≤ |x|)) (columns m)
  rw [hlen] at this
  have hz : (List.range m.cols).filter (fun c => isZeroColumn m c) =
      (List.range m.cols).filter fun c => ((columns m)[c]?.map fun col : List K => col.all fun x => !decide (1 / 1000000 ≤ |x|)).getD false := by
    apply List.filter_congr
    intro c hc
    have hc := List.mem_range.1 hc
    unfold columns isZeroColumn
    rw [List.getElem?_map, List.getElem?_range hc]
    simp [List.all_map, Function.comp_def]
  rw [hz, this]
  apply List.filter_congr
  intro col _
  rw [Bool.eq_iff_iff]
  simp

example : columns (removeZeroColumns ⟨2, 4, fun i j => if j = 1 ∨ (i = 1 ∧ j = 3) then (5 : ℚ) else 0⟩) = [[5, 5], [0, 5]] := by
  decide +kernel

/-! ### C43 -/

theorem conn_length (n p : Nat) : (conn1D n p).length = 2 * (n - 1) + 2 ∧ (line n p).length = 2 * (n - 1) + 2 := by
  constructor
  · unfold conn1D
    simp [List.length_flatMap, Nat.mul_comm]
  · unfold line
    simp [List.length_flatMap, Nat.mul_comm]

/-- **C43** fails in general: the one-dimensional connectivity is right exactly for one element of order zero and for two
elements of order one. -/
theorem C43_violated (n p : Nat) (hn : 0 < n) : conn1D n p = line n p ↔ (n = 1 ∧ p = 0) ∨ (n = 2 ∧ p = 1) := by
  constructor
  · intro h
    have hl : (p * n + p : Nat) = (p + 1) * n - 1 := by
      have := congrArg List.getLast? h
      unfold conn1D line at this
      rw [List.getLast?_append_of_ne_nil _ (by simp), List.getLast?_append_of_ne_nil _ (by simp)] at this
      simpa using this
    have hge : 1 ≤ (p + 1) * n := Nat.mul_pos (by omega) hn
    have hnp : n = p + 1 := by
      have e : (p + 1) * n = p * n + n := by ring
      omega
    by_cases h3 : 3 ≤ n
    · exfalso
      have h4 := congrArg (fun l => l[3]?) h
      have hr : ∃ k, n - 1 = k + 2 := ⟨n - 3, by omega⟩
      obtain ⟨k, hk⟩ := hr
      have hrange : List.range (n - 1) = 0 :: 1 :: (List.range k).map (fun i => i + 2) := by
        rw [hk, List.range_succ_eq_map, List.range_succ_eq_map]
        simp [Function.comp_def]
      unfold conn1D line at h4
      rw [hrange] at h4
      simp at h4
    · have : n = 1 ∨ n = 2 := by omega
      rcases this with h | h
      · left; omega
      · right; omega
  · rintro (⟨rfl, rfl⟩ | ⟨rfl, rfl⟩) <;> decide

/-- **C43** fails by reading out of range: with at most as many elements as the order, the right end is beyond the last
node. -/
theorem C43_out_of_range (n p : Nat) (h : n ≤ p) : ∃ q ∈ conn1D n p, (p + 1) * n ≤ q.1 := by
  refine ⟨(p * n + p, p * n + p), by simp [conn1D], ?_⟩
  have : (p + 1) * n = p * n + n := by ring
  simp only
  omega

/-- **C43**, partial: the left end and the first interface are right.  Missing: all the others (`C43_violated`). -/
theorem C43_first_partial (n p : Nat) (hn : 2 ≤ n) : (conn1D n p).take 3 = (line n p).take 3 := by
  obtain ⟨k, hk⟩ : ∃ k, n - 1 = k + 1 := ⟨n - 2, by omega⟩
  unfold conn1D line
  rw [hk, List.range_succ_eq_map]
  simp

example : conn1D 3 2 = [(0, 0), (2, 3), (3, 2), (4, 5), (5, 4), (8, 8)] ∧
    line 3 2 = [(0, 0), (2, 3), (3, 2), (5, 6), (6, 5), (8, 8)] := by decide

/-! ### C44 -/

/-- **C44**: the boundary map has exactly the positions whose two nodes coincide, in increasing order. -/
theorem C44_mapB (c : List (Nat × Nat)) :
    (∀ i, i ∈ initMapB c ↔ ∃ a, c[i]? = some (a, a)) ∧ (initMapB c).Pairwise (· < ·) := by
  constructor
  · intro i
    unfold initMapB
    simp only [List.mem_map, List.mem_filter, decide_eq_true_eq]
    constructor
    · rintro ⟨⟨⟨a, b⟩, j⟩, ⟨hm, he⟩, rfl⟩
      rw [List.mem_zipIdx_iff_getElem?] at hm
      simp only at he hm
      exact ⟨a, by rw [hm, he]⟩
    · rintro ⟨a, ha⟩
      exact ⟨((a, a), i), ⟨by rw [List.mem_zipIdx_iff_getElem?]; exact ha, rfl⟩, rfl⟩
  · unfold initMapB
    rw [List.pairwise_map]
    apply List.Pairwise.filter
    rw [← List.pairwise_map (f := Prod.snd) (R := (· < ·))]
    rw [List.zipIdx_map_snd]
    exact List.pairwise_lt_range'

theorem mapM_getElem (c : List (Nat × Nat)) (l : List Nat) (h : ∀ i ∈ l, i < c.length) :
    l.mapM (fun i => c[i]?.map Prod.fst) = some (l.map fun i => (c.getD i (0, 0)).1) := by
  induction l with
  | nil => rfl
  | cons i l ih =>
    rw [List.mapM_cons, ih fun j hj => h j (by simp [hj])]
    have := h i (by simp)
    simp [this]

/-- **C44**: the boundary nodes are those at the boundary positions; nothing is read out of range. -/
theorem C44_vmapB (c : List (Nat × Nat)) :
    initVMapB c (initMapB c) = some ((initMapB c).map fun i => (c.getD i (0, 0)).1) := by
  apply mapM_getElem
  intro i hi
  obtain ⟨a, ha⟩ := ((C44_mapB c).1 i).1 hi
  exact (List.getElem?_eq_some_iff.1 ha).1

/-- **C44**: a face lookup returns consecutive positions whose nodes are the nodes of the face in increasing order, and fails
exactly if there are none. -/
theorem C44_lookup (nodes : List Nat) (hn : nodes ≠ []) (c : List (Nat × Nat)) :
    (∀ res, findMapBID nodes c = some res →
      (∃ n, res = List.range' n nodes.length ∧ n + nodes.length ≤ c.length) ∧
      (res.map fun i => (c.getD i (0, 0)).1).Perm nodes ∧ (res.map fun i => (c.getD i (0, 0)).1).Pairwise (· ≤ ·)) ∧
    (findMapBID nodes c = none ↔ ∀ n, n + nodes.length ≤ c.length →
      ((c.drop n).take nodes.length).map Prod.fst ≠ nodes.insertionSort (· ≤ ·)) := by
  have hlen : (nodes.insertionSort (· ≤ ·)).length = nodes.length := List.length_insertionSort _ nodes
  have hpos : 0 < nodes.length := List.length_pos_iff.2 hn
  unfold findMapBID windowAt
  simp only [hlen]
  constructor
  · intro res h
    rw [Option.map_eq_some_iff] at h
    obtain ⟨n, hf, rfl⟩ := h
    have hp := List.find?_some hf
    simp only [Bool.and_eq_true, decide_eq_true_eq] at hp
    obtain ⟨h1, h2⟩ := hp
    have hmap : (List.range' n nodes.length).map (fun i => (c.getD i (0, 0)).1) =
        ((c.drop n).take nodes.length).map Prod.fst := by
      apply List.ext_getElem
      · simp; omega
      · intro i hi hi'
        simp only [List.length_map, List.length_range'] at hi
        simp [List.getElem_range', show n + i < c.length by omega]
    rw [hmap, h2]
    refine ⟨⟨n, rfl, h1⟩, List.perm_insertionSort _ _, ?_⟩
    exact List.pairwise_insertionSort _ nodes
  · rw [Option.map_eq_none_iff, List.find?_eq_none]
    constructor
    · intro h n hle heq
      exact h n (List.mem_range.2 (by omega)) (by simp [hle, heq])
    · intro h n _ hx
      simp only [Bool.and_eq_true, decide_eq_true_eq] at hx
      exact h n hx.1 hx.2

/-- The positions given to an interior pair hold that pair and its reverse, if the connectivity has both. -/
theorem C44_interior (c : List (Nat × Nat)) (a b : Nat) (h : (a, b) ∈ c) (h' : (b, a) ∈ c) :
    c[(interiorMapB c a b).1]? = some (a, b) ∧ c[(interiorMapB c a b).2]? = some (b, a) := by
  unfold interiorMapB
  constructor
  · rw [List.getElem?_eq_getElem (List.idxOf_lt_length_iff.2 h), List.getElem_idxOf]
  · rw [List.getElem?_eq_getElem (List.idxOf_lt_length_iff.2 h'), List.getElem_idxOf]

example : initMapB [(0, 0), (1, 4), (2, 2), (4, 1)] = [0, 2] ∧
    findMapBID [4, 2] [(0, 0), (1, 4), (2, 2), (4, 1)] = some [2, 3] ∧
    findMapBID [4, 1] [(0, 0), (1, 4), (2, 2), (4, 1)] = none := by decide +kernel

/-! ### C86: pairing the nodes of two elements -/

/-- **C86**: if the value that couples a node to its counterpart is that of the diagonal, it is above the tolerance, and no
other value of the row is so close to it, the node is paired with its counterpart and with nothing else. -/
theorem C86_row [IsStrictOrderedRing K] (tol : K) (htol : 0 < tol) (row : Row K) (r c : Nat) (d : K) (hd : diag row r = some d) (hbig : tol < |d|)
    (hnd : (row.map Prod.fst).Nodup) (hc : (c, d) ∈ row) (hne : c ≠ r)
    (hother : ∀ q ∈ row, q.1 ≠ r → q.1 ≠ c → tol ≤ |q.2 - d|) : rowPairs tol row r = [(r, c)] := by
  unfold rowPairs
  rw [hd]
  simp only
  have hf : row.filter (fun q => decide (r ≠ q.1 ∧ |q.2 - d| < tol ∧ tol < |d|)) = row.filter fun q => decide (q = (c, d)) := by
    apply List.filter_congr
    rintro ⟨i, v⟩ hq
    have hiv : i = c → v = d := by
      intro hi
      have h1 : row.find? (fun q => decide (q.1 = c)) = some (c, d) := by
        clear hother hd
        induction row with
        | nil => cases hc
        | cons x row ih =>
          rw [List.map_cons, List.nodup_cons] at hnd
          rcases List.mem_cons.1 hc with h | h
          · rw [← h]; simp
          · have hx : x.1 ≠ c := fun hx => hnd.1 (hx ▸ List.mem_map.2 ⟨(c, d), h, rfl⟩)
            rw [List.find?_cons_of_neg (by simpa using hx)]
            rcases List.mem_cons.1 hq with h' | h'
            · rw [← h'] at hx; exact absurd hi hx
            · exact ih hnd.2 h h'
      have h2 : row.find? (fun q => decide (q.1 = c)) = some (i, v) := by
        clear hother hd hc h1
        induction row with
        | nil => cases hq
        | cons x row ih =>
          rw [List.map_cons, List.nodup_cons] at hnd
          rcases List.mem_cons.1 hq with h | h
          · rw [← h]; simp [hi]
          · have hx : x.1 ≠ c := fun hx => hnd.1 (by rw [hx, ← hi]; exact List.mem_map.2 ⟨(i, v), h, rfl⟩)
            rw [List.find?_cons_of_neg (by simpa using hx)]
            exact ih hnd.2 h
      rw [h1] at h2
      cases h2; rfl
    simp only [Prod.mk.injEq, decide_eq_decide]
    constructor
    · rintro ⟨h1, h2, _⟩
      by_contra hx
      have : i ≠ c := fun h => hx ⟨h, hiv h⟩
      exact absurd h2 (not_lt.2 (hother (i, v) hq (Ne.symm h1) this))
    · rintro ⟨rfl, rfl⟩
      exact ⟨Ne.symm hne, by simpa using htol, hbig⟩
  rw [hf]
  have hnd' : row.Nodup := List.Nodup.of_map _ hnd
  have : row.filter (fun q => decide (q = (c, d))) = [(c, d)] := by
    have h1 := List.Nodup.filter (fun q => decide (q = (c, d))) hnd'
    have h2 : ∀ q ∈ row.filter (fun q => decide (q = (c, d))), q = (c, d) := by
      intro q hq; simpa using (List.mem_filter.1 hq).2
    have h3 : (c, d) ∈ row.filter (fun q => decide (q = (c, d))) := List.mem_filter.2 ⟨hc, by simp⟩
    generalize row.filter (fun q => decide (q = (c, d))) = l at h1 h2 h3
    match l, h1, h2, h3 with
    | [x], _, h2, _ => rw [h2 x (by simp)]
    | x :: y :: l, h1, h2, _ =>
      rw [h2 x (by simp), h2 y (by simp)] at h1
      simp at h1
  rw [this]; rfl

/-- **C86**: rows of nodes that are not on the face (no diagonal value above the tolerance) give no pairs. -/
theorem C86_inner (tol : K) (row : Row K) (r : Nat) (h : ∀ d, diag row r = some d → |d| ≤ tol) : rowPairs tol row r = [] := by
  unfold rowPairs
  cases hd : diag row r with
  | none => rfl
  | some d =>
    simp only
    rw [List.filter_eq_nil_iff.2]
    · rfl
    · intro q _
      simp [h d hd]

/-- **C86**: for a coupling matrix in which every node of the first element is either on the face, coupled as above to its
counterpart, or not on the face, the pairs found are exactly each face node with its counterpart, in order. -/
theorem C86_pairs [IsStrictOrderedRing K] (tol : K) (htol : 0 < tol) (rows : List (Row K)) (mate : Nat → Option Nat)
    (hface : ∀ r < rows.length / 2, ∀ c, mate r = some c → ∃ d, diag (rows.getD r []) r = some d ∧ tol < |d| ∧
      ((rows.getD r []).map Prod.fst).Nodup ∧ (c, d) ∈ rows.getD r [] ∧ c ≠ r ∧
      ∀ q ∈ rows.getD r [], q.1 ≠ r → q.1 ≠ c → tol ≤ |q.2 - d|)
    (hin : ∀ r < rows.length / 2, mate r = none → ∀ d, diag (rows.getD r []) r = some d → |d| ≤ tol) :
    mapConnectivity tol rows = (List.range (rows.length / 2)).filterMap fun r => (mate r).map fun c => (r, c) := by
  unfold mapConnectivity
  have key : ∀ l : List Nat, (∀ r ∈ l, r < rows.length / 2) →
      l.flatMap (fun r => rowPairs tol (rows.getD r []) r) = l.filterMap fun r => (mate r).map fun c => (r, c) := by
    intro l
    induction l with
    | nil => intro _; rfl
    | cons r l ih =>
      intro h
      rw [List.flatMap_cons, List.filterMap_cons, ih fun x hx => h x (by simp [hx])]
      have hr := h r (by simp)
      cases hm : mate r with
      | none => rw [C86_inner tol _ r (hin r hr hm)]; rfl
      | some c =>
        obtain ⟨d, h1, h2, h3, h4, h5, h6⟩ := hface r hr c hm
        rw [C86_row tol htol _ r c d h1 h2 h3 h4 h5 h6]; rfl
  exact key _ fun r hr => List.mem_range.1 hr

/-- Two segments of order one side by side: the second node of the first one meets the first node of the second one.  The
rows of a shared face: one on the diagonal and one for the counterpart. -/
example : mapConnectivity (1 / 1000000 : ℚ) [[], [(1, 2), (2, 2)], [(1, 2), (2, 2)], []] = [(1, 2)] := by decide +kernel

/-! ### C60 -/

/-- **C60**: extracting the sub-mesh of a face leaves every attribute of the parent as it was, and the sub-mesh has exactly
the elements of the face if no element already has the attribute used for marking. -/
theorem C60_sub (ne : Nat) (a : Nat → Int) (e1 e2 : Nat) :
    (boundarySub ne a a e1).2 = a ∧ (interiorSub ne a a e1 e2).2 = a ∧
    ((∀ e < ne, a e ≠ tag) → ∀ e < ne, (e ∈ (boundarySub ne a a e1).1 ↔ e = e1) ∧
      (e ∈ (interiorSub ne a a e1 e2).1 ↔ e = e1 ∨ e = e2)) := by
  refine ⟨?_, ?_, ?_⟩
  · funext e
    unfold boundarySub setAttr
    by_cases h : e = e1 <;> simp [h]
  · funext e
    unfold interiorSub setAttr
    by_cases h : e = e2
    · simp [h]
    · by_cases h' : e = e1
      · subst h'; simp [h]
      · simp [h, h']
  · intro hf e he
    have := hf e he
    constructor
    · unfold boundarySub withAttr setAttr
      by_cases h : e = e1
      · subst h; simp [he]
      · simp [he, h, this]
    · unfold interiorSub withAttr setAttr
      by_cases h : e = e2
      · subst h; simp [he]
      · by_cases h' : e = e1
        · subst h'; simp [he, h]
        · simp [he, h, h', this]

/-- **C60**: restoring a face whose second element is not element zero restores both elements and changes no other; a face
without second element is an error. -/
theorem C60_restore_partial (orig a : Nat → Int) (e1 : Nat) (e2 : Int) :
    (0 < e2 → ∃ r, restoreFace orig a e1 e2 = some r ∧
      ∀ e : Nat, r e = if e = e1 ∨ (e : Int) = e2 then orig e else a e) ∧
    (e2 < 0 → restoreFace orig a e1 e2 = none) := by
  unfold restoreFace setAttr
  constructor
  · intro h
    rw [if_neg (by omega), if_neg (by omega)]
    refine ⟨_, rfl, fun e => ?_⟩
    by_cases h1 : e = e2.toNat
    · have : (e : Int) = e2 := by omega
      simp [h1.symm, this]
    · have : ¬ (e : Int) = e2 := by omega
      by_cases h2 : e = e1
      · subst h2; simp [h1]
      · simp [h1, h2, this]
  · intro h
    rw [if_neg (by omega), if_pos h]

/-- **C60** fails for a face whose second element is element zero: it keeps the marking attribute. -/
theorem C60_violated : ∃ r, restoreFace (fun _ => 1) (fun e => if e ≤ 1 then tag else 1) 1 0 = some r ∧ r 0 = tag :=
  ⟨_, rfl, by decide⟩

end Dgtd.NodalMaps
