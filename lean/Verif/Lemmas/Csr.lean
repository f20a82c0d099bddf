import Verif.Spec.Csr
import Mathlib.Data.List.Basic
import Mathlib.Tactic.Ring
import Mathlib.Tactic.Linarith

set_option linter.unusedSectionVars false
set_option linter.unusedSimpArgs false

namespace Dgtd.Csr

open Spec

variable {K : Type} [CommRing K]

/-! ### checked array access -/

lemma rd_eq {α : Type} (a : List α) {i : Int} (h : 0 ≤ i) : rd a i = a[i.toNat]? := by
  unfold rd; rw [if_neg (by omega)]

lemma wr_eq {α : Type} (a : List α) {i : Int} (v : α) (h : 0 ≤ i) (h2 : i.toNat < a.length) :
    wr a i v = some (a.set i.toNat v) := by
  unfold wr; rw [if_pos ⟨h, h2⟩]

lemma rd_set {α : Type} (a : List α) {i j : Int} (v : α) (hi : 0 ≤ i) (hj : 0 ≤ j)
    (h2 : i.toNat < a.length) :
    rd (a.set i.toNat v) j = if i = j then some v else rd a j := by
  rw [rd_eq _ hj, rd_eq _ hj]
  by_cases h : i = j
  · subst h; simp [h2]
  · rw [if_neg h, List.getElem?_set_ne]; omega

/-! ### association-list accumulation: what one global row becomes -/

/-- Accumulate one entry. -/
def acc : List (Int × K) → Int × K → List (Int × K)
  | [], e => [e]
  | (c, v) :: l, e => if c = e.1 then (c, v + e.2) :: l else (c, v) :: acc l e

abbrev keys (l : List (Int × K)) : List Int := l.map Prod.fst
abbrev vals (l : List (Int × K)) : List K := l.map Prod.snd

lemma acc_notMem (l : List (Int × K)) (e : Int × K) (h : e.1 ∉ keys l) : acc l e = l ++ [e] := by
  induction l with
  | nil => rfl
  | cons a l ih =>
    obtain ⟨c, v⟩ := a
    simp only [keys, List.map_cons, List.mem_cons, not_or] at h
    simp only [acc, if_neg (Ne.symm h.1), ih h.2, List.cons_append]

lemma acc_mem (l : List (Int × K)) (e : Int × K) (h : e.1 ∈ keys l) :
    keys (acc l e) = keys l ∧
    ∃ o, (vals l)[(keys l).idxOf e.1]? = some o ∧
      vals (acc l e) = (vals l).set ((keys l).idxOf e.1) (o + e.2) := by
  induction l with
  | nil => simp at h
  | cons a l ih =>
    obtain ⟨c, v⟩ := a
    by_cases hc : c = e.1
    · simp [acc, hc]
    · have h' : e.1 ∈ keys l := by
        simp only [keys, List.map_cons, List.mem_cons] at h
        rcases h with h | h
        · exact absurd h.symm hc
        · exact h
      obtain ⟨h1, o, h2, h3⟩ := ih h'
      simp only [keys] at h1 h2 h3
      refine ⟨by simp [acc, hc, h1], o, ?_, ?_⟩
      · simp [keys, List.idxOf_cons_ne _ hc, h2]
      · simp [acc, keys, hc, List.idxOf_cons_ne _ hc, h3]

lemma acc_length_le (l : List (Int × K)) (e : Int × K) : l.length ≤ (acc l e).length := by
  by_cases h : e.1 ∈ keys l
  · have := (acc_mem l e h).1
    have := congrArg List.length this
    simp at this; omega
  · rw [acc_notMem l e h]; simp

lemma foldl_acc_length_le (es : List (Int × K)) (l : List (Int × K)) :
    l.length ≤ (es.foldl acc l).length := by
  induction es generalizing l with
  | nil => simp
  | cons e es ih => exact le_trans (acc_length_le l e) (ih _)

lemma acc_keys_nodup (l : List (Int × K)) (e : Int × K) (h : (keys l).Nodup) :
    (keys (acc l e)).Nodup := by
  by_cases he : e.1 ∈ keys l
  · rw [(acc_mem l e he).1]; exact h
  · rw [acc_notMem l e he]
    simp only [keys, List.map_append, List.map_cons, List.map_nil]
    rw [List.nodup_append]
    refine ⟨h, by simp, ?_⟩
    intro a ha b hb
    simp at hb; subst hb
    intro hab; subst hab; exact he ha

lemma foldl_acc_keys_nodup (es l : List (Int × K)) (h : (keys l).Nodup) :
    (keys (es.foldl acc l)).Nodup := by
  induction es generalizing l with
  | nil => exact h
  | cons e es ih => exact ih _ (acc_keys_nodup l e h)

lemma acc_mem_keys (l : List (Int × K)) (e : Int × K) (c : Int) :
    c ∈ keys (acc l e) ↔ c ∈ keys l ∨ c = e.1 := by
  by_cases he : e.1 ∈ keys l
  · rw [(acc_mem l e he).1]
    constructor
    · exact Or.inl
    · rintro (h | h)
      · exact h
      · rw [h]; exact he
  · rw [acc_notMem l e he]; simp [keys]

lemma foldl_acc_mem_keys (es l : List (Int × K)) (c : Int) :
    c ∈ keys (es.foldl acc l) ↔ c ∈ keys l ∨ c ∈ keys es := by
  induction es generalizing l with
  | nil => simp
  | cons e es ih =>
    rw [List.foldl_cons, ih, acc_mem_keys]
    simp only [keys, List.map_cons, List.mem_cons]
    tauto

/-- The value stored under a column. -/
def colSum (l : List (Int × K)) (c : Int) : K := (l.map fun e => if e.1 = c then e.2 else 0).sum

lemma colSum_acc (l : List (Int × K)) (e : Int × K) (c : Int) :
    colSum (acc l e) c = colSum l c + if e.1 = c then e.2 else 0 := by
  induction l with
  | nil => simp [colSum, acc]
  | cons a l ih =>
    obtain ⟨k, v⟩ := a
    unfold colSum at *
    by_cases h : k = e.1
    · by_cases h2 : e.1 = c
      · simp only [acc, if_pos h, List.map_cons, List.sum_cons, h2, h.trans h2]
        simp; ring
      · simp only [acc, if_pos h, List.map_cons, List.sum_cons]
        rw [if_neg (h ▸ h2), if_neg h2]; simp [h ▸ h2]
    · simp only [acc, if_neg h, List.map_cons, List.sum_cons, ih]; ring

lemma colSum_foldl_acc (es l : List (Int × K)) (c : Int) :
    colSum (es.foldl acc l) c = colSum l c + colSum es c := by
  induction es generalizing l with
  | nil => simp [colSum]
  | cons e es ih =>
    rw [List.foldl_cons, ih, colSum_acc]
    unfold colSum; simp only [List.map_cons, List.sum_cons]; ring

/-! ### flattening the two nested loops of a row -/

/-- The (global column, signed value) pairs of one block in a global row. -/
def entries (bp : Placement K) (row : Nat) : List (Int × K) :=
  (rowOf bp row).map fun e => (e.1 + bp.colOffset, e.2 * bp.sign)

/-- All pairs visited in a global row, in visiting order. -/
def rowEntries (blocks : List (Placement K)) (row : Nat) : List (Int × K) :=
  blocks.flatMap fun bp => entries bp row

/-- The merged global row. -/
def merged (blocks : List (Placement K)) (row : Nat) : List (Int × K) :=
  (rowEntries blocks row).foldl acc []

lemma foldlM_flat {σ β γ δ : Type} (blocks : List β) (g : β → List γ) (h : β → γ → δ)
    (f : β → σ → γ → Option σ) (f' : σ → δ → Option σ) (H : ∀ b s e, f b s e = f' s (h b e)) (s : σ) :
    blocks.foldlM (fun s b => (g b).foldlM (f b) s) s =
      (blocks.flatMap fun b => (g b).map (h b)).foldlM f' s := by
  induction blocks generalizing s with
  | nil => rfl
  | cons b bs ih =>
    rw [List.foldlM_cons, List.flatMap_cons, List.foldlM_append, List.foldlM_map]
    have : (fun s e => f' s (h b e)) = f b := by funext s e; exact (H b s e).symm
    rw [this]
    congr 1
    funext s'
    exact ih s'

/-- `p1Entry` on a global column. -/
def p1E (row : Nat) (st : List Int × Nat) (e : Int × K) : Option (List Int × Nat) :=
  p1Entry row 0 st e

/-- `p2Entry` on a global column and a signed value. -/
def p2E (base : Nat) (s : P2 K) (e : Int × K) : Option (P2 K) :=
  p2Entry base 0 1 s e

lemma p1_flat (blocks : List (Placement K)) (row : Nat) (s : List Int × Nat) :
    blocks.foldlM (fun s bp => (rowOf bp row).foldlM (p1Entry row bp.colOffset) s) s =
      (rowEntries blocks row).foldlM (p1E row) s := by
  unfold rowEntries entries
  apply foldlM_flat
  intro b s e
  simp [p1E, p1Entry]

lemma p2_flat (blocks : List (Placement K)) (row base : Nat) (s : P2 K) :
    blocks.foldlM (fun s bp => (rowOf bp row).foldlM (p2Entry base bp.colOffset bp.sign) s) s =
      (rowEntries blocks row).foldlM (p2E base) s := by
  unfold rowEntries entries
  apply foldlM_flat
  intro b s e
  simp [p2E, p2Entry]

/-! ### pass 1 -/

/-- Invariant of the marker inside row `r` after the columns `ks`. -/
structure M1 (cols : Nat) (r : Int) (ks : List Int) (m : List Int) : Prop where
  len : m.length = cols
  le : ∀ x ∈ m, x ≤ r
  spec : ∀ c : Int, 0 ≤ c → c < cols → (rd m c = some r ↔ c ∈ ks)

lemma M1_start {cols : Nat} {r : Int} {m : List Int} (hl : m.length = cols) (h : ∀ x ∈ m, x < r) :
    M1 cols r [] m := by
  refine ⟨hl, fun x hx => (h x hx).le, fun c h0 h1 => ?_⟩
  rw [rd_eq _ h0]
  simp only [List.not_mem_nil, iff_false]
  intro hh
  exact absurd (h r (List.mem_of_getElem? hh)) (lt_irrefl _)

lemma p1E_step {cols r : Nat} {L : List (Int × K)} {m : List Int} (hm : M1 cols r (keys L) m)
    (e : Int × K) (h0 : 0 ≤ e.1) (h1 : e.1 < cols) :
    ∃ m', p1E r (m, L.length) e = some (m', (acc L e).length) ∧ M1 cols r (keys (acc L e)) m' := by
  have hlt : e.1.toNat < m.length := by rw [hm.len]; omega
  unfold p1E p1Entry
  simp only [add_zero]
  rw [rd_eq _ h0, List.getElem?_eq_getElem hlt]
  simp only [Option.bind_eq_bind, Option.bind_some]
  by_cases hc : e.1 ∈ keys L
  · have := (hm.spec e.1 h0 h1).mpr hc
    rw [rd_eq _ h0, List.getElem?_eq_getElem hlt] at this
    have := Option.some.inj this
    refine ⟨m, ?_, ?_⟩
    · rw [if_neg (by simp [this])]
      have hk := congrArg List.length (acc_mem L e hc).1
      simp at hk
      simp [hk]
    · rw [(acc_mem L e hc).1]; exact hm
  · have hne : m[e.1.toNat] ≠ (r : Int) := by
      intro hh
      apply hc
      rw [← hm.spec e.1 h0 h1, rd_eq _ h0, List.getElem?_eq_getElem hlt, hh]
    refine ⟨m.set e.1.toNat r, ?_, ?_⟩
    · rw [if_pos hne, wr_eq _ _ h0 hlt, acc_notMem L e hc]
      simp
    · refine ⟨by simp [hm.len], ?_, ?_⟩
      · intro x hx
        rcases List.mem_or_eq_of_mem_set hx with h | h
        · exact hm.le x h
        · omega
      · intro c hc0 hc1
        rw [rd_set _ _ h0 hc0 hlt, acc_mem_keys]
        by_cases hec : e.1 = c
        · simp [hec]
        · rw [if_neg hec, hm.spec c hc0 hc1]
          constructor
          · exact Or.inl
          · rintro (h | h)
            · exact h
            · exact absurd h.symm hec

lemma p1E_fold {cols r : Nat} (es : List (Int × K)) (hb : ∀ e ∈ es, 0 ≤ e.1 ∧ e.1 < cols) :
    ∀ {L : List (Int × K)} {m : List Int}, M1 cols r (keys L) m →
    ∃ m', es.foldlM (p1E r) (m, L.length) = some (m', (es.foldl acc L).length) ∧
      M1 cols r (keys (es.foldl acc L)) m' := by
  induction es with
  | nil => intro L m hm; exact ⟨m, rfl, hm⟩
  | cons e es ih =>
    intro L m hm
    obtain ⟨m', h1, h2⟩ := p1E_step hm e (hb e (by simp)).1 (hb e (by simp)).2
    obtain ⟨m'', h3, h4⟩ := ih (fun e he => hb e (by simp [he])) h2
    refine ⟨m'', ?_, h4⟩
    rw [List.foldlM_cons, h1]
    exact h3

/-- Start of row `r` in the merged storage. -/
def offs (blocks : List (Placement K)) (r : Nat) : Nat :=
  ((List.range r).map fun q => (merged blocks q).length).sum

lemma offs_succ (blocks : List (Placement K)) (r : Nat) :
    offs blocks (r + 1) = offs blocks r + (merged blocks r).length := by
  simp [offs, List.range_succ]

lemma offs_mono (blocks : List (Placement K)) {a b : Nat} (h : a ≤ b) :
    offs blocks a ≤ offs blocks b := by
  induction h with
  | refl => exact le_refl _
  | step _ ih => rw [Nat.succ_eq_add_one, offs_succ]; omega

/-- All columns visited in the rows below `rows` are in range. -/
def Cols (blocks : List (Placement K)) (rows cols : Nat) : Prop :=
  ∀ r < rows, ∀ e ∈ rowEntries blocks r, 0 ≤ e.1 ∧ e.1 < (cols : Int)

lemma pass1 (blocks : List (Placement K)) (rows cols : Nat) (hb : Cols blocks rows cols) (n : Nat)
    (hn : n ≤ rows) :
    ∃ m, (List.range n).foldlM (p1Row blocks) (List.replicate cols (-1), [0]) =
        some (m, (List.range (n + 1)).map (offs blocks)) ∧
      m.length = cols ∧ ∀ x ∈ m, x < (n : Int) := by
  induction n with
  | zero =>
    refine ⟨List.replicate cols (-1), rfl, by simp, ?_⟩
    intro x hx
    rw [List.eq_of_mem_replicate hx]; simp
  | succ n ih =>
    obtain ⟨m, h1, h2, h3⟩ := ih (by omega)
    obtain ⟨m', h4, h5⟩ := p1E_fold (K := K) (cols := cols) (r := n) (rowEntries blocks n)
      (fun e he => hb n (by omega) e he) (L := []) (M1_start h2 h3)
    refine ⟨m', ?_, h5.len, ?_⟩
    · rw [List.range_succ, List.foldlM_append, h1]
      simp only [Option.bind_eq_bind, Option.bind_some, List.foldlM_cons, List.foldlM_nil]
      unfold p1Row
      simp only
      rw [p1_flat]
      have h4' : List.foldlM (p1E n) (m, 0) (rowEntries blocks n) =
          some (m', (merged blocks n).length) := h4
      rw [h4']
      have : ((List.range (n + 1)).map (offs blocks))[n]? = some (offs blocks n) := by
        rw [List.getElem?_map, List.getElem?_range (by omega)]; rfl
      simp only [Option.bind_eq_bind, Option.bind_some, this]
      rw [List.range_succ (n := n + 1), List.map_append, List.map_cons, List.map_nil, offs_succ]
      rfl
    · intro x hx
      have := h5.le x hx
      push_cast; omega

/-! ### pass 2 -/

/-- Invariant of pass 2 inside a row that starts at `base`, after merging `L`. -/
structure Inv2 (cols base total : Nat) (preJ : List Int) (preA : List K) (L : List (Int × K))
    (s : P2 K) : Prop where
  preJ_len : preJ.length = base
  preA_len : preA.length = base
  j : ∃ rest : List Int, s.cj = preJ ++ keys L ++ rest ∧ base + L.length + rest.length = total
  a : ∃ rest : List K, s.ca = preA ++ vals L ++ rest ∧ base + L.length + rest.length = total
  pos : s.pos = base + L.length
  mlen : s.marker.length = cols
  mem : ∀ c : Int, 0 ≤ c → c < cols → c ∈ keys L →
    rd s.marker c = some ((base + (keys L).idxOf c : Nat) : Int)
  notMem : ∀ c : Int, 0 ≤ c → c < cols → c ∉ keys L →
    ∃ m, rd s.marker c = some m ∧ m < base

lemma p2E_step {cols base total : Nat} {preJ : List Int} {preA : List K} {L : List (Int × K)}
    {s : P2 K} (hs : Inv2 cols base total preJ preA L s) (e : Int × K)
    (h0 : 0 ≤ e.1) (h1 : e.1 < cols) (hroom : base + (acc L e).length ≤ total) :
    ∃ s', p2E base s e = some s' ∧ Inv2 cols base total preJ preA (acc L e) s' := by
  have hlt : e.1.toNat < s.marker.length := by rw [hs.mlen]; omega
  obtain ⟨restJ, hJ, hJl⟩ := hs.j
  obtain ⟨restA, hA, hAl⟩ := hs.a
  unfold p2E p2Entry
  simp only [add_zero, mul_one]
  by_cases hc : e.1 ∈ keys L
  · rw [hs.mem e.1 h0 h1 hc]
    simp only [Option.bind_eq_bind, Option.bind_some]
    rw [if_neg (by push_cast; omega)]
    obtain ⟨hk, o, ho, hv⟩ := acc_mem L e hc
    have hidx : (keys L).idxOf e.1 < L.length := by
      have := List.idxOf_lt_length_iff.mpr hc
      simpa using this
    have hrd : rd s.ca ((base + (keys L).idxOf e.1 : Nat) : Int) = some o := by
      rw [rd_eq _ (by omega), Int.toNat_natCast, hA, List.append_assoc,
        List.getElem?_append_right (by rw [hs.preA_len]; omega), hs.preA_len,
        Nat.add_sub_cancel_left, List.getElem?_append_left (by simpa using hidx)]
      exact ho
    rw [hrd]
    simp only [Option.bind_some]
    have hset : wr s.ca ((base + (keys L).idxOf e.1 : Nat) : Int) (o + e.2) =
        some (preA ++ vals (acc L e) ++ restA) := by
      rw [wr_eq _ _ (by omega)]
      · rw [Int.toNat_natCast, hA, List.append_assoc, List.set_append_right _ _ (by rw [hs.preA_len]; omega),
          hs.preA_len, Nat.add_sub_cancel_left, List.set_append_left _ _ (by simpa using hidx), hv,
          List.append_assoc]
      · rw [Int.toNat_natCast, hA]
        simp [hs.preA_len]; omega
    rw [hset]
    have hlen : (acc L e).length = L.length := by
      have := congrArg List.length hk; simpa using this
    refine ⟨_, rfl, ⟨hs.preJ_len, hs.preA_len, ⟨restJ, by rw [hk]; exact hJ, by omega⟩,
      ⟨restA, rfl, by omega⟩, by rw [hlen]; exact hs.pos, hs.mlen, ?_, ?_⟩⟩
    · rw [hk]; exact hs.mem
    · rw [hk]; exact hs.notMem
  · obtain ⟨m, hm, hmb⟩ := hs.notMem e.1 h0 h1 hc
    rw [hm]
    simp only [Option.bind_eq_bind, Option.bind_some]
    rw [if_pos hmb]
    have hacc := acc_notMem L e hc
    rw [hacc] at hroom ⊢
    simp only [List.length_append, List.length_cons, List.length_nil] at hroom
    obtain ⟨j0, restJ', rfl⟩ : ∃ a b, restJ = a :: b := by
      cases restJ with
      | nil => simp at hJl; omega
      | cons a b => exact ⟨a, b, rfl⟩
    obtain ⟨a0, restA', rfl⟩ : ∃ a b, restA = a :: b := by
      cases restA with
      | nil => simp at hAl; omega
      | cons a b => exact ⟨a, b, rfl⟩
    have hpos : s.pos.toNat = base + L.length := by rw [hs.pos]; omega
    have hpos0 : 0 ≤ s.pos := by rw [hs.pos]; omega
    have hwJ : wr s.cj s.pos e.1 = some (preJ ++ keys (L ++ [e]) ++ restJ') := by
      rw [wr_eq _ _ hpos0]
      · rw [hpos, hJ, List.set_append_right _ _ (by simp [hs.preJ_len])]
        have : base + L.length - (preJ ++ keys L).length = 0 := by simp [hs.preJ_len]
        rw [this]
        simp [keys]
      · rw [hpos, hJ]; simp [hs.preJ_len]
    have hwA : wr s.ca s.pos e.2 = some (preA ++ vals (L ++ [e]) ++ restA') := by
      rw [wr_eq _ _ hpos0]
      · rw [hpos, hA, List.set_append_right _ _ (by simp [hs.preA_len])]
        have : base + L.length - (preA ++ vals L).length = 0 := by simp [hs.preA_len]
        rw [this]
        simp [vals]
      · rw [hpos, hA]; simp [hs.preA_len]
    rw [hwJ, hwA, wr_eq _ _ h0 hlt]
    refine ⟨_, rfl, ⟨hs.preJ_len, hs.preA_len, ⟨restJ', rfl, ?_⟩, ⟨restA', rfl, ?_⟩, ?_, ?_, ?_, ?_⟩⟩
    · simp at hJl ⊢; omega
    · simp at hAl ⊢; omega
    · simp [hs.pos]; ring
    · simp [hs.mlen]
    · intro c hc0 hc1 hcm
      rw [rd_set _ _ h0 hc0 hlt]
      by_cases hec : e.1 = c
      · subst hec
        rw [if_pos rfl, hs.pos]
        have : (keys (L ++ [e])).idxOf e.1 = L.length := by
          simp only [keys, List.map_append, List.map_cons, List.map_nil]
          rw [List.idxOf_append_of_notMem hc]; simp
        rw [this]; push_cast; rfl
      · rw [if_neg hec]
        have hcm' : c ∈ keys L := by
          simp only [keys, List.map_append, List.map_cons, List.map_nil, List.mem_append,
            List.mem_singleton] at hcm
          rcases hcm with h | h
          · exact h
          · exact absurd h.symm hec
        rw [hs.mem c hc0 hc1 hcm']
        simp only [keys, List.map_append, List.map_cons, List.map_nil]
        rw [List.idxOf_append_of_mem hcm']
    · intro c hc0 hc1 hcm
      rw [rd_set _ _ h0 hc0 hlt]
      have hec : e.1 ≠ c := by
        rintro rfl; apply hcm; simp [keys]
      rw [if_neg hec]
      apply hs.notMem c hc0 hc1
      intro h; apply hcm; simp only [keys, List.map_append, List.mem_append]; left; exact h

lemma p2E_fold {cols base total : Nat} {preJ : List Int} {preA : List K} (es : List (Int × K))
    (hb : ∀ e ∈ es, 0 ≤ e.1 ∧ e.1 < (cols : Int)) :
    ∀ {L : List (Int × K)} {s : P2 K}, Inv2 cols base total preJ preA L s →
      base + (es.foldl acc L).length ≤ total →
      ∃ s', es.foldlM (p2E base) s = some s' ∧ Inv2 cols base total preJ preA (es.foldl acc L) s' := by
  induction es with
  | nil => intro L s hs _; exact ⟨s, rfl, hs⟩
  | cons e es ih =>
    intro L s hs hroom
    have hle := foldl_acc_length_le es (acc L e)
    rw [List.foldl_cons] at hroom
    obtain ⟨s', h1, h2⟩ := p2E_step hs e (hb e (by simp)).1 (hb e (by simp)).2 (by omega)
    obtain ⟨s'', h3, h4⟩ := ih (fun e he => hb e (by simp [he])) h2 hroom
    refine ⟨s'', ?_, h4⟩
    rw [List.foldlM_cons, h1]
    exact h3

/-- From the end of a row to the start of the next. -/
lemma Inv2_next {cols base total : Nat} {preJ : List Int} {preA : List K} {L : List (Int × K)}
    {s : P2 K} (hs : Inv2 cols base total preJ preA L s) :
    Inv2 cols (base + L.length) total (preJ ++ keys L) (preA ++ vals L) [] s := by
  obtain ⟨restJ, hJ, hJl⟩ := hs.j
  obtain ⟨restA, hA, hAl⟩ := hs.a
  refine ⟨by simp [hs.preJ_len], by simp [hs.preA_len], ⟨restJ, by simpa using hJ, by simpa using hJl⟩,
    ⟨restA, by simpa using hA, by simpa using hAl⟩, by simp [hs.pos], hs.mlen, ?_, ?_⟩
  · intro c _ _ h; simp at h
  · intro c h0 h1 _
    by_cases hc : c ∈ keys L
    · refine ⟨_, hs.mem c h0 h1 hc, ?_⟩
      have := List.idxOf_lt_length_iff.mpr hc
      simp at this
      push_cast; omega
    · obtain ⟨m, hm, hl⟩ := hs.notMem c h0 h1 hc
      exact ⟨m, hm, by push_cast; omega⟩

lemma pass2 (blocks : List (Placement K)) (rows cols : Nat) (hb : Cols blocks rows cols)
    (junkJ : Int) (junkA : K) (n : Nat) (hn : n ≤ rows) :
    ∃ s, (List.range n).foldlM (p2Row blocks ((List.range (rows + 1)).map (offs blocks)))
        { marker := List.replicate cols (-1), cj := List.replicate (offs blocks rows) junkJ,
          ca := List.replicate (offs blocks rows) junkA, pos := 0 } = some s ∧
      Inv2 cols (offs blocks n) (offs blocks rows)
        ((List.range n).flatMap fun r => keys (merged blocks r))
        ((List.range n).flatMap fun r => vals (merged blocks r)) [] s := by
  induction n with
  | zero =>
    refine ⟨_, rfl, ⟨by simp [offs], by simp [offs], ⟨_, by simp; rfl, by simp [offs]⟩,
      ⟨_, by simp; rfl, by simp [offs]⟩, by simp [offs], by simp, ?_, ?_⟩⟩
    · intro c _ _ h; simp at h
    · intro c h0 h1 _
      refine ⟨-1, ?_, by simp [offs]⟩
      rw [rd_eq _ h0, List.getElem?_replicate, if_pos (by omega)]
  | succ n ih =>
    obtain ⟨s, h1, h2⟩ := ih (by omega)
    have hroom : offs blocks n + (merged blocks n).length ≤ offs blocks rows := by
      rw [← offs_succ]; exact offs_mono blocks hn
    obtain ⟨s', h3, h4⟩ := p2E_fold (rowEntries blocks n) (fun e he => hb n (by omega) e he) h2 hroom
    refine ⟨s', ?_, ?_⟩
    · rw [List.range_succ (n := n), List.foldlM_append, h1]
      simp only [Option.bind_eq_bind, Option.bind_some, List.foldlM_cons, List.foldlM_nil]
      unfold p2Row
      have : ((List.range (rows + 1)).map (offs blocks))[n]? = some (offs blocks n) := by
        rw [List.getElem?_map, List.getElem?_range (by omega)]; rfl
      simp only [this, Option.bind_eq_bind, Option.bind_some]
      rw [p2_flat, h3]
      rfl
    · have h5 := Inv2_next h4
      rw [List.range_succ, List.flatMap_append, List.flatMap_append, offs_succ]
      simpa [merged] using h5

lemma merge_eq (blocks : List (Placement K)) (rows cols : Nat) (hb : Cols blocks rows cols)
    (junkJ : Int) (junkA : K) :
    merge junkJ junkA blocks rows cols = some
      { ci := (List.range (rows + 1)).map (offs blocks)
        cj := (List.range rows).flatMap fun r => keys (merged blocks r)
        ca := (List.range rows).flatMap fun r => vals (merged blocks r) } := by
  obtain ⟨m, h1, -, -⟩ := pass1 blocks rows cols hb rows (le_refl _)
  obtain ⟨s, h2, h3⟩ := pass2 blocks rows cols hb junkJ junkA rows (le_refl _)
  unfold merge
  rw [h1]
  have : ((List.range (rows + 1)).map (offs blocks))[rows]? = some (offs blocks rows) := by
    rw [List.getElem?_map, List.getElem?_range (by omega)]; rfl
  simp only [Option.bind_eq_bind, Option.bind_some, this, h2]
  obtain ⟨restJ, hJ, hJl⟩ := h3.j
  obtain ⟨restA, hA, hAl⟩ := h3.a
  have r1 : restJ = [] := by cases restJ with
    | nil => rfl
    | cons a b => simp at hJl
  have r2 : restA = [] := by cases restA with
    | nil => rfl
    | cons a b => simp at hAl
  rw [hJ, hA, r1, r2]
  simp [keys, vals]

/-! ### reading the result back -/

omit [CommRing K] in
lemma zip_flatMap {α : Type} (f : α → List (Int × K)) (l : List α) :
    (l.flatMap fun r => (f r).map Prod.fst).zip (l.flatMap fun r => (f r).map Prod.snd) = l.flatMap f := by
  induction l with
  | nil => rfl
  | cons a l ih =>
    simp only [List.flatMap_cons]
    rw [List.zip_append (by simp), ih]
    congr 1
    induction f a with
    | nil => rfl
    | cons e es ih => simpa using ih

lemma flatMap_length_offs (blocks : List (Placement K)) (n : Nat) :
    ((List.range n).flatMap fun r => merged blocks r).length = offs blocks n := by
  rw [List.length_flatMap]; rfl

lemma csrRow_merge (blocks : List (Placement K)) (rows r : Nat) (hr : r < rows) :
    csrRow { ci := (List.range (rows + 1)).map (offs blocks)
             cj := (List.range rows).flatMap fun r => keys (merged blocks r)
             ca := (List.range rows).flatMap fun r => vals (merged blocks r) } r = merged blocks r := by
  unfold csrRow
  simp only [List.getElem?_map]
  rw [List.getElem?_range (by omega), List.getElem?_range (by omega)]
  simp only [Option.map_some, Option.getD_some]
  have hz := zip_flatMap (merged blocks) (List.range rows)
  simp only [keys, vals]
  rw [hz]
  have : List.range rows = List.range r ++ (r :: (List.range (rows - r - 1)).map (fun x => r + 1 + x)) := by
    have e : rows = r + (1 + (rows - r - 1)) := by omega
    conv_lhs => rw [e]
    rw [List.range_add, List.range_add]
    simp [List.range_succ, Function.comp_def, Nat.add_assoc]
  rw [this, List.flatMap_append, List.drop_append_of_le_length (by rw [flatMap_length_offs]),
    List.drop_eq_nil_of_le (by rw [flatMap_length_offs]), List.nil_append, List.flatMap_cons, offs_succ,
    Nat.add_sub_cancel_left, List.take_append_of_le_length (le_refl _), List.take_length]

lemma colSum_map_entries (bp : Placement K) (row : Nat) (c : Int) :
    colSum (entries bp row) c = bp.sign * blockEntry bp.rows (row - bp.rowOffset) (c - bp.colOffset) := by
  unfold entries rowOf blockEntry
  simp only
  have gen : ∀ l : List (Int × K),
      colSum (l.map fun e => (e.1 + bp.colOffset, e.2 * bp.sign)) c =
        bp.sign * (l.map fun e => if e.1 = c - bp.colOffset then e.2 else 0).sum := by
    intro l
    induction l with
    | nil => simp [colSum]
    | cons e l ih =>
      unfold colSum at *
      simp only [List.map_cons, List.sum_cons, ih]
      by_cases h : e.1 = c - bp.colOffset
      · rw [if_pos (by omega), if_pos h]; ring
      · rw [if_neg (by omega), if_neg h]; ring
  by_cases h : (row : Int) - bp.rowOffset < 0
  · rw [if_pos (Or.inl h), if_neg (by omega)]; simp [colSum]
  · by_cases h2 : (bp.rows.length : Int) ≤ (row : Int) - bp.rowOffset
    · rw [if_pos (Or.inr h2), if_pos (by omega), List.getElem?_eq_none (by omega)]; simp [colSum]
    · rw [if_neg (by omega), if_pos (by omega), gen]

lemma colSum_append (a b : List (Int × K)) (c : Int) :
    ((a ++ b).map fun e => if e.1 = c then e.2 else 0).sum =
      (a.map fun e => if e.1 = c then e.2 else 0).sum + (b.map fun e => if e.1 = c then e.2 else 0).sum := by
  simp

lemma colSum_rowEntries (blocks : List (Placement K)) (row : Nat) (c : Int) :
    colSum (rowEntries blocks row) c = sumEntry blocks row c := by
  unfold rowEntries sumEntry
  induction blocks with
  | nil => simp [colSum]
  | cons bp bs ih =>
    rw [List.flatMap_cons, List.map_cons, List.sum_cons, ← ih, ← colSum_map_entries]
    unfold colSum
    rw [colSum_append]

lemma cols_of_inBounds {blocks : List (Placement K)} {rows cols : Nat} (h : InBounds blocks rows cols) :
    Cols blocks rows cols := by
  intro r hr e he
  unfold rowEntries at he
  obtain ⟨bp, hbp, he⟩ := List.mem_flatMap.mp he
  unfold entries at he
  obtain ⟨x, hx, rfl⟩ := List.mem_map.mp he
  unfold rowOf at hx
  simp only at hx
  by_cases hc : (r : Int) - bp.rowOffset < 0 ∨ (bp.rows.length : Int) ≤ (r : Int) - bp.rowOffset
  · rw [if_pos hc] at hx; simp at hx
  · rw [if_neg hc] at hx
    push Not at hc
    have hlt : ((r : Int) - bp.rowOffset).toNat < bp.rows.length := by omega
    rw [List.getElem?_eq_getElem hlt, Option.getD_some] at hx
    exact h bp hbp _ hlt (by omega) (by omega) x hx

end Dgtd.Csr
