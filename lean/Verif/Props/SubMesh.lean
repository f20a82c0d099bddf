/-
C35, C36, C83: sub-meshes around the total-field surface.
-/
import Verif.Spec.SubMesh
import Mathlib.Data.List.Induction
import Mathlib.Data.List.Basic
import Mathlib.Tactic.Ring
import Mathlib.Tactic.Abel
import Mathlib.Data.Rat.Defs
import Mathlib.Algebra.Order.Field.Rat

set_option linter.unusedSectionVars false

namespace Dgtd.SubMesh
open Spec

variable {K : Type} [Field K] [LinearOrder K]

/-! ### Attributes -/

instance (f : BFace) (e : Nat) : Decidable (Touches f e) := by unfold Touches; infer_instance

theorem tag_eq (a : Nat → Int) (f : BFace) (b : Bool) (e : Nat) :
    tag a f b e = if Touches f e then (if side b f e then TF else SF) else a e := by
  obtain ⟨mk, vs, fv, e1, o⟩ := f
  unfold tag Touches side setAttr
  cases o with
  | none =>
    cases b <;> by_cases h1 : e1 = e
    · simp [h1]
    · simp [h1, Ne.symm h1]
    · simp [h1]
    · simp [h1, Ne.symm h1]
  | some e2 =>
    cases b <;> by_cases h : e2 = e
    · simp [h]
    · by_cases h1 : e1 = e
      · simp [h, Ne.symm h, h1]
      · simp [h, Ne.symm h, h1, Ne.symm h1]
    · simp [h]
    · by_cases h1 : e1 = e
      · simp [h, Ne.symm h, h1]
      · simp [h, Ne.symm h, h1, Ne.symm h1]

theorem store_attr (s : St) (f : BFace) (ids : Int × Int) (b : Bool) : (store s f ids b).attr = s.attr := by
  unfold store; split_ifs <;> rfl

theorem process_snoc (m : Mesh K) (ds : List (BFace × (Int × Int) × Bool)) (d : BFace × (Int × Int) × Bool) :
    process m (ds ++ [d]) = prepare (process m ds) d.1 d.2.1 d.2.2 := by
  unfold process
  rw [List.foldl_append]; rfl

/-- The last marked face around an element decides its attribute; elements without marked faces keep theirs. -/
theorem process_attr (m : Mesh K) (ds : List (BFace × (Int × Int) × Bool)) (e : Nat) :
    (process m ds).attr e =
      match (ds.filter fun d => decide (Touches d.1 e)).getLast? with
      | some d => if side d.2.2 d.1 e then TF else SF
      | none => m.attr e := by
  induction ds using List.reverseRecOn with
  | nil => rfl
  | append_singleton ds d ih =>
    rw [process_snoc]
    unfold prepare
    rw [store_attr]
    simp only
    rw [tag_eq, List.filter_append]
    by_cases h : Touches d.1 e
    · simp [h]
    · simp [h, ih]

/-! ### Lists -/

/-- Both sides of the face are recorded. -/
def Complete (d : BFace × (Int × Int) × Bool) : Prop := d.2.1.2 ≠ NotFound ∨ d.1.e2 = none

theorem prepare_tf (s : St) (f : BFace) (ids : Int × Int) (b : Bool) : ∃ l, (prepare s f ids b).tf = s.tf ++ l := by
  unfold prepare store
  split_ifs
  · exact ⟨_, rfl⟩
  · exact ⟨_, rfl⟩
  · exact ⟨_, rfl⟩
  · exact ⟨[], by simp⟩

theorem prepare_sf (s : St) (f : BFace) (ids : Int × Int) (b : Bool) : ∃ l, (prepare s f ids b).sf = s.sf ++ l := by
  unfold prepare store
  split_ifs
  · exact ⟨_, rfl⟩
  · exact ⟨_, rfl⟩
  · exact ⟨[], by simp⟩
  · exact ⟨_, rfl⟩

theorem prepare_records (s : St) (d : BFace × (Int × Int) × Bool) (hc : Complete d) (e : Nat) (ht : Touches d.1 e) :
    (side d.2.2 d.1 e = true → ∃ id, ((e : Int), id) ∈ (prepare s d.1 d.2.1 d.2.2).tf) ∧
    (side d.2.2 d.1 e = false → ∃ id, ((e : Int), id) ∈ (prepare s d.1 d.2.1 d.2.2).sf) := by
  obtain ⟨f, ids, b⟩ := d
  simp only [Complete, Touches] at *
  unfold prepare store side elem2No
  simp only
  by_cases h2 : f.e2 = some e
  · have hn : ids.2 ≠ NotFound := by
      rcases hc with h | h
      · exact h
      · rw [h2] at h; cases h
    rw [if_pos h2]
    cases b <;> simp [hn, h2]
  · have h1 : f.e1 = e := by
      rcases ht with h | h
      · exact h
      · exact absurd h h2
    rw [if_neg h2]
    cases b <;> by_cases hn : ids.2 = NotFound <;> simp [hn, h1]

theorem process_records (m : Mesh K) (ds : List (BFace × (Int × Int) × Bool)) (hc : ∀ d ∈ ds, Complete d)
    (d : BFace × (Int × Int) × Bool) (hd : d ∈ ds) (e : Nat) (ht : Touches d.1 e) :
    (side d.2.2 d.1 e = true → ∃ id, ((e : Int), id) ∈ (process m ds).tf) ∧
    (side d.2.2 d.1 e = false → ∃ id, ((e : Int), id) ∈ (process m ds).sf) := by
  induction ds using List.reverseRecOn with
  | nil => cases hd
  | append_singleton ds x ih =>
    rw [process_snoc]
    rcases List.mem_append.1 hd with h | h
    · have h' := ih (fun d hd => hc d (by simp [hd])) h
      obtain ⟨l, hl⟩ := prepare_tf (process m ds) x.1 x.2.1 x.2.2
      obtain ⟨l', hl'⟩ := prepare_sf (process m ds) x.1 x.2.1 x.2.2
      refine ⟨fun hs => ?_, fun hs => ?_⟩
      · obtain ⟨id, hid⟩ := h'.1 hs
        exact ⟨id, by rw [hl]; simp [hid]⟩
      · obtain ⟨id, hid⟩ := h'.2 hs
        exact ⟨id, by rw [hl']; simp [hid]⟩
    · rw [List.mem_singleton.1 h] at ht ⊢
      exact prepare_records _ x (hc x (by simp)) e ht

theorem clean_ne_nil (l : List (Int × Int)) (e : Nat) (id : Int) (h : ((e : Int), id) ∈ l) : clean l ≠ [] := by
  intro hc
  have : ((e : Int), id) ∈ clean l := List.mem_filter.2 ⟨h, by simp⟩
  rw [hc] at this; cases this

theorem mem_withAttr (ne : Nat) (a : Nat → Int) (v : Int) (e : Nat) : e ∈ withAttr ne a v ↔ e < ne ∧ a e = v := by
  simp [withAttr]

/-! ### Global sub-mesh -/

theorem global_attr (l : List BFace) (a : Nat → Int) (e : Nat) :
    l.foldl tagGlobal a e = if ∃ f ∈ l, Touches f e then Global else a e := by
  induction l generalizing a with
  | nil => simp
  | cons f l ih =>
    rw [List.foldl_cons, ih]
    have hs : tagGlobal a f e = if Touches f e then Global else a e := by
      obtain ⟨mk, vs, fv, e1, o⟩ := f
      unfold tagGlobal Touches setAttr
      cases o with
      | none =>
        by_cases h : e = e1
        · simp [h]
        · simp [h, Ne.symm h]
      | some e2 =>
        by_cases h : e = e1
        · simp [h]
        · by_cases h' : e = e2
          · simp [h']
          · simp [h, h', Ne.symm h, Ne.symm h']
    by_cases h : ∃ g ∈ l, Touches g e
    · rw [if_pos h, if_pos]
      obtain ⟨g, hg, ht⟩ := h
      exact ⟨g, List.mem_cons_of_mem _ hg, ht⟩
    · rw [if_neg h, hs]
      by_cases ht : Touches f e
      · rw [if_pos ht, if_pos ⟨f, by simp, ht⟩]
      · rw [if_neg ht, if_neg]
        rintro ⟨g, hg, hge⟩
        rcases List.mem_cons.1 hg with rfl | hg
        · exact ht hge
        · exact h ⟨g, hg, hge⟩

/-- **C36**: the sub-mesh around the surface has exactly the elements that touch a marked face, in all dimensions. -/
theorem C36_global (dim : Nat) (m : Mesh K) (hf : Free m) (r : Result) (h : construct dim m = some r) (e : Nat)
    (he : e < m.ne) : e ∈ r.global ↔ ∃ f ∈ m.bdr, f.marked = true ∧ Touches f e := by
  unfold construct at h
  rw [Option.map_eq_some_iff] at h
  obtain ⟨ds, _, rfl⟩ := h
  simp only [mem_withAttr, he, true_and]
  unfold globalAttr
  rw [global_attr]
  have : (∃ f ∈ markedFaces m, Touches f e) ↔ ∃ f ∈ m.bdr, f.marked = true ∧ Touches f e := by
    simp [markedFaces, and_assoc]
  by_cases hx : ∃ f ∈ markedFaces m, Touches f e
  · simp [hx, this.1 hx]
  · rw [if_neg hx]
    exact ⟨fun h => absurd h (hf e he).2.2, fun h => absurd (this.2 h) hx⟩

/-! ### The two regions -/

theorem TF_ne_SF : TF ≠ SF := by decide

/-- Membership in the regions, for decisions that record both sides. -/
theorem regions (dim : Nat) (m : Mesh K) (hf : Free m) (r : Result) (ds : List (BFace × (Int × Int) × Bool))
    (hds : decisions dim m = some ds) (hc : ∀ d ∈ ds, Complete d) (h : construct dim m = some r) (e : Nat) (he : e < m.ne) :
    (e ∈ elems r.tf ↔ ∃ d, (ds.filter fun d => decide (Touches d.1 e)).getLast? = some d ∧ side d.2.2 d.1 e = true) ∧
    (e ∈ elems r.sf ↔ ∃ d, (ds.filter fun d => decide (Touches d.1 e)).getLast? = some d ∧ side d.2.2 d.1 e = false) := by
  unfold construct at h
  rw [hds] at h
  cases h
  have ha := process_attr m ds e
  have hfree := hf e he
  have key : ∀ d, (ds.filter fun d => decide (Touches d.1 e)).getLast? = some d → d ∈ ds ∧ Touches d.1 e := by
    intro d hd
    have := List.mem_of_getLast? hd
    rw [List.mem_filter] at this
    exact ⟨this.1, by simpa using this.2⟩
  refine ⟨⟨fun hm => ?_, ?_⟩, ⟨fun hm => ?_, ?_⟩⟩
  · simp only [elems] at hm
    split_ifs at hm
    · simp at hm
    · rw [Option.getD_some, mem_withAttr, ha] at hm
      cases hl : (ds.filter fun d => decide (Touches d.1 e)).getLast? with
      | none => rw [hl] at hm; exact absurd hm.2 hfree.1
      | some d =>
        rw [hl] at hm
        refine ⟨d, rfl, ?_⟩
        by_contra hs
        simp only [hs] at hm
        exact TF_ne_SF hm.2.symm
  · rintro ⟨d, hl, hs⟩
    obtain ⟨hd, ht⟩ := key d hl
    obtain ⟨id, hid⟩ := (process_records m ds hc d hd e ht).1 hs
    simp only [elems]
    rw [if_neg (clean_ne_nil _ _ _ hid), Option.getD_some, mem_withAttr, ha, hl]
    simp [he, hs]
  · simp only [elems] at hm
    split_ifs at hm
    · simp at hm
    · rw [Option.getD_some, mem_withAttr, ha] at hm
      cases hl : (ds.filter fun d => decide (Touches d.1 e)).getLast? with
      | none => rw [hl] at hm; exact absurd hm.2 hfree.2.1
      | some d =>
        rw [hl] at hm
        refine ⟨d, rfl, ?_⟩
        by_contra hs
        have hs : side d.2.2 d.1 e = true := by simpa using hs
        simp only [hs] at hm
        exact TF_ne_SF hm.2
  · rintro ⟨d, hl, hs⟩
    obtain ⟨hd, ht⟩ := key d hl
    obtain ⟨id, hid⟩ := (process_records m ds hc d hd e ht).2 hs
    simp only [elems]
    rw [if_neg (clean_ne_nil _ _ _ hid), Option.getD_some, mem_withAttr, ha, hl]
    simp [he, hs]

theorem touched_iff (dim : Nat) (m : Mesh K) (ds : List (BFace × (Int × Int) × Bool)) (hds : decisions dim m = some ds)
    (e : Nat) : (∃ d ∈ ds, Touches d.1 e) ↔ ∃ f ∈ m.bdr, f.marked = true ∧ Touches f e := by
  have : ds.map Prod.fst = markedFaces m := by
    unfold decisions at hds
    split at hds
    · split at hds
      · rename_i h; cases hds; simp [h]
      · rename_i h; cases hds; simp [h]
      · cases hds
    · cases hds
      simp [Function.comp_def]
  constructor
  · rintro ⟨d, hd, ht⟩
    have : d.1 ∈ markedFaces m := by rw [← this]; exact List.mem_map.2 ⟨d, hd, rfl⟩
    simp only [markedFaces, List.mem_filter] at this
    exact ⟨d.1, this.1, this.2, ht⟩
  · rintro ⟨f, hf, hm, ht⟩
    have hx : f ∈ ds.map Prod.fst := by rw [this]; exact List.mem_filter.2 ⟨hf, hm⟩
    obtain ⟨d, hd, rfl⟩ := List.mem_map.1 hx
    exact ⟨d, hd, ht⟩

theorem exactly_one (dim : Nat) (m : Mesh K) (hf : Free m) (r : Result) (ds : List (BFace × (Int × Int) × Bool))
    (hds : decisions dim m = some ds) (hc : ∀ d ∈ ds, Complete d) (h : construct dim m = some r) (e : Nat) (he : e < m.ne) :
    ((∃ f ∈ m.bdr, f.marked = true ∧ Touches f e) → (e ∈ elems r.tf ↔ e ∉ elems r.sf)) ∧
    ((¬ ∃ f ∈ m.bdr, f.marked = true ∧ Touches f e) → e ∉ elems r.tf ∧ e ∉ elems r.sf) := by
  obtain ⟨htf, hsf⟩ := regions dim m hf r ds hds hc h e he
  rw [htf, hsf, ← touched_iff dim m ds hds e]
  cases hl : (ds.filter fun d => decide (Touches d.1 e)).getLast? with
  | none =>
    rw [List.getLast?_eq_none_iff, List.filter_eq_nil_iff] at hl
    refine ⟨fun ⟨d, hd, ht⟩ => absurd (by simpa using ht) (hl d hd), fun _ => by simp⟩
  | some d =>
    have hm := List.mem_of_getLast? hl
    rw [List.mem_filter] at hm
    refine ⟨fun _ => ?_, fun hn => absurd ⟨d, hm.1, by simpa using hm.2⟩ hn⟩
    simp only [Option.some.injEq, exists_eq_left']
    cases side d.2.2 d.1 e <;> simp

theorem set2_ne (m : Mesh K) (f : BFace) : set2 m f ≠ NotFound := by
  unfold set2 NotFound
  split
  · split
    · omega
    · omega
  · omega

theorem complete_space (dim : Nat) (hd : dim ≠ 1) (m : Mesh K) (ds : List (BFace × (Int × Int) × Bool))
    (hds : decisions dim m = some ds) : ∀ d ∈ ds, Complete d := by
  unfold decisions at hds
  rw [if_neg hd] at hds
  cases hds
  intro d hd
  obtain ⟨f, _, rfl⟩ := List.mem_map.1 hd
  exact .inl (set2_ne m f)

/-- **C36**, two and three dimensions: every element that touches a marked face is in exactly one of the two regions, and no
other element is in any. -/
theorem C36_exactly_one (dim : Nat) (hd : dim ≠ 1) (m : Mesh K) (hf : Free m) :
    ∃ r, construct dim m = some r ∧ ∀ e < m.ne,
      ((∃ f ∈ m.bdr, f.marked = true ∧ Touches f e) → (e ∈ elems r.tf ↔ e ∉ elems r.sf)) ∧
      ((¬ ∃ f ∈ m.bdr, f.marked = true ∧ Touches f e) → e ∉ elems r.tf ∧ e ∉ elems r.sf) := by
  obtain ⟨ds, hds⟩ : ∃ ds, decisions dim m = some ds := by unfold decisions; rw [if_neg hd]; exact ⟨_, rfl⟩
  obtain ⟨r, hr⟩ : ∃ r, construct dim m = some r := by unfold construct; rw [hds]; exact ⟨_, rfl⟩
  exact ⟨r, hr, fun e he => exactly_one dim m hf _ ds hds (complete_space dim hd m ds hds) hr e he⟩

/-- Every entry of the two lists comes from a face: the first element with the first number, or the second element with the
second number. -/
theorem process_entries (m : Mesh K) (ds : List (BFace × (Int × Int) × Bool)) (x : Int × Int)
    (hx : x ∈ (process m ds).tf ++ (process m ds).sf) :
    ∃ d ∈ ds, x = ((d.1.e1 : Int), d.2.1.1) ∨ x = (elem2No d.1, d.2.1.2) := by
  unfold process at hx
  suffices H : ∀ s : St, x ∈ (ds.foldl (fun s d => prepare s d.1 d.2.1 d.2.2) s).tf ++
      (ds.foldl (fun s d => prepare s d.1 d.2.1 d.2.2) s).sf →
      x ∈ s.tf ++ s.sf ∨ ∃ d ∈ ds, x = ((d.1.e1 : Int), d.2.1.1) ∨ x = (elem2No d.1, d.2.1.2) by
    rcases H _ hx with h | h
    · simp at h
    · exact h
  clear hx
  intro s
  induction ds generalizing s with
  | nil => exact fun h => .inl h
  | cons d ds ih =>
    intro h
    rw [List.foldl_cons] at h
    rcases ih _ h with h | ⟨d', hd', h⟩
    · unfold prepare store at h
      have hm : x ∈ s.tf ++ s.sf ∨ (x = ((d.1.e1 : Int), d.2.1.1) ∨ x = (elem2No d.1, d.2.1.2)) := by
        split_ifs at h <;> simp only [List.mem_append, List.mem_singleton] at h ⊢ <;> tauto
      rcases hm with hm | hm
      · exact .inl hm
      · exact .inr ⟨d, by simp, hm⟩
    · exact .inr ⟨d', by simp [hd'], h⟩

/-- **C36**, two and three dimensions: the local faces recorded for the two regions are faces of the surface: each entry names
an element and the number of its face that has the vertices of a marked face. -/
theorem C36_local_faces (dim : Nat) (hd : dim ≠ 1) (m : Mesh K) (ds : List (BFace × (Int × Int) × Bool))
    (hds : decisions dim m = some ds)
    (hl : ∀ f ∈ m.bdr, f.marked = true → ∀ e, Touches f e → (localFace m e f).isSome) (x : Int × Int)
    (hx : x ∈ clean (process m ds).tf ++ clean (process m ds).sf) :
    ∃ (e i : Nat) (f : BFace), x = ((e : Int), (i : Int)) ∧ f ∈ m.bdr ∧ f.marked = true ∧ Touches f e ∧
      ∃ fv, (m.elemFaces e)[i]? = some fv ∧ fv.Perm f.verts := by
  have find : ∀ e i f, localFace m e f = some i → ∃ fv, (m.elemFaces e)[i]? = some fv ∧ fv.Perm f.verts := by
    intro e i f h
    unfold localFace at h
    rw [List.findIdx?_eq_some_iff_getElem] at h
    obtain ⟨hi, hp, _⟩ := h
    exact ⟨_, List.getElem?_eq_getElem hi, List.isPerm_iff.mp hp⟩
  have hm : x.1 ≠ -1 ∧ x ∈ (process m ds).tf ++ (process m ds).sf := by
    unfold clean at hx
    rw [List.mem_append, List.mem_filter, List.mem_filter] at hx
    rw [List.mem_append]
    rcases hx with h | h
    · exact ⟨by simpa using h.2, .inl h.1⟩
    · exact ⟨by simpa using h.2, .inr h.1⟩
  obtain ⟨d, hdm, hxd⟩ := process_entries m ds x hm.2
  unfold decisions at hds
  rw [if_neg hd] at hds
  cases hds
  obtain ⟨f, hf, rfl⟩ := List.mem_map.1 hdm
  unfold markedFaces at hf
  rw [List.mem_filter] at hf
  rcases hxd with h | h
  · obtain ⟨i, hi⟩ := Option.isSome_iff_exists.mp (hl f hf.1 hf.2 f.e1 (.inl rfl))
    refine ⟨f.e1, i, f, ?_, hf.1, hf.2, .inl rfl, find _ _ _ hi⟩
    rw [h]
    simp [decision, set1, hi]
  · cases h2 : f.e2 with
    | none => rw [h] at hm; simp [elem2No, h2] at hm
    | some e2 =>
      obtain ⟨i, hi⟩ := Option.isSome_iff_exists.mp (hl f hf.1 hf.2 e2 (.inr h2))
      refine ⟨e2, i, f, ?_, hf.1, hf.2, .inr h2, find _ _ _ hi⟩
      rw [h]
      simp [decision, set2, hi, elem2No, h2]

theorem bary_centre (m : Mesh K) (vs : List Nat) : bary m vs = centre m vs := rfl

theorem nodup_dedup' (l : List Nat) : l.eraseDups.Nodup ∧ ∀ x, x ∈ l.eraseDups ↔ x ∈ l := by
  induction hn : l.length using Nat.strong_induction_on generalizing l with
  | _ n ih =>
    cases l with
    | nil => simp
    | cons a l =>
      rw [List.eraseDups_cons]
      obtain ⟨i1, i2⟩ := ih (l.filter fun b => !b == a).length (by
        rw [← hn, List.length_cons]; exact Nat.lt_succ_of_le (List.length_filter_le _ _)) _ rfl
      constructor
      · rw [List.nodup_cons]
        refine ⟨?_, i1⟩
        rw [i2]
        simp
      · intro x
        simp only [List.mem_cons, i2, List.mem_filter]
        by_cases h : x = a <;> simp [h]

theorem center_middle (m : Mesh K) : center m = middle m := by
  funext d
  unfold center middle surface
  simp only
  generalize ((m.bdr.filter fun f => f.marked).flatMap fun f => f.verts) = l
  obtain ⟨h1, h2⟩ := nodup_dedup' l
  have h3 : l.toFinset = l.eraseDups.toFinset := by ext x; simp [h2]
  rw [h3, List.sum_toFinset _ h1, List.toFinset_card_of_nodup h1]
  split_ifs with h
  · simp [List.length_eq_zero_iff.1 h]
  · rfl

theorem distSq_away (m : Mesh K) (p : Fin 3 → K) : distSq m p = away m p := by
  unfold distSq away dist2
  rw [center_middle]
  ring

/-- What one marked face says in two dimensions: its first element is on the total-field side exactly if the vector from it
to the other side and the direction of the face turn clockwise. -/
theorem C36_rule_plane (m : Mesh K) (f : BFace) (hl : (localFace m f.e1 f).isSome) (a b : Nat) (hv : f.fverts = [a, b]) :
    (decision 2 m f).2 = true ↔
      (beyond m f 0 - centre m (m.elemVerts f.e1) 0) * (m.coord b 1 - m.coord a 1) -
      (beyond m f 1 - centre m (m.elemVerts f.e1) 1) * (m.coord b 0 - m.coord a 0) < 0 := by
  have ho : orientation2 m f = (beyond m f 0 - centre m (m.elemVerts f.e1) 0) * (m.coord b 1 - m.coord a 1) -
      (beyond m f 1 - centre m (m.elemVerts f.e1) 1) * (m.coord b 0 - m.coord a 0) := by
    unfold orientation2 baryVec beyond
    simp only [bary_centre, hv]
    cases f.e2 <;> rfl
  unfold decision set1
  cases h : localFace m f.e1 f with
  | none => rw [h] at hl; cases hl
  | some i => simp [ho]

/-- What one marked face says in three dimensions: its first element is on the total-field side exactly if it is closer to
the centre of the surface than the other side. -/
theorem C36_rule_space (m : Mesh K) (f : BFace) (hl : (localFace m f.e1 f).isSome) :
    (decision 3 m f).2 = true ↔
      away m (centre m (m.elemVerts f.e1)) < away m (beyond m f) := by
  unfold decision set1
  cases h : localFace m f.e1 f with
  | none => rw [h] at hl; cases hl
  | some i =>
    simp only [show (3 : Nat) ≠ 2 by decide, if_false]
    unfold closer beyond
    simp only [bary_centre, distSq_away]
    cases f.e2 <;> simp

/-- **C36**, partial: if the marked faces around each element agree, every marked face is obeyed: the elements on its
total-field side are in the total region and those on its scattered side in the scattered region.  Missing: elements on which
marked faces disagree, for which only the last face is obeyed (`C36_violated_conflict`). -/
theorem C36_rule_partial (dim : Nat) (hd : dim ≠ 1) (m : Mesh K) (hf : Free m) (r : Result)
    (ds : List (BFace × (Int × Int) × Bool)) (hds : decisions dim m = some ds) (hcs : Consistent ds)
    (h : construct dim m = some r) (d : BFace × (Int × Int) × Bool) (hdm : d ∈ ds) (e : Nat) (he : e < m.ne)
    (ht : Touches d.1 e) :
    (e ∈ elems r.tf ↔ side d.2.2 d.1 e = true) ∧ (e ∈ elems r.sf ↔ side d.2.2 d.1 e = false) := by
  obtain ⟨htf, hsf⟩ := regions dim m hf r ds hds (complete_space dim hd m ds hds) h e he
  rw [htf, hsf]
  cases hl : (ds.filter fun d => decide (Touches d.1 e)).getLast? with
  | none =>
    rw [List.getLast?_eq_none_iff, List.filter_eq_nil_iff] at hl
    exact absurd (by simpa using ht) (hl d hdm)
  | some x =>
    have hm := List.mem_of_getLast? hl
    rw [List.mem_filter] at hm
    have := hcs d hdm x hm.1 e ht (by simpa using hm.2)
    simp only [Option.some.injEq, exists_eq_left', this]
    exact ⟨trivial, trivial⟩

/-- Elements on which the marked faces disagree follow the last one. -/
theorem C36_last_wins (dim : Nat) (hd : dim ≠ 1) (m : Mesh K) (hf : Free m) (r : Result)
    (ds ds' : List (BFace × (Int × Int) × Bool)) (d : BFace × (Int × Int) × Bool) (e : Nat)
    (hds : decisions dim m = some (ds ++ d :: ds')) (hl : ∀ x ∈ ds', ¬ Touches x.1 e)
    (h : construct dim m = some r) (he : e < m.ne) (ht : Touches d.1 e) :
    (e ∈ elems r.tf ↔ side d.2.2 d.1 e = true) ∧ (e ∈ elems r.sf ↔ side d.2.2 d.1 e = false) := by
  obtain ⟨htf, hsf⟩ := regions dim m hf r _ hds (complete_space dim hd m _ hds) h e he
  have : ((ds ++ d :: ds').filter fun d => decide (Touches d.1 e)).getLast? = some d := by
    rw [List.filter_append, List.filter_cons]
    have h0 : ds'.filter (fun d => decide (Touches d.1 e)) = [] :=
      List.filter_eq_nil_iff.2 fun x hx => by simpa using hl x hx
    simp [ht, h0]
  rw [htf, hsf, this]
  simp

/-- **C36**, one dimension, partial: with two points, or with one point that is not an interior end of the first or last
element, every element touching a marked point is in exactly one region.  Missing: the remaining case
(`C36_violated_line`). -/
theorem C36_line_partial (m : Mesh K) (hf : Free m) (r : Result) (h : construct 1 m = some r)
    (hp : ∀ f, markedFaces m = [f] → f.e2 = none ∨ (f.e1 ≠ 0 ∧ f.e1 + 1 ≠ m.ne)) (e : Nat) (he : e < m.ne) :
    ((∃ f ∈ m.bdr, f.marked = true ∧ Touches f e) → (e ∈ elems r.tf ↔ e ∉ elems r.sf)) ∧
    ((¬ ∃ f ∈ m.bdr, f.marked = true ∧ Touches f e) → e ∉ elems r.tf ∧ e ∉ elems r.sf) := by
  have h0 := h
  unfold construct at h0
  rw [Option.map_eq_some_iff] at h0
  obtain ⟨ds, hds, _⟩ := h0
  refine exactly_one 1 m hf r ds hds ?_ h e he
  unfold decisions at hds
  rw [if_pos rfl] at hds
  have two : ∀ b f, Complete (f, decisionTwo m b f) := by
    intro b f
    unfold Complete decisionTwo NotFound
    by_cases h2 : f.e2 = none
    · exact .inr h2
    · left; simp only [h2, and_false, if_false]
      split <;> simp
  split at hds
  · rename_i f hm
    cases hds
    intro d hd
    rw [List.mem_singleton.1 hd]
    unfold Complete decisionOne NotFound
    rcases hp f hm with h2 | ⟨h2, h3⟩
    · exact .inr h2
    · left; simp [h2, h3]
  · cases hds
    intro d hd
    rcases List.mem_cons.1 hd with rfl | hd
    · exact two _ _
    · rw [List.mem_singleton.1 hd]; exact two _ _
  · cases hds

/-- **C36**: in one dimension other numbers of points are rejected. -/
theorem C36_line_rejects (m : Mesh K) : construct 1 m = none ↔ (markedFaces m).length ≠ 1 ∧ (markedFaces m).length ≠ 2 := by
  unfold construct
  rw [Option.map_eq_none_iff]
  unfold decisions
  rw [if_pos rfl]
  match markedFaces m with
  | [] => simp
  | [_] => simp
  | [_, _] => simp
  | _ :: _ :: _ :: _ => simp

/-! ### Counterexamples -/

/-- Three segments; the only marked point is between the first two. -/
def exLine : Mesh ℚ where
  ne := 3
  attr := fun _ => 1
  coord := fun v => ![(v : ℚ), 0, 0]
  elemVerts := fun e => [e, e + 1]
  elemFaces := fun e => [[e], [e + 1]]
  bdr := [⟨false, [0], [0], 0, none⟩, ⟨false, [3], [3], 2, none⟩, ⟨true, [1], [1], 0, some 1⟩]

/-- **C36** fails in one dimension: with a single marked point between the first two segments the second segment is in no
region, and there is no scattered sub-mesh at all. -/
theorem C36_violated_line :
    (construct 1 exLine).map (fun r => (r.global, r.tf, r.sf)) = some ([0, 1], some [0], none) := by
  decide +kernel

/-- Two triangles of a square and a third one. -/
def exPlane : Mesh ℚ where
  ne := 3
  attr := fun _ => 1
  coord := fun v => [![0, 0, 0], ![1, 0, 0], ![1, 1, 0], ![0, 1, 0], ![2, 0, 0]].getD v ![0, 0, 0]
  elemVerts := fun e => [[0, 1, 2], [0, 2, 3], [1, 4, 2]].getD e []
  elemFaces := fun e => [[[0, 1], [1, 2], [2, 0]], [[0, 2], [2, 3], [3, 0]], [[1, 4], [4, 2], [2, 1]]].getD e []
  bdr := [⟨true, [2, 0], [2, 0], 0, some 1⟩, ⟨true, [1, 2], [2, 1], 0, some 2⟩]

/-- **C36** fails for elements on which marked faces disagree: the first face puts the first triangle on the scattered side,
but it ends in the total region. -/
theorem C36_violated_conflict :
    (decisions 2 exPlane).map (fun ds => ds.map fun d => d.2.2) = some [false, true] ∧
    (construct 2 exPlane).map (fun r => (r.global, r.tf, r.sf)) = some ([0, 1, 2], some [0, 1], some [2]) := by
  decide +kernel

/-- **C36** fails if the mesh already uses the attribute 1000: an element away from the surface joins the total region. -/
theorem C36_violated_reserved :
    (construct 2 { exPlane with attr := fun e => if e = 2 then 1000 else 1, bdr := [⟨true, [2, 0], [2, 0], 0, some 1⟩] }).map
      (fun r => (r.global, r.tf, r.sf)) = some ([0, 1], some [1, 2], some [0]) := by
  decide +kernel

/-- Two tetrahedra that form a long convex solid, and one outside that touches it. -/
def exSpace : Mesh ℚ where
  ne := 3
  attr := fun _ => 1
  coord := fun v => [![10, 0, 0], ![-10, 0, 0], ![0, 1, 0], ![0, 0, 1], ![0, -1, -1], ![-5, 1, 1]].getD v ![0, 0, 0]
  elemVerts := fun e => [[0, 2, 3, 4], [1, 2, 3, 4], [0, 2, 3, 5]].getD e []
  elemFaces := fun e => [[[0, 2, 3], [0, 2, 4], [0, 3, 4], [2, 3, 4]], [[1, 2, 3], [1, 2, 4], [1, 3, 4], [2, 3, 4]],
    [[0, 2, 3], [0, 2, 5], [0, 3, 5], [2, 3, 5]]].getD e []
  bdr := [⟨true, [1, 2, 3], [1, 2, 3], 1, none⟩, ⟨true, [1, 2, 4], [1, 2, 4], 1, none⟩, ⟨true, [1, 3, 4], [1, 3, 4], 1, none⟩,
    ⟨true, [0, 2, 4], [0, 2, 4], 0, none⟩, ⟨true, [0, 3, 4], [0, 3, 4], 0, none⟩, ⟨true, [0, 2, 3], [0, 2, 3], 0, some 2⟩]

/-- **C83** fails: the marked faces are the whole surface of a convex solid (all its vertices are on one side of the plane of
the last face); the first tetrahedron is inside, the third one is outside, on the other side of that plane; and the third one
is placed in the total region and the first one in the scattered region. -/
theorem C83_violated :
    (∀ v ∈ [0, 1, 2, 3, 4], exSpace.coord v 0 / 10 + exSpace.coord v 1 + exSpace.coord v 2 ≤ 1) ∧
    (∀ v ∈ exSpace.elemVerts 0, v ∈ [0, 1, 2, 3, 4]) ∧
    (∀ v ∈ exSpace.elemVerts 2, 1 ≤ exSpace.coord v 0 / 10 + exSpace.coord v 1 + exSpace.coord v 2) ∧
    (construct 3 exSpace).map (fun r => (r.tf, r.sf)) = some (some [1, 2], some [0]) := by
  decide +kernel

/-- **C83**, partial: if for every marked face the barycentre of its inner element is closer to the centre of the surface than
that of its outer element (or than the face, if there is no outer element), the inner elements form the total region and the
outer ones the scattered region.  Missing: surfaces for which this is not so, even convex ones (`C83_violated`). -/
theorem C83_inside_partial (m : Mesh K) (hf : Free m) (inside : Nat → Bool)
    (hl : ∀ f ∈ m.bdr, f.marked = true → (localFace m f.e1 f).isSome)
    (h1 : ∀ f ∈ m.bdr, f.marked = true → ∀ e2, f.e2 = some e2 → inside f.e1 ≠ inside e2 ∧
      (inside f.e1 = true → away m (centre m (m.elemVerts f.e1)) < away m (centre m (m.elemVerts e2))) ∧
      (inside e2 = true → ¬ away m (centre m (m.elemVerts f.e1)) < away m (centre m (m.elemVerts e2))))
    (h2 : ∀ f ∈ m.bdr, f.marked = true → f.e2 = none →
      (inside f.e1 = true ↔ away m (centre m (m.elemVerts f.e1)) < away m (centre m f.fverts))) :
    ∃ r, construct 3 m = some r ∧ ∀ e < m.ne, (∃ f ∈ m.bdr, f.marked = true ∧ Touches f e) →
      (e ∈ elems r.tf ↔ inside e = true) ∧ (e ∈ elems r.sf ↔ inside e = false) := by
  obtain ⟨r, hr, _⟩ := C36_exactly_one 3 (by decide) m hf
  have hds : decisions 3 m = some ((markedFaces m).map fun f => (f, decision 3 m f)) := by
    unfold decisions; rw [if_neg (by decide)]
  have hside : ∀ f ∈ m.bdr, f.marked = true → ∀ e, Touches f e → side (decision 3 m f).2 f e = inside e := by
    intro f hfm hmk e ht
    have hrule := C36_rule_space m f (hl f hfm hmk)
    unfold side
    cases he2 : f.e2 with
    | none =>
      simp only [beyond, he2, Option.map_none, Option.map_some, Option.getD_none, Option.getD_some] at hrule
      have h1' : f.e1 = e := by
        rcases ht with h | h
        · exact h
        · rw [he2] at h; cases h
      have h3 := h2 f hfm hmk he2
      simp only [reduceCtorEq, if_false]
      rw [Bool.eq_iff_iff, hrule, ← h3, h1']
    | some e2 =>
      simp only [beyond, he2, Option.map_none, Option.map_some, Option.getD_none, Option.getD_some] at hrule
      obtain ⟨hne, ha, hb⟩ := h1 f hfm hmk e2 he2
      have hdec : (decision 3 m f).2 = inside f.e1 := by
        rw [Bool.eq_iff_iff, hrule]
        refine ⟨fun hlt => ?_, ha⟩
        by_contra hc
        cases hi : inside e2 with
        | true => exact hb hi hlt
        | false =>
          apply hne
          rw [hi]
          simpa using hc
      rw [hdec]
      by_cases h : e2 = e
      · rw [if_pos (by rw [h]), ← h]
        cases h3 : inside f.e1 <;> cases h4 : inside e2 <;> simp_all
      · rw [if_neg (by simpa using h)]
        rcases ht with h5 | h5
        · rw [h5]
        · rw [he2] at h5; exact absurd (Option.some.inj h5) h
  refine ⟨r, hr, fun e he ⟨f, hfm, hmk, ht⟩ => ?_⟩
  have hcs : Consistent ((markedFaces m).map fun f => (f, decision 3 m f)) := by
    intro d hd d' hd' e hte hte'
    obtain ⟨g, hg, rfl⟩ := List.mem_map.1 hd
    obtain ⟨g', hg', rfl⟩ := List.mem_map.1 hd'
    rw [markedFaces, List.mem_filter] at hg hg'
    rw [hside g hg.1 hg.2 e hte, hside g' hg'.1 hg'.2 e hte']
  have := C36_rule_partial 3 (by decide) m hf r _ hds hcs hr (f, decision 3 m f)
    (List.mem_map.2 ⟨f, List.mem_filter.2 ⟨hfm, hmk⟩, rfl⟩) e he ht
  rw [hside f hfm hmk e ht] at this
  exact this

/-! ### Transfers -/

theorem add_fold (l : List (Nat × Nat)) (src dst : Nat → K) (k : Nat) :
    l.foldl (fun d p => fun k => if k = p.1 then d k + src p.2 else d k) dst k =
      dst k + ((l.filter fun p => decide (p.1 = k)).map fun p => src p.2).sum := by
  induction l generalizing dst with
  | nil => simp
  | cons p l ih =>
    rw [List.foldl_cons, ih]
    by_cases h : p.1 = k
    · simp [h, add_assoc]
    · simp [h, Ne.symm h]

theorem sub_fold (l : List (Nat × Nat)) (src dst : Nat → K) (k : Nat) :
    l.foldl (fun d p => fun k => if k = p.1 then d k - src p.2 else d k) dst k =
      dst k - ((l.filter fun p => decide (p.1 = k)).map fun p => src p.2).sum := by
  induction l generalizing dst with
  | nil => simp
  | cons p l ih =>
    rw [List.foldl_cons, ih]
    by_cases h : p.1 = k
    · simp [h]; ring
    · simp [h, Ne.symm h]

/-- **C35**: after adding, every degree of freedom of the parent holds its old value plus all the values mapped to it. -/
theorem C35_add (map : List Nat) (src dst : Nat → K) (k : Nat) :
    transferAdd map src dst k =
      dst k + (((List.range map.length).filter fun i => decide (map[i]? = some k)).map src).sum := by
  unfold transferAdd
  rw [add_fold]
  congr 2
  have : map.zipIdx = (List.range map.length).map fun i => (map.getD i 0, i) := by
    apply List.ext_getElem
    · simp
    · intro i h1 h2
      simp at h1
      simp [h1]
  rw [this, List.filter_map, List.map_map]
  have hp : (List.range map.length).filter ((fun p : Nat × Nat => decide (p.1 = k)) ∘ fun i => (map.getD i 0, i)) =
      (List.range map.length).filter fun i => decide (map[i]? = some k) := by
    apply List.filter_congr
    intro i hi
    have hi := List.mem_range.1 hi
    simp [hi]
  rw [hp]
  rfl

/-- **C35**: subtracting the field that was added restores the parent, and so does adding the field that was subtracted. -/
theorem C35_round_trip (map : List Nat) (src dst : Nat → K) :
    transferSub map src (transferAdd map src dst) = dst ∧ transferAdd map src (transferSub map src dst) = dst := by
  unfold transferSub transferAdd
  constructor
  · funext k
    rw [sub_fold, add_fold]; ring
  · funext k
    rw [add_fold, sub_fold]; ring

/-- **C35**: degrees of freedom that are not mapped do not change. -/
theorem C35_others (map : List Nat) (src dst : Nat → K) (k : Nat) (h : k ∉ map) :
    transferAdd map src dst k = dst k ∧ transferSub map src dst k = dst k := by
  unfold transferSub transferAdd
  rw [add_fold, sub_fold]
  have : map.zipIdx.filter (fun p => decide (p.1 = k)) = [] := by
    rw [List.filter_eq_nil_iff]
    rintro ⟨a, i⟩ hp
    have ha := List.fst_mem_of_mem_zipIdx hp
    simp only [decide_eq_true_eq]
    rintro rfl
    exact h ha
  rw [this]; simp

example : transferAdd [2, 0, 2] (fun i => [(5 : ℚ), 7, 11].getD i 0) (fun _ => 1) 2 = 17 := by decide +kernel

/-! ### Cases that meet the hypotheses -/

/-- A square of two triangles with its diagonal marked. -/
def exSquare : Mesh ℚ := { exPlane with ne := 2, bdr := [⟨true, [2, 0], [0, 2], 0, some 1⟩] }

example : Free exSquare := by
  intro e _
  simp [exSquare, exPlane, TF, SF, Global]

example : (localFace exSquare 0 ⟨true, [2, 0], [0, 2], 0, some 1⟩).isSome := by decide

example : (construct 2 exSquare).map (fun r => (r.global, r.tf, r.sf)) = some ([0, 1], some [0], some [1]) := by
  decide +kernel

example : (decisions 2 exSquare).map (fun ds => clean (process exSquare ds).tf ++ clean (process exSquare ds).sf) =
    some [(0, 2), (1, 0)] ∧ (localFace exSquare 1 ⟨true, [2, 0], [0, 2], 0, some 1⟩).isSome := by decide +kernel

/-- A regular solid: the centre is closer to the inner tetrahedron. -/
def exInside : Mesh ℚ := { exSpace with
  coord := fun v => [![3, 0, 0], ![-3, 0, 0], ![0, 1, 0], ![0, 0, 1], ![0, -1, -1], ![2, 3, 3]].getD v ![0, 0, 0] }

example : (construct 3 exInside).map (fun r => (r.tf, r.sf)) = some (some [0, 1], some [2]) ∧
    away exInside (centre exInside (exInside.elemVerts 0)) < away exInside (centre exInside (exInside.elemVerts 2)) := by
  decide +kernel

/-- The hypotheses of `C83_inside_partial` hold for it. -/
example : ∃ r, construct 3 exInside = some r ∧
    ∀ e < exInside.ne, (∃ f ∈ exInside.bdr, f.marked = true ∧ Touches f e) →
      (e ∈ elems r.tf ↔ decide (e < 2) = true) ∧ (e ∈ elems r.sf ↔ decide (e < 2) = false) := by
  refine C83_inside_partial exInside ?_ (fun e => decide (e < 2)) ?_ ?_ ?_
  · intro e _
    simp [exInside, exSpace, TF, SF, Global]
  · decide +kernel
  · intro f hf _ e2 he
    simp only [exInside, exSpace, List.mem_cons, List.not_mem_nil, or_false] at hf
    rcases hf with rfl | rfl | rfl | rfl | rfl | rfl <;> cases he
    decide +kernel
  · intro f hf _ he
    simp only [exInside, exSpace, List.mem_cons, List.not_mem_nil, or_false] at hf
    rcases hf with rfl | rfl | rfl | rfl | rfl | rfl <;> first | (cases he; done) | decide +kernel

end Dgtd.SubMesh
