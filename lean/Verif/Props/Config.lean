import Verif.Spec.Config
import Verif.Lemmas.Assoc
import Mathlib.Algebra.Order.Field.Rat
import Mathlib.Tactic.Linarith

/-
C17, C18, C20, C21, C22, C59 and C71–C73: from the case description to materials, boundary conditions and
markers.
-/
namespace Dgtd.Config

open Dgtd Spec

set_option linter.unusedSectionVars false

variable {K : Type} [Field K] [LinearOrder K]

/-! ### C59: keywords -/

theorem C59_boundary (s : String) (c : Cond) : assignBdrCond s = .ok c ↔ (s, c) ∈ condTable := by
  unfold assignBdrCond condTable
  split_ifs with h1 h2 h3 h4 <;> simp_all [eq_comm]

theorem C59_boundary_error (s : String) :
    assignBdrCond s = .error .throw ↔ ∀ c, (s, c) ∉ condTable := by
  unfold assignBdrCond condTable
  split_ifs with h1 h2 h3 h4 <;> simp_all

theorem C59_layer_end (s : String) (c : Cond) : assignBoundaryType s = .ok c ↔ (s, c) ∈ endTable := by
  unfold assignBoundaryType endTable
  split_ifs with h1 h2 h3 <;> simp_all [eq_comm]

theorem C59_field (s : String) (f : FieldType) : assignFieldType s = .ok f ↔ (s, f) ∈ fieldTable := by
  unfold assignFieldType fieldTable
  split_ifs with h1 h2 <;> simp_all [eq_comm]

theorem C59_axis (s : String) (a : Axis) : assignFieldPol s = .ok a ↔ (s, a) ∈ axisTable := by
  unfold assignFieldPol axisTable
  split_ifs with h1 h2 h3 <;> simp_all [eq_comm]

theorem C59_evolution (s : Option String) (o : EvolOp) : assignEvolOp s = .ok o ↔ (s, o) ∈ evolTable := by
  unfold assignEvolOp evolTable
  cases s with
  | none => simp [eq_comm]
  | some s =>
    dsimp only
    split_ifs with h1 h2 h3 <;> simp_all [eq_comm]

/-- **C59.** Different keywords have different meanings, and every decoder refuses any other string. -/
theorem C59_one_to_one (s s' : String) (c : Cond) (h : assignBdrCond s = .ok c)
    (h' : assignBdrCond s' = .ok c) : s = s' := by
  rw [C59_boundary] at h h'
  simp only [condTable, List.mem_cons, Prod.mk.injEq, List.not_mem_nil, or_false] at h h'
  rcases h with ⟨a, b⟩ | ⟨a, b⟩ | ⟨a, b⟩ | ⟨a, b⟩ <;> rcases h' with ⟨a', b'⟩ | ⟨a', b'⟩ | ⟨a', b'⟩ | ⟨a', b'⟩ <;>
    simp_all

theorem C59_no_others (s : String) :
    ((∀ c, (s, c) ∉ endTable) → assignBoundaryType s = .error .throw) ∧
    ((∀ f, (s, f) ∉ fieldTable) → assignFieldType s = .error .throw) ∧
    ((∀ a, (s, a) ∉ axisTable) → assignFieldPol s = .error .throw) ∧
    ((∀ o, (some s, o) ∉ evolTable) → assignEvolOp (some s) = .error .throw) := by
  unfold assignBoundaryType assignFieldType assignFieldPol assignEvolOp endTable fieldTable axisTable evolTable
  dsimp only
  refine ⟨fun h => ?_, fun h => ?_, fun h => ?_, fun h => ?_⟩ <;> split_ifs <;> simp_all

example : assignBdrCond "SMA" = .ok .sma ∧ assignBdrCond "sma" = .error .throw := by decide

/-! ### C18: materials -/

theorem make_ok_iff (a b c : K) (m : Material K) :
    Material.make a b c = .ok m ↔ m = ⟨a, b, c⟩ ∧ Physical m := by
  unfold Material.make
  split_ifs with h1 h2 h3
  · simp only [false_iff]; rintro ⟨e, p⟩; subst e; exact absurd p.1 (not_le.2 h1)
  · simp only [false_iff]; rintro ⟨e, p⟩; subst e; exact absurd p.2.1 (not_le.2 h2)
  · simp only [false_iff]; rintro ⟨e, p⟩; subst e; exact absurd p.2.2 (not_le.2 h3)
  · simp only [Except.ok.injEq]
    constructor
    · intro e; subst e; exact ⟨rfl, not_lt.1 h1, not_lt.1 h2, not_lt.1 h3⟩
    · rintro ⟨e, _⟩; exact e.symm

theorem make_error (a b c : K) (e : Err) (h : Material.make a b c = .error e) : e = .throw := by
  unfold Material.make at h
  split_ifs at h <;> simp_all

theorem build_eq (Z0 : K) (p : MatParams K) :
    buildMaterial Z0 p = Material.make (described Z0 p).eps (described Z0 p).mu (described Z0 p).sigma := by
  unfold buildMaterial described
  cases p.bulkConductivity <;> simp

theorem build_ok_iff (Z0 : K) (p : MatParams K) (m : Material K) :
    buildMaterial Z0 p = .ok m ↔ m = described Z0 p ∧ Physical (described Z0 p) := by
  rw [build_eq, make_ok_iff]
  constructor
  · rintro ⟨e, h⟩; have : m = described Z0 p := e; exact ⟨this, this ▸ h⟩
  · rintro ⟨e, h⟩; exact ⟨e, e ▸ h⟩

theorem emplaceTags_ok (mat : Material K) (ts : List Int) : ∀ m : List (Int × Material K),
    ∃ m', emplaceTags (.ok mat) ts m = .ok m' ∧
      ∀ t, Assoc.find m' t = (Assoc.find m t).or (if t ∈ ts then some mat else none) := by
  induction ts with
  | nil => intro m; exact ⟨m, rfl, fun t => by simp⟩
  | cons u ts ih =>
    intro m
    obtain ⟨m', h1, h2⟩ := ih (Assoc.insert m u mat)
    refine ⟨m', h1, fun t => ?_⟩
    rw [h2, Assoc.find_insert]
    by_cases h : t = u
    · subst h; cases Assoc.find m t <;> simp
    · simp [h]

theorem emplaceTags_error (e : Err) (ts : List Int) (m : List (Int × Material K)) :
    emplaceTags (.error e) ts m = if ts = [] then .ok m else .error e := by
  cases ts <;> simp [emplaceTags]

/-- One step of a material loop: either the entry is usable, or the loop stops with an exception. -/
theorem emplaceTags_build (Z0 : K) (p : MatParams K) (ts : List Int) (m : List (Int × Material K)) :
    (ts = [] ∨ Physical (described Z0 p) → ∃ m', emplaceTags (buildMaterial Z0 p) ts m = .ok m' ∧
      ∀ t, Assoc.find m' t =
        (Assoc.find m t).or (if t ∈ ts then some (described Z0 p) else none)) ∧
    (ts ≠ [] → ¬ Physical (described Z0 p) →
      emplaceTags (buildMaterial Z0 p) ts m = .error .throw) := by
  cases hb : buildMaterial Z0 p with
  | ok mat =>
    obtain ⟨e, hp⟩ := (build_ok_iff Z0 p mat).1 hb
    subst e
    exact ⟨fun _ => emplaceTags_ok _ ts m, fun _ h => absurd hp h⟩
  | error x =>
    have hx : x = .throw := by rw [build_eq] at hb; exact make_error _ _ _ x hb
    subst hx
    rw [emplaceTags_error]
    refine ⟨fun h => ?_, fun h _ => by rw [if_neg h]⟩
    rcases h with h | h
    · exact ⟨m, by rw [if_pos h], fun t => by simp [h]⟩
    · exact absurd ((build_ok_iff Z0 p _).2 ⟨rfl, h⟩) (by rw [hb]; simp)

theorem materialLoop_spec (Z0 : K) (ms : List (MatEntry K)) : ∀ m : List (Int × Material K),
    ((∀ e ∈ ms, e.tags = [] ∨ Physical (described Z0 e.params)) →
      ∃ m', materialLoop Z0 ms m = .ok m' ∧ ∀ t, Assoc.find m' t =
        (Assoc.find m t).or ((firstMat ms t).map fun e => described Z0 e.params)) ∧
    (¬ (∀ e ∈ ms, e.tags = [] ∨ Physical (described Z0 e.params)) →
      materialLoop Z0 ms m = .error .throw) := by
  induction ms with
  | nil => intro m; exact ⟨fun _ => ⟨m, rfl, fun t => by simp [firstMat]⟩, fun h => absurd (by simp) h⟩
  | cons e ms ih =>
    intro m
    obtain ⟨h1, h2⟩ := emplaceTags_build Z0 e.params e.tags m
    constructor
    · intro h
      obtain ⟨m1, e1, f1⟩ := h1 (h e (by simp))
      obtain ⟨m', e2, f2⟩ := (ih m1).1 fun x hx => h x (by simp [hx])
      refine ⟨m', by rw [materialLoop, e1]; exact e2, fun t => ?_⟩
      rw [f2, f1]
      unfold firstMat
      by_cases ht : t ∈ e.tags
      · simp [ht]
      · simp [ht]
    · intro h
      by_cases he : e.tags = [] ∨ Physical (described Z0 e.params)
      · obtain ⟨m1, e1, _⟩ := h1 he
        rw [materialLoop, e1]
        exact (ih m1).2 fun hc => h fun x hx => by
          simp only [List.mem_cons] at hx
          rcases hx with hx | hx
          · exact hx ▸ he
          · exact hc x hx
      · simp only [not_or] at he
        rw [materialLoop, h2 he.1 he.2]

theorem bdrMaterialLoop_spec (Z0 : K) (bs : List (BdrEntry K)) : ∀ m : List (Int × Material K),
    ((∀ b ∈ bs, ∀ p, b.material = some p → b.tags = [] ∨ Physical (described Z0 p)) →
      ∃ m', bdrMaterialLoop Z0 bs m = .ok m' ∧ ∀ t, Assoc.find m' t =
        (Assoc.find m t).or ((firstBdrMat bs t).map fun p => described Z0 p)) ∧
    (¬ (∀ b ∈ bs, ∀ p, b.material = some p → b.tags = [] ∨ Physical (described Z0 p)) →
      bdrMaterialLoop Z0 bs m = .error .throw) := by
  induction bs with
  | nil => intro m; exact ⟨fun _ => ⟨m, rfl, fun t => by simp [firstBdrMat]⟩, fun h => absurd (by simp) h⟩
  | cons b bs ih =>
    intro m
    cases hb : b.material with
    | none =>
      have hf : ∀ t, firstBdrMat (b :: bs) t = firstBdrMat bs t := fun t => by simp [firstBdrMat, hb]
      have hq : (∀ x ∈ b :: bs, ∀ p, x.material = some p → x.tags = [] ∨ Physical (described Z0 p)) ↔
          ∀ x ∈ bs, ∀ p, x.material = some p → x.tags = [] ∨ Physical (described Z0 p) := by
        simp [hb]
      rw [bdrMaterialLoop, hb]
      simp only [hf, hq]
      exact ih m
    | some p =>
      obtain ⟨h1, h2⟩ := emplaceTags_build Z0 p b.tags m
      have hf : ∀ t, firstBdrMat (b :: bs) t = if t ∈ b.tags then some p else firstBdrMat bs t := fun t => by
        simp only [firstBdrMat, List.filterMap_cons, hb, Option.map_some, List.findSome?_cons]
        by_cases ht : t ∈ b.tags <;> simp [ht]
      have hq : (∀ x ∈ b :: bs, ∀ p, x.material = some p → x.tags = [] ∨ Physical (described Z0 p)) ↔
          (b.tags = [] ∨ Physical (described Z0 p)) ∧
          ∀ x ∈ bs, ∀ p, x.material = some p → x.tags = [] ∨ Physical (described Z0 p) := by
        simp [hb]
      rw [bdrMaterialLoop, hb]
      simp only [hf, hq]
      constructor
      · rintro ⟨ha, h⟩
        obtain ⟨m1, e1, f1⟩ := h1 ha
        obtain ⟨m', e2, f2⟩ := (ih m1).1 h
        refine ⟨m', by rw [e1]; exact e2, fun t => ?_⟩
        rw [f2, f1]
        by_cases ht : t ∈ b.tags
        · simp [ht]
        · simp [ht]
      · intro h
        by_cases he : b.tags = [] ∨ Physical (described Z0 p)
        · obtain ⟨m1, e1, _⟩ := h1 he
          rw [e1]
          exact (ih m1).2 fun hc => h ⟨he, hc⟩
        · simp only [not_or] at he
          rw [h2 he.1 he.2]

/-- All the described materials are physical and all their tags are in the mesh. -/
def Acceptable (Z0 : K) (ms : List (MatEntry K)) (bs : List (BdrEntry K)) (atts batts : List Int) : Prop :=
  (∀ e ∈ ms, e.tags = [] ∨ Physical (described Z0 e.params)) ∧
  (∀ b ∈ bs, ∀ p, b.material = some p → b.tags = [] ∨ Physical (described Z0 p)) ∧
  (∀ e ∈ ms, ∀ t ∈ e.tags, t ∈ atts) ∧
  (∀ b ∈ bs, b.material ≠ none → ∀ t ∈ b.tags, t ∈ batts)

theorem firstMat_isSome (ms : List (MatEntry K)) (t : Int) :
    (firstMat ms t).isSome = true ↔ ∃ e ∈ ms, t ∈ e.tags := by
  unfold firstMat
  rw [List.find?_isSome]
  simp

theorem firstBdrMat_isSome (bs : List (BdrEntry K)) (t : Int) :
    (firstBdrMat bs t).isSome = true ↔ ∃ b ∈ bs, b.material ≠ none ∧ t ∈ b.tags := by
  unfold firstBdrMat
  rw [List.findSome?_isSome_iff]
  constructor
  · rintro ⟨x, hx, h⟩
    rw [List.mem_filterMap] at hx
    obtain ⟨b, hb, e⟩ := hx
    simp only [Option.map_eq_some_iff] at e
    obtain ⟨p, hp, e⟩ := e
    subst e
    refine ⟨b, hb, by simp [hp], ?_⟩
    by_contra hc
    simp [hc] at h
  · rintro ⟨b, hb, hm, ht⟩
    obtain ⟨p, hp⟩ := Option.ne_none_iff_exists'.1 hm
    exact ⟨(b.tags, p), List.mem_filterMap.2 ⟨b, hb, by simp [hp]⟩, by simp [ht]⟩

theorem all_keys (m : List (Int × Material K)) (atts : List Int) :
    (m.all fun p => decide (p.1 ∈ atts)) = true ↔ ∀ t, (Assoc.find m t).isSome = true → t ∈ atts := by
  simp only [List.all_eq_true, decide_eq_true_eq]
  constructor
  · intro h t ht
    rw [Assoc.find_isSome_iff, List.mem_map] at ht
    obtain ⟨p, hp, e⟩ := ht
    exact e ▸ h p hp
  · intro h p hp
    exact h p.1 (by rw [Assoc.find_isSome_iff]; exact List.mem_map_of_mem hp)

/-- **C18.** An acceptable description is accepted, and every tag gets the material of the first entry that
lists it, and no other; the same for boundary materials. -/
theorem C18_first_wins (Z0 : K) (ms : List (MatEntry K)) (bs : List (BdrEntry K)) (atts batts : List Int)
    (h : Acceptable Z0 ms bs atts batts) :
    ∃ g gb, assembleAttributeToMaterial Z0 ms bs atts batts = .ok (g, gb) ∧
      (∀ t, Assoc.find g t = (firstMat ms t).map fun e => described Z0 e.params) ∧
      (∀ t, Assoc.find gb t = (firstBdrMat bs t).map fun p => described Z0 p) := by
  obtain ⟨h1, h2, h3, h4⟩ := h
  obtain ⟨g, e1, f1⟩ := (materialLoop_spec Z0 ms []).1 h1
  obtain ⟨gb, e2, f2⟩ := (bdrMaterialLoop_spec Z0 bs []).1 h2
  have g1 : ∀ t, Assoc.find g t = (firstMat ms t).map fun e => described Z0 e.params := fun t => by
    rw [f1]; simp [Assoc.find]
  have g2 : ∀ t, Assoc.find gb t = (firstBdrMat bs t).map fun p => described Z0 p := fun t => by
    rw [f2]; simp [Assoc.find]
  refine ⟨g, gb, ?_, g1, g2⟩
  have a1 : (g.all fun p => decide (p.1 ∈ atts)) = true := by
    rw [all_keys]
    intro t ht
    rw [g1, Option.isSome_map, firstMat_isSome] at ht
    obtain ⟨e, he, hte⟩ := ht
    exact h3 e he t hte
  have a2 : (gb.all fun p => decide (p.1 ∈ batts)) = true := by
    rw [all_keys]
    intro t ht
    rw [g2, Option.isSome_map, firstBdrMat_isSome] at ht
    obtain ⟨b, hb, hm, htb⟩ := ht
    exact h4 b hb hm t htb
  unfold assembleAttributeToMaterial
  rw [e1]
  simp only [e2, a1, a2, if_true]

/-- **C18.** Every listed tag gets a material. -/
theorem C18_every_tag (Z0 : K) (ms : List (MatEntry K)) (bs : List (BdrEntry K)) (atts batts : List Int)
    (g gb : List (Int × Material K)) (h : Acceptable Z0 ms bs atts batts)
    (hr : assembleAttributeToMaterial Z0 ms bs atts batts = .ok (g, gb)) (e : MatEntry K) (he : e ∈ ms)
    (t : Int) (ht : t ∈ e.tags) : ∃ m, Assoc.find g t = some m ∧ Physical m := by
  obtain ⟨g', gb', h1, h2, _⟩ := C18_first_wins Z0 ms bs atts batts h
  rw [hr] at h1
  simp only [Except.ok.injEq, Prod.mk.injEq] at h1
  have hs : (firstMat ms t).isSome = true := (firstMat_isSome ms t).2 ⟨e, he, ht⟩
  cases hf : firstMat ms t with
  | none => rw [hf] at hs; simp at hs
  | some x =>
    refine ⟨described Z0 x.params, by rw [h1.1, h2, hf]; rfl, ?_⟩
    have hx : x ∈ ms := List.mem_of_find?_eq_some hf
    have htx : t ∈ x.tags := by simpa using List.find?_some hf
    rcases h.1 x hx with h0 | h0
    · rw [h0] at htx; simp at htx
    · exact h0

/-- **C18.** Everything else raises an error. -/
theorem C18_rejects (Z0 : K) (ms : List (MatEntry K)) (bs : List (BdrEntry K)) (atts batts : List Int)
    (h : ¬ Acceptable Z0 ms bs atts batts) :
    assembleAttributeToMaterial Z0 ms bs atts batts = .error .throw := by
  unfold assembleAttributeToMaterial
  by_cases h1 : ∀ e ∈ ms, e.tags = [] ∨ Physical (described Z0 e.params)
  · obtain ⟨g, e1, f1⟩ := (materialLoop_spec Z0 ms []).1 h1
    by_cases h2 : ∀ b ∈ bs, ∀ p, b.material = some p → b.tags = [] ∨ Physical (described Z0 p)
    · obtain ⟨gb, e2, f2⟩ := (bdrMaterialLoop_spec Z0 bs []).1 h2
      rw [e1]
      simp only [e2]
      split_ifs with a1 a2
      · exfalso
        apply h
        refine ⟨h1, h2, fun e he t ht => ?_, fun b hb hm t ht => ?_⟩
        · refine (all_keys g atts).1 a1 t ?_
          rw [f1]
          simp only [Assoc.find, Option.none_or, Option.isSome_map]
          exact (firstMat_isSome ms t).2 ⟨e, he, ht⟩
        · refine (all_keys gb batts).1 a2 t ?_
          rw [f2]
          simp only [Assoc.find, Option.none_or, Option.isSome_map]
          exact (firstBdrMat_isSome bs t).2 ⟨b, hb, hm, ht⟩
      · rfl
      · rfl
    · rw [e1]
      simp only [(bdrMaterialLoop_spec Z0 bs []).2 h2]
  · rw [(materialLoop_spec Z0 ms []).2 h1]

/-- Two materials claiming tag 3, one boundary with a coating. -/
def demoMats : List (MatEntry ℚ) :=
  [⟨⟨some 2, none, none⟩, [1, 3]⟩, ⟨⟨none, none, some (1/10)⟩, [3, 4]⟩]
def demoBdrs : List (BdrEntry ℚ) :=
  [⟨[7], some "PEC", none⟩, ⟨[8, 7], some "SGBC", some ⟨none, some 3, none⟩⟩]

example : Acceptable (377 : ℚ) demoMats demoBdrs [1, 3, 4] [7, 8, 9] := by
  unfold Acceptable Physical
  decide +kernel

example : assembleAttributeToMaterial (377 : ℚ) demoMats demoBdrs [1, 3, 4] [7, 8, 9] =
    .ok ([(1, ⟨2, 1, 0⟩), (3, ⟨2, 1, 0⟩), (4, ⟨1, 1, 377/10⟩)], [(8, ⟨1, 3, 0⟩), (7, ⟨1, 3, 0⟩)]) := by
  decide +kernel

/-! ### C17: boundary attributes -/

theorem onInteriorFace_iff (faces : List Face) (t : Int) :
    onInteriorFace faces t = true ↔ Inside faces t := by
  simp [onInteriorFace, Inside]

/-- What the two maps hold during the loop. -/
structure BdrInv (faces : List Face) (m : BdrMaps) (f : Int → Option Cond) : Prop where
  cond : ∀ t, Assoc.find m.cond t = f t
  inter : ∀ t, Assoc.find m.isInterior t = (f t).map fun _ => onInteriorFace faces t
  nodup : (m.isInterior.map Prod.fst).Nodup

theorem bdrTag_inv (faces : List Face) (c : Cond) (m : BdrMaps) (t : Int) (f : Int → Option Cond)
    (h : BdrInv faces m f) :
    BdrInv faces (bdrTag faces c m t) fun u => (f u).or (if u = t then some c else none) := by
  refine ⟨fun u => ?_, fun u => ?_, ?_⟩
  · simp only [bdrTag, Assoc.find_insert, h.cond]
    by_cases e : u = t
    · subst e; simp
    · simp [e]
  · simp only [bdrTag]
    by_cases hi : onInteriorFace faces t = true
    · simp only [if_pos hi, Assoc.find_assign, Assoc.find_insert, h.inter]
      by_cases e : u = t
      · subst e; cases f u <;> simp [hi]
      · simp [e]
    · simp only [if_neg hi, Assoc.find_insert, h.inter]
      have hi' : onInteriorFace faces t = false := by simpa using hi
      by_cases e : u = t
      · subst e; cases f u <;> simp [hi']
      · simp [e]
  · simp only [bdrTag]
    split_ifs
    · exact Assoc.nodup_assign _ (Assoc.nodup_insert _ h.nodup _ _) _ _
    · exact Assoc.nodup_insert _ h.nodup _ _

theorem bdrTags_inv (faces : List Face) (type : String) (c : Cond) (hc : assignBdrCond type = .ok c)
    (ts : List Int) : ∀ (m : BdrMaps) (f : Int → Option Cond), BdrInv faces m f →
    ∃ m', bdrTags faces type ts m = .ok m' ∧
      BdrInv faces m' fun u => (f u).or (if u ∈ ts then some c else none) := by
  induction ts with
  | nil => intro m f h; exact ⟨m, rfl, by simpa using h⟩
  | cons t ts ih =>
    intro m f h
    obtain ⟨m', e, h'⟩ := ih _ _ (bdrTag_inv faces c m t f h)
    refine ⟨m', by rw [bdrTags, hc]; exact e, ?_⟩
    have : (fun u => ((f u).or (if u = t then some c else none)).or (if u ∈ ts then some c else none)) =
        fun u => (f u).or (if u ∈ t :: ts then some c else none) := by
      funext u
      cases f u with
      | some x => simp
      | none => by_cases e : u = t <;> simp [e]
    rw [this] at h'
    exact h'

theorem bdrTags_error (faces : List Face) (type : String) (hc : assignBdrCond type = .error .throw)
    (ts : List Int) (hne : ts ≠ []) (m : BdrMaps) : bdrTags faces type ts m = .error .throw := by
  cases ts with
  | nil => exact absurd rfl hne
  | cons t ts => rw [bdrTags, hc]

theorem usable_iff (b : BdrEntry K) : UsableBdr b ↔
    b.tags ≠ [] ∧ ∃ s c, b.type = some s ∧ assignBdrCond s = .ok c := by
  unfold UsableBdr
  simp only [C59_boundary]

theorem declared_cons (b : BdrEntry K) (bs : List (BdrEntry K)) (s : String) (c : Cond)
    (h1 : b.type = some s) (h2 : assignBdrCond s = .ok c) (t : Int) :
    declared (b :: bs) t = if t ∈ b.tags then some c else declared bs t := by
  unfold declared
  by_cases ht : t ∈ b.tags
  · have hlook : (condTable.find? fun p => decide (p.1 = s)).map Prod.snd = some c := by
      rw [C59_boundary] at h2
      simp only [condTable, List.mem_cons, Prod.mk.injEq, List.not_mem_nil, or_false] at h2
      rcases h2 with ⟨a, b⟩ | ⟨a, b⟩ | ⟨a, b⟩ | ⟨a, b⟩ <;> subst a <;> subst b <;> decide
    simp [ht, h1, hlook]
  · simp [ht]

theorem bdrLoop_ok (faces : List Face) (bs : List (BdrEntry K)) (hb : ∀ b ∈ bs, UsableBdr b) :
    ∀ (m : BdrMaps) (f : Int → Option Cond), BdrInv faces m f →
    ∃ m', bdrLoop faces bs m = .ok m' ∧ BdrInv faces m' fun u => (f u).or (declared bs u) := by
  induction bs with
  | nil => intro m f h; exact ⟨m, rfl, by simpa [declared] using h⟩
  | cons b bs ih =>
    intro m f h
    obtain ⟨_, s, c, h1, h2⟩ := (usable_iff b).1 (hb b (by simp))
    obtain ⟨m1, e1, g1⟩ := bdrTags_inv faces s c h2 b.tags m f h
    obtain ⟨m', e2, g2⟩ := ih (fun x hx => hb x (by simp [hx])) m1 _ g1
    refine ⟨m', ?_, ?_⟩
    · rw [bdrLoop, h1]
      simp only [Option.getD_some, e1]
      exact e2
    · have : (fun u => ((f u).or (if u ∈ b.tags then some c else none)).or (declared bs u)) =
          fun u => (f u).or (declared (b :: bs) u) := by
        funext u
        rw [declared_cons b bs s c h1 h2]
        cases f u with
        | some x => simp
        | none => by_cases e : u ∈ b.tags <;> simp [e]
      rw [this] at g2
      exact g2

theorem bdrLoop_error (faces : List Face) (bs : List (BdrEntry K)) (hc : checkBoundaryInput bs = true)
    (hb : ¬ ∀ b ∈ bs, UsableBdr b) : ∀ m : BdrMaps, bdrLoop faces bs m = .error .throw := by
  induction bs with
  | nil => exact absurd (by simp) hb
  | cons b bs ih =>
    intro m
    simp only [checkBoundaryInput, List.all_cons, Bool.and_eq_true] at hc
    obtain ⟨⟨hc1, hc2⟩, hc3⟩ := hc
    obtain ⟨s, hs⟩ := Option.isSome_iff_exists.1 hc2
    have ht : b.tags ≠ [] := by simpa using hc1
    rw [bdrLoop, hs]
    simp only [Option.getD_some]
    cases hk : assignBdrCond s with
    | ok c =>
      have hu : UsableBdr b := (usable_iff b).2 ⟨ht, s, c, hs, hk⟩
      have hb' : ¬ ∀ x ∈ bs, UsableBdr x := fun hall => hb fun x hx => by
        simp only [List.mem_cons] at hx
        rcases hx with hx | hx
        · exact hx ▸ hu
        · exact hall x hx
      have key : ∀ (ts : List Int) (m : BdrMaps), ∃ m', bdrTags faces s ts m = .ok m' := by
        intro ts
        induction ts with
        | nil => intro m; exact ⟨m, rfl⟩
        | cons t ts iht => intro m; rw [bdrTags, hk]; exact iht _
      obtain ⟨m', e⟩ := key b.tags m
      rw [e]
      exact ih hc3 hb' m'
    | error x =>
      have hx : x = .throw := by
        unfold assignBdrCond at hk; split_ifs at hk; simp_all
      subst hx
      rw [bdrTags_error faces s hk b.tags ht]

theorem splitMaps_find (cond : List (Int × Cond)) (im : List (Int × Bool)) :
    (im.map Prod.fst).Nodup → ∀ r : BdrInfo, ∀ t,
    Assoc.find (splitMaps cond im r).gt2b t = (Assoc.find r.gt2b t).or
      (if Assoc.find im t = some false then some ((Assoc.find cond t).getD .pec) else none) ∧
    Assoc.find (splitMaps cond im r).gt2ib t = (Assoc.find r.gt2ib t).or
      (if Assoc.find im t = some true then some ((Assoc.find cond t).getD .pec) else none) := by
  induction im with
  | nil => intro _ r t; simp [splitMaps, Assoc.find]
  | cons p im ih =>
    intro hn r t
    obtain ⟨k, b⟩ := p
    simp only [List.map_cons, List.nodup_cons] at hn
    have hk : Assoc.find im k = none := (Assoc.find_none_iff im k).2 hn.1
    cases b with
    | false =>
      simp only [splitMaps]
      obtain ⟨i1, i2⟩ := ih hn.2 { r with gt2b := Assoc.insert r.gt2b k ((Assoc.find cond k).getD .pec) } t
      rw [i1, i2]
      by_cases e : t = k
      · subst e; simp [Assoc.find_insert, Assoc.find, hk]
      · have e' : ¬ k = t := fun h => e h.symm
        simp [Assoc.find_insert, Assoc.find, e, e']
    | true =>
      simp only [splitMaps]
      obtain ⟨i1, i2⟩ := ih hn.2 { r with gt2ib := Assoc.insert r.gt2ib k ((Assoc.find cond k).getD .pec) } t
      rw [i1, i2]
      by_cases e : t = k
      · subst e; simp [Assoc.find_insert, Assoc.find, hk]
      · have e' : ¬ k = t := fun h => e h.symm
        simp [Assoc.find_insert, Assoc.find, e, e']

/-- **C17.** When every boundary entry has tags and a known type, each tag is either exterior or interior:
interior exactly when some face between two elements carries it; its condition is that of the first entry
that lists it; tags that are not listed appear nowhere. -/
theorem C17_classified (bs : List (BdrEntry K)) (faces : List Face) (hb : ∀ b ∈ bs, UsableBdr b) :
    ∃ info, assembleAttributeToBoundary bs faces = .ok info ∧ ∀ t c,
      (Assoc.find info.gt2b t = some c ↔ declared bs t = some c ∧ ¬ Inside faces t) ∧
      (Assoc.find info.gt2ib t = some c ↔ declared bs t = some c ∧ Inside faces t) := by
  have hc : checkBoundaryInput bs = true := by
    simp only [checkBoundaryInput, List.all_eq_true, Bool.and_eq_true]
    intro b hbm
    obtain ⟨h1, s, c, h2, _⟩ := hb b hbm
    exact ⟨by simpa using h1, by simp [h2]⟩
  obtain ⟨m, e, inv⟩ := bdrLoop_ok faces bs hb ⟨[], []⟩ (fun _ => none)
    ⟨fun t => by simp [Assoc.find], fun t => by simp [Assoc.find], by simp⟩
  refine ⟨splitMaps m.cond m.isInterior ⟨[], []⟩, ?_, fun t c => ?_⟩
  · unfold assembleAttributeToBoundary
    rw [if_pos hc, e]
  · obtain ⟨s1, s2⟩ := splitMaps_find m.cond m.isInterior inv.nodup ⟨[], []⟩ t
    rw [s1, s2, inv.cond, inv.inter, ← onInteriorFace_iff]
    simp only [Option.none_or, Assoc.find]
    cases declared bs t with
    | none => simp
    | some d => cases onInteriorFace faces t <;> simp

/-- **C17.** Any other list of boundaries raises an error. -/
theorem C17_rejects (bs : List (BdrEntry K)) (faces : List Face) (hb : ¬ ∀ b ∈ bs, UsableBdr b) :
    assembleAttributeToBoundary bs faces = .error .throw := by
  unfold assembleAttributeToBoundary
  by_cases hc : checkBoundaryInput bs = true
  · rw [if_pos hc, bdrLoop_error faces bs hc hb]
  · rw [if_neg hc]

/-- **C17.** Never both. -/
theorem C17_exclusive (bs : List (BdrEntry K)) (faces : List Face) (info : BdrInfo)
    (h : assembleAttributeToBoundary bs faces = .ok info) (t : Int) :
    ¬ ((Assoc.find info.gt2b t).isSome = true ∧ (Assoc.find info.gt2ib t).isSome = true) := by
  by_cases hb : ∀ b ∈ bs, UsableBdr b
  · obtain ⟨i, e, hi⟩ := C17_classified bs faces hb
    rw [h] at e
    simp only [Except.ok.injEq] at e
    subst e
    rintro ⟨h1, h2⟩
    obtain ⟨c1, h1⟩ := Option.isSome_iff_exists.1 h1
    obtain ⟨c2, h2⟩ := Option.isSome_iff_exists.1 h2
    exact ((hi t c1).1.1 h1).2 ((hi t c2).2.1 h2).2
  · rw [C17_rejects bs faces hb] at h; exact absurd h (by simp)

/-- Two exterior faces, one interior face, and one tag listed twice. -/
def demoFaces : List Face := [⟨some 7, false⟩, ⟨none, true⟩, ⟨some 8, true⟩, ⟨some 9, false⟩]
def demoBdrs2 : List (BdrEntry ℚ) :=
  [⟨[7, 8], some "PEC", none⟩, ⟨[9, 8], some "SMA", none⟩]

example : ∀ b ∈ demoBdrs2, UsableBdr b := by
  intro b hb
  simp only [demoBdrs2, List.mem_cons, List.not_mem_nil, or_false] at hb
  rcases hb with rfl | rfl
  · exact ⟨by simp, "PEC", .pec, rfl, by decide⟩
  · exact ⟨by simp, "SMA", .sma, rfl, by decide⟩

example : assembleAttributeToBoundary demoBdrs2 demoFaces =
    .ok ⟨[(7, .pec), (9, .sma)], [(8, .pec)]⟩ := by decide +kernel

/-! ### C21: markers -/

/-- The tags of a map stored in the array with key `k`. -/
def tagsFor (interior : Bool) (gt : List (Int × Cond)) (k : Cond × Bool) : List Int :=
  gt.filterMap fun p =>
    match markerKey p.2 interior with
    | .ok k' => if k' = k then some p.1 else none
    | .error _ => none

theorem markerKey_ok (c : Cond) (i : Bool) (h : Supported c) : ∃ k, markerKey c i = .ok k := by
  cases c <;> simp [markerKey, Supported] at h ⊢

theorem markerKey_error (c : Cond) (i : Bool) (h : ¬ Supported c) : markerKey c i = .error .throw := by
  cases c <;> simp [markerKey, Supported] at h ⊢

theorem markerOf_length (n : Nat) (ts : List Int) (h : ts ≠ []) : (markerOf n ts).length = n := by
  simp [markerOf, h]

/-- Writing one more tag into the array. -/
theorem setOne_markerOf (n : Nat) (ts : List Int) (t : Int) (h1 : 0 < t) (h2 : t ≤ n) :
    setOne (if markerOf n ts = [] then List.replicate n 0 else markerOf n ts) t =
      .ok (markerOf n (ts ++ [t])) := by
  have hn : 0 < n := by omega
  have hb : (if markerOf n ts = [] then List.replicate n 0 else markerOf n ts) =
      (List.range n).map fun i : Nat => if ((i : Int) + 1) ∈ ts then 1 else 0 := by
    by_cases hts : ts = []
    · subst hts
      simp [markerOf]
    · have : markerOf n ts ≠ [] := by
        intro e
        have := markerOf_length n ts hts
        rw [e] at this
        simp at this
        omega
      rw [if_neg this]
      simp [markerOf, hts]
  rw [hb]
  unfold setOne
  have hlen : ((List.range n).map fun i : Nat => if ((i : Int) + 1) ∈ ts then (1 : Int) else 0).length = n := by
    simp
  rw [hlen, if_pos ⟨by omega, by omega⟩]
  congr 1
  unfold markerOf
  rw [if_neg (by simp)]
  apply List.ext_getElem?
  intro i
  rw [List.getElem?_set]
  simp only [hlen, List.getElem?_map, List.mem_append, List.mem_singleton]
  by_cases hi : i < n
  · rw [List.getElem?_range hi]
    simp only [Option.map_some]
    by_cases he : (t - 1).toNat = i
    · have : (i : Int) + 1 = t := by omega
      rw [if_pos he, if_pos (by omega)]
      simp [this]
    · have : ¬ (i : Int) + 1 = t := by omega
      rw [if_neg he]
      simp [this]
  · rw [List.getElem?_eq_none (by simpa using hi)]
    have : ¬ (t - 1).toNat = i := by omega
    rw [if_neg this]
    rfl

theorem get_assign (m : Markers) (k k' : Cond × Bool) (a : List Int) :
    Markers.get (Assoc.assign m k a) k' = if k' = k then a else m.get k' := by
  unfold Markers.get
  rw [Assoc.find_assign]
  by_cases h : k' = k <;> simp [h]

theorem assembleTypes_ok (n : Nat) (interior : Bool) (gt : List (Int × Cond)) :
    (∀ p ∈ gt, 0 < p.1 ∧ p.1 ≤ n ∧ Supported p.2) →
    ∀ (m : Markers) (S : Cond × Bool → List Int), (∀ k, m.get k = markerOf n (S k)) →
    ∃ m', assembleTypes n interior gt m = .ok m' ∧
      ∀ k, m'.get k = markerOf n (S k ++ tagsFor interior gt k) := by
  induction gt with
  | nil => intro _ m S h; exact ⟨m, rfl, fun k => by simpa [tagsFor] using h k⟩
  | cons p gt ih =>
    intro hall m S h
    obtain ⟨t, c⟩ := p
    obtain ⟨h1, h2, h3⟩ := hall (t, c) (by simp)
    simp only at h1 h2 h3
    obtain ⟨k0, hk0⟩ := markerKey_ok c interior h3
    have hset := setOne_markerOf n (S k0) t h1 h2
    rw [← h k0] at hset
    obtain ⟨m', e, hm'⟩ := ih (fun p hp => hall p (by simp [hp]))
      (Assoc.assign m k0 (markerOf n (S k0 ++ [t])))
      (fun k => if k = k0 then S k0 ++ [t] else S k) (fun k => by
        rw [get_assign]
        by_cases hk : k = k0
        · simp [hk]
        · simp [hk, h k])
    refine ⟨m', ?_, fun k => ?_⟩
    · rw [assembleTypes, if_neg (by omega), hk0]
      simp only [hset]
      exact e
    · rw [hm' k]
      congr 1
      unfold tagsFor
      simp only [List.filterMap_cons, hk0]
      by_cases hk : k = k0
      · subst hk; simp
      · have hk' : ¬ k0 = k := fun e => hk e.symm
        simp [hk, hk']

theorem assembleTypes_error (n : Nat) (interior : Bool) (gt : List (Int × Cond))
    (hn : ∀ p ∈ gt, p.1 ≤ n) (hbad : ¬ ∀ p ∈ gt, 0 < p.1 ∧ p.1 ≤ n ∧ Supported p.2) :
    ∀ (m : Markers) (S : Cond × Bool → List Int), (∀ k, m.get k = markerOf n (S k)) →
    assembleTypes n interior gt m = .error .throw := by
  induction gt with
  | nil => exact absurd (by simp) hbad
  | cons p gt ih =>
    intro m S h
    obtain ⟨t, c⟩ := p
    have h2 : t ≤ n := hn (t, c) (by simp)
    by_cases h1 : 0 < t
    · by_cases h3 : Supported c
      · obtain ⟨k0, hk0⟩ := markerKey_ok c interior h3
        have hset := setOne_markerOf n (S k0) t h1 h2
        rw [← h k0] at hset
        rw [assembleTypes, if_neg (by omega), hk0]
        simp only [hset]
        refine ih (fun p hp => hn p (by simp [hp])) (fun hall => hbad fun p hp => ?_) _
          (fun k => if k = k0 then S k0 ++ [t] else S k) (fun k => by
            rw [get_assign]
            by_cases hk : k = k0
            · simp [hk]
            · simp [hk, h k])
        simp only [List.mem_cons] at hp
        rcases hp with hp | hp
        · subst hp; exact ⟨h1, h2, h3⟩
        · exact hall p hp
      · rw [assembleTypes, if_neg (by omega), markerKey_error c interior h3]
    · rw [assembleTypes, if_pos (by omega)]

theorem tagsFor_same (i : Bool) (gt : List (Int × Cond)) (c : Cond)
    (hc : c = .pec ∨ c = .pmc ∨ c = .sma ∨ c = .sgbc) : tagsFor i gt (c, i) = tagsWith gt c := by
  unfold tagsFor tagsWith
  congr 1
  funext p
  obtain ⟨t, d⟩ := p
  rcases hc with rfl | rfl | rfl | rfl <;> cases d <;> simp [markerKey]

theorem tagsFor_other (i : Bool) (gt : List (Int × Cond)) (c : Cond)
    (hc : c = .pec ∨ c = .pmc ∨ c = .sma ∨ c = .sgbc) : tagsFor i gt (c, !i) = [] := by
  unfold tagsFor
  rw [List.filterMap_eq_nil_iff]
  intro p _
  obtain ⟨t, d⟩ := p
  rcases hc with rfl | rfl | rfl | rfl <;> cases d <;> cases i <;> simp [markerKey]

/-- **C21.** When all the tags are boundary attributes of the mesh and positive, the marker of a condition is
one exactly at the attributes declared with it, on exterior and on interior boundaries separately; the
solver finds it under that condition, and finds nothing when no attribute has it. -/
theorem C21_markers (n : Nat) (gt2m gt2bm : List (Int × Material K)) (info : BdrInfo)
    (h : ∀ p, p ∈ info.gt2b ∨ p ∈ info.gt2ib → 0 < p.1 ∧ p.1 ≤ n ∧ Supported p.2) :
    ∃ d, construct n gt2m gt2bm info = .ok d ∧
      ∀ c, (c = .pec ∨ c = .pmc ∨ c = .sma ∨ c = .sgbc) →
        d.markers.get (c, false) = markerOf n (tagsWith info.gt2b c) ∧
        d.markers.get (c, true) = markerOf n (tagsWith info.gt2ib c) ∧
        (∀ a, (c, a) ∈ d.bdrToMarker ↔ tagsWith info.gt2b c ≠ [] ∧ a = markerOf n (tagsWith info.gt2b c)) ∧
        (∀ a, (c, a) ∈ d.intBdrToMarker ↔
          tagsWith info.gt2ib c ≠ [] ∧ a = markerOf n (tagsWith info.gt2ib c)) := by
  obtain ⟨m1, e1, f1⟩ := assembleTypes_ok n false info.gt2b (fun p hp => h p (Or.inl hp)) [] (fun _ => [])
    (fun k => by simp [Markers.get, Assoc.find, markerOf])
  obtain ⟨m2, e2, f2⟩ := assembleTypes_ok n true info.gt2ib (fun p hp => h p (Or.inr hp)) m1 _ f1
  have hne : ∀ ts : List Int, (∀ t ∈ ts, 0 < t ∧ t ≤ n) → (markerOf n ts = [] ↔ ts = []) := by
    intro ts hts
    constructor
    · intro e
      by_contra hc
      have h1 := markerOf_length n ts hc
      rw [e] at h1
      obtain ⟨t, ht⟩ := List.exists_mem_of_ne_nil ts hc
      have := hts t ht
      simp at h1
      omega
    · intro e; simp [e, markerOf]
  have hw : ∀ (gt : List (Int × Cond)) c, (∀ p ∈ gt, 0 < p.1 ∧ p.1 ≤ n ∧ Supported p.2) →
      ∀ t ∈ tagsWith gt c, 0 < t ∧ t ≤ n := by
    intro gt c hg t ht
    unfold tagsWith at ht
    rw [List.mem_filterMap] at ht
    obtain ⟨p, hp, e⟩ := ht
    split_ifs at e
    simp only [Option.some.injEq] at e
    exact e ▸ ⟨(hg p hp).1, (hg p hp).2.1⟩
  have g1 : ∀ c, (c = .pec ∨ c = .pmc ∨ c = .sma ∨ c = .sgbc) →
      m2.get (c, false) = markerOf n (tagsWith info.gt2b c) := fun c hc => by
    rw [f2, tagsFor_same false _ c hc, show (c, false) = (c, !true) from rfl, tagsFor_other true _ c hc]
    simp
  have g2 : ∀ c, (c = .pec ∨ c = .pmc ∨ c = .sma ∨ c = .sgbc) →
      m2.get (c, true) = markerOf n (tagsWith info.gt2ib c) := fun c hc => by
    rw [f2, tagsFor_same true _ c hc, show (c, true) = (c, !false) from rfl, tagsFor_other false _ c hc]
    simp
  have hmem : ∀ (i : Bool) c, (c = .pec ∨ c = .pmc ∨ c = .sma ∨ c = .sgbc) → ∀ a,
      (c, a) ∈ toMarkerMap m2 i ↔ m2.get (c, i) ≠ [] ∧ a = m2.get (c, i) := by
    intro i c hc a
    unfold toMarkerMap
    rw [List.mem_filterMap]
    constructor
    · rintro ⟨x, _, hx⟩
      split_ifs at hx with h0
      simp only [Option.some.injEq, Prod.mk.injEq] at hx
      obtain ⟨ha, hb⟩ := hx
      subst ha
      exact ⟨h0, hb.symm⟩
    · rintro ⟨h0, ha⟩
      refine ⟨c, ?_, by rw [if_neg h0, ha]⟩
      rcases hc with rfl | rfl | rfl | rfl <;> simp
  have hcon : construct n gt2m gt2bm info = .ok
      ⟨if gt2m.isEmpty then [(1, ⟨1, 1, 0⟩)] else gt2m, gt2bm, m2, toMarkerMap m2 false, toMarkerMap m2 true⟩ := by
    unfold construct
    rw [e1]
    simp only [e2]
  refine ⟨_, hcon, fun c hc => ⟨g1 c hc, g2 c hc, fun a => ?_,
    fun a => ?_⟩⟩
  · simp only
    rw [hmem false c hc a, g1 c hc]
    rw [ne_eq, hne _ (hw info.gt2b c fun p hp => h p (Or.inl hp))]
  · simp only
    rw [hmem true c hc a, g2 c hc]
    rw [ne_eq, hne _ (hw info.gt2ib c fun p hp => h p (Or.inr hp))]

/-- **C21.** An entry of a marker, in words. -/
theorem C21_entry (n : Nat) (gt : List (Int × Cond)) (c : Cond) (i : Nat) (hi : i < n)
    (hne : tagsWith gt c ≠ []) :
    (markerOf n (tagsWith gt c))[i]? = some (if (((i : Int) + 1), c) ∈ gt then 1 else 0) := by
  unfold markerOf
  rw [if_neg hne, List.getElem?_map, List.getElem?_range hi]
  simp only [Option.map_some, Option.some.injEq]
  have : ((i : Int) + 1) ∈ tagsWith gt c ↔ (((i : Int) + 1), c) ∈ gt := by
    unfold tagsWith
    rw [List.mem_filterMap]
    constructor
    · rintro ⟨⟨t, d⟩, hp, e⟩
      split_ifs at e with hd
      simp only [Option.some.injEq] at e hd
      exact e ▸ hd ▸ hp
    · intro hp
      exact ⟨_, hp, by simp⟩
  by_cases h : (((i : Int) + 1), c) ∈ gt
  · rw [if_pos (this.2 h), if_pos h]
  · rw [if_neg (fun e => h (this.1 e)), if_neg h]

/-- **C21.** A tag that is zero or negative raises an error. -/
theorem C21_nonpositive (n : Nat) (gt2m gt2bm : List (Int × Material K)) (info : BdrInfo)
    (hn : ∀ p, p ∈ info.gt2b ∨ p ∈ info.gt2ib → p.1 ≤ n ∧ Supported p.2)
    (h : ∃ p, (p ∈ info.gt2b ∨ p ∈ info.gt2ib) ∧ p.1 ≤ 0) :
    construct n gt2m gt2bm info = .error .throw := by
  have h0 : ∀ k : Cond × Bool, Markers.get [] k = markerOf n [] := fun k => by
    simp [Markers.get, Assoc.find, markerOf]
  unfold construct
  by_cases hb : ∀ p ∈ info.gt2b, 0 < p.1 ∧ p.1 ≤ n ∧ Supported p.2
  · obtain ⟨m1, e1, f1⟩ := assembleTypes_ok n false info.gt2b hb [] (fun _ => []) h0
    rw [e1]
    simp only
    have : ¬ ∀ p ∈ info.gt2ib, 0 < p.1 ∧ p.1 ≤ n ∧ Supported p.2 := by
      intro hall
      obtain ⟨p, hp | hp, hle⟩ := h
      · have := (hb p hp).1; omega
      · have := (hall p hp).1; omega
    rw [assembleTypes_error n true info.gt2ib (fun p hp => (hn p (Or.inr hp)).1) this m1 _ f1]
  · rw [assembleTypes_error n false info.gt2b (fun p hp => (hn p (Or.inl hp)).1) hb [] (fun _ => []) h0]

def demoInfo : BdrInfo := ⟨[(7, .pec), (9, .sma), (2, .pec)], [(8, .pec)]⟩

example : ∀ p, p ∈ demoInfo.gt2b ∨ p ∈ demoInfo.gt2ib → 0 < p.1 ∧ p.1 ≤ (9 : Nat) ∧ Supported p.2 := by
  intro p hp
  simp only [demoInfo, List.mem_cons, List.not_mem_nil, or_false] at hp
  rcases hp with (rfl | rfl | rfl) | rfl <;> simp [Supported]

example : (construct 9 ([] : List (Int × Material ℚ)) [] demoInfo).toOption.map (fun d => d.bdrToMarker) =
    some [(.pec, [0, 1, 0, 0, 0, 0, 1, 0, 0]), (.sma, [0, 0, 0, 0, 0, 0, 0, 0, 1])] := by decide +kernel

example : ∃ p, (p ∈ (⟨[(0, .pec)], []⟩ : BdrInfo).gt2b ∨ p ∈ (⟨[(0, .pec)], []⟩ : BdrInfo).gt2ib) ∧ p.1 ≤ 0 :=
  ⟨(0, .pec), by simp, by simp⟩

/-! ### C71: a face keeps the condition of its attribute -/

/-- **C71.** The markers give every boundary face the condition declared for its attribute — the exterior
array for faces with one element, the interior array for faces with two — provided that no attribute is
used on both kinds of faces.  The statement without this proviso is false, see `C71_violated`. -/
theorem C71_faces_partial (n : Nat) (bs : List (BdrEntry K)) (faces : List Face) (info : BdrInfo)
    (h : assembleAttributeToBoundary bs faces = .ok info) (hb : ∀ b ∈ bs, UsableBdr b)
    (hr : ∀ b ∈ bs, ∀ t ∈ b.tags, 0 < t ∧ t ≤ n) (f : Face) (hf : f ∈ faces) (t : Int)
    (hft : f.attr = some t) (hpure : ∀ g ∈ faces, g.attr = some t → g.interior = f.interior)
    (c : Cond) (hc : declared bs t = some c) (i : Nat) (hi : t = (i : Int) + 1) :
    (markerOf n (tagsWith (if f.interior then info.gt2ib else info.gt2b) c))[i]? = some 1 := by
  obtain ⟨info', e, hcl⟩ := C17_classified bs faces hb
  rw [h] at e
  simp only [Except.ok.injEq] at e
  subst e
  have hrange : 0 < t ∧ t ≤ n := by
    unfold declared at hc
    cases hfd : bs.find? fun b => decide (t ∈ b.tags) with
    | none => rw [hfd] at hc; simp at hc
    | some b =>
      exact hr b (List.mem_of_find?_eq_some hfd) t (by simpa using List.find?_some hfd)
  have hmem : (t, c) ∈ (if f.interior then info.gt2ib else info.gt2b) := by
    by_cases hfi : f.interior = true
    · rw [if_pos hfi]
      exact Assoc.find_mem _ _ _ ((hcl t c).2.2 ⟨hc, f, hf, hft, hfi⟩)
    · rw [if_neg hfi]
      refine Assoc.find_mem _ _ _ ((hcl t c).1.2 ⟨hc, ?_⟩)
      rintro ⟨g, hg, hgt, hgi⟩
      exact hfi (by rw [← hpure g hg hgt]; exact hgi)
  have hne : tagsWith (if f.interior then info.gt2ib else info.gt2b) c ≠ [] := by
    intro e
    have : t ∈ tagsWith (if f.interior then info.gt2ib else info.gt2b) c := by
      unfold tagsWith; rw [List.mem_filterMap]; exact ⟨_, hmem, by simp⟩
    rw [e] at this
    simp at this
  rw [C21_entry n _ c i (by omega) hne, if_pos (by rw [← hi]; exact hmem)]

example : assembleAttributeToBoundary demoBdrs2 demoFaces = .ok ⟨[(7, .pec), (9, .sma)], [(8, .pec)]⟩ ∧
    (∀ b ∈ demoBdrs2, ∀ t ∈ b.tags, 0 < t ∧ t ≤ (9 : Nat)) ∧ (⟨some 7, false⟩ : Face) ∈ demoFaces ∧
    (∀ g ∈ demoFaces, g.attr = some 7 → g.interior = false) ∧ declared demoBdrs2 7 = some .pec := by
  decide +kernel

/-- **C71 is false in general.** An attribute on an exterior and on an interior face: the exterior face gets
no condition at all. -/
theorem C71_violated : ∃ (bs : List (BdrEntry ℚ)) (faces : List Face) (f : Face) (info : BdrInfo),
    f ∈ faces ∧ f.attr = some 1 ∧ f.interior = false ∧ declared bs 1 = some .pec ∧
    assembleAttributeToBoundary bs faces = .ok info ∧
    ∃ d, construct 1 ([] : List (Int × Material ℚ)) [] info = .ok d ∧ d.bdrToMarker = [] := by
  refine ⟨[⟨[1], some "PEC", none⟩], [⟨some 1, true⟩, ⟨some 1, false⟩], ⟨some 1, false⟩,
    ⟨[], [(1, .pec)]⟩, by decide, by decide, by decide, by decide, by decide +kernel, ?_⟩
  exact ⟨_, rfl, by decide⟩

/-! ### C72: tags that the mesh does not have -/

/-- **C72 is false.** Nobody checks that the tags of boundaries exist: a tag inside the range of the mesh
attributes is silently ignored, a larger one is written outside the marker. -/
theorem C72_violated : ∃ (bs : List (BdrEntry ℚ)) (faces : List Face) (info : BdrInfo),
    (∀ f ∈ faces, f.attr ≠ some 5) ∧ (∀ f ∈ faces, ∀ t, f.attr = some t → t ≤ 3) ∧ declared bs 5 = some .pec ∧
    assembleAttributeToBoundary bs faces = .ok info ∧
    construct 3 ([] : List (Int × Material ℚ)) [] info = .error .ub := by
  refine ⟨[⟨[5], some "PEC", none⟩], [⟨some 3, false⟩], ⟨[(5, .pec)], []⟩, by decide, ?_, by decide,
    by decide +kernel, by rfl⟩
  intro f hf t ht
  simp only [List.mem_singleton] at hf
  subst hf
  simp only [Option.some.injEq] at ht
  omega

/-- **C72 (part).** Tags larger than every boundary attribute never reach the solver: the run ends there. -/
theorem C72_large_tag_partial (n : Nat) (gt2m gt2bm : List (Int × Material K)) (info : BdrInfo)
    (h : ∃ p, (p ∈ info.gt2b ∨ p ∈ info.gt2ib) ∧ (n : Int) < p.1) (d : ModelData K) :
    construct n gt2m gt2bm info ≠ .ok d := by
  have key : ∀ (i : Bool) (gt : List (Int × Cond)), (∃ p ∈ gt, (n : Int) < p.1) →
      ∀ (m : Markers) (m' : Markers), (∀ k, m.get k = [] ∨ (m.get k).length = n) →
      assembleTypes n i gt m ≠ .ok m' := by
    intro i gt
    induction gt with
    | nil => rintro ⟨p, hp, _⟩; simp at hp
    | cons q gt ih =>
      intro hex m m' hm hok
      obtain ⟨t, c⟩ := q
      rw [assembleTypes] at hok
      split_ifs at hok with h0
      cases hk : markerKey c i with
      | error x => rw [hk] at hok; simp at hok
      | ok k =>
        rw [hk] at hok
        simp only at hok
        have hl : (if m.get k = [] then List.replicate n (0 : Int) else m.get k).length = n := by
          split_ifs with h1
          · simp
          · exact (hm k).resolve_left h1
        generalize (if m.get k = [] then List.replicate n (0 : Int) else m.get k) = arr at hok hl
        unfold setOne at hok
        rw [hl] at hok
        by_cases h2 : 0 ≤ t - 1 ∧ (t - 1).toNat < n
        swap
        · rw [if_neg h2] at hok; simp at hok
        rw [if_pos h2] at hok
        · simp only at hok
          have hexg : ∃ p ∈ gt, (n : Int) < p.1 := by
            obtain ⟨p, hp, hlt⟩ := hex
            simp only [List.mem_cons] at hp
            rcases hp with hp | hp
            · subst hp; simp only at hlt; omega
            · exact ⟨p, hp, hlt⟩
          refine ih hexg _ m' (fun k' => ?_) hok
          rw [get_assign]
          by_cases hk' : k' = k
          · right; rw [if_pos hk']; simp [hl]
          · rw [if_neg hk']; exact hm k'
  have keep : ∀ (i : Bool) (gt : List (Int × Cond)) (m m' : Markers),
      (∀ k, m.get k = [] ∨ (m.get k).length = n) → assembleTypes n i gt m = .ok m' →
      ∀ k, m'.get k = [] ∨ (m'.get k).length = n := by
    intro i gt
    induction gt with
    | nil => intro m m' hm hok; simp only [assembleTypes, Except.ok.injEq] at hok; subst hok; exact hm
    | cons q gt ih =>
      intro m m' hm hok
      obtain ⟨t, c⟩ := q
      rw [assembleTypes] at hok
      split_ifs at hok with h0
      cases hk : markerKey c i with
      | error x => rw [hk] at hok; simp at hok
      | ok k =>
        rw [hk] at hok
        simp only at hok
        have hl : (if m.get k = [] then List.replicate n (0 : Int) else m.get k).length = n := by
          split_ifs with h1
          · simp
          · exact (hm k).resolve_left h1
        generalize (if m.get k = [] then List.replicate n (0 : Int) else m.get k) = arr at hok hl
        unfold setOne at hok
        rw [hl] at hok
        by_cases h2 : 0 ≤ t - 1 ∧ (t - 1).toNat < n
        swap
        · rw [if_neg h2] at hok; simp at hok
        rw [if_pos h2] at hok
        · simp only at hok
          refine ih _ m' (fun k' => ?_) hok
          rw [get_assign]
          by_cases hk' : k' = k
          · right; rw [if_pos hk']; simp [hl]
          · rw [if_neg hk']; exact hm k'
  intro hok
  unfold construct at hok
  have h0 : ∀ k : Cond × Bool, Markers.get [] k = [] ∨ (Markers.get [] k).length = n := fun k => by
    left; simp [Markers.get, Assoc.find]
  cases e1 : assembleTypes n false info.gt2b [] with
  | error x => rw [e1] at hok; simp at hok
  | ok m1 =>
    rw [e1] at hok
    simp only at hok
    cases e2 : assembleTypes n true info.gt2ib m1 with
    | error x => rw [e2] at hok; simp at hok
    | ok m2 =>
      obtain ⟨p, hp | hp, hlt⟩ := h
      · exact key false _ ⟨p, hp, hlt⟩ [] m1 h0 e1
      · exact key true _ ⟨p, hp, hlt⟩ m1 m2 (keep false _ [] m1 h0 e1) e2

/-! ### C20: materials seen by the elements -/

theorem foldl_max (ms : List (Int × Material K)) : ∀ a : Int,
    a ≤ ms.foldl (fun size p => if p.1 ≥ size then p.1 else size) a ∧
    (∀ p ∈ ms, p.1 ≤ ms.foldl (fun size p => if p.1 ≥ size then p.1 else size) a) ∧
    (ms.foldl (fun size p => if p.1 ≥ size then p.1 else size) a = a ∨
      ∃ p ∈ ms, p.1 = ms.foldl (fun size p => if p.1 ≥ size then p.1 else size) a) := by
  induction ms with
  | nil => intro a; simp
  | cons q ms ih =>
    intro a
    simp only [List.foldl_cons]
    obtain ⟨h1, h2, h3⟩ := ih (if q.1 ≥ a then q.1 else a)
    have hq : a ≤ (if q.1 ≥ a then q.1 else a) ∧ q.1 ≤ (if q.1 ≥ a then q.1 else a) := by
      split_ifs <;> omega
    refine ⟨hq.1.trans h1, ?_, ?_⟩
    · intro p hp
      simp only [List.mem_cons] at hp
      rcases hp with hp | hp
      · rw [hp]; exact hq.2.trans h1
      · exact h2 p hp
    · rcases h3 with h3 | ⟨p, hp, h3⟩
      · by_cases hc : q.1 ≥ a
        · right; exact ⟨q, by simp, by rw [h3, if_pos hc]⟩
        · left; rw [h3, if_neg hc]
      · right; exact ⟨p, by simp [hp], h3⟩

theorem size_spec (ms : List (Int × Material K)) :
    0 ≤ tagVectorSize ms ∧ (∀ p ∈ ms, p.1 ≤ tagVectorSize ms) ∧
    (tagVectorSize ms = 0 ∨ ∃ p ∈ ms, p.1 = tagVectorSize ms) := foldl_max ms 0

theorem fillTags_spec (f : Material K → K) (ms : List (Int × Material K)) :
    (ms.map Prod.fst).Nodup → ∀ v : List K, (∀ p ∈ ms, 1 ≤ p.1 ∧ p.1 ≤ v.length) →
    ∃ v', fillTags f ms v = .ok v' ∧ v'.length = v.length ∧
      ∀ i : Nat, v'[i]? = if i < v.length then
        some (((Assoc.find ms ((i : Int) + 1)).map f).getD (v.getD i 0)) else none := by
  induction ms with
  | nil =>
    intro _ v _
    refine ⟨v, rfl, rfl, fun i => ?_⟩
    by_cases hi : i < v.length
    · simp [hi, Assoc.find]
    · simp [hi]
  | cons q ms ih =>
    intro hn v hv
    obtain ⟨t, m⟩ := q
    simp only [List.map_cons, List.nodup_cons] at hn
    have ht := hv (t, m) (by simp)
    simp only at ht
    obtain ⟨v', e, hl, hg⟩ := ih hn.2 (v.set (t - 1).toNat (f m)) (fun p hp => by
      have := hv p (by simp [hp]); simpa using this)
    refine ⟨v', ?_, by simpa using hl, fun i => ?_⟩
    · rw [fillTags, if_pos ⟨by omega, by omega⟩]; exact e
    · rw [hg i]
      simp only [List.length_set]
      by_cases hi : i < v.length
      · rw [if_pos hi, if_pos hi]
        by_cases he : t = (i : Int) + 1
        · have hnone : Assoc.find ms ((i : Int) + 1) = none := by
            rw [Assoc.find_none_iff, ← he]; exact hn.1
          have hti : (t - 1).toNat = i := by omega
          rw [hnone, hti]
          simp [Assoc.find, he, hi]
        · have hti : ¬ (t - 1).toNat = i := by omega
          simp only [Assoc.find, if_neg he]
          congr 2
          rw [List.getD_eq_getElem?_getD, List.getD_eq_getElem?_getD, List.getElem?_set, if_neg hti]
      · rw [if_neg hi, if_neg hi]

/-- **C20.** For every map with positive tags, an element whose attribute has a material sees exactly the
permittivity, permeability and conductivity of that material. -/
theorem C20_values (ms : List (Int × Material K)) (hn : (ms.map Prod.fst).Nodup)
    (hpos : ∀ p ∈ ms, 1 ≤ p.1) :
    ∃ ve vm vs, epsMuVector ms .E = .ok ve ∧ epsMuVector ms .H = .ok vm ∧ sigmaVector ms = .ok vs ∧
      ∀ t m, Assoc.find ms t = some m →
        pwEval ve t = .ok m.eps ∧ pwEval vm t = .ok m.mu ∧ pwEval vs t = .ok m.sigma := by
  obtain ⟨s1, s2, _⟩ := size_spec ms
  have key : ∀ f : Material K → K, ∃ v, fillTags f ms (List.replicate (tagVectorSize ms).toNat 0) = .ok v ∧
      ∀ t m, Assoc.find ms t = some m → pwEval v t = .ok (f m) := by
    intro f
    obtain ⟨v, e, _, hg⟩ := fillTags_spec f ms hn (List.replicate (tagVectorSize ms).toNat 0) (fun p hp => by
      have h1 := hpos p hp
      have h2 := s2 p hp
      simp only [List.length_replicate]
      omega)
    refine ⟨v, e, fun t m ht => ?_⟩
    have hp := Assoc.find_mem ms t m ht
    have h1 := hpos _ hp
    have h2 := s2 _ hp
    simp only at h1 h2
    have hi : (((t - 1).toNat : Nat) : Int) + 1 = t := by omega
    unfold pwEval
    rw [if_pos (by omega), hg, if_pos (by simp only [List.length_replicate]; omega), hi, ht]
    simp
  obtain ⟨ve, e1, g1⟩ := key (fun m => m.eps)
  obtain ⟨vm, e2, g2⟩ := key (fun m => m.mu)
  obtain ⟨vs, e3, g3⟩ := key (fun m => m.sigma)
  exact ⟨ve, vm, vs, e1, e2, e3, fun t m ht => ⟨g1 t m ht, g2 t m ht, g3 t m ht⟩⟩

theorem emplaceTags_nodup (mk : Except Err (Material K)) (ts : List Int) :
    ∀ m m' : List (Int × Material K), (m.map Prod.fst).Nodup → emplaceTags mk ts m = .ok m' →
      (m'.map Prod.fst).Nodup := by
  induction ts with
  | nil => intro m m' h e; simp only [emplaceTags, Except.ok.injEq] at e; subst e; exact h
  | cons t ts ih =>
    intro m m' h e
    rw [emplaceTags.eq_def] at e
    simp only at e
    cases mk with
    | error x => simp at e
    | ok mat => exact ih _ m' (Assoc.nodup_insert m h t mat) e

theorem materialLoop_nodup (Z0 : K) (ms : List (MatEntry K)) :
    ∀ m m' : List (Int × Material K), (m.map Prod.fst).Nodup → materialLoop Z0 ms m = .ok m' →
      (m'.map Prod.fst).Nodup := by
  induction ms with
  | nil => intro m m' h e; simp only [materialLoop, Except.ok.injEq] at e; subst e; exact h
  | cons x ms ih =>
    intro m m' h e
    rw [materialLoop] at e
    cases h1 : emplaceTags (buildMaterial Z0 x.params) x.tags m with
    | error y => rw [h1] at e; simp at e
    | ok m1 => rw [h1] at e; exact ih m1 m' (emplaceTags_nodup _ _ m m1 h h1) e

/-- **C20, from the case file to the elements.** In an accepted case, an element whose attribute is listed
sees the material of the first entry that lists it. -/
theorem C20_end_to_end (Z0 : K) (ms : List (MatEntry K)) (bs : List (BdrEntry K)) (atts batts : List Int)
    (hatt : ∀ a ∈ atts, 1 ≤ a) (g gb : List (Int × Material K))
    (hr : assembleAttributeToMaterial Z0 ms bs atts batts = .ok (g, gb)) (n : Nat) (info : BdrInfo)
    (d : ModelData K) (hd : construct n g gb info = .ok d) (hne : ∃ e ∈ ms, e.tags ≠ []) :
    ∃ ve vm vs, epsMuVector d.materials .E = .ok ve ∧ epsMuVector d.materials .H = .ok vm ∧
      sigmaVector d.materials = .ok vs ∧
      ∀ t e, firstMat ms t = some e →
        pwEval ve t = .ok (described Z0 e.params).eps ∧ pwEval vm t = .ok (described Z0 e.params).mu ∧
        pwEval vs t = .ok (described Z0 e.params).sigma := by
  have hacc : Acceptable Z0 ms bs atts batts := by
    by_contra hc
    rw [C18_rejects Z0 ms bs atts batts hc] at hr
    simp at hr
  obtain ⟨g', gb', e1, f1, _⟩ := C18_first_wins Z0 ms bs atts batts hacc
  rw [hr] at e1
  simp only [Except.ok.injEq, Prod.mk.injEq] at e1
  obtain ⟨eg, _⟩ := e1
  subst eg
  have hnd : (g.map Prod.fst).Nodup := by
    unfold assembleAttributeToMaterial at hr
    cases h1 : materialLoop Z0 ms [] with
    | error x => rw [h1] at hr; simp at hr
    | ok g1 =>
      rw [h1] at hr
      simp only at hr
      cases h2 : bdrMaterialLoop Z0 bs [] with
      | error x => rw [h2] at hr; simp at hr
      | ok gb1 =>
        rw [h2] at hr
        simp only at hr
        split_ifs at hr
        simp only [Except.ok.injEq, Prod.mk.injEq] at hr
        exact hr.1 ▸ materialLoop_nodup Z0 ms [] g1 (by simp) h1
  have hmem : ∀ p ∈ g, 1 ≤ p.1 := by
    intro p hp
    have hs : (Assoc.find g p.1).isSome = true := by
      rw [Assoc.find_isSome_iff]; exact List.mem_map_of_mem hp
    rw [f1, Option.isSome_map, firstMat_isSome] at hs
    obtain ⟨e, he, ht⟩ := hs
    exact hatt _ (hacc.2.2.1 e he _ ht)
  have hgne : g ≠ [] := by
    obtain ⟨e, he, hte⟩ := hne
    obtain ⟨t, ht⟩ := List.exists_mem_of_ne_nil _ hte
    intro hg
    have hs : (Assoc.find g t).isSome = true := by
      rw [f1, Option.isSome_map, firstMat_isSome]; exact ⟨e, he, ht⟩
    rw [hg] at hs
    simp [Assoc.find] at hs
  have hdm : d.materials = g := by
    unfold construct at hd
    cases h1 : assembleTypes n false info.gt2b [] with
    | error x => rw [h1] at hd; simp at hd
    | ok m1 =>
      rw [h1] at hd
      simp only at hd
      cases h2 : assembleTypes n true info.gt2ib m1 with
      | error x => rw [h2] at hd; simp at hd
      | ok m2 =>
        rw [h2] at hd
        simp only [Except.ok.injEq] at hd
        rw [← hd]
        have : g.isEmpty = false := by simpa using hgne
        simp [this]
  rw [hdm]
  obtain ⟨ve, vm, vs, a1, a2, a3, hv⟩ := C20_values g hnd hmem
  refine ⟨ve, vm, vs, a1, a2, a3, fun t e he => hv t (described Z0 e.params) ?_⟩
  rw [f1, he]
  rfl

example : assembleAttributeToMaterial (377 : ℚ) demoMats demoBdrs [1, 3, 4] [7, 8, 9] =
    .ok ([(1, ⟨2, 1, 0⟩), (3, ⟨2, 1, 0⟩), (4, ⟨1, 1, 377/10⟩)], [(8, ⟨1, 3, 0⟩), (7, ⟨1, 3, 0⟩)]) ∧
    (∃ e ∈ demoMats, e.tags ≠ []) ∧ (∀ a ∈ [1, 3, 4], (1 : Int) ≤ a) ∧
    epsMuVector [(1, (⟨2, 1, 0⟩ : Material ℚ)), (3, ⟨2, 1, 0⟩), (4, ⟨1, 1, 377/10⟩)] .E = .ok [2, 0, 2, 1] := by
  decide +kernel

/-! ### C73: every element has a material -/

/-- **C73 (part).** If every attribute of the mesh is listed, every element of an accepted case sees a
permittivity and a permeability of at least one. -/
theorem C73_listed_partial [IsStrictOrderedRing K] (Z0 : K) (ms : List (MatEntry K)) (bs : List (BdrEntry K))
    (atts batts : List Int) (hatt : ∀ a ∈ atts, 1 ≤ a) (g gb : List (Int × Material K))
    (hr : assembleAttributeToMaterial Z0 ms bs atts batts = .ok (g, gb)) (n : Nat) (info : BdrInfo)
    (d : ModelData K) (hd : construct n g gb info = .ok d) (a : Int) (ha : a ∈ atts)
    (hall : ∀ a ∈ atts, ∃ e ∈ ms, a ∈ e.tags) :
    ∃ ve vm, epsMuVector d.materials .E = .ok ve ∧ epsMuVector d.materials .H = .ok vm ∧
      ∃ x y, pwEval ve a = .ok x ∧ pwEval vm a = .ok y ∧ 1 ≤ x ∧ 1 ≤ y := by
  have hacc : Acceptable Z0 ms bs atts batts := by
    by_contra hc
    rw [C18_rejects Z0 ms bs atts batts hc] at hr
    simp at hr
  obtain ⟨e0, he0, hae0⟩ := hall a ha
  obtain ⟨ve, vm, vs, a1, a2, _, hv⟩ := C20_end_to_end Z0 ms bs atts batts hatt g gb hr n info d hd
    ⟨e0, he0, fun h => by rw [h] at hae0; simp at hae0⟩
  have hs : (firstMat ms a).isSome = true := (firstMat_isSome ms a).2 ⟨e0, he0, hae0⟩
  obtain ⟨e, he⟩ := Option.isSome_iff_exists.1 hs
  obtain ⟨v1, v2, _⟩ := hv a e he
  have hx : e ∈ ms := List.mem_of_find?_eq_some he
  have hax : a ∈ e.tags := by simpa using List.find?_some he
  have hp : Physical (described Z0 e.params) := by
    rcases hacc.1 e hx with h0 | h0
    · rw [h0] at hax; simp at hax
    · exact h0
  exact ⟨ve, vm, a1, a2, _, _, v1, v2, hp.1, hp.2.1⟩

example : (∀ a ∈ ([1, 3, 4] : List Int), ∃ e ∈ demoMats, a ∈ e.tags) ∧ (3 : Int) ∈ [1, 3, 4] := by
  decide +kernel

/-- **C73 is false.** A case whose mesh has attributes without material is accepted; its elements see
permittivity zero, or the vector is read outside its bounds. -/
theorem C73_violated : ∃ (ms : List (MatEntry ℚ)) (g gb : List (Int × Material ℚ)) (ve : List ℚ),
    assembleAttributeToMaterial 377 ms [] [1, 2, 3] [] = .ok (g, gb) ∧ epsMuVector g .E = .ok ve ∧
    pwEval ve 1 = .ok 0 ∧ pwEval ve 3 = .error .ub := by
  refine ⟨[⟨⟨some 4, none, none⟩, [2]⟩], [(2, ⟨4, 1, 0⟩)], [], [0, 4], ?_, ?_, ?_, ?_⟩ <;> decide +kernel

/-! ### C22: total-field markers -/

theorem inner_fold (n : Nat) (bdrAttrs : List Int) (t : Int) : ∀ P : Nat → Bool,
    (∀ b ∈ bdrAttrs, 1 ≤ b) →
    bdrAttrs.foldl (fun a b => if b = t then a.set (b - 1).toNat 1 else a)
      ((List.range n).map fun i : Nat => if P i then (1 : Int) else 0) =
    (List.range n).map fun i : Nat =>
      if P i || (decide (((i : Int) + 1) = t) && decide (t ∈ bdrAttrs)) then 1 else 0 := by
  induction bdrAttrs with
  | nil => intro P _; simp
  | cons b bdrAttrs ih =>
    intro P h
    simp only [List.foldl_cons]
    have hb := h b (by simp)
    by_cases e : b = t
    · rw [if_pos e]
      have hset : ((List.range n).map fun i : Nat => if P i then (1 : Int) else 0).set (b - 1).toNat 1 =
          (List.range n).map fun i : Nat => if (P i || decide (((i : Int) + 1) = t)) then (1 : Int) else 0 := by
        apply List.ext_getElem?
        intro i
        rw [List.getElem?_set]
        by_cases hi : i < n
        · simp only [List.getElem?_map, List.getElem?_range hi, List.length_map, List.length_range,
            Option.map_some]
          by_cases he : (b - 1).toNat = i
          · have : (i : Int) + 1 = t := by omega
            rw [if_pos he, if_pos (by omega)]
            simp [this]
          · have : ¬ (i : Int) + 1 = t := by omega
            rw [if_neg he]
            simp [this]
        · have hnone : (List.range n)[i]? = none := List.getElem?_eq_none (by simpa using hi)
          simp only [List.getElem?_map, hnone, List.length_map, List.length_range, Option.map_none]
          split_ifs <;> first | rfl | omega
      rw [hset, ih _ (fun x hx => h x (by simp [hx]))]
      apply List.map_congr_left
      intro i _
      congr 1
      simp only [e, List.mem_cons, true_or, decide_true, Bool.and_true]
      cases P i <;> cases decide (((i : Int) + 1) = t) <;> simp
    · rw [if_neg e, ih _ (fun x hx => h x (by simp [hx]))]
      apply List.map_congr_left
      intro i _
      have : ¬ t = b := fun hh => e hh.symm
      simp [this]

theorem presentMarker_eq (n : Nat) (bdrAttrs : List Int) (hb : ∀ b ∈ bdrAttrs, 1 ≤ b) (tags : List Int) :
    presentMarker n bdrAttrs tags = (List.range n).map fun i : Nat =>
      if ((i : Int) + 1) ∈ tags ∧ ((i : Int) + 1) ∈ bdrAttrs then 1 else 0 := by
  have gen : ∀ (tags : List Int) (P : Nat → Bool),
      tags.foldl (fun a t => bdrAttrs.foldl (fun a b => if b = t then a.set (b - 1).toNat 1 else a) a)
        ((List.range n).map fun i : Nat => if P i then (1 : Int) else 0) =
      (List.range n).map fun i : Nat =>
        if P i || decide (((i : Int) + 1) ∈ tags ∧ ((i : Int) + 1) ∈ bdrAttrs) then 1 else 0 := by
    intro tags
    induction tags with
    | nil => intro P; simp
    | cons t tags ih =>
      intro P
      simp only [List.foldl_cons]
      rw [inner_fold n bdrAttrs t P hb, ih]
      apply List.map_congr_left
      intro i _
      congr 1
      by_cases e : (i : Int) + 1 = t
      · cases P i <;> simp [e]
      · simp [e]
  have h0 : List.replicate n (0 : Int) =
      (List.range n).map fun i : Nat => if (fun _ : Nat => false) i then (1 : Int) else 0 := by
    simp
  unfold presentMarker
  rw [h0, gen]
  apply List.map_congr_left
  intro i _
  simp

theorem sum_zero_one (l : List Nat) (p : Nat → Prop) [DecidablePred p] :
    (l.map fun i => if p i then (1 : Int) else 0).sum = 0 ↔ ∀ i ∈ l, ¬ p i := by
  have hnn : ∀ l : List Nat, 0 ≤ (l.map fun i => if p i then (1 : Int) else 0).sum := by
    intro l
    induction l with
    | nil => simp
    | cons a l ih =>
      simp only [List.map_cons, List.sum_cons]
      split_ifs <;> omega
  induction l with
  | nil => simp
  | cons a l ih =>
    simp only [List.map_cons, List.sum_cons, List.mem_cons, forall_eq_or_imp]
    have := hnn l
    by_cases h : p a
    · rw [if_pos h]
      constructor
      · intro e; omega
      · rintro ⟨h', _⟩; exact absurd h h'
    · rw [if_neg h, zero_add]
      exact ⟨fun e => ⟨h, ih.1 e⟩, fun e => ih.2 e.2⟩

/-- The marker of a set of tags is not all zero exactly when some boundary element carries one of them. -/
theorem presentMarker_sum (n : Nat) (bdrAttrs : List Int) (hb : ∀ b ∈ bdrAttrs, 1 ≤ b ∧ b ≤ n)
    (tags : List Int) : (presentMarker n bdrAttrs tags).sum ≠ 0 ↔ ∃ t ∈ tags, t ∈ bdrAttrs := by
  rw [presentMarker_eq n bdrAttrs (fun b h => (hb b h).1), ne_eq, sum_zero_one]
  push Not
  constructor
  · rintro ⟨i, _, h1, h2⟩; exact ⟨_, h1, h2⟩
  · rintro ⟨t, h1, h2⟩
    have := hb t h2
    have ht : (((t - 1).toNat : Nat) : Int) + 1 = t := by omega
    exact ⟨(t - 1).toNat, by simp; omega, by rw [ht]; exact h1, by rw [ht]; exact h2⟩

/-- **C22, what the code does.** The marker is that of the first total-field source with a face in the
partition; later sources are ignored. -/
theorem C22_first_source (n : Nat) (bdrAttrs : List Int) (hb : ∀ b ∈ bdrAttrs, 1 ≤ b ∧ b ≤ n)
    (ss : List SrcEntry) :
    Assoc.find (tfsfLoop n bdrAttrs ss []) .totalFieldIn =
      (ss.find? fun s => s.totalField && s.tags.any fun t => decide (t ∈ bdrAttrs)).map fun s =>
        presentMarker n bdrAttrs s.tags := by
  have gen : ∀ (ss : List SrcEntry) (m : List (Cond × List Int)),
      Assoc.find (tfsfLoop n bdrAttrs ss m) .totalFieldIn = (Assoc.find m .totalFieldIn).or
        ((ss.find? fun s => s.totalField && s.tags.any fun t => decide (t ∈ bdrAttrs)).map fun s =>
          presentMarker n bdrAttrs s.tags) := by
    intro ss
    induction ss with
    | nil => intro m; simp [tfsfLoop]
    | cons s ss ih =>
      intro m
      rw [tfsfLoop]
      by_cases ht : s.totalField = true
      · rw [if_pos ht]
        by_cases hs : (presentMarker n bdrAttrs s.tags).sum ≠ 0
        · rw [if_pos hs, ih, Assoc.find_insert, if_pos rfl]
          rw [presentMarker_sum n bdrAttrs hb] at hs
          have hany : (s.totalField && s.tags.any fun t => decide (t ∈ bdrAttrs)) = true := by
            simp only [ht, Bool.true_and, List.any_eq_true, decide_eq_true_eq]; exact hs
          rw [List.find?_cons_of_pos (p := fun s : SrcEntry => s.totalField && s.tags.any fun t => decide (t ∈ bdrAttrs)) hany]
          cases Assoc.find m .totalFieldIn <;> simp
        · rw [if_neg hs, ih]
          rw [presentMarker_sum n bdrAttrs hb] at hs
          have hany : ¬ (s.totalField && s.tags.any fun t => decide (t ∈ bdrAttrs)) = true := by
            simp only [ht, Bool.true_and, List.any_eq_true, decide_eq_true_eq]; exact hs
          rw [List.find?_cons_of_neg (p := fun s : SrcEntry => s.totalField && s.tags.any fun t => decide (t ∈ bdrAttrs)) hany]
      · rw [if_neg ht, ih]
        have hany : ¬ (s.totalField && s.tags.any fun t => decide (t ∈ bdrAttrs)) = true := by simp [ht]
        rw [List.find?_cons_of_neg (p := fun s : SrcEntry => s.totalField && s.tags.any fun t => decide (t ∈ bdrAttrs)) hany]
  rw [gen]
  simp [Assoc.find]

/-- **C22 (one source).** True when there is a single total-field source. -/
theorem C22_single_partial (n : Nat) (bdrAttrs : List Int) (hb : ∀ b ∈ bdrAttrs, 1 ≤ b ∧ b ≤ n)
    (pre post : List SrcEntry) (s : SrcEntry) (h1 : ∀ x ∈ pre, x.totalField = false)
    (h2 : ∀ x ∈ post, x.totalField = false) :
    AllMarked n bdrAttrs (pre ++ s :: post) (tfsfLoop n bdrAttrs (pre ++ s :: post) []) := by
  intro x hx hxt i hi h3 h4
  have hxs : x = s := by
    simp only [List.mem_append, List.mem_cons] at hx
    rcases hx with hx | hx | hx
    · rw [h1 x hx] at hxt; exact absurd hxt (by simp)
    · exact hx
    · rw [h2 x hx] at hxt; exact absurd hxt (by simp)
  subst hxs
  have hany : (x.totalField && x.tags.any fun t => decide (t ∈ bdrAttrs)) = true := by
    simp only [hxt, Bool.true_and, List.any_eq_true, decide_eq_true_eq]
    exact ⟨_, h3, h4⟩
  have hfind : (pre ++ x :: post).find? (fun s => s.totalField && s.tags.any fun t => decide (t ∈ bdrAttrs)) =
      some x := by
    rw [List.find?_append]
    have : pre.find? (fun s => s.totalField && s.tags.any fun t => decide (t ∈ bdrAttrs)) = none := by
      rw [List.find?_eq_none]
      intro y hy
      simp [h1 y hy]
    rw [this, List.find?_cons_of_pos (p := fun s : SrcEntry => s.totalField && s.tags.any fun t => decide (t ∈ bdrAttrs)) hany]
    rfl
  refine ⟨presentMarker n bdrAttrs x.tags, ?_, ?_⟩
  · rw [C22_first_source n bdrAttrs hb, hfind]; rfl
  · rw [presentMarker_eq n bdrAttrs (fun b h => (hb b h).1), List.getElem?_map, List.getElem?_range hi]
    simp [h3, h4]

example : ∀ b ∈ ([1, 2, 2, 3] : List Int), 1 ≤ b ∧ b ≤ (3 : Nat) := by decide
example : tfsfLoop 3 [1, 2, 2, 3] [⟨false, [1]⟩, ⟨true, [2, 7]⟩] [] = [(.totalFieldIn, [0, 1, 0])] := by
  decide +kernel

/-- **C22 is false for several sources.** The faces of the second plane wave are not marked. -/
theorem C22_violated : ∃ (n : Nat) (bdrAttrs : List Int) (ss : List SrcEntry),
    (∀ b ∈ bdrAttrs, 1 ≤ b ∧ b ≤ n) ∧ ¬ AllMarked n bdrAttrs ss (tfsfLoop n bdrAttrs ss []) := by
  refine ⟨2, [1, 2], [⟨true, [1]⟩, ⟨true, [2]⟩], by decide, fun h => ?_⟩
  obtain ⟨a, h1, h2⟩ := h ⟨true, [2]⟩ (by simp) rfl 1 (by decide) (by decide) (by decide)
  have : Assoc.find (tfsfLoop 2 [1, 2] [⟨true, [1]⟩, ⟨true, [2]⟩] []) .totalFieldIn = some [1, 0] := by
    decide +kernel
  rw [this] at h1
  simp only [Option.some.injEq] at h1
  subst h1
  simp at h2

/-- **C21 for thin layers.** Unlike the total-field marker, the thin-layer marker covers the tags of all the
thin layers of the case. -/
theorem C21_thin_layers (n : Nat) (bdrAttrs : List Int) (hb : ∀ b ∈ bdrAttrs, 1 ≤ b ∧ b ≤ n)
    (bs : List (BdrEntry K)) (i : Nat) (hi : i < n) :
    (∃ a, Assoc.find (sgbcLoop n bdrAttrs bs bs []) .sgbc = some a ∧ a[i]? = some 1) ↔
      ((i : Int) + 1) ∈ bdrAttrs ∧ ∃ b ∈ bs, b.type = some "SGBC" ∧ ((i : Int) + 1) ∈ b.tags := by
  have gen : ∀ (l : List (BdrEntry K)) (m : List (Cond × List Int)),
      Assoc.find (sgbcLoop n bdrAttrs bs l m) .sgbc = (Assoc.find m .sgbc).or
        (if (∃ b ∈ l, b.type = some "SGBC") ∧ (∃ t ∈ getSGBCTags bs, t ∈ bdrAttrs) then
          some (presentMarker n bdrAttrs (getSGBCTags bs)) else none) := by
    intro l
    induction l with
    | nil => intro m; simp [sgbcLoop]
    | cons b l ih =>
      intro m
      rw [sgbcLoop]
      by_cases ht : b.type = some "SGBC"
      · rw [if_pos ht]
        have hex : (∃ x ∈ b :: l, x.type = some "SGBC") := ⟨b, by simp, ht⟩
        by_cases hs : (presentMarker n bdrAttrs (getSGBCTags bs)).sum ≠ 0
        · rw [if_pos hs, ih, Assoc.find_insert, if_pos rfl]
          rw [presentMarker_sum n bdrAttrs hb] at hs
          have hex2 : (∃ x ∈ b :: l, x.type = some "SGBC") ∧ ∃ t ∈ getSGBCTags bs, t ∈ bdrAttrs := ⟨hex, hs⟩
          rw [if_pos hex2]
          cases Assoc.find m .sgbc <;> simp
        · rw [if_neg hs, ih]
          rw [presentMarker_sum n bdrAttrs hb] at hs
          rw [if_neg (fun h => hs h.2), if_neg (fun h => hs h.2)]
      · rw [if_neg ht, ih]
        have : (∃ x ∈ b :: l, x.type = some "SGBC") ↔ ∃ x ∈ l, x.type = some "SGBC" := by simp [ht]
        simp only [this]
  have hmem : ∀ t, t ∈ getSGBCTags bs ↔ ∃ b ∈ bs, b.type = some "SGBC" ∧ t ∈ b.tags := by
    intro t
    unfold getSGBCTags
    rw [List.mem_flatMap]
    constructor
    · rintro ⟨b, hbm, h⟩
      split_ifs at h with hty
      · exact ⟨b, hbm, hty, h⟩
      · simp at h
    · rintro ⟨b, hbm, hty, h⟩; exact ⟨b, hbm, by rw [if_pos hty]; exact h⟩
  have hval : (presentMarker n bdrAttrs (getSGBCTags bs))[i]? = some 1 ↔
      ((i : Int) + 1) ∈ getSGBCTags bs ∧ ((i : Int) + 1) ∈ bdrAttrs := by
    rw [presentMarker_eq n bdrAttrs (fun b h => (hb b h).1), List.getElem?_map, List.getElem?_range hi]
    simp only [Option.map_some, Option.some.injEq]
    split_ifs with h <;> simp [h]
  rw [gen bs []]
  simp only [Assoc.find, Option.none_or]
  constructor
  · rintro ⟨a, h1, h2⟩
    split_ifs at h1 with hc
    simp only [Option.some.injEq] at h1
    subst h1
    rw [hval] at h2
    exact ⟨h2.2, (hmem _).1 h2.1⟩
  · rintro ⟨h1, h2⟩
    have h3 := (hmem _).2 h2
    obtain ⟨b, hbm, hty, _⟩ := h2
    rw [if_pos ⟨⟨b, hbm, hty⟩, _, h3, h1⟩]
    exact ⟨_, rfl, hval.2 ⟨h3, h1⟩⟩

end Dgtd.Config
