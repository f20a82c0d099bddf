import Verif.Spec.ChildBdr
import Mathlib.Tactic.IntervalCases

/-
C168: the far field is integrated over the surface the user chose.
-/

namespace Dgtd.ChildBdr

open Dgtd Dgtd.ChildBdr.Spec

lemma le_maxAttr {l : List Int} {a : Int} (h : a ∈ l) : a.toNat ≤ maxAttr l := by
  induction l with
  | nil => simp at h
  | cons x l ih =>
    rcases List.mem_cons.mp h with rfl | h
    · exact le_max_left _ _
    · exact le_trans (ih h) (le_max_right _ _)

lemma maxAttr_le {l : List Int} {n : Nat} (h : ∀ a ∈ l, a.toNat ≤ n) : maxAttr l ≤ n := by
  induction l with
  | nil => simp [maxAttr]
  | cons x l ih =>
    exact max_le (h x (by simp)) (ih fun a ha => h a (by simp [ha]))

lemma findIdx_unique {α : Type} {l : List α} {p : α → Bool} {i : Nat} {x : α} (hi : l[i]? = some x) (hx : p x = true)
    (hu : ∀ j y, l[j]? = some y → p y = true → j = i) : l.findIdx? p = some i := by
  rw [List.findIdx?_eq_some_iff_getElem]
  obtain ⟨hlt, he⟩ := List.getElem?_eq_some_iff.mp hi
  refine ⟨hlt, by rw [he]; exact hx, fun j hj => ?_⟩
  intro h
  have := hu j (l[j]'(by omega)) (List.getElem?_eq_getElem (by omega)) h
  omega

lemma findIdx_spec {α : Type} {l : List α} {p : α → Bool} {i : Nat} (h : l.findIdx? p = some i) :
    ∃ x, l[i]? = some x ∧ p x = true := by
  rw [List.findIdx?_eq_some_iff_getElem] at h
  obtain ⟨hlt, hx, _⟩ := h
  exact ⟨_, List.getElem?_eq_getElem hlt, hx⟩

lemma target_iff {P : Parent} {C : Child} (h : Consistent P C) (be b : Nat) :
    target P C be = some b ↔ ∃ (f pf : Nat), C.faceToBdr[f]? = some (b : Int) ∧ C.faceMap[f]? = some pf ∧
      P.faceToBdr[pf]? = some (be : Int) := by
  constructor
  · intro ht
    unfold target at ht
    simp only [Option.bind_eq_bind, Option.bind_eq_some_iff] at ht
    obtain ⟨pf, hpf, cf, hcf, x, hx, hb⟩ := ht
    obtain ⟨y, hy, hy'⟩ := findIdx_spec hpf
    obtain ⟨z, hz, hz'⟩ := findIdx_spec hcf
    have hy'' : y = (be : Int) := by simpa using hy'
    have hz'' : z = pf := by simpa using hz'
    subst hy'' hz''
    split at hb
    · cases hb
    · rename_i hn
      simp only [Option.some.injEq] at hb
      have : x = (b : Int) := by omega
      subst this
      exact ⟨cf, z, hx, hz, hy⟩
  · rintro ⟨f, pf, hf, hm, hp⟩
    have h1 : P.faceToBdr.findIdx? (fun x => x == (be : Int)) = some pf :=
      findIdx_unique hp (by simp) fun j y hy hy' => by
        have : y = (be : Int) := by simpa using hy'
        subst this
        exact h.parentOnce _ _ _ hy hp
    have h2 : C.faceMap.findIdx? (fun x => x == pf) = some f :=
      findIdx_unique hm (by simp) fun j y hy hy' => by
        have : y = pf := by simpa using hy'
        subst this
        exact h.faceOnce _ _ _ hy hm
    unfold target
    simp [h1, h2, hf]

/-- The marker of the tags. -/
lemma marker_spec {n : Nat} {tags : List Int} (ht : ∀ t ∈ tags, 1 ≤ t ∧ t ≤ n) :
    ∃ m, ProbeCfg.surfaceMarker n tags = .ok m ∧ m.length = n ∧
      ∀ a : Int, 1 ≤ a → a ≤ n → ∃ k, m[(a - 1).toNat]? = some k ∧ (k = 1 ↔ a ∈ tags) := by
  have key : ∀ (ts : List Int) (m0 : List Nat), m0.length = n → (∀ t ∈ ts, 1 ≤ t ∧ t ≤ n) →
      ∃ m, ts.foldlM (fun (m : List Nat) (t : Int) =>
        if 1 ≤ t ∧ t ≤ n then Except.ok (m.set (t - 1).toNat 1) else Except.error Config.Err.ub) m0 = .ok m ∧ m.length = n ∧
        ∀ a : Int, 1 ≤ a → a ≤ n → ∃ k, m[(a - 1).toNat]? = some k ∧ (k = 1 ↔ a ∈ ts ∨ m0[(a - 1).toNat]? = some 1) := by
    intro ts
    induction ts with
    | nil =>
      intro m0 hl _
      refine ⟨m0, rfl, hl, fun a h1 h2 => ?_⟩
      have hlt : (a - 1).toNat < m0.length := by omega
      exact ⟨m0[(a - 1).toNat], List.getElem?_eq_getElem hlt, by rw [List.getElem?_eq_getElem hlt]; simp⟩
    | cons t ts ih =>
      intro m0 hl hts
      have ht := hts t (by simp)
      obtain ⟨m, hm, hlen, hk⟩ := ih (m0.set (t - 1).toNat 1) (by simp [hl]) fun x hx => hts x (by simp [hx])
      refine ⟨m, ?_, hlen, fun a h1 h2 => ?_⟩
      · rw [List.foldlM_cons, if_pos ht]
        exact hm
      · obtain ⟨k, hk1, hk2⟩ := hk a h1 h2
        refine ⟨k, hk1, hk2.trans ?_⟩
        rw [List.getElem?_set]
        by_cases he : (t - 1).toNat = (a - 1).toNat
        · have hat : a = t := by omega
          subst hat
          have hlt : (a - 1).toNat < m0.length := by omega
          rw [if_pos rfl, if_pos hlt]
          simp
        · have hne : a ≠ t := by intro h; exact he (by rw [h])
          rw [if_neg he, List.mem_cons]
          exact ⟨fun h => h.imp_left Or.inr, fun h => h.imp_left fun h' => h'.resolve_left hne⟩
  obtain ⟨m, hm, hl, hk⟩ := key tags (List.replicate n 0) (by simp) ht
  refine ⟨m, hm, hl, fun a h1 h2 => ?_⟩
  obtain ⟨k, hk1, hk2⟩ := hk a h1 h2
  refine ⟨k, hk1, hk2.trans ?_⟩
  simp [List.getElem?_replicate]

/-- The loop over the boundary elements of the parent. -/
lemma loop_spec {P : Parent} {C : Child} {tags : List Int} {m : List Nat} {cond : Int} (hpos : ∀ a ∈ P.bdrAttr, 1 ≤ a)
    (hm : ∀ a : Int, 1 ≤ a → a ≤ maxAttr P.bdrAttr → ∃ k, m[(a - 1).toNat]? = some k ∧ (k = 1 ↔ a ∈ tags)) :
    ∀ (bes : List Nat) (attrs : List Int), (∀ be ∈ bes, be < P.bdrAttr.length) →
      (∀ be b, target P C be = some b → b < attrs.length) →
      ∃ out, bes.foldlM (visit P C m cond) attrs = some out ∧ out.length = attrs.length ∧
        ∀ b, ((∃ be ∈ bes, target P C be = some b ∧ ∃ a ∈ tags, P.bdrAttr[be]? = some a) → out[b]? = some cond) ∧
          ((¬ ∃ be ∈ bes, target P C be = some b ∧ ∃ a ∈ tags, P.bdrAttr[be]? = some a) → out[b]? = attrs[b]?) := by
  intro bes
  induction bes with
  | nil => intro attrs _ _; exact ⟨attrs, rfl, rfl, fun b => ⟨by simp, by simp⟩⟩
  | cons be bes ih =>
    intro attrs hb hin
    have hlt := hb be (by simp)
    obtain ⟨a, ha⟩ : ∃ a, a = P.bdrAttr[be] := ⟨_, rfl⟩
    have hget : P.bdrAttr[be]? = some a := by rw [ha]; exact List.getElem?_eq_getElem hlt
    have hmem : a ∈ P.bdrAttr := List.mem_of_getElem? hget
    have h1 := hpos a hmem
    have h2 : a ≤ maxAttr P.bdrAttr := by have := le_maxAttr hmem; omega
    obtain ⟨k, hk, hk'⟩ := hm a h1 h2
    have hv : visit P C m cond attrs be = some (if a ∈ tags then
        match target P C be with | some b => attrs.set b cond | none => attrs else attrs) := by
      unfold visit
      simp only [hget, Option.bind_eq_bind, Option.bind_some, if_pos h1, hk]
      by_cases hat : a ∈ tags
      · rw [if_pos (hk'.mpr hat), if_pos hat]
        cases target P C be <;> rfl
      · rw [if_neg (fun h => hat (hk'.mp h)), if_neg hat]
        rfl
    obtain ⟨att', hatt⟩ : ∃ att', att' = (if a ∈ tags then
        match target P C be with | some b => attrs.set b cond | none => attrs else attrs) := ⟨_, rfl⟩
    have hlen : att'.length = attrs.length := by
      rw [hatt]; split
      · split <;> simp
      · rfl
    obtain ⟨out, ho, hol, hob⟩ := ih att' (fun x hx => hb x (by simp [hx])) (fun x b hx => by rw [hlen]; exact hin x b hx)
    refine ⟨out, ?_, hol.trans hlen, fun b => ⟨?_, ?_⟩⟩
    · rw [List.foldlM_cons, hv, ← hatt]
      exact ho
    · rintro ⟨be', hbe', ht, a', ha', hga⟩
      by_cases hin' : ∃ be ∈ bes, target P C be = some b ∧ ∃ a ∈ tags, P.bdrAttr[be]? = some a
      · exact (hob b).1 hin'
      · rw [(hob b).2 hin']
        rcases List.mem_cons.mp hbe' with rfl | hbe'
        · rw [hget] at hga
          cases hga
          rw [hatt, if_pos ha', ht]
          simp only
          rw [List.getElem?_set_self (hin _ _ ht)]
        · exact absurd ⟨be', hbe', ht, a', ha', hga⟩ hin'
    · intro hno
      rw [(hob b).2 fun ⟨x, hx, h⟩ => hno ⟨x, by simp [hx], h⟩, hatt]
      split
      · rename_i hat
        split
        · rename_i b' hb'
          by_cases hbb : b' = b
          · subst hbb
            exact absurd ⟨be, by simp, hb', a, hat, hget⟩ hno
          · rw [List.getElem?_set_ne hbb]
        · rfl
      · rfl

lemma onSurface_iff {P : Parent} {C : Child} (h : Consistent P C) (tags : List Int) (b : Nat) :
    (∃ be ∈ List.range P.bdrAttr.length, target P C be = some b ∧ ∃ a ∈ tags, P.bdrAttr[be]? = some a) ↔
      OnSurface P C tags b := by
  constructor
  · rintro ⟨be, _, ht, a, ha, hg⟩
    obtain ⟨f, pf, h1, h2, h3⟩ := (target_iff h be b).mp ht
    exact ⟨a, ha, f, pf, be, h1, h2, h3, hg⟩
  · rintro ⟨a, ha, f, pf, be, h1, h2, h3, hg⟩
    obtain ⟨hlt, _⟩ := List.getElem?_eq_some_iff.mp hg
    exact ⟨be, by simpa using hlt, (target_iff h be b).mpr ⟨f, pf, h1, h2, h3⟩, a, ha, hg⟩

/-- The attributes of the sub-mesh after the surface was marked: exactly the boundary elements on the surface have the
attribute of the surface, all others keep theirs. -/
theorem C168_attributes {P : Parent} {C : Child} (h : Consistent P C) {tags : List Int}
    (ht : ∀ t ∈ tags, 1 ≤ t ∧ t ≤ maxAttr P.bdrAttr) (cond : Int) :
    ∃ m out, ProbeCfg.surfaceMarker (maxAttr P.bdrAttr) tags = .ok m ∧ setBoundaryAttributes P C m cond = some out ∧
      out.length = C.bdrAttr.length ∧
      ∀ b, (OnSurface P C tags b → out[b]? = some cond) ∧ (¬ OnSurface P C tags b → out[b]? = C.bdrAttr[b]?) := by
  obtain ⟨m, hm, _, hk⟩ := marker_spec ht
  obtain ⟨out, ho, hl, hb⟩ := loop_spec (C := C) (cond := cond) h.parentPos hk (List.range P.bdrAttr.length) C.bdrAttr
    (by simp) (fun be b hb => by
      obtain ⟨f, pf, h1, _, _⟩ := (target_iff h be b).mp hb
      exact h.childIn f b h1)
  refine ⟨m, out, hm, ho, hl, fun b => ⟨fun hs => (hb b).1 ((onSurface_iff h tags b).mpr hs), fun hs => (hb b).2 ?_⟩⟩
  exact fun h' => hs ((onSurface_iff h tags b).mp h')

/-- What the far field is integrated over: the boundary elements on the surface, and every other boundary element of the
sub-mesh that happens to start with the attribute 201. -/
theorem C168_faces {P : Parent} {C : Child} (h : Consistent P C) {tags : List Int}
    (ht : ∀ t ∈ tags, 1 ≤ t ∧ t ≤ maxAttr P.bdrAttr) (hs : ∃ b, OnSurface P C tags b) :
    ∃ L, surfaceFaces P C tags = some L ∧ L.Nodup ∧ ∀ b, b ∈ L ↔ OnSurface P C tags b ∨ C.bdrAttr[b]? = some 201 := by
  obtain ⟨m, out, hm, ho, hl, hb⟩ := C168_attributes h ht nearToFarField
  have hpos : ∀ (b : Nat) (a : Int), out[b]? = some a → 1 ≤ a := by
    intro b a hba
    by_cases hsb : OnSurface P C tags b
    · rw [(hb b).1 hsb] at hba
      cases hba
      decide
    · rw [(hb b).2 hsb] at hba
      exact h.childPos a (List.mem_of_getElem? hba)
  obtain ⟨b0, hb0⟩ := hs
  have hmax : nearToFarField.toNat ≤ maxAttr out := le_maxAttr (List.mem_of_getElem? ((hb b0).1 hb0))
  have hsel : ∀ a : Int, 1 ≤ a → a.toNat ≤ maxAttr out →
      ((((List.replicate (maxAttr out) 0).set (nearToFarField - 1).toNat 1)[(a - 1).toNat]? = some 1) ↔ a = 201) := by
    intro a h1 h2
    have hN : (nearToFarField - 1).toNat = 200 := by decide
    have hN' : nearToFarField.toNat = 201 := by decide
    rw [hN, List.getElem?_set]
    by_cases h3 : 200 = (a - 1).toNat
    · rw [if_pos h3]
      have h4 : a = 201 := by omega
      have h5 : 200 < (List.replicate (maxAttr out) 0).length := by simp; omega
      rw [if_pos h5]
      simp [h4]
    · rw [if_neg h3]
      have h4 : a ≠ 201 := by omega
      simp [List.getElem?_replicate, h4]
  refine ⟨(List.range out.length).filter fun b => match out[b]? with
      | some a => ((List.replicate (maxAttr out) 0).set (nearToFarField - 1).toNat 1)[(a - 1).toNat]? == some 1
      | none => false, ?_, List.nodup_range.sublist List.filter_sublist, fun b => ?_⟩
  · unfold surfaceFaces
    rw [hm]
    simp only [Except.toOption, Option.bind_eq_bind, Option.bind_some, ho]
    unfold farFaces farMarker
    rw [if_pos hmax]
    rfl
  · rw [List.mem_filter, List.mem_range]
    constructor
    · rintro ⟨hlt, hx⟩
      by_cases hsb : OnSurface P C tags b
      · exact Or.inl hsb
      · right
        rw [← (hb b).2 hsb]
        have hg : out[b]? = some out[b] := List.getElem?_eq_getElem hlt
        rw [hg] at hx ⊢
        simp only [beq_iff_eq] at hx
        rw [(hsel _ (hpos b _ hg) (le_maxAttr (List.getElem_mem hlt))).mp hx]
    · intro hx
      have hg : out[b]? = some 201 := by
        by_cases hsb : OnSurface P C tags b
        · exact (hb b).1 hsb
        · rw [(hb b).2 hsb]
          exact hx.resolve_left hsb
      obtain ⟨hlt, he⟩ := List.getElem?_eq_some_iff.mp hg
      refine ⟨hlt, ?_⟩
      rw [hg]
      simp only [beq_iff_eq]
      exact (hsel 201 (by decide) (le_maxAttr (List.mem_of_getElem? hg))).mpr rfl

/-- If no other boundary the user drew has the tag 201 and the cut through the mesh does not get it either, the far field
is integrated over the surface the user chose and over nothing else.  (Full claim: whatever the tags of the other
boundaries; it fails, see `C168_violated`.) -/
theorem C168_surface_partial {P : Parent} {C : Child} (h : Consistent P C) {g : Int} (hi : Inherits P C g) (hg : g ≠ 201)
    {tags : List Int} (ht : ∀ t ∈ tags, 1 ≤ t ∧ t ≤ maxAttr P.bdrAttr) (h201 : 201 ∈ P.bdrAttr → 201 ∈ tags)
    (hs : ∃ b, OnSurface P C tags b) :
    ∃ L, surfaceFaces P C tags = some L ∧ L.Nodup ∧ ∀ b, b ∈ L ↔ OnSurface P C tags b := by
  obtain ⟨L, hL, hn, hb⟩ := C168_faces h ht hs
  refine ⟨L, hL, hn, fun b => (hb b).trans ⟨fun hx => ?_, Or.inl⟩⟩
  rcases hx with hx | hx
  · exact hx
  · rcases hi b 201 hx with hd | ⟨_, he⟩
    · obtain ⟨f, pf, be, h1, h2, h3, h4⟩ := hd
      exact ⟨201, h201 (List.mem_of_getElem? h4), f, pf, be, h1, h2, h3, h4⟩
    · exact absurd he.symm hg

/-- A strip of two elements around a surface with tag 3; the outer boundary has tag 201. -/
def strip : Parent := ⟨[3, 201, 3], [-1, 0, 1, 2, -1]⟩

/-- The elements next to the surface: they also touch the outer boundary, and the cut has attribute 202. -/
def stripChild : Child := ⟨[1, 2, 3, 4], [0, 1, 2, 3], [3, 201, 3, 202]⟩

lemma strip_consistent : Consistent strip stripChild := by
  refine ⟨?_, ?_, ?_, ?_, by decide, by decide⟩
  · intro i j x hi hj
    have h1 : i < 5 := (List.getElem?_eq_some_iff.mp hi).1
    have h2 : j < 5 := (List.getElem?_eq_some_iff.mp hj).1
    simp only [strip] at hi hj
    interval_cases i <;> interval_cases j <;> simp at hi hj <;> omega
  · intro i j x hi hj
    have h1 : i < 4 := (List.getElem?_eq_some_iff.mp hi).1
    have h2 : j < 4 := (List.getElem?_eq_some_iff.mp hj).1
    simp only [stripChild] at hi hj
    interval_cases i <;> interval_cases j <;> simp at hi hj <;> omega
  · intro i j x hi hj
    have h1 : i < 4 := (List.getElem?_eq_some_iff.mp hi).1
    have h2 : j < 4 := (List.getElem?_eq_some_iff.mp hj).1
    simp only [stripChild] at hi hj
    interval_cases i <;> interval_cases j <;> simp at hi hj <;> omega
  · intro f b hf
    have h1 : f < 4 := (List.getElem?_eq_some_iff.mp hf).1
    simp only [stripChild] at hf ⊢
    interval_cases f <;> simp at hf ⊢ <;> omega

/-- A boundary with tag 201 next to the surface is integrated over too, although the user did not choose it. -/
theorem C168_violated : Consistent strip stripChild ∧ surfaceFaces strip stripChild [3] = some [0, 1, 2] ∧
    ¬ OnSurface strip stripChild [3] 1 := by
  refine ⟨strip_consistent, by decide +kernel, ?_⟩
  rintro ⟨a, ha, f, pf, be, h1, h2, h3, h4⟩
  have hf : f = 1 := strip_consistent.childOnce f 1 1 h1 rfl
  subst hf
  simp only [stripChild] at h2
  have hpf : pf = 2 := by simpa using h2.symm
  subst hpf
  simp only [strip] at h3 h4
  have hbe : be = 1 := by simpa using h3.symm
  subst hbe
  simp at h4 ha
  omega

/-- The same strip with another tag on the outer boundary. -/
def plain : Parent := ⟨[3, 7, 3], [-1, 0, 1, 2, -1]⟩

/-- Its sub-mesh. -/
def plainChild : Child := ⟨[1, 2, 3, 4], [0, 1, 2, 3], [3, 7, 3, 8]⟩

/-- It meets the hypotheses of `C168_surface_partial`. -/
example : Consistent plain plainChild ∧ Inherits plain plainChild 8 ∧ (201 ∈ plain.bdrAttr → (201 : Int) ∈ [3]) ∧
    (∃ b, OnSurface plain plainChild [3] b) ∧ surfaceFaces plain plainChild [3] = some [0, 2] := by
  have hc : Consistent plain plainChild :=
    ⟨strip_consistent.parentOnce, strip_consistent.faceOnce, strip_consistent.childOnce, strip_consistent.childIn, by decide,
      by decide⟩
  refine ⟨hc, ?_, by decide, ⟨0, 3, by simp, 0, 1, 0, rfl, rfl, rfl, rfl⟩, by decide +kernel⟩
  intro b a hb
  have h1 : b < 4 := (List.getElem?_eq_some_iff.mp hb).1
  simp only [plainChild] at hb
  interval_cases b
  · exact Or.inl ⟨0, 1, 0, rfl, rfl, rfl, hb⟩
  · exact Or.inl ⟨1, 2, 1, rfl, rfl, rfl, hb⟩
  · exact Or.inl ⟨2, 3, 2, rfl, rfl, rfl, hb⟩
  · refine Or.inr ⟨?_, by simpa using hb.symm⟩
    rintro ⟨a', f, pf, be, h1, h2, h3, _⟩
    have hf : f = 3 := hc.childOnce f 3 3 h1 rfl
    subst hf
    have hpf : pf = 4 := by simpa [plainChild] using h2.symm
    subst hpf
    simp only [plain] at h3
    simp at h3

end Dgtd.ChildBdr
