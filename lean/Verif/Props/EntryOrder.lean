/-
C185: the order of the entries of a case file does not matter, if entries for the same group agree.
-/
import Verif.Spec.EntryOrder
import Verif.Props.Renumber
import Verif.Props.Sources

namespace Dgtd.EntryOrder
open Dgtd.Config Dgtd.Config.Spec Dgtd.Renumber Dgtd.Renumber.Spec Spec

variable {K : Type} [Field K] [LinearOrder K]

/-! ### First entries -/

/-- If the entries that satisfy a condition agree on a value, the first one gives the same value in any order. -/
lemma find_perm {α β : Type} (p : α → Bool) (f : α → β) (l l' : List α) (hp : l.Perm l')
    (h : ∀ x ∈ l, ∀ y ∈ l, p x = true → p y = true → f x = f y) : (l.find? p).map f = (l'.find? p).map f := by
  cases h1 : l.find? p with
  | none =>
    have : l'.find? p = none := by
      rw [List.find?_eq_none] at h1 ⊢
      exact fun x hx => h1 x (hp.mem_iff.2 hx)
    rw [this]
  | some x =>
    have hx := List.mem_of_find?_eq_some h1
    have hpx := List.find?_some h1
    cases h2 : l'.find? p with
    | none =>
      rw [List.find?_eq_none] at h2
      exact absurd hpx (h2 x (hp.mem_iff.1 hx))
    | some y =>
      have hy := hp.mem_iff.2 (List.mem_of_find?_eq_some h2)
      simp only [Option.map_some]
      rw [h x hx y hy hpx (List.find?_some h2)]

lemma declared_perm (bs bs' : List (BdrEntry K)) (hp : bs.Perm bs')
    (h : ∀ b ∈ bs, ∀ b' ∈ bs, ∀ t, t ∈ b.tags → t ∈ b'.tags → b.type = b'.type) (t : Int) :
    declared bs t = declared bs' t := by
  have := find_perm (fun b : BdrEntry K => decide (t ∈ b.tags)) (fun b => b.type) bs bs' hp
    fun x hx y hy h1 h2 => h x hx y hy t (by simpa using h1) (by simpa using h2)
  unfold declared
  cases h1 : bs.find? (fun b => decide (t ∈ b.tags)) with
  | none =>
    rw [h1] at this
    cases h2 : bs'.find? (fun b => decide (t ∈ b.tags)) with
    | none => rfl
    | some y => rw [h2] at this; simp at this
  | some x =>
    rw [h1] at this
    cases h2 : bs'.find? (fun b => decide (t ∈ b.tags)) with
    | none => rw [h2] at this; simp at this
    | some y =>
      rw [h2] at this
      simp only [Option.map_some, Option.some.injEq] at this
      simp only [Option.bind_some, this]

/-! ### Vectors of values -/

lemma keys_iff (g g' : List (Int × Material K)) (h : ∀ t, Assoc.find g t = Assoc.find g' t) (t : Int) :
    t ∈ g.map Prod.fst ↔ t ∈ g'.map Prod.fst := by
  rw [← Assoc.find_isSome_iff, ← Assoc.find_isSome_iff, h]

lemma size_same (g g' : List (Int × Material K)) (h : ∀ t, Assoc.find g t = Assoc.find g' t) :
    tagVectorSize g = tagVectorSize g' := by
  have key : ∀ g g' : List (Int × Material K), (∀ t, t ∈ g.map Prod.fst → t ∈ g'.map Prod.fst) →
      tagVectorSize g ≤ tagVectorSize g' := by
    intro g g' h
    obtain ⟨_, _, h3⟩ := size_spec g
    obtain ⟨k1, k2, _⟩ := size_spec g'
    rcases h3 with h3 | ⟨p, hp, h3⟩
    · omega
    · obtain ⟨q, hq, e⟩ := List.mem_map.1 (h p.1 (List.mem_map_of_mem hp))
      have := k2 q hq
      omega
  exact le_antisymm (key g g' fun t => (keys_iff g g' h t).1) (key g' g fun t => (keys_iff g g' h t).2)

/-- The vectors of values depend on the map and not on the order in which it was filled. -/
lemma fill_same (f : Material K → K) (g g' : List (Int × Material K)) (h : ∀ t, Assoc.find g t = Assoc.find g' t)
    (hn : (g.map Prod.fst).Nodup) (hn' : (g'.map Prod.fst).Nodup) (hp : ∀ p ∈ g, 1 ≤ p.1) :
    fillTags f g (List.replicate (tagVectorSize g).toNat 0) = fillTags f g' (List.replicate (tagVectorSize g').toNat 0) := by
  have hp' : ∀ p ∈ g', 1 ≤ p.1 := by
    intro p hp0
    obtain ⟨q, hq, e⟩ := List.mem_map.1 ((keys_iff g g' h p.1).2 (List.mem_map_of_mem hp0))
    exact e ▸ hp q hq
  obtain ⟨_, s2, _⟩ := size_spec g
  obtain ⟨_, s2', _⟩ := size_spec g'
  obtain ⟨v, e, _, hg⟩ := fillTags_spec f g hn (List.replicate (tagVectorSize g).toNat 0) (fun p hpg => by
    have h1 := hp p hpg
    have h2 := s2 p hpg
    simp only [List.length_replicate]
    omega)
  obtain ⟨v', e', _, hg'⟩ := fillTags_spec f g' hn' (List.replicate (tagVectorSize g').toNat 0) (fun p hpg => by
    have h1 := hp' p hpg
    have h2 := s2' p hpg
    simp only [List.length_replicate]
    omega)
  rw [e, e']
  congr 1
  apply List.ext_getElem?
  intro i
  rw [hg i, hg' i, size_same g g' h, h]

/-- What a map of materials gives for an attribute. -/
lemma values_same (n : Nat) (g g' gb gb' : List (Int × Material K)) (info info' : BdrInfo) (d d' : ModelData K)
    (h : ∀ t, Assoc.find g t = Assoc.find g' t) (hn : (g.map Prod.fst).Nodup) (hn' : (g'.map Prod.fst).Nodup)
    (hp : ∀ p ∈ g, 1 ≤ p.1) (hd : construct n g gb info = .ok d) (hd' : construct n g' gb' info' = .ok d') (a : Int) :
    values d a = values d' a := by
  have hm : ∀ (g gb : List (Int × Material K)) (info : BdrInfo) (d : ModelData K), construct n g gb info = .ok d →
      d.materials = if g.isEmpty then [(1, ⟨1, 1, 0⟩)] else g := by
    intro g gb info d hd
    unfold construct at hd
    cases h1 : assembleTypes n false info.gt2b [] with
    | error x => rw [h1] at hd; simp at hd
    | ok m1 =>
      rw [h1] at hd
      simp only at hd
      cases h2 : assembleTypes n true info.gt2ib m1 with
      | error x => rw [h2] at hd; simp at hd
      | ok m2 =>
        rw [h2] at hd
        simp only [Except.ok.injEq] at hd
        rw [← hd]
  have he : g.isEmpty = g'.isEmpty := by
    have hk := keys_iff g g' h
    cases g with
    | nil =>
      cases g' with
      | nil => rfl
      | cons q g' => exact absurd ((hk q.1).2 (by simp)) (by simp)
    | cons q g =>
      cases g' with
      | nil => exact absurd ((hk q.1).1 (by simp)) (by simp)
      | cons q' g' => rfl
  unfold values
  rw [hm g gb info d hd, hm g' gb' info' d' hd', ← he]
  by_cases hem : g.isEmpty = true
  · rw [if_pos hem, if_pos hem]
  · rw [if_neg hem, if_neg hem]
    have hv : ∀ F, epsMuVector g F = epsMuVector g' F := fun F => fill_same _ g g' h hn hn' hp
    have hs : sigmaVector g = sigmaVector g' := fill_same _ g g' h hn hn' hp
    rw [hv, hv, hs]

lemma material_nodup (Z0 : K) (c : Case K) (g gb : List (Int × Material K))
    (hr : assembleAttributeToMaterial Z0 c.mats c.bdrs c.atts c.batts = .ok (g, gb)) : (g.map Prod.fst).Nodup := by
  unfold assembleAttributeToMaterial at hr
  cases h1 : materialLoop Z0 c.mats [] with
  | error x => rw [h1] at hr; simp at hr
  | ok g1 =>
    rw [h1] at hr
    simp only at hr
    cases h2 : bdrMaterialLoop Z0 c.bdrs [] with
    | error x => rw [h2] at hr; simp at hr
    | ok gb1 =>
      rw [h2] at hr
      simp only at hr
      split_ifs at hr
      simp only [Except.ok.injEq, Prod.mk.injEq] at hr
      exact hr.1 ▸ materialLoop_nodup Z0 c.mats [] g1 (by simp) h1

/-- **C185 (part): materials and conditions.** If entries for the same group agree, the case with its entries in another
order is accepted as well, every element has the same permittivity, permeability and conductivity, and every boundary group
the same condition, outside and inside. -/
theorem C185_case_partial (Z0 : K) (c c' : Case K) (hc : Reordered c c') (ha : Agree c) (d : ModelData K)
    (hd : built Z0 c = .ok d) (hatt : ∀ a ∈ c.atts, 0 < a) (hr : ∀ b ∈ c.bdrs, ∀ t ∈ b.tags, 0 < t ∧ t ≤ c.n) :
    ∃ d', built Z0 c' = .ok d' ∧ (∀ a, values d' a = values d a) ∧
      ∀ k, (k = .pec ∨ k = .pmc ∨ k = .sma ∨ k = .sgbc) → ∀ inner t, 0 < t →
        (Marked d' k inner t ↔ Marked d k inner t) := by
  obtain ⟨hb, hacc⟩ := built_ok Z0 c d hd
  obtain ⟨d0, g, gb, info, e0, e1, e2, hm⟩ := built_spec Z0 c hb hr hacc
  rw [hd] at e0
  obtain rfl := Except.ok.inj e0
  have hacc' : Acceptable Z0 c'.mats c'.bdrs c'.atts c'.batts := by
    obtain ⟨h1, h2, h3, h4⟩ := hacc
    rw [hc.atts, hc.batts]
    exact ⟨fun e he => h1 e (hc.mats.mem_iff.2 he), fun b hb => h2 b (hc.bdrs.mem_iff.2 hb),
      fun e he => h3 e (hc.mats.mem_iff.2 he), fun b hb => h4 b (hc.bdrs.mem_iff.2 hb)⟩
  obtain ⟨d', g', gb', info', e0', e1', e2', hm'⟩ := built_spec Z0 c' (fun b h => hb b (hc.bdrs.mem_iff.2 h))
    (fun b h t ht => by rw [hc.n]; exact hr b (hc.bdrs.mem_iff.2 h) t ht) hacc'
  refine ⟨d', e0', fun a => ?_, ?_⟩
  · obtain ⟨x, y, f1, f2, -⟩ := C18_first_wins Z0 c.mats c.bdrs c.atts c.batts hacc
    obtain ⟨x', y', f1', f2', -⟩ := C18_first_wins Z0 c'.mats c'.bdrs c'.atts c'.batts hacc'
    rw [e1] at f1
    rw [e1'] at f1'
    simp only [Except.ok.injEq, Prod.mk.injEq] at f1 f1'
    obtain ⟨rfl, -⟩ := f1
    obtain ⟨rfl, -⟩ := f1'
    have hsame : ∀ t, Assoc.find g t = Assoc.find g' t := by
      intro t
      rw [f2, f2']
      exact find_perm _ _ _ _ hc.mats fun e he e' he' h1 h2 => by
        rw [ha.mats e he e' he' t (by simpa using h1) (by simpa using h2)]
    have hpos : ∀ p ∈ g, 1 ≤ p.1 := by
      intro p hp
      have hs : (Assoc.find g p.1).isSome = true := by
        rw [Assoc.find_isSome_iff]; exact List.mem_map_of_mem hp
      rw [f2, Option.isSome_map, firstMat_isSome] at hs
      obtain ⟨e, he, ht⟩ := hs
      exact hatt _ (hacc.2.2.1 e he _ ht)
    rw [hc.n] at e2'
    exact (values_same c.n g g' gb gb' info info' d d' hsame (material_nodup Z0 c g gb e1) (material_nodup Z0 c' g' gb' e1')
      hpos e2 e2' a).symm
  · intro k hk inner t ht
    have h1 := hm k hk t ht
    have h2 := hm' k hk t ht
    rw [← declared_perm c.bdrs c'.bdrs hc.bdrs ha.bdrs t, hc.faces] at h2
    cases inner with
    | false => rw [h1.1, h2.1]
    | true => rw [h1.2, h2.2]

/-! ### Incident fields and thin layers -/

/-- **C185 (part): surfaces.** The groups of thin layers are the same in any order; so are those where incident fields
enter, if all the incident fields enter through the same groups. -/
theorem C185_surfaces_partial (n : Nat) (batts : List Int) (hb : ∀ b ∈ batts, 1 ≤ b ∧ b ≤ n) (ss ss' : List SrcEntry)
    (hs : ss.Perm ss') (hsame : SameSurface ss) (bs bs' : List (BdrEntry K)) (hbs : bs.Perm bs') (t : Int) (ht : 0 < t) :
    (Lit n batts ss' t ↔ Lit n batts ss t) ∧ (Coated n batts bs' t ↔ Coated n batts bs t) := by
  constructor
  · rw [lit_iff n batts hb ss' t ht, lit_iff n batts hb ss t ht]
    have key : ∀ ss ss' : List SrcEntry, ss.Perm ss' → SameSurface ss →
        (∃ s, (ss.find? fun s => s.totalField && s.tags.any fun t => decide (t ∈ batts)) = some s ∧ t ∈ s.tags ∧ t ∈ batts) →
        ∃ s, (ss'.find? fun s => s.totalField && s.tags.any fun t => decide (t ∈ batts)) = some s ∧
          t ∈ s.tags ∧ t ∈ batts := by
      rintro ss ss' hp hsm ⟨s, h1, h2, h3⟩
      have hm := List.mem_of_find?_eq_some h1
      have hq := List.find?_some h1
      cases h' : ss'.find? fun s => s.totalField && s.tags.any fun t => decide (t ∈ batts) with
      | none =>
        rw [List.find?_eq_none] at h'
        exact absurd hq (h' s (hp.mem_iff.1 hm))
      | some y =>
        have hy := hp.mem_iff.2 (List.mem_of_find?_eq_some h')
        have hqy := List.find?_some h'
        simp only [Bool.and_eq_true] at hq hqy
        exact ⟨y, rfl, (hsm s hm y hy hq.1 hqy.1 t).1 h2, h3⟩
    exact ⟨key ss' ss hs.symm (fun s h s' h' => hsame s (hs.mem_iff.2 h) s' (hs.mem_iff.2 h')), key ss ss' hs hsame⟩
  · rw [coated_iff n batts hb bs' t ht, coated_iff n batts hb bs t ht]
    refine and_congr_right fun _ => ⟨?_, ?_⟩
    · rintro ⟨b, h, h1⟩; exact ⟨b, hbs.mem_iff.2 h, h1⟩
    · rintro ⟨b, h, h1⟩; exact ⟨b, hbs.mem_iff.1 h, h1⟩

/-! ### Fields of the sources -/

open Dgtd.Sources in
omit [LinearOrder K] in
/-- **C185 (part): fields.** The incident field evaluated by the global operator and the one added by the nodal operator
are the same in any order of the sources. -/
theorem C185_incident_partial [DecidableEq K] (ss ss' : List (Source K)) (hp : ss.Perm ss') (r : Regions)
    (pairs : List Pair) (pos : Nat → List K) (t : K) (out : Fields K) :
    direct r pos ss' t = direct r pos ss t ∧ nodalTerm pairs pos ss' t out = nodalTerm pairs pos ss t out := by
  constructor
  · funext ft d i
    rw [C32_direct_superposes r pos ss', C32_direct_superposes r pos ss]
    exact (hp.symm.map _).sum_eq
  · funext ft d k
    rw [C32_nodal pairs pos ss', C32_nodal pairs pos ss]
    congr 1
    exact (hp.symm.map _).sum_eq

/-! ### Cases -/

/-- The case of C184 with the entries in the other order, tag 8 taken off the second boundary. -/
def exCase : Case ℚ := { Renumber.exCase with bdrs := [⟨[7, 8], some "PEC", none⟩, ⟨[9], some "SMA", none⟩] }
def exSwapped : Case ℚ := { exCase with mats := exCase.mats.reverse, bdrs := exCase.bdrs.reverse }

example : Reordered exCase exSwapped ∧ Agree exCase ∧ (∃ d, built 377 exCase = .ok d) ∧ (∀ a ∈ exCase.atts, 0 < a) ∧
    ∀ b ∈ exCase.bdrs, ∀ t ∈ b.tags, 0 < t ∧ t ≤ exCase.n := by
  refine ⟨⟨(List.reverse_perm _).symm, (List.reverse_perm _).symm, rfl, rfl, rfl, rfl⟩, ⟨?_, ?_⟩, ?_, by decide, by decide⟩
  · intro e he e' he' t h1 h2
    simp only [exCase, Renumber.exCase, List.mem_cons, List.not_mem_nil, or_false] at he he'
    rcases he with rfl | rfl <;> rcases he' with rfl | rfl <;> simp_all
  · intro e he e' he' t h1 h2
    simp only [exCase, List.mem_cons, List.not_mem_nil, or_false] at he he'
    rcases he with rfl | rfl <;> rcases he' with rfl | rfl <;> simp_all
  · have : (built 377 exCase).toOption.isSome = true := by decide +kernel
    cases h : built 377 exCase with
    | error e => rw [h] at this; simp [Except.toOption] at this
    | ok d => exact ⟨d, rfl⟩

example : SameSurface [⟨false, [1]⟩, ⟨true, [2, 7]⟩, ⟨true, [7, 2]⟩] := by
  intro s hs s' hs' h h' t
  simp only [List.mem_cons, List.not_mem_nil, or_false] at hs hs'
  rcases hs with rfl | rfl | rfl <;> rcases hs' with rfl | rfl | rfl <;> simp_all [or_comm]

open Dgtd.Sources in
/-- **C185 is false** when two entries for a group disagree, when two incident fields enter through different groups, and
for two incident fields with the operator `maxwell`: the order decides which one is used. -/
theorem C185_violated :
    (∃ (c c' : Case ℚ) (d d' : ModelData ℚ), Reordered c c' ∧ built 377 c = .ok d ∧ built 377 c' = .ok d' ∧
      values d 1 = .ok (2, 1, 0) ∧ values d' 1 = .ok (3, 1, 0)) ∧
    (∃ ss ss' : List SrcEntry, ss.Perm ss' ∧ Lit 2 [1, 2] ss 1 ∧ ¬ Lit 2 [1, 2] ss' 1) ∧
    ∃ (ss ss' : List (Source ℚ)) (pos : Nat → List ℚ), ss.Perm ss' ∧ projected pos ss 0 .E .X 0 ≠ projected pos ss' 0 .E .X 0 := by
  refine ⟨⟨⟨[⟨⟨some 2, none, none⟩, [1]⟩, ⟨⟨some 3, none, none⟩, [1]⟩], [], [], [1], [], 0⟩,
      ⟨[⟨⟨some 3, none, none⟩, [1]⟩, ⟨⟨some 2, none, none⟩, [1]⟩], [], [], [1], [], 0⟩,
      ⟨[(1, ⟨2, 1, 0⟩)], [], [], [], []⟩, ⟨[(1, ⟨3, 1, 0⟩)], [], [], [], []⟩,
      ⟨List.Perm.swap _ _ _, List.Perm.refl _, rfl, rfl, rfl, rfl⟩, ?_, ?_, ?_, ?_⟩,
    ⟨[⟨true, [1]⟩, ⟨true, [2]⟩], [⟨true, [2]⟩, ⟨true, [1]⟩], List.Perm.swap _ _ _, ?_, ?_⟩,
    [.total ⟨fun _ _ _ _ => 1⟩, .total ⟨fun _ _ _ _ => 2⟩], [.total ⟨fun _ _ _ _ => 2⟩, .total ⟨fun _ _ _ _ => 1⟩],
    fun _ => [], List.Perm.swap _ _ _, by simp [projected, asTotal]⟩
  · have : built (377 : ℚ) ⟨[⟨⟨some 2, none, none⟩, [1]⟩, ⟨⟨some 3, none, none⟩, [1]⟩], [], [], [1], [], 0⟩ =
        construct 0 [(1, ⟨2, 1, 0⟩)] [] ⟨[], []⟩ := by
      have h1 : assembleAttributeToMaterial (377 : ℚ) [⟨⟨some 2, none, none⟩, [1]⟩, ⟨⟨some 3, none, none⟩, [1]⟩] [] [1] [] =
        .ok ([(1, ⟨2, 1, 0⟩)], []) := by decide +kernel
      unfold built
      rw [h1]
      rfl
    rw [this]
    rfl
  · have : built (377 : ℚ) ⟨[⟨⟨some 3, none, none⟩, [1]⟩, ⟨⟨some 2, none, none⟩, [1]⟩], [], [], [1], [], 0⟩ =
        construct 0 [(1, ⟨3, 1, 0⟩)] [] ⟨[], []⟩ := by
      have h1 : assembleAttributeToMaterial (377 : ℚ) [⟨⟨some 3, none, none⟩, [1]⟩, ⟨⟨some 2, none, none⟩, [1]⟩] [] [1] [] =
        .ok ([(1, ⟨3, 1, 0⟩)], []) := by decide +kernel
      unfold built
      rw [h1]
      rfl
    rw [this]
    rfl
  · decide +kernel
  · decide +kernel
  · exact ⟨[1, 0], by decide +kernel, by decide⟩
  · rintro ⟨a, h1, h2⟩
    have : Assoc.find (tfsfLoop 2 [1, 2] [⟨true, [2]⟩, ⟨true, [1]⟩] []) .totalFieldIn = some [0, 1] := by decide +kernel
    rw [this] at h1
    obtain rfl := Option.some.inj h1
    simp at h2

end Dgtd.EntryOrder
