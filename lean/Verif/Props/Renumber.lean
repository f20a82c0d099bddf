/-
C184: the numbers chosen for the physical groups do not matter, except those that the code uses for itself and groups
without material.
-/
import Verif.Spec.Renumber
import Verif.Props.Config
import Verif.Props.SubMesh
import Verif.Props.NodalMaps

namespace Dgtd.Renumber
open Dgtd.Config Dgtd.Config.Spec Spec

variable {K : Type} [Field K] [LinearOrder K]

/-! ### Names under a renumbering -/

lemma mem_map_inj {ρ : Int → Int} (hi : Function.Injective ρ) (t : Int) (l : List Int) : ρ t ∈ l.map ρ ↔ t ∈ l := by
  rw [List.mem_map]
  exact ⟨fun ⟨x, hx, e⟩ => hi e ▸ hx, fun h => ⟨t, h, rfl⟩⟩

lemma firstMat_map {ρ : Int → Int} (hi : Function.Injective ρ) (ms : List (MatEntry K)) (t : Int) :
    firstMat (ms.map (mat ρ)) (ρ t) = (firstMat ms t).map (mat ρ) := by
  unfold firstMat
  rw [List.find?_map]
  congr 2
  funext e
  exact decide_eq_decide.2 (mem_map_inj hi t e.tags)

lemma declared_map {ρ : Int → Int} (hi : Function.Injective ρ) (bs : List (BdrEntry K)) (t : Int) :
    declared (bs.map (bdr ρ)) (ρ t) = declared bs t := by
  unfold declared
  rw [List.find?_map]
  have : ((fun b : BdrEntry K => decide (ρ t ∈ b.tags)) ∘ bdr ρ) = fun b => decide (t ∈ b.tags) := by
    funext b
    exact decide_eq_decide.2 (mem_map_inj hi t b.tags)
  rw [this]
  cases bs.find? fun b => decide (t ∈ b.tags) <;> rfl

lemma inside_map {ρ : Int → Int} (hi : Function.Injective ρ) (fs : List Face) (t : Int) :
    Inside (fs.map (face ρ)) (ρ t) ↔ Inside fs t := by
  constructor
  · rintro ⟨f, hf, e, h⟩
    obtain ⟨g, hg, rfl⟩ := List.mem_map.1 hf
    refine ⟨g, hg, ?_, h⟩
    simp only [face, Option.map_eq_some_iff] at e
    obtain ⟨x, hx, e⟩ := e
    rw [hx, hi e]
  · rintro ⟨f, hf, e, h⟩
    exact ⟨face ρ f, List.mem_map_of_mem hf, by simp [face, e], h⟩

lemma usable_map (ρ : Int → Int) (bs : List (BdrEntry K)) (h : ∀ b ∈ bs, UsableBdr b) :
    ∀ b ∈ bs.map (bdr ρ), UsableBdr b := by
  intro b hb
  obtain ⟨x, hx, rfl⟩ := List.mem_map.1 hb
  obtain ⟨h1, h2⟩ := h x hx
  exact ⟨by simpa [bdr] using h1, h2⟩

lemma acceptable_map {ρ : Int → Int} (Z0 : K) (c : Case K) (n : Nat)
    (h : Acceptable Z0 c.mats c.bdrs c.atts c.batts) :
    Acceptable Z0 (renumber ρ n c).mats (renumber ρ n c).bdrs (renumber ρ n c).atts (renumber ρ n c).batts := by
  obtain ⟨h1, h2, h3, h4⟩ := h
  refine ⟨?_, ?_, ?_, ?_⟩
  · intro e he
    obtain ⟨x, hx, rfl⟩ := List.mem_map.1 he
    rcases h1 x hx with h | h
    · exact Or.inl (by simp [mat, h])
    · exact Or.inr h
  · intro b hb p hp
    obtain ⟨x, hx, rfl⟩ := List.mem_map.1 hb
    rcases h2 x hx p hp with h | h
    · exact Or.inl (by simp [bdr, h])
    · exact Or.inr h
  · intro e he t ht
    obtain ⟨x, hx, rfl⟩ := List.mem_map.1 he
    obtain ⟨s, hs, rfl⟩ := List.mem_map.1 ht
    exact List.mem_map_of_mem (h3 x hx s hs)
  · intro b hb hm t ht
    obtain ⟨x, hx, rfl⟩ := List.mem_map.1 hb
    obtain ⟨s, hs, rfl⟩ := List.mem_map.1 ht
    exact List.mem_map_of_mem (h4 x hx hm s hs)

/-! ### What a built case holds -/

lemma splitMaps_nodup (cond : List (Int × Cond)) (im : List (Int × Bool)) : ∀ r : BdrInfo,
    (r.gt2b.map Prod.fst).Nodup → (r.gt2ib.map Prod.fst).Nodup →
    ((splitMaps cond im r).gt2b.map Prod.fst).Nodup ∧ ((splitMaps cond im r).gt2ib.map Prod.fst).Nodup := by
  induction im with
  | nil => intro r h1 h2; exact ⟨h1, h2⟩
  | cons p im ih =>
    intro r h1 h2
    obtain ⟨k, b⟩ := p
    cases b with
    | false => exact ih _ (Assoc.nodup_insert _ h1 _ _) h2
    | true => exact ih _ h1 (Assoc.nodup_insert _ h2 _ _)

lemma bdr_nodup (bs : List (BdrEntry K)) (fs : List Face) (info : BdrInfo)
    (h : assembleAttributeToBoundary bs fs = .ok info) :
    (info.gt2b.map Prod.fst).Nodup ∧ (info.gt2ib.map Prod.fst).Nodup := by
  unfold assembleAttributeToBoundary at h
  split_ifs at h
  cases hm : bdrLoop fs bs ⟨[], []⟩ with
  | error e => rw [hm] at h; simp at h
  | ok m =>
    rw [hm] at h
    simp only [Except.ok.injEq] at h
    exact h ▸ splitMaps_nodup _ _ _ (by simp) (by simp)

lemma declared_supported (bs : List (BdrEntry K)) (t : Int) (c : Cond) (h : declared bs t = some c) :
    c = .pec ∨ c = .pmc ∨ c = .sma ∨ c = .sgbc := by
  unfold declared at h
  simp only [Option.bind_eq_some_iff, Option.map_eq_some_iff] at h
  obtain ⟨b, _, s, _, p, hp, rfl⟩ := h
  have := List.mem_of_find?_eq_some hp
  simp only [condTable, List.mem_cons, List.not_mem_nil, or_false] at this
  rcases this with rfl | rfl | rfl | rfl <;> simp

lemma declared_mem (bs : List (BdrEntry K)) (t : Int) (c : Cond) (h : declared bs t = some c) : ∃ b ∈ bs, t ∈ b.tags := by
  unfold declared at h
  cases hfd : bs.find? fun b => decide (t ∈ b.tags) with
  | none => rw [hfd] at h; simp at h
  | some b => exact ⟨b, List.mem_of_find?_eq_some hfd, by simpa using List.find?_some hfd⟩

lemma markerOf_one (n : Nat) (gt : List (Int × Cond)) (c : Cond) (t : Int) (ht : 0 < t)
    (hr : ∀ p ∈ gt, p.1 ≤ n) :
    (markerOf n (tagsWith gt c))[(t - 1).toNat]? = some 1 ↔ (t, c) ∈ gt := by
  have hmem : t ∈ tagsWith gt c ↔ (t, c) ∈ gt := by
    unfold tagsWith
    rw [List.mem_filterMap]
    constructor
    · rintro ⟨⟨s, d⟩, hp, e⟩
      split_ifs at e with hd
      simp only [Option.some.injEq] at e hd
      exact e ▸ hd ▸ hp
    · intro hp
      exact ⟨_, hp, by simp⟩
  by_cases hne : tagsWith gt c = []
  · have hn : (t, c) ∉ gt := fun h => by
      have := hmem.2 h
      rw [hne] at this
      simp at this
    simp [markerOf, hne, hn]
  · by_cases hi : (t - 1).toNat < n
    · rw [C21_entry n gt c _ hi hne]
      have : (((t - 1).toNat : Int) + 1) = t := by omega
      rw [this]
      by_cases h : (t, c) ∈ gt <;> simp [h]
    · have hn : (t, c) ∉ gt := fun h => by
        have := hr _ h
        simp only at this
        omega
      have hl := markerOf_length n (tagsWith gt c) hne
      rw [List.getElem?_eq_none (by omega)]
      simp [hn]

/-- A case whose boundaries can be used and lie in the mesh is built if its materials are acceptable, and only then; its
conditions are those declared. -/
lemma built_spec (Z0 : K) (c : Case K) (hb : ∀ b ∈ c.bdrs, UsableBdr b)
    (hr : ∀ b ∈ c.bdrs, ∀ t ∈ b.tags, 0 < t ∧ t ≤ c.n) (hacc : Acceptable Z0 c.mats c.bdrs c.atts c.batts) :
    ∃ d g gb info, built Z0 c = .ok d ∧ assembleAttributeToMaterial Z0 c.mats c.bdrs c.atts c.batts = .ok (g, gb) ∧
      construct c.n g gb info = .ok d ∧
      ∀ k, (k = .pec ∨ k = .pmc ∨ k = .sma ∨ k = .sgbc) → ∀ t, 0 < t →
        (Marked d k false t ↔ declared c.bdrs t = some k ∧ ¬ Inside c.faces t) ∧
        (Marked d k true t ↔ declared c.bdrs t = some k ∧ Inside c.faces t) := by
  obtain ⟨g, gb, e1, -, -⟩ := C18_first_wins Z0 c.mats c.bdrs c.atts c.batts hacc
  obtain ⟨info, e2, hcl⟩ := C17_classified c.bdrs c.faces hb
  obtain ⟨n1, n2⟩ := bdr_nodup _ _ _ e2
  have m1 : ∀ t k, (t, k) ∈ info.gt2b ↔ declared c.bdrs t = some k ∧ ¬ Inside c.faces t := fun t k => by
    rw [← (hcl t k).1, Assoc.find_eq_some_iff _ n1]
  have m2 : ∀ t k, (t, k) ∈ info.gt2ib ↔ declared c.bdrs t = some k ∧ Inside c.faces t := fun t k => by
    rw [← (hcl t k).2, Assoc.find_eq_some_iff _ n2]
  have hall : ∀ p, p ∈ info.gt2b ∨ p ∈ info.gt2ib → 0 < p.1 ∧ p.1 ≤ c.n ∧ Config.Spec.Supported p.2 := by
    rintro ⟨t, k⟩ hp
    have hd : declared c.bdrs t = some k := by
      rcases hp with hp | hp
      · exact ((m1 t k).1 hp).1
      · exact ((m2 t k).1 hp).1
    obtain ⟨b, hbm, ht⟩ := declared_mem _ _ _ hd
    refine ⟨(hr b hbm t ht).1, (hr b hbm t ht).2, ?_⟩
    rcases declared_supported _ _ _ hd with rfl | rfl | rfl | rfl <;> simp [Config.Spec.Supported]
  obtain ⟨d, e3, hm⟩ := C21_markers c.n g gb info hall
  refine ⟨d, g, gb, info, ?_, e1, e3, fun k hk t ht => ⟨?_, ?_⟩⟩
  · unfold built
    rw [e1]
    simp only [e2, e3]
  · unfold Marked
    rw [(hm k hk).1, markerOf_one _ _ _ _ ht fun p hp => (hall p (Or.inl hp)).2.1, m1]
  · unfold Marked
    rw [(hm k hk).2.1, markerOf_one _ _ _ _ ht fun p hp => (hall p (Or.inr hp)).2.1, m2]

lemma built_ok (Z0 : K) (c : Case K) (d : ModelData K) (h : built Z0 c = .ok d) :
    (∀ b ∈ c.bdrs, UsableBdr b) ∧ Acceptable Z0 c.mats c.bdrs c.atts c.batts := by
  unfold built at h
  constructor
  · by_contra hc
    rw [C17_rejects _ _ hc] at h
    split at h <;> simp at h
  · by_contra hc
    rw [C18_rejects _ _ _ _ _ hc] at h
    simp at h

lemma values_listed (Z0 : K) (c : Case K) (hatt : ∀ a ∈ c.atts, 1 ≤ a) (g gb : List (Int × Material K))
    (h1 : assembleAttributeToMaterial Z0 c.mats c.bdrs c.atts c.batts = .ok (g, gb)) (info : BdrInfo) (d : ModelData K)
    (h2 : construct c.n g gb info = .ok d) (a : Int) (e : MatEntry K) (he : firstMat c.mats a = some e) :
    values d a = .ok ((described Z0 e.params).eps, (described Z0 e.params).mu, (described Z0 e.params).sigma) := by
  have hx : e ∈ c.mats := List.mem_of_find?_eq_some he
  have hax : a ∈ e.tags := by simpa using List.find?_some he
  obtain ⟨ve, vm, vs, a1, a2, a3, hv⟩ := C20_end_to_end Z0 c.mats c.bdrs c.atts c.batts hatt g gb h1 c.n info d h2
    ⟨e, hx, fun h => by rw [h] at hax; simp at hax⟩
  obtain ⟨v1, v2, v3⟩ := hv a e he
  unfold values
  rw [a1, a2, a3]
  show (do pure (← pwEval ve a, ← pwEval vm a, ← pwEval vs a) : Except Err (K × K × K)) = _
  rw [v1, v2, v3]
  rfl

/-- **C184 (part): materials and conditions.** A case that is accepted is accepted after its groups are renumbered, one to
one and with positive numbers; every element whose group has a material keeps its permittivity, permeability and
conductivity, and every boundary group keeps its condition, outside and inside. -/
theorem C184_case_partial (Z0 : K) (c : Case K) (d : ModelData K) (hd : built Z0 c = .ok d) (ρ : Int → Int)
    (hi : Function.Injective ρ) (hpos : ∀ t, 0 < t → 0 < ρ t) (hatt : ∀ a ∈ c.atts, 0 < a)
    (hr : ∀ b ∈ c.bdrs, ∀ t ∈ b.tags, 0 < t ∧ t ≤ c.n) (n : Nat) (hn : ∀ b ∈ c.bdrs, ∀ t ∈ b.tags, ρ t ≤ n) :
    ∃ d', built Z0 (renumber ρ n c) = .ok d' ∧
      (∀ a, (∃ e ∈ c.mats, a ∈ e.tags) → ∃ v, values d a = .ok v ∧ values d' (ρ a) = .ok v) ∧
      ∀ k, (k = .pec ∨ k = .pmc ∨ k = .sma ∨ k = .sgbc) → ∀ inner t, 0 < t →
        (Marked d' k inner (ρ t) ↔ Marked d k inner t) := by
  obtain ⟨hb, hacc⟩ := built_ok Z0 c d hd
  obtain ⟨d0, g, gb, info, e0, e1, e2, hm⟩ := built_spec Z0 c hb hr hacc
  rw [hd] at e0
  obtain rfl := Except.ok.inj e0
  obtain ⟨d', g', gb', info', e0', e1', e2', hm'⟩ := built_spec Z0 (renumber ρ n c) (usable_map ρ _ hb)
    (fun b hb t ht => by
      obtain ⟨x, hx, rfl⟩ := List.mem_map.1 hb
      obtain ⟨s, hs, rfl⟩ := List.mem_map.1 ht
      exact ⟨hpos s (hr x hx s hs).1, hn x hx s hs⟩) (acceptable_map Z0 c n hacc)
  refine ⟨d', e0', ?_, ?_⟩
  · intro a ha
    obtain ⟨e, he⟩ := Option.isSome_iff_exists.1 ((firstMat_isSome c.mats a).2 ha)
    refine ⟨_, values_listed Z0 c (fun a ha => hatt a ha) g gb e1 info d e2 a e he, ?_⟩
    refine values_listed Z0 (renumber ρ n c) (fun a ha => ?_) g' gb' e1' info' d' e2' (ρ a) (mat ρ e) ?_
    · obtain ⟨x, hx, rfl⟩ := List.mem_map.1 ha
      exact hpos x (hatt x hx)
    · show firstMat (c.mats.map (mat ρ)) (ρ a) = _
      rw [firstMat_map hi, he]
      rfl
  · intro k hk inner t ht
    have h1 := hm k hk t ht
    have h2 := hm' k hk (ρ t) (hpos t ht)
    have h3 : declared (renumber ρ n c).bdrs (ρ t) = declared c.bdrs t := declared_map hi _ t
    have h4 : Inside (renumber ρ n c).faces (ρ t) ↔ Inside c.faces t := inside_map hi _ t
    cases inner with
    | false => rw [h1.1, h2.1, h3, h4]
    | true => rw [h1.2, h2.2, h3, h4]

/-! ### Incident fields and thin layers -/

lemma present_one (n : Nat) (batts : List Int) (hb : ∀ b ∈ batts, 1 ≤ b ∧ b ≤ n) (tags : List Int) (t : Int) (ht : 0 < t) :
    (presentMarker n batts tags)[(t - 1).toNat]? = some 1 ↔ t ∈ tags ∧ t ∈ batts := by
  rw [presentMarker_eq n batts (fun b h => (hb b h).1), List.getElem?_map]
  by_cases hi : (t - 1).toNat < n
  · rw [List.getElem?_range hi]
    have : (((t - 1).toNat : Int) + 1) = t := by omega
    simp only [Option.map_some, Option.some.injEq, this]
    by_cases h : t ∈ tags ∧ t ∈ batts <;> simp [h]
  · rw [List.getElem?_eq_none (by simpa using hi)]
    simp only [Option.map_none, reduceCtorEq, false_iff]
    rintro ⟨_, h⟩
    have := hb t h
    omega

lemma lit_iff (n : Nat) (batts : List Int) (hb : ∀ b ∈ batts, 1 ≤ b ∧ b ≤ n) (ss : List SrcEntry) (t : Int) (ht : 0 < t) :
    Lit n batts ss t ↔ ∃ s, (ss.find? fun s => s.totalField && s.tags.any fun t => decide (t ∈ batts)) = some s ∧
      t ∈ s.tags ∧ t ∈ batts := by
  unfold Lit
  rw [C22_first_source n batts hb]
  constructor
  · rintro ⟨a, h1, h2⟩
    obtain ⟨s, hs, rfl⟩ := Option.map_eq_some_iff.1 h1
    exact ⟨s, hs, (present_one n batts hb s.tags t ht).1 h2⟩
  · rintro ⟨s, hs, h⟩
    exact ⟨_, by rw [hs]; rfl, (present_one n batts hb s.tags t ht).2 h⟩

lemma any_map {ρ : Int → Int} (hi : Function.Injective ρ) (tags batts : List Int) :
    ((tags.map ρ).any fun t => decide (t ∈ batts.map ρ)) = tags.any fun t => decide (t ∈ batts) := by
  rw [List.any_map]
  congr 1
  funext t
  exact decide_eq_decide.2 (mem_map_inj hi t batts)

lemma thin_length (n : Nat) (batts : List Int) (hb : ∀ b ∈ batts, 1 ≤ b ∧ b ≤ n) (bs : List (BdrEntry K)) (a : List Int)
    (h : Assoc.find (sgbcLoop n batts bs bs []) .sgbc = some a) : a.length = n := by
  have gen : ∀ (l : List (BdrEntry K)) (m : List (Cond × List Int)), (∀ p ∈ m, p.2.length = n) →
      ∀ p ∈ sgbcLoop n batts bs l m, p.2.length = n := by
    intro l
    induction l with
    | nil => intro m h; exact h
    | cons b l ih =>
      intro m h
      rw [sgbcLoop]
      split_ifs
      · refine ih _ fun p hp => ?_
        unfold Assoc.insert at hp
        split at hp
        · exact h p hp
        · rcases List.mem_append.1 hp with hp | hp
          · exact h p hp
          · rw [List.mem_singleton.1 hp, presentMarker_eq n batts (fun b h => (hb b h).1)]
            simp
      · exact ih m h
      · exact ih m h
  exact gen bs [] (by simp) _ (Assoc.find_mem _ _ _ h)

lemma coated_iff (n : Nat) (batts : List Int) (hb : ∀ b ∈ batts, 1 ≤ b ∧ b ≤ n) (bs : List (BdrEntry K)) (t : Int)
    (ht : 0 < t) : Coated n batts bs t ↔ t ∈ batts ∧ ∃ b ∈ bs, b.type = some "SGBC" ∧ t ∈ b.tags := by
  have e : (((t - 1).toNat : Int) + 1) = t := by omega
  by_cases hlt : (t - 1).toNat < n
  · have := C21_thin_layers n batts hb bs (t - 1).toNat hlt
    rw [e] at this
    exact this
  · constructor
    · rintro ⟨a, h1, h2⟩
      have hl : a.length = n := thin_length n batts hb bs a h1
      rw [List.getElem?_eq_none (by omega)] at h2
      simp at h2
    · rintro ⟨h, _⟩
      have := hb t h
      omega

/-- **C184 (part): incident fields and thin layers.** Whatever the sources, the groups where incident fields enter and those
of thin layers are the same under a one-to-one renumbering with positive numbers. -/
theorem C184_surfaces_partial (n n' : Nat) (batts : List Int) (hb : ∀ b ∈ batts, 1 ≤ b ∧ b ≤ n) (ρ : Int → Int)
    (hi : Function.Injective ρ) (hpos : ∀ t, 0 < t → 0 < ρ t) (hn : ∀ b ∈ batts, ρ b ≤ n') (ss : List SrcEntry)
    (bs : List (BdrEntry K)) (t : Int) (ht : 0 < t) :
    (Lit n' (batts.map ρ) (ss.map (src ρ)) (ρ t) ↔ Lit n batts ss t) ∧
    (Coated n' (batts.map ρ) (bs.map (bdr ρ)) (ρ t) ↔ Coated n batts bs t) := by
  have hb' : ∀ b ∈ batts.map ρ, 1 ≤ b ∧ b ≤ n' := by
    intro b h
    obtain ⟨x, hx, rfl⟩ := List.mem_map.1 h
    exact ⟨hpos x (hb x hx).1, hn x hx⟩
  constructor
  · rw [lit_iff n' _ hb' _ _ (hpos t ht), lit_iff n batts hb ss t ht, List.find?_map]
    have : ((fun s : SrcEntry => s.totalField && s.tags.any fun t => decide (t ∈ batts.map ρ)) ∘ src ρ) =
        fun s => s.totalField && s.tags.any fun t => decide (t ∈ batts) := by
      funext s
      simp only [Function.comp, src, any_map hi]
    rw [this]
    constructor
    · rintro ⟨s, hs, h1, h2⟩
      obtain ⟨x, hx, rfl⟩ := Option.map_eq_some_iff.1 hs
      exact ⟨x, hx, (mem_map_inj hi t x.tags).1 h1, (mem_map_inj hi t batts).1 h2⟩
    · rintro ⟨s, hs, h1, h2⟩
      exact ⟨src ρ s, by rw [hs]; rfl, (mem_map_inj hi t s.tags).2 h1, (mem_map_inj hi t batts).2 h2⟩
  · rw [coated_iff n' _ hb' _ _ (hpos t ht), coated_iff n batts hb bs t ht, mem_map_inj hi]
    refine and_congr_right fun _ => ⟨?_, ?_⟩
    · rintro ⟨b, h, h1, h2⟩
      obtain ⟨x, hx, rfl⟩ := List.mem_map.1 h
      exact ⟨x, hx, h1, (mem_map_inj hi t x.tags).1 h2⟩
    · rintro ⟨b, h, h1, h2⟩
      exact ⟨bdr ρ b, List.mem_map_of_mem h, h1, (mem_map_inj hi t b.tags).2 h2⟩

example : (∀ b ∈ ([1, 2, 2, 3] : List Int), 1 ≤ b ∧ b ≤ (3 : Nat)) ∧ (∀ b ∈ ([1, 2, 2, 3] : List Int), 3 * b + 40 ≤ (49 : Nat)) ∧
    Lit 3 [1, 2, 2, 3] [⟨false, [1]⟩, ⟨true, [2, 7]⟩] 2 :=
  ⟨by decide, by decide, [0, 1, 0], by decide +kernel, by decide⟩

/-! ### Regions -/

/-- Two numberings that agree as far as reserved numbers go. -/
def Like (a b : Nat → Int) : Prop := ∀ e, a e = b e ∨ ¬ Reserved (a e) ∧ ¬ Reserved (b e)

lemma like_setAttr {a b : Nat → Int} (h : Like a b) (e : Nat) (v : Int) :
    Like (SubMesh.setAttr a e v) (SubMesh.setAttr b e v) := by
  intro i
  unfold SubMesh.setAttr
  by_cases hi : i = e
  · simp [hi]
  · simpa [hi] using h i

lemma like_withAttr {a b : Nat → Int} (h : Like a b) (ne : Nat) (v : Int) (hv : Reserved v) :
    SubMesh.withAttr ne a v = SubMesh.withAttr ne b v := by
  unfold SubMesh.withAttr
  apply List.filter_congr
  intro e _
  apply decide_eq_decide.2
  rcases h e with h | ⟨h1, h2⟩
  · rw [h]
  · exact ⟨fun e' => absurd (e' ▸ hv) h1, fun e' => absurd (e' ▸ hv) h2⟩

lemma like_tag {a b : Nat → Int} (h : Like a b) (f : SubMesh.BFace) (x : Bool) :
    Like (SubMesh.tag a f x) (SubMesh.tag b f x) := by
  unfold SubMesh.tag
  cases f.e2 <;> cases x <;> simp only [if_true, if_false, Bool.false_eq_true]
  all_goals first | exact like_setAttr (like_setAttr h _ _) _ _ | exact like_setAttr h _ _

lemma like_prepare (s s' : SubMesh.St) (h1 : Like s.attr s'.attr) (h2 : s.tf = s'.tf) (h3 : s.sf = s'.sf)
    (f : SubMesh.BFace) (ids : Int × Int) (x : Bool) :
    Like (SubMesh.prepare s f ids x).attr (SubMesh.prepare s' f ids x).attr ∧
    (SubMesh.prepare s f ids x).tf = (SubMesh.prepare s' f ids x).tf ∧
    (SubMesh.prepare s f ids x).sf = (SubMesh.prepare s' f ids x).sf := by
  have := like_tag h1 f x
  unfold SubMesh.prepare SubMesh.store
  rw [h2, h3]
  split_ifs <;> exact ⟨this, rfl, rfl⟩

lemma like_process (ds : List (SubMesh.BFace × (Int × Int) × Bool)) : ∀ s s' : SubMesh.St, Like s.attr s'.attr →
    s.tf = s'.tf → s.sf = s'.sf →
    Like (ds.foldl (fun s d => SubMesh.prepare s d.1 d.2.1 d.2.2) s).attr
      (ds.foldl (fun s d => SubMesh.prepare s d.1 d.2.1 d.2.2) s').attr ∧
    (ds.foldl (fun s d => SubMesh.prepare s d.1 d.2.1 d.2.2) s).tf =
      (ds.foldl (fun s d => SubMesh.prepare s d.1 d.2.1 d.2.2) s').tf ∧
    (ds.foldl (fun s d => SubMesh.prepare s d.1 d.2.1 d.2.2) s).sf =
      (ds.foldl (fun s d => SubMesh.prepare s d.1 d.2.1 d.2.2) s').sf := by
  induction ds with
  | nil => intro s s' h1 h2 h3; exact ⟨h1, h2, h3⟩
  | cons d ds ih =>
    intro s s' h1 h2 h3
    refine ih _ _ ?_ ?_ ?_
    · exact (like_prepare s s' h1 h2 h3 d.1 d.2.1 d.2.2).1
    · exact (like_prepare s s' h1 h2 h3 d.1 d.2.1 d.2.2).2.1
    · exact (like_prepare s s' h1 h2 h3 d.1 d.2.1 d.2.2).2.2

lemma like_tagGlobal (fs : List SubMesh.BFace) : ∀ a b : Nat → Int, Like a b →
    Like (fs.foldl SubMesh.tagGlobal a) (fs.foldl SubMesh.tagGlobal b) := by
  induction fs with
  | nil => intro a b h; exact h
  | cons f fs ih =>
    intro a b h
    refine ih _ _ ?_
    unfold SubMesh.tagGlobal
    cases f.e2
    · exact like_setAttr h _ _
    · exact like_setAttr (like_setAttr h _ _) _ _

lemma like_ntff (dim : Nat) (m : SubMesh.Mesh K) (fs : List SubMesh.BFace) : ∀ s s' : (Nat → Int) × List (Int × Int),
    Like s.1 s'.1 → s.2 = s'.2 →
    Like (fs.foldl (fun s f => (SubMesh.ntffTag s.1 f (SubMesh.ntffInfo dim m f).2,
        SubMesh.ntffStore s.2 f (SubMesh.ntffInfo dim m f).1 (SubMesh.ntffInfo dim m f).2)) s).1
      (fs.foldl (fun s f => (SubMesh.ntffTag s.1 f (SubMesh.ntffInfo dim m f).2,
        SubMesh.ntffStore s.2 f (SubMesh.ntffInfo dim m f).1 (SubMesh.ntffInfo dim m f).2)) s').1 ∧
    (fs.foldl (fun s f => (SubMesh.ntffTag s.1 f (SubMesh.ntffInfo dim m f).2,
        SubMesh.ntffStore s.2 f (SubMesh.ntffInfo dim m f).1 (SubMesh.ntffInfo dim m f).2)) s).2 =
      (fs.foldl (fun s f => (SubMesh.ntffTag s.1 f (SubMesh.ntffInfo dim m f).2,
        SubMesh.ntffStore s.2 f (SubMesh.ntffInfo dim m f).1 (SubMesh.ntffInfo dim m f).2)) s').2 := by
  induction fs with
  | nil => intro s s' h1 h2; exact ⟨h1, h2⟩
  | cons f fs ih =>
    intro s s' h1 h2
    refine ih _ _ ?_ (by simp only [h2])
    simp only
    unfold SubMesh.ntffTag
    split_ifs
    · cases f.e2
      · exact h1
      · exact like_setAttr h1 _ _
    · exact like_setAttr h1 _ _

/-- **C184 (part): regions.** If no element has a reserved number before or after, the total-field, scattered-field and
near-to-far-field regions are made of the same elements, and are rejected in the same cases. -/
theorem C184_regions_partial (dim : Nat) (m : SubMesh.Mesh K) (ρ : Int → Int) (h : ∀ e, ¬ Reserved (m.attr e))
    (h' : ∀ e, ¬ Reserved (ρ (m.attr e))) :
    SubMesh.construct dim (mesh ρ m) = SubMesh.construct dim m ∧
    SubMesh.ntffConstruct dim (mesh ρ m) = SubMesh.ntffConstruct dim m := by
  have hl : Like (mesh ρ m).attr m.attr := fun e => Or.inr ⟨h' e, h e⟩
  constructor
  · unfold SubMesh.construct
    have hd : SubMesh.decisions dim (mesh ρ m) = SubMesh.decisions dim m := rfl
    rw [hd]
    congr 1
    funext ds
    obtain ⟨p1, p2, p3⟩ := like_process ds ⟨(mesh ρ m).attr, [], []⟩ ⟨m.attr, [], []⟩ hl rfl rfl
    have hg : Like (SubMesh.globalAttr (mesh ρ m)) (SubMesh.globalAttr m) := like_tagGlobal _ _ _ hl
    have q1 := like_withAttr hg m.ne SubMesh.Global (by simp [Reserved, SubMesh.Global])
    have q2 := like_withAttr p1 m.ne SubMesh.TF (by simp [Reserved, SubMesh.TF])
    have q3 := like_withAttr p1 m.ne SubMesh.SF (by simp [Reserved, SubMesh.SF])
    unfold SubMesh.process
    simp only [p2, p3]
    rw [show (mesh ρ m).ne = m.ne from rfl, q1, q2, q3]
  · unfold SubMesh.ntffConstruct
    obtain ⟨p1, p2⟩ := like_ntff dim m (SubMesh.markedFaces m) ((mesh ρ m).attr, []) (m.attr, []) hl rfl
    have q1 := like_withAttr p1 m.ne SubMesh.NTFF (by simp [Reserved, SubMesh.NTFF])
    have e1 : SubMesh.ntffProcess dim (mesh ρ m) = (SubMesh.markedFaces m).foldl (fun s f =>
      (SubMesh.ntffTag s.1 f (SubMesh.ntffInfo dim m f).2,
        SubMesh.ntffStore s.2 f (SubMesh.ntffInfo dim m f).1 (SubMesh.ntffInfo dim m f).2)) ((mesh ρ m).attr, []) := rfl
    have e2 : SubMesh.ntffProcess dim m = (SubMesh.markedFaces m).foldl (fun s f =>
      (SubMesh.ntffTag s.1 f (SubMesh.ntffInfo dim m f).2,
        SubMesh.ntffStore s.2 f (SubMesh.ntffInfo dim m f).1 (SubMesh.ntffInfo dim m f).2)) (m.attr, []) := rfl
    simp only [e1, e2, p2]
    rw [show (mesh ρ m).ne = m.ne from rfl, q1]

/-- **C184 (part): faces of the nodal operator.** The sub-mesh of every face is made of the same elements. -/
theorem C184_nodal_partial (ne : Nat) (a : Nat → Int) (ρ : Int → Int) (h : ∀ e, ¬ Reserved (a e))
    (h' : ∀ e, ¬ Reserved (ρ (a e))) (e1 e2 : Nat) :
    (NodalMaps.boundarySub ne (fun e => ρ (a e)) (fun e => ρ (a e)) e1).1 = (NodalMaps.boundarySub ne a a e1).1 ∧
    (NodalMaps.interiorSub ne (fun e => ρ (a e)) (fun e => ρ (a e)) e1 e2).1 = (NodalMaps.interiorSub ne a a e1 e2).1 := by
  have hl : Like (fun e => ρ (a e)) a := fun e => Or.inr ⟨h' e, h e⟩
  have hr : Reserved NodalMaps.tag := by simp [Reserved, NodalMaps.tag]
  exact ⟨like_withAttr (like_setAttr hl e1 NodalMaps.tag) ne NodalMaps.tag hr,
    like_withAttr (like_setAttr (like_setAttr hl e1 NodalMaps.tag) e2 NodalMaps.tag) ne NodalMaps.tag hr⟩

/-! ### Cases -/

/-- Two materials, a perfect conductor outside and one inside. -/
def exCase : Case ℚ where
  mats := [⟨⟨some 2, none, none⟩, [1, 3]⟩, ⟨⟨none, none, some (1/10)⟩, [4]⟩]
  bdrs := [⟨[7, 8], some "PEC", none⟩, ⟨[9, 8], some "SMA", none⟩]
  faces := [⟨some 7, false⟩, ⟨none, true⟩, ⟨some 8, true⟩, ⟨some 9, false⟩]
  atts := [1, 3, 4]
  batts := [7, 8, 9]
  n := 9

example : (∃ d, built 377 exCase = .ok d) ∧ Function.Injective (fun t : Int => 3 * t + 40) ∧
    (∀ t : Int, 0 < t → 0 < 3 * t + 40) ∧ (∀ a ∈ exCase.atts, 0 < a) ∧
    (∀ b ∈ exCase.bdrs, ∀ t ∈ b.tags, 0 < t ∧ t ≤ exCase.n) ∧
    (∀ b ∈ exCase.bdrs, ∀ t ∈ b.tags, 3 * t + 40 ≤ (67 : Nat)) := by
  refine ⟨?_, fun a b h => by simp only at h; omega, fun t h => by omega, by decide, by decide, by decide⟩
  have : (built 377 exCase).toOption.isSome = true := by decide +kernel
  cases h : built 377 exCase with
  | error e => rw [h] at this; simp [Except.toOption] at this
  | ok d => exact ⟨d, rfl⟩

example : (∀ e, ¬ Reserved (SubMesh.exPlane.attr e)) ∧ (∀ e, ¬ Reserved (SubMesh.exPlane.attr e + 41)) ∧
    (SubMesh.construct 2 SubMesh.exPlane).isSome = true := by
  refine ⟨fun e => ?_, fun e => ?_, by decide +kernel⟩ <;>
  · simp only [SubMesh.exPlane, Reserved]
    decide

/-- **C184 is false for the numbers that the code uses and for groups without material**: a group called 1000 away from the
surface joins the total-field region; one called 777 joins the sub-mesh of every face; and a case without materials works
if its only group is called 1 and reads outside a vector if it is called 2. -/
theorem C184_violated :
    (∃ (m : SubMesh.Mesh ℚ) (ρ : Int → Int), Function.Injective ρ ∧ (∀ t, 0 < t → 0 < ρ t) ∧
      (SubMesh.construct 2 m).map (fun r => r.tf) = some (some [1]) ∧
      (SubMesh.construct 2 (mesh ρ m)).map (fun r => r.tf) = some (some [1, 2])) ∧
    ((NodalMaps.boundarySub 3 (fun e => if e = 2 then 5 else 1) (fun e => if e = 2 then 5 else 1) 0).1 = [0] ∧
      (NodalMaps.boundarySub 3 (fun e => if e = 2 then 777 else 1) (fun e => if e = 2 then 777 else 1) 0).1 = [0, 2]) ∧
    ∃ (c : Case ℚ) (d d' : ModelData ℚ), built 377 c = .ok d ∧ c.atts = [1] ∧
      built 377 (renumber (fun t => t + 1) 0 c) = .ok d' ∧ values d 1 = .ok (1, 1, 0) ∧ values d' 2 = .error .ub := by
  refine ⟨⟨{ SubMesh.exPlane with attr := fun e => if e = 2 then 2 else 1, bdr := [⟨true, [2, 0], [2, 0], 0, some 1⟩] },
      fun t => 999 * t - 998, fun a b h => by simp only at h; omega, fun t h => by show 0 < 999 * t - 998; omega, ?_, ?_⟩, ?_,
    ⟨[], [], [], [1], [], 0⟩, ⟨[(1, ⟨1, 1, 0⟩)], [], [], [], []⟩, ⟨[(1, ⟨1, 1, 0⟩)], [], [], [], []⟩, ?_, rfl, ?_, ?_, ?_⟩
  · decide +kernel
  · decide +kernel
  · decide +kernel
  · rfl
  · rfl
  · decide +kernel
  · decide +kernel

end Dgtd.Renumber
