/-
Components, loads and greedy assignment of the partition post-processing.
-/
import Verif.Lemmas.Dsu
import Verif.Spec.Partition
import Mathlib.Algebra.BigOperators.Group.Finset.Sigma
import Mathlib.Algebra.Order.BigOperators.Ring.Finset
import Mathlib.Data.List.Sort
import Mathlib.Tactic.Ring
import Mathlib.Tactic.Linarith

set_option linter.unusedSectionVars false
set_option linter.unusedSimpArgs false

namespace Dgtd.Partition

lemma mem_unique : ∀ (l : List Nat) (e : Nat), e ∈ unique l ↔ e ∈ l
  | [], e => by simp [unique]
  | [a], e => by simp [unique]
  | a :: b :: l, e => by
    unfold unique
    by_cases h : a = b
    · subst h; rw [if_pos rfl, mem_unique (a :: l) e]; simp
    · rw [if_neg h, List.mem_cons, mem_unique (b :: l) e]; simp

lemma nodup_unique : ∀ (l : List Nat), l.Pairwise (· ≤ ·) → (unique l).Nodup
  | [], _ => by simp [unique]
  | [a], _ => by simp [unique]
  | a :: b :: l, h => by
    unfold unique
    have h2 : (b :: l).Pairwise (· ≤ ·) := (List.pairwise_cons.1 h).2
    by_cases hab : a = b
    · rw [if_pos hab]; exact nodup_unique _ h2
    · rw [if_neg hab, List.nodup_cons]
      refine ⟨?_, nodup_unique _ h2⟩
      rw [mem_unique]
      intro hm
      have h1 := (List.pairwise_cons.1 h).1
      have := h1 b (by simp)
      rcases List.mem_cons.1 hm with rfl | hm
      · exact hab rfl
      · have := (List.pairwise_cons.1 h2).1 a hm
        omega

lemma mem_sortUnique (l : List Nat) (e : Nat) : e ∈ sortUnique l ↔ e ∈ l := by
  unfold sortUnique; rw [mem_unique]; exact List.mem_insertionSort _

lemma nodup_sortUnique (l : List Nat) : (sortUnique l).Nodup := by
  unfold sortUnique
  apply nodup_unique
  exact List.pairwise_insertionSort _ _

/-- Keys of the component map. -/
def keys (c : Comps) : List Nat := c.map Prod.fst

lemma mem_keys_modify (f : List Nat → List Nat) (r k : Nat) : ∀ c : Comps,
    k ∈ keys (Comps.modify f r c) ↔ k = r ∨ k ∈ keys c
  | [] => by simp [Comps.modify, keys]
  | (k', v) :: rest => by
    unfold Comps.modify
    by_cases h : k' = r
    · subst h; simp [keys]
    · have := mem_keys_modify f r k rest
      simp only [keys] at this
      simp only [if_neg h, keys, List.map_cons, List.mem_cons, this]
      tauto

lemma nodup_modify (f : List Nat → List Nat) (r : Nat) : ∀ c : Comps, (keys c).Nodup →
    (keys (Comps.modify f r c)).Nodup
  | [], _ => by simp [Comps.modify, keys]
  | (k', v) :: rest, h => by
    have h' : k' ∉ keys rest ∧ (keys rest).Nodup := by simpa [keys] using h
    unfold Comps.modify
    by_cases hk : k' = r
    · simpa [if_pos hk, keys] using h
    · have h1 := nodup_modify f r rest h'.2
      have h2 := mem_keys_modify f r k' rest
      rw [if_neg hk]
      show (k' :: keys (Comps.modify f r rest)).Nodup
      rw [List.nodup_cons, h2]
      exact ⟨by rintro (h | h); exacts [hk h, h'.1 h], h1⟩

lemma mem_modify (f : List Nat → List Nat) (r : Nat) : ∀ (c : Comps), (keys c).Nodup → ∀ k v,
    (k, v) ∈ Comps.modify f r c → (k ≠ r ∧ (k, v) ∈ c) ∨
      (k = r ∧ ∃ v0, v = f v0 ∧ ((r, v0) ∈ c ∨ (r ∉ keys c ∧ v0 = [])))
  | [], _, k, v, h => by
    simp only [Comps.modify, List.mem_singleton, Prod.mk.injEq] at h
    exact Or.inr ⟨h.1, [], h.2, Or.inr ⟨by simp [keys], rfl⟩⟩
  | (k', v') :: rest, hn, k, v, h => by
    have hn' : k' ∉ keys rest ∧ (keys rest).Nodup := by simpa [keys] using hn
    unfold Comps.modify at h
    by_cases hk : k' = r
    · rw [if_pos hk, List.mem_cons] at h
      rcases h with h | h
      · simp only [Prod.mk.injEq] at h
        exact Or.inr ⟨h.1.trans hk, v', h.2, Or.inl (by rw [← hk]; simp)⟩
      · refine Or.inl ⟨?_, by simp [h]⟩
        rintro rfl
        apply hn'.1
        rw [hk]
        exact List.mem_map.2 ⟨_, h, rfl⟩
    · rw [if_neg hk, List.mem_cons] at h
      rcases h with h | h
      · simp only [Prod.mk.injEq] at h
        exact Or.inl ⟨by rw [h.1]; exact hk, by rw [h.1, h.2]; simp⟩
      · rcases mem_modify f r rest hn'.2 k v h with ⟨h1, h2⟩ | ⟨h1, v0, h2, h3⟩
        · exact Or.inl ⟨h1, by simp [h2]⟩
        · refine Or.inr ⟨h1, v0, h2, ?_⟩
          rcases h3 with h3 | ⟨h3, h4⟩
          · exact Or.inl (by simp [h3])
          · refine Or.inr ⟨?_, h4⟩
            simp only [keys, List.map_cons, List.mem_cons, not_or] at h3 ⊢
            exact ⟨fun h => hk h.symm, h3⟩

/-- The loops of `collect` with the roots given by a function. -/
def collectPure (rt : Nat → Nat) (f : Nat → List Nat → List Nat) (es : List Nat) (c : Comps) : Comps :=
  es.foldl (fun c e => c.modify (f e) (rt e)) c

lemma collect_spec {NE : Nat} {par0 : Nat → Nat} (rt : Nat → Nat)
    (hrt : ∀ x, x < NE → Rep par0 x (rt x)) (f : Nat → List Nat → List Nat) :
    ∀ (es : List Nat), (∀ e ∈ es, e < NE) → ∀ (d : Dsu) (c : Comps), Inv NE d.parent d.rank →
    (∀ y q, Rep par0 y q → Rep d.parent y q) →
    ∃ d', collect NE f es (d, c) = some (d', collectPure rt f es c) ∧ Inv NE d'.parent d'.rank ∧
      (∀ y q, Rep par0 y q → Rep d'.parent y q) := by
  intro es
  induction es with
  | nil => intro _ d c hi hp; exact ⟨d, rfl, hi, hp⟩
  | cons e es ih =>
    intro hes d c hi hp
    have he := hes e (by simp)
    obtain ⟨r, d1, e1, hi1, hr1, hp1⟩ := find_spec hi he
    have : r = rt e := hr1.det (hp _ _ (hrt e he))
    subst this
    obtain ⟨d', e2, hi2, hp2⟩ := ih (fun x hx => hes x (by simp [hx])) d1 (c.modify (f e) (rt e)) hi1
      (fun y q h => hp1 _ _ (hp _ _ h))
    refine ⟨d', ?_, hi2, hp2⟩
    unfold collect at e2 ⊢
    rw [List.foldlM_cons]
    simp only [e1, Option.bind_eq_bind, Option.bind_some, Option.pure_def]
    exact e2

/-- What the component map holds after visiting `done`. -/
structure Collected (rt : Nat → Nat) (done : List Nat) (c : Comps) : Prop where
  nodup : (keys c).Nodup
  val : ∀ k v, (k, v) ∈ c → ∀ e, e ∈ v ↔ (e ∈ done ∧ rt e = k)

lemma mem_pushNew (e : Nat) (v : List Nat) (x : Nat) : x ∈ pushNew e v ↔ x ∈ v ∨ x = e := by
  unfold pushNew
  split_ifs with h
  · have : e ∈ v := List.mem_of_mem_getLast? h
    constructor
    · exact Or.inl
    · rintro (h | rfl); exacts [h, this]
  · simp

lemma collectPure_push (rt : Nat → Nat) : ∀ (es done : List Nat) (c : Comps), Collected rt done c →
    (∀ e ∈ done ++ es, rt e ∈ keys c) →
    Collected rt (done ++ es) (collectPure rt pushNew es c) ∧
      (∀ e ∈ done ++ es, rt e ∈ keys (collectPure rt pushNew es c)) := by
  intro es
  induction es with
  | nil => intro done c h hk; simpa [collectPure] using ⟨h, by simpa using hk⟩
  | cons e es ih =>
    intro done c h hk
    have hap : done ++ e :: es = (done ++ [e]) ++ es := by simp
    rw [hap] at hk ⊢
    have hre : rt e ∈ keys c := hk e (by simp)
    apply ih (done ++ [e]) (c.modify (pushNew e) (rt e))
    · refine ⟨nodup_modify _ _ _ h.nodup, ?_⟩
      intro k v hkv x
      rcases mem_modify _ _ _ h.nodup _ _ hkv with ⟨h1, h2⟩ | ⟨h1, v0, h2, h3⟩
      · rw [h.val k v h2 x]
        simp only [List.mem_append, List.mem_singleton]
        constructor
        · rintro ⟨a, b⟩; exact ⟨Or.inl a, b⟩
        · rintro ⟨a | a, b⟩
          · exact ⟨a, b⟩
          · subst a; exact absurd b.symm h1
      · rcases h3 with h3 | ⟨h3, _⟩
        · rw [h2, mem_pushNew, h.val _ _ h3 x, h1]
          simp only [List.mem_append, List.mem_singleton]
          constructor
          · rintro (⟨a, b⟩ | rfl)
            · exact ⟨Or.inl a, b⟩
            · exact ⟨Or.inr rfl, rfl⟩
          · rintro ⟨a | a, b⟩
            · exact Or.inl ⟨a, b⟩
            · exact Or.inr a
        · exact absurd hre h3
    · intro x hx
      rw [mem_keys_modify]
      exact Or.inr (hk x hx)

lemma collectPure_keys (rt : Nat → Nat) : ∀ (es : List Nat) (c : Comps), (keys c).Nodup →
    (keys (collectPure rt (fun _ => id) es c)).Nodup ∧
      (∀ e ∈ es, rt e ∈ keys (collectPure rt (fun _ => id) es c)) ∧
      (∀ k ∈ keys c, k ∈ keys (collectPure rt (fun _ => id) es c)) := by
  intro es
  induction es with
  | nil => intro c h; exact ⟨h, by simp, fun k hk => hk⟩
  | cons e es ih =>
    intro c h
    obtain ⟨h1, h2, h3⟩ := ih (c.modify id (rt e)) (nodup_modify _ _ _ h)
    refine ⟨h1, ?_, ?_⟩
    · intro x hx
      rcases List.mem_cons.1 hx with rfl | hx
      · exact h3 _ ((mem_keys_modify _ _ _ _).2 (Or.inl rfl))
      · exact h2 x hx
    · intro k hk
      exact h3 k ((mem_keys_modify _ _ _ _).2 (Or.inr hk))

lemma mem_visited {NE : Nat} {pairs : List (Int × Int)} {e : Nat} :
    e ∈ visited NE pairs ↔ e < NE ∧ ∃ pr ∈ pairs, (e : Int) = pr.1 ∨ (e : Int) = pr.2 := by
  unfold visited
  simp only [List.mem_flatMap, List.mem_map, List.mem_filter, List.mem_cons, List.not_mem_nil, or_false,
    decide_eq_true_eq]
  constructor
  · rintro ⟨pr, hpr, x, ⟨hx, h0, h1⟩, rfl⟩
    refine ⟨by omega, pr, hpr, ?_⟩
    rcases hx with rfl | rfl
    · left; omega
    · right; omega
  · rintro ⟨he, pr, hpr, h⟩
    exact ⟨pr, hpr, (e : Int), ⟨h, by omega, by omega⟩, by simp⟩

/-- The element lists given to the assignment phase: duplicate-free, pairwise disjoint, covering exactly
the visited elements, each being a full class of linked visited elements. -/
structure GoodComps (NE : Nat) (pairs : List (Int × Int)) (comps : List (List Nat)) : Prop where
  nodup : ∀ c ∈ comps, c.Nodup
  lt : ∀ c ∈ comps, ∀ e ∈ c, e ∈ visited NE pairs
  class_ : ∀ c ∈ comps, ∀ e ∈ c, ∀ e' ∈ visited NE pairs,
    (e' ∈ c ↔ Relation.EqvGen (InPairs NE pairs) e e')
  cover : ∀ e ∈ visited NE pairs, ∃ c ∈ comps, e ∈ c
  disj : comps.Pairwise fun a b => ∀ e ∈ a, e ∉ b
  filled : ∀ c ∈ comps, c ≠ []

lemma mem_keys_collectPure (rt : Nat → Nat) (f : Nat → List Nat → List Nat) (k : Nat) : ∀ (es : List Nat) (c : Comps),
    k ∈ keys (collectPure rt f es c) ↔ (∃ e ∈ es, rt e = k) ∨ k ∈ keys c
  | [], c => by simp [collectPure]
  | e :: es, c => by
    have h := mem_keys_collectPure rt f k es (c.modify (f e) (rt e))
    rw [mem_keys_modify] at h
    refine Iff.trans h ?_
    simp only [List.mem_cons, exists_eq_or_imp]
    constructor
    · rintro (h | h | h)
      exacts [.inl (.inr h), .inl (.inl h.symm), .inr h]
    · rintro ((h | h) | h)
      exacts [.inr (.inl h.symm), .inl h, .inr (.inr h)]

lemma components_spec (NE : Nat) (pairs : List (Int × Int)) :
    ∃ d comps, uniteAll NE pairs Dsu.init = some d ∧ components NE pairs d = some comps ∧
      GoodComps NE pairs comps := by
  obtain ⟨d, e0, hi, hs⟩ := uniteAll_spec (NE := NE) pairs
  have hex : ∀ x, ∃ r, x < NE → Rep d.parent x r := by
    intro x
    by_cases hx : x < NE
    · obtain ⟨r, hr⟩ := hi.total x hx; exact ⟨r, fun _ => hr⟩
    · exact ⟨0, fun h => absurd h hx⟩
  choose rt hrt using hex
  have hv : ∀ e ∈ visited NE pairs, e < NE := fun e he => (mem_visited.1 he).1
  obtain ⟨d1, e1, hi1, hp1⟩ := collect_spec rt hrt (fun _ => id) (visited NE pairs) hv d [] hi
    (fun _ _ h => h)
  obtain ⟨k1, k2, _⟩ := collectPure_keys rt (visited NE pairs) [] (by simp [keys])
  generalize hc1 : collectPure rt (fun _ => id) (visited NE pairs) [] = c1 at e1 k1 k2
  have hkeys : keys (c1.map fun kv => (kv.1, ([] : List Nat))) = keys c1 := by
    simp [keys, List.map_map, Function.comp_def]
  obtain ⟨d2, e2, _, _⟩ := collect_spec rt hrt pushNew (visited NE pairs) hv d1
    (c1.map fun kv => (kv.1, ([] : List Nat))) hi1 hp1
  have hcol := collectPure_push rt (visited NE pairs) [] (c1.map fun kv => (kv.1, ([] : List Nat)))
    ⟨by rw [hkeys]; exact k1, by
      intro k v hkv e
      obtain ⟨kv, _, hkv⟩ := List.mem_map.1 hkv
      simp only [Prod.mk.injEq] at hkv
      rw [← hkv.2]; simp⟩
    (by intro e he; rw [hkeys]; exact k2 e (by simpa using he))
  simp only [List.nil_append] at hcol
  obtain ⟨hC, hK⟩ := hcol
  generalize hc3 : collectPure rt pushNew (visited NE pairs) (c1.map fun kv => (kv.1, ([] : List Nat))) = c3
    at e2 hC hK
  refine ⟨d, c3.map fun kv => sortUnique kv.2, e0, ?_, ?_⟩
  · unfold components
    simp only [e1, e2, Option.bind_eq_bind, Option.bind_some, Option.pure_def]
  have same_rt : ∀ x y, x < NE → y < NE → (rt x = rt y ↔ Relation.EqvGen (InPairs NE pairs) x y) := by
    intro x y hx hy
    rw [← hs x y hx hy]
    constructor
    · intro h; exact ⟨rt x, hrt x hx, by rw [h]; exact hrt y hy⟩
    · rintro ⟨r, h1, h2⟩
      rw [(hrt x hx).det h1, (hrt y hy).det h2]
  refine ⟨?_, ?_, ?_, ?_, ?_, ?_⟩
  · intro c hc
    obtain ⟨kv, _, rfl⟩ := List.mem_map.1 hc
    exact nodup_sortUnique _
  · intro c hc e he
    obtain ⟨kv, hkv, rfl⟩ := List.mem_map.1 hc
    rw [mem_sortUnique, hC.val kv.1 kv.2 hkv] at he
    exact he.1
  · intro c hc e he e' he'
    obtain ⟨kv, hkv, rfl⟩ := List.mem_map.1 hc
    rw [mem_sortUnique, hC.val kv.1 kv.2 hkv] at he ⊢
    rw [← same_rt e e' (hv e he.1) (hv e' he'), he.2]
    exact ⟨fun h => h.2.symm, fun h => ⟨he', h.symm⟩⟩
  · intro e he
    obtain ⟨kv, hkv, hk⟩ := List.mem_map.1 (hK e he)
    refine ⟨_, List.mem_map.2 ⟨kv, hkv, rfl⟩, ?_⟩
    rw [mem_sortUnique, hC.val kv.1 kv.2 hkv]
    exact ⟨he, hk.symm⟩
  · rw [List.pairwise_map]
    have hnd : c3.Pairwise fun a b => a.1 ≠ b.1 := by
      have := hC.nodup
      unfold keys at this
      rwa [List.nodup_iff_pairwise_ne, List.pairwise_map] at this
    refine hnd.imp_of_mem ?_
    intro a b ha hb hab e he
    rw [mem_sortUnique, hC.val a.1 a.2 ha] at he
    rw [mem_sortUnique, hC.val b.1 b.2 hb]
    rintro ⟨_, h⟩
    exact hab (he.2.symm.trans h)
  · intro c hc
    obtain ⟨kv, hkv, rfl⟩ := List.mem_map.1 hc
    have hk : kv.1 ∈ keys c3 := List.mem_map.2 ⟨kv, hkv, rfl⟩
    have : ∃ e ∈ visited NE pairs, rt e = kv.1 := by
      rw [← hc3, mem_keys_collectPure, hkeys, ← hc1, mem_keys_collectPure] at hk
      rcases hk with h | h | h
      · exact h
      · exact h
      · simp [keys] at h
    obtain ⟨e, he, hek⟩ := this
    refine List.ne_nil_of_mem (a := e) ?_
    rw [mem_sortUnique, hC.val kv.1 kv.2 hkv]
    exact ⟨he, hek⟩

end Dgtd.Partition
