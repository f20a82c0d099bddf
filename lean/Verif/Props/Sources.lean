/-
C32, C33: sources.
-/
import Verif.Spec.Sources
import Mathlib.Data.List.Nodup
import Mathlib.Data.List.Induction
import Mathlib.Data.List.Perm.Basic
import Mathlib.Tactic.Ring
import Mathlib.Tactic.LinearCombination
import Mathlib.Data.Rat.Defs
import Mathlib.Algebra.Field.Rat

set_option linter.unusedSectionVars false

namespace Dgtd.Sources
open Spec
open Dgtd.Config (FieldType Axis)

variable {K : Type} [Field K] [DecidableEq K]

/-! ### Initial fields -/

theorem eval_of_centred (s : Initial K) (p : List K) (h : p.length ≤ s.center.length) (ft : FieldType) (d : Axis) :
    s.eval p ft d = some (initialValue s p ft d) := by
  unfold Initial.eval initialValue
  by_cases hf : ft = s.ftype
  · rw [if_neg (by simpa using hf), if_neg (by omega), if_pos hf.symm]
  · rw [if_pos hf, if_neg (fun h => hf h.symm)]

theorem mapM_some_of {α β : Type} (f : α → Option β) (g : α → β) (l : List α) (h : ∀ a ∈ l, f a = some (g a)) :
    l.mapM f = some (l.map g) := by
  induction l with
  | nil => rfl
  | cons a l ih =>
    rw [List.mapM_cons, h a (by simp), ih fun b hb => h b (List.mem_cons_of_mem _ hb)]
    rfl

theorem addComponent_of_centred (pos : Nat → List K) (n : Nat) (s : Initial K)
    (h : ∀ i < n, (pos i).length ≤ s.center.length) (f : Fields K) (c : FieldType × Axis) :
    addComponent pos n s f c =
      some fun ft d i => if ft = c.1 ∧ d = c.2 then f ft d i + (if i < n then initialValue s (pos i) ft d else 0)
        else f ft d i := by
  unfold addComponent
  rw [mapM_some_of _ (fun i : Nat => initialValue s (pos i) c.1 c.2) _
    fun i hi => eval_of_centred s _ (h i (List.mem_range.1 hi)) _ _]
  simp only [Option.pure_def, Option.bind_eq_bind, Option.bind_some, Option.some.injEq]
  funext ft d i
  by_cases hc : ft = c.1 ∧ d = c.2
  · rw [if_pos hc, if_pos hc, hc.1, hc.2]
    by_cases hi : i < n
    · rw [if_pos hi, List.getD_eq_getElem?_getD, List.getElem?_map, List.getElem?_range hi]; rfl
    · rw [if_neg hi, List.getD_eq_getElem?_getD, List.getElem?_eq_none (by simpa using hi)]; rfl
  · rw [if_neg hc, if_neg hc]

theorem addSource_of_centred (pos : Nat → List K) (n : Nat) (s : Source K) (h : Centred pos n [s]) (f : Fields K) :
    addSource pos n f s = some fun ft d i => f ft d i + if i < n then sourceValue s (pos i) ft d else 0 := by
  cases s with
  | total t =>
    simp only [addSource, sourceValue, ite_self, add_zero]
  | initial s =>
    have hs := h s (by simp)
    simp only [addSource, components, List.foldlM_cons, List.foldlM_nil, addComponent_of_centred pos n s hs,
      Option.pure_def, Option.bind_eq_bind, Option.bind_some, Option.some.injEq, sourceValue]
    funext ft d i
    cases ft <;> cases d <;> simp

/-- **C33**: when the centres have enough coordinates, every component at every degree of freedom is its previous value
plus the sum of the values of all the initial fields there. -/
theorem C33_sum (pos : Nat → List K) (n : Nat) (ss : List (Source K)) (f : Fields K) (h : Centred pos n ss) :
    ∃ g, setInitialFields pos n ss f = some g ∧
      ∀ ft d i, i < n → g ft d i = f ft d i + (ss.map fun s => sourceValue s (pos i) ft d).sum := by
  induction ss generalizing f with
  | nil => exact ⟨f, rfl, by simp⟩
  | cons s ss ih =>
    have h1 : Centred pos n [s] := fun a ha => h a (by simp at ha; simp [ha])
    obtain ⟨g, hg, hv⟩ := ih (fun ft d i => f ft d i + if i < n then sourceValue s (pos i) ft d else 0)
      fun a ha => h a (List.mem_cons_of_mem _ ha)
    refine ⟨g, ?_, fun ft d i hi => ?_⟩
    · unfold setInitialFields at hg ⊢
      rw [List.foldlM_cons, addSource_of_centred pos n s h1]
      exact hg
    · rw [hv ft d i hi, if_pos hi, List.map_cons, List.sum_cons, add_assoc]

/-- **C33**: the order of the sources does not matter. -/
theorem C33_order (pos : Nat → List K) (n : Nat) (ss ss' : List (Source K)) (hp : ss.Perm ss') (f : Fields K)
    (h : Centred pos n ss) :
    ∃ g g', setInitialFields pos n ss f = some g ∧ setInitialFields pos n ss' f = some g' ∧
      ∀ ft d i, i < n → g ft d i = g' ft d i := by
  obtain ⟨g, hg, hv⟩ := C33_sum pos n ss f h
  obtain ⟨g', hg', hv'⟩ := C33_sum pos n ss' f fun s hs => h s (hp.mem_iff.2 hs)
  refine ⟨g, g', hg, hg', fun ft d i hi => ?_⟩
  rw [hv ft d i hi, hv' ft d i hi, (hp.map _).sum_eq]

/-- **C33**: a field that no source sets keeps its values; in particular sources for the electric field leave the
magnetic field untouched and conversely. -/
theorem C33_own_field (pos : Nat → List K) (n : Nat) (ss : List (Source K)) (f : Fields K) (h : Centred pos n ss)
    (ft : FieldType) (hft : ∀ s, Source.initial s ∈ ss → s.ftype ≠ ft) :
    ∃ g, setInitialFields pos n ss f = some g ∧ ∀ d i, i < n → g ft d i = f ft d i := by
  obtain ⟨g, hg, hv⟩ := C33_sum pos n ss f h
  refine ⟨g, hg, fun d i hi => ?_⟩
  rw [hv ft d i hi]
  have : (ss.map fun s => sourceValue s (pos i) ft d).sum = 0 := by
    apply List.sum_eq_zero
    intro x hx
    obtain ⟨s, hs, rfl⟩ := List.mem_map.1 hx
    cases s with
    | total t => rfl
    | initial s =>
      simp only [sourceValue, initialValue]
      rw [if_neg (hft s hs)]
  rw [this, add_zero]

/-- A centre with fewer coordinates than the mesh is read out of bounds. -/
theorem C33_short_centre (pos : Nat → List K) (n : Nat) (s : Initial K) (ss : List (Source K)) (f : Fields K)
    (i : Nat) (hi : i < n) (h : s.center.length < (pos i).length) :
    setInitialFields pos n (.initial s :: ss) f = none := by
  have key : ∀ d f, addComponent pos n s f (s.ftype, d) = none := by
    intro d f
    unfold addComponent
    have : (List.range n).mapM (fun i : Nat => s.eval (pos i) s.ftype d) = none := by
      obtain ⟨a, b, hab⟩ := List.append_of_mem (List.mem_range.2 hi)
      rw [hab, List.mapM_append, List.mapM_cons]
      have he : s.eval (pos i) s.ftype d = none := by
        unfold Initial.eval
        rw [if_neg (by simp), if_pos h]
      rw [he]
      cases a.mapM (fun i : Nat => s.eval (pos i) s.ftype d) <;> rfl
    rw [this]; rfl
  unfold setInitialFields
  rw [List.foldlM_cons]
  have : addSource pos n f (.initial s) = none := by
    simp only [addSource, components, List.foldlM_cons, List.foldlM_nil]
    cases hs : s.ftype with
    | E => rw [← hs, key]; rfl
    | H =>
      cases addComponent pos n s f (.E, .X) with
      | none => rfl
      | some f1 =>
        simp only [Option.bind_eq_bind, Option.bind_some]
        cases addComponent pos n s f1 (.E, .Y) with
        | none => rfl
        | some f2 =>
          simp only [Option.bind_some]
          cases addComponent pos n s f2 (.E, .Z) with
          | none => rfl
          | some f3 =>
            simp only [Option.bind_some]
            rw [← hs, key]; rfl
  rw [this]; rfl

/-! ### Total fields: direct evaluation -/

theorem mem_lastIndex (l : List Int) (x : Int) (e : Nat) (h : lastIndex l x = some e) : l[e]? = some x := by
  unfold lastIndex at h
  rw [Option.map_eq_some_iff] at h
  obtain ⟨p, hp, rfl⟩ := h
  have hm := List.mem_of_getLast? hp
  rw [List.mem_filter] at hm
  obtain ⟨hz, hx⟩ := hm
  obtain ⟨a, b⟩ := p
  have := List.mk_mem_zipIdx_iff_getElem?.1 hz
  rw [this]
  simpa using hx

theorem lastIndex_of_nodup (l : List Int) (hn : l.Nodup) (x : Int) (e : Nat) (h : l[e]? = some x) :
    lastIndex l x = some e := by
  cases hl : lastIndex l x with
  | some e' =>
    have h' := mem_lastIndex l x e' hl
    obtain ⟨h1, h1'⟩ := List.getElem?_eq_some_iff.1 h
    obtain ⟨h2, h2'⟩ := List.getElem?_eq_some_iff.1 h'
    rw [(List.Nodup.getElem_inj_iff hn).1 (h1'.trans h2'.symm)]
  | none =>
    exfalso
    unfold lastIndex at hl
    rw [Option.map_eq_none_iff, List.getLast?_eq_none_iff, List.filter_eq_nil_iff] at hl
    exact hl (x, e) (List.mk_mem_zipIdx_iff_getElem?.2 h) (by simp)

theorem sign_eq_weight (r : Regions) (hn : r.parents.Nodup) (i : Nat) : (sign r i : K) = weight r i := by
  unfold sign weight
  cases r.sf with
  | none => rfl
  | some ids =>
    have : i ∈ sfDofs r ids ↔ Scattered r ids i := by
      unfold sfDofs Scattered
      simp only [List.mem_flatMap, List.mem_filterMap]
      constructor
      · rintro ⟨e, ⟨p, hp, he⟩, hi⟩
        exact ⟨e, p, mem_lastIndex _ _ _ he, hp, hi⟩
      · rintro ⟨e, p, he, hp, hi⟩
        exact ⟨e, ⟨p, hp, lastIndex_of_nodup _ hn _ _ he⟩, hi⟩
    by_cases hc : i ∈ sfDofs r ids
    · simp only [if_pos hc, if_pos (this.1 hc)]
    · simp only [if_neg hc, if_neg (fun h => hc (this.2 h))]

theorem filterMap_total (s : Total K) (ss : List (Source K)) :
    (Source.total s :: ss).filterMap asTotal = s :: ss.filterMap asTotal := rfl

theorem direct_fold (r : Regions) (pos : Nat → List K) (ss : List (Source K)) (t : K) (f : Fields K)
    (ft : FieldType) (d : Axis) (i : Nat) :
    (ss.filterMap asTotal).foldl (fun f s => fun ft d i => f ft d i + s.fn (pos i) t ft d * sign r i) f ft d i =
      f ft d i + (ss.map fun s => incident s (pos i) t ft d * sign r i).sum := by
  induction ss generalizing f with
  | nil => simp
  | cons s ss ih =>
    cases s with
    | initial s =>
      rw [List.filterMap_cons_none rfl, ih]
      simp [incident]
    | total s =>
      rw [filterMap_total, List.foldl_cons, ih]
      simp only [List.map_cons, List.sum_cons, incident, add_assoc]

/-- **C32**, direct evaluation (global operator): every component at every degree of freedom is the sum over the
sources of the incident field there, weighted by the side it is on. -/
theorem C32_direct (r : Regions) (hn : r.parents.Nodup) (pos : Nat → List K) (ss : List (Source K)) (t : K)
    (ft : FieldType) (d : Axis) (i : Nat) :
    direct r pos ss t ft d i = (ss.map fun s => incident s (pos i) t ft d).sum * weight r i := by
  unfold direct
  rw [direct_fold, zero_add, ← sign_eq_weight r hn]
  induction ss with
  | nil => simp
  | cons s ss ih => simp only [List.map_cons, List.sum_cons, ih]; ring

/-- **C32**, direct evaluation: the excitation with several sources is the sum of those with each source alone. -/
theorem C32_direct_superposes (r : Regions) (pos : Nat → List K) (ss : List (Source K)) (t : K)
    (ft : FieldType) (d : Axis) (i : Nat) :
    direct r pos ss t ft d i = (ss.map fun s => direct r pos [s] t ft d i).sum := by
  have : ∀ s, direct r pos [s] t ft d i = incident s (pos i) t ft d * sign r i := by
    intro s
    unfold direct
    rw [direct_fold]; simp
  simp only [this]
  unfold direct
  rw [direct_fold, zero_add]

/-! ### Total fields: nodal operator -/

/-- What one pair of nodes adds to a position of the jumps. -/
def Spec.pairValue (s : Source K) (pos : Nat → List K) (t : K) (ft : FieldType) (d : Axis) (k : Nat) (p : Pair) : K :=
  (if k = p.btf then incident s (pos p.node) t ft d else 0) - (if k = p.bsf then incident s (pos p.node) t ft d else 0)

theorem pairs_fold (pos : Nat → List K) (t : K) (s : Total K) (pairs : List Pair) (out : Fields K)
    (ft : FieldType) (d : Axis) (k : Nat) :
    pairs.foldl (addPair pos t s) out ft d k =
      out ft d k + (pairs.map (pairValue (.total s) pos t ft d k)).sum := by
  induction pairs generalizing out with
  | nil => simp
  | cons p ps ih =>
    rw [List.foldl_cons, ih, List.map_cons, List.sum_cons]
    generalize (ps.map (pairValue (.total s) pos t ft d k)).sum = S
    simp only [addPair, pairValue, incident]
    split_ifs <;> ring

/-- **C32**, nodal operator: every jump changes by the sum over the sources and over the pairs of nodes of the incident
field, added on the total side and subtracted on the scattered side. -/
theorem C32_nodal (pairs : List Pair) (pos : Nat → List K) (ss : List (Source K)) (t : K) (out : Fields K)
    (ft : FieldType) (d : Axis) (k : Nat) :
    nodalTerm pairs pos ss t out ft d k =
      out ft d k + (ss.map fun s => (pairs.map (pairValue s pos t ft d k)).sum).sum := by
  unfold nodalTerm
  induction ss generalizing out with
  | nil => simp
  | cons s ss ih =>
    cases s with
    | initial s =>
      rw [List.filterMap_cons_none rfl, ih, List.map_cons, List.sum_cons]
      have : (pairs.map (pairValue (.initial s) pos t ft d k)).sum = 0 := by
        apply List.sum_eq_zero
        intro x hx
        obtain ⟨p, _, rfl⟩ := List.mem_map.1 hx
        simp [pairValue, incident]
      rw [this, zero_add]
    | total s =>
      rw [filterMap_total, List.foldl_cons, ih, pairs_fold, List.map_cons, List.sum_cons,
        add_assoc]

/-! ### Total fields: the other path -/

theorem zero_fold (r : Regions) (ids : List Int) (f : Fields K) (h : ∀ p ∈ ids, p ∈ r.parents) :
    ∃ g, ids.foldlM (zeroElement r) f = some g ∧ ∀ ft d i,
      ((∃ p ∈ ids, ∃ e, r.parents.idxOf? p = some e ∧ i ∈ r.dofs e) → g ft d i = 0) ∧
      ((¬ ∃ p ∈ ids, ∃ e, r.parents.idxOf? p = some e ∧ i ∈ r.dofs e) → g ft d i = f ft d i) := by
  induction ids using List.reverseRecOn with
  | nil => exact ⟨f, rfl, fun ft d i => ⟨by simp, fun _ => rfl⟩⟩
  | append_singleton ids p ih =>
    obtain ⟨g, hg, hv⟩ := ih fun q hq => h q (by simp [hq])
    have hp := h p (by simp)
    obtain ⟨e, he⟩ : ∃ e, r.parents.idxOf? p = some e := by
      cases hx : r.parents.idxOf? p with
      | some e => exact ⟨e, rfl⟩
      | none => exact absurd hp (List.idxOf?_eq_none_iff.1 hx)
    refine ⟨fun ft d i => if i ∈ r.dofs e then 0 else g ft d i, ?_, fun ft d i => ?_⟩
    · rw [List.foldlM_append, hg]
      simp only [Option.bind_eq_bind, Option.bind_some, List.foldlM_cons, List.foldlM_nil, zeroElement, he,
        Option.map_some, Option.pure_def]
    · by_cases hi : i ∈ r.dofs e
      · simp only [if_pos hi, implies_true, true_and]
        intro hc
        exact absurd ⟨p, by simp, e, he, hi⟩ hc
      · simp only [if_neg hi]
        refine ⟨?_, ?_⟩
        · rintro ⟨q, hq, e', he', hi'⟩
          rcases List.mem_append.1 hq with hq | hq
          · exact (hv ft d i).1 ⟨q, hq, e', he', hi'⟩
          · rw [List.mem_singleton.1 hq, he] at he'
            cases he'
            exact absurd hi' hi
        · intro hc
          refine (hv ft d i).2 ?_
          rintro ⟨q, hq, hx⟩
          exact hc ⟨q, by simp [hq], hx⟩

theorem projected_eq (pos : Nat → List K) (ss : List (Source K)) (t : K) (s : Total K) (h : (ss.filterMap asTotal).getLast? = some s) :
    projected pos ss t = fun ft d i => s.fn (pos i) t ft d := by
  unfold projected
  revert h
  induction ss.filterMap asTotal using List.reverseRecOn with
  | nil => intro h; cases h
  | append_singleton l a _ =>
    intro h
    rw [List.getLast?_concat] at h
    cases h
    rw [List.foldl_append]; rfl

theorem idxOf?_of_nodup (l : List Int) (hn : l.Nodup) (x : Int) (e : Nat) :
    l.idxOf? x = some e ↔ l[e]? = some x := by
  constructor
  · intro h
    rw [List.idxOf?_eq_some_iff] at h
    obtain ⟨h1, h2, _⟩ := h
    rw [List.getElem?_eq_getElem h1, h2]
  · intro h
    obtain ⟨h1, h2⟩ := List.getElem?_eq_some_iff.1 h
    rw [List.idxOf?_eq_some_iff]
    refine ⟨h1, h2, fun j hj => ?_⟩
    intro hc
    have := (List.Nodup.getElem_inj_iff hn (hi := by omega) (hj := h1)).1 (hc.trans h2.symm)
    omega

/-- What the maxwell operator uses as excitation: the field of the *last* total-field source, weighted by the side.
Missing for C32: the fields of all the other sources. -/
theorem C32_fallback_last (r : Regions) (hr : TwoSided r) (pos : Nat → List K) (ss : List (Source K)) (t : K)
    (s : Total K) (hs : (ss.filterMap asTotal).getLast? = some s) :
    ∃ f, fallback r pos ss t = some f ∧
      ∀ ft d i, (∃ e, e < r.parents.length ∧ i ∈ r.dofs e) → f ft d i = s.fn (pos i) t ft d * weight r i := by
  have hp := projected_eq pos ss t s hs
  unfold fallback
  simp only [hp]
  cases hsf : r.sf with
  | none =>
    refine ⟨_, by simp [zeroSide]; rfl, fun ft d i _ => ?_⟩
    unfold weight; rw [hsf]; simp
  | some ids =>
    obtain ⟨hside, hknown⟩ := hr.sides ids hsf
    obtain ⟨g, hg, hgv⟩ := zero_fold r ids (fun ft d i => s.fn (pos i) t ft d) hknown
    obtain ⟨g', hg', hgv'⟩ := zero_fold r (r.tf.getD []) (fun ft d i => s.fn (pos i) t ft d) hr.known
    refine ⟨fun ft d i => (g ft d i - g' ft d i) * (1 / 2), ?_, fun ft d i hi => ?_⟩
    · simp only [zeroSide, Option.getD_some, hg, hg', Option.isSome_some, if_true, Option.bind_eq_bind,
        Option.bind_some, Option.pure_def]
    · obtain ⟨e, hel, hie⟩ := hi
      have hpe : r.parents[e]? = some r.parents[e] := List.getElem?_eq_getElem hel
      have hm : r.parents[e] ∈ r.parents := List.getElem_mem hel
      have hin : ∀ l : List Int, (∃ p ∈ l, ∃ e', r.parents.idxOf? p = some e' ∧ i ∈ r.dofs e') ↔ r.parents[e] ∈ l := by
        intro l
        constructor
        · rintro ⟨p, hpl, e', he', hi'⟩
          have := hr.disjoint _ _ _ hie hi'
          subst this
          rw [idxOf?_of_nodup _ hr.distinct, hpe] at he'
          cases he'; exact hpl
        · intro hl
          exact ⟨_, hl, e, (idxOf?_of_nodup _ hr.distinct _ _).2 hpe, hie⟩
      have hsc : Scattered r ids i ↔ r.parents[e] ∈ ids := by
        unfold Scattered
        constructor
        · rintro ⟨e', p, he', hp', hi'⟩
          have := hr.disjoint _ _ _ hie hi'
          subst this
          rw [hpe] at he'
          cases he'; exact hp'
        · intro h; exact ⟨e, _, hpe, h, hie⟩
      unfold weight; rw [hsf]
      simp only
      by_cases hc : r.parents[e] ∈ ids
      · rw [if_pos (hsc.2 hc), (hgv ft d i).1 ((hin ids).2 hc),
          (hgv' ft d i).2 (fun h => ((hside _ hm).1 hc) ((hin _).1 h))]
        ring
      · have ht : r.parents[e] ∈ r.tf.getD [] := by
          by_contra hn; exact hc ((hside _ hm).2 hn)
        rw [if_neg (fun h => hc (hsc.1 h)), (hgv ft d i).2 (fun h => hc ((hin ids).1 h)),
          (hgv' ft d i).1 ((hin _).2 ht)]
        ring

/-- **C32**, partial: with one total-field source the two ways to evaluate the excitation agree.  Missing: several
sources (`C32_violated`). -/
theorem C32_paths_agree_partial (r : Regions) (hr : TwoSided r) (pos : Nat → List K) (ss : List (Source K)) (t : K)
    (s : Total K) (hs : ss.filterMap asTotal = [s]) :
    ∃ f, fallback r pos ss t = some f ∧
      ∀ ft d i, (∃ e, e < r.parents.length ∧ i ∈ r.dofs e) → f ft d i = direct r pos ss t ft d i := by
  obtain ⟨f, hf, hv⟩ := C32_fallback_last r hr pos ss t s (by rw [hs]; rfl)
  refine ⟨f, hf, fun ft d i hi => ?_⟩
  rw [hv ft d i hi]
  unfold direct
  rw [hs, ← sign_eq_weight r hr.distinct]
  simp

theorem maxwell_fold (l : List (Total K)) (x : Option (Fields K)) (f : Fields K) (hx : x = some f) (A : Fields K → K) (a : K) :
    l.foldlM (fun acc _ => x.map fun f => acc + A f) a = some (a + l.length * A f) := by
  subst hx
  induction l generalizing a with
  | nil => simp
  | cons s l ih =>
    rw [List.foldlM_cons]
    show List.foldlM (fun acc _ => (some f).map fun f => acc + A f) (a + A f) l = _
    rw [ih]
    simp only [List.length_cons, Nat.cast_add, Nat.cast_one, Option.some.injEq]
    ring

/-- What the maxwell operator adds: as many times the excitation of the last source as there are sources. -/
theorem C32_maxwell_count (r : Regions) (pos : Nat → List K) (ss : List (Source K)) (t : K) (A : Fields K → K)
    (f : Fields K) (hf : fallback r pos ss t = some f) :
    maxwellTerm r pos ss t A = some (((ss.filterMap asTotal).length : K) * A f) := by
  unfold maxwellTerm
  rw [maxwell_fold _ _ f hf, zero_add]

/-- **C32**, partial: the maxwell operator adds the excitation of its only total-field source, once. -/
theorem C32_maxwell_partial (r : Regions) (hr : TwoSided r) (pos : Nat → List K) (ss : List (Source K)) (t : K)
    (s : Total K) (hs : ss.filterMap asTotal = [s]) (A : Fields K → K)
    (hA : ∀ f g : Fields K, (∀ ft d i, (∃ e, e < r.parents.length ∧ i ∈ r.dofs e) → f ft d i = g ft d i) → A f = A g) :
    maxwellTerm r pos ss t A = some (A (direct r pos ss t)) := by
  obtain ⟨f, hf, hv⟩ := C32_paths_agree_partial r hr pos ss t s hs
  rw [C32_maxwell_count r pos ss t A f hf, hs, hA f _ hv]
  simp

/-! ### Concrete cases -/

/-- A sub-mesh with a scattered element (parent 4) and a total element (parent 7), two nodes each. -/
def exRegions : Regions := ⟨[4, 7], fun e => if e = 0 then [0, 1] else if e = 1 then [2, 3] else [], some [4], some [7]⟩

example : TwoSided exRegions := by
  refine ⟨by decide, ?_, by decide, ?_⟩
  · intro ids h
    simp only [exRegions, Option.some.injEq] at h
    subst h
    decide
  · intro e e' i h h'
    simp only [exRegions] at h h'
    split_ifs at h h' <;> simp at h h' <;> omega

def exWave (a : ℚ) : Source ℚ := .total ⟨fun p t ft d => if ft = .E ∧ d = .Y then a * (p.getD 0 0 - t) else 0⟩

def exPos (i : Nat) : List ℚ := [(i : ℚ)]

/-- **C32** fails for the maxwell operator: with two sources of amplitudes one and ten the field of the first one is lost,
and the contribution is twice that of the second one. -/
theorem C32_violated :
    (fallback exRegions exPos [exWave 1, exWave 10] 0).map (fun f => f .E .Y 3) = some 15 ∧
    direct exRegions exPos [exWave 1, exWave 10] 0 .E .Y 3 = 33 / 2 ∧
    maxwellTerm exRegions exPos [exWave 1, exWave 10] 0 (fun f => f .E .Y 3) = some 30 := by
  decide +kernel

example : (fallback exRegions exPos [exWave 1] 0).map (fun f => (f .E .Y 3, f .E .Y 1)) = some (3 / 2, -(1 / 2)) ∧
    direct exRegions exPos [exWave 1] 0 .E .Y 1 = -(1 / 2) := by
  decide +kernel

def exInitial (ft : FieldType) (d : Axis) (c : ℚ) : Source ℚ :=
  .initial ⟨fun p => 1 - p.getD 0 0 ^ 2, ft, fun x => if x = d then 1 else 0, [c]⟩

example : Centred exPos 3 [exInitial .E .Y 0, exInitial .H .Z 1] := by
  intro s hs i _
  simp only [exInitial, List.mem_cons, Source.initial.injEq, List.not_mem_nil, or_false] at hs
  rcases hs with h | h <;> subst h <;> simp [exPos]

example : ((setInitialFields exPos 3 [exInitial .E .Y 0, exInitial .H .Z 1, exInitial .E .Y 1] fun _ _ _ => 0).map
    fun f => (f .E .Y 0, f .E .Y 1, f .H .Z 2, f .H .Y 2)) = some (1, 1, 0, 0) := by
  decide +kernel

example : (nodalTerm [⟨0, 1, 2⟩, ⟨3, 4, 1⟩] exPos [exWave 1, exWave 10] 0 fun _ _ _ => 0) .E .Y 1 = 22 := by
  decide +kernel

end Dgtd.Sources
