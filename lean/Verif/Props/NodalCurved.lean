/-
C138: curved elements in the nodal operator.
-/
import Verif.Props.NodalRun
import Verif.Model.NodalCurved

set_option linter.unusedSectionVars false

namespace Dgtd.Nodal

open Spec NodalMaps Dgtd.Op

variable {K : Type} [Field K] [LinearOrder K] [IsStrictOrderedRing K]

/-! ### the two lists -/

lemma isCurved_iff (n : Nat) (straight actual : Nat → V3 K) (e : Nat) :
    isCurved n straight actual e = true ↔ Displaced n straight actual e := by
  unfold isCurved elemDofs Displaced
  simp only [List.any_map, List.any_eq_true, List.mem_range, Function.comp_apply, Bool.or_eq_true, decide_eq_true_eq]
  constructor
  · rintro ⟨k, hk, h⟩
    rcases h with (h | h) | h
    · exact ⟨k, hk, 0, h⟩
    · exact ⟨k, hk, 1, h⟩
    · exact ⟨k, hk, 2, h⟩
  · rintro ⟨k, hk, d, h⟩
    refine ⟨k, hk, ?_⟩
    fin_cases d
    · exact Or.inl (Or.inl h)
    · exact Or.inl (Or.inr h)
    · exact Or.inr h

lemma classify_eq (n ne : Nat) (straight actual : Nat → V3 K) : classify n ne straight actual =
    ((List.range ne).filter fun e => !isCurved n straight actual e,
      ((List.range ne).filter fun e => isCurved n straight actual e).map fun e => (e, elemDofs n e)) := by
  have : ∀ (l : List Nat) (a : List Nat) (b : List (Nat × List Nat)), l.foldl (fun res e =>
      if isCurved n straight actual e then (res.1, res.2 ++ [(e, elemDofs n e)]) else (res.1 ++ [e], res.2)) (a, b) =
      (a ++ l.filter (fun e => !isCurved n straight actual e),
        b ++ (l.filter fun e => isCurved n straight actual e).map fun e => (e, elemDofs n e)) := by
    intro l
    induction l with
    | nil => simp
    | cons e l ih =>
      intro a b
      rw [List.foldl_cons]
      cases h : isCurved n straight actual e
      · simp only [Bool.false_eq_true, if_false]
        rw [ih]
        simp [h]
      · simp only [if_true]
        rw [ih]
        simp [h]
  unfold classify
  rw [this]
  simp

/-- **C138**: every element is in exactly one of the two lists, once: with the curved ones, and all its nodes, if and only if some of its
nodes is displaced by more than `1e-5`. -/
theorem C138_lists (n ne : Nat) (straight actual : Nat → V3 K) :
    (∀ e, e ∈ (classify n ne straight actual).1 ↔ e < ne ∧ ¬ Displaced n straight actual e) ∧
    (∀ e, e ∈ (classify n ne straight actual).2.map Prod.fst ↔ e < ne ∧ Displaced n straight actual e) ∧
    (classify n ne straight actual).1.Nodup ∧ ((classify n ne straight actual).2.map Prod.fst).Nodup ∧
    ∀ q ∈ (classify n ne straight actual).2, ∀ i, i ∈ q.2 ↔ q.1 * n ≤ i ∧ i < q.1 * n + n := by
  rw [classify_eq]
  refine ⟨fun e => ?_, fun e => ?_, List.nodup_range.filter _, ?_, ?_⟩
  · simp [← isCurved_iff]
  · simp only [List.map_map, Function.comp_def, List.map_id', List.mem_filter, List.mem_range, isCurved_iff]
  · simp only [List.map_map, Function.comp_def, List.map_id']
    exact List.nodup_range.filter _
  · intro q hq i
    obtain ⟨e, _, rfl⟩ := List.mem_map.1 hq
    unfold elemDofs
    simp only [List.mem_map, List.mem_range]
    constructor
    · rintro ⟨k, hk, rfl⟩; omega
    · rintro ⟨h1, h2⟩; exact ⟨i - e * n, by omega, by omega⟩

lemma mem_dofs {ne n : Nat} (r : Fin ne × Fin n) (e : Nat) : num r ∈ elemDofs n e ↔ r.1.val = e := by
  unfold elemDofs
  simp only [List.mem_map, List.mem_range]
  constructor
  · rintro ⟨k, hk, h⟩
    have := num_div r
    rw [← h, Nat.mul_comm, Nat.mul_add_div (by omega), Nat.div_eq_of_lt hk, Nat.add_zero] at this
    exact this.symm
  · rintro rfl
    exact ⟨r.2, r.2.isLt, rfl⟩

lemma dofCurved {ne n : Nat} (straight actual : Nat → V3 K) (r : Fin ne × Fin n) :
    isDofCurved (classify n ne straight actual).2 (num r) = true ↔ Displaced n straight actual r.1 := by
  rw [classify_eq, ← isCurved_iff]
  unfold isDofCurved
  simp only [List.any_map, List.any_eq_true, Function.comp_apply, List.mem_filter, List.mem_range, List.contains_iff_mem, mem_dofs]
  constructor
  · rintro ⟨e, ⟨_, h⟩, he⟩; rw [he]; exact h
  · intro h; exact ⟨r.1, ⟨r.1.isLt, h⟩, rfl⟩

/-- **C138**: a case is accepted if and only if no face of a total-field surface touches a curved element. -/
theorem C138_tfsf (n ne : Nat) (straight actual : Nat → V3 K) (faces : List (Nat × Option Nat))
    (hf : ∀ f ∈ faces, f.1 < ne ∧ ∀ e ∈ f.2, e < ne) :
    checkTFSF (classify n ne straight actual).2 faces = true ↔
      ∀ f ∈ faces, ¬ Displaced n straight actual f.1 ∧ ∀ e ∈ f.2, ¬ Displaced n straight actual e := by
  have key : ∀ e < ne, ((classify n ne straight actual).2.any fun q => q.1 == e) = true ↔ Displaced n straight actual e := by
    intro e he
    have := (C138_lists n ne straight actual).2.1 e
    rw [List.any_eq_true]
    constructor
    · rintro ⟨q, hq, h⟩
      exact (this.1 (List.mem_map.2 ⟨q, hq, by simpa using h⟩)).2
    · intro h
      obtain ⟨q, hq, h'⟩ := List.mem_map.1 (this.2 ⟨he, h⟩)
      exact ⟨q, hq, by simpa using h'⟩
  unfold checkTFSF
  rw [List.all_eq_true]
  refine forall₂_congr fun f hfm => ?_
  obtain ⟨h1, h2⟩ := hf f hfm
  rw [Bool.and_eq_true, Bool.not_eq_true', ← Bool.not_eq_true, key _ h1]
  obtain ⟨a, o⟩ := f
  cases o with
  | none => simp
  | some e2 =>
    simp only [Option.mem_def, Option.some.injEq, forall_eq'] at h2 ⊢
    rw [Bool.not_eq_true', ← Bool.not_eq_true, key _ h2]

/-! ### the product -/

lemma fold_set (n : Nat) (v : Fields K) (i : Nat) (x : Fin 3) : ∀ (l : List Nat) (out : Fields K),
    (l.foldl (setRows n v) out).e i x = (if ∃ e ∈ l, i ∈ elemDofs n e then v.e i x else out.e i x) ∧
    (l.foldl (setRows n v) out).h i x = (if ∃ e ∈ l, i ∈ elemDofs n e then v.h i x else out.h i x) := by
  intro l
  induction l with
  | nil => intro out; simp
  | cons e l ih =>
    intro out
    rw [List.foldl_cons, (ih _).1, (ih _).2]
    by_cases h1 : ∃ e ∈ l, i ∈ elemDofs n e
    · have : ∃ e' ∈ e :: l, i ∈ elemDofs n e' := by
        obtain ⟨e', a, b⟩ := h1
        exact ⟨e', List.mem_cons_of_mem _ a, b⟩
      simp only [if_pos h1, if_pos this, and_self]
    · have : (∃ e' ∈ e :: l, i ∈ elemDofs n e') ↔ i ∈ elemDofs n e := by
        constructor
        · rintro ⟨e', he', h⟩
          rcases List.mem_cons.1 he' with rfl | he'
          · exact h
          · exact absurd ⟨e', he', h⟩ h1
        · intro h; exact ⟨e, List.mem_cons_self .., h⟩
      simp only [if_neg h1, setRows, this, and_self]

lemma fold_add (g : Fields K) (i : Nat) (x : Fin 3) : ∀ (l : List (Nat × List Nat)) (out : Fields K),
    (l.foldl (addRows g) out).e i x = out.e i x + (l.map fun q => if i ∈ q.2 then g.e i x else 0).sum ∧
    (l.foldl (addRows g) out).h i x = out.h i x + (l.map fun q => if i ∈ q.2 then g.h i x else 0).sum := by
  intro l
  induction l with
  | nil => intro out; simp
  | cons q l ih =>
    intro out
    rw [List.foldl_cons, (ih _).1, (ih _).2]
    simp only [addRows, List.map_cons, List.sum_cons]
    constructor <;> ring

lemma sum_once (l : List Nat) (hl : l.Nodup) (a : Nat) (y : K) : (l.map fun e => if a = e then y else 0).sum = if a ∈ l then y else 0 := by
  induction l with
  | nil => simp
  | cons e l ih =>
    rw [List.nodup_cons] at hl
    rw [List.map_cons, List.sum_cons, ih hl.2]
    by_cases h : a = e
    · subst h
      simp [hl.1]
    · simp [h]

/-- A row of the product: of the nodal formulas or of the global operator. -/
lemma mixed_row {ne : Nat} (R : Ref K) (E : Nat → Nat → K) (el : Nat → Elem K) (c : Nat → Nat × Nat) (b : BdrMaps) (alpha : K)
    (sources : List (Option (Fields K))) (tf : List TfNode) (straight actual : Nat → V3 K) (global : Fields K → Fields K) (u : Fields K)
    (r : Fin ne × Fin R.n) (d : Fin 3) :
    let lists := classify R.n ne straight actual
    let j := evaluateTFSF sources tf (applyBC (isDofCurved lists.2) alpha b u (jumps c u))
    (mixedMult R E el c b alpha sources tf lists global u).e (num r) d =
        (if isCurved R.n straight actual r.1 then (global u).e (num r) d else outE (ops R E el) alpha (normals R el) u j d (num r)) ∧
      (mixedMult R E el c b alpha sources tf lists global u).h (num r) d =
        (if isCurved R.n straight actual r.1 then (global u).h (num r) d else outH (ops R E el) alpha (normals R el) u j d (num r)) := by
  intro lists j
  unfold mixedMult
  simp only
  rw [(fold_add _ _ _ _ _).1, (fold_add _ _ _ _ _).2, (fold_set _ _ _ _ _ _).1, (fold_set _ _ _ _ _ _).2]
  have hl : lists = _ := classify_eq R.n ne straight actual
  have h1 : (∃ e ∈ lists.1, num r ∈ elemDofs R.n e) ↔ isCurved R.n straight actual r.1 = false := by
    rw [hl]
    simp only [mem_dofs, List.mem_filter, List.mem_range, Bool.not_eq_true']
    constructor
    · rintro ⟨e, ⟨_, h⟩, he⟩; rw [he]; exact h
    · intro h; exact ⟨r.1, ⟨r.1.isLt, h⟩, rfl⟩
  have h2 : ∀ y : K, (lists.2.map fun q => if num r ∈ q.2 then y else 0).sum = if isCurved R.n straight actual r.1 then y else 0 := by
    intro y
    rw [hl]
    simp only [List.map_map, Function.comp_def, mem_dofs]
    rw [sum_once _ (List.nodup_range.filter _)]
    simp [r.1.isLt]
  rw [h2, h2]
  simp only [h1]
  cases isCurved R.n straight actual r.1 <;> simp [j]

variable {ne : Nat} {R : Ref K} {w : K} {Mhat : Fin R.n → Fin R.n → K} {node : Fin R.nF → Fin R.nf → Fin R.n}
  {el : Nat → Elem K} {eps mu : Fin ne → K} {P : Prob (Fin ne × Fin R.n) K} {c : Nat → Nat × Nat} {b : BdrMaps}
  {inner : List (Inner ne R.nF R.nf R.n K)} {outer : List (Outer ne R.nF R.n K)} {straight actual : Nat → V3 K}

/-- The elements next to the faces of the total-field surface. -/
def surfaceElems (surf : Inner ne R.nF R.nf R.n K → Option Bool) (inner : List (Inner ne R.nF R.nf R.n K)) : List (Nat × Option Nat) :=
  inner.filterMap fun q => if (surf q).isSome = true then some (q.e1.val, some q.e2.val) else none

/-- **C138**: with sources.  The rows of the curved elements are those of the global operator, with their materials and losses; the rows of
the straight ones are those of C129. -/
theorem C138_waves {C : Op.Case (Fin ne × Fin R.n) K} {surf : Inner ne R.nF R.nf R.n K → Option Bool} {tf : List TfNode}
    {sources : List (Option (Fields K))} {waves : List (State (Fin ne × Fin R.n) K)}
    (S : Mixed (fun e => ¬ Displaced R.n straight actual e) R w Mhat node el eps mu C.prob c b inner outer)
    (T : SurfaceOk node inner outer surf C tf sources waves)
    (hacc : checkTFSF (classify R.n ne straight actual).2 (surfaceElems surf inner) = true)
    (hq : skip2 ≤ sourceNorm2 C (sourceField C waves)) (global : Fields K → Fields K) (v : Fields K) (u : State (Fin ne × Fin R.n) K)
    (hv : Holds v u) (hg : Holds (global v) (globalMult C.prob u)) :
    ∃ E, emat R = some E ∧ ∀ (r : Fin ne × Fin R.n) (d : Fin 3),
      (Displaced R.n straight actual r.1 →
        (mixedMult R E el c b C.alpha sources tf (classify R.n ne straight actual) global v).e (num r) d = sourceRhs C waves u .E d r ∧
        (mixedMult R E el c b C.alpha sources tf (classify R.n ne straight actual) global v).h (num r) d = sourceRhs C waves u .H d r) ∧
      (¬ Displaced R.n straight actual r.1 →
        (mixedMult R E el c b C.alpha sources tf (classify R.n ne straight actual) global v).e (num r) d =
          speed R w * eps r.1 * (sourceRhs C waves u .E d r + ∑ s, C.Minv .E r s * C.Msig.mulVec (u .E d) s) ∧
        (mixedMult R E el c b C.alpha sources tf (classify R.n ne straight actual) global v).h (num r) d =
          speed R w * mu r.1 * sourceRhs C waves u .H d r) := by
  obtain ⟨E, h1, hE⟩ := emat_entry R S.ref
  refine ⟨E, h1, fun r d => ⟨fun hr => ?_, fun hr => ?_⟩⟩
  · obtain ⟨a, a'⟩ := mixed_row R E el c b C.alpha sources tf straight actual global v r d
    rw [a, a', if_pos ((isCurved_iff ..).2 hr), if_pos ((isCurved_iff ..).2 hr), (hg r d).1, (hg r d).2]
    have hrow : ∀ f, sourceRhs C waves u f d r = globalMult C.prob u f d r := by
      intro f
      rw [source_same S T hq, sub_eq_self]
      apply Finset.sum_eq_zero
      rintro ⟨e, i⟩ _
      by_cases he : r.1 = e
      · have : (inner.map fun q => faceTerm (if (surf q).isSome = true then sourceField C waves else fun _ _ _ => 0) f d 1 C.alpha
            q.face (Pi.single (e, i) 1)).sum = 0 := by
          apply Op.sum_map_zero
          intro q hqm
          split_ifs with hs
          · rw [C138_tfsf] at hacc
            · have hm : (q.e1.val, some q.e2.val) ∈ surfaceElems surf inner := by
                unfold surfaceElems
                rw [List.mem_filterMap]
                exact ⟨q, hqm, by rw [if_pos hs]⟩
              obtain ⟨n1, n2⟩ := hacc _ hm
              obtain ⟨a1, a2, a3, a4, _⟩ := S.inside q hqm
              apply inner_far a1 a2 a3 a4
              · rintro rfl; rw [← he] at n1; exact n1 hr
              · rintro rfl; exact n2 _ rfl (by rw [← he]; exact hr)
            · intro g hgm
              unfold surfaceElems at hgm
              rw [List.mem_filterMap] at hgm
              obtain ⟨q', _, h'⟩ := hgm
              split_ifs at h' with hs'
              simp only [Option.some.injEq] at h'
              subst h'
              refine ⟨q'.e1.isLt, ?_⟩
              intro e' he'
              simp only [Option.mem_def, Option.some.injEq] at he'
              subst he'
              exact q'.e2.isLt
          · rw [faceTerm_zero]
        rw [this, mul_zero]
      · rw [show C.Minv f r (e, i) = 0 from S.local_ f r (e, i) he, zero_mul]
    exact ⟨(hrow .E).symm, (hrow .H).symm⟩
  · have hcur : ∀ s : Fin ne × Fin R.n, ¬ Displaced R.n straight actual s.1 → isDofCurved (classify R.n ne straight actual).2 (num s) = false := by
      intro s hs
      rw [← Bool.not_eq_true, dofCurved]
      exact hs
    have J := jumps_waves (isDofCurved (classify R.n ne straight actual).2) S T v u hv
    obtain ⟨a, a'⟩ := mixed_row R E el c b C.alpha sources tf straight actual global v r d
    have hf : isCurved R.n straight actual r.1 = false := by
      rw [← Bool.not_eq_true, isCurved_iff]
      exact hr
    simp only [hf, Bool.false_eq_true, if_false] at a a'
    rw [a, a']
    constructor
    · have := nodal_global S v u hv hcur _ _ J E hE .E d r hr
      rw [source_same S T hq]
      simp only [sgn, FieldT.idx, material, altField, comp] at this
      have e : ∀ a b c : K, a - b + c = a + c - b := fun a b c => by ring
      rw [e]
      refine Eq.trans ?_ this
      unfold outE
      simp only [pflux]
      push_cast
      show _ = _
      simp only [Case.prob]
      ring
    · have := nodal_global S v u hv hcur _ _ J E hE .H d r hr
      rw [source_same S T hq]
      simp only [sgn, FieldT.idx, material, altField, comp, mul_zero, Finset.sum_const_zero, add_zero] at this
      refine Eq.trans ?_ this
      unfold outH
      simp only [pflux]
      push_cast
      simp only [Case.prob]
      ring

/-- **C138**: without sources. -/
theorem C138_rows (S : Mixed (fun e => ¬ Displaced R.n straight actual e) R w Mhat node el eps mu P c b inner outer)
    (sources : List (Option (Fields K))) (global : Fields K → Fields K) (v : Fields K) (u : State (Fin ne × Fin R.n) K) (hv : Holds v u)
    (hg : Holds (global v) (globalMult P u)) :
    ∃ E, emat R = some E ∧ ∀ (r : Fin ne × Fin R.n) (d : Fin 3),
      (Displaced R.n straight actual r.1 →
        (mixedMult R E el c b P.alpha sources [] (classify R.n ne straight actual) global v).e (num r) d = globalMult P u .E d r ∧
        (mixedMult R E el c b P.alpha sources [] (classify R.n ne straight actual) global v).h (num r) d = globalMult P u .H d r) ∧
      (¬ Displaced R.n straight actual r.1 →
        (mixedMult R E el c b P.alpha sources [] (classify R.n ne straight actual) global v).e (num r) d =
          speed R w * eps r.1 * (globalMult P u .E d r + ∑ s, P.Minv .E r s * P.Msig.mulVec (u .E d) s) ∧
        (mixedMult R E el c b P.alpha sources [] (classify R.n ne straight actual) global v).h (num r) d =
          speed R w * mu r.1 * globalMult P u .H d r) := by
  obtain ⟨E, h1, hE⟩ := emat_entry R S.ref
  refine ⟨E, h1, fun r d => ⟨fun hr => ?_, fun hr => ?_⟩⟩
  · obtain ⟨a, a'⟩ := mixed_row R E el c b P.alpha sources [] straight actual global v r d
    rw [a, a', if_pos ((isCurved_iff ..).2 hr), if_pos ((isCurved_iff ..).2 hr), (hg r d).1, (hg r d).2]
    exact ⟨rfl, rfl⟩
  · have hcur : ∀ s : Fin ne × Fin R.n, ¬ Displaced R.n straight actual s.1 → isDofCurved (classify R.n ne straight actual).2 (num s) = false := by
      intro s hs
      rw [← Bool.not_eq_true, dofCurved]
      exact hs
    have J := jumps_plain (isDofCurved (classify R.n ne straight actual).2) S v u hv
    obtain ⟨a, a'⟩ := mixed_row R E el c b P.alpha sources [] straight actual global v r d
    have hf : isCurved R.n straight actual r.1 = false := by
      rw [← Bool.not_eq_true, isCurved_iff]
      exact hr
    simp only [hf, Bool.false_eq_true, if_false, no_surface] at a a'
    rw [a, a']
    constructor
    · have := nodal_global S v u hv hcur _ _ J E hE .E d r hr
      simp only [faceTerm_zero, List.map_const', List.sum_replicate, smul_zero, mul_zero, Finset.sum_const_zero, sub_zero,
        sgn, FieldT.idx, material, altField, comp] at this
      rw [← this]
      unfold outE
      simp only [pflux]
      push_cast
      ring
    · have := nodal_global S v u hv hcur _ _ J E hE .H d r hr
      simp only [faceTerm_zero, List.map_const', List.sum_replicate, smul_zero, sub_zero,
        sgn, FieldT.idx, material, altField, comp, mul_zero, Finset.sum_const_zero, add_zero] at this
      rw [← this]
      unfold outH
      simp only [pflux]
      push_cast
      ring

/-- **C138**: triangles or tetrahedra; the elements that pass for straight are straight, of vacuum and without losses; the others have any
shape, materials and losses.  Then the nodal operator is the global one. -/
theorem C138_operator_partial (S : Mixed (fun e => ¬ Displaced R.n straight actual e) R w Mhat node el eps mu P c b inner outer)
    (hgeom : R.geom = .triangle ∨ R.geom = .tetrahedron) (heps : ∀ e : Fin ne, ¬ Displaced R.n straight actual e → eps e = 1)
    (hmu : ∀ e : Fin ne, ¬ Displaced R.n straight actual e → mu e = 1)
    (hsig : ∀ r s : Fin ne × Fin R.n, ¬ Displaced R.n straight actual r.1 → P.Msig r s = 0)
    (sources : List (Option (Fields K))) (global : Fields K → Fields K) (v : Fields K) (u : State (Fin ne × Fin R.n) K) (hv : Holds v u)
    (hg : Holds (global v) (globalMult P u)) :
    ∃ E, emat R = some E ∧
      Holds (mixedMult R E el c b P.alpha sources [] (classify R.n ne straight actual) global v) (globalMult P u) := by
  obtain ⟨E, h1, h2⟩ := C138_rows S sources global v u hv hg
  have hs : speed R w = 1 := by
    obtain ⟨a, b', _⟩ := C129_factor S.ref
    exact hgeom.elim a b'
  refine ⟨E, h1, fun r d => ?_⟩
  by_cases hr : Displaced R.n straight actual r.1
  · exact (h2 r d).1 hr
  · obtain ⟨a, a'⟩ := (h2 r d).2 hr
    rw [a, a', hs, heps _ hr, hmu _ hr]
    have : ∑ s, P.Minv .E r s * P.Msig.mulVec (u .E d) s = 0 := by
      apply Finset.sum_eq_zero
      intro s _
      by_cases he : r.1 = s.1
      · have : P.Msig.mulVec (u .E d) s = 0 := by
          show ∑ t, P.Msig s t * u .E d t = 0
          apply Finset.sum_eq_zero
          intro t _
          rw [hsig s t (by rw [← he]; exact hr), zero_mul]
        rw [this, mul_zero]
      · rw [S.local_ _ _ _ he, zero_mul]
    rw [this]
    simp

/-! ### runs -/

section runs
open Dgtd.TimeInt

/-- **C138**: under the same conditions, a run of any number of explicit steps of any sizes gives the same fields at the same times with both
operators. -/
theorem C138_run_partial {ne : Nat} {R : Ref ℝ} {w : ℝ} {Mhat : Fin R.n → Fin R.n → ℝ} {node : Fin R.nF → Fin R.nf → Fin R.n}
    {el : Nat → Elem ℝ} {eps mu : Fin ne → ℝ} {P : Prob (Fin ne × Fin R.n) ℝ} {c : Nat → Nat × Nat} {b : BdrMaps}
    {inner : List (Inner ne R.nF R.nf R.n ℝ)} {outer : List (Outer ne R.nF R.n ℝ)} {straight actual : Nat → V3 ℝ}
    (S : Mixed (fun e => ¬ Displaced R.n straight actual e) R w Mhat node el eps mu P c b inner outer)
    (hgeom : R.geom = .triangle ∨ R.geom = .tetrahedron) (heps : ∀ e : Fin ne, ¬ Displaced R.n straight actual e → eps e = 1)
    (hmu : ∀ e : Fin ne, ¬ Displaced R.n straight actual e → mu e = 1)
    (hsig : ∀ r s : Fin ne × Fin R.n, ¬ Displaced R.n straight actual r.1 → P.Msig r s = 0)
    (global : Fields ℝ → Fields ℝ) (hg : ∀ v u, Holds v u → Holds (global v) (globalMult P u))
    {T : Type} (q : Implicit.Sdirk ℝ) (x : Vec) (dts : List ℝ) (t : ℝ) (s : T) : ∃ E, emat R = some E ∧
      TimeInt.run q .rk4 (explicitTdo fun _ u => globalMult P u) dts (values x) t s =
        (TimeInt.run q .rk4 (explicitTdo fun _ y => ofFields (mixedMult R E el c b P.alpha [] [] (classify R.n ne straight actual) global
          (toFields y))) dts x t s).map fun y => (values y.1, y.2) := by
  obtain ⟨E, h1, hE⟩ := emat_entry R S.ref
  refine ⟨E, h1, Par.run_map q values ?_ dts x t s⟩
  intro _ y
  have hh : Holds (toFields y) (values (ne := ne) (n := R.n) y) := fun r d => ⟨rfl, rfl⟩
  obtain ⟨E', h1', h2⟩ := C138_operator_partial S hgeom heps hmu hsig [] global (toFields y) _ hh (hg _ _ hh)
  obtain rfl : E' = E := by rw [h1] at h1'; exact (Option.some.inj h1').symm
  funext f d r
  cases f
  · exact ((h2 r d).1).symm
  · exact ((h2 r d).2).symm

end runs

/-! ### what the tolerance misses -/

/-- **C138**: an element whose nodes are not displaced is not noticed to be curved, whatever its shape between them. -/
theorem C138_unseen (n ne : Nat) (straight actual : Nat → V3 K) (h : ∀ i, i < ne * n → straight i = actual i) :
    (classify n ne straight actual).2 = [] ∧ (classify n ne straight actual).1 = List.range ne := by
  have hf : ∀ e < ne, isCurved n straight actual e = false := by
    intro e he
    rw [← Bool.not_eq_true, isCurved_iff]
    rintro ⟨k, hk, d, hd⟩
    have : e * n + k < ne * n := by
      have := Nat.mul_le_mul_right n (show e + 1 ≤ ne from he)
      rw [Nat.add_mul, Nat.one_mul] at this
      omega
    rw [h _ this, sub_self, abs_zero] at hd
    have : (0 : K) < 1 / 100000 := by positivity
    linarith
  rw [classify_eq]
  constructor
  · simp only [List.map_eq_nil_iff, List.filter_eq_nil_iff, List.mem_range]
    intro e he
    simp [hf e he]
  · simp only [List.filter_eq_self, List.mem_range]
    intro e he
    simp [hf e he]

/-- **C138 fails** for small geometries: every mesh, however curved, passes for straight if its unit of length is large enough. -/
theorem C138_scale_fails (n ne : Nat) (straight actual : Nat → V3 K) : ∃ s : K, 0 < s ∧ ∀ t, 0 < t → t ≤ s →
    (classify n ne (fun i d => t * straight i d) (fun i d => t * actual i d)).2 = [] := by
  obtain ⟨B, hB0, hB⟩ : ∃ B : K, 0 < B ∧ ∀ i ∈ List.range (ne * n), ∀ d : Fin 3, |straight i d - actual i d| ≤ B := by
    induction List.range (ne * n) with
    | nil => exact ⟨1, one_pos, by simp⟩
    | cons i l ih =>
      obtain ⟨B, h0, h⟩ := ih
      refine ⟨B + (|straight i 0 - actual i 0| + |straight i 1 - actual i 1| + |straight i 2 - actual i 2|), by positivity, ?_⟩
      intro i' hi' d
      have p0 := abs_nonneg (straight i 0 - actual i 0)
      have p1 := abs_nonneg (straight i 1 - actual i 1)
      have p2 := abs_nonneg (straight i 2 - actual i 2)
      rcases List.mem_cons.1 hi' with rfl | hi'
      · fin_cases d <;> simp only [Fin.zero_eta, Fin.mk_one, Fin.reduceFinMk] <;> linarith
      · have := h i' hi' d
        linarith
  refine ⟨1 / (100000 * B), by positivity, fun t ht hts => ?_⟩
  have hf : ∀ e < ne, isCurved n (fun i d => t * straight i d) (fun i d => t * actual i d) e = false := by
    intro e he
    rw [← Bool.not_eq_true, isCurved_iff]
    rintro ⟨k, hk, d, hd⟩
    have hlt : e * n + k < ne * n := by
      have := Nat.mul_le_mul_right n (show e + 1 ≤ ne from he)
      rw [Nat.add_mul, Nat.one_mul] at this
      omega
    have h1 := hB _ (List.mem_range.2 hlt) d
    rw [← mul_sub, abs_mul, abs_of_pos ht] at hd
    have h2 : t * |straight (e * n + k) d - actual (e * n + k) d| ≤ 1 / (100000 * B) * B :=
      mul_le_mul hts h1 (abs_nonneg _) (by positivity)
    have h3 : 1 / (100000 * B) * B = 1 / 100000 := by field_simp
    rw [h3] at h2
    exact absurd hd (not_lt.mpr h2)
  rw [classify_eq]
  simp only [List.map_eq_nil_iff, List.filter_eq_nil_iff, List.mem_range]
  intro e he
  simp [hf e he]

/-! ### an instance: three triangles of second order, one of them with a curved side -/

section instances

/-- Entry of a matrix given by rows. -/
def ent (M : List (List ℚ)) (i j : Nat) : ℚ := (M.getD i []).getD j 0

/-- The three shape functions of second order along a side. -/
def sideShape (a b c : Nat) (t : ℚ) (i : Nat) : ℚ :=
  if i = a then (1 - t) * (1 - 2 * t) else if i = b then 4 * t * (1 - t) else if i = c then t * (2 * t - 1) else 0

/-- Boole's rule on a side with the nodes `a b c`; `nor` at each point. -/
def sidePts (a b c : Nat) (W : ℚ) (nor : ℚ → List ℚ) (sh2 : ℚ → Nat → ℚ) : List (Pt ℚ) :=
  [(0, 7 / 90), (1 / 4, 32 / 90), (1 / 2, 12 / 90), (3 / 4, 32 / 90), (1, 7 / 90)].map fun q : ℚ × ℚ =>
    ⟨q.2, W, nor q.1, sideShape a b c q.1, sh2 q.1⟩

/-- Triangles of second order. -/
abbrev tri2Ref : Ref ℚ where
  geom := .triangle
  dim := 2
  n := 6
  nF := 3
  nf := 3
  inv := ent [[18, -3/4, 3, -3/4, 3, 3], [-3/4, 39/8, -3/4, -27/16, -27/16, 3], [3, -3/4, 18, 3, -3/4, 3],
    [-3/4, -27/16, 3, 39/8, -27/16, -3/4], [3, -27/16, -3/4, -27/16, 39/8, -3/4], [3, 3, 3, -3/4, -3/4, 18]]
  faces := fun f => ⟨6, 0, fun _ => (), match f with
    | 0 => sidePts 0 1 2 1 (fun _ => [0, -1]) fun _ _ => 0
    | 1 => sidePts 2 4 5 1 (fun _ => [1, 1]) fun _ _ => 0
    | _ => sidePts 0 3 5 1 (fun _ => [-1, 0]) fun _ _ => 0⟩

def tri2Node : Fin 3 → Fin 3 → Fin 6 := ![![0, 1, 2], ![2, 4, 5], ![0, 3, 5]]

def tri2Mass : Fin 6 → Fin 6 → ℚ := fun i j => ent [[1/60, 0, -1/360, 0, -1/90, -1/360], [0, 4/45, 0, 2/45, 2/45, -1/90],
  [-1/360, 0, 1/60, -1/90, 0, -1/360], [0, 2/45, -1/90, 4/45, 2/45, 0], [-1/90, 2/45, 0, 2/45, 4/45, 0],
  [-1/360, -1/90, -1/360, 0, 0, 1/60]] i j

/-- Derivatives on the triangle `(0, 0), (3, 0), (0, 4)`. -/
def flatD (d : Fin 3) : List (List ℚ) := match d with
  | 0 => [[-4/15, 2/5, -2/15, 2/15, -2/15, 0], [-2/5, 0, 2/5, -8/15, 8/15, 0], [2/15, -2/5, 4/15, 2/15, -2/15, 0],
    [-2/5, 8/15, -2/15, -16/15, 16/15, 0], [2/15, -8/15, 2/5, -16/15, 16/15, 0], [2/15, 0, -2/15, -4/15, 4/15, 0]]
  | 1 => [[-1/5, 1/10, 0, 3/10, -1/10, -1/10], [-3/10, -4/5, 0, 2/5, 4/5, -1/10], [1/10, -1/5, 0, 0, 1/5, -1/10],
    [-3/10, -2/5, 0, 0, 2/5, 3/10], [1/10, -4/5, 0, -2/5, 4/5, 3/10], [1/10, 1/10, 0, -3/10, -1/10, 1/5]]
  | _ => []

/-- Derivatives on the triangle `x = 3 - 3 ξ`, `y = 4 - 4 η + ξ (1 - ξ - η)`. -/
def bentD (d : Fin 3) : List (List ℚ) := match d with
  | 0 => [[19/60, -2/5, 53/360, -1/5, 11/90, 1/72], [7/15, 0, -7/15, 8/15, -8/15, 0], [-53/360, 2/5, -19/60, -11/90, 1/5, -1/72],
    [7/15, -8/15, 11/90, 16/15, -10/9, -1/90], [-11/90, 8/15, -7/15, 10/9, -16/15, 1/90], [-53/360, 0, 53/360, 5/18, -5/18, 0]]
  | 1 => [[1/5, -1/10, 0, -3/10, 1/10, 1/10], [3/10, 4/5, 0, -2/5, -4/5, 1/10], [-1/10, 1/5, 0, 0, -1/5, 1/10],
    [3/10, 2/5, 0, 0, -2/5, -3/10], [-1/10, 4/5, 0, 2/5, -4/5, -3/10], [-1/10, -1/10, 0, 3/10, 1/10, -1/5]]
  | _ => []

/-- Inverses of the mass matrices of both. -/
def flatInv : List (List ℚ) := [[6, -1/4, 1, -1/4, 1, 1], [-1/4, 13/8, -1/4, -9/16, -9/16, 1], [1, -1/4, 6, 1, -1/4, 1],
  [-1/4, -9/16, 1, 13/8, -9/16, -1/4], [1, -9/16, -1/4, -9/16, 13/8, -1/4], [1, 1, 1, -1/4, -1/4, 6]]

def bentInv : List (List ℚ) :=
  [[39098824/6745893, -438153/2248631, 2740/3021, -21055/87609, 2102508/2248631, 6508276/6745893],
   [-438153/2248631, 6604841/4497262, -255/1007, -62505/116812, -4399727/8994524, 2102508/2248631],
   [2740/3021, -255/1007, 15400/3021, 2740/3021, -255/1007, 2740/3021],
   [-21055/87609, -62505/116812, 2740/3021, 275095/175218, -62505/116812, -21055/87609],
   [2102508/2248631, -4399727/8994524, -255/1007, -62505/116812, 6604841/4497262, -438153/2248631],
   [6508276/6745893, 2102508/2248631, 2740/3021, -21055/87609, -438153/2248631, 39098824/6745893]]

/-- The mass matrix of the curved one (here also that of its losses). -/
def bentMass : List (List ℚ) := [[29/140, -1/105, -4/105, -1/210, -31/210, -9/280], [-1/105, 124/105, 1/70, 4/7, 62/105, -31/210],
  [-4/105, 1/70, 33/140, -29/210, 1/70, -4/105], [-1/210, 4/7, -29/210, 116/105, 4/7, -1/210],
  [-31/210, 62/105, 1/70, 4/7, 124/105, -1/105], [-9/280, -31/210, -4/105, -1/210, -1/105, 29/140]]

example : ∀ i j : Fin 6, (∑ k : Fin 6, ent bentInv i k * ent bentMass k j) = if i = j then 1 else 0 := by decide +kernel

/-- Two straight triangles, the third being the first turned by half a turn; of the second only the diagonal is described. -/
def bentElem (e : Nat) : Elem ℚ :=
  if e = 1 then
    ⟨0, 0, fun _ _ _ => 0, fun f => if f = 1 then 5 else 0, fun f d => if f = 1 then (match d.val with | 0 => -4 | 1 => -3 | _ => 0) else 0⟩
  else
    let s : ℚ := if e = 0 then 1 else -1
    { vol := 6
      J := 12
      D := fun d i j => s * ent (flatD d) i j
      sJ := fun f => match f with
        | 0 => 3
        | 1 => 5
        | _ => 4
      nor := fun f d => s * (match f, d.val with
        | 0, 1 => -3
        | 1, 0 => 4
        | 1, 1 => 3
        | 2, 0 => -4
        | _, _ => 0) }

def bentConn (p : Nat) : Nat × Nat :=
  ([(0, 0), (1, 1), (2, 2), (2, 11), (4, 10), (5, 8), (0, 17), (3, 15), (5, 12),
    (6, 6), (7, 7), (8, 8), (8, 5), (10, 4), (11, 2), (6, 6), (9, 9), (11, 11),
    (12, 12), (13, 13), (14, 14), (14, 14), (16, 16), (17, 17), (12, 5), (15, 3), (17, 0)] : List (Nat × Nat)).getD p (0, 0)

def bentBdr : BdrMaps := ⟨[(0, 0), (1, 1), (2, 2)], [(15, 6), (16, 9), (17, 11)], [(18, 12), (19, 13), (20, 14)], [], [], []⟩

def bentDofs (a b : Fin 3) (i : Nat) : Fin 3 × Fin 6 := if i < 6 then (a, ⟨i % 6, Nat.mod_lt _ (by decide)⟩) else (b, ⟨i % 6, Nat.mod_lt _ (by decide)⟩)

/-- The diagonal, and the side between the straight triangles. -/
def bentInner : List (Inner 3 3 3 6 ℚ) :=
  [⟨0, 1, 1, 1, Equiv.swap 0 2, none, ⟨6, 6, bentDofs 0 1, sidePts 2 4 5 5 (fun _ => [4, 3]) (sideShape 5 4 2)⟩⟩,
   ⟨0, 2, 2, 2, Equiv.swap 0 2, none, ⟨6, 6, bentDofs 0 2, sidePts 0 3 5 4 (fun _ => [-4, 0]) (sideShape 5 3 0)⟩⟩]

theorem bentInner_mem {q : Inner 3 3 3 6 ℚ} (h : q ∈ bentInner) :
    q = ⟨0, 1, 1, 1, Equiv.swap 0 2, none, ⟨6, 6, bentDofs 0 1, sidePts 2 4 5 5 (fun _ => [4, 3]) (sideShape 5 4 2)⟩⟩ ∨
    q = ⟨0, 2, 2, 2, Equiv.swap 0 2, none, ⟨6, 6, bentDofs 0 2, sidePts 0 3 5 4 (fun _ => [-4, 0]) (sideShape 5 3 0)⟩⟩ := by
  simpa [bentInner] using h

/-- Electric conductor, magnetic conductor and absorbing; the curved side is left free (there the size of the normal, which is irrational,
is not read). -/
def bentOuter : List (Outer 3 3 6 ℚ) :=
  [⟨0, 0, some .PEC, ⟨6, 0, bentDofs 0 0, sidePts 0 1 2 3 (fun _ => [0, -3]) fun _ _ => 0⟩⟩,
   ⟨1, 0, none, ⟨6, 0, bentDofs 1 1, sidePts 0 1 2 3 (fun t => [1 - 2 * t, 3]) fun _ _ => 0⟩⟩,
   ⟨1, 2, some .PMC, ⟨6, 0, bentDofs 1 1, sidePts 0 3 5 4 (fun _ => [4, 0]) fun _ _ => 0⟩⟩,
   ⟨2, 0, some .SMA, ⟨6, 0, bentDofs 2 2, sidePts 0 1 2 3 (fun _ => [0, 3]) fun _ _ => 0⟩⟩,
   ⟨2, 1, none, ⟨6, 0, bentDofs 2 2, sidePts 2 4 5 5 (fun _ => [-4, -3]) fun _ _ => 0⟩⟩]

theorem bentOuter_mem {q : Outer 3 3 6 ℚ} (h : q ∈ bentOuter) :
    q = ⟨0, 0, some .PEC, ⟨6, 0, bentDofs 0 0, sidePts 0 1 2 3 (fun _ => [0, -3]) fun _ _ => 0⟩⟩ ∨
    q = ⟨1, 0, none, ⟨6, 0, bentDofs 1 1, sidePts 0 1 2 3 (fun t => [1 - 2 * t, 3]) fun _ _ => 0⟩⟩ ∨
    q = ⟨1, 2, some .PMC, ⟨6, 0, bentDofs 1 1, sidePts 0 3 5 4 (fun _ => [4, 0]) fun _ _ => 0⟩⟩ ∨
    q = ⟨2, 0, some .SMA, ⟨6, 0, bentDofs 2 2, sidePts 0 1 2 3 (fun _ => [0, 3]) fun _ _ => 0⟩⟩ ∨
    q = ⟨2, 1, none, ⟨6, 0, bentDofs 2 2, sidePts 2 4 5 5 (fun _ => [-4, -3]) fun _ _ => 0⟩⟩ := by
  simpa [bentOuter] using h

/-- The curved element is lossy. -/
def bentCase : Op.Case (Fin 3 × Fin 6) ℚ where
  dim := 2
  alpha := 1
  interior := bentInner.map fun q => ⟨none, decide (q.f1 = 2), q.face⟩
  bdr := bentOuter.map fun q => (q.cond, q.face)
  Minv := fun _ r s => if r.1 ≠ s.1 then 0 else if r.1 = 1 then ent bentInv r.2 s.2 else ent flatInv r.2 s.2
  Msig := fun r s => if r.1 = 1 ∧ s.1 = 1 then ent bentMass r.2 s.2 else 0
  D := fun d r s => if r.1 ≠ s.1 then 0 else if r.1 = 1 then ent (bentD d) r.2 s.2 else (if r.1 = 0 then 1 else -1) * ent (flatD d) r.2 s.2
  sub := [(0, 0), (0, 1), (0, 2), (0, 3), (0, 4), (0, 5), (2, 0), (2, 1), (2, 2), (2, 3), (2, 4), (2, 5)]
  sfSub := some [(2, 0), (2, 1), (2, 2), (2, 3), (2, 4), (2, 5)]

/-- Positions of the nodes of the straightened mesh and of the mesh. -/
def flatPos (i : Nat) : V3 ℚ :=
  ([![0, 0, 0], ![3/2, 0, 0], ![3, 0, 0], ![0, 2, 0], ![3/2, 2, 0], ![0, 4, 0],
    ![3, 4, 0], ![3/2, 4, 0], ![0, 4, 0], ![3, 2, 0], ![3/2, 2, 0], ![3, 0, 0],
    ![0, 4, 0], ![-3/2, 4, 0], ![-3, 4, 0], ![0, 2, 0], ![-3/2, 2, 0], ![0, 0, 0]] : List (V3 ℚ)).getD i 0

def bentPos (i : Nat) : V3 ℚ := if i = 7 then ![3/2, 17/4, 0] else flatPos i

example : classify 6 3 flatPos bentPos = ([0, 2], [(1, [6, 7, 8, 9, 10, 11])]) := by decide +kernel

/-- Only the second element is curved. -/
theorem bent_displaced (e : Fin 3) : ¬ Displaced 6 flatPos bentPos e ↔ e = 0 ∨ e = 2 := by
  rw [← isCurved_iff]
  revert e
  decide +kernel

theorem bentMixed : Mixed (fun e => ¬ Displaced tri2Ref.n flatPos bentPos e) tri2Ref 4 tri2Mass tri2Node bentElem (fun _ => 1) (fun _ => 1)
    bentCase.prob bentConn bentBdr bentInner bentOuter where
  ref :=
    { mesh := rfl
      inv := by decide +kernel
      mono := by decide +kernel
      one := fun _ => ⟨rfl, rfl⟩
      off := by decide +kernel
      seen := by decide +kernel }
  dim := rfl
  local_ := by
    intro f r c h
    show (if r.1 ≠ c.1 then (0 : ℚ) else _) = 0
    rw [if_pos h]
  J := by intro e he; rcases (bent_displaced e).1 he with rfl | rfl <;> decide +kernel
  epsPos := fun _ _ => one_ne_zero
  muPos := fun _ _ => one_ne_zero
  vol := by intro e he; rcases (bent_displaced e).1 he with rfl | rfl <;> decide +kernel
  deriv := by
    rintro d ⟨e, i⟩ c he
    rcases (bent_displaced e).1 he with rfl | rfl <;>
    · clear he
      revert d i c
      decide +kernel
  invE := by intro e he; rcases (bent_displaced e).1 he with rfl | rfl <;> decide +kernel
  invH := by intro e he; rcases (bent_displaced e).1 he with rfl | rfl <;> decide +kernel
  faces := ⟨rfl, rfl⟩
  cover := by decide +kernel
  inside := by
    intro q hq
    rcases bentInner_mem hq with rfl | rfl <;> exact ⟨rfl, rfl, by decide +kernel, by decide +kernel, by decide +kernel⟩
  outside := by
    intro q hq
    rcases bentOuter_mem hq with rfl | rfl | rfl | rfl | rfl <;> exact ⟨rfl, rfl, by decide +kernel, by decide +kernel⟩
  innerOk := by
    intro q hq _
    rcases bentInner_mem hq with rfl | rfl <;>
    exact
      { size := by decide +kernel
        dofs1 := by decide +kernel
        dofs2 := by decide +kernel
        normal := by decide +kernel
        off1 := by decide +kernel
        off2 := by decide +kernel
        match_ := by decide +kernel
        quad1 := by decide +kernel
        quad2 := by decide +kernel
        conn1 := by decide +kernel
        conn2 := by decide +kernel }
  outerOk := by
    intro q hq he
    have h0 := (bent_displaced q.e).1 he
    rcases bentOuter_mem hq with rfl | rfl | rfl | rfl | rfl
    case inr.inl => exact absurd h0 (by decide)
    case inr.inr.inl => exact absurd h0 (by decide)
    all_goals exact
      { size := by decide +kernel
        dofs := by decide +kernel
        normal := by decide +kernel
        off := by decide +kernel
        quad := by decide +kernel
        conn := by decide +kernel }
  once := by decide +kernel
  free := by
    intro q hq
    rcases bentInner_mem hq with rfl | rfl <;> exact ⟨rfl, fun _ => by decide +kernel⟩
  conds := by
    intro q hq he
    have h0 := (bent_displaced q.e).1 he
    rcases bentOuter_mem hq with rfl | rfl | rfl | rfl | rfl
    · show ∀ k : Fin 3, _ ∈ bentBdr.pec
      decide +kernel
    · exact absurd h0 (by decide)
    · exact absurd h0 (by decide)
    · exact ⟨rfl, show ∀ k : Fin 3, _ ∈ bentBdr.sma by decide +kernel⟩
    · show ∀ k : Fin 3, _ ∉ listed bentBdr
      decide +kernel

def bentU : State (Fin 3 × Fin 6) ℚ := fun f d r => f.idx * 3 + d.val * d.val + r.1.val * 2 + (r.2.val * r.2.val : Nat)

/-- The product by the global operator, in the numbering of the nodal one. -/
def bentGlobal (v : Fields ℚ) : Fields ℚ :=
  fieldsOf (by decide) (by decide) (globalMult bentCase.prob fun f d r => match f with | .E => v.e (num r) d | .H => v.h (num r) d)

theorem bentGlobal_holds (v : Fields ℚ) (u : State (Fin 3 × Fin 6) ℚ) (h : Holds v u) : Holds (bentGlobal v) (globalMult bentCase.prob u) := by
  have : (fun (f : FieldT) (d : Fin 3) (r : Fin 3 × Fin 6) => match f with
      | .E => v.e (num r) d
      | .H => v.h (num r) d) = u := by
    funext f d r
    cases f
    · exact (h r d).1
    · exact (h r d).2
  unfold bentGlobal
  rw [this]
  exact fieldsOf_holds _ _ _

/-- The instance meets the hypotheses of `C138_operator_partial`. -/
example : ∃ E, emat tri2Ref = some E ∧
    Holds (mixedMult tri2Ref E bentElem bentConn bentBdr 1 [] [] (classify 6 3 flatPos bentPos) bentGlobal
      (fieldsOf (by decide) (by decide) bentU)) (globalMult bentCase.prob bentU) :=
  C138_operator_partial bentMixed (.inl rfl) (fun _ _ => rfl) (fun _ _ => rfl)
    (by
      intro r s hr
      have := (bent_displaced r.1).1 hr
      show (if r.1 = 1 ∧ s.1 = 1 then ent bentMass r.2 s.2 else 0) = 0
      refine if_neg fun h => ?_
      rw [h.1] at this
      exact absurd this (by decide)) [] bentGlobal _ bentU (fieldsOf_holds _ _ _) (bentGlobal_holds _ _ (fieldsOf_holds _ _ _))

/-- Losses of the curved element are seen. -/
example : (bentCase.prob.Msig.mulVec (bentU .E 1)) (1, 1) ≠ 0 := by decide +kernel

/-- The side between the straight triangles is the total-field surface, the first triangle inside. -/
def bentSurf (q : Inner 3 3 3 6 ℚ) : Option Bool := if q.f1 = 2 then some true else none

/-- Values of a wave at the nodes. -/
def bentWave : State (Fin 3 × Fin 6) ℚ := fun f d r => (f.idx + d.val + 1) * (flatPos (num r) 0 + 2 * flatPos (num r) 1)

/-- The instance meets the hypotheses of `C138_waves`. -/
theorem bentSurface : SurfaceOk (R := tri2Ref) tri2Node bentInner bentOuter bentSurf bentCase [⟨26, 6, 0⟩, ⟨25, 7, 3⟩, ⟨24, 8, 5⟩]
    [some (fieldsOf (by decide) (by decide) bentWave)] [bentWave] where
  marked := rfl
  once := by decide +kernel
  off := by
    intro q hq
    rcases bentInner_mem hq with rfl | rfl
    · intro _; decide +kernel
    · intro h; exact absurd h (by decide)
  outerOff := by
    intro q hq
    rcases bentOuter_mem hq with rfl | rfl | rfl | rfl | rfl <;> decide +kernel
  on := by
    intro q hq s hs k
    rcases bentInner_mem hq with rfl | rfl
    · exact absurd hs (by simp [bentSurf])
    obtain rfl : true = s := by simpa [bentSurf] using hs
    match k with
    | 0 => exact ⟨⟨26, 6, 0⟩, by simp, by decide +kernel, by decide +kernel⟩
    | 1 => exact ⟨⟨25, 7, 3⟩, by simp, by decide +kernel, by decide +kernel⟩
    | 2 => exact ⟨⟨24, 8, 5⟩, by simp, by decide +kernel, by decide +kernel⟩
  sides := by
    refine ⟨_, rfl, ?_⟩
    intro q hq s hs
    rcases bentInner_mem hq with rfl | rfl
    · exact absurd hs (by simp [bentSurf])
    obtain rfl : true = s := by simpa [bentSurf] using hs
    decide +kernel

example : checkTFSF (classify 6 3 flatPos bentPos).2 (surfaceElems (R := tri2Ref) bentSurf bentInner) = true := by decide +kernel

example : checkTFSF (classify 6 3 flatPos bentPos).2 (surfaceElems (R := tri2Ref) (fun _ => some true) bentInner) = false := by decide +kernel

example : skip2 ≤ sourceNorm2 bentCase (sourceField bentCase [bentWave]) := by decide +kernel

/-! ### a curved triangle of first order -/

/-- A rule of third degree on the reference triangle. -/
def rule3 : List (ℚ × ℚ × ℚ) := [(-27 / 96, 1 / 3, 1 / 3), (25 / 96, 1 / 5, 1 / 5), (25 / 96, 3 / 5, 1 / 5), (25 / 96, 1 / 5, 3 / 5)]

/-- Barycentric coordinates: the shape functions of first order. -/
def bary (i : Fin 3) (x y : ℚ) : ℚ := match i with | 0 => 1 - x - y | 1 => x | _ => y

/-- The image of the reference triangle by `x = ξ + ξ η`, `y = η + ξ η`: one side is bent, the vertices are where they were. -/
def bowMap (x y : ℚ) : V3 ℚ := ![x + x * y, y + x * y, 0]

/-- Its mass matrix: the Jacobian is `1 + ξ + η`. -/
def bowMass (i j : Fin 3) : ℚ := (rule3.map fun q => q.1 * (bary i q.2.1 q.2.2 * bary j q.2.1 q.2.2 * (1 + q.2.1 + q.2.2))).sum

/-- Its derivative matrices: the gradient of a shape function times the cofactors of the Jacobian matrix. -/
def bowD (d : Fin 3) (i j : Fin 3) : ℚ := (rule3.map fun q =>
  let x := q.2.1
  let y := q.2.2
  let gx : ℚ := match j with | 0 => -1 | 1 => 1 | _ => 0
  let gy : ℚ := match j with | 0 => -1 | 1 => 0 | _ => 1
  q.1 * (bary i x y * (match d with
    | 0 => gx * (1 + x) - gy * y
    | 1 => -gx * x + gy * (1 + y)
    | _ => 0))).sum

def bowProb : Prob (Fin 1 × Fin 3) ℚ where
  dim := 2
  alpha := 0
  interior := []
  bdr := []
  Minv := fun _ r s => ent [[324/25, -96/25, -96/25], [-96/25, 752/75, -248/75], [-96/25, -248/75, 752/75]] r.2 s.2
  Msig := 0
  D := fun d r s => bowD d r.2 s.2

example : ∀ f (i j : Fin 3), (∑ k : Fin 3, bowProb.Minv f (0, i) (0, k) * bowMass k j) = if i = j then 1 else 0 := by
  intro f; cases f <;> decide +kernel

/-- What the nodal operator reads: the volume `5 / 6` and these derivatives. -/
def bowElem : Elem ℚ := ⟨5 / 6, 1, fun d i j => bowD d (Fin.ofNat 3 i) (Fin.ofNat 3 j), fun _ => 1, fun _ _ => 0⟩

example : (rule3.map fun q => q.1 * (1 + q.2.1 + q.2.2)).sum = bowElem.vol := by decide +kernel

def bowU : State (Fin 1 × Fin 3) ℚ := fun f d r => f.idx + d.val + (r.2.val * r.2.val : Nat)

/-- Positions of the three nodes, the vertices. -/
def vertex (i : Nat) : ℚ × ℚ := match i with | 0 => (0, 0) | 1 => (1, 0) | _ => (0, 1)

/-- **C138 fails** in first order: the nodes are the vertices, which no curvature displaces; the curved triangle passes for straight, and
the two operators differ on it (no boundary condition, vacuum). -/
theorem C138_first_order_fails : ∃ u : State (Fin 1 × Fin 3) ℚ, ∃ v, Holds v u ∧
    (classify 3 1 (fun i => ![(vertex i).1, (vertex i).2, 0]) fun i => bowMap (vertex i).1 (vertex i).2) = ([0], []) ∧
    ∃ E, emat triRef = some E ∧ ∀ global : Fields ℚ → Fields ℚ,
      ¬ Holds (mixedMult triRef E (fun _ => bowElem) (fun p => ([0, 1, 1, 2, 0, 2].getD p 0, [0, 1, 1, 2, 0, 2].getD p 0))
        ⟨[], [], [], [], [], []⟩ 0 [] []
        (classify 3 1 (fun i => ![(vertex i).1, (vertex i).2, 0]) fun i => bowMap (vertex i).1 (vertex i).2) global v) (globalMult bowProb u) := by
  have hc : (classify 3 1 (fun i => ![(vertex i).1, (vertex i).2, 0]) fun i => bowMap (vertex i).1 (vertex i).2) = ([0], []) := by decide +kernel
  refine ⟨bowU, _, fieldsOf_holds (by decide) (by decide) bowU, hc, (emat triRef).get (by decide +kernel), by simp, fun global hh => ?_⟩
  have := (hh (0, 0) 2).1
  rw [hc] at this
  revert this
  unfold mixedMult
  simp only [List.foldl_nil]
  decide +kernel

/-- The middle of the bent side is displaced by a quarter. -/
example : bowMap (1 / 2) (1 / 2) = ![3 / 4, 3 / 4, 0] := by decide +kernel

end instances

end Dgtd.Nodal
