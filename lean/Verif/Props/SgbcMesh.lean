/-
C23: the thin-layer mesh has the declared layers.
-/
import Verif.Lemmas.SgbcMesh
import Verif.Spec.SgbcMesh
import Mathlib.Data.Rat.Defs

set_option linter.unusedSectionVars false

namespace Dgtd.Sgbc

open Spec

variable {K : Type} [Field K] {M : Type}

/-- A three-element, two-layer stack used in the examples. -/
def exLayers : List (Layer ℚ String) := [⟨"metal", 1, 2, 1, 0⟩, ⟨"foam", 3, 1, 2, 0⟩]

/-- **C23**, size: the mesh is built whenever there is at least one segment; it has the elements of all the
layers plus `ng` ghost elements at each end, each element joins consecutive vertices, and every element has an
attribute. -/
theorem C23_elements (ls : List (Layer K M)) (ng : Nat) (h : 0 < allElems ls) :
    ∃ m, buildMesh ls ng = some m ∧
      m.verts.length = 2 * ng + allElems ls + 1 ∧
      m.attrs.length = 2 * ng + allElems ls ∧
      m.elems = (List.range (2 * ng + allElems ls)).map (fun i => (i, i + 1)) := by
  have hs : totalSegments ls = allElems ls := totalSegments_eq ls
  obtain ⟨as, e, hl, -⟩ := attributes_eq ls ng (List.replicate ((vertices ls ng).length - 1) 1)
    (by simp only [List.length_replicate, vertices_length, hs]; simp [allElems])
  refine ⟨⟨vertices ls ng, (List.range ((vertices ls ng).length - 1)).map (fun i => (i, i + 1)), as, _⟩,
    by simp [buildMesh, hs, h.ne', e]; rfl, ?_, ?_, ?_⟩
  · simp [vertices_length, hs]
  · simp [hl, vertices_length, hs]
  · simp [vertices_length, hs]

/-- Without any segment no mesh is built. -/
theorem C23_needs_a_segment (ls : List (Layer K M)) (ng : Nat) (h : allElems ls = 0) :
    buildMesh ls ng = none := by
  simp [buildMesh, totalSegments_eq, show (ls.map (·.segs)).sum = 0 from h]

lemma build_verts {ls : List (Layer K M)} {ng : Nat} {m : Mesh K} (h : buildMesh ls ng = some m) :
    m.verts = vertices ls ng := by
  unfold buildMesh at h
  split at h
  · exact absurd h (by simp)
  · simp only [Option.bind_eq_bind, Option.bind_eq_some_iff] at h
    obtain ⟨as, -, h⟩ := h
    simp at h
    rw [← h]

lemma build_attrs {ls : List (Layer K M)} {ng : Nat} {m : Mesh K} (h : buildMesh ls ng = some m) :
    attributes ls ng (List.replicate ((vertices ls ng).length - 1) 1) = some m.attrs := by
  unfold buildMesh at h
  split at h
  · exact absurd h (by simp)
  · simp only [Option.bind_eq_bind, Option.bind_eq_some_iff] at h
    obtain ⟨as, e, h⟩ := h
    simp at h
    rw [← h]; exact e

lemma build_bdr {ls : List (Layer K M)} {ng : Nat} {m : Mesh K} (h : buildMesh ls ng = some m) :
    m.bdr = [(0, 1), ((vertices ls ng).length - 1, 2), (ng, 3), (ng + totalSegments ls, 4)] := by
  unfold buildMesh at h
  split at h
  · exact absurd h (by simp)
  · simp only [Option.bind_eq_bind, Option.bind_eq_some_iff] at h
    obtain ⟨as, e, h⟩ := h
    simp at h
    rw [← h]

section Order
variable [LinearOrder K] [IsStrictOrderedRing K]

/-- **C23**, geometry: the boundaries of the segments of layer `li` are equally spaced over the width of this
layer, which starts where the previous layers end. -/
theorem C23_layer_vertices (ls : List (Layer K M)) (ng : Nat) (m : Mesh K) (hm : buildMesh ls ng = some m)
    (hseg : ∀ l ∈ ls, 0 < l.segs) :
    ∃ x0 : K, m.verts[ng]? = some x0 ∧
      ∀ li l, ls[li]? = some l → ∀ s, s ≤ l.segs →
        m.verts[ng + elemsBefore ls li + s]? = some (x0 + depthBefore ls li + (s : K) * (l.width / l.segs)) := by
  have hv := build_verts hm
  rw [vertices_eq, List.range_succ, List.map_append, List.map_singleton] at hv
  refine ⟨(ng : K) * (totalWidth ls / totalSegments ls), ?_, ?_⟩
  · rw [hv, List.append_assoc, List.append_assoc, List.getElem?_append_right (by simp)]
    simp
  · intro li l hl s hs
    have := layerVerts_get ls hseg ((ng : K) * (totalWidth ls / totalSegments ls)) li l hl s hs
    rw [hv, List.append_assoc, List.append_assoc, List.getElem?_append_right (by simp; omega)]
    simp only [List.length_map, List.length_range]
    rw [show ng + elemsBefore ls li + s - ng = ((ls.take li).map (·.segs)).sum + s by
      simp [elemsBefore]; omega]
    rw [← List.append_assoc, List.getElem?_append_left]
    · simpa [depthBefore] using this
    · have := (List.getElem?_eq_some_iff.1 this).1
      simpa using this

/-- **C23**, ghosts: the ghost elements all have the mean element width of the stack, on both sides of it, and
the stack occupies exactly its declared thickness between the vertices `ng` and `ng + (number of elements)`. -/
theorem C23_ghost_vertices (ls : List (Layer K M)) (ng : Nat) (m : Mesh K) (hm : buildMesh ls ng = some m)
    (hseg : ∀ l ∈ ls, 0 < l.segs) (i : Nat) (hi : i ≤ ng) :
    m.verts[i]? = some ((i : K) * (thickness ls / allElems ls)) ∧
    m.verts[ng + allElems ls + i]? =
      some ((ng : K) * (thickness ls / allElems ls) + thickness ls + (i : K) * (thickness ls / allElems ls)) := by
  have hv := build_verts hm
  rw [vertices_eq] at hv
  have hW : totalWidth ls = thickness ls := totalWidth_eq ls
  have hN : totalSegments ls = allElems ls := totalSegments_eq ls
  rw [hW, hN] at hv
  constructor
  · rw [hv, List.append_assoc, List.getElem?_append_left (by simp; omega)]
    simp [show i < ng + 1 by omega]
  · cases i with
    | succ i =>
      rw [hv, List.getElem?_append_right (by simp [layerVerts_length, allElems]; omega)]
      simp only [List.length_append, List.length_map, List.length_range, layerVerts_length]
      rw [show ng + allElems ls + (i + 1) - (ng + 1 + (ls.map (·.segs)).sum) = i by simp [allElems]; omega]
      simp [show i < ng by omega, lastX_eq _ ls hseg, thickness]
    | zero =>
      have hne : ls ≠ [] := by
        rintro rfl
        simp [buildMesh, totalSegments] at hm
      obtain ⟨x0, h0, h1⟩ := C23_layer_vertices ls ng m hm hseg
      have h0' : m.verts[ng]? = some ((ng : K) * (thickness ls / allElems ls)) := by
        rw [hv, List.append_assoc, List.getElem?_append_left (by simp)]
        simp
      have hx0 : x0 = (ng : K) * (thickness ls / allElems ls) := by
        rw [h0] at h0'; exact Option.some.inj h0'
      have hlast : ls[ls.length - 1]? = some (ls.getLast hne) := by
        rw [List.getLast_eq_getElem]; simp [List.length_pos_of_ne_nil hne]
      have hd : ls = ls.take (ls.length - 1) ++ [ls.getLast hne] := by
        conv_lhs => rw [← List.dropLast_append_getLast hne, List.dropLast_eq_take]
      have hA : elemsBefore ls (ls.length - 1) + (ls.getLast hne).segs = allElems ls := by
        have := congrArg (fun l => (l.map (·.segs)).sum) hd
        simp only [List.map_append, List.sum_append, List.map_singleton, List.sum_singleton] at this
        exact this.symm
      have hB : depthBefore ls (ls.length - 1) + (ls.getLast hne).width = thickness ls := by
        have := congrArg (fun l => (l.map (·.width)).sum) hd
        simp only [List.map_append, List.sum_append, List.map_singleton, List.sum_singleton] at this
        exact this.symm
      have := h1 _ _ hlast _ le_rfl
      rw [Nat.add_assoc, hA, segs_mul _ (hseg _ (List.getLast_mem hne)), hx0, add_assoc, hB] at this
      simpa using this

/-- **C23**, orientation: with positive widths the vertices are strictly increasing. -/
theorem C23_vertices_increasing (ls : List (Layer K M)) (ng : Nat) (m : Mesh K)
    (hm : buildMesh ls ng = some m) (hw : ∀ l ∈ ls, 0 < l.width) : m.verts.Pairwise (· < ·) := by
  have hv := build_verts hm
  rw [vertices_eq, List.range_succ, List.map_append, List.map_singleton] at hv
  have hN : 0 < totalSegments ls := by
    by_contra h
    simp [buildMesh, show totalSegments ls = 0 by omega] at hm
  have hne : ls ≠ [] := by rintro rfl; simp [totalSegments] at hN
  have hW : 0 < totalWidth ls := by
    rw [totalWidth_eq]
    apply List.sum_pos
    · simpa using hw
    · simpa using hne
  have hg : 0 < totalWidth ls / (totalSegments ls : K) := div_pos hW (by exact_mod_cast hN)
  revert hv
  generalize totalWidth ls / (totalSegments ls : K) = g at *
  intro hv
  obtain ⟨h1, h2⟩ := layerVerts_pairwise ls hw ((ng : K) * g)
  rw [hv, List.append_assoc, List.append_assoc, ← List.append_assoc _ _ ((List.range ng).map _)]
  simp only [List.pairwise_append, List.singleton_append]
  refine ⟨?_, ⟨h1, ?_, ?_⟩, ?_⟩
  · rw [List.pairwise_map]
    refine List.Pairwise.imp ?_ List.pairwise_lt_range
    intro i j hij
    exact mul_lt_mul_of_pos_right (by exact_mod_cast hij) hg
  · rw [List.pairwise_map]
    refine List.Pairwise.imp ?_ List.pairwise_lt_range
    intro i j hij
    have : ((i + 1 : Nat) : K) < ((j + 1 : Nat) : K) := by exact_mod_cast Nat.succ_lt_succ hij
    have := mul_lt_mul_of_pos_right this hg
    linarith
  · intro y hy z hz
    simp only [List.mem_map, List.mem_range] at hz
    obtain ⟨i, -, rfl⟩ := hz
    have h3 := h2 y hy
    have : (0 : K) < ((i + 1 : Nat) : K) * g := mul_pos (by exact_mod_cast Nat.succ_pos i) hg
    linarith
  · intro y hy z hz
    simp only [List.mem_map, List.mem_range] at hy
    obtain ⟨i, hi, rfl⟩ := hy
    have hlt : (i : K) * g < (ng : K) * g := mul_lt_mul_of_pos_right (by exact_mod_cast hi) hg
    rcases List.mem_append.1 hz with hz | hz
    · rcases List.mem_cons.1 hz with rfl | hz
      · exact hlt
      · exact hlt.trans ((List.pairwise_cons.1 h1).1 z hz)
    · simp only [List.mem_map, List.mem_range] at hz
      obtain ⟨j, -, rfl⟩ := hz
      have h3 := h2 _ (List.mem_cons_self ..)
      have : (0 : K) < ((j + 1 : Nat) : K) * g := mul_pos (by exact_mod_cast Nat.succ_pos j) hg
      linarith

end Order

/-- **C23**, attributes: the elements of layer `li` carry attribute `li + 1`, all the ghost elements carry the
number of layers plus one, which no layer carries. -/
theorem C23_attributes (ls : List (Layer K M)) (ng : Nat) (m : Mesh K)
    (hm : buildMesh ls ng = some m) :
    (∀ li l, ls[li]? = some l → ∀ s, s < l.segs → m.attrs[ng + elemsBefore ls li + s]? = some (li + 1)) ∧
    (∀ j, j < ng → m.attrs[j]? = some (ls.length + 1)) ∧
    (∀ j, j < ng → m.attrs[ng + allElems ls + j]? = some (ls.length + 1)) ∧
    (∀ li l, ls[li]? = some l → li + 1 ≠ ls.length + 1) := by
  have ha := build_attrs hm
  obtain ⟨as, e, -, h1, h2, h3⟩ := attributes_eq ls ng (List.replicate ((vertices ls ng).length - 1) 1)
    (by simp only [List.length_replicate, vertices_length, totalSegments_eq]; omega)
  rw [e] at ha
  obtain rfl := Option.some.inj ha
  refine ⟨h3, h1, h2, ?_⟩
  intro li l hl
  have := (List.getElem?_eq_some_iff.1 hl).1
  omega

/-- **C23**, interfaces: the boundary points are the two ends of the mesh (attributes 1 and 2) and the first
and last vertex of the stack (attributes 3 and 4). -/
theorem C23_interfaces (ls : List (Layer K M)) (ng : Nat) (m : Mesh K) (hm : buildMesh ls ng = some m) :
    m.bdr = [(0, 1), (2 * ng + allElems ls, 2), (ng, 3), (ng + allElems ls, 4)] := by
  rw [build_bdr hm, vertices_length, totalSegments_eq]
  simp [allElems]

lemma find_layerMaterials (ls : List (Layer K M)) (li : Nat) (m : List (Nat × M))
    (hm : ∀ k, li < k → Assoc.find m k = none) (k : Nat) :
    Assoc.find (layerMaterials ls li m) k =
      if li < k ∧ k ≤ li + ls.length then (ls[k - 1 - li]?).map (·.material) else Assoc.find m k := by
  induction ls generalizing li m with
  | nil => simp only [layerMaterials, List.length_nil]; rw [if_neg (by omega)]
  | cons a r ih =>
    rw [layerMaterials, ih]
    · simp only [List.length_cons]
      rw [Assoc.find_insert]
      by_cases h1 : k = li + 1
      · subst h1
        rw [if_neg (by omega), if_pos rfl, if_pos (by omega), hm _ (by omega)]
        simp
      · rw [if_neg h1]
        by_cases h2 : li < k ∧ k ≤ li + (r.length + 1)
        · rw [if_pos (by omega), if_pos h2, show k - 1 - li = (k - 1 - (li + 1)) + 1 by omega]
          simp
        · rw [if_neg (by omega), if_neg h2]
    · intro k hk
      rw [Assoc.find_insert, if_neg (by omega), hm k (by omega)]

/-- **C23**, materials: every element of layer `li` is made of the material of this layer, and every ghost
element is vacuum. -/
theorem C23_materials (ls : List (Layer K M)) (vacuum : M) (ng : Nat)
    (m : Mesh K) (hm : buildMesh ls ng = some m) :
    (∀ li l, ls[li]? = some l → ∀ s, s < l.segs →
      (m.attrs[ng + elemsBefore ls li + s]?).bind (Assoc.find (materialMap ls vacuum)) = some l.material) ∧
    (∀ j, j < ng → (m.attrs[j]?).bind (Assoc.find (materialMap ls vacuum)) = some vacuum) ∧
    (∀ j, j < ng →
      (m.attrs[ng + allElems ls + j]?).bind (Assoc.find (materialMap ls vacuum)) = some vacuum) := by
  obtain ⟨h1, h2, h3, -⟩ := C23_attributes ls ng m hm
  have hvac : Assoc.find (materialMap ls vacuum) (ls.length + 1) = some vacuum := by
    unfold materialMap
    rw [Assoc.find_insert, if_pos rfl, find_layerMaterials ls 0 [] (fun _ _ => rfl), if_neg (by omega)]
    rfl
  refine ⟨?_, ?_, ?_⟩
  · intro li l hl s hs
    have hlt := (List.getElem?_eq_some_iff.1 hl).1
    rw [h1 li l hl s hs, Option.bind_some]
    unfold materialMap
    rw [Assoc.find_insert, if_neg (by omega), find_layerMaterials ls 0 [] (fun _ _ => rfl), if_pos (by omega)]
    simp [hl]
  · intro j hj; rw [h2 j hj]; exact hvac
  · intro j hj; rw [h3 j hj]; exact hvac

/-- **C23**, coupling nodes: with `p + 1` nodes per element numbered element by element, the node read back on
the left is the first node of the first layer element, the one read back on the right is the last node of the
last layer element, and the nodes overwritten as ghosts (`ng * (p + 1)` from each end) are exactly those of the
ghost elements. -/
theorem C23_interface_nodes (ls : List (Layer K M)) (ng p : Nat) (h : 0 < allElems ls) :
    leftIndex ng p / (p + 1) = ng ∧ leftIndex ng p % (p + 1) = 0 ∧
    (∃ r : Nat, rightIndex (localSize (2 * ng + allElems ls) p) ng p = (r : Int) ∧
      r / (p + 1) = ng + allElems ls - 1 ∧ r % (p + 1) = p) ∧
    (∀ d, d < localSize (2 * ng + allElems ls) p →
      ((d < ng * (p + 1) ↔ d / (p + 1) < ng) ∧
       (localSize (2 * ng + allElems ls) p - 1 - d < ng * (p + 1) ↔ ng + allElems ls ≤ d / (p + 1)))) := by
  generalize allElems ls = N at *
  have hp : 0 < p + 1 := by omega
  refine ⟨Nat.mul_div_cancel _ hp, by simp [leftIndex], ?_, ?_⟩
  · obtain ⟨n, rfl⟩ : ∃ n, N = n + 1 := ⟨N - 1, by omega⟩
    refine ⟨(p + 1) * (ng + n) + p, ?_, ?_, ?_⟩
    · simp only [rightIndex, localSize]
      push_cast
      ring
    · rw [Nat.mul_add_div hp, Nat.div_eq_of_lt (by omega)]; omega
    · rw [Nat.mul_add_mod, Nat.mod_eq_of_lt (by omega)]
  · intro d hd
    constructor
    · exact (Nat.div_lt_iff_lt_mul hp).symm
    · rw [Nat.le_div_iff_mul_le hp]
      simp only [localSize] at hd ⊢
      have : (2 * ng + N) * (p + 1) = ng * (p + 1) + (ng + N) * (p + 1) := by ring
      omega

/-- At least three and more than the order ghost elements are always used. -/
theorem C23_ghost_count (ls : List (Layer K M)) :
    3 ≤ nGhost ls ∧ ∀ l ∈ ls, l.order < nGhost ls := by
  refine ⟨le_max_left _ _, fun l hl => ?_⟩
  have h : ∀ (ls : List (Layer K M)) (o : Nat), o ≤ ls.foldl (fun o l => max o l.order) o ∧
      ∀ l ∈ ls, l.order ≤ ls.foldl (fun o l => max o l.order) o := by
    intro ls
    induction ls with
    | nil => simp
    | cons a r ih =>
      intro o
      obtain ⟨h1, h2⟩ := ih (max o a.order)
      refine ⟨(le_max_left _ _).trans h1, ?_⟩
      intro l hl
      rcases List.mem_cons.1 hl with rfl | hl
      · exact (le_max_right _ _).trans h1
      · exact h2 l hl
  have := (h ls 1).2 l hl
  have h2 : maxOrder ls + 1 ≤ nGhost ls := le_max_right _ _
  simp only [maxOrder] at h2
  omega

/-- The geometry claims need every layer to have a segment: a declared layer with none vanishes, and the stack
is thinner than declared. -/
theorem C23_empty_layer_vanishes :
    ∃ (ls : List (Layer ℚ String)) (m : Mesh ℚ), buildMesh ls 1 = some m ∧
      m.verts[1]? = some 2 ∧ m.verts[1 + allElems ls]? = some 3 ∧ thickness ls = 2 :=
  ⟨[⟨"metal", 1, 1, 1, 0⟩, ⟨"foam", 1, 0, 1, 0⟩], _, rfl, by decide +kernel, by decide +kernel,
    by decide +kernel⟩

example : buildMesh exLayers 2 = some
    { verts := [0, 4/3, 8/3, 19/6, 11/3, 20/3, 8, 28/3]
      elems := [(0, 1), (1, 2), (2, 3), (3, 4), (4, 5), (5, 6), (6, 7)]
      attrs := [3, 3, 1, 1, 2, 3, 3]
      bdr := [(0, 1), (7, 2), (2, 3), (5, 4)] } := by decide +kernel

example : 0 < allElems exLayers ∧ (∀ l ∈ exLayers, 0 < l.segs) ∧ (∀ l ∈ exLayers, 0 < l.width) := by
  decide +kernel

end Dgtd.Sgbc
