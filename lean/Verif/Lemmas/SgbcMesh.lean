/-
Closed forms of the loops of the thin-layer mesh.
-/
import Verif.Model.SgbcMesh
import Mathlib.Tactic.Ring
import Mathlib.Tactic.Linarith
import Mathlib.Tactic.FieldSimp
import Mathlib.Algebra.BigOperators.Group.List.Basic
import Mathlib.Algebra.Order.BigOperators.Group.List

set_option linter.unusedSectionVars false
set_option linter.unusedSimpArgs false

namespace Dgtd.Sgbc

variable {K : Type} [Field K] {M : Type}

lemma foldl_add_eq (ls : List (Layer K M)) (f : Layer K M → K) (a : K) :
    ls.foldl (fun w l => w + f l) a = a + (ls.map f).sum := by
  induction ls generalizing a with
  | nil => simp
  | cons l r ih => simp [ih, add_assoc]

lemma foldl_addN_eq (ls : List (Layer K M)) (f : Layer K M → Nat) (a : Nat) :
    ls.foldl (fun w l => w + f l) a = a + (ls.map f).sum := by
  induction ls generalizing a with
  | nil => simp
  | cons l r ih => simp [ih, Nat.add_assoc]

lemma totalWidth_eq (ls : List (Layer K M)) : totalWidth ls = (ls.map (·.width)).sum := by
  simp [totalWidth, foldl_add_eq ls (·.width)]

lemma totalSegments_eq (ls : List (Layer K M)) : totalSegments ls = (ls.map (·.segs)).sum := by
  simp [totalSegments, foldl_addN_eq ls (·.segs)]

/-- Vertices added by the layers, starting after abscissa `x`. -/
def layerVerts (x : K) : List (Layer K M) → List K
  | [] => []
  | l :: ls => (List.range l.segs).map (fun (i : Nat) => x + ((i + 1 : Nat) : K) * (l.width / l.segs)) ++
      layerVerts (x + (l.segs : K) * (l.width / l.segs)) ls

/-- Last abscissa. -/
def lastX (x : K) (ls : List (Layer K M)) : K :=
  x + (ls.map (fun l => (l.segs : K) * (l.width / l.segs))).sum

lemma pushSegs_eq (dx : K) (n : Nat) (x : K) (vs : List K) :
    pushSegs dx n (x, vs) =
      (x + (n : K) * dx, vs ++ (List.range n).map (fun (i : Nat) => x + ((i + 1 : Nat) : K) * dx)) := by
  induction n generalizing x vs with
  | zero => simp [pushSegs]
  | succ n ih =>
    rw [pushSegs, ih]
    refine Prod.ext ?_ ?_
    · simp; ring
    · rw [List.range_succ_eq_map]
      simp only [List.map_cons, List.map_map, List.append_assoc, List.singleton_append]
      congr 2
      · simp
      · apply List.map_congr_left
        intro i _
        simp; ring

lemma pushLayers_eq (ls : List (Layer K M)) (x : K) (vs : List K) :
    pushLayers ls (x, vs) = (lastX x ls, vs ++ layerVerts x ls) := by
  unfold pushLayers
  induction ls generalizing x vs with
  | nil => simp [lastX, layerVerts]
  | cons l r ih =>
    simp only [List.foldl_cons, pushSegs_eq, ih, layerVerts, lastX, List.map_cons, List.sum_cons,
      List.append_assoc, add_assoc]

lemma layerVerts_length (x : K) (ls : List (Layer K M)) :
    (layerVerts x ls).length = (ls.map (·.segs)).sum := by
  induction ls generalizing x with
  | nil => rfl
  | cons l r ih => simp [layerVerts, ih]

lemma vertices_eq (ls : List (Layer K M)) (ng : Nat) :
    vertices ls ng =
      (List.range (ng + 1)).map (fun (i : Nat) => (i : K) * (totalWidth ls / totalSegments ls)) ++
      layerVerts ((ng : K) * (totalWidth ls / totalSegments ls)) ls ++
      (List.range ng).map (fun (i : Nat) => lastX ((ng : K) * (totalWidth ls / totalSegments ls)) ls +
        ((i + 1 : Nat) : K) * (totalWidth ls / totalSegments ls)) := by
  simp [vertices, pushLayers_eq]

lemma vertices_length (ls : List (Layer K M)) (ng : Nat) :
    (vertices ls ng).length = 2 * ng + totalSegments ls + 1 := by
  rw [vertices_eq, totalSegments_eq]
  simp [layerVerts_length]; omega

section Order
variable [LinearOrder K] [IsStrictOrderedRing K]

lemma segs_mul (l : Layer K M) (h : 0 < l.segs) : (l.segs : K) * (l.width / l.segs) = l.width := by
  have : (l.segs : K) ≠ 0 := by exact_mod_cast h.ne'
  field_simp

lemma lastX_eq (x : K) (ls : List (Layer K M)) (h : ∀ l ∈ ls, 0 < l.segs) :
    lastX x ls = x + (ls.map (·.width)).sum := by
  unfold lastX
  congr 2
  exact List.map_congr_left (fun l hl => segs_mul l (h l hl))

/-- The vertex at segment boundary `s` of layer `li`. -/
lemma layerVerts_get (ls : List (Layer K M)) (h : ∀ l ∈ ls, 0 < l.segs) (x : K) (li : Nat) (l : Layer K M)
    (hl : ls[li]? = some l) (s : Nat) (hs : s ≤ l.segs) :
    (x :: layerVerts x ls)[((ls.take li).map (·.segs)).sum + s]? =
      some (x + ((ls.take li).map (·.width)).sum + (s : K) * (l.width / l.segs)) := by
  induction ls generalizing x li with
  | nil => simp at hl
  | cons a r ih =>
    cases li with
    | zero =>
      simp at hl; subst hl
      cases s with
      | zero => simp
      | succ s =>
        have : s < a.segs := hs
        simp [layerVerts, List.getElem?_append, this]
    | succ li =>
      simp only [List.getElem?_cons_succ] at hl
      have hr := ih (fun l hl => h l (List.mem_cons_of_mem _ hl)) (x + a.width) li hl
      have ha : 0 < a.segs := h a (by simp)
      obtain ⟨m, hm⟩ : ∃ m, a.segs = m + 1 := ⟨a.segs - 1, by omega⟩
      simp only [List.take_succ_cons, List.map_cons, List.sum_cons, layerVerts, segs_mul a ha]
      rw [show x + (a.width + ((r.take li).map (·.width)).sum) + (s : K) * (l.width / l.segs) =
        x + a.width + ((r.take li).map (·.width)).sum + (s : K) * (l.width / l.segs) by ring, ← hr]
      rw [show a.segs + ((r.take li).map (·.segs)).sum + s = a.segs + (((r.take li).map (·.segs)).sum + s)
        by omega]
      generalize ((r.take li).map (·.segs)).sum + s = q at *
      cases q with
      | zero =>
        simp only [Nat.add_zero]
        rw [hm]
        simp only [List.getElem?_cons_succ]
        rw [List.getElem?_append_left (by simp)]
        have := segs_mul a ha
        rw [hm] at this
        push_cast at this
        simp [this]
      | succ q =>
        rw [show a.segs + (q + 1) = (a.segs + q) + 1 by omega, List.getElem?_cons_succ,
          List.getElem?_append_right (by simp)]
        simp

lemma layerVerts_pairwise (ls : List (Layer K M)) (hw : ∀ l ∈ ls, 0 < l.width) (x : K) :
    (x :: layerVerts x ls).Pairwise (· < ·) ∧ ∀ y ∈ x :: layerVerts x ls, y ≤ lastX x ls := by
  induction ls generalizing x with
  | nil => simp [layerVerts, lastX]
  | cons a r ih =>
    obtain ⟨h1, h2⟩ := ih (fun l hl => hw l (List.mem_cons_of_mem _ hl))
      (x + (a.segs : K) * (a.width / a.segs))
    have hdx : 0 < a.segs → 0 < a.width / (a.segs : K) := fun h =>
      div_pos (hw a (by simp)) (by exact_mod_cast h)
    have hnn : 0 ≤ (a.segs : K) * (a.width / a.segs) :=
      mul_nonneg (Nat.cast_nonneg _) (div_nonneg (hw a (by simp)).le (Nat.cast_nonneg _))
    have hlast : lastX x (a :: r) = lastX (x + (a.segs : K) * (a.width / a.segs)) r := by
      simp [lastX, add_assoc]
    rw [List.pairwise_cons] at h1
    rw [hlast]
    -- entries of the first block
    have hb : ∀ y ∈ (List.range a.segs).map (fun (i : Nat) => x + ((i + 1 : Nat) : K) * (a.width / a.segs)),
        x < y ∧ y ≤ x + (a.segs : K) * (a.width / a.segs) := by
      intro y hy
      simp only [List.mem_map, List.mem_range] at hy
      obtain ⟨i, hi, rfl⟩ := hy
      have hd := hdx (by omega)
      refine ⟨?_, ?_⟩
      · have : (0 : K) < ((i + 1 : Nat) : K) := by exact_mod_cast Nat.succ_pos i
        have := mul_pos this hd
        linarith
      · have : ((i + 1 : Nat) : K) ≤ (a.segs : K) := by exact_mod_cast hi
        have := mul_le_mul_of_nonneg_right this hd.le
        linarith
    have hmem : ∀ y ∈ x :: layerVerts x (a :: r),
        y ≤ lastX (x + (a.segs : K) * (a.width / a.segs)) r := by
      intro y hy
      have h0 := h2 _ (List.mem_cons_self ..)
      simp only [layerVerts, List.mem_cons, List.mem_append] at hy
      rcases hy with rfl | hy | hy
      · linarith
      · exact (hb y hy).2.trans h0
      · exact h2 y (List.mem_cons_of_mem _ hy)
    refine ⟨?_, hmem⟩
    simp only [layerVerts, List.pairwise_cons, List.pairwise_append]
    refine ⟨?_, ?_, h1.2, ?_⟩
    · intro y hy
      rcases List.mem_append.1 hy with hy | hy
      · exact (hb y hy).1
      · have := h1.1 y hy
        linarith
    · rw [List.pairwise_map]
      refine List.Pairwise.imp_of_mem ?_ List.pairwise_lt_range
      intro i j hi _ hij
      have hd := hdx (by simp at hi; omega)
      have : ((i + 1 : Nat) : K) < ((j + 1 : Nat) : K) := by exact_mod_cast Nat.succ_lt_succ hij
      have := mul_lt_mul_of_pos_right this hd
      linarith
    · intro y hy z hz
      exact (hb y hy).2.trans_lt (h1.1 z hz)

end Order

/-! Attribute loops. -/

lemma setAttrs_eq (a n : Nat) (i : Nat) (as : List Nat) (h : i + n ≤ as.length) :
    ∃ as', setAttrs a n i as = some as' ∧ as'.length = as.length ∧
      ∀ j, as'[j]? = if i ≤ j ∧ j < i + n then some a else as[j]? := by
  induction n generalizing i as with
  | zero => exact ⟨as, rfl, rfl, fun j => by rw [if_neg (by omega)]⟩
  | succ n ih =>
    have hi : i < as.length := by omega
    obtain ⟨as', h1, h2, h3⟩ := ih (i + 1) (as.set i a) (by simp; omega)
    refine ⟨as', by simp [setAttrs, setAttr, hi, h1], by simpa using h2, fun j => ?_⟩
    rw [h3 j]
    by_cases hj : i + 1 ≤ j ∧ j < i + 1 + n
    · simp [hj]; omega
    · rw [if_neg hj]
      by_cases hij : i = j
      · subst hij; simp [hi]
      · rw [List.getElem?_set_ne hij]
        rw [if_neg (by omega)]

lemma setLayerAttrs_eq (ls : List (Layer K M)) (li0 idx : Nat) (as : List Nat)
    (h : idx + (ls.map (·.segs)).sum ≤ as.length) :
    ∃ as', setLayerAttrs ls li0 idx as = some (idx + (ls.map (·.segs)).sum, as') ∧
      as'.length = as.length ∧
      (∀ j, j < idx ∨ idx + (ls.map (·.segs)).sum ≤ j → as'[j]? = as[j]?) ∧
      (∀ li l, ls[li]? = some l → ∀ s, s < l.segs →
        as'[idx + ((ls.take li).map (·.segs)).sum + s]? = some (li0 + li + 1)) := by
  induction ls generalizing li0 idx as with
  | nil => exact ⟨as, by simp [setLayerAttrs], rfl, fun _ _ => rfl, by simp⟩
  | cons a r ih =>
    simp only [List.map_cons, List.sum_cons] at h
    obtain ⟨as1, e1, l1, g1⟩ := setAttrs_eq (li0 + 1) a.segs idx as (by omega)
    obtain ⟨as2, e2, l2, o2, g2⟩ := ih (li0 + 1) (idx + a.segs) as1 (by omega)
    refine ⟨as2, ?_, by omega, ?_, ?_⟩
    · simp [setLayerAttrs, e1, e2]; omega
    · intro j hj
      simp only [List.map_cons, List.sum_cons] at hj
      rw [o2 j (by omega), g1 j, if_neg (by omega)]
    · intro li l hl s hs
      cases li with
      | zero =>
        simp at hl; subst hl
        rw [show idx + (((a :: r).take 0).map (·.segs)).sum + s = idx + s by simp,
          o2 _ (by omega), g1, if_pos (by omega)]
      | succ li =>
        simp only [List.getElem?_cons_succ] at hl
        have := g2 li l hl s hs
        simp only [List.take_succ_cons, List.map_cons, List.sum_cons]
        rw [show idx + (a.segs + ((r.take li).map (·.segs)).sum) + s =
          idx + a.segs + ((r.take li).map (·.segs)).sum + s by omega, this]
        congr 1; omega

lemma attributes_eq (ls : List (Layer K M)) (ng : Nat) (as : List Nat)
    (h : as.length = 2 * ng + (ls.map (·.segs)).sum) :
    ∃ as', attributes ls ng as = some as' ∧ as'.length = as.length ∧
      (∀ j, j < ng → as'[j]? = some (ls.length + 1)) ∧
      (∀ j, j < ng → as'[ng + (ls.map (·.segs)).sum + j]? = some (ls.length + 1)) ∧
      (∀ li l, ls[li]? = some l → ∀ s, s < l.segs →
        as'[ng + ((ls.take li).map (·.segs)).sum + s]? = some (li + 1)) := by
  obtain ⟨a1, e1, l1, g1⟩ := setAttrs_eq (ls.length + 1) ng 0 as (by omega)
  obtain ⟨a2, e2, l2, o2, g2⟩ := setLayerAttrs_eq ls 0 ng a1 (by omega)
  obtain ⟨a3, e3, l3, g3⟩ := setAttrs_eq (ls.length + 1) ng (ng + (ls.map (·.segs)).sum) a2 (by omega)
  refine ⟨a3, by simp [attributes, e1, e2, e3], by omega, ?_, ?_, ?_⟩
  · intro j hj
    rw [g3, if_neg (by omega), o2 j (by omega), g1, if_pos (by omega)]
  · intro j hj
    rw [g3, if_pos (by omega)]
  · intro li l hl s hs
    have hlt : ((ls.take li).map (·.segs)).sum + s < (ls.map (·.segs)).sum := by
      have hli : li < ls.length := (List.getElem?_eq_some_iff.1 hl).1
      have hd : ls = ls.take li ++ l :: ls.drop (li + 1) := by
        have h2 := (List.getElem?_eq_some_iff.1 hl).2
        rw [← h2]; simp
      have : (ls.map (·.segs)).sum = ((ls.take li).map (·.segs)).sum + (l.segs +
          ((ls.drop (li + 1)).map (·.segs)).sum) := by
        conv_lhs => rw [hd]
        simp
      omega
    rw [g3, if_neg (by omega)]
    simpa using g2 li l hl s hs

end Dgtd.Sgbc
