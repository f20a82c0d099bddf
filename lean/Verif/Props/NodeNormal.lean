import Verif.Spec.NodeNormal
import Mathlib.Tactic.Linarith
import Mathlib.Tactic.Positivity
import Mathlib.Tactic.FinCases
import Mathlib.Data.Fin.VecNotation
import Mathlib.Analysis.SpecialFunctions.Sqrt

/-
C169: thin layers on curved faces use the normal of the surface at each node.
-/

namespace Dgtd.NodeNormal

open Dgtd.NodeNormal.Spec

section
variable {F K : Type} [Field K] [LinearOrder K] [IsStrictOrderedRing K]

omit [IsStrictOrderedRing K] in
/-- The search finds a nearest point: either the one kept so far, or one of the list. -/
lemma search_spec (loc : F → Fin 3 → K) (x : Fin 3 → K) (pre rest : List F) (best : K) (i : Nat)
    (hpre : ∀ s ∈ pre, best ≤ dist2 (loc s) x) :
    (search loc x rest pre.length best i = i ∧ ∀ s ∈ pre ++ rest, best ≤ dist2 (loc s) x) ∨
      ∃ s, (pre ++ rest)[search loc x rest pre.length best i]? = some s ∧ dist2 (loc s) x < best ∧
        ∀ s' ∈ pre ++ rest, dist2 (loc s) x ≤ dist2 (loc s') x := by
  induction rest generalizing pre best i with
  | nil => exact Or.inl ⟨rfl, by simpa using hpre⟩
  | cons s rest ih =>
    have hcons : pre ++ s :: rest = (pre ++ [s]) ++ rest := by simp
    have hlen : pre.length + 1 = (pre ++ [s]).length := by simp
    unfold search
    split
    · rename_i hlt
      rw [hlen]
      have h2 : ∀ s' ∈ pre ++ [s], dist2 (loc s) x ≤ dist2 (loc s') x := by
        intro s' hs'
        rcases List.mem_append.mp hs' with h | h
        · exact (hlt.trans_le (hpre s' h)).le
        · rw [List.mem_singleton.mp h]
      rcases ih (pre ++ [s]) (dist2 (loc s) x) pre.length h2 with ⟨he, hall⟩ | ⟨t, ht, hlt', hall⟩
      · right
        refine ⟨s, ?_, hlt, ?_⟩
        · rw [he]; simp
        · rw [hcons]; exact hall
      · right
        refine ⟨t, ?_, hlt'.trans hlt, ?_⟩
        · rw [hcons]; exact ht
        · rw [hcons]; exact hall
    · rename_i hnlt
      rw [hlen, hcons]
      refine ih (pre ++ [s]) best i ?_
      intro s' hs'
      rcases List.mem_append.mp hs' with h | h
      · exact hpre s' h
      · rw [List.mem_singleton.mp h]; exact not_lt.mp hnlt

lemma dist2_nonneg (a b : Fin 3 → K) : 0 ≤ dist2 a b := by
  unfold dist2
  nlinarith [mul_self_nonneg (a 0 - b 0), mul_self_nonneg (a 1 - b 1), mul_self_nonneg (a 2 - b 2)]

lemma dist2_lt {a b : Fin 3 → K} (ha : InCube a) (hb : InCube b) : dist2 a b < 10 ^ 30 := by
  have h : ∀ d, (a d - b d) * (a d - b d) ≤ 1 := by
    intro d
    obtain ⟨h1, h2⟩ := ha d
    obtain ⟨h3, h4⟩ := hb d
    nlinarith
  unfold dist2
  have h0 := h 0
  have h1 := h 1
  have h2 := h 2
  norm_num
  linarith

/-- At every node of a face the code takes the normal of the surface at the point of the face rule that is nearest to the
node in the reference element. -/
theorem C169_nearest {dim : Nat} (hd : 1 < dim) {loc : F → Fin 3 → K} (normal : F → Fin 3 → K) {rule : List F}
    (hr : Rule loc rule) {x : Fin 3 → K} (hx : InCube x) :
    ∃ s ∈ rule, nodeNormal dim loc normal rule x = some (normal s) ∧
      ∀ s' ∈ rule, dist2 (loc s) x ≤ dist2 (loc s') x := by
  have h := search_spec loc x [] rule (10 ^ 30) 0 (by simp)
  rw [List.nil_append, List.length_nil] at h
  rcases h with ⟨_, hall⟩ | ⟨s, hs, _, hall⟩
  · exfalso
    obtain ⟨s, hs⟩ := List.exists_mem_of_ne_nil rule hr.nonempty
    exact absurd (dist2_lt (hr.inside s hs) hx) (not_lt.mpr (hall s hs))
  · refine ⟨s, List.mem_of_getElem? hs, ?_, hall⟩
    unfold nodeNormal
    rw [if_neg (by omega), hs]
    rfl

/-- On a straight face every node gets the normal of the face.  (Full claim: on curved faces too, each node that of the
surface there; it fails, see `C169_violated`.) -/
theorem C169_straight_partial {dim : Nat} (hd : 1 < dim) {loc : F → Fin 3 → K} {normal : F → Fin 3 → K} {rule : List F}
    (hr : Rule loc rule) {n : Fin 3 → K} (hn : ∀ s, normal s = n) {nodes : List (Fin 3 → K)} (hx : ∀ x ∈ nodes, InCube x) :
    nodeNormals dim loc normal rule nodes = some (nodes.map fun _ => n) := by
  unfold nodeNormals
  induction nodes with
  | nil => rfl
  | cons x nodes ih =>
    obtain ⟨s, _, hs, _⟩ := C169_nearest hd normal hr (hx x (by simp))
    rw [List.mapM_cons, hs, ih fun y hy => hx y (by simp [hy]), hn]
    rfl

/-- A node that is itself a point of the rule gets the normal of the surface there. -/
theorem C169_node_in_rule {dim : Nat} (hd : 1 < dim) {loc : F → Fin 3 → K} (normal : F → Fin 3 → K) {rule : List F}
    (hr : Rule loc rule) (hinj : Function.Injective loc) {s : F} (hs : s ∈ rule) :
    nodeNormal dim loc normal rule (loc s) = some (normal s) := by
  obtain ⟨t, _, ht, hall⟩ := C169_nearest hd normal hr (hr.inside s hs)
  have h0 : dist2 (loc s) (loc s) = 0 := by unfold dist2; ring
  have h1 : dist2 (loc t) (loc s) = 0 := le_antisymm (h0 ▸ hall s hs) (dist2_nonneg _ _)
  have h2 : loc t = loc s := by
    unfold dist2 at h1
    have e0 := mul_self_nonneg (loc t 0 - loc s 0)
    have e1 := mul_self_nonneg (loc t 1 - loc s 1)
    have e2 := mul_self_nonneg (loc t 2 - loc s 2)
    have z0 : loc t 0 - loc s 0 = 0 := mul_self_eq_zero.mp (by linarith)
    have z1 : loc t 1 - loc s 1 = 0 := mul_self_eq_zero.mp (by linarith)
    have z2 : loc t 2 - loc s 2 = 0 := mul_self_eq_zero.mp (by linarith)
    funext d
    fin_cases d
    · exact sub_eq_zero.mp z0
    · exact sub_eq_zero.mp z1
    · exact sub_eq_zero.mp z2
  rw [ht, hinj h2]

/-- On curved faces the error is at most what the normal varies between the node and the nearest point: if normals of
points at squared distance at most `δ` differ by at most `ε` in every component and the rule has a point that near to the
node, the normal is right to `ε`. -/
theorem C169_error {dim : Nat} (hd : 1 < dim) {loc : F → Fin 3 → K} {normal : F → Fin 3 → K} {rule : List F}
    (hr : Rule loc rule) {s : F} (hs : InCube (loc s)) {δ ε : K}
    (hL : ∀ t, dist2 (loc t) (loc s) ≤ δ → ∀ d, |normal t d - normal s d| ≤ ε)
    (hnear : ∃ t ∈ rule, dist2 (loc t) (loc s) ≤ δ) :
    ∃ v, nodeNormal dim loc normal rule (loc s) = some v ∧ ∀ d, |v d - normal s d| ≤ ε := by
  obtain ⟨t, ht, he, hall⟩ := C169_nearest hd normal hr hs
  obtain ⟨t', ht', hδ⟩ := hnear
  exact ⟨_, he, hL t ((hall t' ht').trans hδ)⟩

end

/-- The node at the end of the curved edge: whatever rule with points strictly inside is used, as all Gauss rules are,
the normal of that node has not the direction of the normal of the edge there. -/
theorem C169_violated {rule : List ℝ} (hne : rule ≠ []) (hin : ∀ s ∈ rule, 0 < s ∧ s < 1) :
    ∃ v, nodeNormal 2 parabolaLoc parabolaNormal rule (parabolaLoc 0) = some v ∧ ¬ SameDirection v (parabolaNormal 0) := by
  have hr : Rule parabolaLoc rule := by
    refine ⟨hne, fun s hs d => ?_⟩
    obtain ⟨h1, h2⟩ := hin s hs
    fin_cases d <;> simp [parabolaLoc] <;> constructor <;> linarith
  have hx : InCube (parabolaLoc 0) := by intro d; fin_cases d <;> simp [parabolaLoc]
  obtain ⟨s, hs, he, _⟩ := C169_nearest (by norm_num : 1 < 2) parabolaNormal hr hx
  refine ⟨_, he, ?_⟩
  rintro ⟨c, _, hc⟩
  have h0 := hc 0
  simp [parabolaNormal] at h0
  have := (hin s hs).1
  linarith

/-- The rule the code uses on an edge of elements of order one: the two Gauss points. -/
noncomputable def gaussTwo : List ℝ := [1 / 2 - √3 / 6, 1 / 2 + √3 / 6]

/-- It meets the hypotheses of `C169_violated`. -/
example : gaussTwo ≠ [] ∧ ∀ s ∈ gaussTwo, 0 < s ∧ s < 1 := by
  have h1 : √3 < 3 := by rw [Real.sqrt_lt' (by norm_num)]; norm_num
  have h2 : 0 ≤ √3 := Real.sqrt_nonneg 3
  refine ⟨by simp [gaussTwo], fun s hs => ?_⟩
  simp only [gaussTwo, List.mem_cons, List.not_mem_nil, or_false] at hs
  rcases hs with rfl | rfl <;> constructor <;> linarith

/-- A rule with three points: the second one is nearest to the node. -/
example : nodeNormal (K := ℚ) 2 (fun s => ![s, 0, 0]) (fun s => ![2 * s, -1, 0]) [1 / 10, 1 / 2, 9 / 10] ![2 / 5, 0, 0] =
    some ![1, -1, 0] := by decide +kernel

end Dgtd.NodeNormal
