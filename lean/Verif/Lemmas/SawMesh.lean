/-
Saw-toothed fields on meshes of straight simplices of order one.
-/
import Verif.Lemmas.Saw
import Verif.Props.Cfl

set_option linter.unusedSectionVars false

namespace Dgtd.Galerkin
open MvPolynomial Spec Dgtd.Op Dgtd.Op.Spec
open Dgtd.Implicit Dgtd.TimeInt.Spec
open Dgtd.Config (Material)

variable {n : Nat} {ι : Type} [Fintype ι] [DecidableEq ι] {S : Setup n ι} {ms : List (Int × Material ℝ)}

lemma bind_square (f : Option (Fin (n + 1))) (t : Equiv.Perm (Fin (n + 1))) (a b : Poly (n + 1) ℝ) :
    bind₁ (loc f t) a * bind₁ (loc f t) b = bind₁ (loc f t) (a * b) := (map_mul _ _ _).symm

/-- What a face sees of an element. -/
noncomputable def sideTerm (Λ : Elem n ι ℝ → Option (Fin (n + 1)) → ℝ) (w v : ι → ℝ) (s : Elem n ι ℝ × Option (Fin (n + 1))) : ℝ :=
  Λ s.1 s.2 * integral n (bind₁ (loc s.2 1) (onElem s.1 w * onElem s.1 v))

lemma side_one (h : ValidMesh S 1 1) (Λ : Elem n ι ℝ → Option (Fin (n + 1)) → ℝ) (w v : ι → ℝ) {q : Option BdrCond × MeshFace n ι}
    (hq : q ∈ S.interior ++ S.bdr) (s : Side n ι ℝ) (hs : ∃ c ∈ S.cells, s.e = c.e) (hW : ∀ x, q.2.fem.W x = Λ s.e s.face) :
    (q.2.rule.map fun x => x.1 * q.2.fem.W x.2 * (eval x.2 (s.restrict (onElem s.e w)) * eval x.2 (s.restrict (onElem s.e v)))).sum =
      sideTerm Λ w v (s.e, s.face) := by
  obtain ⟨c, hc, hce⟩ := hs
  have hface : q.2.fem ∈ Spec.faces S.skeleton := by
    have : (Spec.faces S.skeleton) = (S.interior ++ S.bdr).map fun q => q.2.fem := by
      simp [Spec.faces, Setup.skeleton, List.map_map, Function.comp_def]
    rw [this]; exact List.mem_map_of_mem (f := fun q : Option BdrCond × MeshFace n ι => q.2.fem) hq
  have hex := h.simplicial.surface _ hface
  have hord := order_le (n := n) (p := 1) (m := 1) q.2.fem.s2
  have hdeg : ∀ u : ι → ℝ, (s.restrict (onElem s.e u)).totalDegree ≤ 1 := fun u => degree_restrict s (by
    rw [hce]; exact fld_degree c.e (h.shape hc) u)
  have := hex (s.restrict (onElem s.e w) * s.restrict (onElem s.e v)) ((degree_mul_le (hdeg w) (hdeg v)).trans (by omega))
  have hr : q.2.fem.rule = q.2.rule := rfl
  rw [hr] at this
  unfold sideTerm
  dsimp only
  rw [integral_turn s.face 1 s.turn, ← bind_square]
  change _ = Λ s.e s.face * integral n (s.restrict (onElem s.e w) * s.restrict (onElem s.e v))
  rw [← this, ← List.sum_map_mul_left]
  congr 1
  refine List.map_congr_left fun x _ => ?_
  rw [hW, map_mul]; ring

lemma side_face (h : ValidMesh S 1 1) (Λ : Elem n ι ℝ → Option (Fin (n + 1)) → ℝ)
    {q : Option BdrCond × MeshFace n ι} (hq : q ∈ S.interior ++ S.bdr)
    (w1 : ∀ x, q.2.fem.W x = Λ q.2.s1.e q.2.s1.face) (w2 : ∀ s ∈ q.2.s2, ∀ x, q.2.fem.W x = Λ s.e s.face) (w v : ι → ℝ) :
    sideSum q.2.fem.toFace w v = ((sides q.2.fem).map (sideTerm Λ w v)).sum := by
  have hs := sides_cells h hq
  have e1 := side_one h Λ w v hq q.2.s1 hs.1 w1
  obtain ⟨o, g⟩ := q
  dsimp only at *
  unfold sideSum
  change ((g.rule.map (point g.fem)).map _).sum = _
  rw [List.map_map]
  cases hs2 : g.s2 with
  | none =>
    have : sides g.fem = [(g.s1.e, g.s1.face)] := by simp [sides, MeshFace.fem, hs2]
    rw [this, List.map_singleton, List.sum_singleton, ← e1]
    congr 1
    refine List.map_congr_left fun x _ => ?_
    simp only [Function.comp, trace1_eq, trace2_eq]
    have t2 : ∀ u : ι → ℝ, trace2 g.fem u = 0 := fun u => by unfold trace2; simp [MeshFace.fem, hs2]
    rw [t2, t2]
    change x.1 * g.fem.W x.2 * (eval x.2 (g.s1.restrict (onElem g.s1.e w)) * eval x.2 (g.s1.restrict (onElem g.s1.e v)) + _) = _
    simp
  | some s =>
    have : sides g.fem = [(g.s1.e, g.s1.face), (s.e, s.face)] := by simp [sides, MeshFace.fem, hs2]
    rw [this, List.map_cons, List.map_singleton, List.sum_cons, List.sum_singleton, ← e1, ← side_one h Λ w v hq s (hs.2 s hs2) (w2 s hs2),
      list_sum_add]
    congr 1
    refine List.map_congr_left fun x _ => ?_
    simp only [Function.comp, trace1_eq, trace2_eq]
    have t2 : ∀ u : ι → ℝ, trace2 g.fem u = s.restrict (onElem s.e u) := fun u => by unfold trace2; simp [MeshFace.fem, hs2, onElem, fld]
    rw [t2, t2]
    change x.1 * g.fem.W x.2 * (eval x.2 (g.s1.restrict (onElem g.s1.e w)) * eval x.2 (g.s1.restrict (onElem g.s1.e v)) + _) = _
    ring

lemma flat_sum {α β : Type} (l : List α) (g : α → List β) (w : β → ℝ) :
    (l.map fun a => ((g a).map w).sum).sum = ((l.flatMap g).map w).sum := by
  induction l with
  | nil => simp
  | cons a l ih => simp [ih]

/-- The faces, gathered element by element. -/
lemma sides_gather (h : ValidMesh S 1 1) (ms : List (Int × Material ℝ)) (Λ : Elem n ι ℝ → Option (Fin (n + 1)) → ℝ)
    (hΛ : ∀ q ∈ S.interior ++ S.bdr, (∀ x, q.2.fem.W x = Λ q.2.s1.e q.2.s1.face) ∧ ∀ s ∈ q.2.s2, ∀ x, q.2.fem.W x = Λ s.e s.face) (w v : ι → ℝ) :
    ((allFaces (femOf S ms).prob).map fun F => sideSum F w v).sum = (S.cells.map fun c =>
      ((none :: (List.finRange (n + 1)).map some).map fun f => Λ c.e f * integral n (bind₁ (loc f 1) (onElem c.e w * onElem c.e v))).sum).sum := by
  have h1 : ((allFaces (femOf S ms).prob).map fun F => sideSum F w v).sum = ((S.interior ++ S.bdr).map fun q => sideSum q.2.fem.toFace w v).sum := by
    simp [allFaces, Fem.prob, femOf, Setup.skeleton, List.map_map, Function.comp_def]
  have h2 : (Spec.faces S.skeleton) = (S.interior ++ S.bdr).map fun q => q.2.fem := by
    simp [Spec.faces, Setup.skeleton, List.map_map, Function.comp_def]
  rw [h1, List.map_congr_left fun q hq => side_face h Λ hq (hΛ q hq).1 (hΛ q hq).2 w v]
  have hcov := h.simplicial.cover
  rw [h2] at hcov
  rw [flat_sum (S.interior ++ S.bdr) (fun q => sides q.2.fem)]
  have e3 : ((S.interior ++ S.bdr).flatMap fun q => sides q.2.fem) = (((S.interior ++ S.bdr).map fun q => q.2.fem).flatMap sides) := by
    rw [List.flatMap_map]
  rw [e3, (hcov.map _).sum_eq, Spec.elemFaces, ← flat_sum]
  simp only [Setup.skeleton, List.map_map, Function.comp_def, sideTerm]

lemma refD_const (h : ValidMesh S 1 1) {c : Cell n ι} (hc : c ∈ S.cells) (d : Dir) (v : ι → ℝ) : ∃ k : ℝ, refD c.e d (onElem c.e v) = C k := by
  have : (refD c.e d (onElem c.e v)).totalDegree = 0 := by
    unfold refD
    split
    · refine Nat.le_zero.1 (degree_sum_le fun k _ => ?_)
      have h1 := degree_adj h.simplicial.dim c.e (h.geom hc) k ⟨d.val, by assumption⟩
      have h2 : (pderiv k (onElem c.e v)).totalDegree ≤ 0 :=
        (totalDegree_pderiv _ _).trans (by have := fld_degree c.e (h.shape hc) v; unfold fld at this; unfold onElem; omega)
      exact (degree_mul_le h1 h2).trans (by simp)
    · simp
  exact ⟨_, totalDegree_eq_zero_iff_eq_C.1 this⟩

/-- On a mesh of straight segments or triangles of order one in vacuum, between conducting walls. -/
lemma saw_mesh (hn : n ≤ 1) (h : ValidMesh S 1 1) (hm : ValidMaterials S ms) (hvac : ∀ c ∈ S.cells, materialOf ms c = ⟨1, 1, 0⟩)
    (hin : ∀ q ∈ S.interior, q.1 = none) (hout : ∀ q ∈ S.bdr, q.1 = some .PEC)
    (Λ : Elem n ι ℝ → Option (Fin (n + 1)) → ℝ)
    (hΛ : ∀ q ∈ S.interior ++ S.bdr, (∀ x, q.2.fem.W x = Λ q.2.s1.e q.2.s1.face) ∧ ∀ s ∈ q.2.s2, ∀ x, q.2.fem.W x = Λ s.e s.face) (w : ι → ℝ)
    (hopp : ∀ q ∈ S.interior, ∃ s, q.2.s2 = some s ∧ ∀ x,
      eval x (s.restrict (onElem s.e w)) = -eval x (q.2.s1.restrict (onElem q.2.s1.e w)))
    (hmean : ∀ c ∈ S.cells, integral (n + 1) (onElem c.e w) = 0) (κ : ℝ)
    (hcell : ∀ c ∈ S.cells, ∀ v : Poly (n + 1) ℝ, v.totalDegree ≤ 1 →
      ((none :: (List.finRange (n + 1)).map some).map fun f => Λ c.e f * integral n (bind₁ (loc f 1) (onElem c.e w * v))).sum =
        κ * integral (n + 1) (v * onElem c.e w * c.e.jac.det)) :
    globalMult (femOf S ms).prob (ez w) = (-(S.alpha * κ)) • ez w := by
  have hreg := regular_of h ms hm
  have hs : SBP (femOf S ms).prob := sbp _ (simplicial_matrices h.simplicial _ _)
  refine saw_global (P := (femOf S ms).prob) hreg hs (by change n + 1 ≤ 2; omega) ?_ ?_ ?_ ?_ ?_ κ ?_
  · intro q hq
    obtain ⟨a, ha, rfl⟩ := List.mem_map.1 hq
    obtain ⟨b, hb, rfl⟩ := List.mem_map.1 ha
    exact hin b hb
  · intro q hq
    obtain ⟨a, ha, rfl⟩ := List.mem_map.1 hq
    obtain ⟨b, hb, rfl⟩ := List.mem_map.1 ha
    exact hout b hb
  · intro q hq p hp
    obtain ⟨a, ha, rfl⟩ := List.mem_map.1 hq
    obtain ⟨b, hb, rfl⟩ := List.mem_map.1 ha
    obtain ⟨s, hs, ho⟩ := hopp b hb
    obtain ⟨x, hx, rfl⟩ := List.mem_map.1 hp
    change tr2 b.2.fem.toFace (point b.2.fem x) w = -tr1 b.2.fem.toFace (point b.2.fem x) w
    rw [trace1_eq, trace2_eq]
    have t2 : trace2 b.2.fem w = s.restrict (onElem s.e w) := by unfold trace2; simp [MeshFace.fem, hs, onElem, fld]
    rw [t2, ho]; rfl
  · change (massMatrix (S.cells.map fun c => (c, (materialOf ms c).sigma))).mulVec w = 0
    have : ∀ v, v ⬝ᵥ (massMatrix (S.cells.map fun c => (c, (materialOf ms c).sigma))).mulVec w = 0 := by
      intro v
      rw [mass_form h]
      refine sum_zero_of _ _ fun c hc => ?_
      rw [hvac c hc]; simp
    funext r
    simpa using this (Pi.single r 1)
  · intro d hd v
    have e := deriv_exact h (femOf S ms) rfl d w v
    unfold form derivativeSub at e
    rw [if_neg (by omega)] at e
    rw [e]
    refine sum_zero_of _ _ fun c hc => ?_
    obtain ⟨k, hk⟩ := refD_const h hc d v
    rw [hk, mul_comm, integral_scale, hmean c hc, mul_zero]
  · intro v
    rw [sides_gather h ms Λ hΛ]
    change _ = κ * (v ⬝ᵥ (massMatrix (S.cells.map fun c => (c, (materialOf ms c).eps))).mulVec w)
    rw [mass_form h, ← List.sum_map_mul_left]
    congr 1
    refine List.map_congr_left fun c hc => ?_
    rw [hvac c hc, one_mul]
    exact hcell c hc _ (fld_degree c.e (h.shape hc) v)

/-- What a step of the explicit integrator multiplies a field by that dies out at the rate `lam`, `z` the rate times the step. -/
noncomputable def factor (z : ℝ) : ℝ := 1 - z + z ^ 2 / 2 - z ^ 3 / 6 + z ^ 4 / 24

lemma energy_smul {p m : Nat} (h : ValidMesh S p m) (a : ℝ) (u : State ι ℝ) : fieldEnergy S ms (a • u) = a ^ 2 * fieldEnergy S ms u := by
  rw [← energy_eq h, ← energy_eq h]
  unfold energy
  simp only [Pi.smul_apply, Matrix.mulVec_smul, smul_dotProduct, dotProduct_smul, smul_eq_mul, ← mul_add]
  rw [← Finset.mul_sum, ← Finset.mul_sum]
  ring

end Dgtd.Galerkin
