/-
C141: the quadratures of the global operator and discrete integration by parts.
-/
import Verif.Lemmas.Galerkin
import Verif.Lemmas.SimplexReal
import Verif.Props.Energy
import Mathlib.Algebra.Order.Ring.Abs

set_option linter.unusedSectionVars false
set_option linter.unusedSimpArgs false

namespace Dgtd.Galerkin
open MvPolynomial Spec Dgtd.Op Dgtd.Op.Spec

/-! ### the integrals of the specification are the usual ones -/

/-- Segments, triangles and tetrahedra. -/
theorem C141_integral : (∀ q : Poly 1 ℝ, integral 1 q = ∫ x in (0 : ℝ)..1, eval ![x] q) ∧
    (∀ q : Poly 2 ℝ, integral 2 q = ∫ x in (0 : ℝ)..1, ∫ y in (0 : ℝ)..(1 - x), eval ![x, y] q) ∧
    (∀ q : Poly 3 ℝ, integral 3 q = ∫ x in (0 : ℝ)..1, ∫ y in (0 : ℝ)..(1 - x), ∫ z in (0 : ℝ)..(1 - x - y), eval ![x, y, z] q) :=
  ⟨integral_one_eq, integral_two_eq, integral_three_eq⟩

section
variable {n : Nat} {ι K : Type} [Fintype ι] [DecidableEq ι] [Field K] [LinearOrder K] [IsStrictOrderedRing K]

/-- On every conforming mesh of segments, triangles or tetrahedra, straight or curved, of any orders, the quadratures of the orders the code
asks for are exact enough for discrete integration by parts. -/
theorem C141_sbp (F : Fem n ι K) {p m : Nat} (h : Simplicial F p m) : SBP F.prob := sbp F h

/-- Hence on every such mesh the energy changes exactly by the losses at faces and in conductors. -/
theorem C141_balance (F : Fem n ι K) {p m : Nat} (h : Simplicial F p m) (M : FieldT → Matrix ι ι K) (hr : Regular F.prob M) (u : State ι K) :
    energyRate M u (globalMult F.prob u) = -dissipation F.prob u := by
  rw [energy_gap F.prob M hr, gap_zero (sbp F h), add_zero]

/-- With quadratures without negative weights the energy never grows, on straight and curved simplices. -/
theorem C141_curved (F : Fem n ι K) {p m : Nat} (h : Simplicial F p m) (M : FieldT → Matrix ι ι K) (hr : Regular F.prob M)
    (hw : ∀ f ∈ Spec.faces F, ∀ q ∈ f.rule, 0 ≤ q.1) (ha : 0 ≤ F.alpha) (hs : ∀ v : ι → K, 0 ≤ v ⬝ᵥ F.Msig.mulVec v) (u : State ι K) :
    energyRate M u (globalMult F.prob u) ≤ 0 := by
  have hg : Good F.prob M := by
    refine ⟨hr.dim_le, fun f hf p hp => ?_, sbp F h, hr.bdr_cond, hr.bdr_one_side, hr.no_sgbc, hr.inv, hr.symm⟩
    have hg := hr.pts f hf p hp
    refine ⟨?_, hg.W_pos, hg.size, hg.norm⟩
    have : f ∈ (Spec.faces F).map FemFace.toFace := by
      simpa [allFaces, Fem.prob, Spec.faces, List.map_map, Function.comp_def] using hf
    obtain ⟨g, hgm, rfl⟩ := List.mem_map.1 this
    have hp : p ∈ g.rule.map (point g) := hp
    obtain ⟨q, hq, rfl⟩ := List.mem_map.1 hp
    exact hw g hgm q hq
  rw [energy_balance F.prob M hg]
  have := dissipation_nonneg F.prob M hg ha hs u
  linarith

/-! ### what exactness is worth -/

lemma defect_smul (P : Prob ι K) (d : Dir) (v u : ι → K) (s : K) : defect P d v (s • u) = s * defect P d v u := by
  unfold defect
  rw [Matrix.mulVec_smul, dotProduct_smul, smul_dotProduct]
  have : ∀ f : Face ι K, faceBoundary f d v (s • u) = s * faceBoundary f d v u := by
    intro f
    unfold faceBoundary
    rw [← List.sum_map_mul_left]
    congr 1
    refine List.map_congr_left fun p _ => ?_
    have h1 : tr1 f p (s • u) = s * tr1 f p u := by
      unfold tr1; rw [Finset.mul_sum]; refine Finset.sum_congr rfl fun i _ => ?_; simp; ring
    have h2 : tr2 f p (s • u) = s * tr2 f p u := by
      unfold tr2; rw [Finset.mul_sum]; refine Finset.sum_congr rfl fun i _ => ?_; simp; ring
    rw [h1, h2]; ring
  simp only [this, List.sum_map_mul_left, smul_eq_mul]
  ring

lemma defect_comm (P : Prob ι K) (d : Dir) (v u : ι → K) : defect P d v u = defect P d u v := by
  unfold defect faceBoundary
  rw [add_comm]
  congr 2
  refine List.map_congr_left fun f _ => ?_
  congr 1
  refine List.map_congr_left fun p _ => by ring

lemma defect_zero (P : Prob ι K) (d : Dir) (v : ι → K) : defect P d v 0 = 0 := by
  have := defect_smul P d v 0 0
  simpa using this

lemma defect_zero' (P : Prob ι K) (d : Dir) (v : ι → K) : defect P d 0 v = 0 := by rw [defect_comm, defect_zero]

/-- Only walls that reflect everything. -/
def Mirrors (P : Prob ι K) : Prop :=
  (∀ q ∈ P.interior, q.1 = none ∨ q.1 = some .PEC ∨ q.1 = some .PMC) ∧ ∀ q ∈ P.bdr, q.1 = some .PEC ∨ q.1 = some .PMC

lemma dissBdr_mirror (c : BdrCond) (hc : c = .PEC ∨ c = .PMC) (f : Face ι K) (u : State ι K) : dissBdr 0 c f u = 0 := by
  unfold dissBdr
  rcases hc with rfl | rfl <;> simp [bdrWeight]

lemma dissipation_mirror (P : Prob ι K) (h : Mirrors P) (ha : P.alpha = 0) (hs : P.Msig = 0) (u : State ι K) : dissipation P u = 0 := by
  unfold dissipation
  rw [hs, ha]
  have h3 : ∀ a b c : K, a = 0 → b = 0 → c = 0 → a + b + c = 0 := by
    rintro _ _ _ rfl rfl rfl; simp
  refine h3 _ _ _ (List.sum_eq_zero fun x hx => ?_) (List.sum_eq_zero fun x hx => ?_) (by simp)
  · obtain ⟨q, hq, rfl⟩ := List.mem_map.1 hx
    rcases h.1 q hq with h | h | h
    · simp only [h]; simp [dissInterior]
    · simp only [h]; exact dissBdr_mirror _ (.inl rfl) _ _
    · simp only [h]; exact dissBdr_mirror _ (.inr rfl) _ _
  · obtain ⟨q, hq, rfl⟩ := List.mem_map.1 hx
    rcases h.2 q hq with h | h
    · simp only [h]; exact dissBdr_mirror _ (.inl rfl) _ _
    · simp only [h]; exact dissBdr_mirror _ (.inr rfl) _ _

/-- The state with one component of `E` and one of `H`. -/
def pairState (d : Dir) (v w : ι → K) : State ι K
  | .E, c => if c = d + 2 then v else 0
  | .H, c => if c = d + 1 then w else 0

lemma pairState_E (d c : Dir) (v w : ι → K) : pairState d v w .E c = if c = d + 2 then v else 0 := rfl

lemma pairState_H (d c : Dir) (v w : ι → K) : pairState d v w .H c = if c = d + 1 then w else 0 := rfl

lemma gap_pair (P : Prob ι K) (d : Dir) (hd : d.val < P.dim) (v w : ι → K) : gap P (pairState d v w) = defect P d v w := by
  unfold gap
  rw [Finset.sum_eq_single d]
  · rw [if_pos hd]
    have h1 : pairState d v w .E (d + 2) = v := by simp [pairState]
    have h2 : pairState d v w .H (d + 1) = w := by simp [pairState]
    have h3 : pairState d v w .E (d + 1) = 0 := by
      rw [pairState_E, if_neg]; clear hd h1 h2; revert d; decide
    rw [h1, h2, h3, defect_zero', sub_zero]
  · intro x _ hx
    split
    · have h1 : pairState d v w .E (x + 2) = 0 := by
        rw [pairState_E, if_neg]; clear hd; intro h; exact hx (add_right_cancel h)
      have h2 : pairState d v w .E (x + 1) = 0 ∨ pairState d v w .H (x + 2) = 0 := by
        by_cases h : x + 1 = d + 2
        · right
          rw [pairState_H, if_neg]; clear hd h1; intro h'; revert h h'; clear * -; revert d x; decide
        · left
          rw [pairState_E, if_neg h]
      rw [h1, defect_zero']
      rcases h2 with h2 | h2 <;> rw [h2]
      · rw [defect_zero', sub_zero]
      · rw [defect_zero, sub_zero]
    · rfl
  · simp

/-- Without damping, and between walls that reflect everything, the energy never grows exactly if discrete integration by parts holds: where a
quadrature is not exact enough, some fields gain energy. -/
theorem C141_exact_iff (P : Prob ι K) (M : FieldT → Matrix ι ι K) (h : Regular P M) (hm : Mirrors P) (ha : P.alpha = 0) (hs : P.Msig = 0) :
    (∀ u, energyRate M u (globalMult P u) ≤ 0) ↔ SBP P := by
  have e : ∀ u, energyRate M u (globalMult P u) = gap P u := fun u => by
    rw [energy_gap P M h, dissipation_mirror P hm ha hs]; simp
  constructor
  · intro H d hd v w
    have h1 := H (pairState d v w)
    have h2 := H (pairState d v ((-1 : K) • w))
    rw [e, gap_pair P d hd] at h1 h2
    rw [defect_smul] at h2
    have : defect P d v w = 0 := by linarith
    unfold defect at this
    linarith
  · intro H u
    rw [e, gap_zero H]

end

/-! ### straight simplices: no condition on the signs of the weights -/

section
variable {n : Nat} {ι : Type} [Fintype ι] [DecidableEq ι]

/-- Trace on the first and second side, as polynomials on the face. -/
noncomputable def trace1 (f : FemFace n ι ℝ) (u : ι → ℝ) : Poly n ℝ := f.s1.restrict (fld f.s1.e u)

noncomputable def trace2 (f : FemFace n ι ℝ) (u : ι → ℝ) : Poly n ℝ :=
  match f.s2 with
  | some s => s.restrict (fld s.e u)
  | none => 0

lemma trace1_eq (f : FemFace n ι ℝ) (q : ℝ × (Fin n → ℝ)) (u : ι → ℝ) : tr1 f.toFace (point f q) u = eval q.2 (trace1 f u) :=
  tr1_eq f q (point f q) (fun _ => rfl) u

lemma trace2_eq (f : FemFace n ι ℝ) (q : ℝ × (Fin n → ℝ)) (u : ι → ℝ) : tr2 f.toFace (point f q) u = eval q.2 (trace2 f u) := by
  unfold trace2
  cases hs : f.s2 with
  | none =>
    have : f.toFace.ndof2 = 0 := by simp [FemFace.toFace, hs]
    simp [tr2, this]
  | some s => exact tr2_eq f s hs q (point f q) (fun _ => by simp [point, hs]) u

/-- Sum over the points of a face of the squared tangential part of a polynomial field. -/
noncomputable def tangential (f : FemFace n ι ℝ) (R : Dir → Poly n ℝ) : ℝ :=
  (f.rule.map fun q => q.1 * f.W q.2 * tanSq (point f q) fun d => eval q.2 (R d)).sum

lemma three_squares (hn : n < 3) {p : Nat} {r : Rule n ℝ} (hq : Exact (p + p) r) (A B D : Poly n ℝ) (hA : A.totalDegree ≤ p) (hB : B.totalDegree ≤ p)
    (hD : D.totalDegree ≤ p) : 0 ≤ (r.map fun q => q.1 * eval q.2 (A * A + B * B + D * D)).sum := by
  rw [hq _ (degree_add_le (degree_add_le (degree_mul_le hA hA) (degree_mul_le hB hB)) (degree_mul_le hD hD)), map_add, map_add]
  exact add_nonneg (add_nonneg (integral_sq_nonneg hn A) (integral_sq_nonneg hn B)) (integral_sq_nonneg hn D)

lemma flat_nonneg (hn : n < 3) {p : Nat} (f : FemFace n ι ℝ) (h1 : Outward f.s1) (g1 : ∀ d, (f.s1.e.geom d).totalDegree ≤ 1)
    (hq : Exact (p + p) f.rule) (hpt : ∀ q ∈ f.rule, GeoPt (n + 1) (point f q)) (R : Dir → Poly n ℝ) (hR : ∀ d, (R d).totalDegree ≤ p) :
    0 ≤ tangential f R := by
  unfold tangential
  -- the normal does not depend on the point
  have hc : ∀ d : Dir, ∃ c : ℝ, ∀ q, normalTerm (point f q).nor d = c := by
    intro d
    by_cases hd : d.val < n + 1
    · have hN := normal_eq hn f.s1 ⟨d.val, hd⟩
      rw [Finset.sum_congr rfl fun k _ => by rw [h1.getD]] at hN
      have hD : ((normal f.s1).getD (⟨d.val, hd⟩ : Fin (n + 1)) 0).totalDegree ≤ 0 := by
        rw [hN]
        refine degree_sum_le fun k _ => ?_
        have := degree_mul_le (b := 0) (degree_restrict f.s1 (degree_adj hn _ g1 k ⟨d.val, hd⟩)) (q := C (refNormal f.s1.face k)) (by simp)
        simpa using this
      obtain ⟨c, hc⟩ : ∃ c, (normal f.s1).getD (⟨d.val, hd⟩ : Fin (n + 1)) 0 = C c :=
        ⟨_, totalDegree_eq_zero_iff_eq_C.1 (Nat.le_zero.1 hD)⟩
      refine ⟨c, fun q => ?_⟩
      change normalTerm ((normal f.s1).map fun c => eval q.2 c) d = c
      rw [normal_term f q d hd, hc, eval_C]
    · refine ⟨0, fun q => ?_⟩
      change normalTerm ((normal f.s1).map fun c => eval q.2 c) d = 0
      unfold normalTerm
      rw [List.getElem?_eq_none (by rw [List.length_map, normal_length hn]; omega)]
      rfl
  choose N hN using hc
  obtain ⟨ω, hω⟩ : ∃ ω, ω = Real.sqrt (N 0 ^ 2 + N 1 ^ 2 + N 2 ^ 2) := ⟨_, rfl⟩
  have hW : ∀ q ∈ f.rule, f.W q.2 = ω := by
    intro q hq
    have g := hpt q hq
    have := g.norm
    rw [hN, hN, hN] at this
    rw [hω, this]
    exact (Real.sqrt_sq g.W_pos.le).symm
  have hω0 : 0 ≤ ω := by rw [hω]; exact Real.sqrt_nonneg _
  have hCR : ∀ (c : ℝ) d, (C c * R d).totalDegree ≤ p := fun c d => by
    have := degree_mul_le (a := 0) (p := C c) (by simp) (hR d)
    simpa using this
  have e : (f.rule.map fun q => q.1 * f.W q.2 * tanSq (point f q) fun d => eval q.2 (R d)) =
      f.rule.map fun q => ω * (q.1 * eval q.2 ((C (N 1 / ω) * R 2 - C (N 2 / ω) * R 1) * (C (N 1 / ω) * R 2 - C (N 2 / ω) * R 1) +
        (C (N 2 / ω) * R 0 - C (N 0 / ω) * R 2) * (C (N 2 / ω) * R 0 - C (N 0 / ω) * R 2) +
        (C (N 0 / ω) * R 1 - C (N 1 / ω) * R 0) * (C (N 0 / ω) * R 1 - C (N 1 / ω) * R 0))) := by
    refine List.map_congr_left fun q hq => ?_
    unfold tanSq
    have hw : (point f q).W = ω := hW q hq
    simp only [hN, hw, hW q hq, map_add, map_sub, map_mul, eval_C]
    ring
  rw [e, List.sum_map_mul_left]
  exact mul_nonneg hω0 (three_squares hn hq _ _ _ (degree_sub_le (hCR _ _) (hCR _ _)) (degree_sub_le (hCR _ _) (hCR _ _))
    (degree_sub_le (hCR _ _) (hCR _ _)))

lemma exact_mono {D a b : Nat} {r : Rule D ℝ} (h : Exact b r) (hab : a ≤ b) : Exact a r := fun q hq => h q (hq.trans hab)

/-- On straight segments, triangles and tetrahedra the energy never grows, whatever quadratures of the orders the code asks for are used:
also those with negative weights. -/
theorem C141_energy (F : Fem n ι ℝ) {p : Nat} (h : Simplicial F p 1) (M : FieldT → Matrix ι ι ℝ) (hr : Regular F.prob M) (ha : 0 ≤ F.alpha)
    (hs : ∀ v : ι → ℝ, 0 ≤ v ⬝ᵥ F.Msig.mulVec v) (u : State ι ℝ) : energyRate M u (globalMult F.prob u) ≤ 0 := by
  rw [C141_balance F h M hr]
  suffices 0 ≤ dissipation F.prob u by linarith
  have hm : ∀ f ∈ Spec.faces F, ∀ x ∈ Spec.sides f, ∃ e ∈ F.els, x.1 = e.1 := by
    intro f hf x hx
    have := h.cover.subset (List.mem_flatMap.2 ⟨f, hf, hx⟩)
    obtain ⟨e, he, hx⟩ := List.mem_flatMap.1 this
    obtain ⟨g, _, hg⟩ := List.mem_map.1 hx
    exact ⟨e, he, by rw [← hg]⟩
  have key : ∀ f ∈ Spec.faces F, ∀ R : Dir → Poly n ℝ, (∀ d, (R d).totalDegree ≤ p) →
      0 ≤ tangential f R := by
    intro f hf R hR
    obtain ⟨e1, he1, hx1⟩ := hm f hf (f.s1.e, f.s1.face) (by simp [Spec.sides])
    have hx1 : f.s1.e = e1.1 := hx1
    refine flat_nonneg h.dim f (h.one f hf) (by rw [hx1]; exact h.geom e1 he1) (exact_mono (h.surface f hf) ?_) (fun q hq => ?_) R hR
    · have := order_le (n := n) (p := p) (m := 1) f.s2
      simpa using this
    · refine hr.pts f.toFace ?_ _ (List.mem_map_of_mem (f := point f) hq)
      have : f.toFace ∈ (Spec.faces F).map FemFace.toFace := List.mem_map_of_mem hf
      simpa [allFaces, Fem.prob, Spec.faces, List.map_map, Function.comp_def] using this
  have dtr1 : ∀ f ∈ Spec.faces F, ∀ v : ι → ℝ, (trace1 f v).totalDegree ≤ p := by
    intro f hf v
    obtain ⟨e1, he1, hx1⟩ := hm f hf (f.s1.e, f.s1.face) (by simp [Spec.sides])
    have hx1 : f.s1.e = e1.1 := hx1
    exact degree_restrict _ (fld_degree _ (by rw [hx1]; exact h.shape e1 he1) v)
  have dtr2 : ∀ f ∈ Spec.faces F, ∀ v : ι → ℝ, (trace2 f v).totalDegree ≤ p := by
    intro f hf v
    unfold trace2
    cases hs : f.s2 with
    | none => simp
    | some s =>
      obtain ⟨e1, he1, hx1⟩ := hm f hf (s.e, s.face) (by simp [Spec.sides, hs])
      have hx1 : s.e = e1.1 := hx1
      exact degree_restrict _ (fld_degree _ (by rw [hx1]; exact h.shape e1 he1) v)
  have kI : ∀ f ∈ Spec.faces F, 0 ≤ dissInterior F.alpha f.toFace u := by
    intro f hf
    have k := fun g => key f hf (fun d => trace1 f (u g d) - trace2 f (u g d)) fun d => degree_sub_le (dtr1 f hf _) (dtr2 f hf _)
    have : dissInterior F.alpha f.toFace u = 1 / 2 * F.alpha *
        (tangential f (fun d => trace1 f (u .E d) - trace2 f (u .E d)) +
        tangential f (fun d => trace1 f (u .H d) - trace2 f (u .H d))) := by
      unfold tangential
      rw [list_sum_add, ← List.sum_map_mul_left]
      change ((f.rule.map (point f)).map _).sum = _
      rw [List.map_map]
      congr 1
      refine List.map_congr_left fun q _ => ?_
      simp only [Function.comp, trace1_eq, trace2_eq, map_sub]
      change 1 / 2 * F.alpha * q.1 * f.W q.2 * _ = _
      ring
    rw [this]
    exact mul_nonneg (mul_nonneg (by norm_num) ha) (add_nonneg (k .E) (k .H))
  have kB : ∀ f ∈ Spec.faces F, ∀ c, 0 ≤ dissBdr F.alpha c f.toFace u := by
    intro f hf c
    have k1 := fun g => key f hf (fun d => trace1 f (u g d)) fun d => dtr1 f hf _
    have k2 := fun g => key f hf (fun d => trace2 f (u g d)) fun d => dtr2 f hf _
    have hw : ∀ g, 0 ≤ bdrWeight F.alpha c g := by
      intro g; cases c <;> cases g <;> simp only [bdrWeight] <;> positivity
    have : dissBdr F.alpha c f.toFace u = bdrWeight F.alpha c .E *
        (tangential f (fun d => trace1 f (u .E d)) + tangential f (fun d => trace2 f (u .E d))) + bdrWeight F.alpha c .H *
        (tangential f (fun d => trace1 f (u .H d)) + tangential f (fun d => trace2 f (u .H d))) := by
      unfold tangential
      rw [list_sum_add, list_sum_add, ← List.sum_map_mul_left, ← List.sum_map_mul_left, list_sum_add]
      change ((f.rule.map (point f)).map _).sum = _
      rw [List.map_map]
      congr 1
      refine List.map_congr_left fun q _ => ?_
      simp only [Function.comp, trace1_eq, trace2_eq]
      change q.1 * f.W q.2 * _ = _
      ring
    rw [this]
    exact add_nonneg (mul_nonneg (hw .E) (add_nonneg (k1 .E) (k2 .E))) (mul_nonneg (hw .H) (add_nonneg (k1 .H) (k2 .H)))
  unfold dissipation
  refine add_nonneg (add_nonneg (List.sum_nonneg ?_) (List.sum_nonneg ?_)) (Finset.sum_nonneg fun d _ => hs _)
  · intro x hx
    obtain ⟨q, hq, rfl⟩ := List.mem_map.1 hx
    obtain ⟨g, hg, rfl⟩ := List.mem_map.1 hq
    have hf : g.2 ∈ Spec.faces F := List.mem_append_left _ (List.mem_map_of_mem (f := Prod.snd) hg)
    obtain ⟨o, f⟩ := g
    cases o with
    | none => exact kI f hf
    | some c => exact kB f hf c
  · intro x hx
    obtain ⟨q, hq, rfl⟩ := List.mem_map.1 hx
    obtain ⟨g, hg, rfl⟩ := List.mem_map.1 hq
    have hf : g.2 ∈ Spec.faces F := List.mem_append_right _ (List.mem_map_of_mem (f := Prod.snd) hg)
    obtain ⟨o, f⟩ := g
    cases o with
    | none => exact le_refl _
    | some c => exact kB f hf c

end

/-! ### quadrilaterals -/

/-- Gauss' rule of two points on the segment from 0 to 1. -/
noncomputable def gauss2 : List (ℝ × ℝ) := [(1 / 2, (1 - 1 / √3) / 2), (1 / 2, (1 + 1 / √3) / 2)]

/-- A quadrilateral with one curved side: the unit square stretched by `1 + c x³` across. -/
noncomputable def bulge (c : ℝ) : Elem 1 (Fin 4) ℝ :=
  { geom := ![X 0, X 1 * (1 + C c * X 0 ^ 3)]
    size := 4
    shape := bilinear
    dof := fun i => match i with | 0 => 0 | 1 => 1 | 2 => 2 | _ => 3 }

/-- The function `x`. -/
def ramp : Fin 4 → ℝ := ![0, 1, 1, 0]

lemma fld_ramp (c : ℝ) : fld (bulge c) ramp = X 0 := by
  simp [fld, bulge, Finset.sum_range_succ, bilinear, ramp]
  ring

lemma bulge_adj (c : ℝ) : (bulge c).adj 0 0 = 1 + C c * X 0 ^ 3 := by
  rw [adj_one]
  simp [Elem.jac, bulge, pderiv_mul]

lemma quad_tr1 (c : ℝ) (r : Rule 1 ℝ) (W : Fin 4 → (Fin 1 → ℝ) → ℝ) (k : Fin 4) (q : ℝ × (Fin 1 → ℝ)) (p : Pt ℝ)
    (hp : ∀ i, p.sh1 i = eval q.2 (bind₁ (edge k) ((bulge c).shape i))) : tr1 (quadFace (bulge c) r W k) p ramp = eval q.2 (edge k 0) := by
  have : tr1 (quadFace (bulge c) r W k) p ramp = eval q.2 (bind₁ (edge k) (fld (bulge c) ramp)) := by
    unfold tr1 fld
    simp only [map_sum, map_mul, bind₁_C_right, eval_C]
    refine Finset.sum_congr rfl fun i hi => ?_
    rw [hp, mul_comm]
    rfl
  rw [this, fld_ramp, bind₁_X_right]

lemma integral_C (a : ℝ) : integral 1 (C a) = a := by
  rw [← monomial_zero', integral_monomial]
  simp [moment]

lemma integral_quartic : integral 1 ((1 - X 0 : Poly 1 ℝ) ^ 4) = 1 / 5 := by
  have := integral_bary (n := 1) (K := ℝ) ![4, 0]
  simp [Fin.prod_univ_succ, Fin.sum_univ_succ, bary, Nat.factorial] at this
  rw [this]
  norm_num

/-- The boundary integral of `n_x x²`. -/
lemma bulge_boundary (c : ℝ) (r : Rule 1 ℝ) (hr : Exact 4 r) (W : Fin 4 → (Fin 1 → ℝ) → ℝ) (Minv : FieldT → Matrix (Fin 4) (Fin 4) ℝ) (vol : Rule 2 ℝ) :
    ((allFaces (quadProb (bulge c) vol r W Minv)).map fun f => faceBoundary f 0 ramp ramp).sum = 1 + 2 * c / 5 := by
  have hb : ∀ k, faceBoundary (quadFace (bulge c) r W k) 0 ramp ramp =
      (r.map fun q => q.1 * eval q.2 (pderiv 0 (bind₁ (edge k) ((bulge c).geom 1)) * (edge k 0 * edge k 0))).sum := by
    intro k
    unfold faceBoundary
    have h2 : ∀ p, tr2 (quadFace (bulge c) r W k) p ramp = 0 := fun p => by simp [tr2, quadFace]
    simp only [h2, mul_zero, sub_zero]
    change ((r.map _).map _).sum = _
    rw [List.map_map]
    congr 1
    refine List.map_congr_left fun q _ => ?_
    simp only [Function.comp]
    rw [quad_tr1 c r W k q _ fun _ => rfl]
    simp [normalTerm]
    ring
  have hx : (bulge c).geom 1 = X 1 * (1 + C c * X 0 ^ 3) := rfl
  have b0 : faceBoundary (quadFace (bulge c) r W 0) 0 ramp ramp = 0 := by
    rw [hb, hx]; simp [edge]
  have b1 : faceBoundary (quadFace (bulge c) r W 1) 0 ramp ramp = 1 + c := by
    rw [hb, hx]
    have : pderiv 0 (bind₁ (edge 1) (X 1 * (1 + C c * X 0 ^ 3))) * (edge 1 0 * edge 1 0) = (C (1 + c) : Poly 1 ℝ) := by
      simp [edge, pderiv_mul]
    rw [this, hr _ (by rw [totalDegree_C]; omega), integral_C]
  have b2 : faceBoundary (quadFace (bulge c) r W 2) 0 ramp ramp = -(3 * c / 5) := by
    rw [hb, hx]
    have : pderiv 0 (bind₁ (edge 2) (X 1 * (1 + C c * X 0 ^ 3))) * (edge 2 0 * edge 2 0) = (C (-(3 * c)) * (1 - X 0) ^ 4 : Poly 1 ℝ) := by
      have h3 : (C 3 : Poly 1 ℝ) = 3 := map_ofNat C 3
      simp [edge, pderiv_mul, pderiv_pow, h3]
      ring
    have hd : (C (-(3 * c)) * (1 - X 0) ^ 4 : Poly 1 ℝ).totalDegree ≤ 4 := by
      have h1 : (1 - X 0 : Poly 1 ℝ).totalDegree ≤ 1 := degree_sub_le (by simp) (by simp)
      have h4 := (totalDegree_pow (1 - X 0 : Poly 1 ℝ) 4).trans (Nat.mul_le_mul_left 4 h1)
      exact degree_mul_le (a := 0) (p := (C (-(3 * c)) : Poly 1 ℝ)) (by rw [totalDegree_C]) h4
    rw [this, hr _ hd, ← smul_eq_C_mul, map_smul, integral_quartic, smul_eq_mul]
    ring
  have b3 : faceBoundary (quadFace (bulge c) r W 3) 0 ramp ramp = 0 := by
    rw [hb]; simp [edge]
  have hl : allFaces (quadProb (bulge c) vol r W Minv) = [quadFace (bulge c) r W 0, quadFace (bulge c) r W 1, quadFace (bulge c) r W 2,
      quadFace (bulge c) r W 3] := rfl
  rw [hl]
  simp only [List.map_cons, List.map_nil, List.sum_cons, List.sum_nil, b0, b1, b2, b3]
  ring

/-- On quadrilaterals whose sides are cubic curves and fields of the first order, the quadrature the code asks for has two points in each
direction; discrete integration by parts fails, whatever the quadrature on the sides (of the order asked for). -/
theorem C141_square_fails (c : ℝ) (hc : c ≠ 0) (r : Rule 1 ℝ) (hr : Exact (faceOrder .Qk 2 1 (orderW .Qk 2 3) none) r)
    (W : Fin 4 → (Fin 1 → ℝ) → ℝ) (Minv : FieldT → Matrix (Fin 4) (Fin 4) ℝ) :
    gaussPoints (volumeOrder 2 1 3) = gauss2.length ∧ ¬SBP (quadProb (bulge c) (tensor gauss2) r W Minv) := by
  refine ⟨rfl, fun h => ?_⟩
  have h := h 0 (by change 0 < 2; omega) ramp ramp
  rw [bulge_boundary c r (exact_mono hr (by decide))] at h
  change ramp ⬝ᵥ (derivMatrix [(bulge c, tensor gauss2)] 0).mulVec ramp + ramp ⬝ᵥ (derivMatrix [(bulge c, tensor gauss2)] 0).mulVec ramp = _ at h
  rw [deriv_form _ 0 (by decide)] at h
  simp only [List.map_cons, List.map_nil, List.sum_cons, List.sum_nil, add_zero, fld_ramp] at h
  have hp : (X 0 * ∑ k, (bulge c).adj k ⟨(0 : Dir).val, by decide⟩ * pderiv k (X 0) : Poly 2 ℝ) = X 0 * (1 + C c * X 0 ^ 3) := by
    have : (⟨(0 : Dir).val, by decide⟩ : Fin 2) = 0 := rfl
    rw [this]
    rw [Fin.sum_univ_two, bulge_adj]
    simp [pderiv_X]
  rw [hp] at h
  have hs : √3 ^ 2 = (3 : ℝ) := Real.sq_sqrt (by norm_num)
  have h0 : √3 ≠ (0 : ℝ) := by positivity
  have hi : (1 / √3) ^ 2 = (1 / 3 : ℝ) := by rw [div_pow, hs]; norm_num
  simp [tensor, gauss2] at h
  obtain ⟨s, hs'⟩ : ∃ s, s = (√3)⁻¹ := ⟨_, rfl⟩
  rw [← hs'] at h
  have hq : s ^ 2 = 1 / 3 := by rw [hs', ← one_div]; exact hi
  have h4 : s ^ 4 = 1 / 9 := by
    have : s ^ 4 = (s ^ 2) ^ 2 := by ring
    rw [this, hq]; norm_num
  apply hc
  nlinarith [h, hq, h4]

/-- The sides of the curved quadrilateral have everywhere a normal of length `Trans.Weight()`. -/
noncomputable def bulgeW (c : ℝ) (k : Fin 4) (x : Fin 1 → ℝ) : ℝ :=
  √(eval x (pderiv 0 (bind₁ (edge k) ((bulge c).geom 1))) ^ 2 + eval x (pderiv 0 (bind₁ (edge k) ((bulge c).geom 0))) ^ 2)

lemma bulge_length (c : ℝ) (hc : 0 ≤ c) (k : Fin 4) (x : Fin 1 → ℝ) :
    0 < eval x (pderiv 0 (bind₁ (edge k) ((bulge c).geom 1))) ^ 2 + eval x (pderiv 0 (bind₁ (edge k) ((bulge c).geom 0))) ^ 2 := by
  have h1 : (bulge c).geom 1 = X 1 * (1 + C c * X 0 ^ 3) := rfl
  have h0 : (bulge c).geom 0 = X 0 := rfl
  rw [h1, h0]
  fin_cases k <;> simp [edge, pderiv_mul] <;> positivity

lemma bulge_regular (c : ℝ) (hc : 0 ≤ c) (vol : Rule 2 ℝ) (r : Rule 1 ℝ) : Regular (quadProb (bulge c) vol r (bulgeW c) fun _ => 1) fun _ => 1 := by
  refine ⟨by change 2 ≤ 3; omega, fun f hf p hp => ?_, fun q hq => ?_, fun q hq => ?_, fun q hq => ?_, fun _ => by simp [quadProb], fun _ => by simp⟩
  · have : f ∈ (List.finRange 4).map fun k => quadFace (bulge c) r (bulgeW c) k := by
      simpa [allFaces, quadProb, List.map_map, Function.comp_def] using hf
    obtain ⟨k, _, rfl⟩ := List.mem_map.1 this
    obtain ⟨q, _, rfl⟩ := List.mem_map.1 hp
    have hl := bulge_length c hc k q.2
    refine ⟨Real.sqrt_pos.2 hl, rfl, ?_⟩
    change _ = (bulgeW c k q.2) ^ 2
    rw [bulgeW, Real.sq_sqrt hl.le]
    simp [normalTerm]
  · obtain ⟨k, _, rfl⟩ := List.mem_map.1 hq
    simp
  · obtain ⟨k, _, rfl⟩ := List.mem_map.1 hq
    rfl
  · exact absurd hq (by simp [quadProb])

/-- Hence in a box of one such element, without losses, there are fields whose energy grows. -/
theorem C141_grows_fails (c : ℝ) (hc : 0 < c) (r : Rule 1 ℝ) (hr : Exact (faceOrder .Qk 2 1 (orderW .Qk 2 3) none) r) :
    ∃ u : State (Fin 4) ℝ, 0 < energyRate (fun _ => 1) u (globalMult (quadProb (bulge c) (tensor gauss2) r (bulgeW c) fun _ => 1) u) := by
  by_contra hu
  push Not at hu
  refine (C141_square_fails c hc.ne' r hr (bulgeW c) fun _ => 1).2 ((C141_exact_iff _ _ (bulge_regular c hc.le _ r) ⟨?_, ?_⟩ rfl rfl).1 hu)
  · intro q hq
    exact absurd hq (by simp [quadProb])
  · intro q hq
    obtain ⟨k, _, rfl⟩ := List.mem_map.1 hq
    exact .inl rfl

/-! ### meshes of triangles and quadrilaterals -/

/-- The unit square with the degrees of freedom `dof`. -/
noncomputable def square {ι : Type} (dof : Nat → ι) : Elem 1 ι ℝ := { geom := ![X 0, X 1], size := 4, shape := bilinear, dof := dof }

/-- On a mesh whose positions have an order above one and whose first element is a triangle, quadrilaterals are integrated with the rule of
the triangle; discrete integration by parts fails, whatever the orders. -/
theorem C141_mixed_fails {ι : Type} [Fintype ι] [DecidableEq ι] (N : Nat) (vol : Rule 2 ℝ) (hv : Exact N vol) (r : Rule 1 ℝ) (hr : Exact 1 r)
    (dof : Nat → ι) (hd : ∀ i < 4, ∀ j < 4, dof i = dof j → i = j) (tri : Elem 1 ι ℝ) (ht : ∀ i, ∀ j < 4, tri.dof i ≠ dof j)
    (others : List (Option BdrCond × Face ι ℝ)) (ho : ∀ q ∈ others, q.2.ndof2 = 0 ∧ ∀ i, ∀ j < 4, q.2.dofs i ≠ dof j)
    (W : Fin 4 → (Fin 1 → ℝ) → ℝ) (sh2 : Nat → ℝ) (Minv : FieldT → Matrix ι ι ℝ) :
    ¬SBP (mixedProb tri (square dof) vol r W sh2 others Minv) := by
  intro h
  let v : ι → ℝ := fun i => if i = dof 1 ∨ i = dof 2 then 1 else 0
  let u : ι → ℝ := fun i => if i = dof 0 ∨ i = dof 1 ∨ i = dof 2 ∨ i = dof 3 then 1 else 0
  have d01 : dof 0 ≠ dof 1 := fun e => absurd (hd 0 (by omega) 1 (by omega) e) (by omega)
  have d02 : dof 0 ≠ dof 2 := fun e => absurd (hd 0 (by omega) 2 (by omega) e) (by omega)
  have d31 : dof 3 ≠ dof 1 := fun e => absurd (hd 3 (by omega) 1 (by omega) e) (by omega)
  have d32 : dof 3 ≠ dof 2 := fun e => absurd (hd 3 (by omega) 2 (by omega) e) (by omega)
  have hvd : v (dof 0) = 0 ∧ v (dof 1) = 1 ∧ v (dof 2) = 1 ∧ v (dof 3) = 0 := by
    refine ⟨?_, ?_, ?_, ?_⟩ <;> simp [v, d01, d02, d31, d32]
  have hud : u (dof 0) = 1 ∧ u (dof 1) = 1 ∧ u (dof 2) = 1 ∧ u (dof 3) = 1 := by
    refine ⟨?_, ?_, ?_, ?_⟩ <;> simp [u]
  have hvz : ∀ i, (∀ j < 4, i ≠ dof j) → v i = 0 := fun i hi => by
    simp [v, hi 1 (by omega), hi 2 (by omega)]
  have huz : ∀ i, (∀ j < 4, i ≠ dof j) → u i = 0 := fun i hi => by
    simp [u, hi 0 (by omega), hi 1 (by omega), hi 2 (by omega), hi 3 (by omega)]
  have fv : fld (square dof) v = X 0 := by
    obtain ⟨h0, h1, h2, h3⟩ := hvd
    simp [fld, square, Finset.sum_range_succ, bilinear, h0, h1, h2, h3]
    ring
  have fu : fld (square dof) u = 1 := by
    obtain ⟨h0, h1, h2, h3⟩ := hud
    simp [fld, square, Finset.sum_range_succ, bilinear, h0, h1, h2, h3]
    ring
  have tv : fld tri v = 0 := Finset.sum_eq_zero fun i _ => by rw [hvz _ (ht i)]; simp
  have tu : fld tri u = 0 := Finset.sum_eq_zero fun i _ => by rw [huz _ (ht i)]; simp
  have h := h 0 (by change 0 < 2; omega) v u
  -- volume
  change v ⬝ᵥ (derivMatrix [(tri, vol), (square dof, vol)] 0).mulVec u + u ⬝ᵥ (derivMatrix [(tri, vol), (square dof, vol)] 0).mulVec v = _ at h
  rw [deriv_form _ 0 (by decide), deriv_form _ 0 (by decide)] at h
  simp only [List.map_cons, List.map_nil, List.sum_cons, List.sum_nil, add_zero, fv, fu, tv, tu, map_zero, mul_zero, zero_mul, zero_add,
    List.map_const', List.sum_replicate, smul_zero, Derivation.map_one_eq_zero, Finset.sum_const_zero, one_mul] at h
  have ha : (∑ k, (square dof).adj k ⟨(0 : Dir).val, by decide⟩ * pderiv k (X 0) : Poly 2 ℝ) = 1 := by
    have : (⟨(0 : Dir).val, by decide⟩ : Fin 2) = 0 := rfl
    rw [this, adj_one]
    simp [Fin.sum_univ_two, Elem.jac, square, pderiv_X]
  rw [ha, hv 1 (by simp)] at h
  have hi : integral 2 (1 : Poly 2 ℝ) = 1 / 2 := by
    rw [← C_1, ← monomial_zero', integral_monomial]
    simp [moment]
  rw [hi] at h
  -- faces of the square
  have tq : ∀ (k : Fin 4) (q : ℝ × (Fin 1 → ℝ)) (f : Face ι ℝ) (p : Pt ℝ) (w : ι → ℝ), f.ndof1 = 4 → (∀ i < 4, f.dofs i = dof i) →
      (∀ i, p.sh1 i = eval q.2 (bind₁ (edge k) (bilinear i))) → tr1 f p w = eval q.2 (bind₁ (edge k) (fld (square dof) w)) := by
    intro k q f p w hf hdof hp
    unfold tr1 fld
    simp only [map_sum, map_mul, bind₁_C_right, eval_C, hf]
    refine Finset.sum_congr rfl fun i hi => ?_
    rw [hp, mul_comm, hdof i (Finset.mem_range.1 hi)]
    rfl
  have tb : ∀ k, faceBoundary (quadFace (square dof) r W k) 0 v u =
      (r.map fun q => q.1 * eval q.2 (pderiv 0 (edge k 1) * edge k 0)).sum := by
    intro k
    unfold faceBoundary
    have h2 : ∀ p w, tr2 (quadFace (square dof) r W k) p w = 0 := fun p w => by simp [tr2, quadFace]
    simp only [h2, mul_zero, sub_zero]
    change ((r.map _).map _).sum = _
    rw [List.map_map]
    congr 1
    refine List.map_congr_left fun q _ => ?_
    simp only [Function.comp]
    rw [tq k q _ _ v rfl (fun _ _ => rfl) (fun _ => rfl), tq k q _ _ u rfl (fun _ _ => rfl) (fun _ => rfl), fv, fu]
    simp [normalTerm, square]
    ring
  have b0 : faceBoundary (quadFace (square dof) r W 0) 0 v u = 0 := by rw [tb]; simp [edge]
  have b2 : faceBoundary (quadFace (square dof) r W 2) 0 v u = 0 := by rw [tb]; simp [edge]
  have b3 : faceBoundary (quadFace (square dof) r W 3) 0 v u = 0 := by rw [tb]; simp [edge]
  obtain ⟨f1, hf1⟩ : ∃ f1 : Face ι ℝ, f1 =
      { ndof1 := 4
        ndof2 := tri.size
        dofs := fun i => if i < 4 then dof i else tri.dof (i - 4)
        pts := (quadFace (square dof) r W 1).pts.map fun p => { p with sh2 := sh2 } } := ⟨_, rfl⟩
  have b1 : faceBoundary f1 0 v u = 1 := by
    have h2 : ∀ p, tr2 f1 p v = 0 := fun p => by
      rw [hf1]
      unfold tr2
      refine Finset.sum_eq_zero fun i _ => ?_
      have : v (tri.dof i) = 0 := hvz _ (ht i)
      simp [this]
    unfold faceBoundary
    simp only [h2, zero_mul, sub_zero]
    have hp : f1.pts = r.map fun q =>
        { w := q.1
          W := W 1 q.2
          nor := [eval q.2 (pderiv 0 (bind₁ (edge 1) ((square dof).geom 1))), -eval q.2 (pderiv 0 (bind₁ (edge 1) ((square dof).geom 0)))]
          sh1 := fun i => eval q.2 (bind₁ (edge 1) ((square dof).shape i))
          sh2 := sh2 } := by
      rw [hf1]
      simp [quadFace, List.map_map, Function.comp_def]
    rw [hp, List.map_map]
    have : (1 : ℝ) = integral 1 (1 : Poly 1 ℝ) := by rw [← C_1, integral_C]
    rw [this, ← hr 1 (by simp)]
    congr 1
    refine List.map_congr_left fun q _ => ?_
    simp only [Function.comp]
    rw [tq 1 q f1 _ v (by rw [hf1]) (fun i hi => by rw [hf1]; exact if_pos hi) (fun _ => rfl),
      tq 1 q f1 _ u (by rw [hf1]) (fun i hi => by rw [hf1]; exact if_pos hi) (fun _ => rfl), fv, fu]
    simp [normalTerm, square, edge]
  have bo : (others.map fun q => faceBoundary q.2 0 v u).sum = 0 := by
    apply List.sum_eq_zero
    intro x hx
    obtain ⟨q, hq, rfl⟩ := List.mem_map.1 hx
    obtain ⟨h2, hz⟩ := ho q hq
    unfold faceBoundary
    apply List.sum_eq_zero
    intro x hx
    obtain ⟨p, _, rfl⟩ := List.mem_map.1 hx
    have t1 : tr1 q.2 p v = 0 := Finset.sum_eq_zero fun i _ => by rw [hvz _ (hz i), mul_zero]
    have t2 : tr2 q.2 p v = 0 := by simp [tr2, h2]
    rw [t1, t2]
    ring
  have hl : allFaces (mixedProb tri (square dof) vol r W sh2 others Minv) = [f1, quadFace (square dof) r W 0, quadFace (square dof) r W 2,
      quadFace (square dof) r W 3] ++ others.map Prod.snd := by
    rw [hf1]
    rfl
  rw [hl, List.map_append, List.sum_append, List.map_map] at h
  have bo' : (others.map ((fun f => faceBoundary f 0 v u) ∘ Prod.snd)).sum = 0 := bo
  rw [bo'] at h
  simp only [List.map_cons, List.map_nil, List.sum_cons, List.sum_nil, b0, b1, b2, b3] at h
  norm_num at h

/-! ### hexahedra -/

/-- The unit cube stretched by `1 + c x²` across: positions of the second order. -/
noncomputable def brick (c : ℝ) : Elem 2 (Fin 8) ℝ :=
  { geom := ![X 0, X 1 * (1 + C c * X 0 ^ 2), X 2 * (1 + C c * X 0 ^ 2)]
    size := 8
    shape := trilinear
    dof := fun i => match i with | 0 => 0 | 1 => 1 | 2 => 2 | 3 => 3 | 4 => 4 | 5 => 5 | 6 => 6 | _ => 7 }

def ramp3 : Fin 8 → ℝ := ![0, 1, 1, 0, 0, 1, 1, 0]

lemma fld_ramp3 (c : ℝ) : fld (brick c) ramp3 = X 0 := by
  simp [fld, brick, Finset.sum_range_succ, trilinear, ramp3]
  ring

lemma brick_adj (c : ℝ) : (brick c).adj 0 0 = (1 + C c * X 0 ^ 2) * (1 + C c * X 0 ^ 2) := by
  rw [adj_two]
  simp [Elem.jac, brick, pderiv_mul, pderiv_X]

lemma tensor_sum (r : List (ℝ × ℝ)) (f g : ℝ → ℝ) :
    ((tensor r).map fun q => q.1 * (f (q.2 0) * g (q.2 1))).sum = (r.map fun a => a.1 * f a.2).sum * (r.map fun a => a.1 * g a.2).sum := by
  unfold tensor
  have : ∀ l : List (ℝ × ℝ), ((l.flatMap fun a => r.map fun b => (a.1 * b.1, ![a.2, b.2])).map fun q : ℝ × (Fin 2 → ℝ) =>
      q.1 * (f (q.2 0) * g (q.2 1))).sum = (l.map fun a => a.1 * f a.2).sum * (r.map fun a => a.1 * g a.2).sum := by
    intro l
    induction l with
    | nil => simp
    | cons a l ih =>
      rw [List.flatMap_cons, List.map_append, List.sum_append, ih, List.map_cons, List.sum_cons, add_mul, List.map_map]
      congr 1
      rw [← List.sum_map_mul_left]
      congr 1
      refine List.map_congr_left fun b _ => ?_
      simp
      ring
  exact this r

/-- Moments of a rule on the segment. -/
lemma moments (r : List (ℝ × ℝ)) {N : Nat} (hr : Exact N (r.map fun a => (a.1, ![a.2]) : Rule 1 ℝ)) (k : Nat) (hk : k ≤ N) :
    (r.map fun a => a.1 * a.2 ^ k).sum = 1 / (k + 1) := by
  have := hr (X 0 ^ k) (by rw [totalDegree_X_pow]; exact hk)
  rw [List.map_map] at this
  have e : (X 0 ^ k : Poly 1 ℝ) = monomial (Finsupp.single 0 k) 1 := by rw [X_pow_eq_monomial]
  have hi : integral 1 (X 0 ^ k : Poly 1 ℝ) = 1 / (k + 1) := by
    rw [e, integral_monomial]
    have := fac_ne (K := ℝ) k
    simp [moment, Nat.factorial_succ]
    field_simp
  rw [← hi, ← this]
  congr 1
  refine List.map_congr_left fun a _ => by simp

lemma cube_tr1 (c : ℝ) (r : Rule 2 ℝ) (W : Fin 6 → (Fin 2 → ℝ) → ℝ) (k : Fin 6) (q : ℝ × (Fin 2 → ℝ)) (p : Pt ℝ)
    (hp : ∀ i, p.sh1 i = eval q.2 (bind₁ (cubeFace k) ((brick c).shape i))) : tr1 (hexFace (brick c) r W k) p ramp3 = eval q.2 (cubeFace k 0) := by
  have : tr1 (hexFace (brick c) r W k) p ramp3 = eval q.2 (bind₁ (cubeFace k) (fld (brick c) ramp3)) := by
    unfold tr1 fld
    simp only [map_sum, map_mul, bind₁_C_right, eval_C]
    refine Finset.sum_congr rfl fun i hi => ?_
    rw [hp, mul_comm]
    rfl
  rw [this, fld_ramp3, bind₁_X_right]

/-- The boundary integral of `n_x x²`. -/
lemma brick_boundary (c : ℝ) (r : List (ℝ × ℝ)) (hr : Exact 5 (r.map fun a => (a.1, ![a.2]) : Rule 1 ℝ)) (W : Fin 6 → (Fin 2 → ℝ) → ℝ)
    (Minv : FieldT → Matrix (Fin 8) (Fin 8) ℝ) (vol : Rule 3 ℝ) :
    ((allFaces (hexProb (brick c) vol r W Minv)).map fun f => faceBoundary f 0 ramp3 ramp3).sum = 1 + c + c ^ 2 / 3 := by
  have hb : ∀ k, faceBoundary (hexFace (brick c) (tensor r) W k) 0 ramp3 ramp3 = ((tensor r).map fun q => q.1 * eval q.2
      ((cubeJac (brick c) k 1 0 * cubeJac (brick c) k 2 1 - cubeJac (brick c) k 2 0 * cubeJac (brick c) k 1 1) *
        (cubeFace k 0 * cubeFace k 0))).sum := by
    intro k
    unfold faceBoundary
    have h2 : ∀ p, tr2 (hexFace (brick c) (tensor r) W k) p ramp3 = 0 := fun p => by simp [tr2, hexFace]
    simp only [h2, mul_zero, sub_zero]
    change (((tensor r).map _).map _).sum = _
    rw [List.map_map]
    congr 1
    refine List.map_congr_left fun q _ => ?_
    simp only [Function.comp]
    rw [cube_tr1 c (tensor r) W k q _ fun _ => rfl]
    simp [normalTerm]
    ring
  have g0 : (brick c).geom 0 = X 0 := rfl
  have g1 : (brick c).geom 1 = X 1 * (1 + C c * X 0 ^ 2) := rfl
  have g2 : (brick c).geom 2 = X 2 * (1 + C c * X 0 ^ 2) := rfl
  have hf : ∀ k : Fin 6, ∀ z : Fin 2 → ℝ, eval z ((cubeJac (brick c) k 1 0 * cubeJac (brick c) k 2 1 - cubeJac (brick c) k 2 0 *
      cubeJac (brick c) k 1 1) * (cubeFace k 0 * cubeFace k 0)) = (match k with
        | 2 => (1 + c) ^ 2
        | 3 => -2 * c * (1 - z 0) ^ 3 - 2 * c ^ 2 * (1 - z 0) ^ 5
        | 5 => -2 * c * z 0 ^ 3 - 2 * c ^ 2 * z 0 ^ 5
        | _ => 0) * 1 := by
    intro k z
    fin_cases k <;> simp [cubeJac, g1, g2, cubeFace, pderiv_mul, pderiv_X, pderiv_C, pderiv_pow] <;> ring
  have m := moments r hr
  have m0 := m 0 (by omega)
  have m1 := m 1 (by omega)
  have m2 := m 2 (by omega)
  have m3 := m 3 (by omega)
  have m4 := m 4 (by omega)
  have m5 := m 5 (by omega)
  have hs : ∀ f : ℝ → ℝ, ((tensor r).map fun q => q.1 * (f (q.2 0) * 1)).sum = (r.map fun a => a.1 * f a.2).sum := by
    intro f
    rw [tensor_sum r f fun _ => 1]
    have : (r.map fun a => a.1 * (1 : ℝ)).sum = 1 := by simpa using m0
    rw [this, mul_one]
  have poly : ∀ f : ℝ → ℝ, ∀ a0 a1 a2 a3 a4 a5 : ℝ, (∀ x, f x = a0 + a1 * x + a2 * x ^ 2 + a3 * x ^ 3 + a4 * x ^ 4 + a5 * x ^ 5) →
      (r.map fun a => a.1 * f a.2).sum = a0 + a1 / 2 + a2 / 3 + a3 / 4 + a4 / 5 + a5 / 6 := by
    intro f a0 a1 a2 a3 a4 a5 hf
    have : (r.map fun a => a.1 * f a.2).sum = a0 * (r.map fun a => a.1 * a.2 ^ 0).sum + a1 * (r.map fun a => a.1 * a.2 ^ 1).sum +
        a2 * (r.map fun a => a.1 * a.2 ^ 2).sum + a3 * (r.map fun a => a.1 * a.2 ^ 3).sum + a4 * (r.map fun a => a.1 * a.2 ^ 4).sum +
        a5 * (r.map fun a => a.1 * a.2 ^ 5).sum := by
      clear m m0 m1 m2 m3 m4 m5 hs hb hr
      induction r with
      | nil => simp
      | cons a r ih =>
        simp only [List.map_cons, List.sum_cons]
        rw [ih, hf]
        ring
    rw [this, m0, m1, m2, m3, m4, m5]
    norm_num
    ring
  have hall : allFaces (hexProb (brick c) vol r W Minv) = (List.finRange 6).map fun k => hexFace (brick c) (tensor r) W k := by
    simp [allFaces, hexProb]
  rw [hall, List.map_map, ← List.ofFn_eq_map, List.sum_ofFn, Fin.sum_univ_six]
  simp only [Function.comp, hb, hf]
  have z : ((tensor r).map fun q : ℝ × (Fin 2 → ℝ) => q.1 * ((0 : ℝ) * 1)).sum = 0 := by simp
  have e2 := (hs fun _ => (1 + c) ^ 2).trans (poly (fun _ => (1 + c) ^ 2) ((1 + c) ^ 2) 0 0 0 0 0 fun x => by ring)
  have e3 := (hs fun x => -2 * c * (1 - x) ^ 3 - 2 * c ^ 2 * (1 - x) ^ 5).trans (poly (fun x => -2 * c * (1 - x) ^ 3 - 2 * c ^ 2 * (1 - x) ^ 5) (-2 * c - 2 * c ^ 2) (6 * c + 10 * c ^ 2)
    (-6 * c - 20 * c ^ 2) (2 * c + 20 * c ^ 2) (-10 * c ^ 2) (2 * c ^ 2) fun x => by ring)
  have e5 := (hs fun x => -2 * c * x ^ 3 - 2 * c ^ 2 * x ^ 5).trans (poly (fun x => -2 * c * x ^ 3 - 2 * c ^ 2 * x ^ 5) 0 0 0 (-2 * c) 0 (-2 * c ^ 2) fun x => by ring)
  rw [z, e2, e3, e5]
  ring

/-- The faces of the reference cube are its faces, each of them once, with normals that point out of it. -/
theorem C141_cube_faces : ∃ N : Fin 6 → Fin 3 → ℝ, Function.Injective N ∧ (∀ k, ∑ d, N k d ^ 2 = 1) ∧
    (∀ (k : Fin 6) (z : Fin 2 → ℝ), N k = ![
      eval z (pderiv 0 (cubeFace k 1) * pderiv 1 (cubeFace k 2) - pderiv 0 (cubeFace k 2) * pderiv 1 (cubeFace k 1)),
      eval z (pderiv 0 (cubeFace k 2) * pderiv 1 (cubeFace k 0) - pderiv 0 (cubeFace k 0) * pderiv 1 (cubeFace k 2)),
      eval z (pderiv 0 (cubeFace k 0) * pderiv 1 (cubeFace k 1) - pderiv 0 (cubeFace k 1) * pderiv 1 (cubeFace k 0))]) ∧
    ∀ (k : Fin 6) (z : Fin 2 → ℝ), (∀ c, 0 ≤ z c ∧ z c ≤ 1) → (∀ d, 0 ≤ eval z (cubeFace k d) ∧ eval z (cubeFace k d) ≤ 1) ∧
      ∀ x : Fin 3 → ℝ, (∀ d, 0 ≤ x d ∧ x d ≤ 1) → ∑ d, N k d * (x d - eval z (cubeFace k d)) ≤ 0 := by
  refine ⟨fun k => match k with
    | 0 => ![0, 0, -1]
    | 1 => ![0, -1, 0]
    | 2 => ![1, 0, 0]
    | 3 => ![0, 1, 0]
    | 4 => ![-1, 0, 0]
    | 5 => ![0, 0, 1], ?_, ?_, ?_, ?_⟩
  · intro a b h
    have h0 := congrFun h 0
    have h1 := congrFun h 1
    have h2 := congrFun h 2
    fin_cases a <;> fin_cases b <;> first | rfl | (exfalso; revert h0 h1 h2; norm_num [Matrix.cons_val_two, Matrix.vecHead, Matrix.vecTail]; done) | (exfalso; have h3 : (-1 : ℝ) = 1 := h2; norm_num at h3) | (exfalso; have h3 : (1 : ℝ) = -1 := h2; norm_num at h3)
  · intro k
    fin_cases k <;> simp [Fin.sum_univ_three]
  · intro k z
    fin_cases k <;> simp [cubeFace, pderiv_X]
  · intro k z hz
    have a := hz 0
    have b := hz 1
    refine ⟨fun d => ?_, fun x hx => ?_⟩
    · fin_cases k <;> fin_cases d <;> simp [cubeFace] <;> first | (constructor <;> linarith) | linarith
    · have h0 := hx 0
      have h1 := hx 1
      have h2 := hx 2
      fin_cases k <;> simp [cubeFace, Fin.sum_univ_three] <;> linarith

/-- At every point of every face of a hexahedron, however curved, the normal is that of the face of the reference cube carried by the map of
the element: its product with the vector a direction `v` of the reference cube becomes is the volume of the map times the product of `v` with
the normal of the reference cube. -/
theorem C141_cube_normals : ∃ N : Fin 6 → Fin 3 → ℝ, (∀ (k : Fin 6) (z : Fin 2 → ℝ) (x : Fin 3 → ℝ), (∀ c, 0 ≤ z c ∧ z c ≤ 1) →
      (∀ d, 0 ≤ x d ∧ x d ≤ 1) → ∑ d, N k d * (x d - eval z (cubeFace k d)) ≤ 0) ∧ (∀ k, ∑ d, N k d ^ 2 = 1) ∧
    ∀ (e : Elem 2 ι ℝ) (r : Rule 2 ℝ) (W : Fin 6 → (Fin 2 → ℝ) → ℝ) (k : Fin 6) (v : Fin 3 → ℝ),
      List.Forall₂ (fun (p : Pt ℝ) (q : ℝ × (Fin 2 → ℝ)) =>
        ∑ d : Fin 3, p.nor.getD d 0 * ∑ j : Fin 3, eval (fun i => eval q.2 (cubeFace k i)) (e.jac d j) * v j =
          eval (fun i => eval q.2 (cubeFace k i)) e.jac.det * ∑ j, N k j * v j) (hexFace e r W k).pts r := by
  refine ⟨fun k => match k with
    | 0 => ![0, 0, -1]
    | 1 => ![0, -1, 0]
    | 2 => ![1, 0, 0]
    | 3 => ![0, 1, 0]
    | 4 => ![-1, 0, 0]
    | 5 => ![0, 0, 1], ?_, ?_, ?_⟩
  · intro k z x hz hx
    have a := hz 0
    have b := hz 1
    have h0 := hx 0
    have h1 := hx 1
    have h2 := hx 2
    fin_cases k <;> simp [cubeFace, Fin.sum_univ_three] <;> linarith
  · intro k
    fin_cases k <;> simp [Fin.sum_univ_three]
  · intro e r W k v
    unfold hexFace
    simp only [List.forall₂_map_left_iff]
    refine List.forall₂_same.2 fun q _ => ?_
    have hj : ∀ d c, eval q.2 (cubeJac e k d c) =
        ∑ j : Fin 3, eval (fun i => eval q.2 (cubeFace k i)) (e.jac d j) * eval q.2 (pderiv c (cubeFace k j)) := by
      intro d c
      unfold cubeJac
      rw [pderiv_bind]
      simp only [map_sum, map_mul]
      refine Finset.sum_congr rfl fun j _ => ?_
      congr 1
      change aeval q.2 (bind₁ (cubeFace k) (pderiv j (e.geom d))) = aeval (fun i => aeval q.2 (cubeFace k i)) (pderiv j (e.geom d))
      rw [aeval_bind₁]
    obtain ⟨J, hJ⟩ : ∃ J : Matrix (Fin 3) (Fin 3) ℝ, J = .of fun d j => eval (fun i => eval q.2 (cubeFace k i)) (e.jac d j) := ⟨_, rfl⟩
    have hJ' : ∀ d j, eval (fun i => eval q.2 (cubeFace k i)) (e.jac d j) = J d j := fun d j => by rw [hJ]; rfl
    have hd : eval (fun i => eval q.2 (cubeFace k i)) e.jac.det = J.det := by
      rw [Matrix.det_fin_three, Matrix.det_fin_three]
      simp only [map_sub, map_add, map_mul, hJ']
    simp only [hJ'] at hj
    simp only [hJ', hd, map_sub, map_mul, hj, Fin.sum_univ_three, Matrix.det_fin_three]
    fin_cases k <;> simp [cubeFace, pderiv_X] <;> ring

/-- On hexahedra whose positions have the second order and fields of the first order, the quadrature the code asks for has two points in each
direction; discrete integration by parts fails, whatever the quadrature on the faces (of the order asked for). -/
theorem C141_cube_fails (c : ℝ) (hc : c ≠ 0) (r : List (ℝ × ℝ))
    (hr : Exact (faceOrder .Qk 3 1 (orderW .Qk 3 2) none) (r.map fun a => (a.1, ![a.2]) : Rule 1 ℝ)) (W : Fin 6 → (Fin 2 → ℝ) → ℝ)
    (Minv : FieldT → Matrix (Fin 8) (Fin 8) ℝ) :
    gaussPoints (volumeOrder 3 1 2) = gauss2.length ∧ ¬SBP (hexProb (brick c) (tensor3 gauss2) r W Minv) := by
  refine ⟨rfl, fun h => ?_⟩
  have h := h 0 (by change 0 < 3; omega) ramp3 ramp3
  rw [brick_boundary c r (exact_mono hr (by decide))] at h
  change ramp3 ⬝ᵥ (derivMatrix [(brick c, tensor3 gauss2)] 0).mulVec ramp3 + ramp3 ⬝ᵥ (derivMatrix [(brick c, tensor3 gauss2)] 0).mulVec ramp3 = _ at h
  rw [deriv_form _ 0 (by decide)] at h
  simp only [List.map_cons, List.map_nil, List.sum_cons, List.sum_nil, add_zero, fld_ramp3] at h
  have hp : (X 0 * ∑ k, (brick c).adj k ⟨(0 : Dir).val, by decide⟩ * pderiv k (X 0) : Poly 3 ℝ) =
      X 0 * ((1 + C c * X 0 ^ 2) * (1 + C c * X 0 ^ 2)) := by
    have : (⟨(0 : Dir).val, by decide⟩ : Fin 3) = 0 := rfl
    rw [this]
    rw [Fin.sum_univ_three, brick_adj]
    simp [pderiv_X]
  rw [hp] at h
  have hs : √3 ^ 2 = (3 : ℝ) := Real.sq_sqrt (by norm_num)
  have hi : (1 / √3) ^ 2 = (1 / 3 : ℝ) := by rw [div_pow, hs]; norm_num
  simp [tensor3, gauss2] at h
  obtain ⟨s, hs'⟩ : ∃ s, s = (√3)⁻¹ := ⟨_, rfl⟩
  rw [← hs'] at h
  have hq : s ^ 2 = 1 / 3 := by rw [hs', ← one_div]; exact hi
  have h4 : s ^ 4 = 1 / 9 := by
    have : s ^ 4 = (s ^ 2) ^ 2 := by ring
    rw [this, hq]; norm_num
  have : c ^ 2 = 0 := by
    ring_nf at h
    rw [hq, h4] at h
    linarith
  exact hc (by simpa using this)

end Dgtd.Galerkin
