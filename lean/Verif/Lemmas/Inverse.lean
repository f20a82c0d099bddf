/-
How fast fields on a mesh can change: the inverse inequality and the norm of the evolution operator.
-/
import Verif.Lemmas.Convergence
import Verif.Spec.Cfl

set_option linter.unusedSectionVars false

namespace Dgtd.Galerkin
open MvPolynomial Spec Dgtd.Op Dgtd.Op.Spec
open Dgtd.Config (Material)

/-- The inverse inequality. -/
lemma inverse_one {D : Nat} (hD : D ≤ 3) (p : Nat) (k : Fin D) :
    ∃ L, 0 ≤ L ∧ ∀ v : Poly D ℝ, v.totalDegree ≤ p → integral D (pderiv k v ^ 2) ≤ L * integral D (v ^ 2) := by
  obtain ⟨A, hA⟩ : ∃ A : (expos D p → ℝ) →ₗ[ℝ] (expos D p → ℝ) →ₗ[ℝ] ℝ, ∀ u v, A u v = integral D (ofCoef _ _ u * ofCoef _ _ v) :=
    ⟨LinearMap.mk₂ ℝ (fun u v => integral D (ofCoef _ _ u * ofCoef _ _ v)) (by intros; simp [add_mul]) (by intros; simp)
      (by intros; simp [mul_add]) (by intros; simp), fun u v => rfl⟩
  obtain ⟨B, hB⟩ : ∃ B : (expos D p → ℝ) →ₗ[ℝ] (expos D p → ℝ) →ₗ[ℝ] ℝ,
      ∀ u v, B u v = integral D (pderiv k (ofCoef _ _ u) * pderiv k (ofCoef _ _ v)) :=
    ⟨LinearMap.mk₂ ℝ (fun u v => integral D (pderiv k (ofCoef _ _ u) * pderiv k (ofCoef _ _ v)))
      (by intros; simp [add_mul]) (by intros; simp) (by intros; simp [mul_add]) (by intros; simp), fun u v => rfl⟩
  obtain ⟨L, hL, h⟩ := form_dom A B fun u hu => by
    rw [hA]
    refine integral_pos hD _ (fun h0 => hu (ofCoef_inj u (mul_self_eq_zero.1 h0))) fun x _ => ?_
    rw [map_mul]; exact mul_self_nonneg _
  refine ⟨L, hL, fun v hv => ?_⟩
  have := h fun a => coeff a.1 v
  rw [hA, hB, ofCoef_coef v hv] at this
  simpa [sq] using this

/-- The inverse inequality, one constant for all coordinates. -/
lemma inverse_const {D : Nat} (hD : D ≤ 3) (p : Nat) : ∃ L, 0 ≤ L ∧ ∀ (k : Fin D) (v : Poly D ℝ), v.totalDegree ≤ p →
    integral D (pderiv k v ^ 2) ≤ L * integral D (v ^ 2) := by
  choose L hL h using fun k : Fin D => inverse_one hD p k
  refine ⟨∑ k, L k, Finset.sum_nonneg fun k _ => hL k, fun k v hv => (h k v hv).trans ?_⟩
  refine mul_le_mul_of_nonneg_right (Finset.single_le_sum (fun q _ => hL q) (Finset.mem_univ k)) ?_
  exact integral_nonneg hD _ fun x _ => by rw [map_pow]; exact sq_nonneg _

/-- What the estimates below use of the reference element. -/
structure Constants (n p : Nat) (L : ℝ) : Prop where
  nonneg : 0 ≤ L
  trace : ∀ (face : Option (Fin (n + 1))) (turn : Equiv.Perm (Fin (n + 1))) (v : Poly (n + 1) ℝ), v.totalDegree ≤ p →
    integral n (bind₁ (loc face turn) v ^ 2) ≤ L * integral (n + 1) (v ^ 2)
  inverse : ∀ (k : Fin (n + 1)) (v : Poly (n + 1) ℝ), v.totalDegree ≤ p → integral (n + 1) (pderiv k v ^ 2) ≤ L * integral (n + 1) (v ^ 2)

lemma constants {n : Nat} (hn : n < 3) (p : Nat) : ∃ L, Constants n p L := by
  obtain ⟨L1, h1, t⟩ := trace_const hn p
  obtain ⟨L2, h2, i⟩ := inverse_const (D := n + 1) (by omega) p
  have pos : ∀ v : Poly (n + 1) ℝ, 0 ≤ integral (n + 1) (v ^ 2) := fun v =>
    integral_nonneg (by omega) _ fun x _ => by rw [map_pow]; exact sq_nonneg _
  refine ⟨L1 + L2, by linarith, fun face turn v hv => (t face turn v hv).trans ?_, fun k v hv => (i k v hv).trans ?_⟩
  · exact mul_le_mul_of_nonneg_right (by linarith) (pos v)
  · exact mul_le_mul_of_nonneg_right (by linarith) (pos v)

variable {n : Nat} {ι : Type} [Fintype ι] [DecidableEq ι] {S : Setup n ι} {p : Nat}

/-- Squares of the values on the sides of a face, integrated. -/
noncomputable def faceSq (F : Face ι ℝ) (v : ι → ℝ) : ℝ := (F.pts.map fun q => q.w * (q.W * (tr1 F q v ^ 2 + tr2 F q v ^ 2))).sum

/-- Square of a component, integrated over the mesh. -/
noncomputable def sqNorm (S : Setup n ι) (v : ι → ℝ) : ℝ := (S.cells.map fun c => integral (n + 1) (onElem c.e v ^ 2 * c.e.jac.det)).sum

/-- Squares of all components. -/
noncomputable def sqAll (S : Setup n ι) (u : State ι ℝ) : ℝ := ∑ d : Dir, (sqNorm S (u .E d) + sqNorm S (u .H d))

lemma sqNorm_nonneg (h : ValidMesh S p 1) (v : ι → ℝ) : 0 ≤ sqNorm S v := by
  refine List.sum_nonneg fun x hx => ?_
  obtain ⟨c, hc, rfl⟩ := List.mem_map.1 hx
  rw [sq]; exact sq_nonneg' h hc _

/-! ### the sides of an element -/

lemma side_sq (h : ValidMesh S p 1) {L : ℝ} (hL : Constants n p L) {τ : ℝ} (hf : Thick S τ)
    {o : Option BdrCond} {g : MeshFace n ι} (hg : (o, g) ∈ S.interior ++ S.bdr) {s : Side n ι ℝ} (hs : s = g.s1 ∨ s ∈ g.s2) (v : ι → ℝ) :
    (g.rule.map fun q => q.1 * (g.fem.W q.2 * eval q.2 (s.restrict (onElem s.e v)) ^ 2)).sum ≤
      L / τ * integral (n + 1) (onElem s.e v ^ 2 * s.e.jac.det) := by
  obtain ⟨c, hc, hce⟩ : ∃ c ∈ S.cells, s.e = c.e := by
    rcases hs with rfl | hs
    · exact (sides_cells h hg).1
    · exact (sides_cells h hg).2 s hs
  have hsh : Shares S g s.e := ⟨⟨o, hg⟩, by
    rcases hs with rfl | hs
    · exact Or.inl rfl
    · exact Or.inr ⟨s, hs, rfl⟩⟩
  obtain ⟨δ, hδ, hdet⟩ := det_const h hc
  have hτ := hf.pos
  have hW : ∀ x, InSimplex x → g.fem.W x ≤ δ / τ := by
    intro x hx
    have := hf.height g s.e hsh x 0 hx ⟨fun i => le_rfl, by simp⟩
    rw [hce, hdet, eval_C] at this
    rw [le_div_iff₀ hτ, mul_comm]; exact this
  have hface : g.fem ∈ Spec.faces S.skeleton := by
    simp only [Spec.faces, Setup.skeleton, List.map_map, ← List.map_append]
    exact List.mem_map_of_mem (f := fun q : Option BdrCond × MeshFace n ι => q.2.fem) hg
  have hex := h.simplicial.surface _ hface
  have hord := order_le (n := n) (p := p) (m := 1) g.fem.s2
  have hdeg : (s.restrict (onElem s.e v)).totalDegree ≤ p := degree_restrict s (by
    rw [hce]; exact fld_degree c.e (h.shape hc) v)
  have x1 := hex (s.restrict (onElem s.e v) ^ 2) (by rw [sq]; exact (degree_mul_le hdeg hdeg).trans (by omega))
  have hrule : g.fem.rule = g.rule := rfl
  rw [hrule] at x1
  have step : (g.rule.map fun q => q.1 * (g.fem.W q.2 * eval q.2 (s.restrict (onElem s.e v)) ^ 2)).sum ≤
      (g.rule.map fun q => δ / τ * (q.1 * eval q.2 (s.restrict (onElem s.e v) ^ 2))).sum := by
    refine List.sum_le_sum fun q hq => ?_
    have hin : InSimplex q.2 := h.inside _ hg q hq
    have hwq : 0 ≤ q.1 := hf.weights _ hg q hq
    have k1 := mul_le_mul_of_nonneg_left (mul_le_mul_of_nonneg_right (hW q.2 hin) (sq_nonneg (eval q.2 (s.restrict (onElem s.e v))))) hwq
    rw [map_pow]
    refine k1.trans (le_of_eq (by ring))
  refine step.trans ?_
  rw [List.sum_map_mul_left, x1]
  have t1 := hL.trace s.face s.turn (onElem s.e v) (by rw [hce]; exact fld_degree c.e (h.shape hc) v)
  have t1 : integral n (s.restrict (onElem s.e v) ^ 2) ≤ L * integral (n + 1) (onElem s.e v ^ 2) := t1
  have e2 : integral (n + 1) (onElem s.e v ^ 2 * s.e.jac.det) = δ * integral (n + 1) (onElem s.e v ^ 2) := by
    rw [mul_comm, hce, hdet, integral_scale]
  rw [e2]
  calc δ / τ * integral n (s.restrict (onElem s.e v) ^ 2) ≤ δ / τ * (L * integral (n + 1) (onElem s.e v ^ 2)) :=
        mul_le_mul_of_nonneg_left t1 (by positivity)
    _ = _ := by ring

lemma faces_sq (h : ValidMesh S p 1) {L : ℝ} (hL : Constants n p L) {τ : ℝ} (hf : Thick S τ) (v : ι → ℝ) :
    ((S.interior ++ S.bdr).map fun q => faceSq q.2.fem.toFace v).sum ≤ 4 * L / τ * sqNorm S v := by
  obtain ⟨b, hb⟩ : ∃ b : Elem n ι ℝ → ℝ, b = fun e => L / τ * integral (n + 1) (onElem e v ^ 2 * e.jac.det) := ⟨_, rfl⟩
  have h1 : ((S.interior ++ S.bdr).map fun q => faceSq q.2.fem.toFace v).sum ≤
      ((S.interior ++ S.bdr).map fun q => ((sides q.2.fem).map fun s => b s.1).sum).sum := by
    refine List.sum_le_sum fun q hq => ?_
    obtain ⟨o, g⟩ := q
    unfold faceSq
    change ((g.rule.map (point g.fem)).map _).sum ≤ _
    rw [List.map_map]
    have e1 : ∀ x, tr1 g.fem.toFace (point g.fem x) v = eval x.2 (g.s1.restrict (onElem g.s1.e v)) := fun x => by
      rw [trace1_eq]; rfl
    have b1 := side_sq h hL hf hq (s := g.s1) (Or.inl rfl) v
    cases hs : g.s2 with
    | none =>
      have e2 : ∀ x, tr2 g.fem.toFace (point g.fem x) v = 0 := fun x => by
        rw [trace2_eq]; unfold trace2
        change eval x.2 (match g.s2 with | some s => s.restrict (fld s.e v) | none => 0) = 0
        rw [hs]; simp
      have : sides g.fem = [(g.s1.e, g.s1.face)] := by
        have hs' := (show g.fem.s2 = _ from hs)
        unfold sides
        rw [hs']; rfl
      change _ ≤ ((sides g.fem).map _).sum
      rw [this, hb]
      simp only [List.map_cons, List.map_nil, List.sum_cons, List.sum_nil, add_zero, Function.comp_def, e1, e2, ne_eq, OfNat.ofNat_ne_zero,
        not_false_eq_true, zero_pow]
      exact b1
    | some s =>
      have b2 := side_sq h hL hf hq (s := s) (Or.inr hs) v
      have e2 : ∀ x, tr2 g.fem.toFace (point g.fem x) v = eval x.2 (s.restrict (onElem s.e v)) := fun x => by
        rw [trace2_eq]; unfold trace2
        change eval x.2 (match g.s2 with | some s => s.restrict (fld s.e v) | none => 0) = _
        rw [hs]; rfl
      have : sides g.fem = [(g.s1.e, g.s1.face), (s.e, s.face)] := by
        have hs' := (show g.fem.s2 = _ from hs)
        unfold sides
        rw [hs']; rfl
      change _ ≤ ((sides g.fem).map _).sum
      rw [this, hb]
      simp only [List.map_cons, List.map_nil, List.sum_cons, List.sum_nil, add_zero, Function.comp_def, e1, e2]
      refine le_trans (le_of_eq ?_) (add_le_add b1 b2)
      rw [list_sum_add]
      congr 1
      refine List.map_congr_left fun x _ => ?_
      change x.1 * (g.fem.W x.2 * _) = _
      ring
  refine h1.trans ?_
  have e1 : ((S.interior ++ S.bdr).map fun q => ((sides q.2.fem).map fun s => b s.1).sum).sum =
      (((Spec.faces S.skeleton).flatMap sides).map fun s => b s.1).sum := by
    simp only [Spec.faces, Setup.skeleton, List.map_map, ← List.map_append]
    rw [List.map_flatMap, sum_flat, List.map_map]
    rfl
  rw [e1, (h.simplicial.cover.map fun s => b s.1).sum_eq]
  unfold elemFaces Setup.skeleton
  simp only []
  rw [List.flatMap_map, List.map_flatMap, sum_flat]
  have e2 : (S.cells.map fun c => (((none :: (List.finRange (n + 1)).map some : List (Option (Fin (n + 1)))).map fun f => (c.e, f)).map
      fun s : Elem n ι ℝ × Option (Fin (n + 1)) => b s.1).sum) = S.cells.map fun c => ((n + 2 : ℕ) : ℝ) * b c.e := by
    refine List.map_congr_left fun c _ => ?_
    rw [List.map_map]
    have : ((none :: (List.finRange (n + 1)).map some : List (Option (Fin (n + 1)))).map
        ((fun s : Elem n ι ℝ × Option (Fin (n + 1)) => b s.1) ∘ fun f => (c.e, f))) = List.replicate (n + 2) (b c.e) := by
      rw [List.eq_replicate_iff]
      refine ⟨by simp, fun b hb => ?_⟩
      obtain ⟨a, _, rfl⟩ := List.mem_map.1 hb
      rfl
    rw [this, List.sum_replicate, nsmul_eq_mul]
  rw [e2]
  unfold sqNorm
  rw [← List.sum_map_mul_left]
  refine List.sum_le_sum fun c hc => ?_
  have hn4 : ((n + 2 : ℕ) : ℝ) ≤ 4 := by
    have := h.simplicial.dim
    exact_mod_cast (show n + 2 ≤ 4 by omega)
  have i1 : 0 ≤ integral (n + 1) (onElem c.e v ^ 2 * c.e.jac.det) := by rw [sq]; exact sq_nonneg' h hc _
  have hτ := hf.pos
  have hL0 := hL.nonneg
  rw [hb]
  calc ((n + 2 : ℕ) : ℝ) * (L / τ * integral (n + 1) (onElem c.e v ^ 2 * c.e.jac.det)) ≤
        4 * (L / τ * integral (n + 1) (onElem c.e v ^ 2 * c.e.jac.det)) := mul_le_mul_of_nonneg_right hn4 (by positivity)
    _ = _ := by ring

/-! ### the derivatives in an element -/

lemma adj_le (h : ValidMesh S p 1) {τ : ℝ} (hf : Thick S τ) {c : Cell n ι} (hc : c ∈ S.cells) (k : Fin (n + 1)) (d : Fin (n + 1)) {δ : ℝ}
    (hδ : c.e.jac.det = C δ) : ∃ a, c.e.adj k d = C a ∧ |a| ≤ δ / τ := by
  have hdim := h.simplicial.dim
  have hdeg : (c.e.adj k d).totalDegree = 0 := by
    have := degree_adj hdim c.e (h.geom hc) k d
    simpa using this
  obtain ⟨a, ha⟩ : ∃ a, a = coeff 0 (c.e.adj k d) := ⟨_, rfl⟩
  have hC : c.e.adj k d = C a := by rw [ha]; exact totalDegree_eq_zero_iff_eq_C.1 hdeg
  refine ⟨a, hC, ?_⟩
  have hmem : (c.e, some k) ∈ (Spec.faces S.skeleton).flatMap sides := by
    rw [h.simplicial.cover.mem_iff]
    refine List.mem_flatMap.2 ⟨(c.e, c.vol), List.mem_map_of_mem (f := fun c : Cell n ι => (c.e, c.vol)) hc, ?_⟩
    exact List.mem_map_of_mem (f := fun f => (c.e, f)) (List.mem_cons_of_mem _ (List.mem_map_of_mem (List.mem_finRange k)))
  obtain ⟨F, hF, hside⟩ := List.mem_flatMap.1 hmem
  have hF' : F ∈ (S.interior ++ S.bdr).map fun q => q.2.fem := by
    simpa [Spec.faces, Setup.skeleton, List.map_map, Function.comp_def] using hF
  obtain ⟨⟨o, g⟩, hg, rfl⟩ := List.mem_map.1 hF'
  have h0 : InSimplex (0 : Fin n → ℝ) := ⟨fun i => le_rfl, by simp⟩
  have h0' : InSimplex (0 : Fin (n + 1) → ℝ) := ⟨fun i => le_rfl, by simp⟩
  obtain ⟨hW, hN, hν⟩ := unit_facts h hg 0 h0
  have hd3 : d.val < 3 := by have := d.2; omega
  have hnor : |eval 0 ((normal g.s1).getD d 0)| ≤ g.fem.W 0 := by
    have e := normal_term g.fem (1, 0) ⟨d.val, hd3⟩ d.2
    have e2 := hN ⟨d.val, hd3⟩
    have e3 : normalTerm ((normal g.s1).map fun c => eval (0 : Fin n → ℝ) c) ⟨d.val, hd3⟩ = eval 0 ((normal g.s1).getD d 0) := e
    rw [← e3, e2, abs_mul, abs_of_pos hW]
    have := mul_le_mul_of_nonneg_left (unit_le hν ⟨d.val, hd3⟩) hW.le
    linarith
  have hone : Outward g.s1 := h.simplicial.one _ hF
  have key : ∀ s : Side n ι ℝ, s.e = c.e → s.face = some k →
      eval 0 (∑ j, s.restrict (s.e.adj j d) * C (refNormal s.face j)) = -a := by
    intro s he hface
    rw [he, hface, Finset.sum_eq_single k]
    · simp [refNormal, hC, Side.restrict]
    · intro j _ hj
      simp [refNormal, hj]
    · simp
  have hle : |a| ≤ g.fem.W 0 := by
    rcases List.mem_cons.1 hside with hs | hs
    · have e1 : g.s1.e = c.e := (Prod.ext_iff.1 hs).1.symm
      have e2 : g.s1.face = some k := (Prod.ext_iff.1 hs).2.symm
      have : (normal g.s1).getD d 0 = ∑ j, g.s1.restrict (g.s1.e.adj j d) * C (refNormal g.s1.face j) := by
        rw [normal_eq hdim]
        exact Finset.sum_congr rfl fun j _ => by rw [Spec.Outward.getD hone]
      rw [this, key g.s1 e1 e2, abs_neg] at hnor
      exact hnor
    · cases hs2 : g.s2 with
      | none =>
        have : g.fem.s2 = none := hs2
        rw [this] at hs; simp at hs
      | some s =>
        have h2 : g.fem.s2 = some s := hs2
        rw [h2] at hs
        have hs := List.mem_singleton.1 hs
        have e1 : s.e = c.e := (Prod.ext_iff.1 hs).1.symm
        have e2 : s.face = some k := (Prod.ext_iff.1 hs).2.symm
        have := meet_normal hdim hone (h.simplicial.two _ hF s h2) d
        have this : (normal g.s1).getD d 0 = -∑ j, s.restrict (s.e.adj j d) * C (refNormal s.face j) := this
        rw [this, map_neg, key s e1 e2, neg_neg] at hnor
        exact hnor
  have hsh : Shares S g c.e := ⟨⟨o, hg⟩, by
    rcases List.mem_cons.1 hside with hs | hs
    · exact Or.inl (Prod.ext_iff.1 hs).1
    · cases hs2 : g.s2 with
      | none =>
        have : g.fem.s2 = none := hs2
        rw [this] at hs; simp at hs
      | some s =>
        have h2 : g.fem.s2 = some s := hs2
        rw [h2] at hs
        exact Or.inr ⟨s, rfl, (Prod.ext_iff.1 (List.mem_singleton.1 hs)).1⟩⟩
  have := hf.height g c.e hsh 0 0 h0 h0'
  rw [hδ, eval_C] at this
  rw [le_div_iff₀ hf.pos]
  have := mul_le_mul_of_nonneg_left hle hf.pos.le
  linarith

/-- A derivative, tested. -/
lemma refD_le (h : ValidMesh S p 1) {L : ℝ} (hL : Constants n p L) {τ : ℝ} (hf : Thick S τ) {c : Cell n ι} (hc : c ∈ S.cells) (d : Dir)
    (v u : ι → ℝ) : |integral (n + 1) (onElem c.e v * refD c.e d (onElem c.e u))| ≤
      3 / (2 * τ) * (integral (n + 1) (onElem c.e v ^ 2 * c.e.jac.det) + L * integral (n + 1) (onElem c.e u ^ 2 * c.e.jac.det)) := by
  have hdim := h.simplicial.dim
  have hτ := hf.pos
  have hL0 := hL.nonneg
  obtain ⟨δ, hδ, hdet⟩ := det_const h hc
  have i1 : ∀ w : ι → ℝ, integral (n + 1) (onElem c.e w ^ 2 * c.e.jac.det) = δ * integral (n + 1) (onElem c.e w ^ 2) := fun w => by
    rw [mul_comm, hdet, integral_scale]
  have pos : ∀ q : Poly (n + 1) ℝ, 0 ≤ integral (n + 1) (q ^ 2) := fun q =>
    integral_nonneg (by omega) _ fun x _ => by rw [map_pow]; exact sq_nonneg _
  rw [i1, i1]
  unfold refD
  split
  · rename_i hd
    have one : ∀ k, |integral (n + 1) (onElem c.e v * (c.e.adj k ⟨d.val, hd⟩ * pderiv k (onElem c.e u)))| ≤
        δ / (2 * τ) * (integral (n + 1) (onElem c.e v ^ 2) + L * integral (n + 1) (onElem c.e u ^ 2)) := by
      intro k
      obtain ⟨a, ha, hle⟩ := adj_le h hf hc k ⟨d.val, hd⟩ hdet
      have e : onElem c.e v * (c.e.adj k ⟨d.val, hd⟩ * pderiv k (onElem c.e u)) = C a * (onElem c.e v * pderiv k (onElem c.e u)) := by
        rw [ha]; ring
      rw [e, integral_scale, abs_mul]
      have i2 := hL.inverse k (onElem c.e u) (fld_degree c.e (h.shape hc) u)
      have cs : |integral (n + 1) (onElem c.e v * pderiv k (onElem c.e u))| ≤
          1 / 2 * (integral (n + 1) (onElem c.e v ^ 2) + integral (n + 1) (pderiv k (onElem c.e u) ^ 2)) := by
        have m1 := pos (onElem c.e v - pderiv k (onElem c.e u))
        have m2 := pos (onElem c.e v + pderiv k (onElem c.e u))
        have s1 : (onElem c.e v - pderiv k (onElem c.e u)) ^ 2 =
          onElem c.e v ^ 2 + pderiv k (onElem c.e u) ^ 2 - C 2 * (onElem c.e v * pderiv k (onElem c.e u)) := by
          rw [show (C 2 : Poly (n + 1) ℝ) = 2 from map_ofNat C 2]; ring
        have s2 : (onElem c.e v + pderiv k (onElem c.e u)) ^ 2 =
          onElem c.e v ^ 2 + pderiv k (onElem c.e u) ^ 2 + C 2 * (onElem c.e v * pderiv k (onElem c.e u)) := by
          rw [show (C 2 : Poly (n + 1) ℝ) = 2 from map_ofNat C 2]; ring
        rw [s1, map_sub, map_add, integral_scale] at m1
        rw [s2, map_add, map_add, integral_scale] at m2
        rw [abs_le]
        constructor <;> linarith
      calc |a| * |integral (n + 1) (onElem c.e v * pderiv k (onElem c.e u))| ≤
            δ / τ * (1 / 2 * (integral (n + 1) (onElem c.e v ^ 2) + L * integral (n + 1) (onElem c.e u ^ 2))) :=
            mul_le_mul hle (cs.trans (by linarith)) (abs_nonneg _) (by positivity)
        _ = _ := by field_simp
    rw [Finset.mul_sum, map_sum]
    refine (Finset.abs_sum_le_sum_abs _ _).trans ?_
    refine (Finset.sum_le_sum fun k _ => one k).trans ?_
    rw [Finset.sum_const, Finset.card_univ, Fintype.card_fin, nsmul_eq_mul]
    have hn3 : ((n + 1 : ℕ) : ℝ) ≤ 3 := by exact_mod_cast (show n + 1 ≤ 3 by omega)
    have p1 := pos (onElem c.e v)
    have p2 := pos (onElem c.e u)
    calc ((n + 1 : ℕ) : ℝ) * (δ / (2 * τ) * (integral (n + 1) (onElem c.e v ^ 2) + L * integral (n + 1) (onElem c.e u ^ 2))) ≤
          3 * (δ / (2 * τ) * (integral (n + 1) (onElem c.e v ^ 2) + L * integral (n + 1) (onElem c.e u ^ 2))) :=
          mul_le_mul_of_nonneg_right hn3 (by positivity)
      _ = _ := by ring
  · have p1 := pos (onElem c.e v)
    have p2 := pos (onElem c.e u)
    rw [mul_zero, map_zero, abs_zero]
    positivity

lemma curl_le (h : ValidMesh S p 1) (ms : List (Int × Material ℝ)) {L : ℝ} (hL : Constants n p L) {τ : ℝ} (hf : Thick S τ) (u : State ι ℝ)
    (f : FieldT) (d : Dir) (v : ι → ℝ) :
    |curlTerm (femOf S ms).prob u f d v| ≤ 3 / (2 * τ) * (2 * sqNorm S v + L * sqAll S u) := by
  have hτ := hf.pos
  have hL0 := hL.nonneg
  have one : ∀ (k : Dir) (w : ι → ℝ), |form (derivativeSub (femOf S ms).prob k) v w| ≤ 3 / (2 * τ) * (sqNorm S v + L * sqNorm S w) := by
    intro k w
    rw [deriv_exact h (femOf S ms) rfl]
    refine (sum_abs_le _ _ _ fun c hc => refD_le h hL hf hc k v w).trans (le_of_eq ?_)
    unfold sqNorm
    rw [List.sum_map_mul_left, ← list_sum_add, List.sum_map_mul_left]
  unfold curlTerm
  have sg : |(sgn f : ℝ)| = 1 := by cases f <;> simp [sgn, FieldT.idx] <;> norm_num
  rw [abs_mul, sg, one_mul]
  refine (abs_sub _ _).trans ((add_le_add (one _ _) (one _ _)).trans ?_)
  rw [← mul_add]
  refine mul_le_mul_of_nonneg_left ?_ (by positivity)
  have nn : ∀ w : ι → ℝ, 0 ≤ sqNorm S w := sqNorm_nonneg h
  have all : sqNorm S (u (altField f) (d + 2)) + sqNorm S (u (altField f) (d + 1)) ≤ sqAll S u := by
    unfold sqAll
    rw [Fin.sum_univ_three]
    have n1 := nn (u .E 0); have n2 := nn (u .E 1); have n3 := nn (u .E 2)
    have n4 := nn (u .H 0); have n5 := nn (u .H 1); have n6 := nn (u .H 2)
    cases f <;> fin_cases d <;> simp [altField] <;> linarith
  have := mul_le_mul_of_nonneg_left all hL0
  linarith

/-! ### the fluxes -/

/-- Values of all components on both sides. -/
noncomputable def allTr (F : Face ι ℝ) (q : Pt ℝ) (u : State ι ℝ) : ℝ :=
  ∑ d : Dir, ((|tr1 F q (u .E d)| + |tr2 F q (u .E d)|) + (|tr1 F q (u .H d)| + |tr2 F q (u .H d)|))

/-- Squares of all components on both sides. -/
noncomputable def allSq (F : Face ι ℝ) (q : Pt ℝ) (u : State ι ℝ) : ℝ :=
  ∑ d : Dir, ((tr1 F q (u .E d) ^ 2 + tr2 F q (u .E d) ^ 2) + (tr1 F q (u .H d) ^ 2 + tr2 F q (u .H d) ^ 2))

lemma allTr_ge (F : Face ι ℝ) (q : Pt ℝ) (u : State ι ℝ) (f : FieldT) (d : Dir) : |tr1 F q (u f d)| + |tr2 F q (u f d)| ≤ allTr F q u := by
  have nn : ∀ f d, 0 ≤ |tr1 F q (u f d)| + |tr2 F q (u f d)| := fun f d => add_nonneg (abs_nonneg _) (abs_nonneg _)
  unfold allTr
  rw [Fin.sum_univ_three]
  have n1 := nn .E 0; have n2 := nn .E 1; have n3 := nn .E 2
  have n4 := nn .H 0; have n5 := nn .H 1; have n6 := nn .H 2
  cases f <;> fin_cases d <;> simp only [Fin.zero_eta, Fin.mk_one, Fin.reduceFinMk] <;> linarith

lemma allTr_sq (F : Face ι ℝ) (q : Pt ℝ) (u : State ι ℝ) (v : ι → ℝ) :
    allTr F q u * (|tr1 F q v| + |tr2 F q v|) ≤ 6 * (allSq F q u + (tr1 F q v ^ 2 + tr2 F q v ^ 2)) := by
  have h1 : allTr F q u ^ 2 ≤ 12 * allSq F q u := by
    unfold allTr allSq
    rw [Fin.sum_univ_three, Fin.sum_univ_three]
    simp only [← sq_abs (tr1 F q _), ← sq_abs (tr2 F q _)]
    have four : ∀ a b c d : ℝ, ((a + b) + (c + d)) ^ 2 ≤ 4 * ((a ^ 2 + b ^ 2) + (c ^ 2 + d ^ 2)) := fun a b c d => by
      nlinarith [sq_nonneg (a - b), sq_nonneg (a - c), sq_nonneg (a - d), sq_nonneg (b - c), sq_nonneg (b - d), sq_nonneg (c - d)]
    have three : ∀ a b c : ℝ, (a + b + c) ^ 2 ≤ 3 * (a ^ 2 + b ^ 2 + c ^ 2) := fun a b c => by
      nlinarith [sq_nonneg (a - b), sq_nonneg (a - c), sq_nonneg (b - c)]
    refine (three _ _ _).trans ?_
    have f0 := four |tr1 F q (u .E 0)| |tr2 F q (u .E 0)| |tr1 F q (u .H 0)| |tr2 F q (u .H 0)|
    have f1 := four |tr1 F q (u .E 1)| |tr2 F q (u .E 1)| |tr1 F q (u .H 1)| |tr2 F q (u .H 1)|
    have f2 := four |tr1 F q (u .E 2)| |tr2 F q (u .E 2)| |tr1 F q (u .H 2)| |tr2 F q (u .H 2)|
    linarith
  have h2 : (|tr1 F q v| + |tr2 F q v|) ^ 2 ≤ 2 * (tr1 F q v ^ 2 + tr2 F q v ^ 2) := by
    rw [← sq_abs (tr1 F q v), ← sq_abs (tr2 F q v)]
    nlinarith [sq_nonneg (|tr1 F q v| - |tr2 F q v|)]
  have h3 := sq_nonneg (allTr F q u - (|tr1 F q v| + |tr2 F q v|))
  have h4 : 0 ≤ tr1 F q v ^ 2 + tr2 F q v ^ 2 := by positivity
  nlinarith

/-- A point of a face. -/
lemma plain_pt_le {sg bf bp alpha : ℝ} (hsg : |sg| = 1) (hα : 0 ≤ alpha) (hbf : |bf| ≤ 2) (hbp : |bp| ≤ 2 * alpha + 1) {p : Pt ℝ} {ν : Dir → ℝ}
    (hw : 0 ≤ p.w) (hW : 0 < p.W) (hN : ∀ d, normalTerm p.nor d = p.W * ν d) (hν : ν 0 ^ 2 + ν 1 ^ 2 + ν 2 ^ 2 = 1) {a b : Dir → ℝ} {A : ℝ}
    (ha : ∀ k, |a k| ≤ A) (hb : ∀ k, |b k| ≤ A) (v1 v2 : ℝ) (d : Dir) :
    |plainPt sg bf bp p a b v1 v2 d| ≤ (4 + 4 * alpha) * (p.w * (p.W * (A * (|v1| + |v2|)))) := by
  have h1 := cross_le (unit_le hν) ha d
  have h2 := tang_le (unit_le hν) hb d
  have a0 : 0 ≤ A := (abs_nonneg _).trans (ha 0)
  unfold plainPt
  rw [crossT_scale hN, pen_scale hW hN]
  generalize cross ν a d = c1 at h1 ⊢
  generalize tang ν b d = t1 at h2 ⊢
  have e : p.w / 2 * (sg * bf * (-p.W * c1) * (v1 + v2) - bp * (p.W * t1) * (v1 - v2)) =
      p.w * (p.W * (1 / 2 * (-(sg * bf * c1 * (v1 + v2)) - bp * t1 * (v1 - v2)))) := by ring
  have e2 : (4 + 4 * alpha) * (p.w * (p.W * (A * (|v1| + |v2|)))) = p.w * (p.W * (1 / 2 * ((8 + 8 * alpha) * (A * (|v1| + |v2|))))) := by ring
  rw [e, e2, abs_mul, abs_mul, abs_of_nonneg hw, abs_of_pos hW]
  refine mul_le_mul_of_nonneg_left (mul_le_mul_of_nonneg_left ?_ hW.le) hw
  rw [abs_mul, abs_of_pos (by norm_num : (0 : ℝ) < 1 / 2)]
  refine mul_le_mul_of_nonneg_left ?_ (by norm_num)
  have k1 : |-(sg * bf * c1 * (v1 + v2))| ≤ 2 * (2 * A) * (|v1| + |v2|) := by
    rw [abs_neg, abs_mul, abs_mul, abs_mul, hsg, one_mul]
    exact mul_le_mul (mul_le_mul hbf h1 (abs_nonneg _) (by norm_num)) (abs_add_le _ _) (abs_nonneg _) (by positivity)
  have k2 : |bp * t1 * (v1 - v2)| ≤ (2 * alpha + 1) * (4 * A) * (|v1| + |v2|) := by
    rw [abs_mul, abs_mul]
    exact mul_le_mul (mul_le_mul hbp h2 (abs_nonneg _) (by positivity)) (abs_sub _ _) (abs_nonneg _) (by positivity)
  refine (abs_sub _ _).trans ((add_le_add k1 k2).trans (le_of_eq (by ring)))

/-- A point of a wall. -/
lemma wall_pt_le {sg bf bp alpha : ℝ} (hsg : |sg| = 1) (hα : 0 ≤ alpha) (hbf : |bf| ≤ 2) (hbp : |bp| ≤ 2 * alpha + 1) {p : Pt ℝ} {ν : Dir → ℝ}
    (hw : 0 ≤ p.w) (hW : 0 < p.W) (hN : ∀ d, normalTerm p.nor d = p.W * ν d) (hν : ν 0 ^ 2 + ν 1 ^ 2 + ν 2 ^ 2 = 1) {a1 a2 b1 b2 : Dir → ℝ} {A : ℝ}
    (ha1 : ∀ k, |a1 k| ≤ A) (ha2 : ∀ k, |a2 k| ≤ A) (hb1 : ∀ k, |b1 k| ≤ A) (hb2 : ∀ k, |b2 k| ≤ A) (v1 v2 : ℝ) (d : Dir) :
    |wallPt sg bf bp p a1 a2 b1 b2 v1 v2 d| ≤ (4 + 4 * alpha) * (p.w * (p.W * (A * (|v1| + |v2|)))) := by
  have h1 := cross_le (unit_le hν) ha1 d
  have h2 := cross_le (unit_le hν) ha2 d
  have h3 := tang_le (unit_le hν) hb1 d
  have h4 := tang_le (unit_le hν) hb2 d
  have a0 : 0 ≤ A := (abs_nonneg _).trans (ha1 0)
  unfold wallPt
  rw [crossT_scale hN, crossT_scale hN, pen_scale hW hN, pen_scale hW hN]
  generalize cross ν a1 d = c1 at h1 ⊢
  generalize cross ν a2 d = c2 at h2 ⊢
  generalize tang ν b1 d = t1 at h3 ⊢
  generalize tang ν b2 d = t2 at h4 ⊢
  have e : p.w / 2 * (sg * bf * (-p.W * c1 * v1 - -p.W * c2 * v2) - bp * (p.W * t1 * v1 + p.W * t2 * v2)) =
      p.w * (p.W * (1 / 2 * (sg * bf * (c2 * v2 - c1 * v1) - bp * (t1 * v1 + t2 * v2)))) := by ring
  have e2 : (4 + 4 * alpha) * (p.w * (p.W * (A * (|v1| + |v2|)))) = p.w * (p.W * (1 / 2 * ((8 + 8 * alpha) * (A * (|v1| + |v2|))))) := by ring
  rw [e, e2, abs_mul, abs_mul, abs_of_nonneg hw, abs_of_pos hW]
  refine mul_le_mul_of_nonneg_left (mul_le_mul_of_nonneg_left ?_ hW.le) hw
  rw [abs_mul, abs_of_pos (by norm_num : (0 : ℝ) < 1 / 2)]
  refine mul_le_mul_of_nonneg_left ?_ (by norm_num)
  have p1 := mul_le_mul_of_nonneg_right h1 (abs_nonneg v1)
  have p2 := mul_le_mul_of_nonneg_right h2 (abs_nonneg v2)
  have p3 := mul_le_mul_of_nonneg_right h3 (abs_nonneg v1)
  have p4 := mul_le_mul_of_nonneg_right h4 (abs_nonneg v2)
  rw [← abs_mul] at p1 p2 p3 p4
  have k1 : |sg * bf * (c2 * v2 - c1 * v1)| ≤ 2 * (2 * A * (|v1| + |v2|)) := by
    rw [abs_mul, abs_mul, hsg, one_mul]
    refine mul_le_mul hbf ((abs_sub _ _).trans ?_) (abs_nonneg _) (by norm_num)
    linarith
  have k2 : |bp * (t1 * v1 + t2 * v2)| ≤ (2 * alpha + 1) * (4 * A * (|v1| + |v2|)) := by
    rw [abs_mul]
    refine mul_le_mul hbp ((abs_add_le _ _).trans ?_) (abs_nonneg _) (by positivity)
    linarith
  refine (abs_sub _ _).trans ((add_le_add k1 k2).trans (le_of_eq (by ring)))

/-- What all components do on a face. -/
noncomputable def faceAll (F : Face ι ℝ) (u : State ι ℝ) : ℝ := ∑ d : Dir, (faceSq F (u .E d) + faceSq F (u .H d))

lemma faceAll_eq (F : Face ι ℝ) (u : State ι ℝ) (v : ι → ℝ) :
    (F.pts.map fun q => q.w * (q.W * (allSq F q u + (tr1 F q v ^ 2 + tr2 F q v ^ 2)))).sum = faceAll F u + faceSq F v := by
  unfold faceAll faceSq allSq
  simp only [Fin.sum_univ_three, list_sum_add]
  congr 1
  exact List.map_congr_left fun q _ => by ring

lemma coeff_abs (c : BdrCond) (f : FieldT) {alpha : ℝ} (ha : 0 ≤ alpha) : |(if c ≠ .SMA then bdrCoeff c f * alpha else 1 : ℝ)| ≤ 2 * alpha + 1 := by
  split
  · rw [abs_mul, abs_of_nonneg ha]
    have := mul_le_mul_of_nonneg_right (coeff_le c f).2 ha
    linarith
  · simp; linarith

lemma face_terms_le (h : ValidMesh S p 1) (hw : ∀ q ∈ S.interior ++ S.bdr, ∀ x ∈ q.2.rule, 0 ≤ x.1) {o : Option BdrCond} {g : MeshFace n ι}
    (hg : (o, g) ∈ S.interior ++ S.bdr) {alpha : ℝ} (hα : 0 ≤ alpha) {bf bp : ℝ} (hbf : |bf| ≤ 2) (hbp : |bp| ≤ 2 * alpha + 1)
    (u : State ι ℝ) (f : FieldT) (d : Dir) (v : ι → ℝ) :
    |plainTerm u f d bf bp g.fem.toFace v| ≤ (24 + 24 * alpha) * (faceAll g.fem.toFace u + faceSq g.fem.toFace v) ∧
    |wallTerm u f d bf bp g.fem.toFace v| ≤ (24 + 24 * alpha) * (faceAll g.fem.toFace u + faceSq g.fem.toFace v) := by
  have sg : |(sgn f : ℝ)| = 1 := by cases f <;> simp [sgn, FieldT.idx] <;> norm_num
  rw [← faceAll_eq, ← List.sum_map_mul_left]
  unfold plainTerm wallTerm
  have pt : ∀ q ∈ g.fem.toFace.pts, 0 ≤ q.w ∧ 0 < q.W ∧ ∃ ν : Dir → ℝ, (∀ d, normalTerm q.nor d = q.W * ν d) ∧ ν 0 ^ 2 + ν 1 ^ 2 + ν 2 ^ 2 = 1 := by
    intro q hq
    have hq : q ∈ g.rule.map (point g.fem) := hq
    obtain ⟨x, hx, rfl⟩ := List.mem_map.1 hq
    obtain ⟨hW, hN, hν⟩ := unit_facts h hg x.2 (h.inside _ hg x hx)
    exact ⟨hw _ hg x hx, hW, _, hN, hν⟩
  have last : ∀ q ∈ g.fem.toFace.pts, (4 + 4 * alpha) * (q.w * (q.W * (allTr g.fem.toFace q u * (|tr1 g.fem.toFace q v| + |tr2 g.fem.toFace q v|)))) ≤
      (24 + 24 * alpha) * (q.w * (q.W * (allSq g.fem.toFace q u + (tr1 g.fem.toFace q v ^ 2 + tr2 g.fem.toFace q v ^ 2)))) := by
    intro q hq
    obtain ⟨hw, hW, -⟩ := pt q hq
    have := mul_le_mul_of_nonneg_left (mul_le_mul_of_nonneg_left (mul_le_mul_of_nonneg_left (allTr_sq g.fem.toFace q u v) hW.le) hw)
      (by linarith : (0 : ℝ) ≤ 4 + 4 * alpha)
    refine this.trans (le_of_eq (by ring))
  refine ⟨sum_abs_le _ _ _ fun q hq => ?_, sum_abs_le _ _ _ fun q hq => ?_⟩
  · obtain ⟨hw, hW, ν, hN, hν⟩ := pt q hq
    exact (plain_pt_le sg hα hbf hbp hw hW hN hν (fun k => (abs_sub _ _).trans (allTr_ge _ _ u _ k))
      (fun k => (abs_sub _ _).trans (allTr_ge _ _ u _ k)) _ _ d).trans (last q hq)
  · obtain ⟨hw, hW, ν, hN, hν⟩ := pt q hq
    have l1 : ∀ f k, |tr1 g.fem.toFace q (u f k)| ≤ allTr g.fem.toFace q u := fun f k =>
      (le_add_of_nonneg_right (abs_nonneg _)).trans (allTr_ge _ _ u f k)
    have l2 : ∀ f k, |tr2 g.fem.toFace q (u f k)| ≤ allTr g.fem.toFace q u := fun f k =>
      (le_add_of_nonneg_left (abs_nonneg _)).trans (allTr_ge _ _ u f k)
    exact (wall_pt_le sg hα hbf hbp hw hW hN hν (l1 _) (l2 _) (l1 _) (l2 _) _ _ d).trans (last q hq)

lemma faceSq_nonneg (h : ValidMesh S p 1) (hw : ∀ q ∈ S.interior ++ S.bdr, ∀ x ∈ q.2.rule, 0 ≤ x.1) {o : Option BdrCond} {g : MeshFace n ι}
    (hg : (o, g) ∈ S.interior ++ S.bdr) (v : ι → ℝ) : 0 ≤ faceSq g.fem.toFace v := by
  refine List.sum_nonneg fun y hy => ?_
  obtain ⟨q, hq, rfl⟩ := List.mem_map.1 hy
  have hq : q ∈ g.rule.map (point g.fem) := hq
  obtain ⟨x, hx, rfl⟩ := List.mem_map.1 hq
  have hW := (unit_facts h hg x.2 (h.inside _ hg x hx)).1
  exact mul_nonneg (hw _ hg x hx) (mul_nonneg hW.le (by positivity))

lemma faceAll_nonneg (h : ValidMesh S p 1) (hw : ∀ q ∈ S.interior ++ S.bdr, ∀ x ∈ q.2.rule, 0 ≤ x.1) {o : Option BdrCond} {g : MeshFace n ι}
    (hg : (o, g) ∈ S.interior ++ S.bdr) (u : State ι ℝ) : 0 ≤ faceAll g.fem.toFace u :=
  Finset.sum_nonneg fun _ _ => add_nonneg (faceSq_nonneg h hw hg _) (faceSq_nonneg h hw hg _)

lemma faces_all (h : ValidMesh S p 1) {L : ℝ} (hL : Constants n p L) {τ : ℝ} (hf : Thick S τ) (u : State ι ℝ) :
    ((S.interior ++ S.bdr).map fun q => faceAll q.2.fem.toFace u).sum ≤ 4 * L / τ * sqAll S u := by
  have e : ((S.interior ++ S.bdr).map fun q => faceAll q.2.fem.toFace u).sum =
      ∑ d : Dir, (((S.interior ++ S.bdr).map fun q => faceSq q.2.fem.toFace (u .E d)).sum +
        ((S.interior ++ S.bdr).map fun q => faceSq q.2.fem.toFace (u .H d)).sum) := by
    unfold faceAll
    simp only [Fin.sum_univ_three, list_sum_add]
  rw [e]
  unfold sqAll
  rw [Finset.mul_sum]
  refine Finset.sum_le_sum fun d _ => ?_
  have h1 := faces_sq h hL hf (u .E d)
  have h2 := faces_sq h hL hf (u .H d)
  rw [mul_add]
  exact add_le_add h1 h2

lemma all_faces_le (h : ValidMesh S p 1) (ms : List (Int × Material ℝ)) {L : ℝ} (hL : Constants n p L) {τ : ℝ} (hf : Thick S τ)
    (hα : 0 ≤ S.alpha) (u : State ι ℝ) (f : FieldT) (d : Dir) (v : ι → ℝ) :
    |((femOf S ms).prob.interior.map fun q => interiorTerm (femOf S ms).prob.alpha u f d v q.1 q.2).sum +
      ((femOf S ms).prob.bdr.map fun q => exteriorTerm (femOf S ms).prob.alpha u f d v q.1 q.2).sum| ≤
      (24 + 24 * S.alpha) * (4 * L / τ) * (sqAll S u + sqNorm S v) := by
  have c0 : (0 : ℝ) ≤ 24 + 24 * S.alpha := by linarith
  have zero : ∀ {o : Option BdrCond} {g : MeshFace n ι}, (o, g) ∈ S.interior ++ S.bdr →
      (0 : ℝ) ≤ (24 + 24 * S.alpha) * (faceAll g.fem.toFace u + faceSq g.fem.toFace v) := fun hg =>
    mul_nonneg c0 (add_nonneg (faceAll_nonneg h hf.weights hg _) (faceSq_nonneg h hf.weights hg _))
  have hI : |((femOf S ms).prob.interior.map fun q => interiorTerm (femOf S ms).prob.alpha u f d v q.1 q.2).sum| ≤
      (S.interior.map fun q => (24 + 24 * S.alpha) * (faceAll q.2.fem.toFace u + faceSq q.2.fem.toFace v)).sum := by
    change |((S.interior.map fun q => (q.1, q.2.fem)).map fun q => (q.1, q.2.toFace)).map _ |>.sum| ≤ _
    rw [List.map_map, List.map_map]
    refine sum_abs_le _ _ _ fun q hq => ?_
    obtain ⟨o, g⟩ := q
    have hg : (o, g) ∈ S.interior ++ S.bdr := List.mem_append_left _ hq
    cases o with
    | none => exact (face_terms_le h hf.weights hg hα (by norm_num) (by show |S.alpha| ≤ _; rw [abs_of_nonneg hα]; linarith) u f d v).1
    | some c =>
      have key := (face_terms_le h hf.weights hg hα (coeff_le c (altField f)).1 (coeff_abs c f hα) u f d v).2
      change |interiorTerm S.alpha u f d v (some c) g.fem.toFace| ≤ _
      unfold interiorTerm
      cases c with
      | SGBC => simpa using zero hg
      | PEC => exact key
      | PMC => exact key
      | SMA => exact key
  have hB : |((femOf S ms).prob.bdr.map fun q => exteriorTerm (femOf S ms).prob.alpha u f d v q.1 q.2).sum| ≤
      (S.bdr.map fun q => (24 + 24 * S.alpha) * (faceAll q.2.fem.toFace u + faceSq q.2.fem.toFace v)).sum := by
    change |((S.bdr.map fun q => (q.1, q.2.fem)).map fun q => (q.1, q.2.toFace)).map _ |>.sum| ≤ _
    rw [List.map_map, List.map_map]
    refine sum_abs_le _ _ _ fun q hq => ?_
    obtain ⟨o, g⟩ := q
    have hg : (o, g) ∈ S.interior ++ S.bdr := List.mem_append_right _ hq
    cases o with
    | none => simpa [exteriorTerm] using zero hg
    | some c => exact (face_terms_le h hf.weights hg hα (coeff_le c (altField f)).1 (coeff_abs c f hα) u f d v).1
  refine (abs_add_le _ _).trans ((add_le_add hI hB).trans ?_)
  rw [← List.sum_append, ← List.map_append, List.sum_map_mul_left, ← list_sum_add, mul_assoc]
  refine mul_le_mul_of_nonneg_left ?_ c0
  have h1 := faces_all h hL hf u
  have h2 := faces_sq h hL hf v
  rw [mul_add]
  exact add_le_add h1 h2

lemma loss_le (h : ValidMesh S p 1) (ms : List (Int × Material ℝ)) (hm : ValidMaterials S ms) {m0 s1 : ℝ} (hs : AtLeast S ms m0 s1)
    (hs0 : 0 ≤ s1) (u : State ι ℝ) (f : FieldT) (d : Dir) (v : ι → ℝ) :
    |lossTerm (femOf S ms).prob u f d v| ≤ s1 / 2 * (sqAll S u + sqNorm S v) := by
  have nn := sqNorm_nonneg h
  have all : ∀ d, sqNorm S (u .E d) ≤ sqAll S u := fun d => by
    unfold sqAll
    rw [Fin.sum_univ_three]
    have n1 := nn (u .E 0); have n2 := nn (u .E 1); have n3 := nn (u .E 2)
    have n4 := nn (u .H 0); have n5 := nn (u .H 1); have n6 := nn (u .H 2)
    fin_cases d <;> simp only [Fin.zero_eta, Fin.mk_one, Fin.reduceFinMk] <;> linarith
  cases f with
  | H =>
    change |(0 : ℝ)| ≤ _
    rw [abs_zero]
    exact mul_nonneg (by linarith) (add_nonneg ((nn (u .E 0)).trans (all 0)) (nn v))
  | E =>
    change |form (massMatrix (S.cells.map fun c => (c, (materialOf ms c).sigma))) v (u .E d)| ≤ _
    unfold form
    rw [mass_form h]
    have one : ∀ c ∈ S.cells, |(materialOf ms c).sigma * integral (n + 1) (onElem c.e v * onElem c.e (u .E d) * c.e.jac.det)| ≤
        s1 / 2 * (integral (n + 1) (onElem c.e (u .E d) ^ 2 * c.e.jac.det) + integral (n + 1) (onElem c.e v ^ 2 * c.e.jac.det)) := by
      intro c hc
      have σ0 : 0 ≤ (materialOf ms c).sigma := by
        obtain ⟨m, hmm⟩ := hm.all c hc
        unfold materialOf
        rw [hmm]
        exact hm.sigma _ (Assoc.find_mem _ _ _ hmm)
      have m1 := sq_nonneg' h hc (onElem c.e v - onElem c.e (u .E d))
      have m2 := sq_nonneg' h hc (onElem c.e v + onElem c.e (u .E d))
      have e1 : (onElem c.e v - onElem c.e (u .E d)) * (onElem c.e v - onElem c.e (u .E d)) * c.e.jac.det =
        onElem c.e (u .E d) ^ 2 * c.e.jac.det + onElem c.e v ^ 2 * c.e.jac.det - C 2 * (onElem c.e v * onElem c.e (u .E d) * c.e.jac.det) := by
        rw [show (C 2 : Poly (n + 1) ℝ) = 2 from map_ofNat C 2]; ring
      have e2 : (onElem c.e v + onElem c.e (u .E d)) * (onElem c.e v + onElem c.e (u .E d)) * c.e.jac.det =
        onElem c.e (u .E d) ^ 2 * c.e.jac.det + onElem c.e v ^ 2 * c.e.jac.det + C 2 * (onElem c.e v * onElem c.e (u .E d) * c.e.jac.det) := by
        rw [show (C 2 : Poly (n + 1) ℝ) = 2 from map_ofNat C 2]; ring
      rw [e1, map_sub, map_add, integral_scale] at m1
      rw [e2, map_add, map_add, integral_scale] at m2
      rw [abs_mul, abs_of_nonneg σ0]
      have k : |integral (n + 1) (onElem c.e v * onElem c.e (u .E d) * c.e.jac.det)| ≤
          1 / 2 * (integral (n + 1) (onElem c.e (u .E d) ^ 2 * c.e.jac.det) + integral (n + 1) (onElem c.e v ^ 2 * c.e.jac.det)) := by
        rw [abs_le]
        constructor <;> linarith
      refine (mul_le_mul (hs c hc).2.2 k (abs_nonneg _) hs0).trans (le_of_eq (by ring))
    refine (sum_abs_le _ _ _ one).trans ?_
    rw [List.sum_map_mul_left, ← list_sum_add]
    refine mul_le_mul_of_nonneg_left ?_ (by linarith)
    exact add_le_add (all d) le_rfl

/-- The rate of change, tested. -/
lemma weak_le (h : ValidMesh S p 1) (ms : List (Int × Material ℝ)) (hm : ValidMaterials S ms) {L : ℝ} (hL : Constants n p L) {τ : ℝ}
    (hf : Thick S τ) {m0 s1 : ℝ} (hs : AtLeast S ms m0 s1) (hs0 : 0 ≤ s1) {alpha : ℝ} (hα : 0 ≤ S.alpha) (hα1 : S.alpha ≤ alpha)
    (u : State ι ℝ) (f : FieldT) (d : Dir) (v : ι → ℝ) :
    |weak (femOf S ms).prob u f d v| ≤ ((3 + 100 * (1 + alpha) * L) / τ + s1 / 2) * (sqNorm S v + sqAll S u) := by
  have nn := sqNorm_nonneg h
  have hτ := hf.pos
  have hL0 := hL.nonneg
  have na : 0 ≤ sqAll S u := Finset.sum_nonneg fun d _ => add_nonneg (nn _) (nn _)
  have k1 := curl_le h ms hL hf u f d v
  have k2 := all_faces_le h ms hL hf hα u f d v
  have k3 := loss_le h ms hm hs hs0 u f d v
  rw [weak_faces]
  have e : curlTerm (femOf S ms).prob u f d v + ((femOf S ms).prob.interior.map fun q => interiorTerm (femOf S ms).prob.alpha u f d v q.1 q.2).sum +
      ((femOf S ms).prob.bdr.map fun q => exteriorTerm (femOf S ms).prob.alpha u f d v q.1 q.2).sum - lossTerm (femOf S ms).prob u f d v =
      curlTerm (femOf S ms).prob u f d v + (((femOf S ms).prob.interior.map fun q => interiorTerm (femOf S ms).prob.alpha u f d v q.1 q.2).sum +
      ((femOf S ms).prob.bdr.map fun q => exteriorTerm (femOf S ms).prob.alpha u f d v q.1 q.2).sum) - lossTerm (femOf S ms).prob u f d v := by ring
  rw [e]
  refine (abs_sub _ _).trans ((add_le_add ((abs_add_le _ _).trans (add_le_add k1 k2)) k3).trans ?_)
  have hv := nn v
  have c1 : 3 / (2 * τ) * (2 * sqNorm S v + L * sqAll S u) ≤ (3 + 4 * L) / τ * (sqNorm S v + sqAll S u) := by
    have : 3 / (2 * τ) * (2 * sqNorm S v + L * sqAll S u) = 1 / τ * (3 * sqNorm S v + 3 / 2 * L * sqAll S u) := by field_simp
    rw [this, show (3 + 4 * L) / τ * (sqNorm S v + sqAll S u) = 1 / τ * ((3 + 4 * L) * (sqNorm S v + sqAll S u)) by ring]
    refine mul_le_mul_of_nonneg_left ?_ (one_div_pos.2 hτ).le
    nlinarith [mul_nonneg hL0 hv, mul_nonneg hL0 na]
  have c2 : (24 + 24 * S.alpha) * (4 * L / τ) * (sqAll S u + sqNorm S v) ≤ 96 * (1 + alpha) * L / τ * (sqNorm S v + sqAll S u) := by
    rw [add_comm (sqAll S u)]
    refine mul_le_mul_of_nonneg_right ?_ (add_nonneg hv na)
    have : (24 + 24 * S.alpha) * (4 * L / τ) = 96 * (1 + S.alpha) * L / τ := by ring
    rw [this]
    gcongr
  have c3 : (3 + 4 * L) / τ + 96 * (1 + alpha) * L / τ ≤ (3 + 100 * (1 + alpha) * L) / τ := by
    rw [← add_div]
    have : 0 ≤ alpha * L := mul_nonneg (hα.trans hα1) hL0
    refine div_le_div_of_nonneg_right ?_ hτ.le
    linarith
  have c4 := mul_le_mul_of_nonneg_right c3 (add_nonneg hv na)
  rw [add_mul] at c4
  rw [add_mul ((3 + 100 * (1 + alpha) * L) / τ), add_comm (sqAll S u)] at *
  linarith

lemma mass_ge (h : ValidMesh S p 1) (ms : List (Int × Material ℝ)) {m0 s1 : ℝ} (hs : AtLeast S ms m0 s1) (f : FieldT) (v : ι → ℝ) :
    m0 * sqNorm S v ≤ form (massOf S ms f) v v := by
  have gen : ∀ g : Cell n ι → ℝ, (∀ c ∈ S.cells, m0 ≤ g c) → m0 * sqNorm S v ≤ form (massMatrix (S.cells.map fun c => (c, g c))) v v := by
    intro g hg
    unfold form sqNorm
    rw [mass_form h, ← List.sum_map_mul_left]
    refine List.sum_le_sum fun c hc => ?_
    rw [sq]
    exact mul_le_mul_of_nonneg_right (hg c hc) (sq_nonneg' h hc _)
  cases f with
  | E => exact gen _ fun c hc => (hs c hc).1
  | H => exact gen _ fun c hc => (hs c hc).2.1

/-- How much faster than the fields their rates of change can be. -/
lemma rate_le (h : ValidMesh S p 1) (ms : List (Int × Material ℝ)) (hm : ValidMaterials S ms) {L : ℝ} (hL : Constants n p L) {τ : ℝ}
    (hf : Thick S τ) {m0 s1 : ℝ} (hm0 : 0 < m0) (hs : AtLeast S ms m0 s1) (hs0 : 0 ≤ s1) {alpha : ℝ} (hα : 0 ≤ S.alpha) (hα1 : S.alpha ≤ alpha)
    (u : State ι ℝ) :
    energy (massOf S ms) (globalMult (femOf S ms).prob u) ≤ (5 * ((3 + 100 * (1 + alpha) * L) / τ + s1 / 2) / m0) ^ 2 * energy (massOf S ms) u := by
  have hL0 := hL.nonneg
  have hτ := hf.pos
  have hal : 0 ≤ alpha := hα.trans hα1
  obtain ⟨K, hK⟩ : ∃ K, K = (3 + 100 * (1 + alpha) * L) / τ + s1 / 2 := ⟨_, rfl⟩
  have hK0 : 0 < K := by rw [hK]; positivity
  have hgood := good_fem h ms hm hf.weights
  have nn := sqNorm_nonneg h
  have key : ∀ f d, form (massOf S ms f) (globalMult (femOf S ms).prob u f d) (globalMult (femOf S ms).prob u f d) ≤ 4 * K ^ 2 / m0 * sqAll S u := by
    intro f d
    obtain ⟨v, hv⟩ : ∃ v, v = globalMult (femOf S ms).prob u f d := ⟨_, rfl⟩
    obtain ⟨s, hs'⟩ : ∃ s, s = m0 / (2 * K) := ⟨_, rfl⟩
    have s0 : 0 < s := by rw [hs']; positivity
    have k1 := weak_le h ms hm hL hf hs hs0 hα hα1 u f d (s • v)
    rw [← hK] at k1
    have e1 : weak (femOf S ms).prob u f d (s • v) = s * form (massOf S ms f) v v := by
      rw [← weak_test _ hgood, smul_dotProduct, ← hv]; rfl
    have e2 : sqNorm S (s • v) = s ^ 2 * sqNorm S v := by
      unfold sqNorm
      rw [← List.sum_map_mul_left]
      congr 1
      refine List.map_congr_left fun c _ => ?_
      rw [← integral_scale, show onElem c.e (s • v) = C s * onElem c.e v from by
        unfold onElem; rw [Finset.mul_sum]; exact Finset.sum_congr rfl fun i _ => by rw [Pi.smul_apply, smul_eq_mul, C_mul, mul_assoc], C_pow]
      congr 1
      ring
    rw [e1, e2] at k1
    have k2 := (le_abs_self _).trans k1
    have k3 := mass_ge h ms hs f v
    rw [← hv]
    obtain ⟨G, hG⟩ : ∃ G, G = form (massOf S ms f) v v := ⟨_, rfl⟩
    rw [← hG] at k2 k3 ⊢
    have k4 : K * (s ^ 2 * sqNorm S v) ≤ s / 2 * G := by
      have : K * s = m0 / 2 := by rw [hs']; field_simp
      calc K * (s ^ 2 * sqNorm S v) = s / 2 * (2 * (K * s) * sqNorm S v) := by ring
        _ = s / 2 * (m0 * sqNorm S v) := by rw [this]; ring
        _ ≤ s / 2 * G := mul_le_mul_of_nonneg_left k3 (by positivity)
    have k5 : s / 2 * G ≤ K * sqAll S u := by rw [mul_add] at k2; linarith
    have : 4 * K ^ 2 / m0 * sqAll S u = 2 / s * (K * sqAll S u) := by rw [hs']; field_simp; ring
    rw [this, div_mul_eq_mul_div, le_div_iff₀ s0]
    linarith
  have lo : m0 / 2 * sqAll S u ≤ energy (massOf S ms) u := by
    unfold energy sqAll
    rw [div_mul_eq_mul_div, mul_comm (1 / 2 : ℝ), mul_one_div]
    refine div_le_div_of_nonneg_right ?_ (by norm_num)
    rw [Finset.mul_sum]
    refine Finset.sum_le_sum fun d _ => ?_
    rw [mul_add]
    exact add_le_add (mass_ge h ms hs .E _) (mass_ge h ms hs .H _)
  have hi : energy (massOf S ms) (globalMult (femOf S ms).prob u) ≤ 12 * K ^ 2 / m0 * sqAll S u := by
    unfold energy
    have : ∑ d : Dir, (globalMult (femOf S ms).prob u .E d ⬝ᵥ (massOf S ms .E).mulVec (globalMult (femOf S ms).prob u .E d) +
        globalMult (femOf S ms).prob u .H d ⬝ᵥ (massOf S ms .H).mulVec (globalMult (femOf S ms).prob u .H d)) ≤
        ∑ _d : Dir, (4 * K ^ 2 / m0 * sqAll S u + 4 * K ^ 2 / m0 * sqAll S u) :=
      Finset.sum_le_sum fun d _ => add_le_add (key .E d) (key .H d)
    rw [Finset.sum_const] at this
    simp only [Finset.card_univ, Fintype.card_fin, nsmul_eq_mul, Nat.cast_ofNat] at this
    calc _ ≤ 1 / 2 * (3 * (4 * K ^ 2 / m0 * sqAll S u + 4 * K ^ 2 / m0 * sqAll S u)) := mul_le_mul_of_nonneg_left this (by norm_num)
      _ = _ := by ring
  rw [← hK]
  have na : 0 ≤ sqAll S u := Finset.sum_nonneg fun d _ => add_nonneg (nn _) (nn _)
  calc _ ≤ 12 * K ^ 2 / m0 * sqAll S u := hi
    _ ≤ 25 * K ^ 2 / m0 ^ 2 * (m0 / 2 * sqAll S u) := by
        rw [show 25 * K ^ 2 / m0 ^ 2 * (m0 / 2 * sqAll S u) = (25 / 2) * K ^ 2 / m0 * sqAll S u by field_simp]
        gcongr
        norm_num
    _ ≤ 25 * K ^ 2 / m0 ^ 2 * energy (massOf S ms) u := mul_le_mul_of_nonneg_left lo (by positivity)
    _ = _ := by ring

end Dgtd.Galerkin
