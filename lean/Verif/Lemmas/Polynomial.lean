/-
The global operator on fields that are polynomials of the position.
-/
import Verif.Spec.Polynomial
import Verif.Lemmas.OpFrame
import Verif.Props.GalerkinMass

set_option linter.unusedSectionVars false

namespace Dgtd.Galerkin
open MvPolynomial Spec Dgtd.Op Dgtd.Op.Spec
open Dgtd.Config (Material)

variable {n : Nat} {ι : Type}

/-- Derivative along a direction of the mesh, times the Jacobian, in reference coordinates. -/
noncomputable def refD (e : Elem n ι ℝ) (d : Dir) (q : Poly (n + 1) ℝ) : Poly (n + 1) ℝ :=
  if h : d.val < n + 1 then ∑ k, e.adj k ⟨d.val, h⟩ * pderiv k q else 0

lemma refD_geom (e : Elem n ι ℝ) (d : Dir) (q : Poly (n + 1) ℝ) : refD e d (bind₁ e.geom q) = e.jac.det * bind₁ e.geom (ddx d q) := by
  unfold refD ddx
  split
  · rename_i h
    have : ∀ k, pderiv k (bind₁ e.geom q) = ∑ j, bind₁ e.geom (pderiv j q) * e.jac j k := fun k => pderiv_bind _ _ _
    simp only [this, Finset.mul_sum]
    rw [Finset.sum_comm]
    have h2 : ∀ j, (∑ k, e.adj k ⟨d.val, h⟩ * (bind₁ e.geom (pderiv j q) * e.jac j k)) =
        bind₁ e.geom (pderiv j q) * (e.jac * e.adj) j ⟨d.val, h⟩ := by
      intro j
      rw [Matrix.mul_apply, Finset.mul_sum]
      exact Finset.sum_congr rfl fun k _ => by ring
    simp only [h2]
    have h3 : e.jac * e.adj = e.jac.det • 1 := Matrix.mul_adjugate _
    rw [h3, Finset.sum_eq_single ⟨d.val, h⟩]
    · simp; ring
    · intro j _ hj
      simp [Matrix.one_apply, hj]
    · simp
  · simp

variable [Fintype ι] [DecidableEq ι] {S : Setup n ι} {p m : Nat}

lemma deriv_exact (h : ValidMesh S p m) (F : Fem n ι ℝ) (hF : F.els = S.skeleton.els) (d : Dir) (v u : ι → ℝ) :
    form (derivativeSub F.prob d) v u = (S.cells.map fun c => integral (n + 1) (onElem c.e v * refD c.e d (onElem c.e u))).sum := by
  unfold form derivativeSub refD
  by_cases hd : d.val < n + 1
  · rw [if_neg (by change ¬ (n + 1 ≤ d.val); omega)]
    change v ⬝ᵥ (derivMatrix F.els d).mulVec u = _
    rw [deriv_form _ _ hd, hF]
    simp only [Setup.skeleton, List.map_map, dif_pos hd]
    congr 1
    refine List.map_congr_left fun c hc => ?_
    have hdeg : (onElem c.e v * ∑ k, c.e.adj k ⟨d.val, hd⟩ * pderiv k (onElem c.e u)).totalDegree ≤ volumeOrder (n + 1) p m := by
      have hp := h.simplicial.order
      have hm := h.simplicial.geomOrder
      have h1 : (onElem c.e v * ∑ k, c.e.adj k ⟨d.val, hd⟩ * pderiv k (onElem c.e u)).totalDegree ≤ p + (n * (m - 1) + (p - 1)) := by
        refine degree_mul_le (fld_degree _ (h.shape hc) _) (degree_sum_le fun k _ =>
          degree_mul_le (degree_adj h.simplicial.dim _ (h.geom hc) _ _) ?_)
        exact (totalDegree_pderiv _ _).trans (Nat.sub_le_sub_right (fld_degree _ (h.shape hc) _) 1)
      refine h1.trans ?_
      unfold volumeOrder
      split
      · rw [Nat.add_sub_cancel]; omega
      · have : m - 1 = 0 := by omega
        rw [this]; omega
    exact h.simplicial.volume (c.e, c.vol) (List.mem_map_of_mem (f := fun c : Cell n ι => (c.e, c.vol)) hc) _ hdeg
  · rw [if_pos (by change n + 1 ≤ d.val; omega)]
    simp [hd]

/-! ### faces -/

/-- Component `d` of the tangential part. -/
def tang (ν t : Dir → ℝ) (d : Dir) : ℝ := t d - ν d * ∑ k, ν k * t k

lemma tang_zero {ν t : Dir → ℝ} (hν : ν 0 ^ 2 + ν 1 ^ 2 + ν 2 ^ 2 = 1) (h : ∀ d, cross ν t d = 0) (d : Dir) : tang ν t d = 0 := by
  have h0 : ν 1 * t 2 - ν 2 * t 1 = 0 := h 0
  have h1 : ν 2 * t 0 - ν 0 * t 2 = 0 := h 1
  have h2 : ν 0 * t 1 - ν 1 * t 0 = 0 := h 2
  unfold tang
  rw [Fin.sum_univ_three]
  fin_cases d
  · change t 0 - ν 0 * (ν 0 * t 0 + ν 1 * t 1 + ν 2 * t 2) = 0
    linear_combination (-t 0) * hν + ν 2 * h1 - ν 1 * h2
  · change t 1 - ν 1 * (ν 0 * t 0 + ν 1 * t 1 + ν 2 * t 2) = 0
    linear_combination (-t 1) * hν + ν 0 * h2 - ν 2 * h0
  · change t 2 - ν 2 * (ν 0 * t 0 + ν 1 * t 1 + ν 2 * t 2) = 0
    linear_combination (-t 2) * hν + ν 1 * h0 - ν 0 * h1

lemma cross_tang {ν e b : Dir → ℝ} (hν : ν 0 ^ 2 + ν 1 ^ 2 + ν 2 ^ 2 = 1) (h : ∀ d, tang ν e d = cross b ν d) (d : Dir) :
    tang ν b d = cross ν e d := by
  have h0 : e 0 - ν 0 * (ν 0 * e 0 + ν 1 * e 1 + ν 2 * e 2) = b 1 * ν 2 - b 2 * ν 1 := by
    have := h 0; unfold tang at this; rw [Fin.sum_univ_three] at this; exact this
  have h1 : e 1 - ν 1 * (ν 0 * e 0 + ν 1 * e 1 + ν 2 * e 2) = b 2 * ν 0 - b 0 * ν 2 := by
    have := h 1; unfold tang at this; rw [Fin.sum_univ_three] at this; exact this
  have h2 : e 2 - ν 2 * (ν 0 * e 0 + ν 1 * e 1 + ν 2 * e 2) = b 0 * ν 1 - b 1 * ν 0 := by
    have := h 2; unfold tang at this; rw [Fin.sum_univ_three] at this; exact this
  unfold tang
  rw [Fin.sum_univ_three]
  fin_cases d
  · change b 0 - ν 0 * (ν 0 * b 0 + ν 1 * b 1 + ν 2 * b 2) = ν 1 * e 2 - ν 2 * e 1
    linear_combination (-b 0) * hν - ν 1 * h2 + ν 2 * h1
  · change b 1 - ν 1 * (ν 0 * b 0 + ν 1 * b 1 + ν 2 * b 2) = ν 2 * e 0 - ν 0 * e 2
    linear_combination (-b 1) * hν - ν 2 * h0 + ν 0 * h2
  · change b 2 - ν 2 * (ν 0 * b 0 + ν 1 * b 1 + ν 2 * b 2) = ν 0 * e 1 - ν 1 * e 0
    linear_combination (-b 2) * hν - ν 0 * h1 + ν 1 * h0

lemma crossT_scale {ν N : Dir → ℝ} {W : ℝ} (hN : ∀ d, N d = W * ν d) (t : Dir → ℝ) (d : Dir) : crossT N t d = -W * cross ν t d := by
  unfold crossT cross
  rw [hN, hN]; ring

lemma pen_scale {ν N : Dir → ℝ} {W : ℝ} (hW : 0 < W) (hN : ∀ d, N d = W * ν d) (t : Dir → ℝ) (d : Dir) : pen N W t d = W * tang ν t d := by
  unfold pen tang
  rw [Fin.sum_univ_three, hN, hN, hN, hN]
  field_simp

/-- A boundary that is obeyed exerts no flux. -/
lemma obeys_zero {c : BdrCond} {ν : Dir → ℝ} {val : FieldT → Dir → ℝ} (hν : ν 0 ^ 2 + ν 1 ^ 2 + ν 2 ^ 2 = 1) (h : Obeys c ν val) (alpha : ℝ)
    (f : FieldT) (d : Dir) :
    sgn f * fluxCoeff c (altField f) * -cross ν (val (altField f)) d - (if c ≠ .SMA then bdrCoeff c f * alpha else 1) * tang ν (val f) d = 0 := by
  cases c with
  | PEC =>
    cases f with
    | E => simp [fluxCoeff, bdrCoeff, altField, tang_zero hν h]
    | H => simp [fluxCoeff, bdrCoeff, altField, h d]
  | PMC =>
    cases f with
    | E => simp [fluxCoeff, bdrCoeff, altField, h d]
    | H => simp [fluxCoeff, bdrCoeff, altField, tang_zero hν h]
  | SMA =>
    have h' : ∀ d, tang ν (val .E) d = cross (val .H) ν d := h
    cases f with
    | E =>
      rw [h']
      simp [sgn, FieldT.idx, fluxCoeff, altField, cross]
      ring
    | H =>
      rw [cross_tang hν h']
      simp [sgn, FieldT.idx, fluxCoeff, altField]
      norm_num
  | SGBC =>
    cases f with
    | E => simp [fluxCoeff, bdrCoeff, altField, tang_zero hν (h .E), h .H d]
    | H => simp [fluxCoeff, bdrCoeff, altField, tang_zero hν (h .H), h .E d]

lemma trace_side {Q : PField n ι} {s : Side n ι ℝ} {u : ι → ℝ} {f : FieldT} {d : Dir} (h : onElem s.e u = bind₁ s.e.geom (Q s.e f d))
    (x : Fin n → ℝ) : eval x (s.restrict (fld s.e u)) = onSide Q s x f d := by
  change eval x (s.restrict (onElem s.e u)) = _
  rw [h, eval_restrict, onSide]
  have : ∀ q : Poly (n + 1) ℝ, eval (fun j => eval x (loc s.face s.turn j)) (bind₁ s.e.geom q) = eval (pos s x) q := by
    intro q
    induction q using MvPolynomial.induction_on with
    | C a => simp
    | add p q hp hq => simp [hp, hq]
    | mul_X p i hp => simp only [map_mul, hp, bind₁_X_right, eval_X]; rw [pos, eval_restrict]
  exact this _

lemma sides_cells (h : ValidMesh S p m) {g : MeshFace n ι} {o : Option BdrCond} (hg : (o, g) ∈ S.interior ++ S.bdr) :
    (∃ c ∈ S.cells, g.s1.e = c.e) ∧ ∀ s ∈ g.s2, ∃ c ∈ S.cells, s.e = c.e := by
  have hf : g.fem ∈ Spec.faces S.skeleton := by
    simp only [Spec.faces, Setup.skeleton, List.map_map, ← List.map_append]
    exact List.mem_map_of_mem (f := fun q : Option BdrCond × MeshFace n ι => q.2.fem) hg
  have key : ∀ x ∈ Spec.sides g.fem, ∃ c ∈ S.cells, x.1 = c.e := by
    intro x hx
    have := h.simplicial.cover.subset (List.mem_flatMap.2 ⟨g.fem, hf, hx⟩)
    obtain ⟨e, he, hx⟩ := List.mem_flatMap.1 this
    obtain ⟨k, _, hk⟩ := List.mem_map.1 hx
    obtain ⟨c, hc, rfl⟩ := List.mem_map.1 he
    exact ⟨c, hc, by rw [← hk]⟩
  refine ⟨key (g.s1.e, g.s1.face) (by simp [Spec.sides, MeshFace.fem]), fun s hs => key (s.e, s.face) ?_⟩
  have : g.s2 = some s := hs
  simp [Spec.sides, MeshFace.fem, this]

lemma carries_one (h : ValidMesh S p m) {Q : PField n ι} {u : State ι ℝ} (hu : Carries S Q u) {g : MeshFace n ι} {o : Option BdrCond}
    (hg : (o, g) ∈ S.interior ++ S.bdr) (q : ℝ × (Fin n → ℝ)) (f : FieldT) (d : Dir) :
    tr1 g.fem.toFace (point g.fem q) (u f d) = onSide Q g.s1 q.2 f d := by
  obtain ⟨c, hc, e⟩ := (sides_cells h hg).1
  rw [trace1_eq]
  exact trace_side (s := g.s1) (by rw [e]; exact hu c hc f d) q.2

lemma carries_two (h : ValidMesh S p m) {Q : PField n ι} {u : State ι ℝ} (hu : Carries S Q u) {g : MeshFace n ι} {o : Option BdrCond}
    (hg : (o, g) ∈ S.interior ++ S.bdr) (q : ℝ × (Fin n → ℝ)) (f : FieldT) (d : Dir) :
    tr2 g.fem.toFace (point g.fem q) (u f d) = onOther Q g q.2 f d := by
  rw [trace2_eq]
  unfold trace2 onOther
  change eval q.2 (match g.s2 with | some s => s.restrict (fld s.e (u f d)) | none => 0) = _
  cases hs : g.s2 with
  | none => simp
  | some s =>
    obtain ⟨c, hc, e⟩ := (sides_cells h hg).2 s hs
    exact trace_side (by rw [e]; exact hu c hc f d) q.2

lemma unit_facts (h : ValidMesh S p m) {g : MeshFace n ι} {o : Option BdrCond} (hg : (o, g) ∈ S.interior ++ S.bdr) (x : Fin n → ℝ)
    (hx : InSimplex x) : 0 < g.fem.W x ∧
    (∀ d, normalTerm ((normal g.s1).map fun c => eval x c) d = g.fem.W x * unitNormal g.s1 x d) ∧
    unitNormal g.s1 x 0 ^ 2 + unitNormal g.s1 x 1 ^ 2 + unitNormal g.s1 x 2 ^ 2 = 1 := by
  have hf : g.fem ∈ Spec.faces S.skeleton := by
    simp only [Spec.faces, Setup.skeleton, List.map_map, ← List.map_append]
    exact List.mem_map_of_mem (f := fun q : Option BdrCond × MeshFace n ι => q.2.fem) hg
  obtain ⟨c, hc, hce⟩ := (sides_cells h hg).1
  have hpos := normal_pos h.simplicial.dim g.s1 (h.simplicial.one _ hf) (by
    intro z hz
    rw [hce]; exact h.jacobian c hc z hz) x hx
  have hW : g.fem.W x = √(((normal g.s1).map fun c => eval x c ^ 2).sum) := rfl
  have hW0 : 0 < g.fem.W x := by rw [hW]; exact Real.sqrt_pos.2 hpos
  have hd : ∀ d, normalTerm ((normal g.s1).map fun c => eval x c) d = g.fem.W x * unitNormal g.s1 x d := by
    intro d
    unfold unitNormal
    rw [← hW, mul_div_cancel₀ _ hW0.ne', normalTerm, List.getD_eq_getElem?_getD]
  refine ⟨hW0, hd, ?_⟩
  have := normal_norm h.simplicial.dim g.s1 x
  rw [hd, hd, hd] at this
  have h2 : g.fem.W x ^ 2 = ((normal g.s1).map fun c => eval x c ^ 2).sum := by rw [hW]; exact Real.sq_sqrt hpos.le
  rw [← h2] at this
  have h3 : g.fem.W x ^ 2 * (unitNormal g.s1 x 0 ^ 2 + unitNormal g.s1 x 1 ^ 2 + unitNormal g.s1 x 2 ^ 2) = g.fem.W x ^ 2 * 1 := by
    linear_combination this
  exact mul_left_cancel₀ (pow_ne_zero 2 hW0.ne') h3

lemma sum_zero_of {α : Type} (l : List α) (f : α → ℝ) (h : ∀ a ∈ l, f a = 0) : (l.map f).sum = 0 := by
  rw [List.map_congr_left h]; simp

lemma plain_zero (h : ValidMesh S p m) {Q : PField n ι} {u : State ι ℝ} (hu : Carries S Q u) (ha : Admissible S Q) {g : MeshFace n ι}
    (hg : (none, g) ∈ S.interior) (alpha : ℝ) (f : FieldT) (d : Dir) (v : ι → ℝ) : plainTerm u f d 1 alpha g.fem.toFace v = 0 := by
  have hg' : (none, g) ∈ S.interior ++ S.bdr := List.mem_append_left _ hg
  unfold plainTerm
  change ((g.rule.map (point g.fem)).map _).sum = 0
  rw [List.map_map]
  refine sum_zero_of _ _ fun q hq => ?_
  have hx : InSimplex q.2 := h.inside _ hg' q hq
  obtain ⟨hW, hN, hν⟩ := unit_facts h hg' q.2 hx
  have hN : ∀ d, normalTerm (point g.fem q).nor d = (point g.fem q).W * unitNormal g.s1 q.2 d := hN
  simp only [Function.comp, plainPt, carries_one h hu hg', carries_two h hu hg']
  have c1 := ha.inner _ hg rfl q.2 hx
  rw [crossT_scale (W := (point g.fem q).W) hN, pen_scale (W := (point g.fem q).W) hW hN, c1, tang_zero hν fun d => c1 f d]
  ring

lemma exterior_zero (h : ValidMesh S p m) {Q : PField n ι} {u : State ι ℝ} (hu : Carries S Q u) (ha : Admissible S Q) {g : MeshFace n ι}
    {c : BdrCond} (hg : (some c, g) ∈ S.bdr) (alpha : ℝ) (f : FieldT) (d : Dir) (v : ι → ℝ) :
    exteriorTerm alpha u f d v (some c) g.fem.toFace = 0 := by
  have hg' : (some c, g) ∈ S.interior ++ S.bdr := List.mem_append_right _ hg
  have hs : g.s2 = none := h.bdr_one_side _ hg
  unfold exteriorTerm plainTerm
  change ((g.rule.map (point g.fem)).map _).sum = 0
  rw [List.map_map]
  refine sum_zero_of _ _ fun q hq => ?_
  have hx : InSimplex q.2 := h.inside _ hg' q hq
  obtain ⟨hW, hN, hν⟩ := unit_facts h hg' q.2 hx
  have hN : ∀ d, normalTerm (point g.fem q).nor d = (point g.fem q).W * unitNormal g.s1 q.2 d := hN
  have t2 : tr2 g.fem.toFace (point g.fem q) v = 0 := by
    rw [trace2_eq]; unfold trace2; change eval q.2 (match g.s2 with | some s => s.restrict (fld s.e v) | none => 0) = 0
    rw [hs]; simp
  have o2 : ∀ f d, onOther Q g q.2 f d = 0 := fun f d => by unfold onOther; rw [hs]
  have c1 := obeys_zero hν (ha.outer _ hg c rfl q.2 hx) alpha f d
  simp only [Function.comp, plainPt, carries_one h hu hg', carries_two h hu hg', o2, sub_zero, t2, add_zero]
  rw [crossT_scale (W := (point g.fem q).W) hN, pen_scale (W := (point g.fem q).W) hW hN]
  linear_combination (point g.fem q).w / 2 * (point g.fem q).W * tr1 g.fem.toFace (point g.fem q) v * c1

lemma wall_zero (h : ValidMesh S p m) {Q : PField n ι} {u : State ι ℝ} (hu : Carries S Q u) (ha : Admissible S Q) {g : MeshFace n ι}
    {c : BdrCond} (hg : (some c, g) ∈ S.interior) (alpha : ℝ) (f : FieldT) (d : Dir) (v : ι → ℝ) :
    interiorTerm alpha u f d v (some c) g.fem.toFace = 0 := by
  have hg' : (some c, g) ∈ S.interior ++ S.bdr := List.mem_append_left _ hg
  have key : wallTerm u f d (fluxCoeff c (altField f)) (if c ≠ .SMA then bdrCoeff c f * alpha else 1) g.fem.toFace v = 0 := by
    unfold wallTerm
    change ((g.rule.map (point g.fem)).map _).sum = 0
    rw [List.map_map]
    refine sum_zero_of _ _ fun q hq => ?_
    have hx : InSimplex q.2 := h.inside _ hg' q hq
    obtain ⟨hW, hN, hν⟩ := unit_facts h hg' q.2 hx
    have hN : ∀ d, normalTerm (point g.fem q).nor d = (point g.fem q).W * unitNormal g.s1 q.2 d := hN
    have hw := ha.walls _ hg c rfl q.2 hx
    have c1 := obeys_zero hν hw.1 alpha f d
    have c2 := obeys_zero (ν := fun d => -unitNormal g.s1 q.2 d) (by simpa using hν) hw.2 alpha f d
    simp only [Function.comp, wallPt, carries_one h hu hg', carries_two h hu hg']
    rw [crossT_scale (W := (point g.fem q).W) hN, crossT_scale (W := (point g.fem q).W) hN, pen_scale (W := (point g.fem q).W) hW hN,
      pen_scale (W := (point g.fem q).W) hW hN]
    have e1 : ∀ t, cross (fun d => -unitNormal g.s1 q.2 d) t d = -cross (unitNormal g.s1 q.2) t d := fun t => by unfold cross; ring
    have e2 : ∀ t, tang (fun d => -unitNormal g.s1 q.2 d) t d = tang (unitNormal g.s1 q.2) t d := fun t => by
      unfold tang; simp only [Fin.sum_univ_three]; ring
    rw [e1, e2] at c2
    linear_combination (point g.fem q).w / 2 * (point g.fem q).W * tr1 g.fem.toFace (point g.fem q) v * c1 +
      (point g.fem q).w / 2 * (point g.fem q).W * tr2 g.fem.toFace (point g.fem q) v * c2
  unfold interiorTerm
  cases c <;> first | exact key | rfl

end Dgtd.Galerkin
