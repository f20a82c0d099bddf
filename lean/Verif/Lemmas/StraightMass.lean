/-
Straight meshes: mass matrices, energy, normals.
-/
import Verif.Lemmas.Straight
import Verif.Props.GalerkinMass

set_option linter.unusedSectionVars false

namespace Dgtd.Straight
open MvPolynomial Spec Dgtd.Op Dgtd.Op.Spec
open Dgtd.Galerkin (Poly Elem Rule local' massElem massMatrix invMassMatrix assemble)
open Dgtd.Galerkin.Spec (InSimplex onElem materialOf)
open Dgtd.Config (Material Err epsMuVector sigmaVector pwEval)

variable {n : Nat} {ι : Type}

/-! ### matrices of the elements -/

lemma order_det {sh : Shape} (hn : n < 3) (e : Elem n ι ℝ) (h : ∀ d, Order sh 1 (e.geom d)) :
    Order sh (Galerkin.orderW sh.space (n + 1) 1) e.jac.det := by
  cases sh with
  | simplex => exact Galerkin.degree_det hn e h
  | box =>
    intro i
    have hw : Galerkin.orderW Shape.box.space (n + 1) 1 = n := by simp [Shape.space, Galerkin.orderW]
    rw [hw, Matrix.det_apply]
    refine (degreeOf_sum_le i _ _).trans (Finset.sup_le fun σ _ => ?_)
    have hs : Equiv.Perm.sign σ • ∏ k, e.jac (σ k) k = C ((Equiv.Perm.sign σ : ℤ) : ℝ) * ∏ k, e.jac (σ k) k := by
      rw [Units.smul_def, zsmul_eq_mul]
      simp
    rw [hs]
    refine (degreeOf_C_mul_le _ i _).trans ((degreeOf_prod_le i _ _).trans ?_)
    have hk : ∀ k, (e.jac (σ k) k).degreeOf i ≤ if k = i then 0 else 1 := by
      intro k
      have hg : (e.geom (σ k)).degreeOf i ≤ 1 := h (σ k) i
      by_cases hki : k = i
      · subst hki
        rw [if_pos rfl]
        refine (degreeOf_pderiv_self k _).trans ?_
        omega
      · rw [if_neg hki]
        exact (degreeOf_pderiv_le k i _).trans hg
    refine (Finset.sum_le_sum fun k _ => hk k).trans ?_
    rw [Fin.sum_univ_succAbove _ i]
    simp [Fin.succAbove_ne]

lemma order_local {p : Nat} {sh : Shape} (e : Elem n ι ℝ) (h : ∀ i, Order sh p (e.shape i)) (a : Fin e.size → ℝ) : Order sh p (local' e a) :=
  order_sum fun i _ => by simpa using order_mul (order_C sh _) (h i)

lemma mass_exact {p : Nat} (hn : n < 3) (c : Cell n ι) (hg : ∀ d, Order c.shape 1 (c.e.geom d)) (hs : ∀ i, Order c.shape p (c.e.shape i))
    (hx : Exact c.shape (Galerkin.massOrder p (Galerkin.orderW c.shape.space (n + 1) 1)) c.mass) (s : ℝ) (a b : Fin c.e.size → ℝ) :
    a ⬝ᵥ (massElem c.toCell s).mulVec b = s * integral c.shape (local' c.e a * local' c.e b * c.e.jac.det) := by
  rw [Galerkin.mass_quad, hx]
  exact order_mul (order_mul (order_local c.e hs a) (order_local c.e hs b)) (order_det hn c.e hg)

lemma integral_pos {D : Nat} (hD : D ≤ 3) (sh : Shape) (q : Poly D ℝ) (hq : q ≠ 0) (h : ∀ x, Inside sh x → 0 ≤ eval x q) : 0 < integral sh q := by
  cases sh
  · exact Galerkin.integral_pos hD q hq h
  · exact cube_pos q hq h

lemma inside_zero {D : Nat} (sh : Shape) : Inside sh (0 : Fin D → ℝ) := by
  cases sh
  · exact ⟨fun _ => le_rfl, by simp⟩
  · exact fun i => ⟨le_rfl, zero_le_one⟩

lemma mass_pos (hn : n < 3) (c : Cell n ι) (hj : ∀ x, Inside c.shape x → 0 < eval x c.e.jac.det)
    (q : Poly (n + 1) ℝ) (hq : q ≠ 0) : 0 < integral c.shape (q * q * c.e.jac.det) := by
  refine integral_pos (by omega) _ _ ?_ fun x h => ?_
  · refine mul_ne_zero (mul_ne_zero hq hq) fun h0 => ?_
    have := hj 0 (inside_zero _)
    rw [h0, map_zero] at this
    exact lt_irrefl _ this
  · rw [map_mul, map_mul]
    exact mul_nonneg (mul_self_nonneg _) (hj x h).le

lemma mass_inv {p : Nat} (hn : n < 3) (c : Cell n ι) (hg : ∀ d, Order c.shape 1 (c.e.geom d)) (hs : ∀ i, Order c.shape p (c.e.shape i))
    (hx : Exact c.shape (Galerkin.massOrder p (Galerkin.orderW c.shape.space (n + 1) 1)) c.mass)
    (hj : ∀ x, Inside c.shape x → 0 < eval x c.e.jac.det)
    (hi : ∀ a : Nat → ℝ, ∑ i ∈ Finset.range c.e.size, C (a i) * c.e.shape i = 0 → ∀ i < c.e.size, a i = 0) {s : ℝ} (h : 0 < s) :
    massElem c.toCell s * (massElem c.toCell s)⁻¹ = 1 := by
  refine Matrix.mul_nonsing_inv _ ((Matrix.isUnit_iff_isUnit_det _).1 (Matrix.mulVec_injective_iff_isUnit.1 fun a b hab => ?_))
  by_contra hne
  have hq := mass_exact hn c hg hs hx s (a - b) (a - b)
  have : (massElem c.toCell s).mulVec (a - b) = 0 := by rw [Matrix.mulVec_sub]; exact sub_eq_zero.2 hab
  rw [this, dotProduct_zero] at hq
  have := mul_pos h (mass_pos hn c hj _ (Galerkin.local_ne (c := c.toCell) hi (sub_ne_zero.2 hne)))
  exact absurd hq this.ne

/-! ### normals -/

lemma eval_restrict (s : Side n ι) (q : Poly (n + 1) ℝ) (x : Fin n → ℝ) :
    eval x (s.restrict q) = eval (fun j => eval x (loc s.place j)) q := by
  unfold Side.restrict
  induction q using MvPolynomial.induction_on with
  | C a => simp
  | add p q hp hq => simp [hp, hq]
  | mul_X p i hp => simp [hp]

/-- Points of the face are points of the element. -/
lemma loc_inside (pl : Place n) (x : Fin n → ℝ) (hx : Inside pl.key.shape x) : Inside pl.key.shape fun j => eval x (loc pl j) := by
  cases pl with
  | simplex f t => exact Galerkin.loc_inside f t x hx
  | box k b t f =>
    intro j
    have hx : ∀ i, 0 ≤ x i ∧ x i ≤ 1 := hx
    simp only [loc]
    refine Fin.succAboveCases k ?_ (fun i => ?_) j
    · rw [Fin.insertNth_apply_same, eval_C]
      cases b <;> simp
    · rw [Fin.insertNth_apply_succAbove, coord]
      obtain ⟨h0, h1⟩ := hx (t i)
      cases f i
      · simp [h0, h1]
      · simp [h0, h1]

lemma refNormal_ne (k : Key n) : ∃ j, refNormal k j ≠ 0 := by
  cases k with
  | simplex f =>
    cases f with
    | none => exact ⟨0, by simp [refNormal, Galerkin.Spec.refNormal]⟩
    | some k => exact ⟨k, by simp [refNormal, Galerkin.Spec.refNormal]⟩
  | box k b => exact ⟨k, by cases b <;> simp [refNormal]⟩

variable [Fintype ι] [DecidableEq ι]

lemma normal_pos (hn : n < 3) (s : Side n ι) (ho : Outward s) (hj : ∀ z, Inside s.place.key.shape z → 0 < eval z s.e.jac.det) (x : Fin n → ℝ)
    (hx : Inside s.place.key.shape x) : 0 < ((normal s).map fun c => eval x c ^ 2).sum := by
  by_contra hneg
  have hsum : ((normal s).map fun c => eval x c ^ 2).sum ≤ 0 := not_lt.1 hneg
  have hall : ∀ y ∈ (normal s).map fun c => eval x c ^ 2, 0 ≤ y := by
    intro y hy
    obtain ⟨c, -, rfl⟩ := List.mem_map.1 hy
    exact sq_nonneg _
  have hz : ∀ c ∈ normal s, eval x c = 0 := by
    intro c hc
    have := List.single_le_sum hall _ (List.mem_map_of_mem (f := fun c => eval x c ^ 2) hc)
    have h2 : eval x c ^ 2 = 0 := le_antisymm (this.trans hsum) (sq_nonneg _)
    exact pow_eq_zero_iff (two_ne_zero) |>.1 h2
  obtain ⟨z, hzdef⟩ : ∃ z, z = fun j => eval x (loc s.place j) := ⟨_, rfl⟩
  have hzin : Inside s.place.key.shape z := hzdef ▸ loc_inside s.place x hx
  have hd : ∀ d : Fin (n + 1), ∑ k, eval z (s.e.adj k d) * refNormal s.place.key k = 0 := by
    intro d
    have h1 := congrArg (eval x) (normal_eq hn s d)
    rw [map_sum] at h1
    simp only [ho.getD, map_mul, eval_C, eval_restrict] at h1
    rw [← hzdef] at h1
    rw [← h1]
    have hl := normal_length hn s
    rw [List.getD_eq_getElem?_getD, List.getElem?_eq_getElem (by rw [hl]; exact d.2), Option.getD_some]
    exact hz _ (List.getElem_mem _)
  have hl : ∀ l : Fin (n + 1), eval z s.e.jac.det * refNormal s.place.key l = 0 := by
    intro l
    have hm : ∀ k, ∑ d, eval z (s.e.adj k d) * eval z (s.e.jac d l) = if k = l then eval z s.e.jac.det else 0 := by
      intro k
      have := congrArg (eval z) (congrFun (congrFun (Matrix.adjugate_mul s.e.jac) k) l)
      rw [Matrix.mul_apply, map_sum] at this
      simp only [map_mul, Matrix.smul_apply, Matrix.one_apply, smul_eq_mul, mul_ite, mul_one, mul_zero] at this
      change (∑ d, eval z (s.e.jac.adjugate k d) * eval z (s.e.jac d l)) = _
      rw [this]
      split <;> simp
    have : ∑ d, (∑ k, eval z (s.e.adj k d) * refNormal s.place.key k) * eval z (s.e.jac d l) = 0 :=
      Finset.sum_eq_zero fun d _ => by rw [hd d, zero_mul]
    simp only [Finset.sum_mul] at this
    rw [Finset.sum_comm] at this
    have e : ∀ k, (∑ d, eval z (s.e.adj k d) * refNormal s.place.key k * eval z (s.e.jac d l)) =
        (if k = l then eval z s.e.jac.det else 0) * refNormal s.place.key k := by
      intro k
      rw [← hm k, Finset.sum_mul]
      exact Finset.sum_congr rfl fun d _ => by ring
    simp only [e] at this
    simpa using this
  obtain ⟨j, hjne⟩ := refNormal_ne s.place.key
  exact (mul_ne_zero (hj z hzin).ne' hjne) (hl j)

lemma normal_norm : ∀ {n : Nat} (_ : n < 3) (s : Side n ι) (x : Fin n → ℝ),
    normalTerm ((normal s).map fun c => eval x c) 0 ^ 2 + normalTerm ((normal s).map fun c => eval x c) 1 ^ 2 +
      normalTerm ((normal s).map fun c => eval x c) 2 ^ 2 = ((normal s).map fun c => eval x c ^ 2).sum
  | 0, _, s, x => by simp [normal, normalTerm]
  | 1, _, s, x => by simp [normal, normalTerm]
  | 2, _, s, x => by simp [normal, normalTerm]; ring

/-! ### assembly -/

/-- Coefficients of the elements. -/
def weighted (S : Setup n ι) (g : Cell n ι → ℝ) : List (Galerkin.Cell n ι × ℝ) := S.cells.map fun c => (c.toCell, g c)

/-- What the assembly gives on valid materials. -/
noncomputable def probOf (S : Setup n ι) (ms : List (Int × Material ℝ)) : Prob ι ℝ :=
  { dim := n + 1
    alpha := S.alpha
    interior := S.interior.map fun q => (q.1, q.2.toFace)
    bdr := S.bdr.map fun q => (q.1, q.2.toFace)
    Minv := fun f => match f with
      | .E => invMassMatrix (weighted S fun c => (materialOf ms c.toCell).eps)
      | .H => invMassMatrix (weighted S fun c => (materialOf ms c.toCell).mu)
    Msig := massMatrix (weighted S fun c => (materialOf ms c.toCell).sigma)
    D := Galerkin.derivMatrix (S.cells.map fun c => (c.e, c.vol)) }

lemma prob_ok (S : Setup n ι) (ms : List (Int × Material ℝ)) (hm : ValidMaterials S ms) : S.prob ms = .ok (probOf S ms) := by
  obtain ⟨ve, vm, vs, e1, e2, e3, hv⟩ := Config.C20_values ms hm.keys hm.pos
  have key : ∀ c ∈ S.cells.map fun c => c.toCell, pwEval ve c.attr = .ok (materialOf ms c).eps ∧ pwEval vm c.attr = .ok (materialOf ms c).mu ∧
      pwEval vs c.attr = .ok (materialOf ms c).sigma := by
    intro c hc
    obtain ⟨c, hcs, rfl⟩ := List.mem_map.1 hc
    obtain ⟨m, h⟩ := hm.all c hcs
    have : materialOf ms c.toCell = m := by simp [materialOf, h]
    rw [this]
    exact hv _ _ h
  simp only [Setup.prob, e1, e2, e3, bind, Except.bind, Galerkin.coefs_ok ve _ _ fun c hc => (key c hc).1,
    Galerkin.coefs_ok vm _ _ fun c hc => (key c hc).2.1, Galerkin.coefs_ok vs _ _ fun c hc => (key c hc).2.2, pure, Except.pure, List.map_map]
  rfl

lemma materialOf_mem {S : Setup n ι} {ms : List (Int × Material ℝ)} (hm : ValidMaterials S ms) {c : Cell n ι} (hc : c ∈ S.cells) :
    ∃ t, (t, materialOf ms c.toCell) ∈ ms := by
  obtain ⟨m, h⟩ := hm.all c hc
  exact ⟨c.attr, by simpa [materialOf, h] using Assoc.find_mem _ _ _ h⟩

variable {S : Setup n ι} {p : Nat}

lemma mass_form (h : ValidMesh S p) (g : Cell n ι → ℝ) (v u : ι → ℝ) : v ⬝ᵥ (massMatrix (weighted S g)).mulVec u =
    (S.cells.map fun c => g c * integral c.shape (onElem c.e v * onElem c.e u * c.e.jac.det)).sum := by
  unfold massMatrix weighted
  rw [Galerkin.assemble_form, List.map_map, List.map_map]
  congr 1
  refine List.map_congr_left fun c hc => ?_
  simp only [Function.comp]
  rw [mass_exact h.dim c (h.geom c hc) (h.shape c hc) (h.mass c hc), Galerkin.onElem_local, Galerkin.onElem_local]

lemma mass_symm (h : ValidMesh S p) (g : Cell n ι → ℝ) : (massMatrix (weighted S g)).transpose = massMatrix (weighted S g) := by
  funext r s
  have e : ∀ a b : ι, Pi.single a (1 : ℝ) ⬝ᵥ (massMatrix (weighted S g)).mulVec (Pi.single b 1) = massMatrix (weighted S g) a b := by
    intro a b; simp
  rw [Matrix.transpose_apply, ← e, ← e, mass_form h, mass_form h]
  congr 1
  refine List.map_congr_left fun c _ => by rw [mul_comm (onElem c.e _)]

lemma mass_mul_inv (h : ValidMesh S p) (g : Cell n ι → ℝ) (hg : ∀ c ∈ S.cells, 0 < g c) :
    massMatrix (weighted S g) * invMassMatrix (weighted S g) = 1 := by
  unfold massMatrix invMassMatrix weighted
  have := Galerkin.assemble_mul (S.cells.map fun c => ⟨c.toCell, (massElem c.toCell (g c), (massElem c.toCell (g c))⁻¹)⟩) (by
    unfold Galerkin.dofsOf
    rw [List.flatMap_map]
    exact h.dofs_nodup)
  rw [List.map_map, List.map_map, List.map_map] at this
  rw [List.map_map, List.map_map]
  refine Eq.trans ?_ (this.trans ?_)
  · rfl
  rw [← Galerkin.assemble_one (S.cells.map fun c => c.toCell) (by rw [List.flatMap_map]; exact h.dofs_nodup)
    (by rw [List.flatMap_map]; exact h.dofs_all), List.map_map]
  congr 1
  refine List.map_congr_left fun c hc => ?_
  simp only [Function.comp]
  rw [mass_inv h.dim c (h.geom c hc) (h.shape c hc) (h.mass c hc) (h.jacobian c hc) (h.independent c hc) (hg c hc)]

lemma sq_nonneg' (h : ValidMesh S p) {c : Cell n ι} (hc : c ∈ S.cells) (q : Poly (n + 1) ℝ) : 0 ≤ integral c.shape (q * q * c.e.jac.det) := by
  by_cases hq : q = 0
  · rw [hq, ← intl_eq]; simp
  · exact (mass_pos h.dim c (h.jacobian c hc) q hq).le

/-- The mass matrices of the energy. -/
noncomputable def massOf (S : Setup n ι) (ms : List (Int × Material ℝ)) (f : FieldT) : Matrix ι ι ℝ :=
  match f with
  | .E => massMatrix (weighted S fun c => (materialOf ms c.toCell).eps)
  | .H => massMatrix (weighted S fun c => (materialOf ms c.toCell).mu)

lemma energy_eq (h : ValidMesh S p) (ms : List (Int × Material ℝ)) (u : State ι ℝ) : energy (massOf S ms) u = fieldEnergy S ms u := by
  unfold energy fieldEnergy massOf
  congr 1
  simp only [mass_form h]
  rw [← Galerkin.list_sum_swap]
  refine Finset.sum_congr rfl fun d _ => ?_
  rw [Galerkin.list_sum_add]
  congr 1
  refine List.map_congr_left fun c _ => by rw [sq, sq]

lemma fieldEnergy_pos (h : ValidMesh S p) (ms : List (Int × Material ℝ)) (hm : ValidMaterials S ms) (u : State ι ℝ) (hu : u ≠ 0) :
    0 < fieldEnergy S ms u := by
  have he : ∀ c ∈ S.cells, 0 < (materialOf ms c.toCell).eps ∧ 0 < (materialOf ms c.toCell).mu := fun c hc => by
    obtain ⟨t, ht⟩ := materialOf_mem hm hc
    exact ⟨hm.eps _ ht, hm.mu _ ht⟩
  have n0 : ∀ c ∈ S.cells, ∀ q, 0 ≤ integral c.shape (q ^ 2 * c.e.jac.det) := fun c hc q => by rw [sq]; exact sq_nonneg' h hc q
  have term0 : ∀ c ∈ S.cells, ∀ d, 0 ≤ (materialOf ms c.toCell).eps * integral c.shape (onElem c.e (u .E d) ^ 2 * c.e.jac.det) +
      (materialOf ms c.toCell).mu * integral c.shape (onElem c.e (u .H d) ^ 2 * c.e.jac.det) := fun c hc d =>
    add_nonneg (mul_nonneg (he c hc).1.le (n0 c hc _)) (mul_nonneg (he c hc).2.le (n0 c hc _))
  obtain ⟨f, d, r, hr⟩ : ∃ f d r, u f d r ≠ 0 := by
    by_contra hne
    push Not at hne
    exact hu (funext fun f => funext fun d => funext fun r => hne f d r)
  obtain ⟨c, hc, hcr⟩ := List.mem_flatMap.1 (h.dofs_all r)
  obtain ⟨i, hi, hir⟩ := List.mem_map.1 hcr
  have hne : onElem c.e (u f d) ≠ 0 := by
    intro h0
    have := h.independent c hc (fun i => u f d (c.e.dof i)) h0 i (List.mem_range.1 hi)
    rw [hir] at this
    exact hr this
  have hpos : 0 < integral c.shape (onElem c.e (u f d) ^ 2 * c.e.jac.det) := by
    rw [sq]; exact mass_pos h.dim c (h.jacobian c hc) _ hne
  have hT : 0 < (materialOf ms c.toCell).eps * integral c.shape (onElem c.e (u .E d) ^ 2 * c.e.jac.det) +
      (materialOf ms c.toCell).mu * integral c.shape (onElem c.e (u .H d) ^ 2 * c.e.jac.det) := by
    cases f with
    | E => exact add_pos_of_pos_of_nonneg (mul_pos (he c hc).1 hpos) (mul_nonneg (he c hc).2.le (n0 c hc _))
    | H => exact add_pos_of_nonneg_of_pos (mul_nonneg (he c hc).1.le (n0 c hc _)) (mul_pos (he c hc).2 hpos)
  unfold fieldEnergy
  refine mul_pos (by norm_num) (lt_of_lt_of_le ?_ (List.single_le_sum (fun y hy => ?_) _ (List.mem_map_of_mem hc)))
  · exact lt_of_lt_of_le hT (Finset.single_le_sum (fun d _ => term0 c hc d) (Finset.mem_univ d))
  · obtain ⟨c, hc, rfl⟩ := List.mem_map.1 hy
    exact Finset.sum_nonneg fun d _ => term0 c hc d

lemma all_faces (S : Setup n ι) (ms : List (Int × Material ℝ)) : allFaces (probOf S ms) = (faces S).map MeshFace.toFace := by
  simp [allFaces, probOf, faces, List.map_map, Function.comp_def]

lemma regular_of (h : ValidMesh S p) (ms : List (Int × Material ℝ)) (hm : ValidMaterials S ms) : Regular (probOf S ms) (massOf S ms) := by
  refine ⟨?_, ?_, ?_, ?_, ?_, ?_, ?_⟩
  · have := h.dim
    change n + 1 ≤ 3
    omega
  · intro f hf q hq
    rw [all_faces] at hf
    obtain ⟨g, hg, rfl⟩ := List.mem_map.1 hf
    obtain ⟨x, hx, rfl⟩ := List.mem_map.1 hq
    obtain ⟨c, hc, hce, hck⟩ := side_cell h hg (x := (g.s1.e, g.s1.place.key)) (by simp [sides])
    have hpos := normal_pos h.dim g.s1 (h.one _ hg) (by
      intro z hz
      have hce : g.s1.e = c.e := hce
      have hck : g.s1.place.key.shape = c.shape := hck
      rw [hce]; rw [hck] at hz; exact h.jacobian c hc z hz) x.2 (h.inside g hg x hx)
    refine ⟨Real.sqrt_pos.2 hpos, ?_, ?_⟩
    · change ((normal g.s1).map _).length = n + 1
      rw [List.length_map, normal_length h.dim]
    · exact (normal_norm h.dim g.s1 x.2).trans (Real.sq_sqrt hpos.le).symm
  · intro q hq
    obtain ⟨a, ha, rfl⟩ := List.mem_map.1 hq
    exact h.bdr_cond a ha
  · intro q hq
    obtain ⟨a, ha, rfl⟩ := List.mem_map.1 hq
    simp [MeshFace.toFace, h.bdr_one_side a ha]
  · intro q hq
    obtain ⟨a, ha, rfl⟩ := List.mem_map.1 hq
    exact h.no_sgbc a ha
  · intro f
    cases f with
    | E => exact mass_mul_inv h _ fun c hc => by obtain ⟨t, ht⟩ := materialOf_mem hm hc; exact hm.eps _ ht
    | H => exact mass_mul_inv h _ fun c hc => by obtain ⟨t, ht⟩ := materialOf_mem hm hc; exact hm.mu _ ht
  · intro f
    cases f with
    | E => exact mass_symm h _
    | H => exact mass_symm h _

lemma good_of (h : ValidMesh S p) (ms : List (Int × Material ℝ)) (hm : ValidMaterials S ms) (hw : ∀ f ∈ faces S, ∀ x ∈ f.rule, 0 ≤ x.1) :
    Good (probOf S ms) (massOf S ms) := by
  have hr := regular_of h ms hm
  refine ⟨hr.dim_le, fun f hf q hq => ?_, sbp h _ rfl (all_faces S ms) rfl, hr.bdr_cond, hr.bdr_one_side, hr.no_sgbc, hr.inv, hr.symm⟩
  have hg := hr.pts f hf q hq
  refine ⟨?_, hg.W_pos, hg.size, hg.norm⟩
  rw [all_faces] at hf
  obtain ⟨g, hgm, rfl⟩ := List.mem_map.1 hf
  obtain ⟨x, hx, rfl⟩ := List.mem_map.1 hq
  exact hw g hgm x hx

lemma sigma_nonneg (h : ValidMesh S p) (ms : List (Int × Material ℝ)) (hm : ValidMaterials S ms) (v : ι → ℝ) :
    0 ≤ v ⬝ᵥ (probOf S ms).Msig.mulVec v := by
  change 0 ≤ v ⬝ᵥ (massMatrix (weighted S fun c => (materialOf ms c.toCell).sigma)).mulVec v
  rw [mass_form h]
  refine List.sum_nonneg fun y hy => ?_
  obtain ⟨c, hc, rfl⟩ := List.mem_map.1 hy
  obtain ⟨t, ht⟩ := materialOf_mem hm hc
  exact mul_nonneg (hm.sigma _ ht) (sq_nonneg' h hc _)

end Dgtd.Straight
