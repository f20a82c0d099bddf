/-
C142: from a mesh and its materials to a stable simulation: mass matrices, energy, normals, and the time integrators on top.
-/
import Verif.Lemmas.GalerkinMass
import Verif.Props.Galerkin
import Verif.Props.Config
import Verif.Props.TimeInt

set_option linter.unusedSectionVars false

namespace Dgtd.Galerkin
open MvPolynomial Spec Dgtd.Op Dgtd.Op.Spec
open Dgtd.Implicit Dgtd.TimeInt.Spec
open Dgtd.Config (Material Err epsMuVector sigmaVector pwEval)

variable {n : Nat} {ι : Type}

/-! ### normals -/

lemma eval_restrict (s : Side n ι ℝ) (q : Poly (n + 1) ℝ) (x : Fin n → ℝ) :
    eval x (s.restrict q) = eval (fun j => eval x (loc s.face s.turn j)) q := by
  unfold Side.restrict
  induction q using MvPolynomial.induction_on with
  | C a => simp
  | add p q hp hq => simp [hp, hq]
  | mul_X p i hp => simp [hp]

lemma bary_nonneg (x : Fin n → ℝ) (hx : InSimplex x) (i : Fin (n + 1)) : 0 ≤ eval x (bary i : Poly n ℝ) := by
  refine Fin.cases ?_ (fun j => ?_) i
  · simpa [bary] using hx.2
  · simpa [bary] using hx.1 j

lemma bary_sum (x : Fin n → ℝ) : ∑ i, eval x (bary i : Poly n ℝ) = 1 := by
  rw [Fin.sum_univ_succ]
  simp [bary]

/-- Points of the face are points of the element. -/
lemma loc_inside (face : Option (Fin (n + 1))) (turn : Equiv.Perm (Fin (n + 1))) (x : Fin n → ℝ) (hx : InSimplex x) :
    InSimplex fun j => eval x (loc face turn j : Poly n ℝ) := by
  have h0 : ∀ j, 0 ≤ eval x (loc face turn j : Poly n ℝ) := by
    intro j
    unfold loc
    split
    · simp
    · exact bary_nonneg x hx _
  have h1 : ∀ j, eval x (loc face turn j : Poly n ℝ) ≤ eval x (bary (turn j) : Poly n ℝ) := by
    intro j
    unfold loc
    split
    · simpa using bary_nonneg x hx _
    · exact le_rfl
  refine ⟨h0, (Finset.sum_le_sum fun j _ => h1 j).trans ?_⟩
  rw [Equiv.sum_comp turn fun i => eval x (bary i : Poly n ℝ), bary_sum]

variable [Fintype ι] [DecidableEq ι]

lemma normal_pos (hn : n < 3) (s : Side n ι ℝ) (ho : Outward s) (hj : ∀ z, InSimplex z → 0 < eval z s.e.jac.det) (x : Fin n → ℝ)
    (hx : InSimplex x) : 0 < ((normal s).map fun c => eval x c ^ 2).sum := by
  by_contra hneg
  have hsum : ((normal s).map fun c => eval x c ^ 2).sum ≤ 0 := not_lt.1 hneg
  have hall : ∀ y ∈ (normal s).map fun c => eval x c ^ 2, 0 ≤ y := by
    intro y hy
    obtain ⟨c, -, rfl⟩ := List.mem_map.1 hy
    exact sq_nonneg _
  have hz : ∀ c ∈ normal s, eval x c = 0 := by
    intro c hc
    have := List.single_le_sum hall _ (List.mem_map_of_mem (f := fun c => eval x c ^ 2) hc)
    have h2 : eval x c ^ 2 = 0 := le_antisymm (this.trans hsum) (sq_nonneg _)
    exact pow_eq_zero_iff (two_ne_zero) |>.1 h2
  obtain ⟨z, hzdef⟩ : ∃ z, z = fun j => eval x (loc s.face s.turn j : Poly n ℝ) := ⟨_, rfl⟩
  have hzin : InSimplex z := hzdef ▸ loc_inside s.face s.turn x hx
  have hN : ∀ k : Fin (n + 1), (normal (refSide s)).getD k 0 = C (refNormal s.face k) := by
    exact fun k => ho.getD k
  have hd : ∀ d : Fin (n + 1), ∑ k, eval z (s.e.adj k d) * refNormal s.face k = 0 := by
    intro d
    have h1 := congrArg (eval x) (normal_eq hn s d)
    rw [map_sum] at h1
    simp only [hN, map_mul, eval_C, eval_restrict] at h1
    rw [← hzdef] at h1
    rw [← h1]
    have hl := normal_length hn s
    rw [List.getD_eq_getElem?_getD, List.getElem?_eq_getElem (by rw [hl]; exact d.2), Option.getD_some]
    exact hz _ (List.getElem_mem _)
  have hl : ∀ l : Fin (n + 1), eval z s.e.jac.det * refNormal s.face l = 0 := by
    intro l
    have hm : ∀ k, ∑ d, eval z (s.e.adj k d) * eval z (s.e.jac d l) = if k = l then eval z s.e.jac.det else 0 := by
      intro k
      have := congrArg (eval z) (congrFun (congrFun (Matrix.adjugate_mul s.e.jac) k) l)
      rw [Matrix.mul_apply, map_sum] at this
      simp only [map_mul, Matrix.smul_apply, Matrix.one_apply, smul_eq_mul, mul_ite, mul_one, mul_zero] at this
      change (∑ d, eval z (s.e.jac.adjugate k d) * eval z (s.e.jac d l)) = _
      rw [this]
      split <;> simp
    have : ∑ d, (∑ k, eval z (s.e.adj k d) * refNormal s.face k) * eval z (s.e.jac d l) = 0 :=
      Finset.sum_eq_zero fun d _ => by rw [hd d, zero_mul]
    simp only [Finset.sum_mul] at this
    rw [Finset.sum_comm] at this
    have e : ∀ k, (∑ d, eval z (s.e.adj k d) * refNormal s.face k * eval z (s.e.jac d l)) =
        (if k = l then eval z s.e.jac.det else 0) * refNormal s.face k := by
      intro k
      rw [← hm k, Finset.sum_mul]
      exact Finset.sum_congr rfl fun d _ => by ring
    simp only [e] at this
    simpa using this
  have hjz := hj z hzin
  cases hf : s.face with
  | none =>
    have := hl 0
    rw [hf] at this
    simp [refNormal] at this
    exact hjz.ne' this
  | some k =>
    have := hl k
    rw [hf] at this
    simp [refNormal] at this
    exact hjz.ne' this

lemma normal_norm : ∀ {n : Nat} (_ : n < 3) (s : Side n ι ℝ) (x : Fin n → ℝ),
    normalTerm ((normal s).map fun c => eval x c) 0 ^ 2 + normalTerm ((normal s).map fun c => eval x c) 1 ^ 2 +
      normalTerm ((normal s).map fun c => eval x c) 2 ^ 2 = ((normal s).map fun c => eval x c ^ 2).sum
  | 0, _, s, x => by simp [normal, normalTerm]
  | 1, _, s, x => by simp [normal, normalTerm]
  | 2, _, s, x => by simp [normal, normalTerm]; ring

/-! ### assembly -/

lemma coefs_ok (v : List ℝ) (g : Cell n ι → ℝ) (cells : List (Cell n ι)) (h : ∀ c ∈ cells, pwEval v c.attr = .ok (g c)) :
    coefs v cells = .ok (cells.map fun c => (c, g c)) := by
  unfold coefs
  induction cells with
  | nil => rfl
  | cons c l ih =>
    rw [List.mapM_cons, h c List.mem_cons_self, ih fun c hc => h c (List.mem_cons_of_mem _ hc)]
    rfl

/-- What the assembly gives on valid materials. -/
noncomputable def femOf (S : Setup n ι) (ms : List (Int × Material ℝ)) : Fem n ι ℝ :=
  { S.skeleton with
    Minv := fun f => match f with
      | .E => invMassMatrix (S.cells.map fun c => (c, (materialOf ms c).eps))
      | .H => invMassMatrix (S.cells.map fun c => (c, (materialOf ms c).mu))
    Msig := massMatrix (S.cells.map fun c => (c, (materialOf ms c).sigma)) }

lemma fem_ok (S : Setup n ι) (ms : List (Int × Material ℝ)) (hm : ValidMaterials S ms) :
    S.fem ms = .ok (femOf S ms) := by
  obtain ⟨ve, vm, vs, e1, e2, e3, hv⟩ := Config.C20_values ms hm.keys hm.pos
  have key : ∀ c ∈ S.cells, pwEval ve c.attr = .ok (materialOf ms c).eps ∧ pwEval vm c.attr = .ok (materialOf ms c).mu ∧
      pwEval vs c.attr = .ok (materialOf ms c).sigma := by
    intro c hc
    obtain ⟨m, h⟩ := hm.all c hc
    have : materialOf ms c = m := by simp [materialOf, h]
    rw [this]
    exact hv _ _ h
  simp only [Setup.fem, e1, e2, e3, bind, Except.bind, coefs_ok ve _ S.cells fun c hc => (key c hc).1,
    coefs_ok vm _ S.cells fun c hc => (key c hc).2.1, coefs_ok vs _ S.cells fun c hc => (key c hc).2.2, pure, Except.pure]
  congr 2

lemma materialOf_mem {S : Setup n ι} {ms : List (Int × Material ℝ)} (hm : ValidMaterials S ms) {c : Cell n ι} (hc : c ∈ S.cells) :
    ∃ t, (t, materialOf ms c) ∈ ms := by
  obtain ⟨m, h⟩ := hm.all c hc
  exact ⟨c.attr, by simpa [materialOf, h] using Assoc.find_mem _ _ _ h⟩

/-- Simplicial meshes whatever their matrices. -/
lemma simplicial_matrices {F : Fem n ι ℝ} {p m : Nat} (h : Simplicial F p m) (Minv : FieldT → Matrix ι ι ℝ) (Msig : Matrix ι ι ℝ) :
    Simplicial { F with Minv := Minv, Msig := Msig } p m :=
  ⟨h.dim, h.order, h.geomOrder, h.geom, h.shape, h.cover, h.one, h.two, h.volume, h.surface⟩

variable {S : Setup n ι} {p m : Nat}

lemma onElem_local (e : Elem n ι ℝ) (u : ι → ℝ) : local' e (fun i => u (e.dof i)) = onElem e u := by
  unfold local' onElem
  rw [Finset.sum_range]

lemma Spec.ValidMesh.shape (h : ValidMesh S p m) {c : Cell n ι} (hc : c ∈ S.cells) (i : Nat) : (c.e.shape i).totalDegree ≤ p :=
  h.simplicial.shape (c.e, c.vol) (List.mem_map_of_mem (f := fun c : Cell n ι => (c.e, c.vol)) hc) i

lemma Spec.ValidMesh.geom (h : ValidMesh S p m) {c : Cell n ι} (hc : c ∈ S.cells) (d : Fin (n + 1)) : (c.e.geom d).totalDegree ≤ m :=
  h.simplicial.geom (c.e, c.vol) (List.mem_map_of_mem (f := fun c : Cell n ι => (c.e, c.vol)) hc) d

lemma mass_form (h : ValidMesh S p m) (g : Cell n ι → ℝ) (v u : ι → ℝ) :
    v ⬝ᵥ (massMatrix (S.cells.map fun c => (c, g c))).mulVec u =
      (S.cells.map fun c => g c * integral (n + 1) (onElem c.e v * onElem c.e u * c.e.jac.det)).sum := by
  unfold massMatrix
  rw [assemble_form, List.map_map, List.map_map]
  congr 1
  refine List.map_congr_left fun c hc => ?_
  simp only [Function.comp]
  rw [mass_exact h.simplicial.dim c (h.geom hc) (h.shape hc) (h.mass c hc), onElem_local, onElem_local]

lemma mass_symm (h : ValidMesh S p m) (g : Cell n ι → ℝ) :
    (massMatrix (S.cells.map fun c => (c, g c))).transpose = massMatrix (S.cells.map fun c => (c, g c)) := by
  funext r s
  have e : ∀ a b : ι, Pi.single a (1 : ℝ) ⬝ᵥ (massMatrix (S.cells.map fun c => (c, g c))).mulVec (Pi.single b 1) =
      massMatrix (S.cells.map fun c => (c, g c)) a b := by
    intro a b; simp
  rw [Matrix.transpose_apply, ← e, ← e, mass_form h, mass_form h]
  congr 1
  refine List.map_congr_left fun c _ => by rw [mul_comm (onElem c.e _)]

lemma mass_mul_inv (h : ValidMesh S p m) (g : Cell n ι → ℝ) (hg : ∀ c ∈ S.cells, 0 < g c) :
    massMatrix (S.cells.map fun c => (c, g c)) * invMassMatrix (S.cells.map fun c => (c, g c)) = 1 := by
  unfold massMatrix invMassMatrix
  have := assemble_mul (S.cells.map fun c => ⟨c, (massElem c (g c), (massElem c (g c))⁻¹)⟩) (by
    unfold dofsOf
    rw [List.flatMap_map]
    exact h.dofs_nodup)
  rw [List.map_map, List.map_map, List.map_map] at this
  rw [List.map_map, List.map_map]
  refine Eq.trans ?_ (this.trans ?_)
  · rfl
  rw [← assemble_one S.cells h.dofs_nodup h.dofs_all]
  congr 1
  refine List.map_congr_left fun c hc => ?_
  simp only [Function.comp]
  rw [mass_inv h.simplicial.dim c (h.geom hc) (h.shape hc) (h.mass c hc) (h.jacobian c hc) (h.independent c hc) (hg c hc)]

lemma sq_nonneg' (h : ValidMesh S p m) {c : Cell n ι} (hc : c ∈ S.cells) (q : Poly (n + 1) ℝ) : 0 ≤ integral (n + 1) (q * q * c.e.jac.det) := by
  by_cases hq : q = 0
  · simp [hq]
  · exact (mass_pos h.simplicial.dim c (h.jacobian c hc) q hq).le

/-- The mass matrices of the energy. -/
noncomputable def massOf (S : Setup n ι) (ms : List (Int × Material ℝ)) (f : FieldT) : Matrix ι ι ℝ :=
  match f with
  | .E => massMatrix (S.cells.map fun c => (c, (materialOf ms c).eps))
  | .H => massMatrix (S.cells.map fun c => (c, (materialOf ms c).mu))

lemma energy_eq (h : ValidMesh S p m) (ms : List (Int × Material ℝ)) (u : State ι ℝ) : energy (massOf S ms) u = fieldEnergy S ms u := by
  unfold energy fieldEnergy massOf
  congr 1
  simp only [mass_form h]
  rw [← list_sum_swap]
  refine Finset.sum_congr rfl fun d _ => ?_
  rw [list_sum_add]
  congr 1
  refine List.map_congr_left fun c _ => by rw [sq, sq]

lemma fieldEnergy_pos (h : ValidMesh S p m) (ms : List (Int × Material ℝ)) (hm : ValidMaterials S ms) (u : State ι ℝ) (hu : u ≠ 0) :
    0 < fieldEnergy S ms u := by
  have he : ∀ c ∈ S.cells, 0 < (materialOf ms c).eps ∧ 0 < (materialOf ms c).mu := fun c hc => by
    obtain ⟨t, ht⟩ := materialOf_mem hm hc
    exact ⟨hm.eps _ ht, hm.mu _ ht⟩
  have n0 : ∀ c ∈ S.cells, ∀ q, 0 ≤ integral (n + 1) (q ^ 2 * c.e.jac.det) := fun c hc q => by rw [sq]; exact sq_nonneg' h hc q
  have term0 : ∀ c ∈ S.cells, ∀ d, 0 ≤ (materialOf ms c).eps * integral (n + 1) (onElem c.e (u .E d) ^ 2 * c.e.jac.det) +
      (materialOf ms c).mu * integral (n + 1) (onElem c.e (u .H d) ^ 2 * c.e.jac.det) := fun c hc d =>
    add_nonneg (mul_nonneg (he c hc).1.le (n0 c hc _)) (mul_nonneg (he c hc).2.le (n0 c hc _))
  obtain ⟨f, d, r, hr⟩ : ∃ f d r, u f d r ≠ 0 := by
    by_contra hne
    push Not at hne
    exact hu (funext fun f => funext fun d => funext fun r => hne f d r)
  obtain ⟨c, hc, hcr⟩ := List.mem_flatMap.1 (h.dofs_all r)
  obtain ⟨i, hi, hir⟩ := List.mem_map.1 hcr
  have hne : onElem c.e (u f d) ≠ 0 := by
    intro h0
    have := h.independent c hc (fun i => u f d (c.e.dof i)) h0 i (List.mem_range.1 hi)
    rw [hir] at this
    exact hr this
  have hpos : 0 < integral (n + 1) (onElem c.e (u f d) ^ 2 * c.e.jac.det) := by
    rw [sq]; exact mass_pos h.simplicial.dim c (h.jacobian c hc) _ hne
  have hT : 0 < (materialOf ms c).eps * integral (n + 1) (onElem c.e (u .E d) ^ 2 * c.e.jac.det) +
      (materialOf ms c).mu * integral (n + 1) (onElem c.e (u .H d) ^ 2 * c.e.jac.det) := by
    cases f with
    | E => exact add_pos_of_pos_of_nonneg (mul_pos (he c hc).1 hpos) (mul_nonneg (he c hc).2.le (n0 c hc _))
    | H => exact add_pos_of_nonneg_of_pos (mul_nonneg (he c hc).1.le (n0 c hc _)) (mul_pos (he c hc).2 hpos)
  unfold fieldEnergy
  refine mul_pos (by norm_num) (lt_of_lt_of_le ?_ (List.single_le_sum (fun y hy => ?_) _ (List.mem_map_of_mem hc)))
  · exact lt_of_lt_of_le hT (Finset.single_le_sum (fun d _ => term0 c hc d) (Finset.mem_univ d))
  · obtain ⟨c, hc, rfl⟩ := List.mem_map.1 hy
    exact Finset.sum_nonneg fun d _ => term0 c hc d

lemma side_cell (h : ValidMesh S p m) {f : FemFace n ι ℝ} (hf : f ∈ Spec.faces S.skeleton) : ∃ c ∈ S.cells, f.s1.e = c.e := by
  have := h.simplicial.cover.subset (List.mem_flatMap.2 ⟨f, hf, (by simp [Spec.sides] : (f.s1.e, f.s1.face) ∈ Spec.sides f)⟩)
  obtain ⟨e, he, hx⟩ := List.mem_flatMap.1 this
  obtain ⟨g, _, hg⟩ := List.mem_map.1 hx
  obtain ⟨c, hc, rfl⟩ := List.mem_map.1 he
  exact ⟨c, hc, by injection hg with h1 _; exact h1.symm⟩

lemma regular_of (h : ValidMesh S p m) (ms : List (Int × Material ℝ)) (hm : ValidMaterials S ms) : Regular (femOf S ms).prob (massOf S ms) := by
  refine ⟨?_, ?_, ?_, ?_, ?_, ?_, ?_⟩
  · have := h.simplicial.dim
    change n + 1 ≤ 3
    omega
  · intro f hf q hq
    have hf : f ∈ (Spec.faces S.skeleton).map FemFace.toFace := by
      simpa [allFaces, Fem.prob, Spec.faces, femOf, List.map_map, Function.comp_def] using hf
    obtain ⟨g, hg, rfl⟩ := List.mem_map.1 hf
    obtain ⟨x, hx, rfl⟩ := List.mem_map.1 hq
    have hgm : g ∈ (S.interior ++ S.bdr).map fun q => q.2.fem := by
      simpa [Spec.faces, Setup.skeleton, List.map_map, Function.comp_def] using hg
    obtain ⟨mf, hmf, rfl⟩ := List.mem_map.1 hgm
    obtain ⟨c, hc, hce⟩ := side_cell h hg
    have hin : InSimplex x.2 := h.inside mf hmf x hx
    have hpos := normal_pos h.simplicial.dim mf.2.s1 (h.simplicial.one _ hg) (by
      intro z hz
      have hce : mf.2.s1.e = c.e := hce
      rw [hce]; exact h.jacobian c hc z hz) x.2 hin
    refine ⟨Real.sqrt_pos.2 hpos, ?_, ?_⟩
    · change ((normal mf.2.s1).map _).length = n + 1
      rw [List.length_map, normal_length h.simplicial.dim]
    · exact (normal_norm h.simplicial.dim mf.2.s1 x.2).trans (Real.sq_sqrt hpos.le).symm
  · intro q hq
    obtain ⟨a, ha, rfl⟩ := List.mem_map.1 hq
    obtain ⟨b, hb, rfl⟩ := List.mem_map.1 ha
    exact h.bdr_cond b hb
  · intro q hq
    obtain ⟨a, ha, rfl⟩ := List.mem_map.1 hq
    obtain ⟨b, hb, rfl⟩ := List.mem_map.1 ha
    simp [FemFace.toFace, MeshFace.fem, h.bdr_one_side b hb]
  · intro q hq
    obtain ⟨a, ha, rfl⟩ := List.mem_map.1 hq
    obtain ⟨b, hb, rfl⟩ := List.mem_map.1 ha
    exact h.no_sgbc b hb
  · intro f
    cases f with
    | E => exact mass_mul_inv h _ fun c hc => by obtain ⟨t, ht⟩ := materialOf_mem hm hc; exact hm.eps _ ht
    | H => exact mass_mul_inv h _ fun c hc => by obtain ⟨t, ht⟩ := materialOf_mem hm hc; exact hm.mu _ ht
  · intro f
    cases f with
    | E => exact mass_symm h _
    | H => exact mass_symm h _

/-- From a valid mesh with valid materials the code assembles a problem whose energy is the integral of the fields' energy density, positive
for every field that is not zero, and which has all the properties the theorems about the global operator ask for, except for the signs of
the weights of the faces' quadratures. -/
theorem C142_assembled (h : ValidMesh S p m) (ms : List (Int × Material ℝ)) (hm : ValidMaterials S ms) :
    ∃ F M, S.fem ms = .ok F ∧ Simplicial F p m ∧ Regular F.prob M ∧ F.alpha = S.alpha ∧ (∀ u, energy M u = fieldEnergy S ms u) ∧
      (∀ u, u ≠ 0 → 0 < fieldEnergy S ms u) ∧ (∀ v : ι → ℝ, 0 ≤ v ⬝ᵥ F.Msig.mulVec v) ∧
      Spec.faces F = (S.interior ++ S.bdr).map fun q => q.2.fem := by
  refine ⟨_, massOf S ms, fem_ok S ms hm, simplicial_matrices h.simplicial _ _, regular_of h ms hm, rfl, energy_eq h ms, fieldEnergy_pos h ms hm, fun v => ?_, ?_⟩
  · change 0 ≤ v ⬝ᵥ (massMatrix (S.cells.map fun c => (c, (materialOf ms c).sigma))).mulVec v
    rw [mass_form h]
    refine List.sum_nonneg fun y hy => ?_
    obtain ⟨c, hc, rfl⟩ := List.mem_map.1 hy
    obtain ⟨t, ht⟩ := materialOf_mem hm hc
    exact mul_nonneg (hm.sigma _ ht) (sq_nonneg' h hc _)
  · simp [Spec.faces, femOf, Setup.skeleton, List.map_map, Function.comp_def]

/-- On a valid mesh of straight elements the energy of the fields never grows, whatever the weights of the quadratures. -/
theorem C142_stable (h : ValidMesh S p 1) (ms : List (Int × Material ℝ)) (hm : ValidMaterials S ms) (ha : 0 ≤ S.alpha) :
    ∃ F M, S.fem ms = .ok F ∧ (∀ u, energy M u = fieldEnergy S ms u) ∧ ∀ u, energyRate M u (globalMult F.prob u) ≤ 0 := by
  obtain ⟨F, M, e, hs, hr, hal, he, -, hsig, -⟩ := C142_assembled h ms hm
  exact ⟨F, M, e, he, fun u => C141_energy F hs M hr (by rw [hal]; exact ha) hsig u⟩

lemma good_of (h : ValidMesh S p m) (ms : List (Int × Material ℝ)) (hm : ValidMaterials S ms)
    (hw : ∀ q ∈ S.interior ++ S.bdr, ∀ x ∈ q.2.rule, 0 ≤ x.1) :
    ∃ F M, S.fem ms = .ok F ∧ Good F.prob M ∧ F.alpha = S.alpha ∧ (∀ u, energy M u = fieldEnergy S ms u) ∧
      (∀ u, u ≠ 0 → 0 < fieldEnergy S ms u) ∧ ∀ v : ι → ℝ, 0 ≤ v ⬝ᵥ F.Msig.mulVec v := by
  obtain ⟨F, M, e, hs, hr, hal, he, hp, hsig, hf⟩ := C142_assembled h ms hm
  refine ⟨F, M, e, ⟨hr.dim_le, fun f hfm q hq => ?_, sbp F hs, hr.bdr_cond, hr.bdr_one_side, hr.no_sgbc, hr.inv, hr.symm⟩, hal, he, hp, hsig⟩
  have hg := hr.pts f hfm q hq
  refine ⟨?_, hg.W_pos, hg.size, hg.norm⟩
  have : f ∈ (Spec.faces F).map FemFace.toFace := by
    simpa [allFaces, Fem.prob, Spec.faces, List.map_map, Function.comp_def] using hfm
  obtain ⟨g, hgm, rfl⟩ := List.mem_map.1 this
  rw [hf] at hgm
  obtain ⟨mf, hmf, rfl⟩ := List.mem_map.1 hgm
  obtain ⟨x, hx, rfl⟩ := List.mem_map.1 hq
  exact hw mf hmf x hx

/-- On a valid mesh, straight or curved, with quadratures of the faces without negative weights, the energy of the fields never grows. -/
theorem C142_curved (h : ValidMesh S p m) (ms : List (Int × Material ℝ)) (hm : ValidMaterials S ms) (ha : 0 ≤ S.alpha)
    (hw : ∀ q ∈ S.interior ++ S.bdr, ∀ x ∈ q.2.rule, 0 ≤ x.1) :
    ∃ F M, S.fem ms = .ok F ∧ (∀ u, energy M u = fieldEnergy S ms u) ∧ ∀ u, energyRate M u (globalMult F.prob u) ≤ 0 := by
  obtain ⟨F, M, e, hg, hal, he, -, hsig⟩ := good_of h ms hm hw
  refine ⟨F, M, e, he, fun u => ?_⟩
  rw [energy_balance F.prob M hg]
  have := dissipation_nonneg F.prob M hg (by change 0 ≤ F.alpha; rw [hal]; exact ha) hsig u
  linarith

/-- On a valid mesh, straight or curved, with quadratures of the faces without negative weights, a simulation without sources by any of the
implicit integrators runs to its end and its energy never grows, whatever the steps. -/
theorem C142_implicit (h : ValidMesh S p m) (ms : List (Int × Material ℝ)) (hm : ValidMaterials S ms) (ha : 0 ≤ S.alpha)
    (hw : ∀ q ∈ S.interior ++ S.bdr, ∀ x ∈ q.2.rule, 0 ≤ x.1) :
    ∃ F A, S.fem ms = .ok F ∧ (∀ u : State ι ℝ, A.mulVec (flat u) = flat (globalMult F.prob u)) ∧
      ∀ (q : Sdirk ℝ) (_ : Ideal33 q) (o : TimeInt.Ode) (_ : o ≠ .rk4) (dts : List ℝ) (_ : ∀ dt ∈ dts, 0 ≤ dt) (u : State ι ℝ) (t : ℝ),
        ∃ y c, TimeInt.run q o (TimeInt.globalTdo A fun _ => 0) dts (flat u) t fresh = some (flat y, t + dts.sum, c) ∧
          fieldEnergy S ms y ≤ fieldEnergy S ms u := by
  obtain ⟨F, M, e, hg, hal, he, hp, hsig⟩ := good_of h ms hm hw
  obtain ⟨A, hA⟩ := exists_matrix F.prob
  refine ⟨F, A, e, hA, fun q hq o ho dts hdts u t => ?_⟩
  have := TimeInt.C118_energy q hq F.prob M hg (by change 0 ≤ F.alpha; rw [hal]; exact ha) hsig (fun u hu => by rw [he]; exact hp u hu) A hA o ho
    dts hdts u t
  simpa only [he] using this

/-- On the same meshes there is a step below which the explicit integrator, with any sources, never lets the difference of two simulations
grow to more than twice (in the square root of its energy). -/
theorem C142_explicit (h : ValidMesh S p m) (ms : List (Int × Material ℝ)) (hm : ValidMaterials S ms) (ha : 0 ≤ S.alpha)
    (hw : ∀ q ∈ S.interior ++ S.bdr, ∀ x ∈ q.2.rule, 0 ≤ x.1) (q : Sdirk ℝ) :
    ∃ F A dtMax, S.fem ms = .ok F ∧ (∀ u : State ι ℝ, A.mulVec (flat u) = flat (globalMult F.prob u)) ∧ 0 < dtMax ∧
      ∀ (src : ℝ → Slot ι → ℝ) (dt last : ℝ), 0 ≤ last → last ≤ dt → dt ≤ dtMax → ∀ (k : Nat) (u u' : State ι ℝ) (t : ℝ), ∃ y y' c c',
        TimeInt.run q .rk4 (TimeInt.globalTdo A src) (List.replicate k dt ++ [last]) (flat u) t fresh =
          some (flat y, t + k * dt + last, c) ∧
        TimeInt.run q .rk4 (TimeInt.globalTdo A src) (List.replicate k dt ++ [last]) (flat u') t fresh =
          some (flat y', t + k * dt + last, c') ∧ fieldEnergy S ms (y - y') ≤ 4 * fieldEnergy S ms (u - u') := by
  obtain ⟨F, M, e, hg, hal, he, hp, hsig⟩ := good_of h ms hm hw
  obtain ⟨A, hA⟩ := exists_matrix F.prob
  obtain ⟨dtMax, h0, hd⟩ := TimeInt.C119_safe_step q F.prob M hg (by change 0 ≤ F.alpha; rw [hal]; exact ha) hsig
    (fun u hu => by rw [he]; exact hp u hu) A hA
  refine ⟨F, A, dtMax, e, hA, h0, fun src dt last hl hld hdm k u u' t => ?_⟩
  have := hd src dt last hl hld hdm k u u' t
  simpa only [he] using this

end Dgtd.Galerkin
