/-
C146: straight meshes with quadrilaterals and hexahedra give stable simulations.
-/
import Verif.Lemmas.StraightMass
import Verif.Props.GalerkinCase

set_option linter.unusedSectionVars false
set_option linter.unusedSimpArgs false

namespace Dgtd.Straight
open MvPolynomial Spec Dgtd.Op Dgtd.Op.Spec
open Dgtd.Implicit Dgtd.TimeInt.Spec
open Dgtd.Galerkin (Poly Elem Rule tensor tensor3 massMatrix)
open Dgtd.Galerkin.Spec (onElem materialOf)
open Dgtd.Config (Material)

variable {n : Nat} {ι : Type}

/-! ### quadratures and turns that exist -/

lemma exact_box {D N : Nat} {r : Rule D ℝ}
    (h : ∀ a : Fin D → ℕ, (∀ i, a i ≤ N) → (r.map fun p => p.1 * ∏ i, p.2 i ^ a i).sum = ∏ i, (1 / ((a i : ℝ) + 1))) : Exact .box N r := by
  intro q hq
  have hs : ∀ (l : Rule D ℝ), (l.map fun p => p.1 * eval p.2 q).sum = ∑ a ∈ q.support, coeff a q * (l.map fun p => p.1 * ∏ i, p.2 i ^ a i).sum := by
    intro l
    induction l with
    | nil => simp
    | cons p l ih =>
      simp only [List.map_cons, List.sum_cons, mul_add, Finset.sum_add_distrib, ih]
      congr 1
      rw [eval_eq', Finset.mul_sum]
      refine Finset.sum_congr rfl fun a _ => by ring
  have hi : intl .box D q = ∑ a ∈ q.support, coeff a q * ∏ i, (1 / ((a i : ℝ) + 1)) := by
    conv_lhs => rw [q.as_sum, map_sum]
    refine Finset.sum_congr rfl fun a _ => cube_moment a _
  rw [hs, ← intl_eq, hi]
  refine Finset.sum_congr rfl fun a ha => ?_
  rw [h a]
  intro i
  have := Finset.le_sup (f := fun m : Fin D →₀ ℕ => m i) ha
  rw [← degreeOf_eq_sup] at this
  exact this.trans (hq i)

/-- A quadrature of the segment exact up to order `N` gives, as products, quadratures of the square and of the cube exact up to order `N` in each
variable. -/
theorem C146_product (r : List (ℝ × ℝ)) (N : Nat) (h : ∀ a ≤ N, (r.map fun p => p.1 * p.2 ^ a).sum = ∫ t in (0 : ℝ)..1, t ^ a) :
    Exact .box N (tensor r) ∧ Exact .box N (tensor3 r) := by
  have h' : ∀ a ≤ N, (r.map fun p => p.1 * p.2 ^ a).sum = 1 / ((a : ℝ) + 1) := by
    intro a ha
    rw [h a ha]
    simp
  have m2 : ∀ (f g : ℝ × ℝ → ℝ), (r.flatMap fun a => r.map fun b => f a * g b).sum = (r.map f).sum * (r.map g).sum := by
    intro f g
    suffices H : ∀ l : List (ℝ × ℝ), (l.flatMap fun a => r.map fun b => f a * g b).sum = (l.map f).sum * (r.map g).sum from H r
    intro l
    induction l with
    | nil => simp
    | cons a l ih =>
      rw [List.flatMap_cons, List.sum_append, ih, List.map_cons, List.sum_cons, add_mul, List.sum_map_mul_left]
  constructor
  · refine exact_box fun a ha => ?_
    have e : ((tensor r).map fun p => p.1 * ∏ i, p.2 i ^ a i) =
        r.flatMap fun x => r.map fun y => (x.1 * x.2 ^ a 0) * (y.1 * y.2 ^ a 1) := by
      rw [tensor, List.map_flatMap]
      refine congrArg (fun F => r.flatMap F) (funext fun x => ?_)
      rw [List.map_map]
      refine List.map_congr_left fun y _ => ?_
      simp only [Function.comp, Fin.prod_univ_two, Matrix.cons_val_zero, Matrix.cons_val_one]
      ring
    rw [e, m2 (fun x => x.1 * x.2 ^ a 0) (fun y => y.1 * y.2 ^ a 1), h' _ (ha 0), h' _ (ha 1), Fin.prod_univ_two]
  · refine exact_box fun a ha => ?_
    have m3 : ∀ (f : ℝ × ℝ → ℝ) (G : ℝ × ℝ → List ℝ), (∀ x, (G x).sum = f x * ((1 / ((a 1 : ℝ) + 1)) * (1 / ((a 2 : ℝ) + 1)))) →
        (r.flatMap G).sum = (r.map f).sum * ((1 / ((a 1 : ℝ) + 1)) * (1 / ((a 2 : ℝ) + 1))) := by
      intro f G hG
      suffices H : ∀ l : List (ℝ × ℝ), (l.flatMap G).sum = (l.map f).sum * ((1 / ((a 1 : ℝ) + 1)) * (1 / ((a 2 : ℝ) + 1))) from H r
      intro l
      induction l with
      | nil => simp
      | cons a l ih => rw [List.flatMap_cons, List.sum_append, ih, List.map_cons, List.sum_cons, add_mul, hG]
    have e : ((tensor3 r).map fun p => p.1 * ∏ i, p.2 i ^ a i) =
        r.flatMap fun x => r.flatMap fun y => r.map fun z => (x.1 * x.2 ^ a 0 * (y.1 * y.2 ^ a 1)) * (z.1 * z.2 ^ a 2) := by
      rw [tensor3, List.map_flatMap]
      refine congrArg (fun F => r.flatMap F) (funext fun x => ?_)
      rw [List.map_flatMap]
      refine congrArg (fun F => r.flatMap F) (funext fun y => ?_)
      rw [List.map_map]
      refine List.map_congr_left fun z _ => ?_
      simp only [Function.comp, Fin.prod_univ_three, Matrix.cons_val_zero, Matrix.cons_val_one, Matrix.cons_val_two, Matrix.head_cons,
        Matrix.tail_cons, Matrix.cons_val]
      ring
    rw [e, m3 (fun x => x.1 * x.2 ^ a 0) _ fun x => ?_, h' _ (ha 0), Fin.prod_univ_three]
    · ring
    · rw [m2 (fun y => x.1 * x.2 ^ a 0 * (y.1 * y.2 ^ a 1)) (fun z => z.1 * z.2 ^ a 2), List.sum_map_mul_left, h' _ (ha 1), h' _ (ha 2)]
      ring

lemma ins20 {α : Type} (x : α) (p : Fin 1 → α) : (0 : Fin 2).insertNth (α := fun _ => α) x p = ![x, p 0] := by
  funext i; fin_cases i <;> rfl

lemma ins21 {α : Type} (x : α) (p : Fin 1 → α) : (1 : Fin 2).insertNth (α := fun _ => α) x p = ![p 0, x] := by
  funext i; fin_cases i <;> rfl

lemma ins30 {α : Type} (x : α) (p : Fin 2 → α) : (0 : Fin 3).insertNth (α := fun _ => α) x p = ![x, p 0, p 1] := by
  funext i; fin_cases i <;> rfl

lemma ins31 {α : Type} (x : α) (p : Fin 2 → α) : (1 : Fin 3).insertNth (α := fun _ => α) x p = ![p 0, x, p 1] := by
  funext i; fin_cases i <;> rfl

lemma ins32 {α : Type} (x : α) (p : Fin 2 → α) : (2 : Fin 3).insertNth (α := fun _ => α) x p = ![p 0, p 1, x] := by
  funext i; fin_cases i <;> rfl

lemma refSide_jac' (s : Side n ι) (d : Fin (n + 1)) (c : Fin n) : (refSide s).jac d c = pderiv c (loc s.place d) := by
  simp [Side.jac, Side.restrict, refSide]

/-- Which faces of the square and the cube are run along backwards in their first coordinate. -/
def backwards (k : Fin (n + 1)) (upper : Bool) : Bool := if k.val = 1 then upper else !upper

/-- Every face of every element can be run along so that the normal points out. -/
theorem C146_turns (hn : n < 3) (e : Elem n ι ℝ) (k : Key n) : ∃ pl : Place n, pl.key = k ∧ Outward ⟨e, pl⟩ := by
  cases k with
  | simplex face =>
    have key : ∀ turn, Galerkin.Spec.Outward ⟨e, face, turn⟩ → Outward (⟨e, .simplex face turn⟩ : Side n ι) := by
      intro turn h
      unfold Outward
      unfold Galerkin.Spec.Outward at h
      refine Eq.trans ?_ h
      match n, hn with
      | 0, _ => rfl
      | 1, _ => rfl
      | 2, _ => rfl
    obtain ⟨t0, t1, t2⟩ := Galerkin.C141_turns (ι := ι)
    match n, hn, e, face, key with
    | 0, _, e, face, key => exact ⟨.simplex face 1, rfl, key 1 (t0 _)⟩
    | 1, _, e, face, key =>
      obtain ⟨t, ht⟩ := t1 e face
      exact ⟨.simplex face t, rfl, key t ht⟩
    | 2, _, e, face, key =>
      obtain ⟨t, ht⟩ := t2 e face
      exact ⟨.simplex face t, rfl, key t ht⟩
  | box k b =>
    refine ⟨.box k b 1 fun i => if i.val = 0 then backwards k b else false, rfl, ?_⟩
    match n, hn, e, k with
    | 0, _, e, k =>
      obtain rfl : k = 0 := Subsingleton.elim (α := Fin 1) _ _
      have hl : ∀ f, loc (.box (0 : Fin 1) b 1 f) 0 = (C (if b then 1 else 0) : Poly 0 ℝ) := fun f => by
        simp only [loc]
        exact Fin.insertNth_apply_same (α := fun _ => Poly 0 ℝ) 0 _ _
      have hr : List.finRange (0 + 1) = [0] := rfl
      simp only [Outward, normal, refSide, hl, hr, List.map_cons, List.map_nil, refNormal, Place.key, if_true]
      cases b
      · simp
      · simp; ring
    | 1, _, e, k =>
      fin_cases k <;> cases b <;>
        simp [Outward, normal, refSide_jac', loc, refNormal, Galerkin.Case.finRange2, ins20, ins21, coord, backwards, Place.key]
    | 2, _, e, k =>
      fin_cases k <;> cases b <;>
        simp [Outward, normal, refSide_jac', loc, refNormal, Galerkin.Case.finRange3, Galerkin.Case.pd2, ins30, ins31, ins32, coord, backwards, Place.key,
          show ∀ (x : Poly 2 ℝ) (f : Fin 2 → Poly 2 ℝ), (Fin.cons (α := fun _ => Poly 2 ℝ) x f : Fin 3 → Poly 2 ℝ) 2 = f 1 from fun _ _ => rfl]

/-! ### stability -/

variable [Fintype ι] [DecidableEq ι] {S : Setup n ι} {p : Nat}

/-- From a valid mesh with valid materials the code assembles a problem that satisfies discrete integration by parts exactly, whose energy is the
integral of the fields' energy density, positive for every field that is not zero, and which has all the properties the theorems about the global
operator ask for, except for the signs of the weights of the faces' quadratures. -/
theorem C146_assembled (h : ValidMesh S p) (ms : List (Int × Material ℝ)) (hm : ValidMaterials S ms) :
    ∃ P M, S.prob ms = .ok P ∧ SBP P ∧ Regular P M ∧ P.alpha = S.alpha ∧ (∀ u, energy M u = fieldEnergy S ms u) ∧
      (∀ u, u ≠ 0 → 0 < fieldEnergy S ms u) ∧ (∀ v : ι → ℝ, 0 ≤ v ⬝ᵥ P.Msig.mulVec v) ∧
      (∀ v w : ι → ℝ, v ⬝ᵥ P.Msig.mulVec w =
        (S.cells.map fun c => (materialOf ms c.toCell).sigma * integral c.shape (onElem c.e v * onElem c.e w * c.e.jac.det)).sum) ∧
      allFaces P = (faces S).map MeshFace.toFace :=
  ⟨probOf S ms, massOf S ms, prob_ok S ms hm, sbp h _ rfl (all_faces S ms) rfl, regular_of h ms hm, rfl, energy_eq h ms, fieldEnergy_pos h ms hm,
    sigma_nonneg h ms hm, mass_form h _, all_faces S ms⟩

/-- On such a mesh with quadratures of the faces without negative weights, the energy of the fields never grows; in a closed cavity without losses and
with centred fluxes it does not change. -/
theorem C146_stable (h : ValidMesh S p) (ms : List (Int × Material ℝ)) (hm : ValidMaterials S ms) (ha : 0 ≤ S.alpha)
    (hw : ∀ f ∈ faces S, ∀ x ∈ f.rule, 0 ≤ x.1) :
    ∃ P M, S.prob ms = .ok P ∧ (∀ u, energy M u = fieldEnergy S ms u) ∧ (∀ u, energyRate M u (globalMult P u) ≤ 0) ∧
      (S.alpha = 0 → (∀ q ∈ ms, q.2.sigma = 0) → (∀ q ∈ S.interior, q.1 = none) → (∀ q ∈ S.bdr, q.1 = some .PEC ∨ q.1 = some .PMC) →
        ∀ u, energyRate M u (globalMult P u) = 0) := by
  have hg := good_of h ms hm hw
  refine ⟨_, _, prob_ok S ms hm, energy_eq h ms, fun u => ?_, fun ha0 hs hi hb u => ?_⟩
  · rw [energy_balance _ _ hg]
    have := dissipation_nonneg _ _ hg ha (sigma_nonneg h ms hm) u
    linarith
  · rw [energy_balance _ _ hg, Galerkin.dissipation_mirror (probOf S ms) ⟨?_, ?_⟩ ha0 ?_, neg_zero]
    · intro q hq
      obtain ⟨q', hq', rfl⟩ := List.mem_map.1 hq
      exact Or.inl (hi q' hq')
    · intro q hq
      obtain ⟨q', hq', rfl⟩ := List.mem_map.1 hq
      exact hb q' hq'
    · refine Matrix.ext fun i j => ?_
      have e := mass_form h (fun c => (materialOf ms c.toCell).sigma) (Pi.single i 1) (Pi.single j 1)
      have e' : Pi.single i (1 : ℝ) ⬝ᵥ (massMatrix (weighted S fun c => (materialOf ms c.toCell).sigma)).mulVec (Pi.single j 1) =
          (probOf S ms).Msig i j := by simp [probOf]
      rw [e'] at e
      rw [e, Matrix.zero_apply]
      refine List.sum_eq_zero fun y hy => ?_
      obtain ⟨c, hc, rfl⟩ := List.mem_map.1 hy
      obtain ⟨t, ht⟩ := materialOf_mem hm hc
      have := hs _ ht
      simp only at this
      simp only [this, zero_mul]

/-- A simulation without sources by any of the implicit integrators runs to its end and its energy never grows, whatever the steps. -/
theorem C146_implicit (h : ValidMesh S p) (ms : List (Int × Material ℝ)) (hm : ValidMaterials S ms) (ha : 0 ≤ S.alpha)
    (hw : ∀ f ∈ faces S, ∀ x ∈ f.rule, 0 ≤ x.1) :
    ∃ P A, S.prob ms = .ok P ∧ (∀ u : State ι ℝ, A.mulVec (flat u) = flat (globalMult P u)) ∧
      ∀ (q : Sdirk ℝ) (_ : Ideal33 q) (o : TimeInt.Ode) (_ : o ≠ .rk4) (dts : List ℝ) (_ : ∀ dt ∈ dts, 0 ≤ dt) (u : State ι ℝ) (t : ℝ),
        ∃ y c, TimeInt.run q o (TimeInt.globalTdo A fun _ => 0) dts (flat u) t fresh = some (flat y, t + dts.sum, c) ∧
          fieldEnergy S ms y ≤ fieldEnergy S ms u := by
  have hg := good_of h ms hm hw
  obtain ⟨A, hA⟩ := exists_matrix (probOf S ms)
  refine ⟨_, A, prob_ok S ms hm, hA, fun q hq o ho dts hdts u t => ?_⟩
  have := TimeInt.C118_energy q hq _ _ hg ha (sigma_nonneg h ms hm) (fun u hu => by rw [energy_eq h]; exact fieldEnergy_pos h ms hm u hu) A hA o ho
    dts hdts u t
  simpa only [energy_eq h] using this

/-- There is a step below which the explicit integrator, with any sources, never lets the difference of two simulations grow to more than twice (in
the square root of its energy). -/
theorem C146_explicit (h : ValidMesh S p) (ms : List (Int × Material ℝ)) (hm : ValidMaterials S ms) (ha : 0 ≤ S.alpha)
    (hw : ∀ f ∈ faces S, ∀ x ∈ f.rule, 0 ≤ x.1) (q : Sdirk ℝ) :
    ∃ P A dtMax, S.prob ms = .ok P ∧ (∀ u : State ι ℝ, A.mulVec (flat u) = flat (globalMult P u)) ∧ 0 < dtMax ∧
      ∀ (src : ℝ → Slot ι → ℝ) (dt last : ℝ), 0 ≤ last → last ≤ dt → dt ≤ dtMax → ∀ (k : Nat) (u u' : State ι ℝ) (t : ℝ), ∃ y y' c c',
        TimeInt.run q .rk4 (TimeInt.globalTdo A src) (List.replicate k dt ++ [last]) (flat u) t fresh =
          some (flat y, t + k * dt + last, c) ∧
        TimeInt.run q .rk4 (TimeInt.globalTdo A src) (List.replicate k dt ++ [last]) (flat u') t fresh =
          some (flat y', t + k * dt + last, c') ∧ fieldEnergy S ms (y - y') ≤ 4 * fieldEnergy S ms (u - u') := by
  have hg := good_of h ms hm hw
  obtain ⟨A, hA⟩ := exists_matrix (probOf S ms)
  obtain ⟨dtMax, h0, hd⟩ := TimeInt.C119_safe_step q _ _ hg ha (sigma_nonneg h ms hm)
    (fun u hu => by rw [energy_eq h]; exact fieldEnergy_pos h ms hm u hu) A hA
  refine ⟨_, A, dtMax, prob_ok S ms hm, hA, h0, fun src dt last hl hld hdm k u u' t => ?_⟩
  have := hd src dt last hl hld hdm k u u' t
  simpa only [energy_eq h] using this

end Dgtd.Straight
