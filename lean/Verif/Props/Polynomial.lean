/-
C143: fields that are polynomials of the position, on every element of at most the order of the elements, change exactly as Maxwell's
equations say; static solutions stay.
-/
import Verif.Lemmas.Polynomial
import Verif.Props.TimeIntRun

set_option linter.unusedSectionVars false

namespace Dgtd.Galerkin
open MvPolynomial Spec Dgtd.Op Dgtd.Op.Spec
open Dgtd.Implicit Dgtd.TimeInt.Spec
open Dgtd.Config (Material)

variable {n : Nat} {ι : Type} [Fintype ι] [DecidableEq ι] {S : Setup n ι} {p m : Nat}

lemma curl_exact (h : ValidMesh S p m) (ms : List (Int × Material ℝ)) {Q : PField n ι} {u : State ι ℝ} (hu : Carries S Q u) (f : FieldT) (d : Dir)
    (v : ι → ℝ) : curlTerm (femOf S ms).prob u f d v =
      (S.cells.map fun c => sgn f * integral (n + 1) (onElem c.e v * (c.e.jac.det * bind₁ c.e.geom (curl (Q c.e (altField f)) d)))).sum := by
  unfold curlTerm
  rw [deriv_exact h (femOf S ms) rfl, deriv_exact h (femOf S ms) rfl, list_sum_sub, ← List.sum_map_mul_left]
  congr 1
  refine List.map_congr_left fun c hc => ?_
  rw [hu c hc, hu c hc, refD_geom, refD_geom, ← map_sub]
  congr 2
  unfold curl
  rw [map_sub]; ring

lemma integral_scale {D : Nat} (a : ℝ) (q : Poly D ℝ) : integral D (C a * q) = a * integral D q := by
  rw [← MvPolynomial.smul_eq_C_mul, map_smul, smul_eq_mul]

lemma cell_E {D : Nat} {a s : ℝ} {r q w : Poly D ℝ} (e : C a * r = w - C s * q) (V J : Poly D ℝ) :
    integral D (V * (J * w)) - s * integral D (V * q * J) = a * integral D (V * r * J) := by
  have h : V * (J * w) - C s * (V * q * J) = C a * (V * r * J) := by linear_combination (-(V * J)) * e
  rw [← integral_scale, ← integral_scale, ← map_sub, h]

lemma cell_H {D : Nat} {a : ℝ} {r w : Poly D ℝ} (e : C a * r = -w) (V J : Poly D ℝ) :
    -1 * integral D (V * (J * w)) = a * integral D (V * r * J) := by
  have h : -(V * (J * w)) = C a * (V * r * J) := by linear_combination (-(V * J)) * e
  rw [neg_one_mul, ← map_neg, h, integral_scale]

/-- Polynomial fields that respect the interfaces and boundaries change at the rate Maxwell's equations give. -/
lemma global_exact (h : ValidMesh S p m) (ms : List (Int × Material ℝ)) (hm : ValidMaterials S ms) {Q R : PField n ι} {u r : State ι ℝ}
    (hu : Carries S Q u) (hr : Carries S R r) (hq : Maxwell S ms Q R) (ha : Admissible S Q) : globalMult (femOf S ms).prob u = r := by
  have hreg := regular_of h ms hm
  have hwk : ∀ f d (v : ι → ℝ), weak (femOf S ms).prob u f d v = form (massOf S ms f) v (r f d) := by
    intro f d v
    rw [weak_faces]
    have z1 : ((femOf S ms).prob.interior.map fun q => interiorTerm (femOf S ms).prob.alpha u f d v q.1 q.2).sum = 0 := by
      refine sum_zero_of _ _ fun q hq => ?_
      obtain ⟨a, ha', rfl⟩ := List.mem_map.1 hq
      obtain ⟨b, hb, rfl⟩ := List.mem_map.1 ha'
      obtain ⟨o, g⟩ := b
      cases o with
      | none => exact plain_zero h hu ha hb _ f d v
      | some c => exact wall_zero h hu ha hb _ f d v
    have z2 : ((femOf S ms).prob.bdr.map fun q => exteriorTerm (femOf S ms).prob.alpha u f d v q.1 q.2).sum = 0 := by
      refine sum_zero_of _ _ fun q hq => ?_
      obtain ⟨a, ha', rfl⟩ := List.mem_map.1 hq
      obtain ⟨b, hb, rfl⟩ := List.mem_map.1 ha'
      obtain ⟨o, g⟩ := b
      cases o with
      | none => rfl
      | some c => exact exterior_zero h hu ha hb _ f d v
    rw [z1, z2, add_zero, add_zero, curl_exact h ms hu]
    have hmx := fun c hc => hq c hc d
    cases f with
    | E =>
      change _ - form (massMatrix (S.cells.map fun c => (c, (materialOf ms c).sigma))) v (u .E d) =
        form (massMatrix (S.cells.map fun c => (c, (materialOf ms c).eps))) v (r .E d)
      unfold form
      rw [mass_form h, mass_form h, list_sum_sub]
      congr 1
      refine List.map_congr_left fun c hc => ?_
      rw [hu c hc, hr c hc]
      have e := congrArg (bind₁ c.e.geom) (hmx c hc).1
      simp only [map_mul, map_sub, bind₁_C_right] at e
      have sg : (sgn FieldT.E : ℝ) = 1 := by simp [sgn, FieldT.idx]
      rw [sg, one_mul]
      exact cell_E e _ _
    | H =>
      change _ - 0 = form (massMatrix (S.cells.map fun c => (c, (materialOf ms c).mu))) v (r .H d)
      unfold form
      rw [mass_form h, sub_zero]
      congr 1
      refine List.map_congr_left fun c hc => ?_
      rw [hr c hc]
      have e := congrArg (bind₁ c.e.geom) (hmx c hc).2
      simp only [map_mul, map_neg, bind₁_C_right] at e
      have sg : (sgn FieldT.H : ℝ) = -1 := by simp [sgn, FieldT.idx]; norm_num
      rw [sg]
      exact cell_H e _ _
  funext f d
  have hM : (massOf S ms f).mulVec (globalMult (femOf S ms).prob u f d) = (massOf S ms f).mulVec (r f d) := by
    funext c
    rw [weak_mass (femOf S ms).prob (fun g hg q hq => (hreg.pts g hg q hq).size) hreg.inv, hwk]
    unfold form
    simp
  have hinv : (femOf S ms).prob.Minv f * massOf S ms f = 1 := by
    rw [mul_eq_one_comm]; exact hreg.inv f
  have := congrArg ((femOf S ms).prob.Minv f).mulVec hM
  rwa [Matrix.mulVec_mulVec, Matrix.mulVec_mulVec, hinv, Matrix.one_mulVec, Matrix.one_mulVec] at this

/-- **C143**.  On every valid mesh with valid materials: a field that is a polynomial of the position on every element, within what the
unknowns can hold, continuous in its tangential components and obeying the conditions of the boundaries, changes exactly at the rate of
Maxwell's equations. -/
theorem C143_exact (h : ValidMesh S p m) (ms : List (Int × Material ℝ)) (hm : ValidMaterials S ms) (Q R : PField n ι) (u r : State ι ℝ)
    (hu : Carries S Q u) (hr : Carries S R r) (hq : Maxwell S ms Q R) (ha : Admissible S Q) :
    ∃ F, S.fem ms = .ok F ∧ globalMult F.prob u = r :=
  ⟨femOf S ms, fem_ok S ms hm, global_exact h ms hm hu hr hq ha⟩

/-- In the plane and in space a field given by the same polynomials on all elements is continuous. -/
theorem C143_smooth {n : Nat} {ι : Type} [Fintype ι] [DecidableEq ι] {S : Setup (n + 1) ι} {p m : Nat} (h : ValidMesh S p m)
    (q : FieldT → Dir → Poly (n + 2) ℝ) (g : MeshFace (n + 1) ι) (hg : (none, g) ∈ S.interior) (s : Side (n + 1) ι ℝ) (hs : g.s2 = some s)
    (x : Fin (n + 1) → ℝ) (f : FieldT) (d : Dir) : onSide (fun _ => q) g.s1 x f d = onOther (fun _ => q) g x f d := by
  have hf : g.fem ∈ Spec.faces S.skeleton := by
    simp only [Spec.faces, Setup.skeleton, List.map_map, ← List.map_append]
    exact List.mem_map_of_mem (f := fun q : Option BdrCond × MeshFace (n + 1) ι => q.2.fem) (List.mem_append_left _ hg)
  have hmeet : Meet g.s1 s := h.simplicial.two _ hf s hs
  unfold onOther onSide
  rw [hs]
  have : pos g.s1 x = pos s x := by
    funext d
    unfold pos
    rw [hmeet.1 d]
  simp only [this]

/-! ### in time -/

/-- Static solutions stay for ever, with every integrator and whatever the steps. -/
theorem C143_static (h : ValidMesh S p m) (ms : List (Int × Material ℝ)) (hm : ValidMaterials S ms) (hal : 0 ≤ S.alpha)
    (hw : ∀ q ∈ S.interior ++ S.bdr, ∀ x ∈ q.2.rule, 0 ≤ x.1) (Q : PField n ι) (u : State ι ℝ) (hu : Carries S Q u)
    (hq : Maxwell S ms Q 0) (ha : Admissible S Q) (q : Sdirk ℝ) (hi : Ideal33 q) :
    ∃ F A, S.fem ms = .ok F ∧ (∀ u : State ι ℝ, A.mulVec (flat u) = flat (globalMult F.prob u)) ∧
      ∀ (o : TimeInt.Ode) (dts : List ℝ) (_ : ∀ dt ∈ dts, 0 ≤ dt) (t : ℝ), ∃ c,
        TimeInt.run q o (TimeInt.globalTdo A fun _ => 0) dts (flat u) t fresh = some (flat u, t + dts.sum, c) := by
  obtain ⟨F, M, e, hg, hal', he, hp, hsig⟩ := good_of h ms hm hw
  rw [fem_ok S ms hm] at e
  obtain rfl := Except.ok.inj e
  obtain ⟨A, hA⟩ := exists_matrix (femOf S ms).prob
  refine ⟨femOf S ms, A, fem_ok S ms hm, hA, fun o dts hd t => ?_⟩
  have h0 : globalMult (femOf S ms).prob u = 0 := global_exact h ms hm hu (fun c hc f d => by simp [onElem]) hq ha
  have := TimeInt.C122_affine q hi (femOf S ms).prob M hg (by change 0 ≤ (femOf S ms).alpha; rw [hal']; exact hal) hsig
    (fun u hu => by rw [he]; exact hp u hu) A hA u 0 (fun _ => 0) (fun t => by simp [h0]) o dts hd t
  have h0 : flat (0 : State ι ℝ) = 0 := by ext; simp [flat]
  simpa [h0] using this

end Dgtd.Galerkin
