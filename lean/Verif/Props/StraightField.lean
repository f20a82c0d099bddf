/-
C160: on straight meshes with quadrilaterals and hexahedra, fields that are polynomials of the position change exactly as Maxwell's equations say;
static solutions stay.
-/
import Verif.Lemmas.StraightInterp
import Verif.Props.Straight
import Verif.Props.TimeIntRun

set_option linter.unusedSectionVars false

namespace Dgtd.Straight
open MvPolynomial Spec Dgtd.Op Dgtd.Op.Spec
open Dgtd.Galerkin (Poly Elem)
open Dgtd.Galerkin.Spec (onElem materialOf PField curl cross Obeys)
open Dgtd.Implicit Dgtd.TimeInt.Spec
open Dgtd.Config (Material)

variable {n : Nat} {ι : Type} [Fintype ι] [DecidableEq ι] {S : Setup n ι} {p : Nat}

/-- **C160**.  On every valid mesh with valid materials: a field that is a polynomial of the position on every element, within what the unknowns can
hold, continuous in its tangential components and obeying the conditions of the boundaries, changes exactly at the rate of Maxwell's equations. -/
theorem C160_exact (h : ValidMesh S p) (ms : List (Int × Material ℝ)) (hm : ValidMaterials S ms) (Q R : PField n ι) (u r : State ι ℝ)
    (hu : Carries S Q u) (hr : Carries S R r) (hq : Maxwell S ms Q R) (ha : Admissible S Q) :
    ∃ P, S.prob ms = .ok P ∧ globalMult P u = r :=
  ⟨probOf S ms, prob_ok S ms hm, global_exact h ms hm hu hr hq ha⟩

/-- Complete shape functions of the order of the elements can hold every polynomial of that degree of the position, however the quadrilaterals and
hexahedra are skewed; and no other unknowns hold the same field. -/
theorem C160_held (h : ValidMesh S p) {Λ : ℝ} {node : Elem n ι ℝ → Nat → Fin (n + 1) → ℝ} (hn : Nodal S p Λ node) (Q : PField n ι)
    (hQ : ∀ c ∈ S.cells, ∀ f d, (Q c.e f d).totalDegree ≤ p) : ∃! u, Carries S Q u := by
  obtain ⟨w, _, hw, -⟩ := carry_time h hn.complete (fun _ => Q) (fun _ => 0) (fun _ => hQ) (fun _ _ _ _ _ => by simp)
    (fun t c _ f d a => by simpa using hasDerivAt_const t (coeff a (Q c.e f d)))
  refine ⟨w 0, hw 0, fun v hv => ?_⟩
  funext f d j
  obtain ⟨c, hc, hr'⟩ := List.mem_flatMap.1 (h.dofs_all j)
  obtain ⟨i, hi, rfl⟩ := List.mem_map.1 hr'
  have hi := List.mem_range.1 hi
  have e : onElem c.e (v f d) = onElem c.e (w 0 f d) := (hv c hc f d).trans (hw 0 c hc f d).symm
  have := congrArg (eval (node c.e i)) e
  unfold onElem at this
  simp only [map_sum, map_mul, eval_C] at this
  have one : ∀ g : Nat → ℝ, ∑ j ∈ Finset.range c.e.size, g j * eval (node c.e i) (c.e.shape j) = g i := by
    intro g
    rw [Finset.sum_congr rfl fun j hj => by rw [hn.delta c hc i hi j (Finset.mem_range.1 hj)]]
    simp [hi]
  rwa [one, one] at this

/-- In the plane and in space a field given by the same polynomials on all elements is continuous. -/
theorem C160_smooth {n : Nat} {ι : Type} [Fintype ι] [DecidableEq ι] {S : Setup (n + 1) ι} {p : Nat} (h : ValidMesh S p)
    (q : FieldT → Dir → Poly (n + 2) ℝ) (g : MeshFace (n + 1) ι) (hg : (none, g) ∈ S.interior) (s : Side (n + 1) ι) (hs : g.s2 = some s)
    (x : Fin (n + 1) → ℝ) (f : FieldT) (d : Dir) : onSide (fun _ => q) g.s1 x f d = onOther (fun _ => q) g x f d := by
  have hmeet := h.two g (mem_face (List.mem_append_left _ hg)) s hs
  unfold onOther onSide
  rw [hs]
  have : pos g.s1 x = pos s x := by
    funext d
    unfold pos
    rw [hmeet.1 d]
  simp only [this]

/-- Static solutions stay for ever, with every integrator and whatever the steps. -/
theorem C160_static (h : ValidMesh S p) (ms : List (Int × Material ℝ)) (hm : ValidMaterials S ms) (hal : 0 ≤ S.alpha)
    (hw : ∀ f ∈ faces S, ∀ x ∈ f.rule, 0 ≤ x.1) (Q : PField n ι) (u : State ι ℝ) (hu : Carries S Q u)
    (hq : Maxwell S ms Q 0) (ha : Admissible S Q) (q : Sdirk ℝ) (hi : Ideal33 q) :
    ∃ P A, S.prob ms = .ok P ∧ (∀ u : State ι ℝ, A.mulVec (flat u) = flat (globalMult P u)) ∧
      ∀ (o : TimeInt.Ode) (dts : List ℝ) (_ : ∀ dt ∈ dts, 0 ≤ dt) (t : ℝ), ∃ c,
        TimeInt.run q o (TimeInt.globalTdo A fun _ => 0) dts (flat u) t fresh = some (flat u, t + dts.sum, c) := by
  obtain ⟨A, hA⟩ := exists_matrix (probOf S ms)
  refine ⟨probOf S ms, A, prob_ok S ms hm, hA, fun o dts hd t => ?_⟩
  have h0 : globalMult (probOf S ms) u = 0 := global_exact h ms hm hu (fun c hc f d => by simp [onElem]) hq ha
  have := TimeInt.C122_affine q hi (probOf S ms) (massOf S ms) (good_of h ms hm hw) hal (sigma_nonneg h ms hm)
    (fun u hu => by rw [energy_eq h]; exact fieldEnergy_pos h ms hm u hu) A hA u 0 (fun _ => 0) (fun t => by simp [h0]) o dts hd t
  have h0 : flat (0 : State ι ℝ) = 0 := by ext; simp [flat]
  simpa [h0] using this

end Dgtd.Straight
