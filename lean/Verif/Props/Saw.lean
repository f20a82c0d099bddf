/-
C158: the automatic time step with the default CFL number and upwind parameter, at order one.
-/
import Verif.Spec.Saw
import Verif.Lemmas.SawMesh

set_option linter.unusedSectionVars false

namespace Dgtd.Galerkin
open MvPolynomial Spec Dgtd.Op Dgtd.Op.Spec
open Dgtd.Implicit Dgtd.TimeInt.Spec
open Dgtd.Config (Material)
open Dgtd.TimeStep (estimateTimeStep)
open Dgtd.TimeStep.Spec (FirstGap span)

variable {n : Nat} {ι : Type} [Fintype ι] [DecidableEq ι] {ms : List (Int × Material ℝ)}

lemma only_ez {S : Setup n ι} {p m : Nat} (h : ValidMesh S p m) {Q : Elem n ι ℝ → Poly (n + 1) ℝ} {u : State ι ℝ} (hu : OnlyEz S Q u) :
    u = ez (u .E 2) := by
  funext f d r
  unfold ez
  split
  next hf => obtain ⟨rfl, rfl⟩ := hf; rfl
  next hf =>
    obtain ⟨c, hc, hr⟩ := List.mem_flatMap.1 (h.dofs_all r)
    obtain ⟨i, hi, rfl⟩ := List.mem_map.1 hr
    have := hu c hc f d
    rw [if_neg hf] at this
    exact h.independent c hc (fun i => u f d (c.e.dof i)) this i (List.mem_range.1 hi)

lemma factor_ge {z : ℝ} (hz : 3 ≤ z) : 11 / 8 ≤ factor z := by
  obtain ⟨s, rfl⟩ : ∃ s, z = 3 + s := ⟨z - 3, by ring⟩
  have hs : 0 ≤ s := by linarith
  unfold factor
  have : 1 - (3 + s) + (3 + s) ^ 2 / 2 - (3 + s) ^ 3 / 6 + (3 + s) ^ 4 / 24 = 11 / 8 + 2 * s + 5 / 4 * s ^ 2 + s ^ 3 / 3 + s ^ 4 / 24 := by ring
  have h1 : 0 ≤ 2 * s + 5 / 4 * s ^ 2 + s ^ 3 / 3 + s ^ 4 / 24 := by positivity
  rw [this]
  linarith

/-- A disturbance that would die out at the rate `lam` runs along with any fields and sources. -/
lemma eigen_pair {P : Prob ι ℝ} {A : Matrix (Slot ι) (Slot ι) ℝ} (hA : ∀ u : State ι ℝ, A.mulVec (flat u) = flat (globalMult P u)) {v : State ι ℝ}
    {lam : ℝ} (hL : globalMult P v = (-lam) • v) (q : Sdirk ℝ) (src : ℝ → Slot ι → ℝ) (dt : ℝ) (N : Nat) :
    ∀ (a : ℝ) (u : State ι ℝ) (t : ℝ), ∃ y : State ι ℝ,
      TimeInt.run q .rk4 (TimeInt.globalTdo A src) (List.replicate N dt) (flat u) t fresh = some (flat y, t + N * dt, fresh) ∧
      TimeInt.run q .rk4 (TimeInt.globalTdo A src) (List.replicate N dt) (flat (u + a • v)) t fresh =
        some (flat (y + (factor (lam * dt) ^ N * a) • v), t + N * dt, fresh) := by
  have hv : dt • A.mulVecLin (flat v) = (-(lam * dt)) • flat v := by
    rw [Matrix.mulVecLin_apply, hA, hL, show flat ((-lam) • v) = (-lam) • flat v from rfl, smul_smul]
    congr 1
    ring
  induction N with
  | zero => intro a u t; exact ⟨u, by simp [TimeInt.run], by simp [TimeInt.run]⟩
  | succ N ih =>
    intro a u t
    obtain ⟨y1, hy1⟩ : ∃ y1 : State ι ℝ, flat y1 = (TimeInt.rk4 (TimeInt.globalTdo A src) (flat u) t dt).1 := ⟨unflat _, flat_unflat _⟩
    obtain ⟨y, e1, e2⟩ := ih (factor (lam * dt) * a) y1 (t + dt)
    have d := TimeInt.rk4_diff (F := TimeInt.globalTdo A src) (A := A.mulVecLin) (src := src) (fun _ _ => rfl) (flat (u + a • v)) (flat u) t dt
    have e3 : flat (u + a • v) - flat u = a • flat v := by
      rw [show flat (u + a • v) = flat u + a • flat v from rfl]; abel
    have hZ : (dt • A.mulVecLin) (flat v) = (-(lam * dt)) • flat v := hv
    have e4 : (TimeInt.rk4 (TimeInt.globalTdo A src) (flat (u + a • v)) t dt).1 = flat (y1 + (factor (lam * dt) * a) • v) := by
      rw [e3] at d
      simp only [TimeInt.rkPoly, map_smul, hZ, smul_smul] at d
      rw [show flat (y1 + (factor (lam * dt) * a) • v) = flat y1 + (factor (lam * dt) * a) • flat v from rfl, hy1, ← sub_eq_iff_eq_add', d]
      unfold factor
      module
    have tt : ∀ x, (TimeInt.rk4 (TimeInt.globalTdo A src) x t dt).2 = t + dt := fun _ => rfl
    refine ⟨y, ?_, ?_⟩
    · simp only [List.replicate_succ, TimeInt.run, TimeInt.step, Option.bind_eq_bind, Option.bind_some]
      rw [tt, ← hy1, e1]
      congr 3
      push_cast; ring
    · simp only [List.replicate_succ, TimeInt.run, TimeInt.step, Option.bind_eq_bind, Option.bind_some]
      rw [tt, e4, e2]
      congr 2
      · congr 1; rw [pow_succ, mul_assoc]
      · congr 1; push_cast; ring

lemma energy_nonneg {S : Setup n ι} {p m : Nat} (h : ValidMesh S p m) (hm : ValidMaterials S ms) (u : State ι ℝ) : 0 ≤ fieldEnergy S ms u := by
  by_cases hu : u = 0
  · rw [← energy_eq h, hu]; simp [energy]
  · exact (fieldEnergy_pos h ms hm u hu).le

/-- What both theorems share. -/
lemma saw_run {S : Setup n ι} {p m : Nat} (h : ValidMesh S p m) (hm : ValidMaterials S ms) {v : State ι ℝ} {lam : ℝ}
    (hL : globalMult (femOf S ms).prob v = (-lam) • v) (dt : ℝ) :
    ∃ F A, S.fem ms = .ok F ∧ (∀ u : State ι ℝ, A.mulVec (flat u) = flat (globalMult F.prob u)) ∧
      ∀ (q : Sdirk ℝ) (src : ℝ → Slot ι → ℝ) (N : Nat) (a : ℝ) (u : State ι ℝ) (t : ℝ), ∃ y y' : State ι ℝ,
        TimeInt.run q .rk4 (TimeInt.globalTdo A src) (List.replicate N dt) (flat u) t fresh = some (flat y, t + N * dt, fresh) ∧
        TimeInt.run q .rk4 (TimeInt.globalTdo A src) (List.replicate N dt) (flat (u + a • v)) t fresh = some (flat y', t + N * dt, fresh) ∧
        fieldEnergy S ms (y' - y) = (factor (lam * dt) ^ 2) ^ N * fieldEnergy S ms (a • v) := by
  obtain ⟨A, hA⟩ := exists_matrix (femOf S ms).prob
  refine ⟨femOf S ms, A, fem_ok S ms hm, hA, fun q src N a u t => ?_⟩
  obtain ⟨y, e1, e2⟩ := eigen_pair hA hL q src dt N a u t
  refine ⟨y, _, e1, e2, ?_⟩
  rw [add_sub_cancel_left, mul_smul, energy_smul h, ← pow_mul, ← pow_mul, mul_comm N]

/-! ### segments -/

lemma integral_line (a b c : ℝ) : integral 1 (C a + C b * X 0 + C c * (X 0 * X 0) : Poly 1 ℝ) = a + b / 2 + c / 3 := by
  have e1 : (X 0 : Poly 1 ℝ) = monomial (Finsupp.single 0 1) 1 := rfl
  have e2 : (X 0 * X 0 : Poly 1 ℝ) = monomial (Finsupp.single 0 2) 1 := by rw [← pow_two, X_pow_eq_monomial]
  have i1 : integral 1 (X 0 : Poly 1 ℝ) = 1 / 2 := by rw [e1, integral_monomial]; simp [moment, Nat.factorial]
  have i2 : integral 1 (X 0 * X 0 : Poly 1 ℝ) = 1 / 3 := by rw [e2, integral_monomial]; simp [moment, Nat.factorial]; norm_num
  rw [map_add, map_add, integral_scale, integral_scale, integral_const, i1, i2]
  simp; ring

lemma saw_line {S : Setup 0 ι} (h : ValidMesh S 1 1) (hm : ValidMaterials S ms) (hb : ClosedBox S ms) {τ : ℝ} (hτ : EvenLine S τ) (hτ0 : 0 < τ)
    {v : State ι ℝ} (hv : OnlyEz S (fun _ => 1 - 2 * X 0) v) : globalMult (femOf S ms).prob v = (-(S.alpha * (6 / τ))) • v := by
  have hez := only_ez h hv
  have hw : ∀ c ∈ S.cells, onElem c.e (v .E 2) = 1 - 2 * X 0 := fun c hc => by simpa using hv c hc .E 2
  rw [hez]
  have l0 : ∀ t : Equiv.Perm (Fin 1), (loc none t 0 : Poly 0 ℝ) = 1 := by
    intro t
    have : t 0 = 0 := Fin.ext (by omega)
    unfold loc
    rw [if_neg (by simp), this]; simp [bary]
  have l1 : ∀ t : Equiv.Perm (Fin 1), (loc (some 0) t 0 : Poly 0 ℝ) = 0 := by intro t; unfold loc; rw [if_pos rfl]
  have two : (2 : Poly 1 ℝ) = C 2 := rfl
  refine saw_mesh (by omega) h hm hb.vacuum (fun q hq => (hb.inside q hq).1) hb.walls (fun _ _ => 1) ?_ (v .E 2) ?_ ?_ _ ?_
  · intro q hq
    exact ⟨fun x => weight_end q.2.s1 x, fun s _ x => weight_end q.2.s1 x⟩
  · intro q hq
    obtain ⟨s, hs⟩ := Option.ne_none_iff_exists'.1 (hb.inside q hq).2
    refine ⟨s, hs, fun x => ?_⟩
    have hq' : q ∈ S.interior ++ S.bdr := List.mem_append_left _ hq
    have hsc := sides_cells h hq'
    obtain ⟨c1, hc1, e1⟩ := hsc.1
    obtain ⟨c2, hc2, e2⟩ := hsc.2 s hs
    have hmeet := h.simplicial.two q.2.fem (by
      simp only [Spec.faces, Setup.skeleton, List.map_map, List.mem_append, List.mem_map]
      exact Or.inl ⟨q, hq, rfl⟩) s hs
    have hne : q.2.s1.face ≠ s.face := hmeet
    rw [e1, e2, hw c1 hc1, hw c2 hc2]
    have cases : ∀ f : Option (Fin 1), f = none ∨ f = some 0 := by decide
    unfold Side.restrict
    simp only [map_sub, map_mul, map_one, bind₁_X_right, two, bind₁_C_right, eval_C]
    rcases cases q.2.s1.face with a | a <;> rcases cases s.face with b | b
    · exact absurd (a.trans b.symm) hne
    · rw [a, b, l0, l1]; simp; norm_num
    · rw [a, b, l0, l1]; simp; norm_num
    · exact absurd (a.trans b.symm) hne
  · intro c hc
    rw [hw c hc, show (1 - 2 * X 0 : Poly 1 ℝ) = C 1 + C (-2) * X 0 + C 0 * (X 0 * X 0) by rw [two, map_neg, map_zero, map_one]; ring, integral_line]
    norm_num
  · intro c hc w hw1
    obtain ⟨a, b, rfl⟩ := affine w hw1
    have hsum : (∑ i, C (b i) * X i : Poly (0 + 1) ℝ) = C (b 0) * X 0 := Fin.sum_univ_one _
    rw [hsum, hw c hc, hτ c hc]
    have e : ((C a + C (b 0) * X 0) * (1 - 2 * X 0) * C τ : Poly 1 ℝ) = C (a * τ) + C ((b 0 - 2 * a) * τ) * X 0 + C (-2 * b 0 * τ) * (X 0 * X 0) := by
      simp only [two, map_mul, map_sub, map_neg]; ring
    rw [e, integral_line]
    simp only [List.map_cons, List.map_map, List.sum_cons, List.finRange_succ, List.finRange_zero, List.map_nil, List.sum_nil, integral_zero_eq,
      Function.comp, one_mul, map_sub, map_mul, map_add, map_one, bind₁_X_right, two, bind₁_C_right, eval_C, l0, l1]
    simp only [map_zero]
    field_simp
    ring

lemma seen_line {S : Setup 0 ι} (h : ValidMesh S 1 1) {τ : ℝ} (hτ : EvenLine S τ) (hτ0 : 0 < τ) (hτ1 : τ ≤ TimeStep.dblMax) {m : TimeStep.Setup}
    (hs : SeenLine m S) (lobatto : Nat → List ℝ) (o : TimeStep.Options) (hp : o.order = 1) : estimateTimeStep lobatto m o = .ok (o.cfl * τ) := by
  obtain ⟨hd, hne, hel⟩ := hs
  have key : ∀ el ∈ m.elems, TimeStep.elemDistances el = [τ] := by
    intro el he
    obtain ⟨c, hc, e⟩ := hel el he
    obtain ⟨a, b, hab⟩ := affine _ (h.geom hc 0)
    have hb : b 0 = τ := by
      have : eval (fun _ => 0) c.e.jac.det = eval (fun _ => 0) (C τ : Poly 1 ℝ) := by rw [hτ c hc]
      simpa [Matrix.det_unique, Elem.jac, hab] using this
    unfold TimeStep.elemDistances
    rw [e]
    simp [TimeStep.pairDistances, hab, hb, abs_of_pos hτ0]
  have hmin : TimeStep.minDistance m.elems = τ := by
    unfold TimeStep.minDistance
    obtain ⟨el, rest, hm⟩ := List.exists_cons_of_ne_nil hne
    have k1 := key el (by rw [hm]; simp)
    refine le_antisymm ((TimeStep.minOf_le _ _).2 τ (List.mem_flatMap.2 ⟨el, by rw [hm]; simp, by rw [k1]; simp⟩)) ?_
    rcases TimeStep.minOf_mem (m.elems.flatMap TimeStep.elemDistances) TimeStep.dblMax with h1 | h1
    · rw [h1]; exact hτ1
    · obtain ⟨el, he, hx⟩ := List.mem_flatMap.1 h1
      rw [key el he, List.mem_singleton] at hx
      rw [hx]
  unfold estimateTimeStep
  rw [if_pos hd, if_neg (by rw [hp]; norm_num), hmin, hp]
  simp

/-- **C158**, segments: between metallic walls, on any mesh of segments of the same length at order one, the automatic time step is the CFL
number times that length.  When the CFL number times the upwind parameter is at least one half, a saw-toothed disturbance of the electric field
has its energy multiplied by at least 121/64 at every step, whatever the other fields and the sources; with the default values by 961. -/
theorem C158_violated_line {S : Setup 0 ι} (h : ValidMesh S 1 1) (hm : ValidMaterials S ms) (hb : ClosedBox S ms) {τ : ℝ} (hτ : EvenLine S τ)
    (hτ0 : 0 < τ) (hτ1 : τ ≤ TimeStep.dblMax) {m : TimeStep.Setup} (hs : SeenLine m S) (lobatto : Nat → List ℝ) (o : TimeStep.Options)
    (hp : o.order = 1) {v : State ι ℝ} (hv : OnlyEz S (fun _ => 1 - 2 * X 0) v) (hac : 1 / 2 ≤ S.alpha * o.cfl) :
    ∃ dt F A, estimateTimeStep lobatto m o = .ok dt ∧ dt = o.cfl * τ ∧ S.fem ms = .ok F ∧
      (∀ u : State ι ℝ, A.mulVec (flat u) = flat (globalMult F.prob u)) ∧
      ∀ (q : Sdirk ℝ) (src : ℝ → Slot ι → ℝ) (N : Nat) (a : ℝ) (u : State ι ℝ) (t : ℝ), ∃ y y' : State ι ℝ,
        TimeInt.run q .rk4 (TimeInt.globalTdo A src) (List.replicate N dt) (flat u) t fresh = some (flat y, t + N * dt, fresh) ∧
        TimeInt.run q .rk4 (TimeInt.globalTdo A src) (List.replicate N dt) (flat (u + a • v)) t fresh = some (flat y', t + N * dt, fresh) ∧
        (121 / 64) ^ N * fieldEnergy S ms (a • v) ≤ fieldEnergy S ms (y' - y) ∧
        (S.alpha = 1 → o.cfl = 1 → fieldEnergy S ms (y' - y) = 961 ^ N * fieldEnergy S ms (a • v)) := by
  obtain ⟨F, A, hF, hA, run⟩ := saw_run h hm (saw_line h hm hb hτ hτ0 hv) (o.cfl * τ)
  refine ⟨_, F, A, seen_line h hτ hτ0 hτ1 hs lobatto o hp, rfl, hF, hA, fun q src N a u t => ?_⟩
  obtain ⟨y, y', e1, e2, e3⟩ := run q src N a u t
  have hz : S.alpha * (6 / τ) * (o.cfl * τ) = 6 * (S.alpha * o.cfl) := by field_simp
  rw [hz] at e3
  refine ⟨y, y', e1, e2, ?_, fun h1 h2 => ?_⟩
  · rw [e3]
    have := factor_ge (z := 6 * (S.alpha * o.cfl)) (by linarith)
    refine mul_le_mul_of_nonneg_right (pow_le_pow_left₀ (by norm_num) (by nlinarith) N) (energy_nonneg h hm _)
  · rw [e3, h1, h2]; norm_num [factor]

/-! ### triangles -/

lemma integral_triangle (a b c d e f : ℝ) :
    integral 2 (C a + C b * X 0 + C c * X 1 + C d * (X 0 * X 0) + C e * (X 0 * X 1) + C f * (X 1 * X 1) : Poly 2 ℝ) =
      a / 2 + b / 6 + c / 6 + d / 12 + e / 24 + f / 12 := by
  have e1 : ∀ i : Fin 2, (X i : Poly 2 ℝ) = monomial (Finsupp.single i 1) 1 := fun _ => rfl
  have e2 : ∀ i : Fin 2, (X i * X i : Poly 2 ℝ) = monomial (Finsupp.single i 2) 1 := fun i => by rw [← pow_two, X_pow_eq_monomial]
  have e3 : (X 0 * X 1 : Poly 2 ℝ) = monomial (Finsupp.single 0 1 + Finsupp.single 1 1) 1 := by
    rw [e1, e1, monomial_mul, one_mul]
  have i1 : ∀ i : Fin 2, integral 2 (X i : Poly 2 ℝ) = 1 / 6 := by
    intro i; rw [e1, integral_monomial]; fin_cases i <;> simp [moment, Nat.factorial] <;> norm_num
  have i2 : ∀ i : Fin 2, integral 2 (X i * X i : Poly 2 ℝ) = 1 / 12 := by
    intro i; rw [e2, integral_monomial]; fin_cases i <;> simp [moment, Nat.factorial] <;> norm_num
  have i3 : integral 2 (X 0 * X 1 : Poly 2 ℝ) = 1 / 24 := by
    rw [e3, integral_monomial]; simp [moment, Nat.factorial]
  simp only [map_add, integral_scale, integral_const, i1, i2, i3]
  norm_num [Nat.factorial]; ring

/-- Length of a side of a triangle. -/
noncomputable def sideLength (e : Elem 1 ι ℝ) (f : Option (Fin 2)) : ℝ :=
  match f with
  | none => span (corner e 1 0) (corner e 0 1)
  | some 0 => span (corner e 0 0) (corner e 0 1)
  | some 1 => span (corner e 0 0) (corner e 1 0)

lemma side_length (s : Side 1 ι ℝ) : span (spot s 0) (spot s 1) = sideLength s.e s.face := by
  obtain ⟨e, f, t⟩ := s
  have b0 : (bary 0 : Poly 1 ℝ) = 1 - X 0 := by simp [bary]
  have b1 : (bary 1 : Poly 1 ℝ) = X 0 := rfl
  have ht : t = 1 ∨ t = Equiv.swap 0 1 := (by decide : ∀ t : Equiv.Perm (Fin 2), t = 1 ∨ t = Equiv.swap 0 1) t
  have hf : f = none ∨ f = some 0 ∨ f = some 1 := (by decide : ∀ f : Option (Fin 2), f = none ∨ f = some 0 ∨ f = some 1) f
  have hp : ∀ (f : Option (Fin 2)) (t : Equiv.Perm (Fin 2)) (j : Fin 2), spot (⟨e, f, t⟩ : Side 1 ι ℝ) j =
      corner e (eval (faceCorner j) (loc f t 0)) (eval (faceCorner j) (loc f t 1)) := by
    intro f t j
    unfold spot corner pos
    simp only [eval_restrict]
    have : (fun i => eval (faceCorner j) (loc f t i)) = ![eval (faceCorner j) (loc f t 0), eval (faceCorner j) (loc f t 1)] := by
      funext i; fin_cases i <;> rfl
    simp only [this]
    simp
  rw [hp, hp]
  rcases ht with rfl | rfl <;> rcases hf with rfl | rfl | rfl <;> simp [loc, b0, b1, faceCorner, sideLength] <;> exact span_comm _ _

lemma saw_triangle {S : Setup 1 ι} (h : ValidMesh S 1 1) (hm : ValidMaterials S ms) (hb : ClosedBox S ms) {a b τ : ℝ} (hi : Isosceles S a b τ)
    (hτ0 : 0 < τ) (σ : Elem 1 ι ℝ → ℝ) {v : State ι ℝ} (hv : OnlyEz S (fun e => C (σ e) * (X 0 - X 1)) v) (halt : Alternates S v) :
    globalMult (femOf S ms).prob v = (-(S.alpha * (4 * (a + a + b) / τ))) • v := by
  have hez := only_ez h hv
  have hw : ∀ c ∈ S.cells, onElem c.e (v .E 2) = C (σ c.e) * (X 0 - X 1) := fun c hc => by simpa using hv c hc .E 2
  rw [hez]
  refine saw_mesh le_rfl h hm hb.vacuum (fun q hq => (hb.inside q hq).1) hb.walls sideLength ?_ (v .E 2) ?_ ?_ _ ?_
  · intro q hq
    have w1 : ∀ x, q.2.fem.W x = span (spot q.2.s1 0) (spot q.2.s1 1) := fun x => weight_edge q.2.s1 (side_deg h hq) x
    refine ⟨fun x => by rw [w1, side_length], fun s hs x => ?_⟩
    have hmeet := h.simplicial.two q.2.fem (by
      simp only [Spec.faces, Setup.skeleton, List.map_map, List.mem_append, List.mem_map]
      rcases List.mem_append.1 hq with hq | hq
      · exact Or.inl ⟨q, hq, rfl⟩
      · exact Or.inr ⟨q, hq, rfl⟩) s hs
    have e : ∀ j, spot q.2.s1 j = spot s j := by
      intro j
      have hpos : pos q.2.s1 = pos s := by
        funext x d
        exact congrArg (eval x) (hmeet.1 d)
      unfold spot
      rw [hpos]
    rw [w1, e, e, side_length]
  · intro q hq
    obtain ⟨s, hs⟩ := Option.ne_none_iff_exists'.1 (hb.inside q hq).2
    exact ⟨s, hs, halt q hq s hs⟩
  · intro c hc
    rw [hw c hc, show (C (σ c.e) * (X 0 - X 1) : Poly 2 ℝ) = C 0 + C (σ c.e) * X 0 + C (-σ c.e) * X 1 + C 0 * (X 0 * X 0) + C 0 * (X 0 * X 1) +
      C 0 * (X 1 * X 1) by rw [map_neg, map_zero]; ring, integral_triangle]
    ring
  · intro c hc w hw1
    obtain ⟨p, r, rfl⟩ := affine w hw1
    obtain ⟨h1, h2, h3, h4⟩ := hi c hc
    have hsum : (∑ i, C (r i) * X i : Poly (1 + 1) ℝ) = C (r 0) * X 0 + C (r 1) * X 1 := Fin.sum_univ_two _
    rw [hsum, hw c hc, h4]
    have e : ((C p + (C (r 0) * X 0 + C (r 1) * X 1)) * (C (σ c.e) * (X 0 - X 1)) * C τ : Poly 2 ℝ) =
        C 0 + C (p * σ c.e * τ) * X 0 + C (-(p * σ c.e * τ)) * X 1 + C (r 0 * σ c.e * τ) * (X 0 * X 0) +
          C ((r 1 - r 0) * σ c.e * τ) * (X 0 * X 1) + C (-(r 1 * σ c.e * τ)) * (X 1 * X 1) := by
      simp only [map_mul, map_neg, map_sub, map_zero]; ring
    have l1 : ∀ (f : Option (Fin 2)) (P Q : Poly 1 ℝ), loc f 1 0 = P → loc f 1 1 = Q →
        bind₁ (loc f 1) (C (σ c.e) * (X 0 - X 1) * (C p + (C (r 0) * X 0 + C (r 1) * X 1))) =
          C (σ c.e) * (P - Q) * (C p + (C (r 0) * P + C (r 1) * Q)) := by
      rintro f P Q rfl rfl
      simp only [map_mul, map_sub, map_add, bind₁_X_right, bind₁_C_right]
    have b0 : (bary 0 : Poly 1 ℝ) = 1 - X 0 := by simp [bary]
    have b1 : (bary 1 : Poly 1 ℝ) = X 0 := rfl
    have f0 := l1 none (1 - X 0) (X 0) (by simp [loc, b0]) (by simp [loc, b1])
    have f1 := l1 (some 0) 0 (X 0) (by simp [loc]) (by simp [loc, b1])
    have f2 := l1 (some 1) (1 - X 0) 0 (by simp [loc, b0]) (by simp [loc])
    have g0 : (C (σ c.e) * (1 - X 0 - X 0) * (C p + (C (r 0) * (1 - X 0) + C (r 1) * X 0)) : Poly 1 ℝ) =
        C (σ c.e * (p + r 0)) + C (σ c.e * (r 1 - r 0 - 2 * (p + r 0))) * X 0 + C (-2 * σ c.e * (r 1 - r 0)) * (X 0 * X 0) := by
      have two : (C 2 : Poly 1 ℝ) = 2 := rfl
      simp only [map_mul, map_neg, map_sub, map_add, two]; ring
    have g1 : (C (σ c.e) * (0 - X 0) * (C p + (C (r 0) * 0 + C (r 1) * X 0)) : Poly 1 ℝ) =
        C 0 + C (-(σ c.e * p)) * X 0 + C (-(σ c.e * r 1)) * (X 0 * X 0) := by
      simp only [map_mul, map_neg, map_zero]; ring
    have g2 : (C (σ c.e) * (1 - X 0 - 0) * (C p + (C (r 0) * (1 - X 0) + C (r 1) * 0)) : Poly 1 ℝ) =
        C (σ c.e * (p + r 0)) + C (-(σ c.e * (p + 2 * r 0))) * X 0 + C (σ c.e * r 0) * (X 0 * X 0) := by
      have two : (C 2 : Poly 1 ℝ) = 2 := rfl
      simp only [map_mul, map_neg, map_add, two]; ring
    have fr : List.finRange (1 + 1) = [0, 1] := rfl
    rw [e, integral_triangle, fr]
    simp only [List.map_cons, List.map_nil, List.sum_cons, List.sum_nil, f0, f1, f2, g0, g1, g2, integral_line, sideLength, h1, h2, h3]
    field_simp
    ring

lemma seen_triangles {m : TimeStep.Setup} {a b τ : ℝ} (hs : SeenTriangles m a b τ) {lobatto : Nat → List ℝ} (hl : FirstGap lobatto 1 2)
    (o : TimeStep.Options) (hp : o.order = 1) : estimateTimeStep lobatto m o = .ok (o.cfl * (τ / (a + a + b))) := by
  obtain ⟨hd, hne, hel⟩ := hs
  obtain ⟨-, x, y, rest, hl, hxy⟩ := hl
  have key : ∀ el ∈ m.elems, TimeStep.dtScale 2 el = τ / (a + a + b) := by
    intro el he
    obtain ⟨-, h1, h2⟩ := hel el he
    unfold TimeStep.dtScale TimeStep.faceAreaSum
    have e : el.edges.map TimeStep.edgeLength = el.edges.map fun e => span e.1 e.2 := List.map_congr_left fun e _ => TimeStep.edgeLength_eq e
    rw [if_pos rfl, e, h1, h2, div_div_div_cancel_right₀ (by norm_num)]
  obtain ⟨el, rest', hm⟩ := List.exists_cons_of_ne_nil hne
  have hmin : TimeStep.minOf (TimeStep.dtScale 2 el) (rest'.map (TimeStep.dtScale 2)) = τ / (a + a + b) := by
    have k : ∀ z ∈ rest'.map (TimeStep.dtScale 2), z = τ / (a + a + b) := by
      intro z hz
      obtain ⟨e, he, rfl⟩ := List.mem_map.1 hz
      exact key e (by rw [hm]; simp [he])
    rcases TimeStep.minOf_mem (rest'.map (TimeStep.dtScale 2)) (TimeStep.dtScale 2 el) with h1 | h1
    · rw [h1]; exact key el (by rw [hm]; simp)
    · exact k _ h1
  have hany : m.elems.any (fun e => decide (e.shape = .quadrilateral)) = false := by
    rw [List.any_eq_false]
    intro e he
    rw [(hel e he).1]; simp
  have hr : TimeStep.rMin lobatto (o.order.toNat) = .ok 2 := by
    unfold TimeStep.rMin
    rw [hp, show (1 : Int).toNat = 1 from rfl, hl]
    simp [hxy]
  have base : TimeStep.baseStep lobatto m o = .ok (o.cfl * (τ / (a + a + b))) := by
    unfold TimeStep.baseStep TimeStep.calcMeshTimeStep
    rw [if_pos hd, hr, hany, hm]
    simp only [List.map_cons, hmin, bind, Except.bind, pure, Except.pure, Except.map]
    congr 1
    norm_num
    ring
  unfold estimateTimeStep
  rw [if_neg (by rw [hd]; norm_num), base]
  change TimeStep.operatorStep m o _ = _
  unfold TimeStep.operatorStep
  rw [if_neg (by rw [hd]; norm_num), if_neg (by rw [hd]; norm_num)]

/-- **C158**, triangles: between metallic walls, on any mesh of isosceles triangles of the same shape at order one, the automatic time step is
the CFL number times twice the area divided by half the perimeter.  When the CFL number times the upwind parameter is at least three quarters,
a disturbance of the electric field that has opposite values at the ends of every base, zero at every apex and changes sign from triangle to
triangle has its energy multiplied by at least 121/64 at every step, whatever the other fields and the sources; with the default values by 25. -/
theorem C158_violated_triangles {S : Setup 1 ι} (h : ValidMesh S 1 1) (hm : ValidMaterials S ms) (hb : ClosedBox S ms) {a b τ : ℝ}
    (hi : Isosceles S a b τ) (ha : 0 < a + a + b) (hτ0 : 0 < τ) {m : TimeStep.Setup} (hs : SeenTriangles m a b τ) {lobatto : Nat → List ℝ}
    (hl : FirstGap lobatto 1 2) (o : TimeStep.Options) (hp : o.order = 1) (σ : Elem 1 ι ℝ → ℝ) {v : State ι ℝ}
    (hv : OnlyEz S (fun e => C (σ e) * (X 0 - X 1)) v) (halt : Alternates S v) (hac : 3 / 4 ≤ S.alpha * o.cfl) :
    ∃ dt F A, estimateTimeStep lobatto m o = .ok dt ∧ dt = o.cfl * (τ / (a + a + b)) ∧ S.fem ms = .ok F ∧
      (∀ u : State ι ℝ, A.mulVec (flat u) = flat (globalMult F.prob u)) ∧
      ∀ (q : Sdirk ℝ) (src : ℝ → Slot ι → ℝ) (N : Nat) (c : ℝ) (u : State ι ℝ) (t : ℝ), ∃ y y' : State ι ℝ,
        TimeInt.run q .rk4 (TimeInt.globalTdo A src) (List.replicate N dt) (flat u) t fresh = some (flat y, t + N * dt, fresh) ∧
        TimeInt.run q .rk4 (TimeInt.globalTdo A src) (List.replicate N dt) (flat (u + c • v)) t fresh = some (flat y', t + N * dt, fresh) ∧
        (121 / 64) ^ N * fieldEnergy S ms (c • v) ≤ fieldEnergy S ms (y' - y) ∧
        (S.alpha = 1 → o.cfl = 1 → fieldEnergy S ms (y' - y) = 25 ^ N * fieldEnergy S ms (c • v)) := by
  obtain ⟨F, A, hF, hA, run⟩ := saw_run h hm (saw_triangle h hm hb hi hτ0 σ hv halt) (o.cfl * (τ / (a + a + b)))
  refine ⟨_, F, A, seen_triangles hs hl o hp, rfl, hF, hA, fun q src N c u t => ?_⟩
  obtain ⟨y, y', e1, e2, e3⟩ := run q src N c u t
  have hz : S.alpha * (4 * (a + a + b) / τ) * (o.cfl * (τ / (a + a + b))) = 4 * (S.alpha * o.cfl) := by
    obtain ⟨w, hw⟩ : ∃ w, w = a + a + b := ⟨_, rfl⟩
    rw [← hw] at ha ⊢
    field_simp
  rw [hz] at e3
  refine ⟨y, y', e1, e2, ?_, fun h1 h2 => ?_⟩
  · rw [e3]
    have := factor_ge (z := 4 * (S.alpha * o.cfl)) (by linarith)
    refine mul_le_mul_of_nonneg_right (pow_le_pow_left₀ (by norm_num) (by nlinarith) N) (energy_nonneg h hm _)
  · rw [e3, h1, h2]; norm_num [factor]

end Dgtd.Galerkin
