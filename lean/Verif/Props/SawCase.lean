/-
C158: meshes that meet the hypotheses: the unit square cut along its diagonal, a line of two segments.
-/
import Verif.Props.Saw
import Verif.Props.CflCase

set_option linter.unusedSimpArgs false

namespace Dgtd.Galerkin.Case
open MvPolynomial Spec Dgtd.Op Dgtd.Op.Spec Dgtd.Implicit
open Dgtd.Config (Material)
open Dgtd.TimeStep.Spec (FirstGap)

/-! ### triangles -/

/-- One at one end of the diagonal, minus one at the other, the other way round above. -/
noncomputable def zigzag : State (Fin 3 ⊕ Fin 3) ℝ := ez fun r => match r with | .inl i => ![0, 1, -1] i | .inr i => ![0, 1, -1] i

lemma zigzag_elem {c : Cell 1 (Fin 3 ⊕ Fin 3)} (hc : c ∈ cavity.cells) : onElem c.e (zigzag .E 2) = X 0 - X 1 := by
  unfold onElem
  rw [(cavity_shape hc).1, (cavity_shape hc).2]
  rcases cavity_cells hc with rfl | rfl <;>
    simp [Finset.sum_range_succ, linear, Fin.sum_univ_two, zigzag, ez, lower, upper, Fin.ofNat] <;> ring

lemma zigzag_only : OnlyEz cavity (fun _ => C 1 * (X 0 - X 1)) zigzag := by
  intro c hc f d
  split
  next hf => obtain ⟨rfl, rfl⟩ := hf; rw [zigzag_elem hc, C_1, one_mul]
  next hf =>
    have : zigzag f d = 0 := by unfold zigzag ez; rw [if_neg hf]
    rw [this]; simp [onElem]

lemma cavity_closed : ClosedBox cavity vacuum := by
  refine ⟨fun c hc => cavity_vacuum hc, fun q hq => ?_, fun q hq => ?_⟩
  · simp only [cavity, pairSetup, List.mem_cons, List.not_mem_nil, or_false] at hq
    subst hq; simp
  · simp only [cavity, List.mem_cons, List.not_mem_nil, or_false] at hq
    rcases hq with rfl | rfl | rfl | rfl <;> rfl

lemma cavity_isosceles : Isosceles cavity 1 √2 1 := by
  intro c hc
  rcases cavity_cells hc with rfl | rfl
  · refine ⟨?_, ?_, ?_, ?_⟩
    · simp [Spec.corner, TimeStep.Spec.span, lower]
    · simp [Spec.corner, TimeStep.Spec.span, lower]
    · simp [Spec.corner, TimeStep.Spec.span, lower]; norm_num
    · simp [Elem.jac, lower, Matrix.det_fin_two, pderiv_X]
  · refine ⟨?_, ?_, ?_, ?_⟩
    · simp [Spec.corner, TimeStep.Spec.span, upper]
    · simp [Spec.corner, TimeStep.Spec.span, upper]
    · simp [Spec.corner, TimeStep.Spec.span, upper]; norm_num
    · simp [Elem.jac, upper, Matrix.det_fin_two, pderiv_X]

lemma cavity_seen : SeenTriangles seen 1 √2 1 := by
  refine ⟨rfl, by simp [seen], fun el he => ?_⟩
  simp only [seen, List.mem_cons, List.not_mem_nil, or_false] at he
  rcases he with rfl | rfl
  · refine ⟨rfl, rfl, ?_⟩
    simp [lowerElem, TimeStep.Spec.span, pt]; norm_num; ring
  · refine ⟨rfl, rfl, ?_⟩
    simp [upperElem, TimeStep.Spec.span, pt]; norm_num; ring

lemma zigzag_alternates : Alternates cavity zigzag := by
  intro q hq s hs x
  simp only [cavity, pairSetup, List.mem_cons, List.not_mem_nil, or_false] at hq
  subst hq
  have hs : s = ⟨upper, none, Equiv.swap 0 1⟩ := by simpa using hs.symm
  subst hs
  have e1 : onElem lower (zigzag .E 2) = X 0 - X 1 := zigzag_elem (c := ⟨lower, 1, midpoints, midpoints⟩) (by simp [cavity, pairSetup])
  have e2 : onElem upper (zigzag .E 2) = X 0 - X 1 := zigzag_elem (c := ⟨upper, 3, midpoints, midpoints⟩) (by simp [cavity, pairSetup])
  obtain ⟨b0, b1⟩ := bary1
  change eval x (Side.restrict _ (onElem upper _)) = -eval x (Side.restrict _ (onElem lower _))
  rw [e1, e2]
  simp [Side.restrict, loc, b0, b1]

/-- With the default options and order one, an arbitrarily small disturbance in a square cavity grows twenty-five-fold at every step. -/
example : ∃ dt F A, TimeStep.estimateTimeStep (fun _ => [-1, 1]) seen ⟨0, 1, 1, 0, .global, 1⟩ = .ok dt ∧ cavity.fem vacuum = .ok F ∧
    (∀ u : State _ ℝ, A.mulVec (flat u) = flat (globalMult F.prob u)) ∧
    ∀ (q : Sdirk ℝ) (N : Nat) (c : ℝ), ∃ y y' : State _ ℝ,
      TimeInt.run q .rk4 (TimeInt.globalTdo A 0) (List.replicate N dt) (flat 0) 0 fresh = some (flat y, 0 + N * dt, fresh) ∧
      TimeInt.run q .rk4 (TimeInt.globalTdo A 0) (List.replicate N dt) (flat (0 + c • zigzag)) 0 fresh = some (flat y', 0 + N * dt, fresh) ∧
      fieldEnergy cavity vacuum (y' - y) = 25 ^ N * fieldEnergy cavity vacuum (c • zigzag) := by
  have hr : FirstGap (fun _ => [-1, 1]) 1 2 := ⟨by norm_num, -1, 1, [], rfl, by norm_num⟩
  obtain ⟨dt, F, A, e, -, hF, hA, run⟩ := C158_violated_triangles cavity_valid cavity_materials cavity_closed cavity_isosceles (by positivity) one_pos
    cavity_seen hr ⟨0, 1, 1, 0, .global, 1⟩ rfl (fun _ => 1) zigzag_only zigzag_alternates (by norm_num [cavity, pairSetup])
  refine ⟨dt, F, A, e, hF, hA, fun q N c => ?_⟩
  obtain ⟨y, y', e1, e2, -, e3⟩ := run q 0 N c 0 0
  exact ⟨y, y', e1, e2, e3 rfl rfl⟩

/-! ### segments -/

/-- The segment from `a` to `a + 1`. -/
noncomputable def seg (a : ℝ) (dof : Fin 2 → Fin 2 ⊕ Fin 2) : Elem 0 (Fin 2 ⊕ Fin 2) ℝ :=
  { geom := fun _ => C a + X 0, size := 2, shape := linear 0, dof := fun i => dof (Fin.ofNat 2 i) }

noncomputable def seg0 : Elem 0 (Fin 2 ⊕ Fin 2) ℝ := seg 0 .inl
noncomputable def seg1 : Elem 0 (Fin 2 ⊕ Fin 2) ℝ := seg 1 .inr

/-- The only point there is. -/
def dot : Rule 0 ℝ := [(1, Fin.elim0)]

/-- Two segments between metallic walls. -/
noncomputable def wire : Setup 0 (Fin 2 ⊕ Fin 2) :=
  { cells := [⟨seg0, 1, eight, eight⟩, ⟨seg1, 1, eight, eight⟩]
    interior := [(none, { s1 := ⟨seg0, none, 1⟩, s2 := some ⟨seg1, some 0, 1⟩, rule := dot })]
    bdr := [(some .PEC, { s1 := ⟨seg0, some 0, 1⟩, s2 := none, rule := dot }), (some .PEC, { s1 := ⟨seg1, none, 1⟩, s2 := none, rule := dot })]
    alpha := 1 }

def wireVacuum : List (Int × Material ℝ) := [(1, ⟨1, 1, 0⟩)]

lemma dot_exact (N : Nat) : Exact N dot := by
  intro q _
  rw [integral_zero_eq]
  simp [dot]

lemma wire_cells {c : Cell 0 (Fin 2 ⊕ Fin 2)} (hc : c ∈ wire.cells) : c = ⟨seg0, 1, eight, eight⟩ ∨ c = ⟨seg1, 1, eight, eight⟩ := by
  simpa [wire] using hc

lemma wire_seg {c : Cell 0 (Fin 2 ⊕ Fin 2)} (hc : c ∈ wire.cells) : ∃ a dof, c.e = seg a dof := by
  rcases wire_cells hc with rfl | rfl
  · exact ⟨_, _, rfl⟩
  · exact ⟨_, _, rfl⟩

lemma wire_simplicial : Simplicial wire.skeleton 1 1 := by
  have loc0 : (loc none (1 : Equiv.Perm (Fin 1)) 0 : Poly 0 ℝ) = 1 := by simp [loc, bary]
  have loc1 : (loc (some 0) (1 : Equiv.Perm (Fin 1)) 0 : Poly 0 ℝ) = 0 := by simp [loc]
  have fr : List.finRange (0 + 1) = [0] := rfl
  refine ⟨by omega, le_rfl, le_rfl, ?_, ?_, ?_, ?_, ?_, ?_, ?_⟩
  · intro e he d
    simp only [wire, Setup.skeleton, List.map_cons, List.map_nil, List.mem_cons, List.not_mem_nil, or_false] at he
    rcases he with rfl | rfl <;> exact degree_add_le (by simp) (by simp)
  · intro e he i
    simp only [wire, Setup.skeleton, List.map_cons, List.map_nil, List.mem_cons, List.not_mem_nil, or_false] at he
    rcases he with rfl | rfl <;> exact linear_degree 0 i
  · change ([(seg0, none), (seg1, some 0), (seg0, some 0), (seg1, none)] : List (Elem 0 (Fin 2 ⊕ Fin 2) ℝ × Option (Fin 1))).Perm
      [(seg0, none), (seg0, some 0), (seg1, none), (seg1, some 0)]
    exact .cons _ ((List.Perm.swap _ _ _).trans (.cons _ (List.Perm.swap _ _ _)))
  · intro f hf
    simp only [Spec.faces, wire, Setup.skeleton, List.map_cons, List.map_nil, List.cons_append, List.nil_append, List.mem_cons, List.not_mem_nil,
      or_false] at hf
    rcases hf with rfl | rfl | rfl
    · change [2 * (loc none (1 : Equiv.Perm (Fin 1)) 0 : Poly 0 ℝ) - 1] = [C 1]
      rw [loc0, C_1]; norm_num
    · change [2 * (loc (some 0) (1 : Equiv.Perm (Fin 1)) 0 : Poly 0 ℝ) - 1] = [C (-1)]
      rw [loc1, map_neg, C_1]; norm_num
    · change [2 * (loc none (1 : Equiv.Perm (Fin 1)) 0 : Poly 0 ℝ) - 1] = [C 1]
      rw [loc0, C_1]; norm_num
  · intro f hf s hs
    simp only [Spec.faces, wire, Setup.skeleton, List.map_cons, List.map_nil, List.cons_append, List.nil_append, List.mem_cons, List.not_mem_nil,
      or_false] at hf
    rcases hf with rfl | rfl | rfl
    · have hs : s = ⟨seg1, some 0, 1⟩ := by simpa [MeshFace.fem] using hs.symm
      subst hs
      change (none : Option (Fin 1)) ≠ some 0
      simp
    all_goals simp [MeshFace.fem] at hs
  · intro e he
    simp only [wire, Setup.skeleton, List.map_cons, List.map_nil, List.mem_cons, List.not_mem_nil, or_false] at he
    rcases he with rfl | rfl <;> exact exact_mono eight_exact (by decide)
  · intro f hf
    simp only [Spec.faces, wire, Setup.skeleton, List.map_cons, List.map_nil, List.cons_append, List.nil_append, List.mem_cons, List.not_mem_nil,
      or_false] at hf
    rcases hf with rfl | rfl | rfl <;> exact dot_exact _

lemma wire_even : EvenLine wire 1 := by
  intro c hc
  obtain ⟨a, dof, e⟩ := wire_seg hc
  rw [e]
  simp [Elem.jac, seg, Matrix.det_unique]

lemma wire_valid : ValidMesh wire 1 1 := by
  refine ⟨wire_simplicial, ?_, ?_, by decide, fun r => ?_, ?_, ?_, ?_, ?_, ?_⟩
  · intro c hc x _
    rw [wire_even c hc]; simp
  · intro c hc a h i hi
    obtain ⟨b, dof, e⟩ := wire_seg hc
    rw [e] at h hi
    have key : ∀ x : Fin 1 → ℝ, a 0 * (1 - x 0) + a 1 * x 0 = 0 := by
      intro x
      have := congrArg (eval x) h
      simpa [seg, Finset.sum_range_succ, linear] using this
    have h0 := key ![0]
    have h1 := key ![1]
    simp at h0 h1
    have hi : i < 2 := hi
    interval_cases i <;> assumption
  · change r ∈ ([.inl 0, .inl 1, .inr 0, .inr 1] : List (Fin 2 ⊕ Fin 2))
    rcases r with r | r <;> fin_cases r <;> simp
  · intro q hq x hx
    exact ⟨fun i => i.elim0, by simp⟩
  · intro c hc
    rcases wire_cells hc with rfl | rfl <;> exact exact_mono eight_exact (by decide)
  · intro q hq
    simp only [wire, List.mem_cons, List.not_mem_nil, or_false] at hq
    rcases hq with rfl | rfl <;> simp
  · intro q hq
    simp only [wire, List.mem_cons, List.not_mem_nil, or_false] at hq
    rcases hq with rfl | rfl <;> rfl
  · intro q hq
    simp only [wire, List.mem_cons, List.not_mem_nil, or_false] at hq
    subst hq
    simp

lemma wire_materials : ValidMaterials wire wireVacuum := by
  refine ⟨by simp [wireVacuum], by simp [wireVacuum], by simp [wireVacuum], by simp [wireVacuum], by simp [wireVacuum], ?_⟩
  intro c hc
  rcases wire_cells hc with rfl | rfl <;> exact ⟨⟨1, 1, 0⟩, by simp [wireVacuum, Assoc.find]⟩

lemma wire_closed : ClosedBox wire wireVacuum := by
  refine ⟨fun c hc => ?_, fun q hq => ?_, fun q hq => ?_⟩
  · rcases wire_cells hc with rfl | rfl <;> simp [materialOf, wireVacuum, Assoc.find]
  · simp only [wire, List.mem_cons, List.not_mem_nil, or_false] at hq
    subst hq; simp
  · simp only [wire, List.mem_cons, List.not_mem_nil, or_false] at hq
    rcases hq with rfl | rfl <;> rfl

/-- One at the beginning of every segment, minus one at its end. -/
noncomputable def tooth : State (Fin 2 ⊕ Fin 2) ℝ := ez fun r => match r with | .inl i => ![1, -1] i | .inr i => ![1, -1] i

lemma tooth_only : OnlyEz wire (fun _ => 1 - 2 * X 0) tooth := by
  intro c hc f d
  split
  next hf =>
    obtain ⟨rfl, rfl⟩ := hf
    rcases wire_cells hc with rfl | rfl <;>
      simp [onElem, seg0, seg1, seg, Finset.sum_range_succ, linear, tooth, ez, Fin.ofNat] <;> ring
  next hf =>
    have : tooth f d = 0 := by unfold tooth ez; rw [if_neg hf]
    rw [this]; simp [onElem]

noncomputable def wireSeen : TimeStep.Setup :=
  ⟨1, [⟨.segment, 1, 1, [], [], [0, 1]⟩, ⟨.segment, 1, 1, [], [], [1, 2]⟩], []⟩

lemma wire_seen : SeenLine wireSeen wire := by
  refine ⟨rfl, by simp [wireSeen], fun el he => ?_⟩
  simp only [wireSeen, List.mem_cons, List.not_mem_nil, or_false] at he
  rcases he with rfl | rfl
  · exact ⟨⟨seg0, 1, eight, eight⟩, by simp [wire], by simp [seg0, seg]⟩
  · exact ⟨⟨seg1, 1, eight, eight⟩, by simp [wire], by simp [seg1, seg]; norm_num⟩

example : ∃ dt F A, TimeStep.estimateTimeStep (fun _ => []) wireSeen ⟨0, 1, 1, 0, .global, 1⟩ = .ok dt ∧ wire.fem wireVacuum = .ok F ∧
    (∀ u : State _ ℝ, A.mulVec (flat u) = flat (globalMult F.prob u)) ∧
    ∀ (q : Sdirk ℝ) (N : Nat) (c : ℝ), ∃ y y' : State _ ℝ,
      TimeInt.run q .rk4 (TimeInt.globalTdo A 0) (List.replicate N dt) (flat 0) 0 fresh = some (flat y, 0 + N * dt, fresh) ∧
      TimeInt.run q .rk4 (TimeInt.globalTdo A 0) (List.replicate N dt) (flat (0 + c • tooth)) 0 fresh = some (flat y', 0 + N * dt, fresh) ∧
      fieldEnergy wire wireVacuum (y' - y) = 961 ^ N * fieldEnergy wire wireVacuum (c • tooth) := by
  obtain ⟨dt, F, A, e, -, hF, hA, run⟩ := C158_violated_line wire_valid wire_materials wire_closed wire_even one_pos
    (by unfold TimeStep.dblMax; have : (1 : ℝ) ≤ 2 ^ 1023 := one_le_pow₀ (by norm_num); exact this.trans (le_mul_of_one_le_left (by positivity) (by norm_num))) wire_seen (fun _ => []) ⟨0, 1, 1, 0, .global, 1⟩ rfl tooth_only (by norm_num [wire])
  refine ⟨dt, F, A, e, hF, hA, fun q N c => ?_⟩
  obtain ⟨y, y', e1, e2, -, e3⟩ := run q 0 N c 0 0
  exact ⟨y, y', e1, e2, e3 rfl rfl⟩

end Dgtd.Galerkin.Case
