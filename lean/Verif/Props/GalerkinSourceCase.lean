/-
C153: a case that meets the hypotheses: a standing wave injected into one half of a square cavity, without scatterer.
-/
import Verif.Props.GalerkinSourceImplicit
import Verif.Props.ConvergenceCase

set_option linter.unusedSimpArgs false

namespace Dgtd.Galerkin.Case
open MvPolynomial Spec Dgtd.Op Dgtd.Op.Spec Dgtd.Implicit
open Dgtd.Config (Material)
open scoped ContDiff

open Classical in
/-- The total field is below the diagonal. -/
noncomputable def below (e : Elem 1 (Fin 3 ⊕ Fin 3) ℝ) : Bool := decide (e = lower)

lemma below_lower : below lower = true := by simp [below]

lemma below_upper : below upper = false := by simp [below, upper_ne]

/-- The wave: the mode of the cavity. -/
noncomputable def standing : Wave 1 := mode lower

lemma incident_standing (f : FieldT) (d : Dir) (z : Event 2) : incident [standing] f d z = mode lower f d z := by simp [incident, standing]

/-- Without scatterer: the wave below the diagonal, nothing above. -/
lemma stored_lower : stored below mode [standing] lower = mode lower := by
  funext f d z; simp [stored, below_lower]

lemma stored_upper : stored below mode [standing] upper = fun _ _ => 0 := by
  funext f d z
  unfold stored
  rw [if_neg (by rw [below_upper]; simp), incident_standing]
  exact sub_self _

lemma dxs_zero (l : List (Fin 2)) : dxs l (0 : Event 2 → ℝ) = 0 := by
  induction l with
  | nil => rfl
  | cons i l ih => change dx i (dxs l 0) = 0; rw [ih, dx_zero]

lemma marked_surface : Surface cavity (fun _ => true) [.inl 0, .inl 1, .inl 2, .inr 0, .inr 1, .inr 2] (some [.inr 0, .inr 1, .inr 2]) below := by
  refine ⟨?_, ?_, ?_⟩
  · intro q hq _
    simp only [cavity, pairSetup, List.mem_cons, List.not_mem_nil, or_false] at hq
    subst hq; rfl
  · intro q hq _ s hs
    simp only [cavity, pairSetup, List.mem_cons, List.not_mem_nil, or_false] at hq
    subst hq
    obtain rfl : s = ⟨upper, none, Equiv.swap 0 1⟩ := by simpa using hs.symm
    change true = true ↔ below lower ≠ below upper
    rw [below_lower, below_upper]; simp
  · intro q hq _ e he i hi
    simp only [cavity, pairSetup, List.mem_cons, List.not_mem_nil, or_false] at hq
    subst hq
    rcases he with rfl | ⟨s, hs, rfl⟩
    · change lower.dof i ∈ _ ∧ (lower.dof i ∈ _ ↔ below lower = false)
      rw [below_lower]
      have hi : i < 3 := hi
      interval_cases i <;> simp [lower] <;> decide
    · obtain rfl : s = ⟨upper, none, Equiv.swap 0 1⟩ := by simpa using hs.symm
      change upper.dof i ∈ _ ∧ (upper.dof i ∈ _ ↔ below upper = false)
      rw [below_upper]
      have hi : i < 3 := hi
      interval_cases i <;> simp [upper] <;> decide

lemma cavity_scatters (T : ℝ) : ∃ B, Scatters cavity vacuum 1 2 1 1 1 1 B T below mode [standing] corner3 := by
  obtain ⟨B, r⟩ := cavity_resolves T
  obtain ⟨b0, b1⟩ := bary1
  have zero : ∀ {v : Dir → ℝ} {ν : Dir → ℝ}, (∀ d, v d = 0) → ∀ d, cross ν v d = 0 := fun h d => by simp [cross, h]
  refine ⟨B, r.mesh, r.materials, r.between, r.fine, r.small, r.nodal, r.solves, ?_, ?_, r.fits.inner, ?_, ?_, ?_, ?_, r.bound⟩
  · intro w hw
    obtain rfl : w = standing := by simpa using hw
    refine ⟨fun f d => mode_smooth lower f d, ?_, ?_⟩
    · intro c hc _ t h0 hT y hy d
      exact r.solves.electric c hc t h0 hT y hy d
    · intro c hc _ t h0 hT y hy d
      exact r.solves.magnetic c hc t h0 hT y hy d
  · intro q hq s hs x
    simp only [cavity, pairSetup, List.mem_cons, List.not_mem_nil, or_false] at hq
    subst hq
    obtain rfl : s = ⟨upper, none, Equiv.swap 0 1⟩ := by simpa using hs.symm
    funext k
    fin_cases k <;> simp [pos, Side.restrict, lower, upper, loc, b0, b1]
  · intro q hq c hc
    simp only [cavity, pairSetup, List.mem_cons, List.not_mem_nil, or_false] at hq
    subst hq; simp at hc
  · intro q hq c hc t h0 hT x hx
    have ho := r.fits.outer q hq c hc t h0 hT x hx
    simp only [cavity, List.mem_cons, List.not_mem_nil, or_false] at hq
    have el : ∀ k f d, beside (stored below mode [standing]) t (outer lower k).s1 x f d = beside mode t (outer lower k).s1 x f d := fun k f d => by
      unfold beside
      change stored below mode [standing] lower f d _ = _
      rw [stored_lower]; rfl
    have eu : ∀ k f d, beside (stored below mode [standing]) t (outer upper k).s1 x f d = 0 := fun k f d => by
      unfold beside
      change stored below mode [standing] upper f d _ = _
      rw [stored_upper]; rfl
    rcases hq with rfl | rfl | rfl | rfl
    · obtain rfl := Option.some.inj hc
      intro d
      have := ho d
      simp only [cross] at this ⊢
      simpa only [el] using this
    · obtain rfl := Option.some.inj hc
      intro d
      have := ho d
      simp only [cross] at this ⊢
      simpa only [el] using this
    · obtain rfl := Option.some.inj hc
      exact zero fun d => eu 0 .E d
    · obtain rfl := Option.some.inj hc
      exact zero fun d => eu 1 .E d
  · intro c hc t h0 hT y hy f d l hl
    have hb := r.bounded c hc t h0 hT y hy f d l hl
    rcases cavity_cells hc with rfl | rfl
    · change |dxs l (stored below mode [standing] lower f d) (t, y)| ≤ B ∧ |dxs l (dt (stored below mode [standing] lower f d)) (t, y)| ≤ B
      rw [stored_lower]; exact hb
    · change |dxs l (stored below mode [standing] upper f d) (t, y)| ≤ B ∧ |dxs l (dt (stored below mode [standing] upper f d)) (t, y)| ≤ B
      rw [stored_upper, dt_zero, dxs_zero]
      simpa using r.bound
  · intro c hc t h0 hT y hy f d l hl
    have e : incident [standing] f d = mode c.e f d := by funext z; rw [incident_standing]; rfl
    change |dxs l (incident [standing] f d) (t, y)| ≤ B ∧ |dxs l (dt (incident [standing] f d)) (t, y)| ≤ B
    rw [e]
    exact r.bounded c hc t h0 hT y hy f d l hl

/-- The wave at the nodes. -/
noncomputable def standingNodes (t : ℝ) : State (Fin 3 ⊕ Fin 3) ℝ := fun f d => Sum.elim
  (fun i => mode lower f d (t, fun k => eval (corner3 lower i.val) (lower.geom k)))
  (fun i => mode lower f d (t, fun k => eval (corner3 upper i.val) (upper.geom k)))

lemma standing_sampled (t : ℝ) : SampledWaves cavity corner3 [standing] t [standingNodes t] := by
  refine List.Forall₂.cons ?_ List.Forall₂.nil
  intro c hc i hi f d
  rcases cavity_cells hc with rfl | rfl
  · have hi : i < 3 := hi
    interval_cases i <;> simp [standingNodes, standing, lower]
  · have hi : i < 3 := hi
    interval_cases i <;> simp [standingNodes, standing, upper]

example (T : ℝ) : ∃ K B, 0 ≤ K ∧ ∃ P C, cavity.fem vacuum = .ok P ∧
    C = cavity.source P (fun _ => true) [.inl 0, .inl 1, .inl 2, .inr 0, .inr 1, .inr 2] (some [.inr 0, .inr 1, .inr 2]) ∧
    ∀ u : ℝ → State (Fin 3 ⊕ Fin 3) ℝ,
      (∀ t f d i, HasDerivAt (fun t => u t f d i)
        (globalMult P.prob (u t) f d i - applyBlocks (sourceBlocks C C.tfFaces) (sourceField C [standingNodes t]) f d i) t) →
      Sampled cavity corner3 (stored below mode [standing]) 0 (u 0) → ∀ t, 0 ≤ t → t ≤ T → ∀ z,
        Sampled cavity corner3 (stored below mode [standing]) t z →
        fieldEnergy cavity vacuum (u t - z) ≤ (K * (1 + t) * B * 1 ^ 1) ^ 2 * volume cavity := by
  obtain ⟨K, hK, h⟩ := C153_solution 1 1 2 1 1 1 1 one_pos le_rfl zero_le_one zero_le_one
  obtain ⟨B, hB⟩ := cavity_scatters T
  obtain ⟨P, C, h1, h2, h3⟩ := h _ cavity vacuum 1 B T below mode [standing] corner3 _ _ _ rfl hB marked_surface
  exact ⟨K, B, hK, P, C, h1, h2, h3 (fun t => [standingNodes t]) standing_sampled⟩

example (T : ℝ) (q : Sdirk ℝ) (hq : TimeInt.Spec.Ideal33 q) (x : State (Fin 3 ⊕ Fin 3) ℝ)
    (hx : Sampled cavity corner3 (stored below mode [standing]) 0 x) : ∃ K B c P, ∃ A : Matrix (Slot (Fin 3 ⊕ Fin 3)) (Slot (Fin 3 ⊕ Fin 3)) ℝ, ∃ Ct,
    ∀ (H : ℝ) (dts : List ℝ), 0 ≤ H → H ≤ 1 → (∀ dt ∈ dts, 0 ≤ dt ∧ dt ≤ H) → dts.sum ≤ T →
      ∃ y s, TimeInt.run q .sdirk33 (TimeInt.globalTdo A fun t => flat (sourceTerm (cavity.source P (fun _ => true)
          [.inl 0, .inl 1, .inl 2, .inr 0, .inr 1, .inr 2] (some [.inr 0, .inr 1, .inr 2])) [standingNodes t])) dts (flat x) 0 fresh =
          some (flat y, dts.sum, s) ∧
        ∀ z, Sampled cavity corner3 (stored below mode [standing]) dts.sum z →
          √(fieldEnergy cavity vacuum (y - z)) ≤ K * (1 + dts.sum) * √(volume cavity) * (B * 1 ^ 1) + (Ct * H ^ 3 + c * dts.sum / 100000000) := by
  obtain ⟨K, hK, h⟩ := C153_implicit 1 1 2 1 1 1 1 one_pos le_rfl zero_le_one zero_le_one
  obtain ⟨B, hB⟩ := cavity_scatters T
  obtain ⟨P, c, h1, h2, h3⟩ := h _ cavity vacuum 1 B T below mode [standing] corner3 _ _ _ rfl hB marked_surface
  obtain ⟨A, hA⟩ := exists_matrix P.prob
  obtain ⟨Ct, hCt⟩ := h3 A hA (fun t => [standingNodes t]) standing_sampled x hx q hq .sdirk33 (by simp)
  exact ⟨K, B, c, P, A, Ct, hCt⟩

end Dgtd.Galerkin.Case
