/-
C143: fields that meet the hypotheses, on the unit square cut along its diagonal with two materials and four boundaries.
-/
import Verif.Props.Polynomial
import Verif.Props.GalerkinMassCase

set_option linter.unusedSimpArgs false

namespace Dgtd.Galerkin.Case
open MvPolynomial Spec Dgtd.Op Dgtd.Op.Spec Dgtd.Implicit
open Dgtd.Config (Material)

lemma upper_ne : ¬ upper = lower := by
  intro h
  have := congrArg (fun e : Elem 1 (Fin 3 ⊕ Fin 3) ℝ => e.dof 0) h
  simp [upper, lower] at this

open Classical in
/-- `a` below the diagonal, `b` above. -/
noncomputable def parts (a b : FieldT → Dir → Poly 2 ℝ) : PField 1 (Fin 3 ⊕ Fin 3) := fun e => if e = lower then a else b

lemma parts_lower (a b : FieldT → Dir → Poly 2 ℝ) : parts a b lower = a := by simp [parts]

lemma parts_upper (a b : FieldT → Dir → Poly 2 ℝ) : parts a b upper = b := by simp [parts, upper_ne]

/-- Values at the corners. -/
def corners (a b : FieldT → Dir → Fin 3 → ℝ) : State (Fin 3 ⊕ Fin 3) ℝ := fun f d => Sum.elim (a f d) (b f d)

lemma carries_pair {a b : FieldT → Dir → Poly 2 ℝ} {va vb : FieldT → Dir → Fin 3 → ℝ}
    (ha : ∀ f d, C (va f d 0) * (1 - (X 0 + X 1)) + C (va f d 1) * X 0 + C (va f d 2) * X 1 = a f d)
    (hb : ∀ f d, C (vb f d 0) * (1 - (X 0 + X 1)) + C (vb f d 1) * X 0 + C (vb f d 2) * X 1 = bind₁ (fun d => 1 - X d) (b f d)) :
    Carries pairSetup (parts a b) (corners va vb) := by
  intro c hc f d
  simp only [pairSetup, List.mem_cons, List.not_mem_nil, or_false] at hc
  rcases hc with rfl | rfl
  · have : bind₁ lower.geom (a f d) = a f d := by change bind₁ X (a f d) = _; simp
    change onElem lower _ = bind₁ lower.geom (parts a b lower f d)
    rw [parts_lower, this, ← ha f d]
    simp [onElem, lower, Finset.sum_range_succ, linear, Fin.sum_univ_two, corners]; rfl
  · change onElem upper _ = bind₁ upper.geom (parts a b upper f d)
    rw [parts_upper]
    change _ = bind₁ (fun d => 1 - X d) (b f d)
    rw [← hb f d]
    simp [onElem, upper, Finset.sum_range_succ, linear, Fin.sum_univ_two, corners]; rfl

lemma normals : normal (⟨lower, none, 1⟩ : Side 1 (Fin 3 ⊕ Fin 3) ℝ) = [1, 1] ∧
    normal (outer lower 0).s1 = [-1, 0] ∧ normal (outer lower 1).s1 = [0, -1] ∧
    normal (outer upper 0).s1 = [1, 0] ∧ normal (outer upper 1).s1 = [0, 1] := by
  obtain ⟨b0, b1⟩ := bary1
  refine ⟨?_, ?_, ?_, ?_, ?_⟩ <;>
    simp [normal, refSide_jac, outer, loc, refNormal, finRange2, b0, b1, lower, upper, Elem.adj, Elem.jac, Matrix.adjugate_fin_two, pderiv_X, Side.jac, Side.restrict]

lemma unit_of {s : Side 1 (Fin 3 ⊕ Fin 3) ℝ} {a b : ℝ} (h : normal s = [C a, C b]) (x : Fin 1 → ℝ) :
    unitNormal s x 0 = a / √(a ^ 2 + b ^ 2) ∧ unitNormal s x 1 = b / √(a ^ 2 + b ^ 2) ∧ unitNormal s x 2 = 0 := by
  simp [unitNormal, h]

lemma cross_all {a b : Dir → ℝ} (h0 : a 1 * b 2 - a 2 * b 1 = 0) (h1 : a 2 * b 0 - a 0 * b 2 = 0) (h2 : a 0 * b 1 - a 1 * b 0 = 0) :
    ∀ d, cross a b d = 0 := by
  intro d
  fin_cases d
  · exact h0
  · exact h1
  · exact h2

lemma sma_all {ν e b : Dir → ℝ} (h0 : e 0 - ν 0 * (ν 0 * e 0 + ν 1 * e 1 + ν 2 * e 2) = b 1 * ν 2 - b 2 * ν 1)
    (h1 : e 1 - ν 1 * (ν 0 * e 0 + ν 1 * e 1 + ν 2 * e 2) = b 2 * ν 0 - b 0 * ν 2)
    (h2 : e 2 - ν 2 * (ν 0 * e 0 + ν 1 * e 1 + ν 2 * e 2) = b 0 * ν 1 - b 1 * ν 0) :
    ∀ d, e d - ν d * ∑ k, ν k * e k = cross b ν d := by
  intro d
  rw [Fin.sum_univ_three]
  fin_cases d
  · exact h0
  · exact h1
  · exact h2

lemma pair_admissible {a b : FieldT → Dir → Poly 2 ℝ}
    (h0 : ∀ t f, eval ![t, 1 - t] (a f 2) = eval ![t, 1 - t] (b f 2) ∧
      eval ![t, 1 - t] (a f 0) - eval ![t, 1 - t] (a f 1) = eval ![t, 1 - t] (b f 0) - eval ![t, 1 - t] (b f 1))
    (h1 : ∀ t, eval ![0, t] (a .E 1) = 0 ∧ eval ![0, t] (a .E 2) = 0)
    (h2 : ∀ t, eval ![t, 0] (a .E 0) = eval ![t, 0] (a .H 2) ∧ eval ![t, 0] (a .E 2) = -eval ![t, 0] (a .H 0))
    (h3 : ∀ t, eval ![1, t] (b .H 1) = 0 ∧ eval ![1, t] (b .H 2) = 0)
    (h4 : ∀ t, eval ![t, 1] (b .E 0) = 0 ∧ eval ![t, 1] (b .E 2) = 0) : Admissible pairSetup (parts a b) := by
  obtain ⟨b0, b1⟩ := bary1
  obtain ⟨n0, n1, n2, n3, n4⟩ := normals
  refine ⟨?_, ?_, ?_⟩
  · intro q hq _ x hx f d
    simp only [pairSetup, List.mem_cons, List.not_mem_nil, or_false] at hq
    subst hq
    have p1 : pos (⟨lower, none, 1⟩ : Side 1 (Fin 3 ⊕ Fin 3) ℝ) x = ![1 - x 0, 1 - (1 - x 0)] := by
      funext k; fin_cases k <;> simp [pos, Side.restrict, lower, loc, b0, b1]
    have p2 : pos (⟨upper, none, Equiv.swap 0 1⟩ : Side 1 (Fin 3 ⊕ Fin 3) ℝ) x = ![1 - x 0, 1 - (1 - x 0)] := by
      funext k; fin_cases k <;> simp [pos, Side.restrict, upper, loc, b0, b1]
    have h := h0 (1 - x 0) f
    obtain ⟨u0, u1, u2⟩ := unit_of (a := 1) (b := 1) (by rw [n0]; simp) x
    simp only [onSide, onOther, p1, p2, parts_lower, parts_upper]
    refine cross_all ?_ ?_ ?_ d
    · rw [u2, h.1]; ring
    · rw [u2, h.1]; ring
    · rw [u0, u1]
      linear_combination (1 / √(1 ^ 2 + 1 ^ 2)) * -h.2
  · intro q hq c hc
    simp only [pairSetup, List.mem_cons, List.not_mem_nil, or_false] at hq
    subst hq; simp at hc
  · intro q hq c hc x hx
    simp only [pairSetup, List.mem_cons, List.not_mem_nil, or_false] at hq
    rcases hq with rfl | rfl | rfl | rfl
    · obtain rfl := Option.some.inj hc
      obtain ⟨u0, u1, u2⟩ := unit_of (a := -1) (b := 0) (by rw [n1]; simp) x
      have p1 : pos (outer lower 0).s1 x = ![0, 1 - x 0] := by
        funext k; fin_cases k <;> simp [pos, Side.restrict, lower, outer, loc, b0, b1]
      have h := h1 (1 - x 0)
      have v : ∀ d, onSide (parts a b) (outer lower 0).s1 x .E d = eval ![0, 1 - x 0] (a .E d) := fun d => by
        rw [onSide, p1]; change eval _ (parts a b lower .E d) = _; rw [parts_lower]
      refine cross_all ?_ ?_ ?_
      · simp only [u0, u1, u2, v, h.1, h.2]; ring
      · simp only [u0, u1, u2, v, h.1, h.2]; ring
      · simp only [u0, u1, u2, v, h.1, h.2]; ring
    · obtain rfl := Option.some.inj hc
      obtain ⟨u0, u1, u2⟩ := unit_of (a := 0) (b := -1) (by rw [n2]; simp) x
      have p1 : pos (outer lower 1).s1 x = ![x 0, 0] := by
        funext k; fin_cases k <;> simp [pos, Side.restrict, lower, outer, loc, b0, b1]
      have h := h2 (x 0)
      have v : ∀ f d, onSide (parts a b) (outer lower 1).s1 x f d = eval ![x 0, 0] (a f d) := fun f d => by
        rw [onSide, p1]; change eval _ (parts a b lower f d) = _; rw [parts_lower]
      have u1 : unitNormal (outer lower 1).s1 x 1 = -1 := by rw [u1]; norm_num
      have u0 : unitNormal (outer lower 1).s1 x 0 = 0 := by rw [u0]; simp
      refine sma_all ?_ ?_ ?_
      · simp only [u0, u1, u2, v, h.1, h.2]; ring
      · simp only [u0, u1, u2, v, h.1, h.2]; ring
      · simp only [u0, u1, u2, v, h.1, h.2]; ring
    · obtain rfl := Option.some.inj hc
      obtain ⟨u0, u1, u2⟩ := unit_of (a := 1) (b := 0) (by rw [n3]; simp) x
      have p1 : pos (outer upper 0).s1 x = ![1, x 0] := by
        funext k; fin_cases k <;> simp [pos, Side.restrict, upper, outer, loc, b0, b1]
      have h := h3 (x 0)
      have v : ∀ d, onSide (parts a b) (outer upper 0).s1 x .H d = eval ![1, x 0] (b .H d) := fun d => by
        rw [onSide, p1]; change eval _ (parts a b upper .H d) = _; rw [parts_upper]
      refine cross_all ?_ ?_ ?_
      · simp only [u0, u1, u2, v, h.1, h.2]; ring
      · simp only [u0, u1, u2, v, h.1, h.2]; ring
      · simp only [u0, u1, u2, v, h.1, h.2]; ring
    · obtain rfl := Option.some.inj hc
      obtain ⟨u0, u1, u2⟩ := unit_of (a := 0) (b := 1) (by rw [n4]; simp) x
      have p1 : pos (outer upper 1).s1 x = ![1 - x 0, 1] := by
        funext k; fin_cases k <;> simp [pos, Side.restrict, upper, outer, loc, b0, b1]
      have h := h4 (1 - x 0)
      have v : ∀ d, onSide (parts a b) (outer upper 1).s1 x .E d = eval ![1 - x 0, 1] (b .E d) := fun d => by
        rw [onSide, p1]; change eval _ (parts a b upper .E d) = _; rw [parts_upper]
      refine cross_all ?_ ?_ ?_
      · simp only [u0, u1, u2, v, h.1, h.2]; ring
      · simp only [u0, u1, u2, v, h.1, h.2]; ring
      · simp only [u0, u1, u2, v, h.1, h.2]; ring

lemma maxwell_pair {a b ra rb : FieldT → Dir → Poly 2 ℝ}
    (ha : ∀ d, ra .E d = curl (a .H) d ∧ ra .H d = -curl (a .E) d)
    (hb : ∀ d, C 4 * rb .E d = curl (b .H) d - C 3 * b .E d ∧ C 2 * rb .H d = -curl (b .E) d) :
    Maxwell pairSetup pairMaterials (parts a b) (parts ra rb) := by
  intro c hc d
  simp only [pairSetup, List.mem_cons, List.not_mem_nil, or_false] at hc
  rcases hc with rfl | rfl
  · have : materialOf pairMaterials (⟨lower, 1, midpoints, midpoints⟩ : Cell 1 (Fin 3 ⊕ Fin 3)) = ⟨1, 1, 0⟩ := by
      simp [materialOf, pairMaterials, Assoc.find]
    rw [this]
    simp only [parts_lower, map_one, map_zero]
    exact ⟨by rw [(ha d).1]; ring, by rw [(ha d).2]; ring⟩
  · have : materialOf pairMaterials (⟨upper, 3, midpoints, midpoints⟩ : Cell 1 (Fin 3 ⊕ Fin 3)) = ⟨4, 2, 3⟩ := by
      simp [materialOf, pairMaterials, Assoc.find]
    rw [this]
    simp only [parts_upper]
    exact hb d

/-! A field that changes: the electric field is `x` below the diagonal and `1 - y` above, along `z`; the magnetic field is `-x` along `x`. -/

noncomputable def qa : FieldT → Dir → Poly 2 ℝ
  | .E => ![0, 0, X 0]
  | .H => ![-X 0, 0, 0]
noncomputable def qb : FieldT → Dir → Poly 2 ℝ
  | .E => ![0, 0, 1 - X 1]
  | .H => ![-X 0, 0, 0]
noncomputable def ra : FieldT → Dir → Poly 2 ℝ
  | .E => ![0, 0, 0]
  | .H => ![0, 1, 0]
noncomputable def rb : FieldT → Dir → Poly 2 ℝ
  | .E => ![0, 0, -(C (3 / 4) * (1 - X 1))]
  | .H => ![C (1 / 2), 0, 0]

lemma q_admissible : Admissible pairSetup (parts qa qb) := by
  refine pair_admissible ?_ ?_ ?_ ?_ ?_
  · intro t f; cases f <;> simp [qa, qb]
  all_goals intro t; simp [qa, qb]

lemma q_maxwell : Maxwell pairSetup pairMaterials (parts qa qb) (parts ra rb) := by
  refine maxwell_pair ?_ ?_
  · intro d; fin_cases d <;> simp [qa, ra, curl, ddx, pderiv_X]
  · intro d; fin_cases d <;> simp [qb, rb, curl, ddx, pderiv_X]
    · rw [← C_mul]; norm_num
    · rw [← mul_assoc, ← C_mul]; norm_num

noncomputable def uq : State (Fin 3 ⊕ Fin 3) ℝ := corners
  (fun | .E => ![![0, 0, 0], ![0, 0, 0], ![0, 1, 0]] | .H => ![![0, -1, 0], ![0, 0, 0], ![0, 0, 0]])
  (fun | .E => ![![0, 0, 0], ![0, 0, 0], ![0, 0, 1]] | .H => ![![-1, 0, -1], ![0, 0, 0], ![0, 0, 0]])
noncomputable def ur : State (Fin 3 ⊕ Fin 3) ℝ := corners
  (fun | .E => ![![0, 0, 0], ![0, 0, 0], ![0, 0, 0]] | .H => ![![0, 0, 0], ![1, 1, 1], ![0, 0, 0]])
  (fun | .E => ![![0, 0, 0], ![0, 0, 0], ![0, 0, -(3 / 4)]] | .H => ![![1 / 2, 1 / 2, 1 / 2], ![0, 0, 0], ![0, 0, 0]])

lemma carries_q : Carries pairSetup (parts qa qb) uq := by
  refine carries_pair ?_ ?_
  · intro f d; cases f <;> fin_cases d <;> simp [qa]
  · intro f d; cases f <;> fin_cases d <;> simp [qb]
    ring

lemma carries_r : Carries pairSetup (parts ra rb) ur := by
  refine carries_pair ?_ ?_
  · intro f d; cases f <;> fin_cases d <;> simp [ra]
    ring
  · intro f d; cases f <;> fin_cases d <;> simp [rb]
    ring

example : ∃ F, pairSetup.fem pairMaterials = .ok F ∧ globalMult F.prob uq = ur :=
  C143_exact pair_valid _ pair_materials _ _ _ _ carries_q carries_r q_maxwell q_admissible

/-! A static field: no electric field, magnetic field `(y, x - 1, 0)`. -/

noncomputable def qs : FieldT → Dir → Poly 2 ℝ
  | .E => ![0, 0, 0]
  | .H => ![X 1, X 0 - 1, 0]

noncomputable def us : State (Fin 3 ⊕ Fin 3) ℝ := corners
  (fun | .E => ![![0, 0, 0], ![0, 0, 0], ![0, 0, 0]] | .H => ![![0, 0, 1], ![-1, 0, -1], ![0, 0, 0]])
  (fun | .E => ![![0, 0, 0], ![0, 0, 0], ![0, 0, 0]] | .H => ![![1, 1, 0], ![0, -1, 0], ![0, 0, 0]])

lemma static_admissible : Admissible pairSetup (parts qs qs) := by
  refine pair_admissible ?_ ?_ ?_ ?_ ?_
  · intro t f; cases f <;> simp [qs]
  all_goals intro t; simp [qs]

lemma static_maxwell : Maxwell pairSetup pairMaterials (parts qs qs) 0 := by
  have : (0 : PField 1 (Fin 3 ⊕ Fin 3)) = parts 0 0 := by funext e; simp [parts]
  rw [this]
  refine maxwell_pair ?_ ?_
  · intro d; fin_cases d <;> simp [qs, curl, ddx, pderiv_X]
  · intro d; fin_cases d <;> simp [qs, curl, ddx, pderiv_X]

lemma carries_s : Carries pairSetup (parts qs qs) us := by
  refine carries_pair ?_ ?_
  · intro f d; cases f <;> fin_cases d <;> simp [qs]
    ring
  · intro f d; cases f <;> fin_cases d <;> simp [qs]
    ring

example := C143_static pair_valid _ pair_materials zero_le_one pair_weights _ _ carries_s static_maxwell static_admissible

example : us .H 0 (.inr 1) = 1 := by simp [us, corners]

end Dgtd.Galerkin.Case
