/-
Mass matrices: positive, inverted element by element; normals of valid elements.
-/
import Verif.Lemmas.Galerkin
import Verif.Lemmas.SimplexReal
import Verif.Spec.GalerkinMass
import Mathlib.Algebra.MvPolynomial.Funext
import Mathlib.LinearAlgebra.Matrix.ToLin

set_option linter.unusedSectionVars false

namespace Dgtd.Galerkin
open MvPolynomial Spec Dgtd.Op Dgtd.Op.Spec intervalIntegral

/-! ### positive integrals -/

lemma exists_point {D : Nat} (q : Poly D ℝ) (hq : q ≠ 0) : ∃ x : Fin D → ℝ, (∀ i, 0 < x i ∧ x i < 1 / 4) ∧ eval x q ≠ 0 := by
  by_contra h
  push Not at h
  refine hq (funext_set (fun _ => Set.Ioo (0 : ℝ) (1 / 4)) (fun _ => Set.Ioo_infinite (by norm_num)) fun x hx => ?_)
  rw [map_zero]
  exact h x fun i => hx i (Set.mem_univ i)

lemma seg_pos {f : ℝ → ℝ} {b : ℝ} (hf : Continuous f) (h0 : ∀ x, 0 ≤ x → x ≤ b → 0 ≤ f x) {c : ℝ} (hc : 0 ≤ c) (hcb : c ≤ b) (hb : 0 < b)
    (hp : 0 < f c) : 0 < ∫ x in (0 : ℝ)..b, f x := by
  have := integral_lt_integral_of_continuousOn_of_le_of_exists_lt (f := fun _ => (0 : ℝ)) hb continuousOn_const hf.continuousOn
    (fun x hx => h0 x hx.1.le hx.2) ⟨c, ⟨hc, hcb⟩, hp⟩
  simpa using this

lemma pos_zero (q : Poly 0 ℝ) (hq : q ≠ 0) (h : ∀ x, InSimplex x → 0 ≤ eval x q) : 0 < integral 0 q := by
  obtain ⟨x, -, hx⟩ := exists_point q hq
  rw [integral_zero_eq]
  have e : x = fun i => i.elim0 := funext fun i => i.elim0
  rw [← e]
  exact lt_of_le_of_ne (h x ⟨fun i => i.elim0, by simp⟩) hx.symm

lemma pos_one (q : Poly 1 ℝ) (hq : q ≠ 0) (h : ∀ x, InSimplex x → 0 ≤ eval x q) : 0 < integral 1 q := by
  obtain ⟨x, hb, hx⟩ := exists_point q hq
  rw [integral_one_eq]
  have e : x = ![x 0] := by funext i; fin_cases i; rfl
  have hs : ∀ a : ℝ, 0 ≤ a → a ≤ 1 → InSimplex ![a] := fun a h0 h1 => ⟨fun i => by fin_cases i; exact h0, by simpa using h1⟩
  have hc : Continuous fun a : ℝ => eval ![a] q :=
    (MvPolynomial.continuous_eval q).comp (continuous_pi fun i => by fin_cases i; exact continuous_id)
  have b0 := hb 0
  refine seg_pos hc (fun a h0 h1 => h _ (hs a h0 h1)) b0.1.le (by linarith) one_pos ?_
  have : 0 ≤ eval x q := h x (by rw [e]; exact hs _ b0.1.le (by linarith))
  rw [← e]
  exact lt_of_le_of_ne this hx.symm

lemma tri_pos (F : ℝ → ℝ → ℝ) (hc : Continuous (Function.uncurry F)) (h : ∀ a b, 0 ≤ a → 0 ≤ b → b ≤ 1 - a → 0 ≤ F a b) {a b : ℝ}
    (ha : 0 ≤ a) (ha1 : a < 1 / 4) (hb : 0 ≤ b) (hb1 : b < 1 / 4) (hp : 0 < F a b) : 0 < ∫ x in (0 : ℝ)..1, ∫ y in (0 : ℝ)..(1 - x), F x y := by
  have c1 : Continuous fun x : ℝ => ∫ y in (0 : ℝ)..(1 - x), F x y :=
    continuous_parametric_intervalIntegral_of_continuous hc (by fun_prop)
  have c2 : Continuous fun y : ℝ => F a y := hc.comp (by fun_prop : Continuous fun y : ℝ => (a, y))
  have i1 : 0 < ∫ y in (0 : ℝ)..(1 - a), F a y := seg_pos c2 (fun y h0 h1 => h a y ha h0 h1) hb (by linarith) (by linarith) hp
  exact seg_pos c1 (fun x h0 h1 => integral_nonneg (by linarith) fun y hy => h x y h0 hy.1 hy.2) ha (by linarith) one_pos i1

lemma tet_pos (F : ℝ → ℝ → ℝ → ℝ) (hc : Continuous (Function.uncurry fun (w : ℝ × ℝ) (z : ℝ) => F w.1 w.2 z))
    (h : ∀ a b c, 0 ≤ a → 0 ≤ b → 0 ≤ c → c ≤ 1 - a - b → 0 ≤ F a b c) {a b c : ℝ} (ha : 0 ≤ a) (ha1 : a < 1 / 4) (hb : 0 ≤ b)
    (hb1 : b < 1 / 4) (hc0 : 0 ≤ c) (hc1 : c < 1 / 4) (hp : 0 < F a b c) :
    0 < ∫ x in (0 : ℝ)..1, ∫ y in (0 : ℝ)..(1 - x), ∫ z in (0 : ℝ)..(1 - x - y), F x y z := by
  have hm : Continuous (Function.uncurry fun x y : ℝ => ∫ z in (0 : ℝ)..(1 - x - y), F x y z) :=
    continuous_parametric_intervalIntegral_of_continuous (f := fun (w : ℝ × ℝ) (z : ℝ) => F w.1 w.2 z) hc
      (s := fun w => 1 - w.1 - w.2) (by fun_prop)
  have c3 : Continuous fun z : ℝ => F a b z := hc.comp (by fun_prop : Continuous fun z : ℝ => ((a, b), z))
  have i1 : 0 < ∫ z in (0 : ℝ)..(1 - a - b), F a b z := seg_pos c3 (fun z h0 h1 => h a b z ha hb h0 h1) hc0 (by linarith) (by linarith) hp
  exact tri_pos (fun x y => ∫ z in (0 : ℝ)..(1 - x - y), F x y z) hm
    (fun x y h0 h1 h2 => integral_nonneg (by linarith) fun z hz => h x y z h0 h1 hz.1 hz.2) ha ha1 hb hb1 i1

lemma pos_two (q : Poly 2 ℝ) (hq : q ≠ 0) (h : ∀ x, InSimplex x → 0 ≤ eval x q) : 0 < integral 2 q := by
  obtain ⟨x, hb, hx⟩ := exists_point q hq
  have e : ![x 0, x 1] = x := by funext i; fin_cases i <;> rfl
  have hs : ∀ a b : ℝ, 0 ≤ a → 0 ≤ b → b ≤ 1 - a → InSimplex ![a, b] := fun a b h0 h1 h2 =>
    ⟨fun i => by fin_cases i; exacts [h0, h1], by rw [Fin.sum_univ_two]; change a + b ≤ 1; linarith⟩
  have hc : Continuous (Function.uncurry fun x y : ℝ => eval ![x, y] q) :=
    (MvPolynomial.continuous_eval q).comp (continuous_pi fun i => by
      fin_cases i
      · exact continuous_fst
      · exact continuous_snd)
  have b0 := hb 0
  have b1 := hb 1
  have hp : 0 ≤ eval ![x 0, x 1] q := h _ (hs _ _ b0.1.le b1.1.le (by linarith))
  rw [integral_two_eq]
  exact tri_pos (fun x y => eval ![x, y] q) hc (fun a b h0 h1 h2 => h _ (hs a b h0 h1 h2)) b0.1.le b0.2 b1.1.le b1.2
    (lt_of_le_of_ne hp (by rw [e]; exact hx.symm))

lemma pos_three (q : Poly 3 ℝ) (hq : q ≠ 0) (h : ∀ x, InSimplex x → 0 ≤ eval x q) : 0 < integral 3 q := by
  obtain ⟨x, hb, hx⟩ := exists_point q hq
  have e : ![x 0, x 1, x 2] = x := by funext i; fin_cases i <;> rfl
  have hs : ∀ a b c : ℝ, 0 ≤ a → 0 ≤ b → 0 ≤ c → c ≤ 1 - a - b → InSimplex ![a, b, c] := fun a b c h0 h1 h2 h3 =>
    ⟨fun i => by fin_cases i; exacts [h0, h1, h2], by rw [Fin.sum_univ_three]; change a + b + c ≤ 1; linarith⟩
  have hc : Continuous (Function.uncurry fun (w : ℝ × ℝ) (z : ℝ) => eval ![w.1, w.2, z] q) :=
    (MvPolynomial.continuous_eval q).comp (continuous_pi fun i => by
      fin_cases i
      · exact continuous_fst.fst
      · exact continuous_fst.snd
      · exact continuous_snd)
  have b0 := hb 0
  have b1 := hb 1
  have b2 := hb 2
  have hp : 0 ≤ eval ![x 0, x 1, x 2] q := h _ (hs _ _ _ b0.1.le b1.1.le b2.1.le (by linarith))
  rw [integral_three_eq]
  exact tet_pos (fun x y z => eval ![x, y, z] q) hc (fun a b c h0 h1 h2 h3 => h _ (hs a b c h0 h1 h2 h3)) b0.1.le b0.2 b1.1.le b1.2
    b2.1.le b2.2 (lt_of_le_of_ne hp (by rw [e]; exact hx.symm))

/-- A polynomial that is not zero and nowhere negative on the simplex has a positive integral. -/
lemma integral_pos : ∀ {D : Nat} (_ : D ≤ 3) (q : Poly D ℝ) (_ : q ≠ 0) (_ : ∀ x, InSimplex x → 0 ≤ eval x q), 0 < integral D q
  | 0, _, q, hq, h => pos_zero q hq h
  | 1, _, q, hq, h => pos_one q hq h
  | 2, _, q, hq, h => pos_two q hq h
  | 3, _, q, hq, h => pos_three q hq h

/-! ### matrices of the elements -/

variable {n : Nat} {ι : Type}

lemma degree_det {m : Nat} : ∀ {n : Nat} (_ : n < 3) (e : Elem n ι ℝ) (_ : ∀ d, (e.geom d).totalDegree ≤ m),
    e.jac.det.totalDegree ≤ orderW .Pk (n + 1) m := by
  intro n hn e h
  have hd : e.jac.det = ∑ k, e.jac 0 k * e.adj k 0 := by
    have := congrFun (congrFun (Matrix.mul_adjugate e.jac) 0) 0
    rw [Matrix.mul_apply] at this
    simp only [Matrix.smul_apply, Matrix.one_apply_eq, smul_eq_mul, mul_one] at this
    exact this.symm
  rw [hd]
  refine degree_sum_le fun k _ => (degree_mul_le (degree_jac e h 0 k) (degree_adj hn e h k 0)).trans ?_
  simp only [orderW]
  exact le_of_eq (by ring)

/-- The function on an element with local coefficients `a`. -/
noncomputable def local' (e : Elem n ι ℝ) (a : Fin e.size → ℝ) : Poly (n + 1) ℝ := ∑ i, C (a i) * e.shape i

lemma local_degree {p : Nat} (e : Elem n ι ℝ) (h : ∀ i, (e.shape i).totalDegree ≤ p) (a : Fin e.size → ℝ) : (local' e a).totalDegree ≤ p :=
  degree_sum_le fun i _ => by simpa using degree_mul_le (a := 0) (by simp) (h i)

lemma list_sum_swap {α β : Type} [Fintype β] (l : List α) (f : α → β → ℝ) : (∑ i, (l.map fun q => f q i).sum) = (l.map fun q => ∑ i, f q i).sum := by
  induction l with
  | nil => simp
  | cons q l ih => simp only [List.map_cons, List.sum_cons, Finset.sum_add_distrib, ih]

lemma mass_quad (c : Cell n ι) (s : ℝ) (a b : Fin c.e.size → ℝ) :
    a ⬝ᵥ (massElem c s).mulVec b = s * (c.mass.map fun q => q.1 * eval q.2 (local' c.e a * local' c.e b * c.e.jac.det)).sum := by
  simp only [dotProduct, Matrix.mulVec, massElem]
  have : ∀ i, a i * ∑ j : Fin c.e.size, (c.mass.map fun q => q.1 * eval q.2 c.e.jac.det * s * (eval q.2 (c.e.shape i) * eval q.2 (c.e.shape j))).sum * b j =
      (c.mass.map fun q => ∑ j : Fin c.e.size, a i * (q.1 * eval q.2 c.e.jac.det * s * (eval q.2 (c.e.shape i) * eval q.2 (c.e.shape j)) * b j)).sum := by
    intro i
    rw [Finset.mul_sum, ← list_sum_swap]
    refine Finset.sum_congr rfl fun j _ => ?_
    rw [← List.sum_map_mul_right, ← List.sum_map_mul_left]
  rw [Finset.sum_congr rfl fun i _ => this i, list_sum_swap, ← List.sum_map_mul_left]
  congr 1
  refine List.map_congr_left fun q _ => ?_
  simp only [map_mul, local', map_sum, eval_C]
  rw [Finset.sum_mul_sum, Finset.sum_mul, Finset.mul_sum, Finset.mul_sum]
  refine Finset.sum_congr rfl fun i _ => ?_
  rw [Finset.sum_mul, Finset.mul_sum, Finset.mul_sum]
  refine Finset.sum_congr rfl fun j _ => by ring

lemma mass_exact {p m : Nat} (hn : n < 3) (c : Cell n ι) (hg : ∀ d, (c.e.geom d).totalDegree ≤ m) (hs : ∀ i, (c.e.shape i).totalDegree ≤ p)
    (hx : Exact (massOrder p (orderW .Pk (n + 1) m)) c.mass) (s : ℝ) (a b : Fin c.e.size → ℝ) :
    a ⬝ᵥ (massElem c s).mulVec b = s * integral (n + 1) (local' c.e a * local' c.e b * c.e.jac.det) := by
  rw [mass_quad, hx]
  exact degree_mul_le (degree_mul_le (local_degree c.e hs a) (local_degree c.e hs b)) (degree_det hn c.e hg)

lemma mass_pos (hn : n < 3) (c : Cell n ι) (hj : ∀ x, InSimplex x → 0 < eval x c.e.jac.det)
    (q : Poly (n + 1) ℝ) (hq : q ≠ 0) : 0 < integral (n + 1) (q * q * c.e.jac.det) := by
  refine integral_pos (by omega) _ ?_ fun x h => ?_
  · refine mul_ne_zero (mul_ne_zero hq hq) fun h0 => ?_
    have := hj 0 ⟨fun _ => le_rfl, by simp⟩
    rw [h0, map_zero] at this
    exact lt_irrefl _ this
  · rw [map_mul, map_mul]
    exact mul_nonneg (mul_self_nonneg _) (hj x h).le

lemma local_ne {c : Cell n ι} (hi : ∀ a : Nat → ℝ, ∑ i ∈ Finset.range c.e.size, C (a i) * c.e.shape i = 0 → ∀ i < c.e.size, a i = 0)
    {a : Fin c.e.size → ℝ} (ha : a ≠ 0) : local' c.e a ≠ 0 := by
  intro h
  refine ha (funext fun i => ?_)
  have := hi (fun k => if hk : k < c.e.size then a ⟨k, hk⟩ else 0) (by
    rw [Finset.sum_range, ← h]
    exact Finset.sum_congr rfl fun i _ => by simp) i i.2
  simpa using this

lemma mass_inv {p m : Nat} (hn : n < 3) (c : Cell n ι) (hg : ∀ d, (c.e.geom d).totalDegree ≤ m) (hs : ∀ i, (c.e.shape i).totalDegree ≤ p)
    (hx : Exact (massOrder p (orderW .Pk (n + 1) m)) c.mass) (hj : ∀ x, InSimplex x → 0 < eval x c.e.jac.det)
    (hi : ∀ a : Nat → ℝ, ∑ i ∈ Finset.range c.e.size, C (a i) * c.e.shape i = 0 → ∀ i < c.e.size, a i = 0) {s : ℝ} (h : 0 < s) :
    massElem c s * (massElem c s)⁻¹ = 1 := by
  refine Matrix.mul_nonsing_inv _ ((Matrix.isUnit_iff_isUnit_det _).1 (Matrix.mulVec_injective_iff_isUnit.1 fun a b hab => ?_))
  by_contra hne
  have hq := mass_exact hn c hg hs hx s (a - b) (a - b)
  have : (massElem c s).mulVec (a - b) = 0 := by rw [Matrix.mulVec_sub]; exact sub_eq_zero.2 hab
  rw [this, dotProduct_zero] at hq
  have := mul_pos h (mass_pos hn c hj _ (local_ne hi (sub_ne_zero.2 hne)))
  exact absurd hq this.ne

/-! ### assembly -/

variable [Fintype ι] [DecidableEq ι]

/-- The rows of an element among all. -/
def pick (e : Elem n ι ℝ) : Matrix (Fin e.size) ι ℝ := fun i r => if e.dof i = r then 1 else 0

lemma assemble_nil : assemble ([] : List ((c : Cell n ι) × Matrix (Fin c.e.size) (Fin c.e.size) ℝ)) = 0 := by
  funext r s; simp [assemble]

lemma assemble_cons (p : (c : Cell n ι) × Matrix (Fin c.e.size) (Fin c.e.size) ℝ) (l) :
    assemble (p :: l) = (pick p.1.e).transpose * p.2 * pick p.1.e + assemble l := by
  funext r s
  simp only [assemble, List.map_cons, List.sum_cons, Matrix.add_apply]
  congr 1
  simp only [Matrix.mul_apply, Matrix.transpose_apply, pick, Finset.sum_mul]
  rw [Finset.sum_comm (s := Finset.univ)]
  refine Finset.sum_congr rfl fun i _ => Finset.sum_congr rfl fun j _ => ?_
  by_cases h : p.1.e.dof j = r <;> by_cases h' : p.1.e.dof i = s <;> simp [h, h']

lemma pick_mulVec (e : Elem n ι ℝ) (u : ι → ℝ) : (pick e).mulVec u = fun i : Fin e.size => u (e.dof i) := by
  funext i
  simp [pick, Matrix.mulVec, dotProduct]

lemma assemble_form (l : List ((c : Cell n ι) × Matrix (Fin c.e.size) (Fin c.e.size) ℝ)) (v u : ι → ℝ) :
    v ⬝ᵥ (assemble l).mulVec u = (l.map fun p => (fun i : Fin p.1.e.size => v (p.1.e.dof i)) ⬝ᵥ p.2.mulVec fun i => u (p.1.e.dof i)).sum := by
  induction l with
  | nil => simp [assemble_nil]
  | cons p l ih =>
    rw [assemble_cons, Matrix.add_mulVec, dotProduct_add, ih, List.map_cons, List.sum_cons]
    congr 1
    rw [← Matrix.mulVec_mulVec, ← Matrix.mulVec_mulVec, pick_mulVec, Matrix.dotProduct_mulVec, Matrix.vecMul_transpose, pick_mulVec]

/-- Degrees of freedom of a list of elements. -/
def dofsOf {β : Cell n ι → Type} (l : List ((c : Cell n ι) × β c)) : List ι := l.flatMap fun p => (List.range p.1.e.size).map p.1.e.dof

lemma pick_self (e : Elem n ι ℝ) (h : ((List.range e.size).map e.dof).Nodup) : pick e * (pick e).transpose = 1 := by
  funext i j
  simp only [Matrix.mul_apply, Matrix.transpose_apply, pick, Matrix.one_apply]
  rw [Finset.sum_eq_single (e.dof i)]
  · by_cases hij : i = j
    · simp [hij]
    · have : e.dof j ≠ e.dof i := fun hd => hij (by
        have := List.inj_on_of_nodup_map h (List.mem_range.2 i.2) (List.mem_range.2 j.2) hd.symm
        exact Fin.ext this)
      simp [hij, this]
  · intro b _ hb; simp [hb.symm]
  · simp

lemma pick_off (e : Elem n ι ℝ) (l : List ((c : Cell n ι) × Matrix (Fin c.e.size) (Fin c.e.size) ℝ))
    (h : ∀ i : Fin e.size, e.dof i ∉ dofsOf l) : pick e * assemble l = 0 ∧ assemble l * (pick e).transpose = 0 := by
  have key : ∀ i : Fin e.size, ∀ s, assemble l (e.dof i) s = 0 ∧ assemble l s (e.dof i) = 0 := by
    intro i s
    have : ∀ p ∈ l, ∀ k : Fin p.1.e.size, p.1.e.dof k ≠ e.dof i := fun p hp k hk =>
      h i (List.mem_flatMap.2 ⟨p, hp, hk ▸ List.mem_map_of_mem (List.mem_range.2 k.2)⟩)
    constructor
    · refine List.sum_eq_zero fun x hx => ?_
      obtain ⟨p, hp, rfl⟩ := List.mem_map.1 hx
      exact Finset.sum_eq_zero fun a _ => Finset.sum_eq_zero fun b _ => by simp [this p hp a]
    · refine List.sum_eq_zero fun x hx => ?_
      obtain ⟨p, hp, rfl⟩ := List.mem_map.1 hx
      exact Finset.sum_eq_zero fun a _ => Finset.sum_eq_zero fun b _ => by simp [this p hp b]
  constructor
  · funext i s
    simp only [Matrix.mul_apply, pick, ite_mul, one_mul, zero_mul, Finset.sum_ite_eq, Finset.mem_univ, if_true]
    exact (key i s).1
  · funext s i
    simp only [Matrix.mul_apply, Matrix.transpose_apply, pick, mul_ite, mul_one, mul_zero, Finset.sum_ite_eq, Finset.mem_univ, if_true]
    exact (key i s).2

lemma assemble_mul (l : List ((c : Cell n ι) × (Matrix (Fin c.e.size) (Fin c.e.size) ℝ × Matrix (Fin c.e.size) (Fin c.e.size) ℝ)))
    (h : (dofsOf l).Nodup) : assemble (l.map fun p => ⟨p.1, p.2.1⟩) * assemble (l.map fun p => ⟨p.1, p.2.2⟩) =
      assemble (l.map fun p => ⟨p.1, p.2.1 * p.2.2⟩) := by
  induction l with
  | nil => simp [assemble_nil]
  | cons p l ih =>
    have hc : dofsOf (p :: l) = (List.range p.1.e.size).map p.1.e.dof ++ dofsOf l := rfl
    rw [hc, List.nodup_append'] at h
    have hd : ∀ f : (q : (c : Cell n ι) × (Matrix (Fin c.e.size) (Fin c.e.size) ℝ × Matrix (Fin c.e.size) (Fin c.e.size) ℝ)) →
        Matrix (Fin q.1.e.size) (Fin q.1.e.size) ℝ, dofsOf (l.map fun q => (⟨q.1, f q⟩ : (c : Cell n ι) × Matrix (Fin c.e.size) (Fin c.e.size) ℝ)) = dofsOf l := by
      intro f
      unfold dofsOf
      rw [List.flatMap_map]
    have off : ∀ f : (q : (c : Cell n ι) × (Matrix (Fin c.e.size) (Fin c.e.size) ℝ × Matrix (Fin c.e.size) (Fin c.e.size) ℝ)) →
        Matrix (Fin q.1.e.size) (Fin q.1.e.size) ℝ, pick p.1.e * assemble (l.map fun q => ⟨q.1, f q⟩) = 0 ∧
          assemble (l.map fun q => ⟨q.1, f q⟩) * (pick p.1.e).transpose = 0 := fun f =>
      pick_off _ _ fun i hi => by
        rw [hd f] at hi
        exact h.2.2 (List.mem_map_of_mem (List.mem_range.2 i.2)) hi
    simp only [List.map_cons, assemble_cons]
    rw [Matrix.add_mul, Matrix.mul_add, Matrix.mul_add, ih h.2.1]
    have e1 : (pick p.1.e).transpose * p.2.1 * pick p.1.e * ((pick p.1.e).transpose * p.2.2 * pick p.1.e) =
        (pick p.1.e).transpose * (p.2.1 * p.2.2) * pick p.1.e := by
      calc _ = (pick p.1.e).transpose * p.2.1 * (pick p.1.e * (pick p.1.e).transpose) * p.2.2 * pick p.1.e := by
            simp only [Matrix.mul_assoc]
        _ = _ := by rw [pick_self _ h.1, Matrix.mul_one]; simp only [Matrix.mul_assoc]
    have e2 : (pick p.1.e).transpose * p.2.1 * pick p.1.e * assemble (l.map fun q => ⟨q.1, q.2.2⟩) = 0 := by
      rw [Matrix.mul_assoc, (off fun q => q.2.2).1, Matrix.mul_zero]
    have e3 : assemble (l.map fun q => ⟨q.1, q.2.1⟩) * ((pick p.1.e).transpose * p.2.2 * pick p.1.e) = 0 := by
      rw [Matrix.mul_assoc, ← Matrix.mul_assoc, (off fun q => q.2.1).2, Matrix.zero_mul]
    rw [e1, e2, e3, add_zero, zero_add]

lemma assemble_one (l : List (Cell n ι)) (h : (l.flatMap fun c => (List.range c.e.size).map c.e.dof).Nodup)
    (ha : ∀ r, r ∈ l.flatMap fun c => (List.range c.e.size).map c.e.dof) : assemble (l.map fun c => ⟨c, 1⟩) = (1 : Matrix ι ι ℝ) := by
  have key : ∀ l : List (Cell n ι), ∀ r s, assemble (l.map fun c => ⟨c, 1⟩) r s =
      if r = s then ((l.flatMap fun c => (List.range c.e.size).map c.e.dof).count r : ℝ) else 0 := by
    intro l r s
    induction l with
    | nil => simp [assemble_nil]
    | cons c l ih =>
      rw [List.map_cons, assemble_cons, Matrix.add_apply, ih, List.flatMap_cons, List.count_append]
      simp only [Matrix.mul_one, Matrix.mul_apply, Matrix.transpose_apply, pick]
      by_cases hrs : r = s
      · subst hrs
        simp only [if_true, Nat.cast_add]
        congr 1
        have : ∀ N, (∑ i ∈ Finset.range N, (if c.e.dof i = r then (1 : ℝ) else 0) * if c.e.dof i = r then 1 else 0) =
            (((List.range N).map c.e.dof).count r : ℝ) := by
          intro N
          induction N with
          | zero => simp
          | succ N ihN =>
            rw [Finset.sum_range_succ, ihN, List.range_succ, List.map_append, List.count_append]
            by_cases hd : c.e.dof N = r <;> simp [hd]
        rw [← this, Finset.sum_range]
      · rw [if_neg hrs, if_neg hrs, add_zero]
        refine Finset.sum_eq_zero fun i _ => ?_
        by_cases h1 : c.e.dof i = r
        · rw [if_neg (fun h2 => hrs (h1.symm.trans h2)), mul_zero]
        · rw [if_neg h1, zero_mul]
  funext r s
  rw [key, Matrix.one_apply]
  by_cases hrs : r = s
  · rw [if_pos hrs, if_pos hrs, List.count_eq_one_of_mem h (ha r), Nat.cast_one]
  · rw [if_neg hrs, if_neg hrs]

end Dgtd.Galerkin
