/-
The automatic time step and the heights of the elements.
-/
import Verif.Lemmas.Inverse
import Verif.Props.TimeStep

set_option linter.unusedSectionVars false

namespace Dgtd.Galerkin
open MvPolynomial Spec Dgtd.Op Dgtd.Op.Spec
open Dgtd.Config (Material)
open Dgtd.TimeStep (dtScale faceAreaSum estimateTimeStep edgeLength faceArea)
open Dgtd.TimeStep.Spec (span triangle Known Usable Usable1 FirstGap)

variable {n : Nat} {ι : Type} [Fintype ι] [DecidableEq ι] {S : Setup n ι} {p : Nat}

/-- Polynomials of degree one. -/
lemma affine {D : Nat} (q : Poly D ℝ) (hq : q.totalDegree ≤ 1) : ∃ (a : ℝ) (b : Fin D → ℝ), q = C a + ∑ i, C (b i) * X i := by
  refine ⟨coeff 0 q, fun i => coeff (Finsupp.single i 1) q, ?_⟩
  ext s
  rw [coeff_add, coeff_sum, coeff_C]
  simp only [coeff_C_mul, coeff_X']
  by_cases h0 : s = 0
  · subst h0
    rw [if_pos rfl, Finset.sum_eq_zero, add_zero]
    intro i _
    rw [if_neg, mul_zero]
    intro h
    have := DFunLike.congr_fun h i
    simp at this
  · rw [if_neg (Ne.symm h0), zero_add]
    by_cases h1 : ∃ i, Finsupp.single i 1 = s
    · obtain ⟨i, rfl⟩ := h1
      rw [Finset.sum_eq_single i]
      · simp
      · intro j _ hj
        rw [if_neg, mul_zero]
        intro h
        exact hj (Finsupp.single_left_injective (by norm_num) h)
      · simp
    · rw [Finset.sum_eq_zero fun i _ => by rw [if_neg fun h => h1 ⟨i, h⟩, mul_zero]]
      by_contra hne
      have hs := le_totalDegree (mem_support_iff.2 hne)
      have hs : (s.sum fun _ e => e) ≤ 1 := hs.trans hq
      obtain ⟨i, hi⟩ : ∃ i, s i ≠ 0 := by
        by_contra hall
        push Not at hall
        exact h0 (Finsupp.ext hall)
      refine h1 ⟨i, Finsupp.ext fun j => ?_⟩
      rw [Finsupp.sum_fintype _ _ (by simp)] at hs
      rw [← Finset.add_sum_erase _ _ (Finset.mem_univ i)] at hs
      by_cases hij : i = j
      · subst hij
        rw [Finsupp.single_eq_same]; omega
      · rw [Finsupp.single_eq_of_ne (Ne.symm hij)]
        have := Finset.single_le_sum (f := fun j => s j) (fun _ _ => Nat.zero_le _) (Finset.mem_erase.2 ⟨Ne.symm hij, Finset.mem_univ j⟩)
        omega

lemma affine_deriv {D : Nat} (q : Poly D ℝ) (hq : q.totalDegree ≤ 1) (x : Fin D → ℝ) (c : Fin D) :
    eval x (pderiv c q) = eval (faceCorner c.succ) q - eval (faceCorner 0) q := by
  obtain ⟨a, b, rfl⟩ := affine q hq
  simp [faceCorner, pderiv_X, Pi.single_apply, Fin.succ_inj, Fin.succ_ne_zero, (Fin.succ_ne_zero _).symm]

lemma degree_side {e : Elem n ι ℝ} (h : ∀ d, (e.geom d).totalDegree ≤ 1) (s : Side n ι ℝ) (hs : s.e = e) (d : Fin (n + 1)) :
    (s.restrict (s.e.geom d)).totalDegree ≤ 1 := by
  rw [hs]
  exact degree_restrict s (h d)

lemma weight_edge (s : Side 1 ι ℝ) (h : ∀ d, (s.restrict (s.e.geom d)).totalDegree ≤ 1) (x : Fin 1 → ℝ) :
    √(((normal s).map fun c => eval x c ^ 2).sum) = span (spot s 0) (spot s 1) := by
  have d0 := affine_deriv _ (h 0) x 0
  have d1 := affine_deriv _ (h 1) x 0
  unfold span spot
  simp only [normal, Side.jac, List.map_cons, List.map_nil, List.sum_cons, List.sum_nil, map_neg, d0, d1, pos]
  congr 1
  simp
  ring

lemma weight_face (s : Side 2 ι ℝ) (h : ∀ d, (s.restrict (s.e.geom d)).totalDegree ≤ 1) (x : Fin 2 → ℝ) :
    √(((normal s).map fun c => eval x c ^ 2).sum) = 2 * triangle (spot s 0) (spot s 1) (spot s 2) := by
  have d0 := fun d => affine_deriv _ (h d) x 0
  have d1 := fun d => affine_deriv _ (h d) x 1
  have e1 : (Fin.succ 0 : Fin 3) = 1 := rfl
  have e2 : (Fin.succ 1 : Fin 3) = 2 := rfl
  rw [e1] at d0
  rw [e2] at d1
  unfold triangle spot
  simp only [normal, Side.jac, List.map_cons, List.map_nil, List.sum_cons, List.sum_nil, map_sub, map_mul, d0, d1, pos]
  rw [mul_div_cancel₀ _ (by norm_num : (2 : ℝ) ≠ 0)]
  congr 1
  simp
  ring

lemma span_comm (a b : TimeStep.Pt) : span a b = span b a := by
  unfold span; congr 1; ring

lemma triangle_swap (a b c : TimeStep.Pt) : triangle a b c = triangle b a c := by
  unfold triangle; congr 2; ring

lemma triangle_turn (a b c : TimeStep.Pt) : triangle a b c = triangle b c a := by
  unfold triangle; congr 2; ring

lemma span_perm (v : Fin 2 → TimeStep.Pt) (σ : Equiv.Perm (Fin 2)) : span (v (σ 0)) (v (σ 1)) = span (v 0) (v 1) := by
  have hne : σ 0 ≠ σ 1 := fun h => absurd (σ.injective h) (by decide)
  have c : ∀ i : Fin 2, i = 0 ∨ i = 1 := by decide
  rcases c (σ 0) with h0 | h0 <;> rcases c (σ 1) with h1 | h1 <;> rw [h0, h1] at hne ⊢ <;> first | exact absurd rfl hne | exact span_comm _ _

lemma triangle_perm (v : Fin 3 → TimeStep.Pt) (σ : Equiv.Perm (Fin 3)) : triangle (v (σ 0)) (v (σ 1)) (v (σ 2)) = triangle (v 0) (v 1) (v 2) := by
  have n1 : σ 0 ≠ σ 1 := fun h => absurd (σ.injective h) (by decide)
  have n2 : σ 0 ≠ σ 2 := fun h => absurd (σ.injective h) (by decide)
  have n3 : σ 1 ≠ σ 2 := fun h => absurd (σ.injective h) (by decide)
  have c : ∀ i : Fin 3, i = 0 ∨ i = 1 ∨ i = 2 := by decide
  have t1 := triangle_swap (v 0) (v 1) (v 2)
  have t2 := triangle_turn (v 0) (v 1) (v 2)
  have t3 := triangle_turn (v 1) (v 2) (v 0)
  have t4 := triangle_turn (v 1) (v 0) (v 2)
  have t5 := triangle_turn (v 0) (v 2) (v 1)
  rcases c (σ 0) with h0 | h0 | h0 <;> rcases c (σ 1) with h1 | h1 | h1 <;> rcases c (σ 2) with h2 | h2 | h2 <;>
    rw [h0, h1] at n1 <;> rw [h0, h2] at n2 <;> rw [h1, h2] at n3 <;> rw [h0, h1, h2] <;>
    first | exact absurd rfl n1 | exact absurd rfl n2 | exact absurd rfl n3 | rfl | linarith

lemma single_le {α : Type} (l : List α) (f : α → ℝ) (h : ∀ a ∈ l, 0 ≤ f a) {a : α} (ha : a ∈ l) : f a ≤ (l.map f).sum :=
  List.single_le_sum (by intro y hy; obtain ⟨b, hb, rfl⟩ := List.mem_map.1 hy; exact h b hb) _ (List.mem_map_of_mem ha)

lemma side_deg (h : ValidMesh S p 1) {o : Option BdrCond} {g : MeshFace n ι} (hg : (o, g) ∈ S.interior ++ S.bdr) (d : Fin (n + 1)) :
    (g.s1.restrict (g.s1.e.geom d)).totalDegree ≤ 1 := by
  obtain ⟨c, hc, hce⟩ := (sides_cells h hg).1
  exact degree_side (fun d => h.geom hc d) g.s1 hce d

/-- The scale of an element is at most its height over any of its faces. -/
lemma scale_le (h : ValidMesh S p 1) {c : Cell n ι} (hc : c ∈ S.cells) {el : TimeStep.Elem}
    (hv : el.volume = integral (n + 1) c.e.jac.det) {g : MeshFace n ι} (hg : Shares S g c.e) (hh : Has el (spot g.s1)) (hn : n ≠ 0)
    {x y : Fin n → ℝ} {z : Fin (n + 1) → ℝ} : dtScale (n + 1) el * g.fem.W x ≤ eval z c.e.jac.det := by
  obtain ⟨δ, hδ, hdet⟩ := det_const h hc
  obtain ⟨⟨o, hg⟩, -⟩ := hg
  have hdeg := side_deg h hg
  have hW : g.fem.W x = √(((normal g.s1).map fun c => eval x c ^ 2).sum) := rfl
  rw [hdet, integral_const] at hv
  rw [hdet, eval_C, hW]
  have W0 : 0 ≤ √(((normal g.s1).map fun c => eval x c ^ 2).sum) := Real.sqrt_nonneg _
  have dim := h.simplicial.dim
  match n, hn with
  | 1, _ =>
    have A : √(((normal g.s1).map fun c => eval x c ^ 2).sum) ≤ faceAreaSum 2 el := by
      obtain ⟨σ, hσ⟩ := hh
      rw [weight_edge _ hdeg, ← span_perm _ σ]
      unfold faceAreaSum
      rw [if_pos rfl]
      have := single_le el.edges edgeLength (fun a _ => Real.sqrt_nonneg _) hσ
      rw [TimeStep.edgeLength_eq] at this
      exact this
    unfold dtScale
    rw [hv]
    rcases eq_or_lt_of_le (W0.trans A) with h0 | h0
    · have : √(((normal g.s1).map fun c => eval x c ^ 2).sum) = 0 := le_antisymm (by rw [h0]; exact A) W0
      rw [this, mul_zero]; exact hδ.le
    · have e : δ / ((1 + 1).factorial : ℝ) / (faceAreaSum (1 + 1) el / 2) = δ / faceAreaSum 2 el := by
        norm_num [Nat.factorial]; field_simp
      rw [e, div_mul_eq_mul_div, div_le_iff₀ h0]
      exact mul_le_mul_of_nonneg_left A hδ.le
  | 2, _ =>
    have A : √(((normal g.s1).map fun c => eval x c ^ 2).sum) ≤ 2 * faceAreaSum 3 el := by
      obtain ⟨σ, hσ⟩ := hh
      rw [weight_face _ hdeg, ← triangle_perm _ σ]
      unfold faceAreaSum
      rw [if_neg (by norm_num)]
      have := single_le el.faces faceArea (fun a _ => by rw [TimeStep.faceArea_eq]; exact TimeStep.triangle_nonneg _ _ _) hσ
      rw [TimeStep.faceArea_eq] at this
      linarith
    unfold dtScale
    rw [hv]
    rcases eq_or_lt_of_le (W0.trans A) with h0 | h0
    · have : √(((normal g.s1).map fun c => eval x c ^ 2).sum) = 0 := le_antisymm (by rw [h0]; exact A) W0
      rw [this, mul_zero]; exact hδ.le
    · have h1 : 0 < faceAreaSum 3 el := by linarith
      have e : δ / ((2 + 1).factorial : ℝ) / (faceAreaSum (2 + 1) el / 2) = δ / (3 * faceAreaSum 3 el) := by
        norm_num [Nat.factorial]; field_simp; norm_num
      rw [e, div_mul_eq_mul_div, div_le_iff₀ (by linarith)]
      exact mul_le_mul_of_nonneg_left (by linarith) hδ.le
  | _ + 3, _ => omega

/-- On a line the nodes of an element are no further apart than it is long. -/
lemma nodes_le {S : Setup 0 ι} (h : ValidMesh S p 1) {c : Cell 0 ι} (hc : c ∈ S.cells) {y y' : Fin 1 → ℝ} (hy : InElem c.e y)
    (hy' : InElem c.e y') (z : Fin 1 → ℝ) : |y 0 - y' 0| ≤ eval z c.e.jac.det := by
  obtain ⟨a, b, hab⟩ := affine _ (h.geom hc 0)
  obtain ⟨δ, hδ, hdet⟩ := det_const h hc
  have hb : b 0 = δ := by
    have : eval z c.e.jac.det = eval z (C δ) := by rw [hdet]
    simpa [Matrix.det_unique, Elem.jac, hab] using this
  obtain ⟨x, hx, rfl⟩ := hy
  obtain ⟨x', hx', rfl⟩ := hy'
  have e : ∀ x : Fin 1 → ℝ, eval x (c.e.geom 0) = a + δ * x 0 := fun x => by rw [hab]; simp [hb]
  have r : ∀ x : Fin 1 → ℝ, InSimplex x → 0 ≤ x 0 ∧ x 0 ≤ 1 := fun x hx => ⟨hx.1 0, by simpa using hx.2⟩
  obtain ⟨l1, l2⟩ := r x hx
  obtain ⟨l3, l4⟩ := r x' hx'
  change |eval x (c.e.geom 0) - eval x' (c.e.geom 0)| ≤ _
  rw [hdet, eval_C, e, e, show a + δ * x 0 - (a + δ * x' 0) = δ * (x 0 - x' 0) by ring, abs_mul, abs_of_pos hδ]
  have : |x 0 - x' 0| ≤ 1 := by rw [abs_le]; constructor <;> linarith
  nlinarith

lemma weight_end (s : Side 0 ι ℝ) (x : Fin 0 → ℝ) : √(((normal s).map fun c => eval x c ^ 2).sum) = 1 := by
  have : (loc s.face s.turn 0 : Poly 0 ℝ) = 0 ∨ (loc s.face s.turn 0 : Poly 0 ℝ) = 1 := by
    unfold loc
    split
    · exact Or.inl rfl
    · right
      have : s.turn 0 = 0 := Fin.ext (by omega)
      rw [this]; simp [bary]
  rcases this with h | h
  · simp [normal, h]
  · simp only [normal, h, List.map_cons, List.map_nil, List.sum_cons, List.sum_nil, add_zero]
    rw [show (2 * 1 - 1 : Poly 0 ℝ) = 1 by ring, map_one]; simp

/-- With the automatic time step no element is thinner than the step, up to the factors the user and the order put there. -/
lemma auto_thick (h : ValidMesh S p 1) (hw : ∀ q ∈ S.interior ++ S.bdr, ∀ x ∈ q.2.rule, 0 ≤ x.1) {m : TimeStep.Setup} (hd : Describes m S)
    (hk : Known m) (hu : if n = 0 then Usable1 m else Usable m) (lobatto : Nat → List ℝ) {r : ℝ} (hr : FirstGap lobatto p r)
    (o : TimeStep.Options) (hp : o.order = p) (ho : TimeStep.Spec.Valid o) (hop : ¬ (o.op = .hesthaven ∧ m.dim = 3)) :
    ∃ dt, estimateTimeStep lobatto m o = .ok dt ∧ 0 < dt ∧ Thick S (dt / (o.cfl * (1 + r))) := by
  have hr0 := hr.1
  have hc0 := ho.2.2
  by_cases hn : n = 0
  · subst hn
    rw [if_pos rfl] at hu
    obtain ⟨dt, e, hdt, hb⟩ := TimeStep.C12_line lobatto m hd.dim hu o ho
    refine ⟨dt, e, hdt, by positivity, ?_, hw⟩
    intro g el hg x y hx hy
    obtain ⟨⟨o', hg'⟩, hsh⟩ := hg
    obtain ⟨c, hc, hce⟩ : ∃ c ∈ S.cells, el = c.e := by
      rcases hsh with rfl | ⟨s, hs, rfl⟩
      · exact (sides_cells h hg').1
      · exact (sides_cells h hg').2 s hs
    subst hce
    obtain ⟨el, hel, -, -, hnodes⟩ := hd.elems c hc
    obtain ⟨h2, hin⟩ := hnodes rfl
    have W1 : g.fem.W x = 1 := weight_end g.s1 x
    rw [W1, mul_one]
    obtain ⟨y1, hy1, e1⟩ := hin el.nodes[0] (List.getElem_mem (by omega))
    obtain ⟨y2, hy2, e2⟩ := hin el.nodes[1] (List.getElem_mem (by omega))
    have b1 := (hb el hel).1 0 1 el.nodes[0] el.nodes[1] (by norm_num) (List.getElem?_eq_getElem _) (List.getElem?_eq_getElem _)
    have b2 := nodes_le h hc hy1 hy2 y
    rw [e1, e2] at b1
    rw [div_le_iff₀ (by positivity)]
    have b3 : 0 ≤ eval y c.e.jac.det := (abs_nonneg _).trans b2
    calc dt ≤ o.cfl * |y1 0 - y2 0| := b1
      _ ≤ o.cfl * eval y c.e.jac.det := mul_le_mul_of_nonneg_left b2 hc0.le
      _ ≤ eval y c.e.jac.det * (o.cfl * (1 + r)) := by nlinarith [mul_nonneg b3 (mul_nonneg hc0.le hr0.le)]
  · rw [if_neg hn] at hu
    have dim := h.simplicial.dim
    have hd23 : m.dim = 2 ∨ m.dim = 3 := by rw [hd.dim]; omega
    have hp' : o.order.toNat = p := by rw [hp]; rfl
    obtain ⟨s, k, ⟨e0, he0, hs0⟩, hle, hk0, hk1, -, heq⟩ := TimeStep.estimate_ok lobatto m hd23 o r (by rw [hp']; exact hr) hu.1 hop
    have hs : 0 < s := by rw [hs0]; exact TimeStep.dtScale_pos m hd23 hk hu e0 he0
    refine ⟨_, heq, by positivity, by positivity, ?_, hw⟩
    intro g el hg x y hx hy
    obtain ⟨c, hc, hce⟩ : ∃ c ∈ S.cells, el = c.e := by
      obtain ⟨⟨o', hg'⟩, hsh⟩ := hg
      rcases hsh with rfl | ⟨s, hs, rfl⟩
      · exact (sides_cells h hg').1
      · exact (sides_cells h hg').2 s hs
    subst hce
    obtain ⟨el, hel, hv, hhas, -⟩ := hd.elems c hc
    have b1 := scale_le h hc hv hg (hhas g hg) hn (x := x) (y := x) (z := y)
    have b2 := hle el hel
    rw [hd.dim] at b2
    have W0 : 0 ≤ g.fem.W x := Real.sqrt_nonneg _
    have b3 : s * r * k * o.cfl / (o.cfl * (1 + r)) ≤ s := by
      rw [div_le_iff₀ (by positivity)]
      have : r * k ≤ 1 + r := by nlinarith
      calc s * r * k * o.cfl = s * (o.cfl * (r * k)) := by ring
        _ ≤ s * (o.cfl * (1 + r)) := by gcongr
    exact (mul_le_mul_of_nonneg_right (b3.trans b2) W0).trans b1

end Dgtd.Galerkin
