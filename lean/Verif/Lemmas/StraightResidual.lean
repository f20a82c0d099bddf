/-
The residual of smooth fields in the equations of straight meshes that may have quadrilaterals and hexahedra.
-/
import Verif.Lemmas.StraightField
import Verif.Lemmas.Convergence

set_option linter.unusedSectionVars false

namespace Dgtd.Straight
open MvPolynomial Spec Dgtd.Op Dgtd.Op.Spec
open Dgtd.Galerkin (Poly Elem Rule fld massMatrix tang tang_zero tang_sub tang_le cross_sub cross_le unit_le crossT_scale pen_scale wallFlux wallFlux_le
  sum_abs_le faceBound list_sum_sub list_sum_add form_dom expos ofCoef ofCoef_inj young sum_flat eval_bind)
open Dgtd.Galerkin.Spec (onElem materialOf PField curl cross Obeys)
open Dgtd.Config (Material)

variable {n : Nat} {ι : Type} [Fintype ι] [DecidableEq ι] {S : Setup n ι} {p : Nat}

/-! ### integrals -/

lemma inside_one {D : Nat} (hD : D < 2) {sh : Shape} (sh' : Shape) {x : Fin D → ℝ} (h : Inside sh x) : Inside sh' x := by
  have key : ∀ x : Fin D → ℝ, Inside .simplex x ↔ Inside .box x := by
    intro x
    match D, hD with
    | 0, _ => exact ⟨fun _ i => i.elim0, fun _ => ⟨fun i => i.elim0, by simp⟩⟩
    | 1, _ =>
      constructor
      · rintro ⟨h0, h1⟩ i
        obtain rfl : i = 0 := Subsingleton.elim (α := Fin 1) _ _
        exact ⟨h0 0, by simpa using h1⟩
      · intro h
        exact ⟨fun i => (h i).1, by simpa using (h 0).2⟩
  cases sh <;> cases sh'
  · exact h
  · exact (key x).1 h
  · exact (key x).2 h
  · exact h

lemma intl_nonneg {D : Nat} (hD : D ≤ 3) (sh : Shape) (q : Poly D ℝ) (h : ∀ x, Inside sh x → 0 ≤ eval x q) : 0 ≤ intl sh D q := by
  by_cases hq : q = 0
  · simp [hq]
  · rw [intl_eq]; exact (integral_pos hD sh q hq h).le

lemma intl_mono {D : Nat} (hD : D ≤ 3) (sh : Shape) (q r : Poly D ℝ) (h : ∀ x, Inside sh x → eval x q ≤ eval x r) : intl sh D q ≤ intl sh D r := by
  have := intl_nonneg hD sh (r - q) fun x hx => by rw [map_sub]; linarith [h x hx]
  rw [map_sub] at this
  linarith

lemma intl_const_le (hn : n < 3) (sh : Shape) {a : ℝ} (ha : 0 ≤ a) : a * intl sh n (1 : Poly n ℝ) ≤ 3 * intl sh (n + 1) (C a : Poly (n + 1) ℝ) := by
  cases sh with
  | simplex => exact Galerkin.integral_const_le hn ha
  | box =>
    have h1 : intl .box n (1 : Poly n ℝ) = 1 := by
      have := cube_moment (D := n) 0 1
      change cube n 1 = 1
      simpa using this
    have h2 : intl .box (n + 1) (C a : Poly (n + 1) ℝ) = a := by
      have := cube_moment (D := n + 1) 0 a
      change cube (n + 1) (C a) = a
      simpa using this
    rw [h1, h2]; linarith

lemma det_min (h : ValidMesh S p) {c : Cell n ι} (hc : c ∈ S.cells) :
    ∃ δ, 0 < δ ∧ (∃ y, Inside c.shape y ∧ eval y c.e.jac.det = δ) ∧ ∀ y, Inside c.shape y → δ ≤ eval y c.e.jac.det := by
  have hcont : Continuous fun y => eval y c.e.jac.det := MvPolynomial.continuous_eval _
  have hcomp : IsCompact {y : Fin (n + 1) → ℝ | Inside c.shape y} := by
    have hbox : IsCompact {y : Fin (n + 1) → ℝ | Inside .box y} := by
      have e : {y : Fin (n + 1) → ℝ | Inside .box y} = Set.Icc 0 1 :=
        Set.ext fun y => ⟨fun h => ⟨fun i => (h i).1, fun i => (h i).2⟩, fun h i => ⟨h.1 i, h.2 i⟩⟩
      rw [e]; exact isCompact_Icc
    cases c.shape with
    | box => exact hbox
    | simplex =>
      refine hbox.of_isClosed_subset ?_ fun y hy i => ⟨hy.1 i, (Finset.single_le_sum (fun j _ => hy.1 j) (Finset.mem_univ i)).trans hy.2⟩
      have e : {y : Fin (n + 1) → ℝ | Inside .simplex y} = (⋂ i, {y | 0 ≤ y i}) ∩ {y | ∑ i, y i ≤ 1} :=
        Set.ext fun y => by simp [Inside, Galerkin.Spec.InSimplex]
      rw [e]
      exact (isClosed_iInter fun i => isClosed_le continuous_const (continuous_apply i)).inter
        (isClosed_le (continuous_finsetSum _ fun i _ => continuous_apply i) continuous_const)
  obtain ⟨y, hy, hmin⟩ := hcomp.exists_isMinOn ⟨0, inside_zero c.shape⟩ hcont.continuousOn
  exact ⟨_, h.jacobian c hc y hy, ⟨y, hy, rfl⟩, fun z hz => hmin hz⟩

lemma ofCoef_box {D p : Nat} (q : Poly D ℝ) (hq : Order .box p q) : ofCoef D p (fun a => coeff a.1 q) = q := by
  have hs : q.support ⊆ expos D p := fun a ha => by
    rw [expos, Finset.mem_Iic]
    intro i
    have := Finset.le_sup (f := fun m : Fin D →₀ ℕ => m i) ha
    rw [← degreeOf_eq_sup] at this
    exact this.trans (hq i)
  have h1 : ofCoef D p (fun a => coeff a.1 q) = ∑ a ∈ expos D p, monomial a (coeff a q) := by
    change (∑ a : expos D p, monomial a.1 (coeff a.1 q)) = _
    exact Finset.sum_coe_sort (expos D p) fun a => monomial a (coeff a q)
  rw [h1, ← Finset.sum_subset hs]
  · exact q.support_sum_monomial_coeff
  · intro a _ ha
    rw [notMem_support_iff.1 ha, map_zero]

lemma trace_box (p : Nat) (k : Fin (n + 1)) (b : Bool) : ∃ L, 0 ≤ L ∧ ∀ v : Poly (n + 1) ℝ, Order .box p v →
    cube n (bind₁ (loc (Key.box k b).place) v ^ 2) ≤ L * cube (n + 1) (v ^ 2) := by
  obtain ⟨A, hA⟩ : ∃ A : (expos (n + 1) p → ℝ) →ₗ[ℝ] (expos (n + 1) p → ℝ) →ₗ[ℝ] ℝ,
      ∀ u v, A u v = cube (n + 1) (ofCoef _ _ u * ofCoef _ _ v) :=
    ⟨LinearMap.mk₂ ℝ (fun u v => cube (n + 1) (ofCoef _ _ u * ofCoef _ _ v)) (by intros; simp [add_mul]) (by intros; simp)
      (by intros; simp [mul_add]) (by intros; simp), fun u v => rfl⟩
  obtain ⟨B, hB⟩ : ∃ B : (expos (n + 1) p → ℝ) →ₗ[ℝ] (expos (n + 1) p → ℝ) →ₗ[ℝ] ℝ,
      ∀ u v, B u v = cube n (bind₁ (loc (Key.box k b).place) (ofCoef _ _ u) * bind₁ (loc (Key.box k b).place) (ofCoef _ _ v)) :=
    ⟨LinearMap.mk₂ ℝ (fun u v => cube n (bind₁ (loc (Key.box k b).place) (ofCoef _ _ u) * bind₁ (loc (Key.box k b).place) (ofCoef _ _ v)))
      (by intros; simp [add_mul]) (by intros; simp) (by intros; simp [mul_add]) (by intros; simp), fun u v => rfl⟩
  obtain ⟨L, hL, h⟩ := form_dom A B fun u hu => by
    rw [hA]
    refine cube_pos _ (fun h0 => hu (ofCoef_inj u (mul_self_eq_zero.1 h0))) fun x _ => ?_
    rw [map_mul]; exact mul_self_nonneg _
  refine ⟨L, hL, fun v hv => ?_⟩
  have := h fun a => coeff a.1 v
  rw [hA, hB, ofCoef_box v hv] at this
  simpa [sq] using this

/-- The trace inequality on all reference elements. -/
def TraceBound (n p : Nat) (L : ℝ) : Prop := ∀ (pl : Place n) (v : Poly (n + 1) ℝ), Order pl.key.shape p v →
  intl pl.key.shape n (bind₁ (loc pl) v ^ 2) ≤ L * intl pl.key.shape (n + 1) (v ^ 2)

lemma trace_bound (hn : n < 3) (p : Nat) : ∃ L, 0 ≤ L ∧ TraceBound n p L := by
  obtain ⟨L1, hL1, h1⟩ := Galerkin.trace_const hn p
  choose L2 hL2 h2 using fun q : Fin (n + 1) × Bool => trace_box p q.1 q.2
  have hs : 0 ≤ ∑ q, L2 q := Finset.sum_nonneg fun q _ => hL2 q
  refine ⟨L1 + ∑ q, L2 q, add_nonneg hL1 hs, fun pl v hv => ?_⟩
  have hpos : 0 ≤ intl pl.key.shape (n + 1) (v ^ 2) := intl_nonneg (by omega) _ _ fun x _ => by rw [map_pow]; exact sq_nonneg _
  cases pl with
  | simplex f t => exact (h1 f t v hv).trans (mul_le_mul_of_nonneg_right (by linarith) hpos)
  | box k b t f =>
    have e := intl_turn (.box k b t f) (v ^ 2)
    rw [map_pow (bind₁ _), map_pow (bind₁ _)] at e
    rw [e]
    refine (h2 (k, b) v hv).trans (mul_le_mul_of_nonneg_right ?_ hpos)
    have := Finset.single_le_sum (f := L2) (fun q _ => hL2 q) (Finset.mem_univ (k, b))
    linarith

/-! ### faces -/

/-- Exact values on the sides of the faces that the discrete field approaches up to `a`. -/
def Near (S : Setup n ι) (Q : PField n ι) (V : Side n ι → (Fin n → ℝ) → FieldT → Dir → ℝ) (a : ℝ) : Prop :=
  ∀ g ∈ faces S, ∀ x, OnFace g x → ∀ f d, |onSide Q g.s1 x f d - V g.s1 x f d| ≤ a ∧
    ∀ s ∈ g.s2, |onSide Q s x f d - V s x f d| ≤ a

/-- A face whose sides see each other, when the jumps are near jumps without tangential part. -/
lemma jump_le (h : ValidMesh S p) (hw : ∀ f ∈ faces S, ∀ x ∈ f.rule, 0 ≤ x.1) {u : State ι ℝ} {a : ℝ} (a0 : 0 ≤ a)
    {g : MeshFace n ι} (hg : (none, g) ∈ S.interior)
    (hj : ∀ q ∈ g.rule, ∃ j : FieldT → Dir → ℝ, (∀ f d, cross (unitNormal g.s1 q.2) (j f) d = 0) ∧
      ∀ f k, |(tr1 g.toFace (point g q) (u f k) - tr2 g.toFace (point g q) (u f k)) - j f k| ≤ 2 * a)
    {alpha : ℝ} (ha : 0 ≤ alpha) (f : FieldT) (d : Dir) (v : ι → ℝ) :
    |plainTerm u f d 1 alpha g.toFace v| ≤ faceBound ((4 + 4 * alpha) * a) g.toFace v := by
  have hg' : g ∈ faces S := mem_face (List.mem_append_left _ hg)
  unfold plainTerm faceBound
  change |((g.rule.map (point g)).map _).sum| ≤ ((g.rule.map (point g)).map _).sum
  rw [List.map_map, List.map_map]
  refine sum_abs_le _ _ _ fun q hq => ?_
  have hin : OnFace g q.2 := h.inside _ hg' q hq
  obtain ⟨hW, hN, hν⟩ := unit_facts h hg' q.2 hin
  have hN : ∀ d, normalTerm (point g q).nor d = (point g q).W * unitNormal g.s1 q.2 d := hN
  simp only [Function.comp, plainPt]
  rw [crossT_scale (W := (point g q).W) hN, pen_scale (W := (point g q).W) hW hN]
  obtain ⟨j, hx, hj⟩ := hj q hq
  have h1 := cross_le (unit_le hν) (hj (altField f)) d
  have h2 := tang_le (unit_le hν) (hj f) d
  rw [cross_sub _ _ (j (altField f)), hx] at h1
  rw [tang_sub _ _ (j f), tang_zero hν fun d => hx f d] at h2
  rw [sub_zero] at h1 h2
  have hwq : 0 ≤ q.1 := hw _ hg' q hq
  obtain ⟨c1, hc1⟩ : ∃ c, c = cross (unitNormal g.s1 q.2) (fun k => tr1 g.toFace (point g q) (u (altField f) k) -
    tr2 g.toFace (point g q) (u (altField f) k)) d := ⟨_, rfl⟩
  obtain ⟨t1, ht1⟩ : ∃ c, c = tang (unitNormal g.s1 q.2) (fun k => tr1 g.toFace (point g q) (u f k) -
    tr2 g.toFace (point g q) (u f k)) d := ⟨_, rfl⟩
  obtain ⟨v1, hv1⟩ : ∃ c, c = tr1 g.toFace (point g q) v := ⟨_, rfl⟩
  obtain ⟨v2, hv2⟩ : ∃ c, c = tr2 g.toFace (point g q) v := ⟨_, rfl⟩
  have hw' : (point g q).w = q.1 := rfl
  rw [← hc1] at h1 ⊢
  rw [← ht1] at h2 ⊢
  rw [← hv1, ← hv2, hw']
  obtain ⟨W, hWe⟩ : ∃ W, W = (point g q).W := ⟨_, rfl⟩
  rw [← hWe]
  have hW : 0 < W := by rw [hWe]; exact hW
  have sg : |(sgn f : ℝ)| = 1 := by cases f <;> simp [sgn, FieldT.idx] <;> norm_num
  have e : q.1 / 2 * (sgn f * 1 * (-W * c1) * (v1 + v2) - alpha * (W * t1) * (v1 - v2)) =
      q.1 * (W * (1 / 2 * (sgn f * -c1 * (v1 + v2) - alpha * t1 * (v1 - v2)))) := by ring
  rw [e, abs_mul, abs_mul, abs_of_nonneg hwq, abs_of_pos hW]
  refine mul_le_mul_of_nonneg_left (mul_le_mul_of_nonneg_left ?_ hW.le) hwq
  rw [abs_mul, abs_of_pos (by norm_num : (0 : ℝ) < 1 / 2)]
  have k1 : |sgn f * -c1 * (v1 + v2)| ≤ 2 * (2 * a) * (|v1| + |v2|) := by
    rw [abs_mul, abs_mul, sg, one_mul, abs_neg]
    exact mul_le_mul h1 (abs_add_le _ _) (abs_nonneg _) ((abs_nonneg _).trans h1)
  have k2 : |alpha * t1 * (v1 - v2)| ≤ alpha * (4 * (2 * a)) * (|v1| + |v2|) := by
    rw [abs_mul, abs_mul, abs_of_nonneg ha]
    exact mul_le_mul (mul_le_mul_of_nonneg_left h2 ha) (abs_sub _ _) (abs_nonneg _) (mul_nonneg ha ((abs_nonneg _).trans h2))
  have k3 := abs_sub (sgn f * -c1 * (v1 + v2)) (alpha * t1 * (v1 - v2))
  have vv : 0 ≤ a * (|v1| + |v2|) := mul_nonneg a0 (add_nonneg (abs_nonneg _) (abs_nonneg _))
  nlinarith

lemma plain_le (h : ValidMesh S p) (hw : ∀ f ∈ faces S, ∀ x ∈ f.rule, 0 ≤ x.1) {Q : PField n ι} {u : State ι ℝ}
    (hu : Carries S Q u) {V : Side n ι → (Fin n → ℝ) → FieldT → Dir → ℝ} {a : ℝ} (ha0 : 0 ≤ a) (hn : Near S Q V a) {g : MeshFace n ι}
    (hg : (none, g) ∈ S.interior) {s : Side n ι} (hs : g.s2 = some s)
    (hx : ∀ x, OnFace g x → ∀ f d, cross (unitNormal g.s1 x) (fun k => V g.s1 x f k - V s x f k) d = 0)
    {alpha : ℝ} (ha : 0 ≤ alpha) (f : FieldT) (d : Dir) (v : ι → ℝ) :
    |plainTerm u f d 1 alpha g.toFace v| ≤ faceBound ((4 + 4 * alpha) * a) g.toFace v := by
  have hg' : g ∈ faces S := mem_face (List.mem_append_left _ hg)
  refine jump_le h hw ha0 hg (fun q hq => ?_) ha f d v
  have hin : OnFace g q.2 := h.inside _ hg' q hq
  refine ⟨fun f k => V g.s1 q.2 f k - V s q.2 f k, fun f d => hx q.2 hin f d, fun f k => ?_⟩
  have o2 : onOther Q g q.2 f k = onSide Q s q.2 f k := by unfold onOther; rw [hs]
  rw [carries_one h hu hg', carries_two h hu hg', o2]
  have h1 := (hn _ hg' q.2 hin f k).1
  have h2 := (hn _ hg' q.2 hin f k).2 s hs
  have e : (onSide Q g.s1 q.2 f k - onSide Q s q.2 f k) - (V g.s1 q.2 f k - V s q.2 f k) =
    (onSide Q g.s1 q.2 f k - V g.s1 q.2 f k) - (onSide Q s q.2 f k - V s q.2 f k) := by ring
  rw [e]
  refine (abs_sub _ _).trans (by linarith)

lemma exterior_le (h : ValidMesh S p) (hw : ∀ f ∈ faces S, ∀ x ∈ f.rule, 0 ≤ x.1) {Q : PField n ι} {u : State ι ℝ}
    (hu : Carries S Q u) {V : Side n ι → (Fin n → ℝ) → FieldT → Dir → ℝ} {a : ℝ} (hn : Near S Q V a) {g : MeshFace n ι}
    {c : BdrCond} (hg : (some c, g) ∈ S.bdr) (hx : ∀ x, OnFace g x → Obeys c (unitNormal g.s1 x) (V g.s1 x))
    {alpha : ℝ} (ha : 0 ≤ alpha) (f : FieldT) (d : Dir) (v : ι → ℝ) :
    |exteriorTerm alpha u f d v (some c) g.toFace| ≤ faceBound ((4 + 4 * alpha) * a) g.toFace v := by
  have hg' : g ∈ faces S := mem_face (List.mem_append_right _ hg)
  have hs : g.s2 = none := h.bdr_one_side _ hg
  unfold exteriorTerm plainTerm faceBound
  change |((g.rule.map (point g)).map _).sum| ≤ ((g.rule.map (point g)).map _).sum
  rw [List.map_map, List.map_map]
  refine sum_abs_le _ _ _ fun q hq => ?_
  have hin : OnFace g q.2 := h.inside _ hg' q hq
  obtain ⟨hW, hN, hν⟩ := unit_facts h hg' q.2 hin
  have hN : ∀ d, normalTerm (point g q).nor d = (point g q).W * unitNormal g.s1 q.2 d := hN
  have t2 : tr2 g.toFace (point g q) v = 0 := face_tr2_none g hs q v
  have o2 : ∀ f d, onOther Q g q.2 f d = 0 := fun f d => by unfold onOther; rw [hs]
  simp only [Function.comp, plainPt, carries_one h hu hg', carries_two h hu hg', o2, sub_zero, t2, add_zero, abs_zero]
  rw [crossT_scale (W := (point g q).W) hN, pen_scale (W := (point g q).W) hW hN]
  have hnear := fun f d => hn _ hg' q.2 hin f d
  have key := wallFlux_le ha hν (hx q.2 hin) (fun f d => (hnear f d).1) f d
  have hwq : 0 ≤ q.1 := hw _ hg' q hq
  have hw' : (point g q).w = q.1 := rfl
  obtain ⟨v1, hv1⟩ : ∃ c, c = tr1 g.toFace (point g q) v := ⟨_, rfl⟩
  rw [← hv1, hw']
  obtain ⟨W, hWe⟩ : ∃ W, W = (point g q).W := ⟨_, rfl⟩
  rw [← hWe]
  have hW : 0 < W := by rw [hWe]; exact hW
  have e : q.1 / 2 * (sgn f * fluxCoeff c (altField f) * (-W * cross (unitNormal g.s1 q.2) (fun k => onSide Q g.s1 q.2 (altField f) k) d) * v1 -
      (if c ≠ .SMA then bdrCoeff c f * alpha else 1) * (W * tang (unitNormal g.s1 q.2) (fun k => onSide Q g.s1 q.2 f k) d) * v1) =
      q.1 * (W * (1 / 2 * (wallFlux c (unitNormal g.s1 q.2) (onSide Q g.s1 q.2) alpha f d * v1))) := by
    unfold wallFlux; ring
  rw [e, abs_mul, abs_mul, abs_of_nonneg hwq, abs_of_pos hW]
  refine mul_le_mul_of_nonneg_left (mul_le_mul_of_nonneg_left ?_ hW.le) hwq
  rw [abs_mul, abs_of_pos (by norm_num : (0 : ℝ) < 1 / 2), abs_mul]
  have := mul_le_mul_of_nonneg_right key (abs_nonneg v1)
  nlinarith

lemma wall_le (h : ValidMesh S p) (hw : ∀ f ∈ faces S, ∀ x ∈ f.rule, 0 ≤ x.1) {Q : PField n ι} {u : State ι ℝ}
    (hu : Carries S Q u) {V : Side n ι → (Fin n → ℝ) → FieldT → Dir → ℝ} {a : ℝ} (hn : Near S Q V a) {g : MeshFace n ι}
    {c : BdrCond} (hg : (some c, g) ∈ S.interior) {s : Side n ι} (hs : g.s2 = some s)
    (hx : ∀ x, OnFace g x → Obeys c (unitNormal g.s1 x) (V g.s1 x) ∧ Obeys c (fun d => -unitNormal g.s1 x d) (V s x))
    {alpha : ℝ} (ha : 0 ≤ alpha) (f : FieldT) (d : Dir) (v : ι → ℝ) :
    |interiorTerm alpha u f d v (some c) g.toFace| ≤ faceBound ((4 + 4 * alpha) * a) g.toFace v := by
  have hg' : g ∈ faces S := mem_face (List.mem_append_left _ hg)
  have key : |wallTerm u f d (fluxCoeff c (altField f)) (if c ≠ .SMA then bdrCoeff c f * alpha else 1) g.toFace v| ≤
      faceBound ((4 + 4 * alpha) * a) g.toFace v := by
    unfold wallTerm faceBound
    change |((g.rule.map (point g)).map _).sum| ≤ ((g.rule.map (point g)).map _).sum
    rw [List.map_map, List.map_map]
    refine sum_abs_le _ _ _ fun q hq => ?_
    have hin : OnFace g q.2 := h.inside _ hg' q hq
    obtain ⟨hW, hN, hν⟩ := unit_facts h hg' q.2 hin
    have hN : ∀ d, normalTerm (point g q).nor d = (point g q).W * unitNormal g.s1 q.2 d := hN
    have o2 : ∀ f d, onOther Q g q.2 f d = onSide Q s q.2 f d := fun f d => by unfold onOther; rw [hs]
    simp only [Function.comp, wallPt, carries_one h hu hg', carries_two h hu hg', o2]
    rw [crossT_scale (W := (point g q).W) hN, crossT_scale (W := (point g q).W) hN, pen_scale (W := (point g q).W) hW hN,
      pen_scale (W := (point g q).W) hW hN]
    have hnear := fun f d => hn _ hg' q.2 hin f d
    have k1 := wallFlux_le ha hν (hx q.2 hin).1 (fun f d => (hnear f d).1) f d
    have k2 := wallFlux_le (ν := fun d => -unitNormal g.s1 q.2 d) ha (by simpa using hν) (hx q.2 hin).2 (fun f d => (hnear f d).2 s hs) f d
    have hwq : 0 ≤ q.1 := hw _ hg' q hq
    have hw' : (point g q).w = q.1 := rfl
    obtain ⟨v1, hv1⟩ : ∃ c, c = tr1 g.toFace (point g q) v := ⟨_, rfl⟩
    obtain ⟨v2, hv2⟩ : ∃ c, c = tr2 g.toFace (point g q) v := ⟨_, rfl⟩
    rw [← hv1, ← hv2, hw']
    obtain ⟨W, hWe⟩ : ∃ W, W = (point g q).W := ⟨_, rfl⟩
    rw [← hWe]
    have hW : 0 < W := by rw [hWe]; exact hW
    have e1 : ∀ t, cross (fun d => -unitNormal g.s1 q.2 d) t d = -cross (unitNormal g.s1 q.2) t d := fun t => by unfold cross; ring
    have e2 : ∀ t, tang (fun d => -unitNormal g.s1 q.2 d) t d = tang (unitNormal g.s1 q.2) t d := fun t => by
      unfold tang; simp only [Fin.sum_univ_three]; ring
    have e : q.1 / 2 * (sgn f * fluxCoeff c (altField f) *
        (-W * cross (unitNormal g.s1 q.2) (fun k => onSide Q g.s1 q.2 (altField f) k) d * v1 -
          -W * cross (unitNormal g.s1 q.2) (fun k => onSide Q s q.2 (altField f) k) d * v2) -
        (if c ≠ .SMA then bdrCoeff c f * alpha else 1) * (W * tang (unitNormal g.s1 q.2) (fun k => onSide Q g.s1 q.2 f k) d * v1 +
          W * tang (unitNormal g.s1 q.2) (fun k => onSide Q s q.2 f k) d * v2)) =
        q.1 * (W * (1 / 2 * (wallFlux c (unitNormal g.s1 q.2) (onSide Q g.s1 q.2) alpha f d * v1 +
          wallFlux c (fun d => -unitNormal g.s1 q.2 d) (onSide Q s q.2) alpha f d * v2))) := by
      unfold wallFlux; rw [e1, e2]; ring
    rw [e, abs_mul, abs_mul, abs_of_nonneg hwq, abs_of_pos hW]
    refine mul_le_mul_of_nonneg_left (mul_le_mul_of_nonneg_left ?_ hW.le) hwq
    rw [abs_mul, abs_of_pos (by norm_num : (0 : ℝ) < 1 / 2)]
    have t1 := mul_le_mul_of_nonneg_right k1 (abs_nonneg v1)
    have t2 := mul_le_mul_of_nonneg_right k2 (abs_nonneg v2)
    rw [← abs_mul] at t1 t2
    have := abs_add_le (wallFlux c (unitNormal g.s1 q.2) (onSide Q g.s1 q.2) alpha f d * v1)
      (wallFlux c (fun d => -unitNormal g.s1 q.2 d) (onSide Q s q.2) alpha f d * v2)
    nlinarith
  unfold interiorTerm
  cases c with
  | SGBC => exact absurd rfl (h.no_sgbc _ hg)
  | PEC => exact key
  | PMC => exact key
  | SMA => exact key

/-! ### the faces of all elements -/

/-- What the faces do to the test function on an element, at most. -/
noncomputable def elemBound (L ρ h J lam : ℝ) (v : ι → ℝ) (sh : Shape) (e : Elem n ι ℝ) : ℝ :=
  lam / 2 * ρ * L * intl sh (n + 1) (onElem e v ^ 2 * e.jac.det) + 3 * ρ * J ^ 2 / (2 * lam * h ^ 2) * intl sh (n + 1) e.jac.det

lemma side_bound (h : ValidMesh S p) {L : ℝ} (hL0 : 0 ≤ L) (hL : TraceBound n p L) {η ρ : ℝ} (hf : Fineness S η ρ) {J lam : ℝ} (hJ : 0 ≤ J)
    (hl : 0 < lam) {g : MeshFace n ι} (hg : g ∈ faces S) {s : Side n ι} (hs : s = g.s1 ∨ s ∈ g.s2) (v : ι → ℝ) :
    (g.rule.map fun q => q.1 * (stretch g.s1 q.2 * (J * |eval q.2 (s.restrict (onElem s.e v))|))).sum ≤
      elemBound L ρ η J lam v s.place.key.shape s.e := by
  obtain ⟨c, hc, hce, hck⟩ : ∃ c ∈ S.cells, s.e = c.e ∧ s.place.key.shape = c.shape := by
    rcases hs with rfl | hs
    · exact (side_cells h hg).1
    · exact (side_cells h hg).2 s hs
  have hside : (s.e, s.place.key) ∈ sides g := by
    rcases hs with rfl | hs
    · simp [sides]
    · have hs : g.s2 = some s := hs
      simp [sides, hs]
  have hsh : n < 2 ∨ g.s1.place.key.shape = s.place.key.shape := by
    rcases hs with rfl | hs
    · exact Or.inr rfl
    · exact meet_shape (h.two g hg s hs)
  have hi : intl g.s1.place.key.shape n = intl s.place.key.shape n := by
    rcases hsh with hsh | hsh
    · exact intl_one hsh _ _
    · rw [hsh]
  obtain ⟨δ, hδ, ⟨y0, hy0, hy0δ⟩, hmin⟩ := det_min h hc
  have hη := hf.pos
  have hρ := hf.rho
  have hW : ∀ x, OnFace g x → stretch g.s1 x ≤ ρ * δ / η := by
    intro x hx
    have := hf.height g hg _ hside x y0 hx (by change Inside s.place.key.shape y0; rw [hck]; exact hy0)
    change η * stretch g.s1 x ≤ ρ * eval y0 s.e.jac.det at this
    rw [hce, hy0δ] at this
    rw [le_div_iff₀ hη, mul_comm]; exact this
  have hex := h.surface _ hg
  have hord := order_le h.dim p g (h.two g hg)
  have hfld : Order s.place.key.shape p (onElem s.e v) := order_fld s.e (by rw [hce, hck]; exact h.shape c hc) v
  have hdeg : Order g.s1.place.key.shape p (s.restrict (onElem s.e v)) := by
    have := order_restrict s hfld
    rcases hsh with hsh | hsh
    · exact order_one hsh this _
    · rw [hsh]; exact this
  have x1 := hex (s.restrict (onElem s.e v) ^ 2) (by rw [sq]; exact order_mono (order_mul hdeg hdeg) (by omega))
  have x2 := hex 1 (order_mono (by simpa using order_C (D := n) g.s1.place.key.shape 1) (Nat.zero_le _))
  rw [← intl_eq, hi] at x1 x2
  have step : (g.rule.map fun q => q.1 * (stretch g.s1 q.2 * (J * |eval q.2 (s.restrict (onElem s.e v))|))).sum ≤
      (g.rule.map fun q => ρ * δ / η * (lam * η / 2 * (q.1 * eval q.2 (s.restrict (onElem s.e v) ^ 2)) +
        J ^ 2 / (2 * lam * η) * (q.1 * eval q.2 1))).sum := by
    refine List.sum_le_sum fun q hq => ?_
    have hin : OnFace g q.2 := h.inside _ hg q hq
    have hwq : 0 ≤ q.1 := hf.weights _ hg q hq
    have y := young (a := eval q.2 (s.restrict (onElem s.e v))) (J := J) hη hl
    have k1 : stretch g.s1 q.2 * (J * |eval q.2 (s.restrict (onElem s.e v))|) ≤ ρ * δ / η * (lam * η / 2 * eval q.2 (s.restrict (onElem s.e v)) ^ 2 +
        J ^ 2 / (2 * lam * η)) :=
      mul_le_mul (hW q.2 hin) y (mul_nonneg hJ (abs_nonneg _)) (by positivity)
    have k2 := mul_le_mul_of_nonneg_left k1 hwq
    rw [map_pow, map_one]
    refine k2.trans (le_of_eq (by ring))
  refine step.trans ?_
  rw [List.sum_map_mul_left, ← list_sum_add, List.sum_map_mul_left, List.sum_map_mul_left, x1, x2]
  have t1 : intl s.place.key.shape n (s.restrict (onElem s.e v) ^ 2) ≤ L * intl s.place.key.shape (n + 1) (onElem s.e v ^ 2) := hL s.place _ hfld
  have t2 := intl_const_le h.dim s.place.key.shape hδ.le
  have hmin' : ∀ y, Inside s.place.key.shape y → δ ≤ eval y s.e.jac.det := by rw [hce, hck]; exact hmin
  have d1 : δ * intl s.place.key.shape (n + 1) (onElem s.e v ^ 2) ≤ intl s.place.key.shape (n + 1) (onElem s.e v ^ 2 * s.e.jac.det) := by
    rw [← intl_scale]
    refine intl_mono (by have := h.dim; omega) _ _ _ fun x hx => ?_
    rw [map_mul, map_mul, eval_C, map_pow, mul_comm]
    exact mul_le_mul_of_nonneg_left (hmin' x hx) (sq_nonneg _)
  have d2 : intl s.place.key.shape (n + 1) (C δ) ≤ intl s.place.key.shape (n + 1) s.e.jac.det :=
    intl_mono (by have := h.dim; omega) _ _ _ fun x hx => by rw [eval_C]; exact hmin' x hx
  unfold elemBound
  have e1 : ρ * δ / η * (lam * η / 2 * intl s.place.key.shape n (s.restrict (onElem s.e v) ^ 2) + J ^ 2 / (2 * lam * η) * intl s.place.key.shape n 1) =
      lam / 2 * ρ * (δ * intl s.place.key.shape n (s.restrict (onElem s.e v) ^ 2)) +
        ρ * J ^ 2 / (2 * lam * η ^ 2) * (δ * intl s.place.key.shape n 1) := by
    field_simp
  have e2 : lam / 2 * ρ * L * intl s.place.key.shape (n + 1) (onElem s.e v ^ 2 * s.e.jac.det) +
        3 * ρ * J ^ 2 / (2 * lam * η ^ 2) * intl s.place.key.shape (n + 1) s.e.jac.det =
      lam / 2 * ρ * (L * intl s.place.key.shape (n + 1) (onElem s.e v ^ 2 * s.e.jac.det)) +
        ρ * J ^ 2 / (2 * lam * η ^ 2) * (3 * intl s.place.key.shape (n + 1) s.e.jac.det) := by ring
  rw [e1, e2]
  refine add_le_add (mul_le_mul_of_nonneg_left ?_ (by positivity)) (mul_le_mul_of_nonneg_left ?_ (by positivity))
  · refine (mul_le_mul_of_nonneg_left t1 hδ.le).trans ?_
    have := mul_le_mul_of_nonneg_left d1 hL0
    linarith
  · linarith

lemma keys_length (hn : n < 3) (sh : Shape) : (keys sh n).length ≤ 6 := by
  cases sh <;> simp [keys] <;> omega

lemma elemBound_nonneg (h : ValidMesh S p) {c : Cell n ι} (hc : c ∈ S.cells) {L ρ η J lam : ℝ} (hL : 0 ≤ L) (hρ : 0 ≤ ρ) (hl : 0 < lam)
    (v : ι → ℝ) : 0 ≤ elemBound L ρ η J lam v c.shape c.e := by
  have i1 : 0 ≤ intl c.shape (n + 1) (onElem c.e v ^ 2 * c.e.jac.det) := by rw [sq, intl_eq]; exact sq_nonneg' h hc _
  have i2 : 0 ≤ intl c.shape (n + 1) c.e.jac.det := by rw [intl_eq]; simpa using sq_nonneg' h hc 1
  exact add_nonneg (mul_nonneg (by positivity) i1) (mul_nonneg (by positivity) i2)

lemma faces_bound (h : ValidMesh S p) {L : ℝ} (hL0 : 0 ≤ L) (hL : TraceBound n p L) {η ρ : ℝ} (hf : Fineness S η ρ) {J lam : ℝ} (hJ : 0 ≤ J)
    (hl : 0 < lam) (v : ι → ℝ) : ((S.interior ++ S.bdr).map fun q => faceBound J q.2.toFace v).sum ≤
      (S.cells.map fun c => 6 * elemBound L ρ η J lam v c.shape c.e).sum := by
  have h1 : ((S.interior ++ S.bdr).map fun q => faceBound J q.2.toFace v).sum ≤
      ((S.interior ++ S.bdr).map fun q => ((sides q.2).map fun s => elemBound L ρ η J lam v s.2.shape s.1).sum).sum := by
    refine List.sum_le_sum fun q hq => ?_
    obtain ⟨o, g⟩ := q
    have hq := mem_face hq
    unfold faceBound
    change ((g.rule.map (point g)).map _).sum ≤ ((sides g).map _).sum
    rw [List.map_map]
    have e1 := fun x => face_tr1 g x v
    have b1 := side_bound h hL0 hL hf hJ hl hq (s := g.s1) (Or.inl rfl) v
    cases hs : g.s2 with
    | none =>
      have e2 := fun x => face_tr2_none g hs x v
      have : sides g = [(g.s1.e, g.s1.place.key)] := by simp [sides, hs]
      rw [this]
      simp only [List.map_cons, List.map_nil, List.sum_cons, List.sum_nil, add_zero, Function.comp_def, e1, e2, abs_zero]
      exact b1
    | some s =>
      have b2 := side_bound h hL0 hL hf hJ hl hq (s := s) (Or.inr hs) v
      have e2 := fun x => face_tr2 g hs x v
      have : sides g = [(g.s1.e, g.s1.place.key), (s.e, s.place.key)] := by simp [sides, hs]
      rw [this]
      simp only [List.map_cons, List.map_nil, List.sum_cons, List.sum_nil, add_zero, Function.comp_def, e1, e2]
      refine le_trans (le_of_eq ?_) (add_le_add b1 b2)
      rw [list_sum_add]
      congr 1
      refine List.map_congr_left fun x _ => ?_
      change x.1 * (stretch g.s1 x.2 * _) = _
      ring
  refine h1.trans ?_
  have e1 : ((S.interior ++ S.bdr).map fun q => ((sides q.2).map fun s => elemBound L ρ η J lam v s.2.shape s.1).sum).sum =
      (((faces S).flatMap sides).map fun s => elemBound L ρ η J lam v s.2.shape s.1).sum := by
    rw [faces, List.map_flatMap, sum_flat, List.map_map]
    rfl
  rw [e1, (h.cover.map fun s => elemBound L ρ η J lam v s.2.shape s.1).sum_eq, List.map_flatMap, sum_flat]
  refine List.sum_le_sum fun c hc => ?_
  rw [List.map_map]
  have : (keys c.shape n).map ((fun s : Elem n ι ℝ × Key n => elemBound L ρ η J lam v s.2.shape s.1) ∘ fun k => (c.e, k)) =
      List.replicate (keys c.shape n).length (elemBound L ρ η J lam v c.shape c.e) := by
    rw [List.eq_replicate_iff]
    refine ⟨by simp, fun b hb => ?_⟩
    obtain ⟨a, ha, rfl⟩ := List.mem_map.1 hb
    simp only [Function.comp, key_shape ha]
  rw [this, List.sum_replicate, nsmul_eq_mul]
  exact mul_le_mul_of_nonneg_right (by exact_mod_cast keys_length h.dim c.shape) (elemBound_nonneg h hc hL0 hf.rho hl v)

/-! ### the residual -/

/-- What polynomial fields leave over in Maxwell's equations. -/
noncomputable def resid (ms : List (Int × Material ℝ)) (Q R : PField n ι) (c : Cell n ι) : FieldT → Dir → Poly (n + 1) ℝ
  | .E, d => C (materialOf ms c.toCell).eps * R c.e .E d - curl (Q c.e .H) d + C (materialOf ms c.toCell).sigma * Q c.e .E d
  | .H, d => C (materialOf ms c.toCell).mu * R c.e .H d + curl (Q c.e .E) d

lemma resid_form (h : ValidMesh S p) (ms : List (Int × Material ℝ)) {Q R : PField n ι} {u r : State ι ℝ} (hu : Carries S Q u)
    (hr : Carries S R r) (f : FieldT) (d : Dir) (v : ι → ℝ) :
    form (massOf S ms f) v (r f d) - curlTerm (probOf S ms) u f d v + lossTerm (probOf S ms) u f d v =
      (S.cells.map fun c => intl c.shape (n + 1) (onElem c.e v * (c.e.jac.det * bind₁ c.e.geom (resid ms Q R c f d)))).sum := by
  rw [curl_exact h ms hu]
  cases f with
  | E =>
    change form (massMatrix (weighted S fun c => (materialOf ms c.toCell).eps)) v (r .E d) - _ +
      form (massMatrix (weighted S fun c => (materialOf ms c.toCell).sigma)) v (u .E d) = _
    rw [mass_intl h, mass_intl h, list_sum_sub, list_sum_add]
    congr 1
    refine List.map_congr_left fun c hc => ?_
    rw [hu c hc, hr c hc]
    have sg : (sgn FieldT.E : ℝ) = 1 := by simp [sgn, FieldT.idx]
    rw [sg, one_mul, ← intl_scale, ← intl_scale, ← map_sub, ← map_add]
    congr 1
    simp only [resid, altField, map_add, map_sub, map_mul, bind₁_C_right]
    ring
  | H =>
    change form (massMatrix (weighted S fun c => (materialOf ms c.toCell).mu)) v (r .H d) - _ + 0 = _
    rw [mass_intl h, add_zero, list_sum_sub]
    congr 1
    refine List.map_congr_left fun c hc => ?_
    rw [hr c hc]
    have sg : (sgn FieldT.H : ℝ) = -1 := by simp [sgn, FieldT.idx]; norm_num
    rw [sg, ← intl_scale, ← intl_scale, ← map_sub]
    congr 1
    simp only [resid, altField, map_add, map_mul, bind₁_C_right, map_neg, map_one]
    ring

lemma volume_eq (S : Setup n ι) : volume S = (S.cells.map fun c => intl c.shape (n + 1) c.e.jac.det).sum := by
  simp only [volume, intl_eq]

lemma volume_le (h : ValidMesh S p) {c : Cell n ι} (hc : c ∈ S.cells) {g : Poly (n + 1) ℝ} {G lam : ℝ} (hl : 0 < lam)
    (hg : ∀ y, InElem c.shape c.e y → |eval y g| ≤ G) (v : ι → ℝ) :
    intl c.shape (n + 1) (onElem c.e v * (c.e.jac.det * bind₁ c.e.geom g)) ≤
      lam / 2 * intl c.shape (n + 1) (onElem c.e v ^ 2 * c.e.jac.det) + G ^ 2 / (2 * lam) * intl c.shape (n + 1) c.e.jac.det := by
  rw [← intl_scale, ← intl_scale, ← map_add]
  refine intl_mono (by have := h.dim; omega) _ _ _ fun x hx => ?_
  have hδ := h.jacobian c hc x hx
  have hgx := hg (fun d => eval x (c.e.geom d)) ⟨x, hx, rfl⟩
  simp only [map_mul, map_add, map_pow, eval_C, eval_bind]
  obtain ⟨a, ha⟩ : ∃ a, a = eval x (onElem c.e v) := ⟨_, rfl⟩
  obtain ⟨b, hb⟩ : ∃ b, b = eval (fun d => eval x (c.e.geom d)) g := ⟨_, rfl⟩
  obtain ⟨δ, hd⟩ : ∃ δ, δ = eval x c.e.jac.det := ⟨_, rfl⟩
  rw [← ha, ← hb, ← hd]
  rw [← hb] at hgx
  rw [← hd] at hδ
  have y := young (a := a) (J := G) one_pos hl
  have : a * b ≤ G * |a| := by
    have h1 := le_abs_self (a * b)
    rw [abs_mul] at h1
    have := mul_le_mul_of_nonneg_left hgx (abs_nonneg a)
    linarith
  have := mul_le_mul_of_nonneg_left (this.trans y) hδ.le
  calc a * (δ * b) = δ * (a * b) := by ring
    _ ≤ _ := this
    _ = _ := by rw [mul_one, mul_one]; ring

/-- How far polynomial fields are from solving the equations of the mesh with the source `b`, when the faces and the source exert little. -/
lemma residual_core (h : ValidMesh S p) (ms : List (Int × Material ℝ)) (hm : ValidMaterials S ms) {L : ℝ} (hL0 : 0 ≤ L)
    (hL : TraceBound n p L) {η ρ : ℝ} (hf : Fineness S η ρ)
    {m0 : ℝ} (hm0 : 0 < m0) (hmin : ∀ c ∈ S.cells, m0 ≤ (materialOf ms c.toCell).eps ∧ m0 ≤ (materialOf ms c.toCell).mu)
    {Q R : PField n ι} {u r b : State ι ℝ} (hu : Carries S Q u) (hr : Carries S R r) {J G : ℝ} (hJ0 : 0 ≤ J)
    (hG : ∀ c ∈ S.cells, ∀ f d y, InElem c.shape c.e y → |eval y (resid ms Q R c f d)| ≤ G)
    (small : ∀ f d v, -((probOf S ms).interior.map fun q => interiorTerm (probOf S ms).alpha u f d v q.1 q.2).sum -
        ((probOf S ms).bdr.map fun q => exteriorTerm (probOf S ms).alpha u f d v q.1 q.2).sum - form (massOf S ms f) v (b f d) ≤
      ((S.interior ++ S.bdr).map fun q => faceBound J q.2.toFace v).sum) :
    energy (massOf S ms) (fun f d => r f d - (globalMult (probOf S ms) u f d + b f d)) ≤
      3 * ((1 + 6 * ρ * L) * (G ^ 2 + 18 * ρ * J ^ 2 / η ^ 2) / m0 * volume S) := by
  have hη := hf.pos
  have hρ := hf.rho
  have hgood := good_of h ms hm hf.weights
  have key : ∀ f d, form (massOf S ms f) (r f d - (globalMult (probOf S ms) u f d + b f d)) (r f d - (globalMult (probOf S ms) u f d + b f d)) ≤
      (1 + 6 * ρ * L) * (G ^ 2 + 18 * ρ * J ^ 2 / η ^ 2) / m0 * volume S := by
    intro f d
    obtain ⟨v, hv⟩ : ∃ v, v = r f d - (globalMult (probOf S ms) u f d + b f d) := ⟨_, rfl⟩
    rw [← hv]
    obtain ⟨lam, hlam⟩ : ∃ lam, lam = m0 / (1 + 6 * ρ * L) := ⟨_, rfl⟩
    have hA : 0 < 1 + 6 * ρ * L := by positivity
    have hl : 0 < lam := by rw [hlam]; positivity
    have hlo : m0 * (S.cells.map fun c => intl c.shape (n + 1) (onElem c.e v ^ 2 * c.e.jac.det)).sum ≤ form (massOf S ms f) v v := by
      have gen : ∀ g : Cell n ι → ℝ, (∀ c ∈ S.cells, m0 ≤ g c) →
          m0 * (S.cells.map fun c => intl c.shape (n + 1) (onElem c.e v ^ 2 * c.e.jac.det)).sum ≤ form (massMatrix (weighted S g)) v v := by
        intro g hg
        rw [mass_intl h, ← List.sum_map_mul_left]
        refine List.sum_le_sum fun c hc => ?_
        rw [sq]
        exact mul_le_mul_of_nonneg_right (hg c hc) (by rw [intl_eq]; exact sq_nonneg' h hc _)
      cases f with
      | E => exact gen _ fun c hc => (hmin c hc).1
      | H => exact gen _ fun c hc => (hmin c hc).2
    have hform : form (massOf S ms f) v v =
        (S.cells.map fun c => intl c.shape (n + 1) (onElem c.e v * (c.e.jac.det * bind₁ c.e.geom (resid ms Q R c f d)))).sum -
        (((probOf S ms).interior.map fun q => interiorTerm (probOf S ms).alpha u f d v q.1 q.2).sum +
        ((probOf S ms).bdr.map fun q => exteriorTerm (probOf S ms).alpha u f d v q.1 q.2).sum) - form (massOf S ms f) v (b f d) := by
      have e0 : form (massOf S ms f) v v = form (massOf S ms f) v (r f d) - weak (probOf S ms) u f d v - form (massOf S ms f) v (b f d) := by
        rw [← weak_test _ hgood]
        unfold form
        conv_lhs => rw [hv]
        rw [Matrix.mulVec_sub, dotProduct_sub, Matrix.mulVec_add, dotProduct_add, ← hv]
        ring
      rw [e0, weak_faces, ← resid_form h ms hu hr]
      ring
    have hI := small f d v
    have hfb := faces_bound h hL0 hL hf hJ0 hl v
    have hvol : (S.cells.map fun c => intl c.shape (n + 1) (onElem c.e v * (c.e.jac.det * bind₁ c.e.geom (resid ms Q R c f d)))).sum ≤
        (S.cells.map fun c => lam / 2 * intl c.shape (n + 1) (onElem c.e v ^ 2 * c.e.jac.det) + G ^ 2 / (2 * lam) * intl c.shape (n + 1) c.e.jac.det).sum :=
      List.sum_le_sum fun c hc => volume_le h hc hl (hG c hc f d) v
    have hfb2 : (S.cells.map fun c => 6 * elemBound L ρ η J lam v c.shape c.e).sum =
        (S.cells.map fun c => 6 * (lam / 2 * ρ * L * intl c.shape (n + 1) (onElem c.e v ^ 2 * c.e.jac.det) +
          3 * ρ * J ^ 2 / (2 * lam * η ^ 2) * intl c.shape (n + 1) c.e.jac.det)).sum := rfl
    obtain ⟨Ev, hEv⟩ : ∃ Ev, Ev = (S.cells.map fun c => intl c.shape (n + 1) (onElem c.e v ^ 2 * c.e.jac.det)).sum := ⟨_, rfl⟩
    have hv1 : (S.cells.map fun c => lam / 2 * intl c.shape (n + 1) (onElem c.e v ^ 2 * c.e.jac.det) + G ^ 2 / (2 * lam) * intl c.shape (n + 1) c.e.jac.det).sum =
        lam / 2 * Ev + G ^ 2 / (2 * lam) * volume S := by
      rw [← list_sum_add, List.sum_map_mul_left, List.sum_map_mul_left, hEv, volume_eq]
    have hv2 : (S.cells.map fun c => 6 * (lam / 2 * ρ * L * intl c.shape (n + 1) (onElem c.e v ^ 2 * c.e.jac.det) +
          3 * ρ * J ^ 2 / (2 * lam * η ^ 2) * intl c.shape (n + 1) c.e.jac.det)).sum =
        6 * (lam / 2 * ρ * L * Ev + 3 * ρ * J ^ 2 / (2 * lam * η ^ 2) * volume S) := by
      rw [List.sum_map_mul_left, ← list_sum_add, List.sum_map_mul_left, List.sum_map_mul_left, hEv, volume_eq]
    rw [hv1] at hvol
    rw [hv2] at hfb2
    rw [← hEv] at hlo
    have htot : form (massOf S ms f) v v ≤ lam / 2 * (1 + 6 * ρ * L) * Ev + (G ^ 2 + 18 * ρ * J ^ 2 / η ^ 2) / (2 * lam) * volume S := by
      have e : lam / 2 * (1 + 6 * ρ * L) * Ev + (G ^ 2 + 18 * ρ * J ^ 2 / η ^ 2) / (2 * lam) * volume S =
        (lam / 2 * Ev + G ^ 2 / (2 * lam) * volume S) + 6 * (lam / 2 * ρ * L * Ev + 3 * ρ * J ^ 2 / (2 * lam * η ^ 2) * volume S) := by
        field_simp
        ring
      rw [e]
      linarith
    have e1 : lam / 2 * (1 + 6 * ρ * L) * Ev = 1 / 2 * (m0 * Ev) := by rw [hlam]; field_simp
    have e2 : (G ^ 2 + 18 * ρ * J ^ 2 / η ^ 2) / (2 * lam) * volume S =
        1 / 2 * ((1 + 6 * ρ * L) * (G ^ 2 + 18 * ρ * J ^ 2 / η ^ 2) / m0 * volume S) := by rw [hlam]; field_simp
    rw [e1, e2] at htot
    linarith
  unfold energy
  simp only [Fin.sum_univ_three]
  have k := fun f d => key f d
  unfold form at k
  have := k .E 0; have := k .E 1; have := k .E 2; have := k .H 0; have := k .H 1; have := k .H 2
  linarith

/-- How far polynomial fields near a solution are from solving the equations of the mesh. -/
lemma residual_bound (h : ValidMesh S p) (ms : List (Int × Material ℝ)) (hm : ValidMaterials S ms) {L : ℝ} (hL0 : 0 ≤ L)
    (hL : TraceBound n p L) {η ρ : ℝ} (hf : Fineness S η ρ)
    {m0 : ℝ} (hm0 : 0 < m0) (hmin : ∀ c ∈ S.cells, m0 ≤ (materialOf ms c.toCell).eps ∧ m0 ≤ (materialOf ms c.toCell).mu) (hα : 0 ≤ S.alpha)
    {Q R : PField n ι} {u r : State ι ℝ} (hu : Carries S Q u) (hr : Carries S R r)
    {V : Side n ι → (Fin n → ℝ) → FieldT → Dir → ℝ} {a G : ℝ} (ha : 0 ≤ a) (hn : Near S Q V a)
    (hG : ∀ c ∈ S.cells, ∀ f d y, InElem c.shape c.e y → |eval y (resid ms Q R c f d)| ≤ G)
    (inner : ∀ q ∈ S.interior, q.1 = none → ∀ s ∈ q.2.s2, ∀ x, OnFace q.2 x → ∀ f d,
      cross (unitNormal q.2.s1 x) (fun k => V q.2.s1 x f k - V s x f k) d = 0)
    (walls : ∀ q ∈ S.interior, ∀ c, q.1 = some c → ∀ x, OnFace q.2 x →
      Obeys c (unitNormal q.2.s1 x) (V q.2.s1 x) ∧ ∀ s ∈ q.2.s2, Obeys c (fun d => -unitNormal q.2.s1 x d) (V s x))
    (outer : ∀ q ∈ S.bdr, ∀ c, q.1 = some c → ∀ x, OnFace q.2 x → Obeys c (unitNormal q.2.s1 x) (V q.2.s1 x)) :
    energy (massOf S ms) (fun f d => r f d - globalMult (probOf S ms) u f d) ≤
      3 * ((1 + 6 * ρ * L) * (G ^ 2 + 18 * ρ * ((4 + 4 * S.alpha) * a) ^ 2 / η ^ 2) / m0 * volume S) := by
  obtain ⟨J, hJ⟩ : ∃ J, J = (4 + 4 * S.alpha) * a := ⟨_, rfl⟩
  have hJ0 : 0 ≤ J := by rw [hJ]; positivity
  have key := residual_core h ms hm hL0 hL hf hm0 hmin hu hr (b := 0) hJ0 hG fun f d v => by
    have hI : -((probOf S ms).interior.map fun q => interiorTerm (probOf S ms).alpha u f d v q.1 q.2).sum ≤
        (S.interior.map fun q => faceBound J q.2.toFace v).sum := by
      refine (neg_le_abs _).trans ?_
      change |(S.interior.map fun q => (q.1, q.2.toFace)).map _ |>.sum| ≤ _
      rw [List.map_map]
      refine sum_abs_le _ _ _ fun q hq => ?_
      obtain ⟨o, g⟩ := q
      obtain ⟨s, hs⟩ := Option.ne_none_iff_exists'.1 (hf.two_sides _ hq)
      rw [hJ]
      cases o with
      | none => exact plain_le h hf.weights hu ha hn hq hs (fun x hx f d => inner _ hq rfl s hs x hx f d) hα f d v
      | some c => exact wall_le h hf.weights hu hn hq hs (fun x hx => ⟨(walls _ hq c rfl x hx).1, (walls _ hq c rfl x hx).2 s hs⟩) hα f d v
    have hB : -((probOf S ms).bdr.map fun q => exteriorTerm (probOf S ms).alpha u f d v q.1 q.2).sum ≤
        (S.bdr.map fun q => faceBound J q.2.toFace v).sum := by
      refine (neg_le_abs _).trans ?_
      change |(S.bdr.map fun q => (q.1, q.2.toFace)).map _ |>.sum| ≤ _
      rw [List.map_map]
      refine sum_abs_le _ _ _ fun q hq => ?_
      obtain ⟨o, g⟩ := q
      rw [hJ]
      cases o with
      | none => exact absurd rfl (h.bdr_cond _ hq)
      | some c => exact exterior_le h hf.weights hu hn hq (outer _ hq c rfl) hα f d v
    have z : form (massOf S ms f) v ((0 : State ι ℝ) f d) = 0 := by simp [form]
    rw [List.map_append, List.sum_append, z]
    linarith
  simp only [Pi.zero_apply, add_zero] at key
  rw [← hJ]
  exact key

end Dgtd.Straight
