/-
The residual of smooth fields in the equations of the mesh.
-/
import Verif.Lemmas.Trace
import Verif.Lemmas.Taylor
import Verif.Props.Polynomial
import Verif.Lemmas.OpRecip

set_option linter.unusedSectionVars false

namespace Dgtd.Galerkin
open MvPolynomial Spec Dgtd.Op Dgtd.Op.Spec
open Dgtd.Config (Material)

variable {n : Nat} {ι : Type}

/-! ### fluxes at a point -/

lemma unit_le {ν : Dir → ℝ} (h : ν 0 ^ 2 + ν 1 ^ 2 + ν 2 ^ 2 = 1) (k : Dir) : |ν k| ≤ 1 := by
  rw [← sq_le_one_iff_abs_le_one]
  have h0 := sq_nonneg (ν 0)
  have h1 := sq_nonneg (ν 1)
  have h2 := sq_nonneg (ν 2)
  fin_cases k
  · change ν 0 ^ 2 ≤ 1; linarith
  · change ν 1 ^ 2 ≤ 1; linarith
  · change ν 2 ^ 2 ≤ 1; linarith

lemma prod_le {ν e : Dir → ℝ} {a : ℝ} (hν : ∀ k, |ν k| ≤ 1) (he : ∀ k, |e k| ≤ a) (i j : Dir) : |ν i * e j| ≤ a := by
  rw [abs_mul]
  calc |ν i| * |e j| ≤ 1 * |e j| := mul_le_mul_of_nonneg_right (hν i) (abs_nonneg _)
    _ ≤ a := by rw [one_mul]; exact he j

lemma cross_le {ν e : Dir → ℝ} {a : ℝ} (hν : ∀ k, |ν k| ≤ 1) (he : ∀ k, |e k| ≤ a) (d : Dir) : |cross ν e d| ≤ 2 * a := by
  unfold cross
  refine (abs_sub _ _).trans ?_
  have := prod_le hν he (d + 1) (d + 2)
  have := prod_le hν he (d + 2) (d + 1)
  linarith

lemma tang_le {ν e : Dir → ℝ} {a : ℝ} (hν : ∀ k, |ν k| ≤ 1) (he : ∀ k, |e k| ≤ a) (d : Dir) : |tang ν e d| ≤ 4 * a := by
  unfold tang
  refine (abs_sub _ _).trans ?_
  rw [Fin.sum_univ_three, abs_mul]
  have h0 := prod_le hν he 0 0
  have h1 := prod_le hν he 1 1
  have h2 := prod_le hν he 2 2
  have h3 : |ν 0 * e 0 + ν 1 * e 1 + ν 2 * e 2| ≤ 3 * a := by
    refine (abs_add_le _ _).trans ?_
    have := abs_add_le (ν 0 * e 0) (ν 1 * e 1)
    linarith
  have h4 : |ν d| * |ν 0 * e 0 + ν 1 * e 1 + ν 2 * e 2| ≤ 1 * (3 * a) := mul_le_mul (hν d) h3 (abs_nonneg _) zero_le_one
  linarith [he d]

/-- What a boundary exerts. -/
noncomputable def wallFlux (c : BdrCond) (ν : Dir → ℝ) (val : FieldT → Dir → ℝ) (alpha : ℝ) (f : FieldT) (d : Dir) : ℝ :=
  sgn f * fluxCoeff c (altField f) * -cross ν (val (altField f)) d - (if c ≠ .SMA then bdrCoeff c f * alpha else 1) * tang ν (val f) d

lemma cross_sub (ν a b : Dir → ℝ) (d : Dir) : cross ν (fun k => a k - b k) d = cross ν a d - cross ν b d := by unfold cross; ring

lemma tang_sub (ν a b : Dir → ℝ) (d : Dir) : tang ν (fun k => a k - b k) d = tang ν a d - tang ν b d := by
  unfold tang; simp only [Fin.sum_univ_three]; ring

lemma coeff_le (c : BdrCond) (g : FieldT) : |(fluxCoeff c g : ℝ)| ≤ 2 ∧ |(bdrCoeff c g : ℝ)| ≤ 2 := by
  cases c <;> cases g <;> simp [fluxCoeff, bdrCoeff] <;> norm_num

lemma wallFlux_le {c : BdrCond} {ν : Dir → ℝ} {val ex : FieldT → Dir → ℝ} {alpha a : ℝ} (ha : 0 ≤ alpha)
    (hν : ν 0 ^ 2 + ν 1 ^ 2 + ν 2 ^ 2 = 1) (hx : Obeys c ν ex) (hv : ∀ f d, |val f d - ex f d| ≤ a) (f : FieldT) (d : Dir) :
    |wallFlux c ν val alpha f d| ≤ (8 + 8 * alpha) * a := by
  have h0 := obeys_zero hν hx alpha f d
  have h1 := cross_le (unit_le hν) (hv (altField f)) d
  have h2 := tang_le (unit_le hν) (hv f) d
  rw [cross_sub] at h1
  rw [tang_sub] at h2
  have e : wallFlux c ν val alpha f d = sgn f * fluxCoeff c (altField f) * -(cross ν (val (altField f)) d - cross ν (ex (altField f)) d) -
      (if c ≠ .SMA then bdrCoeff c f * alpha else 1) * (tang ν (val f) d - tang ν (ex f) d) := by
    unfold wallFlux; linear_combination h0
  have a0 : 0 ≤ a := (abs_nonneg _).trans (hv .E 0)
  have s1 : |(sgn f : ℝ) * fluxCoeff c (altField f)| ≤ 2 := by
    rw [abs_mul]
    have : |(sgn f : ℝ)| = 1 := by cases f <;> simp [sgn, FieldT.idx] <;> norm_num
    rw [this, one_mul]; exact (coeff_le c _).1
  have s2 : |(if c ≠ .SMA then bdrCoeff c f * alpha else 1 : ℝ)| ≤ 2 * alpha + 1 := by
    split
    · rw [abs_mul, abs_of_nonneg ha]
      have := mul_le_mul_of_nonneg_right (coeff_le c f).2 ha
      linarith
    · simp; linarith
  rw [e]
  refine (abs_sub _ _).trans ?_
  rw [abs_mul, abs_neg, abs_mul (ite _ _ _)]
  have p1 := mul_le_mul s1 h1 (abs_nonneg _) (by norm_num)
  have p2 := mul_le_mul s2 h2 (abs_nonneg _) (by linarith)
  have e : (8 + 8 * alpha) * a = 2 * (2 * a) + (2 * alpha + 1) * (4 * a) := by ring
  rw [e]
  exact add_le_add p1 p2

/-! ### faces -/

variable [Fintype ι] [DecidableEq ι] {S : Setup n ι} {p m : Nat}

/-- Exact values on the sides of the faces that the discrete field approaches up to `a`. -/
def Near (S : Setup n ι) (Q : PField n ι) (V : Side n ι ℝ → (Fin n → ℝ) → FieldT → Dir → ℝ) (a : ℝ) : Prop :=
  ∀ q ∈ S.interior ++ S.bdr, ∀ x, InSimplex x → ∀ f d, |onSide Q q.2.s1 x f d - V q.2.s1 x f d| ≤ a ∧
    ∀ s ∈ q.2.s2, |onSide Q s x f d - V s x f d| ≤ a

/-- What a face does to a test function, at most. -/
noncomputable def faceBound (J : ℝ) (F : Face ι ℝ) (v : ι → ℝ) : ℝ := (F.pts.map fun q => q.w * (q.W * (J * (|tr1 F q v| + |tr2 F q v|)))).sum

lemma sum_abs_le {α : Type} (l : List α) (f g : α → ℝ) (h : ∀ a ∈ l, |f a| ≤ g a) : |(l.map f).sum| ≤ (l.map g).sum := by
  induction l with
  | nil => simp
  | cons a l ih =>
    simp only [List.map_cons, List.sum_cons]
    refine (abs_add_le _ _).trans (add_le_add (h a List.mem_cons_self) (ih fun b hb => h b (List.mem_cons_of_mem _ hb)))

/-- A face whose sides see each other, when the jumps are near jumps without tangential part. -/
lemma jump_le (h : ValidMesh S p m) (hw : ∀ q ∈ S.interior ++ S.bdr, ∀ x ∈ q.2.rule, 0 ≤ x.1) {u : State ι ℝ} {a : ℝ} (a0 : 0 ≤ a)
    {g : MeshFace n ι} (hg : (none, g) ∈ S.interior)
    (hj : ∀ q ∈ g.rule, ∃ j : FieldT → Dir → ℝ, (∀ f d, cross (unitNormal g.s1 q.2) (j f) d = 0) ∧
      ∀ f k, |(tr1 g.fem.toFace (point g.fem q) (u f k) - tr2 g.fem.toFace (point g.fem q) (u f k)) - j f k| ≤ 2 * a)
    {alpha : ℝ} (ha : 0 ≤ alpha) (f : FieldT) (d : Dir) (v : ι → ℝ) :
    |plainTerm u f d 1 alpha g.fem.toFace v| ≤ faceBound ((4 + 4 * alpha) * a) g.fem.toFace v := by
  have hg' : (none, g) ∈ S.interior ++ S.bdr := List.mem_append_left _ hg
  unfold plainTerm faceBound
  change |((g.rule.map (point g.fem)).map _).sum| ≤ ((g.rule.map (point g.fem)).map _).sum
  rw [List.map_map, List.map_map]
  refine sum_abs_le _ _ _ fun q hq => ?_
  have hin : InSimplex q.2 := h.inside _ hg' q hq
  obtain ⟨hW, hN, hν⟩ := unit_facts h hg' q.2 hin
  have hN : ∀ d, normalTerm (point g.fem q).nor d = (point g.fem q).W * unitNormal g.s1 q.2 d := hN
  simp only [Function.comp, plainPt]
  rw [crossT_scale (W := (point g.fem q).W) hN, pen_scale (W := (point g.fem q).W) hW hN]
  obtain ⟨j, hx, hj⟩ := hj q hq
  have h1 := cross_le (unit_le hν) (hj (altField f)) d
  have h2 := tang_le (unit_le hν) (hj f) d
  rw [cross_sub _ _ (j (altField f)), hx] at h1
  rw [tang_sub _ _ (j f), tang_zero hν fun d => hx f d] at h2
  rw [sub_zero] at h1 h2
  have hwq : 0 ≤ q.1 := hw _ hg' q hq
  obtain ⟨c1, hc1⟩ : ∃ c, c = cross (unitNormal g.s1 q.2) (fun k => tr1 g.fem.toFace (point g.fem q) (u (altField f) k) -
    tr2 g.fem.toFace (point g.fem q) (u (altField f) k)) d := ⟨_, rfl⟩
  obtain ⟨t1, ht1⟩ : ∃ c, c = tang (unitNormal g.s1 q.2) (fun k => tr1 g.fem.toFace (point g.fem q) (u f k) -
    tr2 g.fem.toFace (point g.fem q) (u f k)) d := ⟨_, rfl⟩
  obtain ⟨v1, hv1⟩ : ∃ c, c = tr1 g.fem.toFace (point g.fem q) v := ⟨_, rfl⟩
  obtain ⟨v2, hv2⟩ : ∃ c, c = tr2 g.fem.toFace (point g.fem q) v := ⟨_, rfl⟩
  have hw' : (point g.fem q).w = q.1 := rfl
  rw [← hc1] at h1 ⊢
  rw [← ht1] at h2 ⊢
  rw [← hv1, ← hv2, hw']
  obtain ⟨W, hWe⟩ : ∃ W, W = (point g.fem q).W := ⟨_, rfl⟩
  rw [← hWe]
  have hW : 0 < W := by rw [hWe]; exact hW
  have sg : |(sgn f : ℝ)| = 1 := by cases f <;> simp [sgn, FieldT.idx] <;> norm_num
  have e : q.1 / 2 * (sgn f * 1 * (-W * c1) * (v1 + v2) - alpha * (W * t1) * (v1 - v2)) =
      q.1 * (W * (1 / 2 * (sgn f * -c1 * (v1 + v2) - alpha * t1 * (v1 - v2)))) := by ring
  rw [e, abs_mul, abs_mul, abs_of_nonneg hwq, abs_of_pos hW]
  refine mul_le_mul_of_nonneg_left (mul_le_mul_of_nonneg_left ?_ hW.le) hwq
  rw [abs_mul, abs_of_pos (by norm_num : (0 : ℝ) < 1 / 2)]
  have k1 : |sgn f * -c1 * (v1 + v2)| ≤ 2 * (2 * a) * (|v1| + |v2|) := by
    rw [abs_mul, abs_mul, sg, one_mul, abs_neg]
    exact mul_le_mul h1 (abs_add_le _ _) (abs_nonneg _) ((abs_nonneg _).trans h1)
  have k2 : |alpha * t1 * (v1 - v2)| ≤ alpha * (4 * (2 * a)) * (|v1| + |v2|) := by
    rw [abs_mul, abs_mul, abs_of_nonneg ha]
    exact mul_le_mul (mul_le_mul_of_nonneg_left h2 ha) (abs_sub _ _) (abs_nonneg _) (mul_nonneg ha ((abs_nonneg _).trans h2))
  have k3 := abs_sub (sgn f * -c1 * (v1 + v2)) (alpha * t1 * (v1 - v2))
  have vv : 0 ≤ a * (|v1| + |v2|) := mul_nonneg a0 (add_nonneg (abs_nonneg _) (abs_nonneg _))
  nlinarith

lemma plain_le (h : ValidMesh S p m) (hw : ∀ q ∈ S.interior ++ S.bdr, ∀ x ∈ q.2.rule, 0 ≤ x.1) {Q : PField n ι} {u : State ι ℝ}
    (hu : Carries S Q u) {V : Side n ι ℝ → (Fin n → ℝ) → FieldT → Dir → ℝ} {a : ℝ} (ha0 : 0 ≤ a) (hn : Near S Q V a) {g : MeshFace n ι}
    (hg : (none, g) ∈ S.interior) {s : Side n ι ℝ} (hs : g.s2 = some s)
    (hx : ∀ x, InSimplex x → ∀ f d, cross (unitNormal g.s1 x) (fun k => V g.s1 x f k - V s x f k) d = 0)
    {alpha : ℝ} (ha : 0 ≤ alpha) (f : FieldT) (d : Dir) (v : ι → ℝ) :
    |plainTerm u f d 1 alpha g.fem.toFace v| ≤ faceBound ((4 + 4 * alpha) * a) g.fem.toFace v := by
  have hg' : (none, g) ∈ S.interior ++ S.bdr := List.mem_append_left _ hg
  refine jump_le h hw ha0 hg (fun q hq => ?_) ha f d v
  have hin : InSimplex q.2 := h.inside _ hg' q hq
  refine ⟨fun f k => V g.s1 q.2 f k - V s q.2 f k, fun f d => hx q.2 hin f d, fun f k => ?_⟩
  have o2 : onOther Q g q.2 f k = onSide Q s q.2 f k := by unfold onOther; rw [hs]
  rw [carries_one h hu hg', carries_two h hu hg', o2]
  have h1 := (hn _ hg' q.2 hin f k).1
  have h2 := (hn _ hg' q.2 hin f k).2 s hs
  have e : (onSide Q g.s1 q.2 f k - onSide Q s q.2 f k) - (V g.s1 q.2 f k - V s q.2 f k) =
    (onSide Q g.s1 q.2 f k - V g.s1 q.2 f k) - (onSide Q s q.2 f k - V s q.2 f k) := by ring
  rw [e]
  refine (abs_sub _ _).trans (by linarith)

lemma exterior_le (h : ValidMesh S p m) (hw : ∀ q ∈ S.interior ++ S.bdr, ∀ x ∈ q.2.rule, 0 ≤ x.1) {Q : PField n ι} {u : State ι ℝ}
    (hu : Carries S Q u) {V : Side n ι ℝ → (Fin n → ℝ) → FieldT → Dir → ℝ} {a : ℝ} (hn : Near S Q V a) {g : MeshFace n ι}
    {c : BdrCond} (hg : (some c, g) ∈ S.bdr) (hx : ∀ x, InSimplex x → Obeys c (unitNormal g.s1 x) (V g.s1 x))
    {alpha : ℝ} (ha : 0 ≤ alpha) (f : FieldT) (d : Dir) (v : ι → ℝ) :
    |exteriorTerm alpha u f d v (some c) g.fem.toFace| ≤ faceBound ((4 + 4 * alpha) * a) g.fem.toFace v := by
  have hg' : (some c, g) ∈ S.interior ++ S.bdr := List.mem_append_right _ hg
  have hs : g.s2 = none := h.bdr_one_side _ hg
  unfold exteriorTerm plainTerm faceBound
  change |((g.rule.map (point g.fem)).map _).sum| ≤ ((g.rule.map (point g.fem)).map _).sum
  rw [List.map_map, List.map_map]
  refine sum_abs_le _ _ _ fun q hq => ?_
  have hin : InSimplex q.2 := h.inside _ hg' q hq
  obtain ⟨hW, hN, hν⟩ := unit_facts h hg' q.2 hin
  have hN : ∀ d, normalTerm (point g.fem q).nor d = (point g.fem q).W * unitNormal g.s1 q.2 d := hN
  have t2 : tr2 g.fem.toFace (point g.fem q) v = 0 := by
    rw [trace2_eq]; unfold trace2; change eval q.2 (match g.s2 with | some s => s.restrict (fld s.e v) | none => 0) = 0
    rw [hs]; simp
  have o2 : ∀ f d, onOther Q g q.2 f d = 0 := fun f d => by unfold onOther; rw [hs]
  simp only [Function.comp, plainPt, carries_one h hu hg', carries_two h hu hg', o2, sub_zero, t2, add_zero, abs_zero]
  rw [crossT_scale (W := (point g.fem q).W) hN, pen_scale (W := (point g.fem q).W) hW hN]
  have hnear := fun f d => hn _ hg' q.2 hin f d
  have key := wallFlux_le ha hν (hx q.2 hin) (fun f d => (hnear f d).1) f d
  have hwq : 0 ≤ q.1 := hw _ hg' q hq
  have hw' : (point g.fem q).w = q.1 := rfl
  obtain ⟨v1, hv1⟩ : ∃ c, c = tr1 g.fem.toFace (point g.fem q) v := ⟨_, rfl⟩
  rw [← hv1, hw']
  obtain ⟨W, hWe⟩ : ∃ W, W = (point g.fem q).W := ⟨_, rfl⟩
  rw [← hWe]
  have hW : 0 < W := by rw [hWe]; exact hW
  have e : q.1 / 2 * (sgn f * fluxCoeff c (altField f) * (-W * cross (unitNormal g.s1 q.2) (fun k => onSide Q g.s1 q.2 (altField f) k) d) * v1 -
      (if c ≠ .SMA then bdrCoeff c f * alpha else 1) * (W * tang (unitNormal g.s1 q.2) (fun k => onSide Q g.s1 q.2 f k) d) * v1) =
      q.1 * (W * (1 / 2 * (wallFlux c (unitNormal g.s1 q.2) (onSide Q g.s1 q.2) alpha f d * v1))) := by
    unfold wallFlux; ring
  rw [e, abs_mul, abs_mul, abs_of_nonneg hwq, abs_of_pos hW]
  refine mul_le_mul_of_nonneg_left (mul_le_mul_of_nonneg_left ?_ hW.le) hwq
  rw [abs_mul, abs_of_pos (by norm_num : (0 : ℝ) < 1 / 2), abs_mul]
  have := mul_le_mul_of_nonneg_right key (abs_nonneg v1)
  nlinarith

lemma wall_le (h : ValidMesh S p m) (hw : ∀ q ∈ S.interior ++ S.bdr, ∀ x ∈ q.2.rule, 0 ≤ x.1) {Q : PField n ι} {u : State ι ℝ}
    (hu : Carries S Q u) {V : Side n ι ℝ → (Fin n → ℝ) → FieldT → Dir → ℝ} {a : ℝ} (hn : Near S Q V a) {g : MeshFace n ι}
    {c : BdrCond} (hg : (some c, g) ∈ S.interior) {s : Side n ι ℝ} (hs : g.s2 = some s)
    (hx : ∀ x, InSimplex x → Obeys c (unitNormal g.s1 x) (V g.s1 x) ∧ Obeys c (fun d => -unitNormal g.s1 x d) (V s x))
    {alpha : ℝ} (ha : 0 ≤ alpha) (f : FieldT) (d : Dir) (v : ι → ℝ) :
    |interiorTerm alpha u f d v (some c) g.fem.toFace| ≤ faceBound ((4 + 4 * alpha) * a) g.fem.toFace v := by
  have hg' : (some c, g) ∈ S.interior ++ S.bdr := List.mem_append_left _ hg
  have key : |wallTerm u f d (fluxCoeff c (altField f)) (if c ≠ .SMA then bdrCoeff c f * alpha else 1) g.fem.toFace v| ≤
      faceBound ((4 + 4 * alpha) * a) g.fem.toFace v := by
    unfold wallTerm faceBound
    change |((g.rule.map (point g.fem)).map _).sum| ≤ ((g.rule.map (point g.fem)).map _).sum
    rw [List.map_map, List.map_map]
    refine sum_abs_le _ _ _ fun q hq => ?_
    have hin : InSimplex q.2 := h.inside _ hg' q hq
    obtain ⟨hW, hN, hν⟩ := unit_facts h hg' q.2 hin
    have hN : ∀ d, normalTerm (point g.fem q).nor d = (point g.fem q).W * unitNormal g.s1 q.2 d := hN
    have o2 : ∀ f d, onOther Q g q.2 f d = onSide Q s q.2 f d := fun f d => by unfold onOther; rw [hs]
    simp only [Function.comp, wallPt, carries_one h hu hg', carries_two h hu hg', o2]
    rw [crossT_scale (W := (point g.fem q).W) hN, crossT_scale (W := (point g.fem q).W) hN, pen_scale (W := (point g.fem q).W) hW hN,
      pen_scale (W := (point g.fem q).W) hW hN]
    have hnear := fun f d => hn _ hg' q.2 hin f d
    have k1 := wallFlux_le ha hν (hx q.2 hin).1 (fun f d => (hnear f d).1) f d
    have k2 := wallFlux_le (ν := fun d => -unitNormal g.s1 q.2 d) ha (by simpa using hν) (hx q.2 hin).2 (fun f d => (hnear f d).2 s hs) f d
    have hwq : 0 ≤ q.1 := hw _ hg' q hq
    have hw' : (point g.fem q).w = q.1 := rfl
    obtain ⟨v1, hv1⟩ : ∃ c, c = tr1 g.fem.toFace (point g.fem q) v := ⟨_, rfl⟩
    obtain ⟨v2, hv2⟩ : ∃ c, c = tr2 g.fem.toFace (point g.fem q) v := ⟨_, rfl⟩
    rw [← hv1, ← hv2, hw']
    obtain ⟨W, hWe⟩ : ∃ W, W = (point g.fem q).W := ⟨_, rfl⟩
    rw [← hWe]
    have hW : 0 < W := by rw [hWe]; exact hW
    have e1 : ∀ t, cross (fun d => -unitNormal g.s1 q.2 d) t d = -cross (unitNormal g.s1 q.2) t d := fun t => by unfold cross; ring
    have e2 : ∀ t, tang (fun d => -unitNormal g.s1 q.2 d) t d = tang (unitNormal g.s1 q.2) t d := fun t => by
      unfold tang; simp only [Fin.sum_univ_three]; ring
    have e : q.1 / 2 * (sgn f * fluxCoeff c (altField f) *
        (-W * cross (unitNormal g.s1 q.2) (fun k => onSide Q g.s1 q.2 (altField f) k) d * v1 -
          -W * cross (unitNormal g.s1 q.2) (fun k => onSide Q s q.2 (altField f) k) d * v2) -
        (if c ≠ .SMA then bdrCoeff c f * alpha else 1) * (W * tang (unitNormal g.s1 q.2) (fun k => onSide Q g.s1 q.2 f k) d * v1 +
          W * tang (unitNormal g.s1 q.2) (fun k => onSide Q s q.2 f k) d * v2)) =
        q.1 * (W * (1 / 2 * (wallFlux c (unitNormal g.s1 q.2) (onSide Q g.s1 q.2) alpha f d * v1 +
          wallFlux c (fun d => -unitNormal g.s1 q.2 d) (onSide Q s q.2) alpha f d * v2))) := by
      unfold wallFlux; rw [e1, e2]; ring
    rw [e, abs_mul, abs_mul, abs_of_nonneg hwq, abs_of_pos hW]
    refine mul_le_mul_of_nonneg_left (mul_le_mul_of_nonneg_left ?_ hW.le) hwq
    rw [abs_mul, abs_of_pos (by norm_num : (0 : ℝ) < 1 / 2)]
    have t1 := mul_le_mul_of_nonneg_right k1 (abs_nonneg v1)
    have t2 := mul_le_mul_of_nonneg_right k2 (abs_nonneg v2)
    rw [← abs_mul] at t1 t2
    have := abs_add_le (wallFlux c (unitNormal g.s1 q.2) (onSide Q g.s1 q.2) alpha f d * v1)
      (wallFlux c (fun d => -unitNormal g.s1 q.2 d) (onSide Q s q.2) alpha f d * v2)
    nlinarith
  unfold interiorTerm
  cases c with
  | SGBC => exact absurd rfl (h.no_sgbc _ hg)
  | PEC => exact key
  | PMC => exact key
  | SMA => exact key

/-! ### the faces of all elements -/

lemma good_fem (h : ValidMesh S p m) (ms : List (Int × Material ℝ)) (hm : ValidMaterials S ms)
    (hw : ∀ q ∈ S.interior ++ S.bdr, ∀ x ∈ q.2.rule, 0 ≤ x.1) : Good (femOf S ms).prob (massOf S ms) := by
  have hr := regular_of h ms hm
  have hs : Simplicial (femOf S ms) p m := simplicial_matrices h.simplicial _ _
  refine ⟨hr.dim_le, fun f hfm q hq => ?_, sbp _ hs, hr.bdr_cond, hr.bdr_one_side, hr.no_sgbc, hr.inv, hr.symm⟩
  have hg := hr.pts f hfm q hq
  refine ⟨?_, hg.W_pos, hg.size, hg.norm⟩
  have : f ∈ (Spec.faces (femOf S ms)).map FemFace.toFace := by
    simpa [allFaces, Fem.prob, Spec.faces, List.map_map, Function.comp_def] using hfm
  obtain ⟨g, hgm, rfl⟩ := List.mem_map.1 this
  have hgm : g ∈ (S.interior ++ S.bdr).map fun q => q.2.fem := by
    simpa [Spec.faces, femOf, Setup.skeleton, List.map_map, Function.comp_def] using hgm
  obtain ⟨mf, hmf, rfl⟩ := List.mem_map.1 hgm
  obtain ⟨x, hx, rfl⟩ := List.mem_map.1 hq
  exact hw mf hmf x hx

lemma integral_const {D : Nat} (a : ℝ) : integral D (C a : Poly D ℝ) = a / (D.factorial : ℝ) := by
  have h1 : integral D (1 : Poly D ℝ) = 1 / (D.factorial : ℝ) := by
    have : (1 : Poly D ℝ) = basisMonomials (Fin D) ℝ 0 := by simp
    rw [this, integral, Module.Basis.constr_basis]
    simp [moment]
  have : (C a : Poly D ℝ) = C a * 1 := by rw [mul_one]
  rw [this, integral_scale, h1]; ring

lemma integral_const_le (hn : n < 3) {a : ℝ} (ha : 0 ≤ a) : a * integral n (1 : Poly n ℝ) ≤ 3 * integral (n + 1) (C a : Poly (n + 1) ℝ) := by
  rw [← C_1, integral_const, integral_const, Nat.factorial_succ]
  have h1 : (0 : ℝ) < (n.factorial : ℝ) := by exact_mod_cast Nat.factorial_pos n
  have h2 : ((n + 1 : ℕ) : ℝ) ≤ 3 := by exact_mod_cast (show n + 1 ≤ 3 by omega)
  have h3 : (0 : ℝ) < ((n + 1 : ℕ) : ℝ) := by positivity
  rw [Nat.cast_mul, mul_one_div, ← mul_div_assoc, div_le_div_iff₀ h1 (by positivity)]
  have : a * ((n + 1 : ℕ) : ℝ) ≤ 3 * a := by nlinarith
  nlinarith

lemma det_const (h : ValidMesh S p 1) {c : Cell n ι} (hc : c ∈ S.cells) : ∃ δ, 0 < δ ∧ c.e.jac.det = C δ := by
  have hd : c.e.jac.det.totalDegree = 0 := by
    have := degree_det h.simplicial.dim c.e (h.geom hc)
    simpa [orderW] using this
  refine ⟨coeff 0 c.e.jac.det, ?_, totalDegree_eq_zero_iff_eq_C.1 hd⟩
  have := h.jacobian c hc 0 ⟨fun i => le_rfl, by simp⟩
  rw [totalDegree_eq_zero_iff_eq_C.1 hd, eval_C] at this
  exact this

/-- What the faces do to the test function on an element, at most. -/
noncomputable def elemBound (L ρ h J lam : ℝ) (v : ι → ℝ) (e : Elem n ι ℝ) : ℝ :=
  lam / 2 * ρ * L * integral (n + 1) (onElem e v ^ 2 * e.jac.det) + 3 * ρ * J ^ 2 / (2 * lam * h ^ 2) * integral (n + 1) e.jac.det

lemma young {a J h lam : ℝ} (hh : 0 < h) (hl : 0 < lam) : J * |a| ≤ lam * h / 2 * a ^ 2 + J ^ 2 / (2 * lam * h) := by
  have h1 : 0 < 2 * lam * h := by positivity
  rw [← sq_abs a, ← sub_nonneg]
  have : lam * h / 2 * |a| ^ 2 + J ^ 2 / (2 * lam * h) - J * |a| = (lam * h * |a| - J) ^ 2 / (2 * lam * h) := by
    field_simp; ring
  rw [this]
  positivity

lemma side_bound (h : ValidMesh S p 1) {L : ℝ}
    (hL : ∀ (face : Option (Fin (n + 1))) (turn : Equiv.Perm (Fin (n + 1))) (v : Poly (n + 1) ℝ), v.totalDegree ≤ p →
      integral n (bind₁ (loc face turn) v ^ 2) ≤ L * integral (n + 1) (v ^ 2)) {η ρ : ℝ} (hf : Fineness S η ρ) {J lam : ℝ} (hJ : 0 ≤ J) (hl : 0 < lam)
    {o : Option BdrCond} {g : MeshFace n ι} (hg : (o, g) ∈ S.interior ++ S.bdr) {s : Side n ι ℝ} (hs : s = g.s1 ∨ s ∈ g.s2) (v : ι → ℝ) :
    (g.rule.map fun q => q.1 * (g.fem.W q.2 * (J * |eval q.2 (s.restrict (onElem s.e v))|))).sum ≤ elemBound L ρ η J lam v s.e := by
  obtain ⟨c, hc, hce⟩ : ∃ c ∈ S.cells, s.e = c.e := by
    rcases hs with rfl | hs
    · exact (sides_cells h hg).1
    · exact (sides_cells h hg).2 s hs
  have hsh : Shares S g s.e := ⟨⟨o, hg⟩, by
    rcases hs with rfl | hs
    · exact Or.inl rfl
    · exact Or.inr ⟨s, hs, rfl⟩⟩
  obtain ⟨δ, hδ, hdet⟩ := det_const h hc
  have hη := hf.pos
  have hW : ∀ x, InSimplex x → g.fem.W x ≤ ρ * δ / η := by
    intro x hx
    have := hf.height g s.e hsh x 0 hx ⟨fun i => le_rfl, by simp⟩
    rw [hce, hdet, eval_C] at this
    rw [le_div_iff₀ hη, mul_comm]; exact this
  have hface : g.fem ∈ Spec.faces S.skeleton := by
    simp only [Spec.faces, Setup.skeleton, List.map_map, ← List.map_append]
    exact List.mem_map_of_mem (f := fun q : Option BdrCond × MeshFace n ι => q.2.fem) hg
  have hex := h.simplicial.surface _ hface
  have hord := order_le (n := n) (p := p) (m := 1) g.fem.s2
  have hdeg : (s.restrict (onElem s.e v)).totalDegree ≤ p := degree_restrict s (by
    rw [hce]; exact fld_degree c.e (h.shape hc) v)
  have x1 := hex (s.restrict (onElem s.e v) ^ 2) (by rw [sq]; exact (degree_mul_le hdeg hdeg).trans (by omega))
  have x2 := hex 1 (by simp)
  have hrule : g.fem.rule = g.rule := rfl
  rw [hrule] at x1 x2
  have step : (g.rule.map fun q => q.1 * (g.fem.W q.2 * (J * |eval q.2 (s.restrict (onElem s.e v))|))).sum ≤
      (g.rule.map fun q => ρ * δ / η * (lam * η / 2 * (q.1 * eval q.2 (s.restrict (onElem s.e v) ^ 2)) +
        J ^ 2 / (2 * lam * η) * (q.1 * eval q.2 1))).sum := by
    refine List.sum_le_sum fun q hq => ?_
    have hin : InSimplex q.2 := h.inside _ hg q hq
    have hwq : 0 ≤ q.1 := hf.weights _ hg q hq
    have y := young (a := eval q.2 (s.restrict (onElem s.e v))) (J := J) hη hl
    have k1 : g.fem.W q.2 * (J * |eval q.2 (s.restrict (onElem s.e v))|) ≤ ρ * δ / η * (lam * η / 2 * eval q.2 (s.restrict (onElem s.e v)) ^ 2 +
        J ^ 2 / (2 * lam * η)) :=
      mul_le_mul (hW q.2 hin) y (mul_nonneg hJ (abs_nonneg _)) (by have := hf.rho; positivity)
    have k2 := mul_le_mul_of_nonneg_left k1 hwq
    rw [map_pow, map_one]
    refine k2.trans (le_of_eq (by ring))
  refine step.trans ?_
  rw [List.sum_map_mul_left, ← list_sum_add, List.sum_map_mul_left, List.sum_map_mul_left, x1, x2]
  have t1 := hL s.face s.turn (onElem s.e v) (by rw [hce]; exact fld_degree c.e (h.shape hc) v)
  have t2 := integral_const_le h.simplicial.dim hδ.le
  unfold elemBound
  rw [hce, hdet] at *
  rw [mul_comm (onElem c.e v ^ 2) (C δ), integral_scale]
  have t1 : integral n (s.restrict (onElem c.e v) ^ 2) ≤ L * integral (n + 1) (onElem c.e v ^ 2) := t1
  have e1 : ρ * δ / η * (lam * η / 2 * integral n (s.restrict (onElem c.e v) ^ 2) + J ^ 2 / (2 * lam * η) * integral n 1) =
      lam / 2 * ρ * (δ * integral n (s.restrict (onElem c.e v) ^ 2)) + ρ * J ^ 2 / (2 * lam * η ^ 2) * (δ * integral n 1) := by
    field_simp
  have e2 : lam / 2 * ρ * L * (δ * integral (n + 1) (onElem c.e v ^ 2)) + 3 * ρ * J ^ 2 / (2 * lam * η ^ 2) * integral (n + 1) (C δ) =
      lam / 2 * ρ * (δ * (L * integral (n + 1) (onElem c.e v ^ 2))) + ρ * J ^ 2 / (2 * lam * η ^ 2) * (3 * integral (n + 1) (C δ)) := by ring
  rw [e1, e2]
  have hρ := hf.rho
  exact add_le_add (mul_le_mul_of_nonneg_left (mul_le_mul_of_nonneg_left t1 hδ.le) (by positivity))
    (mul_le_mul_of_nonneg_left t2 (by positivity))

lemma sum_flat {α : Type} (l : List α) (f : α → List ℝ) : (l.flatMap f).sum = (l.map fun a => (f a).sum).sum := by
  induction l with
  | nil => rfl
  | cons a l ih => rw [List.flatMap_cons, List.sum_append, ih, List.map_cons, List.sum_cons]

lemma faces_bound (h : ValidMesh S p 1) {L : ℝ}
    (hL : ∀ (face : Option (Fin (n + 1))) (turn : Equiv.Perm (Fin (n + 1))) (v : Poly (n + 1) ℝ), v.totalDegree ≤ p →
      integral n (bind₁ (loc face turn) v ^ 2) ≤ L * integral (n + 1) (v ^ 2)) {η ρ : ℝ} (hf : Fineness S η ρ) {J lam : ℝ} (hJ : 0 ≤ J) (hl : 0 < lam)
    (v : ι → ℝ) : ((S.interior ++ S.bdr).map fun q => faceBound J q.2.fem.toFace v).sum ≤
      (S.cells.map fun c => ((n + 2 : ℕ) : ℝ) * elemBound L ρ η J lam v c.e).sum := by
  have h1 : ((S.interior ++ S.bdr).map fun q => faceBound J q.2.fem.toFace v).sum ≤
      ((S.interior ++ S.bdr).map fun q => ((sides q.2.fem).map fun s => elemBound L ρ η J lam v s.1).sum).sum := by
    refine List.sum_le_sum fun q hq => ?_
    obtain ⟨o, g⟩ := q
    unfold faceBound
    change ((g.rule.map (point g.fem)).map _).sum ≤ _
    rw [List.map_map]
    have e1 : ∀ x, tr1 g.fem.toFace (point g.fem x) v = eval x.2 (g.s1.restrict (onElem g.s1.e v)) := fun x => by
      rw [trace1_eq]; rfl
    have b1 := side_bound h hL hf hJ hl hq (s := g.s1) (Or.inl rfl) v
    cases hs : g.s2 with
    | none =>
      have e2 : ∀ x, tr2 g.fem.toFace (point g.fem x) v = 0 := fun x => by
        rw [trace2_eq]; unfold trace2
        change eval x.2 (match g.s2 with | some s => s.restrict (fld s.e v) | none => 0) = 0
        rw [hs]; simp
      have : sides g.fem = [(g.s1.e, g.s1.face)] := by
        have hs' := (show g.fem.s2 = _ from hs)
        unfold sides
        rw [hs']; rfl
      change _ ≤ ((sides g.fem).map _).sum
      rw [this]
      simp only [List.map_cons, List.map_nil, List.sum_cons, List.sum_nil, add_zero, Function.comp_def, e1, e2, abs_zero]
      exact b1
    | some s =>
      have b2 := side_bound h hL hf hJ hl hq (s := s) (Or.inr hs) v
      have e2 : ∀ x, tr2 g.fem.toFace (point g.fem x) v = eval x.2 (s.restrict (onElem s.e v)) := fun x => by
        rw [trace2_eq]; unfold trace2
        change eval x.2 (match g.s2 with | some s => s.restrict (fld s.e v) | none => 0) = _
        rw [hs]; rfl
      have : sides g.fem = [(g.s1.e, g.s1.face), (s.e, s.face)] := by
        have hs' := (show g.fem.s2 = _ from hs)
        unfold sides
        rw [hs']; rfl
      change _ ≤ ((sides g.fem).map _).sum
      rw [this]
      simp only [List.map_cons, List.map_nil, List.sum_cons, List.sum_nil, add_zero, Function.comp_def, e1, e2]
      refine le_trans (le_of_eq ?_) (add_le_add b1 b2)
      rw [list_sum_add]
      congr 1
      refine List.map_congr_left fun x _ => ?_
      change x.1 * (g.fem.W x.2 * _) = _
      ring
  refine h1.trans (le_of_eq ?_)
  have e1 : ((S.interior ++ S.bdr).map fun q => ((sides q.2.fem).map fun s => elemBound L ρ η J lam v s.1).sum).sum =
      (((Spec.faces S.skeleton).flatMap sides).map fun s => elemBound L ρ η J lam v s.1).sum := by
    simp only [Spec.faces, Setup.skeleton, List.map_map, ← List.map_append]
    rw [List.map_flatMap, sum_flat, List.map_map]
    rfl
  rw [e1, (h.simplicial.cover.map fun s => elemBound L ρ η J lam v s.1).sum_eq]
  unfold elemFaces Setup.skeleton
  simp only []
  rw [List.flatMap_map, List.map_flatMap, sum_flat]
  congr 1
  refine List.map_congr_left fun c _ => ?_
  rw [List.map_map]
  have : ((none :: (List.finRange (n + 1)).map some : List (Option (Fin (n + 1)))).map
      ((fun s : Elem n ι ℝ × Option (Fin (n + 1)) => elemBound L ρ η J lam v s.1) ∘ fun f => (c.e, f))) =
      List.replicate (n + 2) (elemBound L ρ η J lam v c.e) := by
    rw [List.eq_replicate_iff]
    refine ⟨by simp, fun b hb => ?_⟩
    obtain ⟨a, _, rfl⟩ := List.mem_map.1 hb
    rfl
  rw [this, List.sum_replicate, nsmul_eq_mul]

/-! ### the residual -/

/-- What polynomial fields leave over in Maxwell's equations. -/
noncomputable def resid (ms : List (Int × Material ℝ)) (Q R : PField n ι) (c : Cell n ι) : FieldT → Dir → Poly (n + 1) ℝ
  | .E, d => C (materialOf ms c).eps * R c.e .E d - curl (Q c.e .H) d + C (materialOf ms c).sigma * Q c.e .E d
  | .H, d => C (materialOf ms c).mu * R c.e .H d + curl (Q c.e .E) d

lemma resid_form (h : ValidMesh S p m) (ms : List (Int × Material ℝ)) {Q R : PField n ι} {u r : State ι ℝ} (hu : Carries S Q u)
    (hr : Carries S R r) (f : FieldT) (d : Dir) (v : ι → ℝ) :
    form (massOf S ms f) v (r f d) - curlTerm (femOf S ms).prob u f d v + lossTerm (femOf S ms).prob u f d v =
      (S.cells.map fun c => integral (n + 1) (onElem c.e v * (c.e.jac.det * bind₁ c.e.geom (resid ms Q R c f d)))).sum := by
  rw [curl_exact h ms hu]
  cases f with
  | E =>
    change form (massMatrix (S.cells.map fun c => (c, (materialOf ms c).eps))) v (r .E d) - _ +
      form (massMatrix (S.cells.map fun c => (c, (materialOf ms c).sigma))) v (u .E d) = _
    unfold form
    rw [mass_form h, mass_form h, list_sum_sub, list_sum_add]
    congr 1
    refine List.map_congr_left fun c hc => ?_
    rw [hu c hc, hr c hc]
    have sg : (sgn FieldT.E : ℝ) = 1 := by simp [sgn, FieldT.idx]
    rw [sg, one_mul, ← integral_scale, ← integral_scale, ← map_sub, ← map_add]
    congr 1
    simp only [resid, altField, map_add, map_sub, map_mul, bind₁_C_right]
    ring
  | H =>
    change form (massMatrix (S.cells.map fun c => (c, (materialOf ms c).mu))) v (r .H d) - _ + 0 = _
    unfold form
    rw [mass_form h, add_zero, list_sum_sub]
    congr 1
    refine List.map_congr_left fun c hc => ?_
    rw [hr c hc]
    have sg : (sgn FieldT.H : ℝ) = -1 := by simp [sgn, FieldT.idx]; norm_num
    rw [sg, ← integral_scale, ← integral_scale, ← map_sub]
    congr 1
    simp only [resid, altField, map_add, map_mul, bind₁_C_right, map_neg, map_one]
    ring

lemma eval_bind {D E : Nat} (g : Fin D → Poly E ℝ) (q : Poly D ℝ) (x : Fin E → ℝ) : eval x (bind₁ g q) = eval (fun d => eval x (g d)) q := by
  induction q using MvPolynomial.induction_on with
  | C a => simp
  | add p q hp hq => simp [hp, hq]
  | mul_X p i hp => simp [hp]

lemma volume_le (h : ValidMesh S p 1) {c : Cell n ι} (hc : c ∈ S.cells) {g : Poly (n + 1) ℝ} {G lam : ℝ} (hl : 0 < lam)
    (hg : ∀ y, InElem c.e y → |eval y g| ≤ G) (v : ι → ℝ) :
    integral (n + 1) (onElem c.e v * (c.e.jac.det * bind₁ c.e.geom g)) ≤
      lam / 2 * integral (n + 1) (onElem c.e v ^ 2 * c.e.jac.det) + G ^ 2 / (2 * lam) * integral (n + 1) c.e.jac.det := by
  rw [← integral_scale, ← integral_scale, ← map_add]
  refine integral_mono (by have := h.simplicial.dim; omega) _ _ fun x hx => ?_
  have hδ := h.jacobian c hc x hx
  have hgx := hg (fun d => eval x (c.e.geom d)) ⟨x, hx, rfl⟩
  simp only [map_mul, map_add, map_pow, eval_C, eval_bind]
  obtain ⟨a, ha⟩ : ∃ a, a = eval x (onElem c.e v) := ⟨_, rfl⟩
  obtain ⟨b, hb⟩ : ∃ b, b = eval (fun d => eval x (c.e.geom d)) g := ⟨_, rfl⟩
  obtain ⟨δ, hd⟩ : ∃ δ, δ = eval x c.e.jac.det := ⟨_, rfl⟩
  rw [← ha, ← hb, ← hd]
  rw [← hb] at hgx
  rw [← hd] at hδ
  have y := young (a := a) (J := G) one_pos hl
  have : a * b ≤ G * |a| := by
    have h1 := le_abs_self (a * b)
    rw [abs_mul] at h1
    have := mul_le_mul_of_nonneg_left hgx (abs_nonneg a)
    linarith
  have := mul_le_mul_of_nonneg_left (this.trans y) hδ.le
  calc a * (δ * b) = δ * (a * b) := by ring
    _ ≤ _ := this
    _ = _ := by rw [mul_one, mul_one]; ring

/-- How far polynomial fields are from solving the equations of the mesh with the source `b`, when the faces and the source exert little. -/
lemma residual_core (h : ValidMesh S p 1) (ms : List (Int × Material ℝ)) (hm : ValidMaterials S ms) {L : ℝ} (hL0 : 0 ≤ L)
    (hL : ∀ (face : Option (Fin (n + 1))) (turn : Equiv.Perm (Fin (n + 1))) (v : Poly (n + 1) ℝ), v.totalDegree ≤ p →
      integral n (bind₁ (loc face turn) v ^ 2) ≤ L * integral (n + 1) (v ^ 2)) {η ρ : ℝ} (hf : Fineness S η ρ)
    {m0 : ℝ} (hm0 : 0 < m0) (hmin : ∀ c ∈ S.cells, m0 ≤ (materialOf ms c).eps ∧ m0 ≤ (materialOf ms c).mu)
    {Q R : PField n ι} {u r b : State ι ℝ} (hu : Carries S Q u) (hr : Carries S R r) {J G : ℝ} (hJ0 : 0 ≤ J)
    (hG : ∀ c ∈ S.cells, ∀ f d y, InElem c.e y → |eval y (resid ms Q R c f d)| ≤ G)
    (faces : ∀ f d v, -((femOf S ms).prob.interior.map fun q => interiorTerm (femOf S ms).prob.alpha u f d v q.1 q.2).sum -
        ((femOf S ms).prob.bdr.map fun q => exteriorTerm (femOf S ms).prob.alpha u f d v q.1 q.2).sum - form (massOf S ms f) v (b f d) ≤
      ((S.interior ++ S.bdr).map fun q => faceBound J q.2.fem.toFace v).sum) :
    energy (massOf S ms) (fun f d => r f d - (globalMult (femOf S ms).prob u f d + b f d)) ≤
      3 * ((1 + 4 * ρ * L) * (G ^ 2 + 12 * ρ * J ^ 2 / η ^ 2) / m0 * volume S) := by
  have hη := hf.pos
  have hρ := hf.rho
  have hgood := good_fem h ms hm hf.weights
  have key : ∀ f d, form (massOf S ms f) (r f d - (globalMult (femOf S ms).prob u f d + b f d)) (r f d - (globalMult (femOf S ms).prob u f d + b f d)) ≤
      (1 + 4 * ρ * L) * (G ^ 2 + 12 * ρ * J ^ 2 / η ^ 2) / m0 * volume S := by
    intro f d
    obtain ⟨v, hv⟩ : ∃ v, v = r f d - (globalMult (femOf S ms).prob u f d + b f d) := ⟨_, rfl⟩
    rw [← hv]
    obtain ⟨lam, hlam⟩ : ∃ lam, lam = m0 / (1 + 4 * ρ * L) := ⟨_, rfl⟩
    have hA : 0 < 1 + 4 * ρ * L := by positivity
    have hl : 0 < lam := by rw [hlam]; positivity
    have hlo : m0 * (S.cells.map fun c => integral (n + 1) (onElem c.e v ^ 2 * c.e.jac.det)).sum ≤ form (massOf S ms f) v v := by
      have gen : ∀ g : Cell n ι → ℝ, (∀ c ∈ S.cells, m0 ≤ g c) →
          m0 * (S.cells.map fun c => integral (n + 1) (onElem c.e v ^ 2 * c.e.jac.det)).sum ≤ form (massMatrix (S.cells.map fun c => (c, g c))) v v := by
        intro g hg
        unfold form
        rw [mass_form h, ← List.sum_map_mul_left]
        refine List.sum_le_sum fun c hc => ?_
        rw [sq]
        exact mul_le_mul_of_nonneg_right (hg c hc) (sq_nonneg' h hc _)
      cases f with
      | E => exact gen _ fun c hc => (hmin c hc).1
      | H => exact gen _ fun c hc => (hmin c hc).2
    have hform : form (massOf S ms f) v v =
        (S.cells.map fun c => integral (n + 1) (onElem c.e v * (c.e.jac.det * bind₁ c.e.geom (resid ms Q R c f d)))).sum -
        (((femOf S ms).prob.interior.map fun q => interiorTerm (femOf S ms).prob.alpha u f d v q.1 q.2).sum +
        ((femOf S ms).prob.bdr.map fun q => exteriorTerm (femOf S ms).prob.alpha u f d v q.1 q.2).sum) - form (massOf S ms f) v (b f d) := by
      have e0 : form (massOf S ms f) v v = form (massOf S ms f) v (r f d) - weak (femOf S ms).prob u f d v - form (massOf S ms f) v (b f d) := by
        rw [← weak_test _ hgood]
        unfold form
        conv_lhs => rw [hv]
        rw [Matrix.mulVec_sub, dotProduct_sub, Matrix.mulVec_add, dotProduct_add, ← hv]
        ring
      rw [e0, weak_faces, ← resid_form h ms hu hr]
      ring
    have hI := faces f d v
    have hfb := faces_bound h hL hf hJ0 hl v
    have hvol : (S.cells.map fun c => integral (n + 1) (onElem c.e v * (c.e.jac.det * bind₁ c.e.geom (resid ms Q R c f d)))).sum ≤
        (S.cells.map fun c => lam / 2 * integral (n + 1) (onElem c.e v ^ 2 * c.e.jac.det) + G ^ 2 / (2 * lam) * integral (n + 1) c.e.jac.det).sum :=
      List.sum_le_sum fun c hc => volume_le h hc hl (hG c hc f d) v
    have hfb2 : (S.cells.map fun c => ((n + 2 : ℕ) : ℝ) * elemBound L ρ η J lam v c.e).sum ≤
        (S.cells.map fun c => 4 * (lam / 2 * ρ * L * integral (n + 1) (onElem c.e v ^ 2 * c.e.jac.det) +
          3 * ρ * J ^ 2 / (2 * lam * η ^ 2) * integral (n + 1) c.e.jac.det)).sum := by
      refine List.sum_le_sum fun c hc => ?_
      have hn4 : ((n + 2 : ℕ) : ℝ) ≤ 4 := by
        have := h.simplicial.dim
        exact_mod_cast (show n + 2 ≤ 4 by omega)
      refine mul_le_mul_of_nonneg_right hn4 ?_
      have i1 : 0 ≤ integral (n + 1) (onElem c.e v ^ 2 * c.e.jac.det) := by rw [sq]; exact sq_nonneg' h hc _
      have i2 : 0 ≤ integral (n + 1) c.e.jac.det := by simpa using sq_nonneg' h hc 1
      exact add_nonneg (mul_nonneg (by positivity) i1) (mul_nonneg (by positivity) i2)
    obtain ⟨Ev, hEv⟩ : ∃ Ev, Ev = (S.cells.map fun c => integral (n + 1) (onElem c.e v ^ 2 * c.e.jac.det)).sum := ⟨_, rfl⟩
    have hv1 : (S.cells.map fun c => lam / 2 * integral (n + 1) (onElem c.e v ^ 2 * c.e.jac.det) + G ^ 2 / (2 * lam) * integral (n + 1) c.e.jac.det).sum =
        lam / 2 * Ev + G ^ 2 / (2 * lam) * volume S := by
      rw [← list_sum_add, List.sum_map_mul_left, List.sum_map_mul_left, hEv, volume]
    have hv2 : (S.cells.map fun c => 4 * (lam / 2 * ρ * L * integral (n + 1) (onElem c.e v ^ 2 * c.e.jac.det) +
          3 * ρ * J ^ 2 / (2 * lam * η ^ 2) * integral (n + 1) c.e.jac.det)).sum =
        4 * (lam / 2 * ρ * L * Ev + 3 * ρ * J ^ 2 / (2 * lam * η ^ 2) * volume S) := by
      rw [List.sum_map_mul_left, ← list_sum_add, List.sum_map_mul_left, List.sum_map_mul_left, hEv, volume]
    rw [hv1] at hvol
    rw [hv2] at hfb2
    rw [← hEv] at hlo
    have htot : form (massOf S ms f) v v ≤ lam / 2 * (1 + 4 * ρ * L) * Ev + (G ^ 2 + 12 * ρ * J ^ 2 / η ^ 2) / (2 * lam) * volume S := by
      have e : lam / 2 * (1 + 4 * ρ * L) * Ev + (G ^ 2 + 12 * ρ * J ^ 2 / η ^ 2) / (2 * lam) * volume S =
        (lam / 2 * Ev + G ^ 2 / (2 * lam) * volume S) + 4 * (lam / 2 * ρ * L * Ev + 3 * ρ * J ^ 2 / (2 * lam * η ^ 2) * volume S) := by
        field_simp
        ring
      rw [e]
      linarith
    have e1 : lam / 2 * (1 + 4 * ρ * L) * Ev = 1 / 2 * (m0 * Ev) := by rw [hlam]; field_simp
    have e2 : (G ^ 2 + 12 * ρ * J ^ 2 / η ^ 2) / (2 * lam) * volume S =
        1 / 2 * ((1 + 4 * ρ * L) * (G ^ 2 + 12 * ρ * J ^ 2 / η ^ 2) / m0 * volume S) := by rw [hlam]; field_simp
    rw [e1, e2] at htot
    linarith
  unfold energy
  simp only [Fin.sum_univ_three]
  have k := fun f d => key f d
  unfold form at k
  have := k .E 0; have := k .E 1; have := k .E 2; have := k .H 0; have := k .H 1; have := k .H 2
  linarith

/-- How far polynomial fields near a solution are from solving the equations of the mesh. -/
lemma residual_bound (h : ValidMesh S p 1) (ms : List (Int × Material ℝ)) (hm : ValidMaterials S ms) {L : ℝ} (hL0 : 0 ≤ L)
    (hL : ∀ (face : Option (Fin (n + 1))) (turn : Equiv.Perm (Fin (n + 1))) (v : Poly (n + 1) ℝ), v.totalDegree ≤ p →
      integral n (bind₁ (loc face turn) v ^ 2) ≤ L * integral (n + 1) (v ^ 2)) {η ρ : ℝ} (hf : Fineness S η ρ)
    {m0 : ℝ} (hm0 : 0 < m0) (hmin : ∀ c ∈ S.cells, m0 ≤ (materialOf ms c).eps ∧ m0 ≤ (materialOf ms c).mu) (hα : 0 ≤ S.alpha)
    {Q R : PField n ι} {u r : State ι ℝ} (hu : Carries S Q u) (hr : Carries S R r)
    {V : Side n ι ℝ → (Fin n → ℝ) → FieldT → Dir → ℝ} {a G : ℝ} (ha : 0 ≤ a) (hn : Near S Q V a)
    (hG : ∀ c ∈ S.cells, ∀ f d y, InElem c.e y → |eval y (resid ms Q R c f d)| ≤ G)
    (inner : ∀ q ∈ S.interior, q.1 = none → ∀ s ∈ q.2.s2, ∀ x, InSimplex x → ∀ f d,
      cross (unitNormal q.2.s1 x) (fun k => V q.2.s1 x f k - V s x f k) d = 0)
    (walls : ∀ q ∈ S.interior, ∀ c, q.1 = some c → ∀ x, InSimplex x →
      Obeys c (unitNormal q.2.s1 x) (V q.2.s1 x) ∧ ∀ s ∈ q.2.s2, Obeys c (fun d => -unitNormal q.2.s1 x d) (V s x))
    (outer : ∀ q ∈ S.bdr, ∀ c, q.1 = some c → ∀ x, InSimplex x → Obeys c (unitNormal q.2.s1 x) (V q.2.s1 x)) :
    energy (massOf S ms) (fun f d => r f d - globalMult (femOf S ms).prob u f d) ≤
      3 * ((1 + 4 * ρ * L) * (G ^ 2 + 12 * ρ * ((4 + 4 * S.alpha) * a) ^ 2 / η ^ 2) / m0 * volume S) := by
  obtain ⟨J, hJ⟩ : ∃ J, J = (4 + 4 * S.alpha) * a := ⟨_, rfl⟩
  have hJ0 : 0 ≤ J := by rw [hJ]; positivity
  have key := residual_core h ms hm hL0 hL hf hm0 hmin hu hr (b := 0) hJ0 hG fun f d v => by
    have hI : -((femOf S ms).prob.interior.map fun q => interiorTerm (femOf S ms).prob.alpha u f d v q.1 q.2).sum ≤
        (S.interior.map fun q => faceBound J q.2.fem.toFace v).sum := by
      refine (neg_le_abs _).trans ?_
      change |((S.interior.map fun q => (q.1, q.2.fem)).map fun q => (q.1, q.2.toFace)).map _ |>.sum| ≤ _
      rw [List.map_map, List.map_map]
      refine sum_abs_le _ _ _ fun q hq => ?_
      obtain ⟨o, g⟩ := q
      obtain ⟨s, hs⟩ := Option.ne_none_iff_exists'.1 (hf.two_sides _ hq)
      rw [hJ]
      cases o with
      | none => exact plain_le h hf.weights hu ha hn hq hs (fun x hx f d => inner _ hq rfl s hs x hx f d) hα f d v
      | some c => exact wall_le h hf.weights hu hn hq hs (fun x hx => ⟨(walls _ hq c rfl x hx).1, (walls _ hq c rfl x hx).2 s hs⟩) hα f d v
    have hB : -((femOf S ms).prob.bdr.map fun q => exteriorTerm (femOf S ms).prob.alpha u f d v q.1 q.2).sum ≤
        (S.bdr.map fun q => faceBound J q.2.fem.toFace v).sum := by
      refine (neg_le_abs _).trans ?_
      change |((S.bdr.map fun q => (q.1, q.2.fem)).map fun q => (q.1, q.2.toFace)).map _ |>.sum| ≤ _
      rw [List.map_map, List.map_map]
      refine sum_abs_le _ _ _ fun q hq => ?_
      obtain ⟨o, g⟩ := q
      rw [hJ]
      cases o with
      | none => exact absurd rfl (h.bdr_cond _ hq)
      | some c => exact exterior_le h hf.weights hu hn hq (outer _ hq c rfl) hα f d v
    have z : form (massOf S ms f) v ((0 : State ι ℝ) f d) = 0 := by simp [form]
    rw [List.map_append, List.sum_append, z]
    linarith
  simp only [Pi.zero_apply, add_zero] at key
  rw [← hJ]
  exact key

end Dgtd.Galerkin
