/-
The global operator on fields that are polynomials of the position, on straight meshes that may have quadrilaterals and hexahedra.
-/
import Verif.Spec.StraightField
import Verif.Lemmas.StraightMass
import Verif.Lemmas.Polynomial
import Verif.Props.Polynomial

set_option linter.unusedSectionVars false

namespace Dgtd.Straight
open MvPolynomial Spec Dgtd.Op Dgtd.Op.Spec
open Dgtd.Galerkin (Poly Elem Rule fld massMatrix derivMatrix refD refD_geom tang tang_zero crossT_scale pen_scale obeys_zero list_sum_sub list_sum_add)
open Dgtd.Galerkin.Spec (onElem materialOf PField curl cross Obeys)
open Dgtd.Config (Material)

variable {n : Nat} {ι : Type} [Fintype ι] [DecidableEq ι] {S : Setup n ι} {p : Nat}

/-! ### volumes -/

lemma intl_scale {D : Nat} (sh : Shape) (a : ℝ) (q : Poly D ℝ) : intl sh D (C a * q) = a * intl sh D q := by
  rw [← MvPolynomial.smul_eq_C_mul, map_smul, smul_eq_mul]

lemma mass_intl (h : ValidMesh S p) (g : Cell n ι → ℝ) (v u : ι → ℝ) : form (massMatrix (weighted S g)) v u =
    (S.cells.map fun c => g c * intl c.shape (n + 1) (onElem c.e v * onElem c.e u * c.e.jac.det)).sum := by
  unfold form
  rw [mass_form h]
  simp only [intl_eq]

lemma deriv_exact (h : ValidMesh S p) (ms : List (Int × Material ℝ)) (d : Dir) (v u : ι → ℝ) :
    form (derivativeSub (probOf S ms) d) v u = (S.cells.map fun c => intl c.shape (n + 1) (onElem c.e v * refD c.e d (onElem c.e u))).sum := by
  unfold form derivativeSub refD
  by_cases hd : d.val < n + 1
  · rw [if_neg (by change ¬ (n + 1 ≤ d.val); omega)]
    change v ⬝ᵥ (derivMatrix (S.cells.map fun c => (c.e, c.vol)) d).mulVec u = _
    rw [Galerkin.deriv_form _ _ hd]
    simp only [List.map_map, dif_pos hd]
    congr 1
    refine List.map_congr_left fun c hc => ?_
    rw [intl_eq]
    exact h.volume c hc _ (volume_order h.dim h.order c.e (h.geom c hc) (h.shape c hc) ⟨d.val, hd⟩ v u)
  · rw [if_pos (by change n + 1 ≤ d.val; omega)]
    simp [hd]

/-! ### faces -/

lemma onElem_fld (e : Elem n ι ℝ) (u : ι → ℝ) : onElem e u = fld e u := rfl

lemma face_tr1 (g : MeshFace n ι) (q : ℝ × (Fin n → ℝ)) (u : ι → ℝ) : tr1 g.toFace (point g q) u = eval q.2 (g.s1.restrict (onElem g.s1.e u)) :=
  tr1_eq g q (point g q) (fun _ => rfl) u

lemma face_tr2 (g : MeshFace n ι) {s : Side n ι} (hs : g.s2 = some s) (q : ℝ × (Fin n → ℝ)) (u : ι → ℝ) :
    tr2 g.toFace (point g q) u = eval q.2 (s.restrict (onElem s.e u)) :=
  tr2_eq g s hs q (point g q) (fun i => by simp [point, hs]) u

lemma face_tr2_none (g : MeshFace n ι) (hs : g.s2 = none) (q : ℝ × (Fin n → ℝ)) (u : ι → ℝ) : tr2 g.toFace (point g q) u = 0 := by
  unfold tr2
  have : g.toFace.ndof2 = 0 := by simp [MeshFace.toFace, hs]
  rw [this]; simp

lemma mem_face {g : MeshFace n ι} {o : Option BdrCond} (hg : (o, g) ∈ S.interior ++ S.bdr) : g ∈ faces S :=
  List.mem_map_of_mem (f := Prod.snd) hg

lemma trace_side {Q : PField n ι} {s : Side n ι} {u : ι → ℝ} {f : FieldT} {d : Dir} (h : onElem s.e u = bind₁ s.e.geom (Q s.e f d))
    (x : Fin n → ℝ) : eval x (s.restrict (fld s.e u)) = onSide Q s x f d := by
  change eval x (s.restrict (onElem s.e u)) = _
  rw [h, eval_restrict, onSide]
  have : ∀ q : Poly (n + 1) ℝ, eval (fun j => eval x (loc s.place j)) (bind₁ s.e.geom q) = eval (pos s x) q := by
    intro q
    induction q using MvPolynomial.induction_on with
    | C a => simp
    | add p q hp hq => simp [hp, hq]
    | mul_X p i hp => simp only [map_mul, hp, bind₁_X_right, eval_X]; rw [pos, eval_restrict]
  exact this _

lemma side_cells (h : ValidMesh S p) {g : MeshFace n ι} (hg : g ∈ faces S) :
    (∃ c ∈ S.cells, g.s1.e = c.e ∧ g.s1.place.key.shape = c.shape) ∧ ∀ s ∈ g.s2, ∃ c ∈ S.cells, s.e = c.e ∧ s.place.key.shape = c.shape := by
  refine ⟨side_cell h hg (x := (g.s1.e, g.s1.place.key)) (by simp [sides]), fun s hs => side_cell h hg (x := (s.e, s.place.key)) ?_⟩
  have : g.s2 = some s := hs
  simp [sides, this]

lemma carries_one (h : ValidMesh S p) {Q : PField n ι} {u : State ι ℝ} (hu : Carries S Q u) {g : MeshFace n ι} (hg : g ∈ faces S)
    (q : ℝ × (Fin n → ℝ)) (f : FieldT) (d : Dir) : tr1 g.toFace (point g q) (u f d) = onSide Q g.s1 q.2 f d := by
  obtain ⟨c, hc, e, -⟩ := (side_cells h hg).1
  rw [face_tr1]
  exact trace_side (s := g.s1) (by rw [e]; exact hu c hc f d) q.2

lemma carries_two (h : ValidMesh S p) {Q : PField n ι} {u : State ι ℝ} (hu : Carries S Q u) {g : MeshFace n ι} (hg : g ∈ faces S)
    (q : ℝ × (Fin n → ℝ)) (f : FieldT) (d : Dir) : tr2 g.toFace (point g q) (u f d) = onOther Q g q.2 f d := by
  unfold onOther
  cases hs : g.s2 with
  | none => rw [face_tr2_none g hs]
  | some s =>
    obtain ⟨c, hc, e, -⟩ := (side_cells h hg).2 s hs
    rw [face_tr2 g hs]
    exact trace_side (by rw [e]; exact hu c hc f d) q.2

lemma unit_facts (h : ValidMesh S p) {g : MeshFace n ι} (hg : g ∈ faces S) (x : Fin n → ℝ) (hx : OnFace g x) : 0 < stretch g.s1 x ∧
    (∀ d, normalTerm ((normal g.s1).map fun c => eval x c) d = stretch g.s1 x * unitNormal g.s1 x d) ∧
    unitNormal g.s1 x 0 ^ 2 + unitNormal g.s1 x 1 ^ 2 + unitNormal g.s1 x 2 ^ 2 = 1 := by
  obtain ⟨c, hc, hce, hsh⟩ := (side_cells h hg).1
  have hpos := normal_pos h.dim g.s1 (h.one _ hg) (by
    intro z hz
    rw [hce]; exact h.jacobian c hc z (hsh ▸ hz)) x hx
  have hW : stretch g.s1 x = √(((normal g.s1).map fun c => eval x c ^ 2).sum) := rfl
  have hW0 : 0 < stretch g.s1 x := by rw [hW]; exact Real.sqrt_pos.2 hpos
  have hd : ∀ d, normalTerm ((normal g.s1).map fun c => eval x c) d = stretch g.s1 x * unitNormal g.s1 x d := by
    intro d
    unfold unitNormal
    rw [mul_div_cancel₀ _ hW0.ne', normalTerm, List.getD_eq_getElem?_getD]
  refine ⟨hW0, hd, ?_⟩
  have := normal_norm h.dim g.s1 x
  rw [hd, hd, hd] at this
  have h2 : stretch g.s1 x ^ 2 = ((normal g.s1).map fun c => eval x c ^ 2).sum := by rw [hW]; exact Real.sq_sqrt hpos.le
  rw [← h2] at this
  have h3 : stretch g.s1 x ^ 2 * (unitNormal g.s1 x 0 ^ 2 + unitNormal g.s1 x 1 ^ 2 + unitNormal g.s1 x 2 ^ 2) = stretch g.s1 x ^ 2 * 1 := by
    linear_combination this
  exact mul_left_cancel₀ (pow_ne_zero 2 hW0.ne') h3

lemma plain_zero (h : ValidMesh S p) {Q : PField n ι} {u : State ι ℝ} (hu : Carries S Q u) (ha : Admissible S Q) {g : MeshFace n ι}
    (hg : (none, g) ∈ S.interior) (alpha : ℝ) (f : FieldT) (d : Dir) (v : ι → ℝ) : plainTerm u f d 1 alpha g.toFace v = 0 := by
  have hg' : g ∈ faces S := mem_face (List.mem_append_left _ hg)
  unfold plainTerm
  change ((g.rule.map (point g)).map _).sum = 0
  rw [List.map_map]
  refine Galerkin.sum_zero_of _ _ fun q hq => ?_
  have hx : OnFace g q.2 := h.inside _ hg' q hq
  obtain ⟨hW, hN, hν⟩ := unit_facts h hg' q.2 hx
  have hN : ∀ d, normalTerm (point g q).nor d = (point g q).W * unitNormal g.s1 q.2 d := hN
  simp only [Function.comp, plainPt, carries_one h hu hg', carries_two h hu hg']
  have c1 := ha.inner _ hg rfl q.2 hx
  rw [crossT_scale (W := (point g q).W) hN, pen_scale (W := (point g q).W) hW hN, c1, tang_zero hν fun d => c1 f d]
  ring

lemma exterior_zero (h : ValidMesh S p) {Q : PField n ι} {u : State ι ℝ} (hu : Carries S Q u) (ha : Admissible S Q) {g : MeshFace n ι}
    {c : BdrCond} (hg : (some c, g) ∈ S.bdr) (alpha : ℝ) (f : FieldT) (d : Dir) (v : ι → ℝ) :
    exteriorTerm alpha u f d v (some c) g.toFace = 0 := by
  have hg' : g ∈ faces S := mem_face (List.mem_append_right _ hg)
  have hs : g.s2 = none := h.bdr_one_side _ hg
  unfold exteriorTerm plainTerm
  change ((g.rule.map (point g)).map _).sum = 0
  rw [List.map_map]
  refine Galerkin.sum_zero_of _ _ fun q hq => ?_
  have hx : OnFace g q.2 := h.inside _ hg' q hq
  obtain ⟨hW, hN, hν⟩ := unit_facts h hg' q.2 hx
  have hN : ∀ d, normalTerm (point g q).nor d = (point g q).W * unitNormal g.s1 q.2 d := hN
  have t2 : tr2 g.toFace (point g q) v = 0 := face_tr2_none g hs q v
  have o2 : ∀ f d, onOther Q g q.2 f d = 0 := fun f d => by unfold onOther; rw [hs]
  have c1 := obeys_zero hν (ha.outer _ hg c rfl q.2 hx) alpha f d
  simp only [Function.comp, plainPt, carries_one h hu hg', carries_two h hu hg', o2, sub_zero, t2, add_zero]
  rw [crossT_scale (W := (point g q).W) hN, pen_scale (W := (point g q).W) hW hN]
  linear_combination (point g q).w / 2 * (point g q).W * tr1 g.toFace (point g q) v * c1

lemma wall_zero (h : ValidMesh S p) {Q : PField n ι} {u : State ι ℝ} (hu : Carries S Q u) (ha : Admissible S Q) {g : MeshFace n ι}
    {c : BdrCond} (hg : (some c, g) ∈ S.interior) (alpha : ℝ) (f : FieldT) (d : Dir) (v : ι → ℝ) :
    interiorTerm alpha u f d v (some c) g.toFace = 0 := by
  have hg' : g ∈ faces S := mem_face (List.mem_append_left _ hg)
  have key : wallTerm u f d (fluxCoeff c (altField f)) (if c ≠ .SMA then bdrCoeff c f * alpha else 1) g.toFace v = 0 := by
    unfold wallTerm
    change ((g.rule.map (point g)).map _).sum = 0
    rw [List.map_map]
    refine Galerkin.sum_zero_of _ _ fun q hq => ?_
    have hx : OnFace g q.2 := h.inside _ hg' q hq
    obtain ⟨hW, hN, hν⟩ := unit_facts h hg' q.2 hx
    have hN : ∀ d, normalTerm (point g q).nor d = (point g q).W * unitNormal g.s1 q.2 d := hN
    have hw := ha.walls _ hg c rfl q.2 hx
    have c1 := obeys_zero hν hw.1 alpha f d
    have c2 := obeys_zero (ν := fun d => -unitNormal g.s1 q.2 d) (by simpa using hν) hw.2 alpha f d
    simp only [Function.comp, wallPt, carries_one h hu hg', carries_two h hu hg']
    rw [crossT_scale (W := (point g q).W) hN, crossT_scale (W := (point g q).W) hN, pen_scale (W := (point g q).W) hW hN,
      pen_scale (W := (point g q).W) hW hN]
    have e1 : ∀ t, cross (fun d => -unitNormal g.s1 q.2 d) t d = -cross (unitNormal g.s1 q.2) t d := fun t => by unfold cross; ring
    have e2 : ∀ t, tang (fun d => -unitNormal g.s1 q.2 d) t d = tang (unitNormal g.s1 q.2) t d := fun t => by
      unfold tang; simp only [Fin.sum_univ_three]; ring
    rw [e1, e2] at c2
    linear_combination (point g q).w / 2 * (point g q).W * tr1 g.toFace (point g q) v * c1 +
      (point g q).w / 2 * (point g q).W * tr2 g.toFace (point g q) v * c2
  unfold interiorTerm
  cases c <;> first | exact key | rfl

/-! ### the operator -/

lemma curl_exact (h : ValidMesh S p) (ms : List (Int × Material ℝ)) {Q : PField n ι} {u : State ι ℝ} (hu : Carries S Q u) (f : FieldT) (d : Dir)
    (v : ι → ℝ) : curlTerm (probOf S ms) u f d v =
      (S.cells.map fun c => sgn f * intl c.shape (n + 1) (onElem c.e v * (c.e.jac.det * bind₁ c.e.geom (curl (Q c.e (altField f)) d)))).sum := by
  unfold curlTerm
  rw [deriv_exact h ms, deriv_exact h ms, list_sum_sub, ← List.sum_map_mul_left]
  congr 1
  refine List.map_congr_left fun c hc => ?_
  rw [hu c hc, hu c hc, refD_geom, refD_geom, ← map_sub]
  congr 2
  unfold curl
  rw [map_sub]; ring

lemma cell_E {D : Nat} (sh : Shape) {a s : ℝ} {r q w : Poly D ℝ} (e : C a * r = w - C s * q) (V J : Poly D ℝ) :
    intl sh D (V * (J * w)) - s * intl sh D (V * q * J) = a * intl sh D (V * r * J) := by
  have h : V * (J * w) - C s * (V * q * J) = C a * (V * r * J) := by linear_combination (-(V * J)) * e
  rw [← intl_scale, ← intl_scale, ← map_sub, h]

lemma cell_H {D : Nat} (sh : Shape) {a : ℝ} {r w : Poly D ℝ} (e : C a * r = -w) (V J : Poly D ℝ) :
    -1 * intl sh D (V * (J * w)) = a * intl sh D (V * r * J) := by
  have h : -(V * (J * w)) = C a * (V * r * J) := by linear_combination (-(V * J)) * e
  rw [neg_one_mul, ← map_neg, h, intl_scale]

/-- Polynomial fields that respect the interfaces and boundaries change at the rate Maxwell's equations give. -/
lemma global_exact (h : ValidMesh S p) (ms : List (Int × Material ℝ)) (hm : ValidMaterials S ms) {Q R : PField n ι} {u r : State ι ℝ}
    (hu : Carries S Q u) (hr : Carries S R r) (hq : Maxwell S ms Q R) (ha : Admissible S Q) : globalMult (probOf S ms) u = r := by
  have hreg := regular_of h ms hm
  have hwk : ∀ f d (v : ι → ℝ), weak (probOf S ms) u f d v = form (massOf S ms f) v (r f d) := by
    intro f d v
    rw [weak_faces]
    have z1 : ((probOf S ms).interior.map fun q => interiorTerm (probOf S ms).alpha u f d v q.1 q.2).sum = 0 := by
      refine Galerkin.sum_zero_of _ _ fun q hq => ?_
      obtain ⟨b, hb, rfl⟩ := List.mem_map.1 hq
      obtain ⟨o, g⟩ := b
      cases o with
      | none => exact plain_zero h hu ha hb _ f d v
      | some c => exact wall_zero h hu ha hb _ f d v
    have z2 : ((probOf S ms).bdr.map fun q => exteriorTerm (probOf S ms).alpha u f d v q.1 q.2).sum = 0 := by
      refine Galerkin.sum_zero_of _ _ fun q hq => ?_
      obtain ⟨b, hb, rfl⟩ := List.mem_map.1 hq
      obtain ⟨o, g⟩ := b
      cases o with
      | none => rfl
      | some c => exact exterior_zero h hu ha hb _ f d v
    rw [z1, z2, add_zero, add_zero, curl_exact h ms hu]
    have hmx := fun c hc => hq c hc d
    cases f with
    | E =>
      change _ - form (massMatrix (weighted S fun c => ((materialOf ms c.toCell).sigma))) v (u .E d) =
        form (massMatrix (weighted S fun c => ((materialOf ms c.toCell).eps))) v (r .E d)
      rw [mass_intl h, mass_intl h, list_sum_sub]
      congr 1
      refine List.map_congr_left fun c hc => ?_
      rw [hu c hc, hr c hc]
      have e := congrArg (bind₁ c.e.geom) (hmx c hc).1
      simp only [map_mul, map_sub, bind₁_C_right] at e
      have sg : (sgn FieldT.E : ℝ) = 1 := by simp [sgn, FieldT.idx]
      rw [sg, one_mul]
      exact cell_E _ e _ _
    | H =>
      change _ - 0 = form (massMatrix (weighted S fun c => ((materialOf ms c.toCell).mu))) v (r .H d)
      rw [mass_intl h, sub_zero]
      congr 1
      refine List.map_congr_left fun c hc => ?_
      rw [hr c hc]
      have e := congrArg (bind₁ c.e.geom) (hmx c hc).2
      simp only [map_mul, map_neg, bind₁_C_right] at e
      have sg : (sgn FieldT.H : ℝ) = -1 := by simp [sgn, FieldT.idx]; norm_num
      rw [sg]
      exact cell_H _ e _ _
  funext f d
  have hM : (massOf S ms f).mulVec (globalMult (probOf S ms) u f d) = (massOf S ms f).mulVec (r f d) := by
    funext c
    rw [weak_mass (probOf S ms) (fun g hg q hq => (hreg.pts g hg q hq).size) hreg.inv, hwk]
    unfold form
    simp
  have hinv : (probOf S ms).Minv f * massOf S ms f = 1 := by
    rw [mul_eq_one_comm]; exact hreg.inv f
  have := congrArg ((probOf S ms).Minv f).mulVec hM
  rwa [Matrix.mulVec_mulVec, Matrix.mulVec_mulVec, hinv, Matrix.one_mulVec, Matrix.one_mulVec] at this

end Dgtd.Straight
