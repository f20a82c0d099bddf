/-
C174: where energy goes.
-/
import Verif.Lemmas.OpRecip
import Verif.Spec.OpPower
import Verif.Props.Local

set_option linter.unusedSectionVars false

namespace Dgtd.Power

open Op Op.Spec Implicit Frame Local

variable {ι : Type} {ε : Type} [Fintype ι] [DecidableEq ι]

section
variable {K : Type} [Field K] [LinearOrder K] [IsStrictOrderedRing K]

/-! ### traces of a part -/

lemma first_in {P : Prob ι K} {el : ι → ε} (h : Elementwise P el) (col : ε → Bool) {F : Face ι K} (hF : F ∈ allFaces P) (i : Nat)
    (hi : i < F.ndof1) : col (el (F.dofs i)) = firstIn el col F := by
  unfold firstIn
  cases e : col (el (F.dofs i)) with
  | true => exact (List.any_eq_true.2 ⟨i, List.mem_range.2 hi, e⟩).symm
  | false =>
    refine (List.any_eq_false.2 fun j hj => ?_).symm
    rw [← h.side1 F hF i j hi (List.mem_range.1 hj), e]
    simp

lemma second_in {P : Prob ι K} {el : ι → ε} (h : Elementwise P el) (col : ε → Bool) {F : Face ι K} (hF : F ∈ allFaces P) (i : Nat)
    (hi : i < F.ndof2) : col (el (F.dofs (F.ndof1 + i))) = secondIn el col F := by
  unfold secondIn
  cases e : col (el (F.dofs (F.ndof1 + i))) with
  | true => exact (List.any_eq_true.2 ⟨i, List.mem_range.2 hi, e⟩).symm
  | false =>
    refine (List.any_eq_false.2 fun j hj => ?_).symm
    rw [← h.side2 F hF i j hi (List.mem_range.1 hj), e]
    simp

lemma tr1_part {P : Prob ι K} {el : ι → ε} (h : Elementwise P el) (col : ε → Bool) {F : Face ι K} (hF : F ∈ allFaces P) (p : Pt K) (b : Bool)
    (u : State ι K) (f : FieldT) (d : Dir) : tr1 F p (part el col b u f d) = if firstIn el col F = b then tr1 F p (u f d) else 0 := by
  split_ifs with hb
  · refine first_congr fun i hi => ?_
    unfold part
    rw [first_in h col hF i hi, if_pos hb]
  · refine first_zero fun i hi => ?_
    unfold part
    rw [first_in h col hF i hi, if_neg hb]

lemma tr2_part {P : Prob ι K} {el : ι → ε} (h : Elementwise P el) (col : ε → Bool) {F : Face ι K} (hF : F ∈ allFaces P) (p : Pt K) (b : Bool)
    (u : State ι K) (f : FieldT) (d : Dir) : tr2 F p (part el col b u f d) = if secondIn el col F = b then tr2 F p (u f d) else 0 := by
  split_ifs with hb
  · refine second_congr fun i hi => ?_
    unfold part
    rw [second_in h col hF i hi, if_pos hb]
  · refine second_zero fun i hi => ?_
    unfold part
    rw [second_in h col hF i hi, if_neg hb]

/-! ### a point -/

lemma pen_dot {dim : Nat} {p : Pt K} (g : GeoPt dim p) (t v : Dir → K) :
    pen (normalTerm p.nor) p.W t 0 * v 0 + pen (normalTerm p.nor) p.W t 1 * v 1 + pen (normalTerm p.nor) p.W t 2 * v 2 = p.W * tanDot p t v := by
  have hW := g.W_pos.ne'
  have hn := g.norm
  unfold pen tanDot
  simp only
  field_simp
  linear_combination -(t 0 * v 0 + t 1 * v 1 + t 2 * v 2) * hn

lemma cross_dot (p : Pt K) (t v : Dir → K) :
    crossT (normalTerm p.nor) t 0 * v 0 + crossT (normalTerm p.nor) t 1 * v 1 + crossT (normalTerm p.nor) t 2 * v 2 = flow p v t := by
  unfold crossT flow
  show (normalTerm p.nor 2 * t 1 - normalTerm p.nor 1 * t 2) * v 0 + (normalTerm p.nor 0 * t 2 - normalTerm p.nor 2 * t 0) * v 1 +
    (normalTerm p.nor 1 * t 0 - normalTerm p.nor 0 * t 1) * v 2 = _
  ring

/-- The power that fields with jumps `eJ`, `hJ` bring to fields with the traces `e1 e2 h1 h2`, at a point. -/
lemma pt_power {dim : Nat} {p : Pt K} (g : GeoPt dim p) (alpha : K) (eJ hJ e1 e2 h1 h2 : Dir → K) :
    ∑ d : Dir, (plainPt (sgn .E) 1 alpha p hJ eJ (e1 d) (e2 d) d + plainPt (sgn .H) 1 alpha p eJ hJ (h1 d) (h2 d) d) =
      p.w / 2 * (flow p (fun d => e1 d + e2 d) hJ - flow p (fun d => h1 d + h2 d) eJ) -
        p.w / 2 * alpha * p.W * (tanDot p eJ (fun d => e1 d - e2 d) + tanDot p hJ fun d => h1 d - h2 d) := by
  have c1 := cross_dot p hJ fun d => e1 d + e2 d
  have c2 := cross_dot p eJ fun d => h1 d + h2 d
  have t1 := pen_dot g eJ fun d => e1 d - e2 d
  have t2 := pen_dot g hJ fun d => h1 d - h2 d
  have sE : (sgn .E : K) = 1 := by simp [sgn, FieldT.idx]
  have sH : (sgn .H : K) = -1 := by
    simp [sgn, FieldT.idx]
    norm_num
  rw [Fin.sum_univ_three]
  unfold plainPt
  rw [sE, sH]
  linear_combination p.w / 2 * c1 - p.w / 2 * c2 - p.w / 2 * alpha * t1 - p.w / 2 * alpha * t2

lemma tanSq_eq (p : Pt K) (v : Dir → K) : tanSq p v = tanDot p v v := by
  unfold tanSq tanDot
  ring

/-- At a face without a condition: what the region loses by itself and what the rest brings. -/
lemma face_power {P : Prob ι K} {el : ι → ε} (h : Elementwise P el) (col : ε → Bool) {dim : Nat} {F : Face ι K} (hF : F ∈ allFaces P)
    (hg : ∀ p ∈ F.pts, GeoPt dim p) (alpha : K) (u : State ι K) :
    ∑ d : Dir, (plainTerm (part el col false u) .E d 1 alpha F (part el col true u .E d) +
      plainTerm (part el col false u) .H d 1 alpha F (part el col true u .H d)) - dissInterior alpha F (part el col true u) =
      -leaves alpha el col u F := by
  have e : ∑ d : Dir, (plainTerm (part el col false u) .E d 1 alpha F (part el col true u .E d) +
      plainTerm (part el col false u) .H d 1 alpha F (part el col true u .H d)) =
      (F.pts.map fun p => ∑ d : Dir, (plainPt (sgn .E) 1 alpha p
          (fun k => tr1 F p (part el col false u .H k) - tr2 F p (part el col false u .H k))
          (fun k => tr1 F p (part el col false u .E k) - tr2 F p (part el col false u .E k))
          (tr1 F p (part el col true u .E d)) (tr2 F p (part el col true u .E d)) d +
        plainPt (sgn .H) 1 alpha p
          (fun k => tr1 F p (part el col false u .E k) - tr2 F p (part el col false u .E k))
          (fun k => tr1 F p (part el col false u .H k) - tr2 F p (part el col false u .H k))
          (tr1 F p (part el col true u .H d)) (tr2 F p (part el col true u .H d)) d)).sum := by
    simp only [Fin.sum_univ_three, List.sum_map_add]
    rfl
  rw [e]
  unfold dissInterior
  have hs : ∀ (a b : Pt K → K), (F.pts.map a).sum - (F.pts.map b).sum = (F.pts.map fun p => a p - b p).sum := by
    intro a b
    rw [sub_eq_add_neg, sum_map_neg', ← List.sum_map_add]
    simp only [sub_eq_add_neg]
  rw [hs]
  have hl : -leaves alpha el col u F = (F.pts.map fun p => -(match firstIn el col F, secondIn el col F with
      | false, false => 0
      | true, true => 1 / 2 * alpha * p.w * p.W * (tanSq p (fun d => tr1 F p (u .E d) - tr2 F p (u .E d)) +
          tanSq p (fun d => tr1 F p (u .H d) - tr2 F p (u .H d)))
      | true, false => p.w * (meanFlow F u p + 1 / 2 * alpha * p.W *
          (tanDot p (fun d => tr1 F p (u .E d)) (fun d => tr1 F p (u .E d) - tr2 F p (u .E d)) +
           tanDot p (fun d => tr1 F p (u .H d)) (fun d => tr1 F p (u .H d) - tr2 F p (u .H d))))
      | false, true => p.w * (-meanFlow F u p + 1 / 2 * alpha * p.W *
          (tanDot p (fun d => tr2 F p (u .E d)) (fun d => tr2 F p (u .E d) - tr1 F p (u .E d)) +
           tanDot p (fun d => tr2 F p (u .H d)) (fun d => tr2 F p (u .H d) - tr1 F p (u .H d)))))).sum := by
    rw [← sum_map_neg']
    congr 1
    unfold leaves
    cases firstIn el col F <;> cases secondIn el col F
    · simp
    · rfl
    · rfl
    · rfl
  rw [hl]
  congr 1
  apply List.map_congr_left
  intro p hp
  rw [pt_power (hg p hp) alpha _ _ (fun d => tr1 F p (part el col true u .E d)) (fun d => tr2 F p (part el col true u .E d))
    (fun d => tr1 F p (part el col true u .H d)) fun d => tr2 F p (part el col true u .H d)]
  simp only [tr1_part h col hF, tr2_part h col hF, tanSq_eq]
  cases firstIn el col F <;> cases secondIn el col F
  · simp [tanDot, flow]
  · simp [tanDot, flow, meanFlow]
    ring
  · simp [tanDot, flow, meanFlow]
    ring
  · simp [tanDot, flow]
    try ring

/-! ### the balance -/

lemma form_parts {A : Matrix ι ι K} {el : ι → ε} (hA : ∀ r c, el r ≠ el c → A r c = 0) (col : ε → Bool) (u v : State ι K) (f g : FieldT)
    (d e : Dir) : form A (part el col true u f d) (part el col false v g e) = 0 := by
  rw [form_eq]
  refine Finset.sum_eq_zero fun r _ => Finset.sum_eq_zero fun c _ => ?_
  unfold part
  by_cases hr : col (el r) = true
  · by_cases hc : col (el c) = false
    · rw [hA r c (fun e => by rw [e, hc] at hr; cases hr)]
      ring
    · rw [if_neg hc]
      ring
  · rw [if_neg hr]
    ring

lemma part_add (el : ι → ε) (col : ε → Bool) (u : State ι K) : u = (1 : K) • part el col true u + (1 : K) • part el col false u := by
  funext f d i
  simp only [one_smul, Pi.add_apply]
  unfold part
  cases col (el i) <;> simp

lemma plain_self {P : Prob ι K} {el : ι → ε} (h : Elementwise P el) (col : ε → Bool) {F : Face ι K} (hF : F ∈ allFaces P) (h0 : F.ndof2 = 0)
    (u : State ι K) (f : FieldT) (d : Dir) (bf bp : K) :
    plainTerm (part el col false u) f d bf bp F (part el col true u f d) = 0 := by
  refine sum_eq_zero' _ _ fun p _ => ?_
  have z : ∀ x : ι → K, tr2 F p x = 0 := fun x => by simp [tr2, h0]
  simp only [z, tr1_part h col hF]
  cases firstIn el col F <;> simp [plainPt, crossT, pen]

lemma wall_self {P : Prob ι K} {el : ι → ε} (h : Elementwise P el) (col : ε → Bool) {F : Face ι K} (hF : F ∈ allFaces P)
    (u : State ι K) (f : FieldT) (d : Dir) (bf bp : K) :
    wallTerm (part el col false u) f d bf bp F (part el col true u f d) = 0 := by
  refine sum_eq_zero' _ _ fun p _ => ?_
  simp only [tr1_part h col hF, tr2_part h col hF]
  cases firstIn el col F <;> cases secondIn el col F <;> simp [wallPt, crossT, pen]

/-- What the rest of the mesh brings to the region, through the faces without a condition. -/
lemma cross_power {P : Prob ι K} {el : ι → ε} (h : Elementwise P el) (col : ε → Bool) (u : State ι K) (f : FieldT) (d : Dir) :
    weak P (part el col false u) f d (part el col true u f d) =
      (P.interior.map fun q => if q.1 = none then plainTerm (part el col false u) f d 1 P.alpha q.2 (part el col true u f d) else 0).sum := by
  have hD : ∀ a e g, form (derivativeSub P a) (part el col true u f d) (part el col false u g e) = 0 := by
    intro a e g
    unfold derivativeSub
    split_ifs
    · simp [form]
    · exact form_parts (h.deriv a) col u u f g d e
  have hc : curlTerm P (part el col false u) f d (part el col true u f d) = 0 := by
    unfold curlTerm
    rw [hD, hD]
    ring
  have hl : lossTerm P (part el col false u) f d (part el col true u f d) = 0 := by
    cases f
    · exact form_parts h.msig col u u .E .E d d
    · rfl
  have hb : (P.bdr.map fun q => exteriorTerm P.alpha (part el col false u) f d (part el col true u f d) q.1 q.2).sum = 0 := by
    refine sum_eq_zero' _ _ ?_
    rintro ⟨c, F⟩ hq
    cases c with
    | none => rfl
    | some c => exact plain_self h col (List.mem_append_right _ (List.mem_map_of_mem hq)) (h.bdr _ hq) u f d _ _
  rw [weak_faces, hc, hl, hb, zero_add, add_zero, sub_zero]
  refine map_sum_congr _ _ _ ?_
  rintro ⟨c, F⟩ hq
  cases c with
  | none => rfl
  | some c =>
    have := wall_self h col (List.mem_append_left _ (List.mem_map_of_mem hq)) u f d
    cases c <;> first | rfl | exact this _ _

/-- **C174**: the energy of any region changes exactly by the power that leaves it through its surface, the upwind losses at the faces
inside, the losses at its walls and boundaries and the losses in its conductors. -/
theorem C174_balance (P : Prob ι K) (M : FieldT → Matrix ι ι K) (hP : Good P M) (el : ι → ε) (h : Elementwise P el) (col : ε → Bool)
    (u : State ι K) : energyRate M (part el col true u) (globalMult P u) = -powerOut P el col u := by
  have e0 : energyRate M (part el col true u) (globalMult P u) =
      energyRate M (part el col true u) (globalMult P (part el col true u)) + energyRate M (part el col true u) (globalMult P (part el col false u)) := by
    conv_lhs => rw [part_add el col u]
    rw [globalMult_comb, energyRate_lin_right, one_mul, one_mul, ← part_add]
  have e1 : energyRate M (part el col true u) (globalMult P (part el col false u)) =
      (P.interior.map fun q => if q.1 = none then ∑ d : Dir, (plainTerm (part el col false u) .E d 1 P.alpha q.2 (part el col true u .E d) +
        plainTerm (part el col false u) .H d 1 P.alpha q.2 (part el col true u .H d)) else 0).sum := by
    unfold energyRate
    simp only [weak_test P hP, cross_power h col]
    simp only [Fin.sum_univ_three, ← List.sum_map_add]
    refine map_sum_congr _ _ _ ?_
    rintro ⟨c, F⟩ _
    cases c <;> simp
  rw [e0, energy_balance P M hP, e1]
  unfold dissipation powerOut
  have e2 : (P.interior.map fun q => match q.1 with
        | none => leaves P.alpha el col u q.2
        | some c => dissBdr P.alpha c q.2 (part el col true u)).sum +
      (P.interior.map fun q => if q.1 = none then ∑ d : Dir, (plainTerm (part el col false u) .E d 1 P.alpha q.2 (part el col true u .E d) +
        plainTerm (part el col false u) .H d 1 P.alpha q.2 (part el col true u .H d)) else 0).sum =
      (P.interior.map fun q => match q.1 with
        | none => dissInterior P.alpha q.2 (part el col true u)
        | some c => dissBdr P.alpha c q.2 (part el col true u)).sum := by
    rw [← List.sum_map_add]
    refine map_sum_congr _ _ _ ?_
    rintro ⟨c, F⟩ hq
    cases c with
    | none =>
      have hF : F ∈ allFaces P := List.mem_append_left _ (List.mem_map_of_mem hq)
      have := face_power h col hF (fun p hp => ⟨(hP.pts F hF p hp).W_pos, (hP.pts F hF p hp).size, (hP.pts F hF p hp).norm⟩) P.alpha u
      simp only [if_true]
      linear_combination this
    | some c => simp
  linear_combination e2

/-- **C174**: what leaves the element on one side and what leaves the one on the other add up to the upwind losses of the face: without
upwind terms, all that leaves the one enters the other. -/
theorem C174_exchange (alpha : K) (F : Face ι K) (u : State ι K) : outFirst alpha F u + outSecond alpha F u = dissInterior alpha F u := by
  unfold outFirst outSecond dissInterior
  rw [← List.sum_map_add]
  refine map_sum_congr _ _ _ fun p _ => ?_
  rw [tanSq_eq, tanSq_eq]
  unfold tanDot
  ring

/-- **C174**: fields whose tangential components agree on both sides of a face: what leaves is the flux of Poynting's vector `E × H`, on
either side. -/
theorem C174_poynting {dim : Nat} (alpha : K) (F : Face ι K) (hg : ∀ p ∈ F.pts, GeoPt dim p) (u : State ι K)
    (hu : ∀ p ∈ F.pts, ∀ f d, crossT (normalTerm p.nor) (fun k => tr1 F p (u f k)) d = crossT (normalTerm p.nor) (fun k => tr2 F p (u f k)) d) :
    outFirst alpha F u = (F.pts.map fun p => p.w * flow p (fun d => tr1 F p (u .E d)) fun d => tr1 F p (u .H d)).sum ∧
    outSecond alpha F u = -(F.pts.map fun p => p.w * flow p (fun d => tr2 F p (u .E d)) fun d => tr2 F p (u .H d)).sum := by
  have c0 : ∀ p ∈ F.pts, ∀ f, normalTerm p.nor 2 * tr1 F p (u f 1) - normalTerm p.nor 1 * tr1 F p (u f 2) =
      normalTerm p.nor 2 * tr2 F p (u f 1) - normalTerm p.nor 1 * tr2 F p (u f 2) := fun p hp f => hu p hp f 0
  have c1 : ∀ p ∈ F.pts, ∀ f, normalTerm p.nor 0 * tr1 F p (u f 2) - normalTerm p.nor 2 * tr1 F p (u f 0) =
      normalTerm p.nor 0 * tr2 F p (u f 2) - normalTerm p.nor 2 * tr2 F p (u f 0) := fun p hp f => hu p hp f 1
  have c2 : ∀ p ∈ F.pts, ∀ f, normalTerm p.nor 1 * tr1 F p (u f 0) - normalTerm p.nor 0 * tr1 F p (u f 1) =
      normalTerm p.nor 1 * tr2 F p (u f 0) - normalTerm p.nor 0 * tr2 F p (u f 1) := fun p hp f => hu p hp f 2
  have ht : ∀ p ∈ F.pts, ∀ (f : FieldT) (v : Dir → K), tanDot p v (fun d => tr1 F p (u f d) - tr2 F p (u f d)) = 0 ∧
      tanDot p v (fun d => tr2 F p (u f d) - tr1 F p (u f d)) = 0 := by
    intro p hp f v
    have hW := (hg p hp).W_pos.ne'
    have z0 := c0 p hp f
    have z1 := c1 p hp f
    have z2 := c2 p hp f
    unfold tanDot
    simp only
    constructor
    · field_simp
      linear_combination -(normalTerm p.nor 1 * v 2 - normalTerm p.nor 2 * v 1) * z0 - (normalTerm p.nor 2 * v 0 - normalTerm p.nor 0 * v 2) * z1 -
        (normalTerm p.nor 0 * v 1 - normalTerm p.nor 1 * v 0) * z2
    · field_simp
      linear_combination (normalTerm p.nor 1 * v 2 - normalTerm p.nor 2 * v 1) * z0 + (normalTerm p.nor 2 * v 0 - normalTerm p.nor 0 * v 2) * z1 +
        (normalTerm p.nor 0 * v 1 - normalTerm p.nor 1 * v 0) * z2
  have hm : ∀ p ∈ F.pts, meanFlow F u p = flow p (fun d => tr1 F p (u .E d)) (fun d => tr1 F p (u .H d)) ∧
      meanFlow F u p = flow p (fun d => tr2 F p (u .E d)) fun d => tr2 F p (u .H d) := by
    intro p hp
    have zE := c0 p hp .E
    have zE1 := c1 p hp .E
    have zE2 := c2 p hp .E
    have zH := c0 p hp .H
    have zH1 := c1 p hp .H
    have zH2 := c2 p hp .H
    unfold meanFlow flow
    constructor
    · linear_combination (-1 / 2 * tr1 F p (u .E 0)) * zH - (1 / 2 * tr1 F p (u .E 1)) * zH1 - (1 / 2 * tr1 F p (u .E 2)) * zH2 +
        (1 / 2 * tr1 F p (u .H 0)) * zE + (1 / 2 * tr1 F p (u .H 1)) * zE1 + (1 / 2 * tr1 F p (u .H 2)) * zE2
    · linear_combination (1 / 2 * tr2 F p (u .E 0)) * zH + (1 / 2 * tr2 F p (u .E 1)) * zH1 + (1 / 2 * tr2 F p (u .E 2)) * zH2 -
        (1 / 2 * tr2 F p (u .H 0)) * zE - (1 / 2 * tr2 F p (u .H 1)) * zE1 - (1 / 2 * tr2 F p (u .H 2)) * zE2
  constructor
  · refine map_sum_congr _ _ _ fun p hp => ?_
    rw [(ht p hp .E _).1, (ht p hp .H _).1, (hm p hp).1]
    ring
  · unfold outSecond
    rw [sum_map_neg']
    refine map_sum_congr _ _ _ fun p hp => ?_
    rw [(ht p hp .E _).2, (ht p hp .H _).2, (hm p hp).2]
    ring

lemma part_mass {M : FieldT → Matrix ι ι K} {el : ι → ε} (hM : ∀ f r c, el r ≠ el c → M f r c = 0) (col : ε → Bool) (u r : State ι K) :
    energyRate M (part el col true u) (part el col true r) = energyRate M (part el col true u) r := by
  have z : energyRate M (part el col true u) (part el col false r) = 0 :=
    Finset.sum_eq_zero fun d _ => by
      have hE : part el col true u .E d ⬝ᵥ (M .E).mulVec (part el col false r .E d) = 0 := form_parts (hM .E) col u r .E .E d d
      have hH : part el col true u .H d ⬝ᵥ (M .H).mulVec (part el col false r .H d) = 0 := form_parts (hM .H) col u r .H .H d d
      rw [hE, hH, add_zero]
  conv_rhs => rw [part_add el col r]
  rw [energyRate_lin_right, z]
  ring

/-- **C174**: the energies of a region and of the rest add up to that of the whole mesh. -/
theorem C174_parts (M : FieldT → Matrix ι ι K) (el : ι → ε) (hM : ∀ f r c, el r ≠ el c → M f r c = 0) (col : ε → Bool) (u : State ι K) :
    energy M u = energy M (part el col true u) + energy M (part el (fun e => !col e) true u) := by
  have hn : part el (fun e => !col e) true u = part el col false u := by
    funext f d i
    unfold part
    cases h : col (el i) <;> simp [h]
  have z : ∀ b f d, form (M f) (part el col b u f d) (part el col (!b) u f d) = 0 := by
    intro b f d
    cases b
    · have := form_parts (A := M f) (hM f) (fun e => !col e) u u f f d d
      have hn' : part el (fun e => !col e) false u = part el col true u := by
        funext f d i
        unfold part
        cases h : col (el i) <;> simp [h]
      rw [hn, hn'] at this
      exact this
    · exact form_parts (hM f) col u u f f d d
  have k : ∀ f d, u f d ⬝ᵥ (M f).mulVec (u f d) = part el col true u f d ⬝ᵥ (M f).mulVec (part el col true u f d) +
      part el col false u f d ⬝ᵥ (M f).mulVec (part el col false u f d) := by
    intro f d
    have e : u f d = part el col true u f d + part el col false u f d := by
      have := congrFun (congrFun (part_add (K := K) el col u) f) d
      simpa using this
    have z1 : part el col true u f d ⬝ᵥ (M f).mulVec (part el col false u f d) = 0 := z true f d
    have z2 : part el col false u f d ⬝ᵥ (M f).mulVec (part el col true u f d) = 0 := z false f d
    conv_lhs => rw [e]
    rw [Matrix.mulVec_add, dotProduct_add, add_dotProduct, add_dotProduct, z1, z2]
    ring
  rw [hn]
  unfold energy
  simp only [k]
  rw [← mul_add, ← Finset.sum_add_distrib]
  congr 1
  exact Finset.sum_congr rfl fun d _ => by ring

end

/-- **C174**: along any solution of the semi-discrete equations with sources, the energy of a region changes at the rate at which the
sources work in it, less the power that leaves it. -/
theorem C174_rate (P : Prob ι ℝ) (M : FieldT → Matrix ι ι ℝ) (hP : Good P M) (el : ι → ε) (h : Elementwise P el)
    (hM : ∀ f r c, el r ≠ el c → M f r c = 0) (col : ε → Bool) (u j : ℝ → State ι ℝ) (t : ℝ)
    (hu : ∀ f d i, HasDerivAt (fun s => u s f d i) (globalMult P (u t) f d i + j t f d i) t) :
    HasDerivAt (fun s => energy M (part el col true (u s))) (energyRate M (part el col true (u t)) (j t) - powerOut P el col (u t)) t := by
  have hd := hasDerivAt_energy M hP.symm (fun s => part el col true (u s)) (part el col true (globalMult P (u t) + j t)) t ?_
  · rw [part_mass hM] at hd
    have e : globalMult P (u t) + j t = (1 : ℝ) • globalMult P (u t) + (1 : ℝ) • j t := by simp
    rw [e, energyRate_lin_right, C174_balance P M hP el h col] at hd
    convert hd using 1
    ring
  · intro f d i
    show HasDerivAt (fun s => if col (el i) = true then u s f d i else 0) (if col (el i) = true then _ else 0) t
    split_ifs
    · exact hu f d i
    · exact hasDerivAt_const t 0

/-! ### the two-element line -/

/-- `E_y = H_z = 1` everywhere: a wave to the right. All the power that leaves the first element enters the second. -/
def lineWave : State (Fin 4) ℚ
  | .E, d => if d = 1 then fun _ => 1 else 0
  | .H, d => if d = 2 then fun _ => 1 else 0

example : Good (line ℚ 1 none .PEC .SMA) (fun _ => lineMass ℚ) ∧ Elementwise (line ℚ 1 none .PEC .SMA) lineEl ∧
    outFirst 1 (lineInt ℚ) lineWave = 1 ∧ outSecond 1 (lineInt ℚ) lineWave = -1 ∧
    powerOut (line ℚ 1 none .PEC .SMA) lineEl (fun b => !b) lineWave = 2 :=
  ⟨line_good 1 none (by simp) _ _, line_elementwise _ _ _ _, by decide +kernel, by decide +kernel, by decide +kernel⟩

end Dgtd.Power
