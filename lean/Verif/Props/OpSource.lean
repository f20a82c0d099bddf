/-
C106: the incident wave crosses the total-field surface of the global operator without a trace.
-/
import Verif.Lemmas.OpSource
import Mathlib.Tactic.NormNum
import Mathlib.Tactic.IntervalCases
import Mathlib.Algebra.Order.Ring.Rat

set_option linter.unusedSectionVars false
set_option linter.unusedSimpArgs false

namespace Dgtd.Op

open Spec

variable {ι K : Type} [Fintype ι] [DecidableEq ι] [Field K] [LinearOrder K] [IsStrictOrderedRing K]

/-- The part of a field in the scattered region. -/
def chi (sf : ι → Bool) (w : ι → K) : ι → K := fun i => if sf i = true then w i else 0

/-- One in the scattered region. -/
def kap (sf : ι → Bool) (r : ι) : K := if sf r = true then 1 else 0

lemma kap_eq {sf : ι → Bool} {r c : ι} (h : sf r = sf c) : (kap sf r : K) = kap sf c := by unfold kap; rw [h]

lemma chi_single (sf : ι → Bool) (r : ι) :
    chi sf (Pi.single r (1 : K)) = fun i => kap sf r * (Pi.single r (1 : K) : ι → K) i := by
  funext i
  unfold chi kap
  by_cases h : i = r
  · subst h; by_cases hs : sf i = true <;> simp [hs]
  · simp [Pi.single_apply, h]

lemma fbil_smul_left (F : Face ι K) (m : EMat K) (k : K) (v u : ι → K) :
    fbil F m (fun i => k * v i) u = k * fbil F m v u := by
  unfold fbil bil
  rw [Finset.mul_sum]
  apply Finset.sum_congr rfl
  intro i _
  rw [Finset.mul_sum]
  exact Finset.sum_congr rfl fun j _ => by ring

lemma fbil_chi {sf : ι → Bool} {F : Face ι K} {b : Bool} (h : AllIn sf b F) (m : EMat K) (v w : ι → K) :
    fbil F m v (chi sf w) = fbil F m (chi sf v) w := by
  cases b
  · rw [fbil_right_zero F m v, fbil_left_zero F m w]
    · intro i hi; unfold chi; rw [h i hi]; rfl
    · intro i hi; unfold chi; rw [h i hi]; rfl
  · apply fbil_congr
    · intro i hi; unfold chi; rw [h i hi]; simp
    · intro i hi; unfold chi; rw [h i hi]; simp

/-- Faces that lie in one region. -/
lemma commute_faces {sf : ι → Bool} (l : List (Face ι K × EMat K)) (h : ∀ q ∈ l, ∃ b, AllIn sf b q.1) (w : ι → K)
    (r : ι) : (assemble l).mulVec (chi sf w) r = kap sf r * (assemble l).mulVec w r := by
  rw [mulVec_form, mulVec_form, form_assemble, form_assemble]
  induction l with
  | nil => simp
  | cons q l ih =>
    rw [List.map_cons, List.sum_cons, List.map_cons, List.sum_cons, mul_add, ih fun q hq => h q (by simp [hq])]
    obtain ⟨b, hb⟩ := h q (by simp)
    rw [fbil_chi hb, chi_single, fbil_smul_left]

/-- Element matrices that do not mix regions. -/
lemma commute_block {sf : ι → Bool} {A : Matrix ι ι K} (h : ∀ r c, sf r ≠ sf c → A r c = 0) (w : ι → K) (r : ι) :
    A.mulVec (chi sf w) r = kap sf r * A.mulVec w r := by
  have e : ∀ v : ι → K, A.mulVec v r = ∑ c, A r c * v c := fun v => rfl
  rw [e, e, Finset.mul_sum]
  apply Finset.sum_congr rfl
  intro c _
  by_cases hc : sf r = sf c
  · rw [kap_eq hc]
    unfold chi kap
    by_cases hs : sf c = true <;> simp [hs]
  · rw [h r c hc]; ring

/-- The injected field on the surface has the jump that the split field lacks. -/
def Injects (C : Case ι K) (sf : ι → Bool) (w g : ι → K) : Prop :=
  ∀ F ∈ C.tfFaces, ∀ p ∈ F.pts, tr1 F p (fun i => chi sf w i + g i) = tr2 F p (fun i => chi sf w i + g i)

lemma sum_filterMap {α β : Type} (l : List α) (c : α → Bool) (h : α → β) (φ : β → K) :
    ((l.filterMap fun q => if c q = true then some (h q) else none).map φ).sum =
      (l.map fun q => if c q = true then φ (h q) else 0).sum := by
  induction l with
  | nil => rfl
  | cons q l ih =>
    rw [List.filterMap_cons, List.map_cons, List.sum_cons, ← ih]
    by_cases hc : c q = true <;> simp [hc]

lemma mem_tfFaces {C : Case ι K} {q : IFace ι K} (hq : q ∈ C.interior) (h : q.tf = true) : q.face ∈ C.tfFaces := by
  unfold Case.tfFaces
  rw [List.mem_filterMap]
  exact ⟨q, hq, by simp [h]⟩

lemma plainFaces_prob (C : Case ι K) :
    plainFaces C.prob = C.interior.filterMap fun q => if (decide (q.cond = none)) = true then some q.face else none := by
  unfold plainFaces Case.prob
  rw [List.filterMap_map]
  apply List.filterMap_congr
  intro q _
  simp only [Function.comp_apply, decide_eq_true_eq]

/-- Surface faces, other faces and boundaries together. -/
lemma split_faces {C : Case ι K} {sf : ι → Bool} (hs : Splits C sf) {mk : Face ι K → EMat K}
    (hm : ∀ F, SeesJumps F (mk F)) (mb : BdrCond × Face ι K → EMat K) {w g : ι → K} (hg : Injects C sf w g)
    (hw : ∀ F ∈ C.tfFaces, ∀ p ∈ F.pts, tr1 F p w = tr2 F p w) (r : ι) :
    (assemble ((plainFaces C.prob).map (fun F => (F, mk F)) ++ (bdrFaces C.prob).map fun q => (q.2, mb q))).mulVec
        (chi sf w) r + (assemble (C.tfFaces.map fun F => (F, mk F))).mulVec g r =
      kap sf r * (assemble ((plainFaces C.prob).map (fun F => (F, mk F)) ++
        (bdrFaces C.prob).map fun q => (q.2, mb q))).mulVec w r := by
  have hb := commute_faces (sf := sf) ((bdrFaces C.prob).map fun q => (q.2, mb q)) (fun q hq => by
    rw [List.mem_map] at hq
    obtain ⟨q', hq', rfl⟩ := hq
    unfold bdrFaces at hq'
    rw [List.mem_filterMap] at hq'
    obtain ⟨q'', hq'', e⟩ := hq'
    obtain ⟨b, hb⟩ := hs.bdr q'' hq''
    cases hc : q''.1 with
    | none => rw [hc] at e; simp at e
    | some c => rw [hc] at e; simp only [Option.map_some, Option.some.injEq] at e; subst e; exact ⟨b, hb⟩) w r
  have ea : ∀ (a b : List (Face ι K × EMat K)) (u : ι → K),
      (assemble (a ++ b)).mulVec u r = (assemble a).mulVec u r + (assemble b).mulVec u r := by
    intro a b u
    rw [mulVec_form, mulVec_form, mulVec_form, form_assemble, form_assemble, form_assemble, List.map_append,
      List.sum_append]
  rw [ea, ea, mul_add, ← hb]
  have hi : (assemble ((plainFaces C.prob).map fun F => (F, mk F))).mulVec (chi sf w) r +
      (assemble (C.tfFaces.map fun F => (F, mk F))).mulVec g r =
      kap sf r * (assemble ((plainFaces C.prob).map fun F => (F, mk F))).mulVec w r := by
    rw [mulVec_form, mulVec_form, mulVec_form, form_assemble, form_assemble, form_assemble, List.map_map,
      List.map_map, List.map_map, plainFaces_prob]
    unfold Case.tfFaces
    rw [sum_filterMap, sum_filterMap, sum_filterMap]
    have key : ∀ q ∈ C.interior,
        (if decide (q.cond = none) = true then fbil q.face (mk q.face) (Pi.single r 1) (chi sf w) else 0) +
          (if q.tf = true then fbil q.face (mk q.face) (Pi.single r 1) g else 0) =
        kap sf r * (if decide (q.cond = none) = true then fbil q.face (mk q.face) (Pi.single r 1) w else 0) := by
      intro q hq
      by_cases ht : q.tf = true
      · obtain ⟨hc, _⟩ := hs.marked q hq ht
        rw [if_pos (by simp [hc]), if_pos ht, if_pos (by simp [hc]), ← fbil_add,
          hm q.face _ _ (hg q.face (mem_tfFaces hq ht)), hm q.face _ w (hw q.face (mem_tfFaces hq ht)), mul_zero]
      · rw [if_neg ht, add_zero]
        obtain ⟨b, hb⟩ := hs.other q hq (by simpa using ht)
        by_cases hc : decide (q.cond = none) = true
        · rw [if_pos hc, if_pos hc, fbil_chi hb, chi_single, fbil_smul_left]
        · rw [if_neg hc, if_neg hc, mul_zero]
    clear hg hw hs hb
    revert key
    generalize C.interior = l
    intro key
    induction l with
    | nil => simp
    | cons q l ih =>
      simp only [List.map_cons, List.sum_cons, Function.comp_apply]
      have h1 := key q (by simp)
      have h2 := ih fun q hq => key q (by simp [hq])
      simp only [Function.comp_apply] at h2
      linear_combination h1 + h2
  linear_combination hi

/-- The splitting identity: operator and injection acting on the scattered part of a wave. -/
lemma split_core {C : Case ι K} {sf : ι → Bool} (hs : Splits C sf) {w g : State ι K}
    (hg : ∀ f d, Injects C sf (w f d) (g f d)) (hw : ∀ F ∈ C.tfFaces, SameTraces F w) (f : FieldT) (d : Dir) (r : ι) :
    globalMult C.prob (fun f d => chi sf (w f d)) f d r + applyBlocks (sourceBlocks C C.tfFaces) g f d r =
      kap sf r * globalMult C.prob w f d r := by
  have hM : ∀ f c, C.Minv f r c ≠ 0 → (kap sf c : K) = kap sf r := fun f c hc =>
    kap_eq (by by_contra hh; exact hc (hs.minv f r c (Ne.symm hh)))
  have h1 : Rel (fun f d => chi sf (w f d)) g w r (kap sf r) (ibfiBlocks C.prob) [] (ibfiBlocks C.prob) := by
    have hf : ∀ (mb : BdrCond × Face ι K → EMat K), ∀ q ∈ (intBdrFaces C.prob).map (fun q => (q.2, mb q)),
        ∃ b, AllIn sf b q.1 := by
      intro mb q hq
      rw [List.mem_map] at hq
      obtain ⟨q', hq', rfl⟩ := hq
      unfold intBdrFaces Case.prob at hq'
      rw [List.mem_filterMap] at hq'
      obtain ⟨p, hp, e⟩ := hq'
      rw [List.mem_map] at hp
      obtain ⟨a, ha, rfl⟩ := hp
      have hc : a.cond ≠ none ∧ q'.2 = a.face := by
        simp only at e
        split at e
        · exact absurd e (by simp)
        · exact absurd e (by simp)
        · rename_i c hne hc
          simp only [Option.some.injEq] at e
          rw [← e, hc]; simp
      have ht : a.tf = false := by
        by_contra ht
        exact hc.1 (hs.marked a ha (by simpa using ht)).1
      obtain ⟨b, hb⟩ := hs.other a ha ht
      exact ⟨b, by rw [hc.2]; exact hb⟩
    refine ((Rel.one0 _ fun f a d => minv_row0 fun c hc => ?_).append0
      (Rel.zero0 fun f d => minv_row0 fun c hc => ?_)).append0 (Rel.two0 _ fun f a b d => minv_row0 fun c hc => ?_)
    all_goals rw [← hM f c hc]; exact commute_faces _ (hf _) _ _
  have h2 : Rel (fun f d => chi sf (w f d)) g w r (kap sf r) (directionalBlocks C.prob) []
      (directionalBlocks C.prob) := by
    have e : ∀ f a d, (C.prob.Minv f * derivativeSub C.prob a).mulVec (chi sf (w (altField f) d)) r =
        kap sf r * (C.prob.Minv f * derivativeSub C.prob a).mulVec (w (altField f) d) r := by
      intro f a d
      refine minv_row0 fun c hc => ?_
      rw [← hM f c hc]
      refine commute_block (fun r c h => ?_) _ _
      unfold derivativeSub
      split
      · rfl
      · exact hs.deriv a r c h
    exact Rel.flatMap0 _ _ _ fun f _ => Rel.flatMap0 _ _ _ fun a _ =>
      (Rel.single0 _ _ _ _ _ _ _ (e f a _)).append0 (Rel.single0 _ _ _ _ _ _ _ (e f a _))
  have h3 : Rel (fun f d => chi sf (w f d)) g w r (kap sf r) (faceBlocks C.prob) (sourceBlocks C C.tfFaces)
      (faceBlocks C.prob) := by
    refine ((Rel.one _ fun f a d => minv_row fun c hc => ?_).append
      (Rel.zero fun f d => minv_row fun c hc => ?_)).append (Rel.two _ fun f a b d => minv_row fun c hc => ?_)
    all_goals rw [← hM f c hc]
    · exact split_faces hs (fun F => seesJumps_one a 1 F) _ (hg _ d) (fun F hF p hp => hw F hF p hp _ d) c
    · exact split_faces hs (fun F => seesJumps_zero C.alpha F) _ (hg _ d) (fun F hF p hp => hw F hF p hp _ d) c
    · exact split_faces hs (fun F => seesJumps_two a b C.alpha F) _ (hg _ d) (fun F hF p hp => hw F hF p hp _ d) c
  have h4 : Rel (fun f d => chi sf (w f d)) g w r (kap sf r) (conductiveBlocks C.prob) []
      (conductiveBlocks C.prob) := by
    refine Rel.map0 _ _ _ fun d _ => Rel.single0 _ _ _ _ _ _ _ (minv_row0 fun c hc => ?_)
    rw [← hM .E c hc]
    exact commute_block hs.msig _ _
  rw [globalMult_eq, globalMult_eq]
  have e1 := h1 f d
  have e2 := h2 f d
  have e3 := h3 f d
  have e4 := h4 f d
  simp only [applyBlocks_nilS, Pi.zero_apply, add_zero] at e1 e2 e4
  linear_combination e1 + e2 + e3 + e4

lemma globalMult_sub (P : Prob ι K) (u v : State ι K) (f : FieldT) (d : Dir) (i : ι) :
    globalMult P (fun f d i => u f d i - v f d i) f d i = globalMult P u f d i - globalMult P v f d i :=
  applyBlocks_sub _ u v f d i

lemma sourceField_eq (C : Case ι K) (waves : List (State ι K)) (f : FieldT) (d : Dir) (i : ι) (h : i ∈ C.sub) :
    sourceField C waves f d i = total waves f d i * tfsfSign C i := by
  unfold sourceField total
  rw [if_pos h]
  have : ∀ s : K, waves.foldl (fun s w => s + w f d i * tfsfSign C i) s =
      s + (waves.map fun w => w f d i).sum * tfsfSign C i := by
    induction waves with
    | nil => intro s; simp
    | cons w l ih => intro s; rw [List.foldl_cons, ih, List.map_cons, List.sum_cons]; ring
  rw [this, zero_add]

/-- From a source field with a suitable mask to the identity. -/
lemma split_of_injects {C : Case ι K} {sf : ι → Bool} (hs : Splits C sf) {waves : List (State ι K)}
    (hq : skip2 ≤ sourceNorm2 C (sourceField C waves)) (hw : ∀ F ∈ C.tfFaces, SameTraces F (total waves))
    (hg : ∀ f d, Injects C sf (total waves f d) (sourceField C waves f d)) (u : State ι K) :
    sourceRhs C waves (split sf u (total waves)) =
      split sf (globalMult C.prob u) (globalMult C.prob (total waves)) := by
  funext f d r
  unfold sourceRhs
  rw [if_neg (not_lt.mpr hq)]
  have e : split sf u (total waves) = fun f d i => u f d i - (fun f d => chi sf (total waves f d)) f d i := by
    funext f d i
    unfold split chi
    by_cases h : sf i = true <;> simp [h]
  rw [e, globalMult_sub]
  have := split_core hs hg hw f d r
  unfold split
  unfold kap at this
  by_cases h : sf r = true
  · rw [if_pos h] at this ⊢
    linear_combination -this
  · rw [if_neg h] at this ⊢
    linear_combination -this

/-- The two traces of a field that is the same multiple of a continuous one on both sides. -/
lemma same_trace {F : Face ι K} {p : Pt K} {w h : ι → K} {k : K} (hw : tr1 F p w = tr2 F p w)
    (h1 : ∀ i < F.ndof1, h (F.dofs i) = k * w (F.dofs i))
    (h2 : ∀ i < F.ndof2, h (F.dofs (F.ndof1 + i)) = k * w (F.dofs (F.ndof1 + i))) : tr1 F p h = tr2 F p h := by
  rw [tr1_congr F p (u' := fun i => k * w i) h1, tr2_congr F p (u' := fun i => k * w i) h2, tr1_smul, tr2_smul, hw]

lemma chi_mask {C : Case ι K} {sf : ι → Bool} (h : TwoSided C sf) {waves : List (State ι K)} {F : Face ι K}
    (hF : F ∈ C.tfFaces) (f : FieldT) (d : Dir) (i : Nat) (hi : i < F.ndof1 + F.ndof2) :
    chi sf (total waves f d) (F.dofs i) + sourceField C waves f d (F.dofs i) =
      1 / 2 * total waves f d (F.dofs i) := by
  obtain ⟨l, hl, h⟩ := h
  obtain ⟨h1, h2⟩ := h F hF i hi
  rw [sourceField_eq C waves f d _ h1]
  unfold chi tfsfSign
  rw [hl]
  by_cases hs : sf (F.dofs i) = true
  · simp only [if_pos hs, if_pos (h2.2 hs)]
    have : (2 : K) ≠ 0 := two_ne_zero
    field_simp; ring
  · have : F.dofs i ∉ l := fun hc => hs (h2.1 hc)
    simp only [if_neg hs, if_neg this]; ring

/-- C106: whatever the field `u`, inside the total-field surface the computed rate is that of `u`, outside it is that
of `u` minus that of the incident wave. -/
theorem C106_split_partial {C : Case ι K} {sf : ι → Bool} (hs : Splits C sf) (h2 : TwoSided C sf) {waves : List (State ι K)}
    (hq : skip2 ≤ sourceNorm2 C (sourceField C waves)) (hw : ∀ F ∈ C.tfFaces, SameTraces F (total waves))
    (u : State ι K) :
    sourceRhs C waves (split sf u (total waves)) =
      split sf (globalMult C.prob u) (globalMult C.prob (total waves)) := by
  refine split_of_injects hs hq hw (fun f d F hF p hp => ?_) u
  exact same_trace (hw F hF p hp f d) (fun i hi => chi_mask h2 hF f d i (by omega))
    (fun i hi => chi_mask h2 hF f d (F.ndof1 + i) (by omega))

/-- C106: the same when the sub-mesh has only the total-field side. -/
theorem C106_split_one_sided_partial {C : Case ι K} {sf : ι → Bool} (hs : Splits C sf) (h2 : OneSided C sf)
    {waves : List (State ι K)} (hq : skip2 ≤ sourceNorm2 C (sourceField C waves))
    (hw : ∀ F ∈ C.tfFaces, SameTraces F (total waves)) (u : State ι K) :
    sourceRhs C waves (split sf u (total waves)) =
      split sf (globalMult C.prob u) (globalMult C.prob (total waves)) := by
  have key : ∀ F ∈ C.tfFaces, ∀ f d, ∀ i < F.ndof1 + F.ndof2,
      chi sf (total waves f d) (F.dofs i) + sourceField C waves f d (F.dofs i) = 1 * total waves f d (F.dofs i) := by
    intro F hF f d i hi
    have hm := h2.2 F hF i hi
    unfold chi
    by_cases hsf : sf (F.dofs i) = true
    · have : F.dofs i ∉ C.sub := fun hc => by rw [hm.1 hc] at hsf; exact absurd hsf (by simp)
      unfold sourceField
      simp only [if_pos hsf, if_neg this]; ring
    · have : F.dofs i ∈ C.sub := hm.2 (by simpa using hsf)
      rw [sourceField_eq C waves f d _ this]
      unfold tfsfSign
      rw [h2.1]
      simp only [if_neg hsf]; ring
  refine split_of_injects hs hq hw (fun f d F hF p hp => ?_) u
  exact same_trace (hw F hF p hp f d) (fun i hi => key F hF f d i (by omega))
    (fun i hi => key F hF f d (F.ndof1 + i) (by omega))

/-- C106: with nothing but the incident wave, the scattered field stays zero and the total field changes as the wave. -/
theorem C106_no_trace_partial {C : Case ι K} {sf : ι → Bool} (hs : Splits C sf) (h2 : TwoSided C sf)
    {waves : List (State ι K)} (hq : skip2 ≤ sourceNorm2 C (sourceField C waves))
    (hw : ∀ F ∈ C.tfFaces, SameTraces F (total waves)) (f : FieldT) (d : Dir) (i : ι) :
    sourceRhs C waves (fun f d i => if sf i = true then 0 else total waves f d i) f d i =
      if sf i = true then 0 else globalMult C.prob (total waves) f d i := by
  have e : (fun f d i => if sf i = true then 0 else total waves f d i) = split sf (total waves) (total waves) := by
    funext f d i
    unfold split
    by_cases h : sf i = true <;> simp [h]
  rw [e, C106_split_partial hs h2 hq hw]
  unfold split
  by_cases h : sf i = true <;> simp [h]

/-- C106 violated: a wave whose values on the surface have norm below 1e-8 is not launched, whatever its energy
compared with the fields. -/
theorem C106_violated_weak {C : Case ι K} {waves : List (State ι K)}
    (hq : sourceNorm2 C (sourceField C waves) < skip2) (v : State ι K) :
    sourceRhs C waves v = globalMult C.prob v := by
  unfold sourceRhs
  rw [if_pos hq]

/-! ### a concrete case: two segments with linear elements, the surface between them -/

namespace TfsfExample

def pt : Pt ℚ := ⟨1, 1, [1], fun i => if i = 1 then 1 else 0, fun i => if i = 0 then 1 else 0⟩
def ptL : Pt ℚ := ⟨1, 1, [-1], fun i => if i = 0 then 1 else 0, fun _ => 0⟩
def ptR : Pt ℚ := ⟨1, 1, [1], fun i => if i = 1 then 1 else 0, fun _ => 0⟩
def inner : Face (Fin 4) ℚ := ⟨2, 2, Fin.ofNat 4, [pt]⟩
def leftEnd : Face (Fin 4) ℚ := ⟨2, 0, Fin.ofNat 4, [ptL]⟩
def rightEnd : Face (Fin 4) ℚ := ⟨2, 0, fun i => Fin.ofNat 4 (i + 2), [ptR]⟩

def C : Case (Fin 4) ℚ :=
  { dim := 1
    alpha := 1
    interior := [⟨none, true, inner⟩]
    bdr := [(some .SMA, leftEnd), (some .SMA, rightEnd)]
    Minv := fun _ r c => if r.val / 2 = c.val / 2 then (if r = c then 4 else -2) else 0
    Msig := 0
    D := fun _ r c => if r.val / 2 = c.val / 2 then (if c.val % 2 = 0 then -1 / 2 else 1 / 2) else 0
    sub := [0, 1, 2, 3]
    sfSub := some [0, 1] }

/-- The left segment is the scattered-field region. -/
def sf : Fin 4 → Bool := fun i => decide (i.val < 2)

/-- A wave that is continuous at the surface. -/
def wave (k : ℚ) : State (Fin 4) ℚ := fun f d i =>
  if (f = .E ∧ d = 1) ∨ (f = .H ∧ d = 2) then k * ([1, 2, 2, 5].getD i.val 0) else 0

lemma splits : Splits C sf where
  minv := by
    intro f r c h
    simp only [C]
    rw [if_neg]
    intro e
    apply h
    unfold sf
    congr 1
    apply propext
    omega
  msig := fun _ _ _ => rfl
  deriv := by
    intro d r c h
    simp only [C]
    rw [if_neg]
    intro e
    apply h
    unfold sf
    congr 1
    apply propext
    omega
  marked := by
    intro q hq _
    simp only [C, List.mem_singleton] at hq
    subst hq
    refine ⟨rfl, true, ?_, ?_⟩
    · intro i hi; have : i < 2 := hi; interval_cases i <;> rfl
    · intro i hi; have : i < 2 := hi; interval_cases i <;> rfl
  other := by
    intro q hq h
    simp only [C, List.mem_singleton] at hq
    subst hq
    exact absurd h (by simp)
  bdr := by
    intro q hq
    simp only [C, List.mem_cons, List.not_mem_nil, or_false] at hq
    rcases hq with rfl | rfl
    · exact ⟨true, fun i hi => by have : i < 2 := hi; interval_cases i <;> rfl⟩
    · exact ⟨false, fun i hi => by have : i < 2 := hi; interval_cases i <;> rfl⟩

lemma tfFaces_eq : C.tfFaces = [inner] := rfl

lemma twoSided : TwoSided C sf := by
  refine ⟨[0, 1], rfl, ?_⟩
  intro F hF i hi
  rw [tfFaces_eq, List.mem_singleton] at hF
  subst hF
  have : i < 4 := hi
  interval_cases i <;> decide

lemma sameTraces (k : ℚ) : ∀ F ∈ C.tfFaces, SameTraces F (total [wave k]) := by
  intro F hF p hp f d
  rw [tfFaces_eq, List.mem_singleton] at hF
  subst hF
  simp only [inner, List.mem_singleton] at hp
  subst hp
  unfold tr1 tr2 total wave
  simp only [inner, pt, Finset.sum_range_succ, Finset.sum_range_zero, List.map_cons, List.map_nil, List.sum_cons, List.sum_nil]
  norm_num [Fin.ofNat]

example : sourceRhs C [wave 1] (split sf (wave 3) (total [wave 1])) =
    split sf (globalMult C.prob (wave 3)) (globalMult C.prob (total [wave 1])) :=
  C106_split_partial splits twoSided (by decide +kernel) (sameTraces 1) _

/-- The rates inside and outside are not zero, and without injection the rate would be another one. -/
example : globalMult C.prob (wave 3) .E 1 1 ≠ globalMult C.prob (total [wave 1]) .E 1 1 ∧
    globalMult C.prob (split sf (wave 3) (total [wave 1])) .E 1 2 ≠
      sourceRhs C [wave 1] (split sf (wave 3) (total [wave 1])) .E 1 2 := by decide +kernel

end TfsfExample

open TfsfExample in
/-- C106 violated, witness: behind the surface a wave of amplitude 1e-9 does not go on. -/
theorem C106_violated_weak_witness : ∃ (C : Case (Fin 4) ℚ) (sf : Fin 4 → Bool) (w : State (Fin 4) ℚ),
    Splits C sf ∧ TwoSided C sf ∧ (∀ F ∈ C.tfFaces, SameTraces F (total [w])) ∧
    sourceRhs C [w] (fun f d i => if sf i = true then 0 else w f d i) .E 1 2 ≠ globalMult C.prob w .E 1 2 ∧
    sf 2 = false :=
  ⟨C, sf, wave (1 / 1000000000), splits, twoSided, sameTraces _, by
    rw [C106_violated_weak (not_le.mp (by decide +kernel))]
    decide +kernel, rfl⟩

end Dgtd.Op
