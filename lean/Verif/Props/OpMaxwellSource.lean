/-
C113: the component-wise operator launches waves like the global one.
-/
import Verif.Props.OpSource
import Verif.Props.Routes
import Verif.Spec.OpMaxwellSource

set_option linter.unusedSectionVars false
set_option linter.unusedSimpArgs false

namespace Dgtd.Op

open Spec

variable {ι K : Type} [Fintype ι] [DecidableEq ι] [Field K] [LinearOrder K] [IsStrictOrderedRing K]

lemma hasIntBdr_sub (C : Case ι K) (Mvac : FieldT → Matrix ι ι K) : hasIntBdr (C.subProb Mvac) = false := by
  unfold hasIntBdr Case.subProb
  simp

/-- One pass over the sources subtracts, at the nodes of the sub-mesh, the operator of the sub-mesh. -/
lemma addSource_eq (C : Case ι K) (Mvac : FieldT → Matrix ι ι K) (g out : State ι K) (f : FieldT) (d : Dir) (i : ι) :
    addSource C Mvac g out f d i =
      if i ∈ C.sub then out f d i - maxwellMult (C.subProb Mvac) g f d i else out f d i := by
  have hD : ∀ (f : FieldT) (x : Dir), MS (C.subProb Mvac) f x = 0 := by
    intro f x
    unfold MS derivativeSub Case.subProb
    simp
  cases f
  · simp only [addSource, eSource, maxwellMult, eNew, hasIntBdr_sub, Bool.false_eq_true, if_false, transfer, addMult, hD,
      Matrix.zero_mulVec, Pi.add_apply, Pi.smul_apply, Pi.zero_apply, smul_eq_mul, smul_zero]
    by_cases h : i ∈ C.sub
    · simp only [if_pos h]; ring
    · simp only [if_neg h]
  · simp only [addSource, hSource, maxwellMult, hNew, hasIntBdr_sub, Bool.false_eq_true, if_false, transfer, addMult, hD,
      Matrix.zero_mulVec, Pi.add_apply, Pi.smul_apply, Pi.zero_apply, smul_eq_mul, smul_zero]
    by_cases h : i ∈ C.sub
    · simp only [if_pos h]; ring
    · simp only [if_neg h]

lemma mem_subFaces {C : Case ι K} {F : Face ι K} (h : F ∈ C.subFaces) :
    ∃ q ∈ C.interior, q.face = F ∧ ∀ i < F.ndof1 + F.ndof2, F.dofs i ∈ C.sub := by
  unfold Case.subFaces at h
  rw [List.mem_filterMap] at h
  obtain ⟨q, hq, e⟩ := h
  split_ifs at e with hc
  simp only [Option.some.injEq] at e
  subst e
  exact ⟨q, hq, rfl, hc⟩

lemma subFaces_plain (C : Case ι K) (Mvac : FieldT → Matrix ι ι K) : plainFaces (C.subProb Mvac) = C.subFaces := by
  unfold plainFaces Case.subProb
  rw [List.filterMap_map]
  simp [Function.comp_def]

lemma sub_bdr (C : Case ι K) (Mvac : FieldT → Matrix ι ι K) : bdrFaces (C.subProb Mvac) = [] := rfl

/-- The operator of the sub-mesh, as source blocks of all its faces. -/
lemma sub_global (C : Case ι K) (Mvac : FieldT → Matrix ι ι K) (g : State ι K) (f : FieldT) (d : Dir) (r : ι) :
    globalMult (C.subProb Mvac) g f d r =
      applyBlocks (sourceBlocks { C with Minv := Mvac } C.subFaces) g f d r := by
  unfold globalMult globalBlocks
  rw [hasIntBdr_sub]
  have e : ∀ bs : List (GBlock ι K), (∀ b ∈ bs, b.mat = 0) → applyBlocks bs g f d r = 0 := by
    intro bs hb
    induction bs with
    | nil => rfl
    | cons b bs ih =>
      rw [applyBlocks_consS, Pi.add_apply, ih fun b hb' => hb b (by simp [hb']), hb b (by simp)]
      split_ifs <;> simp
  simp only [Bool.false_eq_true, if_false, List.nil_append, applyBlocks_appendS, Pi.add_apply, sourceBlocks]
  rw [e (directionalBlocks _), e (conductiveBlocks _), zero_add, add_zero]
  · unfold oneNormalSub zeroNormalSub twoNormalSub sourceOne sourceZero sourceTwo
    rw [subFaces_plain, sub_bdr]
    simp only [List.map_nil, List.append_nil]
    rfl
  · intro b hb
    unfold conductiveBlocks Case.subProb at hb
    rw [List.mem_map] at hb
    obtain ⟨d, _, rfl⟩ := hb
    exact Matrix.mul_zero _
  · intro b hb
    unfold directionalBlocks at hb
    have hd : ∀ x, derivativeSub (C.subProb Mvac) x = 0 := by
      intro x; unfold derivativeSub Case.subProb; simp
    simp only [List.mem_flatMap, hd, Matrix.mul_zero] at hb
    obtain ⟨f, _, x, _, hb⟩ := hb
    simp only [List.mem_cons, List.not_mem_nil, or_false] at hb
    rcases hb with rfl | rfl <;> rfl

/-- Faces of the sub-mesh without jump do not contribute. -/
lemma sub_rows {C : Case ι K} (ht : ∀ F ∈ C.tfFaces, ∀ i < F.ndof1 + F.ndof2, F.dofs i ∈ C.sub)
    {mk : Face ι K → EMat K} (hm : ∀ F, SeesJumps F (mk F)) {g : ι → K}
    (hg : ∀ q ∈ C.interior, q.tf = false → q.face ∈ C.subFaces → ∀ p ∈ q.face.pts, tr1 q.face p g = tr2 q.face p g) (r : ι) :
    (assemble (C.subFaces.map fun F => (F, mk F))).mulVec g r = (assemble (C.tfFaces.map fun F => (F, mk F))).mulVec g r := by
  rw [mulVec_form, mulVec_form, form_assemble, form_assemble, List.map_map, List.map_map]
  have mem : ∀ q ∈ C.interior, (∀ i < q.face.ndof1 + q.face.ndof2, q.face.dofs i ∈ C.sub) → q.face ∈ C.subFaces := by
    intro q hq h
    unfold Case.subFaces
    rw [List.mem_filterMap]
    exact ⟨q, hq, if_pos h⟩
  have tf : ∀ q ∈ C.interior, q.tf = true → ∀ i < q.face.ndof1 + q.face.ndof2, q.face.dofs i ∈ C.sub :=
    fun q hq h => ht _ (mem_tfFaces hq h)
  have hg' : ∀ q ∈ C.interior, q.tf = false → (∀ i < q.face.ndof1 + q.face.ndof2, q.face.dofs i ∈ C.sub) →
      fbil q.face (mk q.face) (Pi.single r 1) g = 0 :=
    fun q hq h1 h2 => hm _ _ _ (hg q hq h1 (mem q hq h2))
  unfold Case.subFaces Case.tfFaces
  generalize C.interior = l at tf hg'
  clear mem hg ht
  induction l with
  | nil => rfl
  | cons q l ih =>
    have ih := ih (fun q hq => tf q (by simp [hq])) (fun q hq => hg' q (by simp [hq]))
    rw [List.filterMap_cons, List.filterMap_cons]
    by_cases h : q.tf = true
    · rw [if_pos h, if_pos (tf q (by simp) h)]
      simp only [List.map_cons, List.sum_cons, ih]
    · rw [if_neg h]
      by_cases hs : ∀ i < q.face.ndof1 + q.face.ndof2, q.face.dofs i ∈ C.sub
      · rw [if_pos hs]
        simp only [List.map_cons, List.sum_cons, ih]
        simp only [Function.comp_apply]
        rw [hg' q (by simp) (by simpa using h) hs, zero_add]
      · rw [if_neg hs]
        simp only [ih]

/-- Rows outside of the sub-mesh are not reached. -/
lemma tf_row_outside {C : Case ι K} (ht : ∀ F ∈ C.tfFaces, ∀ i < F.ndof1 + F.ndof2, F.dofs i ∈ C.sub)
    (mk : Face ι K → EMat K) (g : ι → K) (r : ι) (hr : r ∉ C.sub) :
    (assemble (C.tfFaces.map fun F => (F, mk F))).mulVec g r = 0 := by
  rw [mulVec_form, form_assemble, List.map_map]
  apply sum_map_zero
  intro F hF
  apply fbil_left_zero
  intro i hi
  have : F.dofs i ≠ r := fun e => hr (e ▸ ht F hF i hi)
  simp [Pi.single_apply, this]

/-- A row of the product with the two mass matrices. -/
lemma mass_row {C : Case ι K} {sf : ι → Bool} {Mvac : FieldT → Matrix ι ι K} (ha : Around C sf) (hv : Vacuum C Mvac)
    {mk : Face ι K → EMat K} (hm : ∀ F, SeesJumps F (mk F)) {g : ι → K}
    (hg : ∀ q ∈ C.interior, q.tf = false → q.face ∈ C.subFaces → ∀ p ∈ q.face.pts, tr1 q.face p g = tr2 q.face p g)
    (f : FieldT) (r : ι) :
    (C.Minv f * assemble (C.tfFaces.map fun F => (F, mk F))).mulVec g r =
      (if r ∈ C.sub then 1 else 0) * (Mvac f * assemble (C.subFaces.map fun F => (F, mk F))).mulVec g r := by
  rw [← Matrix.mulVec_mulVec, ← Matrix.mulVec_mulVec]
  have e : (assemble (C.subFaces.map fun F => (F, mk F))).mulVec g = (assemble (C.tfFaces.map fun F => (F, mk F))).mulVec g :=
    funext fun r => sub_rows ha.faces hm hg r
  rw [e]
  have s : ∀ (M : Matrix ι ι K) (v : ι → K), M.mulVec v r = ∑ c, M r c * v c := fun _ _ => rfl
  rw [s, s, Finset.mul_sum]
  apply Finset.sum_congr rfl
  intro c _
  by_cases hr : r ∈ C.sub <;> by_cases hc : c ∈ C.sub
  · rw [if_pos hr, hv.same f r c hr hc, one_mul]
  · rw [tf_row_outside ha.faces mk g c hc]; ring
  · rw [ha.minv f r c (by simp [hr, hc])]; simp [hr]
  · rw [tf_row_outside ha.faces mk g c hc]; ring

lemma rel_smul {bs cs : List (GBlock ι K)} {g : State ι K} {r : ι} {k : K} (h : Rel g g g r k bs [] cs) (f : FieldT) (d : Dir) :
    applyBlocks bs g f d r = k * applyBlocks cs g f d r := by
  have := h f d
  rw [applyBlocks_nilS, Pi.zero_apply, add_zero] at this
  exact this

/-- What is subtracted: the source blocks of the global operator. -/
lemma sub_source {C : Case ι K} {sf : ι → Bool} {Mvac : FieldT → Matrix ι ι K} (ha : Around C sf) (hv : Vacuum C Mvac)
    {g : State ι K}
    (hg : ∀ q ∈ C.interior, q.tf = false → q.face ∈ C.subFaces → SameTraces q.face g) (f : FieldT) (d : Dir) (r : ι) :
    applyBlocks (sourceBlocks C C.tfFaces) g f d r =
      if r ∈ C.sub then applyBlocks (sourceBlocks { C with Minv := Mvac } C.subFaces) g f d r else 0 := by
  have hr : Rel g g g r (if r ∈ C.sub then 1 else 0) (sourceBlocks C C.tfFaces) [] (sourceBlocks { C with Minv := Mvac } C.subFaces) := by
    unfold sourceBlocks
    refine (Rel.append0 (Rel.append0 (Rel.one0 _ fun f a d => ?_) (Rel.zero0 fun f d => ?_)) (Rel.two0 _ fun f a b d => ?_))
    · unfold sourceOne
      exact mass_row ha hv (seesJumps_one _ _) (fun q hq h1 h2 p hp => hg q hq h1 h2 p hp _ _) f r
    · unfold sourceZero
      exact mass_row ha hv (seesJumps_zero _) (fun q hq h1 h2 p hp => hg q hq h1 h2 p hp _ _) f r
    · unfold sourceTwo
      exact mass_row ha hv (seesJumps_two _ _ _) (fun q hq h1 h2 p hp => hg q hq h1 h2 p hp _ _) f r
  rw [rel_smul hr]
  by_cases h : r ∈ C.sub <;> simp [h]

/-- The masked wave has no jump on the other faces of the sub-mesh. -/
lemma masked_same {C : Case ι K} {sf : ι → Bool} (hs : Splits C sf) (ha : Around C sf) {waves : List (State ι K)}
    (hw : ∀ F ∈ C.subFaces, SameTraces F (total waves)) (q : IFace ι K) (hq : q ∈ C.interior) (ht : q.tf = false)
    (hF : q.face ∈ C.subFaces) : SameTraces q.face (sourceField C waves) := by
  obtain ⟨b, hb⟩ := hs.other q hq ht
  obtain ⟨_, _, _, hsub⟩ := mem_subFaces hF
  obtain ⟨l, hl, hside⟩ := ha.side
  have key : ∀ f d, ∀ i < q.face.ndof1 + q.face.ndof2, sourceField C waves f d (q.face.dofs i) =
      (if b = true then -(1 / 2) else 1 / 2) * total waves f d (q.face.dofs i) := by
    intro f d i hi
    rw [sourceField_eq C waves f d _ (hsub i hi), tfsfSign, hl]
    have h1 := hside _ (hsub i hi)
    have h2 := hb i hi
    rw [h2] at h1
    cases b
    · have : q.face.dofs i ∉ l := fun hc => absurd (h1.1 hc) (by simp)
      simp only [if_neg this, Bool.false_eq_true, if_false]; ring
    · have : q.face.dofs i ∈ l := h1.2 rfl
      simp only [if_pos this, if_true]; ring
  intro p hp f d
  exact same_trace (hw _ hF p hp f d) (fun i hi => key f d i (by omega)) (fun i hi => key f d (q.face.ndof1 + i) (by omega))

/-- Normals have as many components as the mesh has dimensions. -/
def Sized (C : Case ι K) : Prop := ∀ f ∈ allFaces C.prob, ∀ p ∈ f.pts, p.nor.length = C.dim

lemma sized_sub {C : Case ι K} (h : Sized C) (Mvac : FieldT → Matrix ι ι K) :
    ∀ f ∈ allFaces (C.subProb Mvac), ∀ p ∈ f.pts, p.nor.length = (C.subProb Mvac).dim := by
  intro F hF p hp
  refine h F ?_ p hp
  unfold allFaces at hF ⊢
  simp only [Case.subProb, List.map_map, List.map_nil, List.append_nil, List.mem_map, Function.comp_apply] at hF
  obtain ⟨F', hF', rfl⟩ := hF
  obtain ⟨q, hq, e, _⟩ := mem_subFaces hF'
  simp only [Case.prob, List.mem_append, List.mem_map, List.map_map, Function.comp_apply]
  exact Or.inl ⟨q, hq, e⟩

/-- **C113**, partial.  With one wave and vacuum next to the surface, the component-wise operator computes what the global
one does, except that it also launches weak waves. -/
theorem C113_operators_agree_partial {C : Case ι K} {sf : ι → Bool} {Mvac : FieldT → Matrix ι ι K} (hn : Sized C)
    (hσ : C.Msig = 0) (hs : Splits C sf) (ha : Around C sf) (hv : Vacuum C Mvac) {w : State ι K}
    (hw : ∀ F ∈ C.subFaces, SameTraces F (total [w])) (v : State ι K) :
    (maxwellSourceRhs C Mvac [w] v = fun f d i => globalMult C.prob v f d i -
      applyBlocks (sourceBlocks C C.tfFaces) (sourceField C [w]) f d i) ∧
    (skip2 ≤ sourceNorm2 C (sourceField C [w]) → maxwellSourceRhs C Mvac [w] v = sourceRhs C [w] v) := by
  have key : maxwellSourceRhs C Mvac [w] v = fun f d i => globalMult C.prob v f d i -
      applyBlocks (sourceBlocks C C.tfFaces) (sourceField C [w]) f d i := by
    funext f d i
    have e : maxwellSourceRhs C Mvac [w] v = addSource C Mvac (sourceField C [w]) (maxwellMult C.prob v) := rfl
    rw [e, addSource_eq, C03_operators_agree_partial C.prob hn hσ,
      C03_operators_agree_partial (C.subProb Mvac) (sized_sub hn Mvac) rfl, sub_global,
      sub_source ha hv (masked_same hs ha hw)]
    by_cases h : i ∈ C.sub
    · rw [if_pos h, if_pos h]
    · rw [if_neg h, if_neg h, sub_zero]
  refine ⟨key, fun hq => ?_⟩
  rw [key]
  unfold sourceRhs
  rw [if_neg (not_lt.mpr hq)]

lemma around_twoSided {C : Case ι K} {sf : ι → Bool} (ha : Around C sf) : TwoSided C sf := by
  obtain ⟨l, hl, h⟩ := ha.side
  exact ⟨l, hl, fun F hF i hi => ⟨ha.faces F hF i hi, h _ (ha.faces F hF i hi)⟩⟩

/-- **C113**, partial: whatever the field `u` and however weak the wave, inside the surface the rate is that of `u`, outside
that of `u` minus that of the wave. -/
theorem C113_split_partial {C : Case ι K} {sf : ι → Bool} {Mvac : FieldT → Matrix ι ι K} (hn : Sized C)
    (hσ : C.Msig = 0) (hs : Splits C sf) (ha : Around C sf) (hv : Vacuum C Mvac) {w : State ι K}
    (ht : ∀ F ∈ C.tfFaces, SameTraces F w) (hw : ∀ F ∈ C.subFaces, SameTraces F w) (u : State ι K) :
    maxwellSourceRhs C Mvac [w] (split sf u w) = split sf (maxwellMult C.prob u) (maxwellMult C.prob w) := by
  have et : total [w] = w := by funext f d i; simp [total]
  rw [C03_operators_agree_partial C.prob hn hσ, C03_operators_agree_partial C.prob hn hσ,
    (C113_operators_agree_partial hn hσ hs ha hv (by rw [et]; exact hw) _).1]
  funext f d r
  have hg : ∀ f d, Injects C sf (w f d) (sourceField C [w] f d) := by
    intro f d F hF p hp
    refine same_trace (k := 1 / 2) (ht F hF p hp f d) (fun i hi => ?_) (fun i hi => ?_)
    · have := chi_mask (around_twoSided ha) (waves := [w]) hF f d i (by omega)
      rwa [et] at this
    · have := chi_mask (around_twoSided ha) (waves := [w]) hF f d (F.ndof1 + i) (by omega)
      rwa [et] at this
  have e : split sf u w = fun f d i => u f d i - (fun f d => chi sf (w f d)) f d i := by
    funext f d i
    unfold split chi
    by_cases h : sf i = true <;> simp [h]
  rw [e, globalMult_sub]
  have := split_core hs hg ht f d r
  unfold split
  unfold kap at this
  by_cases h : sf r = true
  · rw [if_pos h] at this ⊢
    linear_combination -this
  · rw [if_neg h] at this ⊢
    linear_combination -this

/-- **C113**: with several waves, the last one is launched, once per wave. -/
theorem C113_several {C : Case ι K} {Mvac : FieldT → Matrix ι ι K} (waves : List (State ι K)) (w : State ι K)
    (v : State ι K) (f : FieldT) (d : Dir) (i : ι) :
    maxwellSourceRhs C Mvac (waves ++ [w]) v f d i - maxwellMult C.prob v f d i =
      ((waves.length + 1 : ℕ) : K) * (maxwellSourceRhs C Mvac [w] v f d i - maxwellMult C.prob v f d i) := by
  have hl : lastField C (waves ++ [w]) = lastField C [w] := by
    unfold lastField
    rw [List.getLast?_append]
    rfl
  have step : ∀ (l : List (State ι K)) (out : State ι K),
      l.foldl (fun out _ => addSource C Mvac (lastField C [w]) out) out f d i =
        out f d i + (l.length : K) * (if i ∈ C.sub then -maxwellMult (C.subProb Mvac) (lastField C [w]) f d i else 0) := by
    intro l
    induction l with
    | nil => intro out; simp
    | cons a l ih =>
      intro out
      rw [List.foldl_cons, ih, addSource_eq, List.length_cons]
      by_cases h : i ∈ C.sub
      · rw [if_pos h, if_pos h]; push_cast; ring
      · rw [if_neg h, if_neg h]; push_cast; ring
  unfold maxwellSourceRhs
  rw [hl, step, step]
  simp only [List.length_append, List.length_singleton]
  push_cast; ring

namespace TfsfExample

lemma sized : Sized C := by
  intro F hF p hp
  simp only [allFaces, Case.prob, C, List.map_cons, List.map_nil, List.cons_append, List.nil_append, List.mem_cons,
    List.not_mem_nil, or_false] at hF
  rcases hF with rfl | rfl | rfl <;> simp only [inner, leftEnd, rightEnd, List.mem_singleton] at hp <;> subst hp <;> rfl

lemma around : Around C sf where
  minv := by intro f r c h; exact absurd (by fin_cases r <;> fin_cases c <;> simp [C]) h
  faces := by
    intro F _ i _
    generalize F.dofs i = r
    fin_cases r <;> simp [C]
  side := ⟨[0, 1], rfl, by decide⟩

lemma subFaces_eq : C.subFaces = [inner] := by
  unfold Case.subFaces C
  have : ∀ i < inner.ndof1 + inner.ndof2, inner.dofs i ∈ ([0, 1, 2, 3] : List (Fin 4)) := by
    intro i _
    generalize inner.dofs i = r
    fin_cases r <;> simp
  simp only [List.filterMap_cons, List.filterMap_nil]
  rw [if_pos this]

lemma sameTraces_sub (k : ℚ) : ∀ F ∈ C.subFaces, SameTraces F (total [wave k]) := by
  rw [subFaces_eq]
  exact sameTraces k

/-- The case meets the hypotheses, and the wave is launched. -/
example : maxwellSourceRhs C C.Minv [wave 1] (wave 3) = sourceRhs C [wave 1] (wave 3) ∧
    sourceRhs C [wave 1] (wave 3) .E 1 2 ≠ globalMult C.prob (wave 3) .E 1 2 :=
  ⟨(C113_operators_agree_partial sized rfl splits around ⟨fun f r c _ h => absurd (by fin_cases c <;> simp [C]) h,
    fun _ _ _ _ _ => rfl⟩ (sameTraces_sub 1) _).2 (by decide +kernel), by decide +kernel⟩

end TfsfExample

open TfsfExample in
/-- **C113** violated: next to a medium other than vacuum (here of permittivity two) the two operators launch the same wave
differently. -/
theorem C113_violated_medium : ∃ (C : Case (Fin 4) ℚ) (Mvac : FieldT → Matrix (Fin 4) (Fin 4) ℚ) (sf : Fin 4 → Bool)
    (w v : State (Fin 4) ℚ), Sized C ∧ C.Msig = 0 ∧ Splits C sf ∧ Around C sf ∧
    (∀ r c, Mvac .E r c = 2 * C.Minv .E r c) ∧ (∀ r c, Mvac .H r c = C.Minv .H r c) ∧
    (∀ F ∈ C.subFaces, SameTraces F (total [w])) ∧ maxwellSourceRhs C Mvac [w] v .E 1 2 ≠ sourceRhs C [w] v .E 1 2 :=
  ⟨C, fun f r c => match f with | .E => 2 * C.Minv .E r c | .H => C.Minv .H r c, sf, wave 1, wave 3, sized, rfl, splits,
    around, fun _ _ => rfl, fun _ _ => rfl, sameTraces_sub 1, by decide +kernel⟩

open TfsfExample in
/-- **C113** violated: a wave too weak for the global operator is launched by this one. -/
theorem C113_violated_weak : ∃ (C : Case (Fin 4) ℚ) (Mvac : FieldT → Matrix (Fin 4) (Fin 4) ℚ) (sf : Fin 4 → Bool)
    (w v : State (Fin 4) ℚ), Sized C ∧ C.Msig = 0 ∧ Splits C sf ∧ Around C sf ∧ Vacuum C Mvac ∧
    (∀ F ∈ C.subFaces, SameTraces F (total [w])) ∧ sourceRhs C [w] v = globalMult C.prob v ∧
    maxwellSourceRhs C Mvac [w] v .E 1 2 ≠ sourceRhs C [w] v .E 1 2 :=
  ⟨C, C.Minv, sf, wave (1 / 10 ^ 30), wave 3, sized, rfl, splits, around,
    ⟨fun f r c _ h => absurd (by fin_cases c <;> simp [C]) h, fun _ _ _ _ _ => rfl⟩, sameTraces_sub _, by
      unfold sourceRhs
      rw [if_pos (by decide +kernel)], by decide +kernel⟩

open TfsfExample in
/-- **C113** violated: two waves of amplitudes one and ten are launched as twenty. -/
theorem C113_violated_several : ∃ (C : Case (Fin 4) ℚ) (Mvac : FieldT → Matrix (Fin 4) (Fin 4) ℚ) (sf : Fin 4 → Bool)
    (w w' v : State (Fin 4) ℚ), Sized C ∧ C.Msig = 0 ∧ Splits C sf ∧ Around C sf ∧ Vacuum C Mvac ∧
    (∀ F ∈ C.subFaces, SameTraces F (total [w, w'])) ∧
    maxwellSourceRhs C Mvac [w, w'] v .E 1 2 ≠ sourceRhs C [w, w'] v .E 1 2 :=
  ⟨C, C.Minv, sf, wave 1, wave 10, wave 3, sized, rfl, splits, around,
    ⟨fun f r c _ h => absurd (by fin_cases c <;> simp [C]) h, fun _ _ _ _ _ => rfl⟩, by
      have e : total [wave 1, wave 10] = total [wave 11] := by
        funext f d i
        simp only [total, wave, List.map_cons, List.map_nil, List.sum_cons, List.sum_nil]
        split_ifs
        · ring
        · norm_num
      rw [e]
      exact sameTraces_sub 11, by decide +kernel⟩

end Dgtd.Op
