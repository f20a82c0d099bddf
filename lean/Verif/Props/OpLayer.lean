/-
C107: a thin layer that shows on each surface the field of its other side is invisible.
C108: a thin layer with conducting surfaces acts as a conducting wall.
-/
import Verif.Props.OpSource
import Mathlib.Tactic.FinCases

set_option linter.unusedSectionVars false
set_option linter.unusedSimpArgs false

namespace Dgtd.Op

open Spec

variable {ι K : Type} [Fintype ι] [DecidableEq ι] [Field K] [LinearOrder K] [IsStrictOrderedRing K]

/-! ### the scratch vector of a pass -/

/-- Both passes: two nodes per state. -/
def fill2 (a b : Pair ι K → FieldT → Dir → K) (l : List (Pair ι K)) (x : State ι K) : State ι K :=
  l.foldl (fun x s => setNode (setNode x s.first (a s)) s.second (b s)) x

lemma fill2_other (a b : Pair ι K → FieldT → Dir → K) (l : List (Pair ι K)) (x : State ι K) {j : ι}
    (h1 : j ∉ l.map Pair.first) (h2 : j ∉ l.map Pair.second) (f : FieldT) (d : Dir) : fill2 a b l x f d j = x f d j := by
  unfold fill2
  induction l generalizing x with
  | nil => rfl
  | cons s l ih =>
    simp only [List.map_cons, List.mem_cons, not_or] at h1 h2
    rw [List.foldl_cons, ih _ h1.2 h2.2]
    unfold setNode
    rw [if_neg h2.1, if_neg h1.1]

lemma fill2_mem (a b : Pair ι K → FieldT → Dir → K) (l : List (Pair ι K))
    (hn : (l.map Pair.first ++ l.map Pair.second).Nodup) (x : State ι K) (s : Pair ι K) (hs : s ∈ l) (f : FieldT) (d : Dir) :
    fill2 a b l x f d s.first = a s f d ∧ fill2 a b l x f d s.second = b s f d := by
  induction l generalizing x with
  | nil => exact absurd hs (by simp)
  | cons t l ih =>
    have hn' := hn
    rw [List.nodup_append] at hn
    obtain ⟨n1, n2, n3⟩ := hn
    simp only [List.map_cons, List.nodup_cons] at n1 n2
    have hl : (l.map Pair.first ++ l.map Pair.second).Nodup := by
      rw [List.nodup_append]
      exact ⟨n1.2, n2.2, fun i hi j hj => n3 i (by simp [List.mem_map] at hi ⊢; tauto) j (by simp [List.mem_map] at hj ⊢; tauto)⟩
    have e : fill2 a b (t :: l) x = fill2 a b l (setNode (setNode x t.first (a t)) t.second (b t)) := rfl
    rw [e]
    rcases List.mem_cons.mp hs with rfl | hs
    · have h12 : s.first ≠ s.second := n3 _ (by simp) _ (by simp)
      have f1 : s.first ∉ l.map Pair.second := fun hc => n3 s.first (by simp) s.first (by simp [hc]) rfl
      have f2 : s.second ∉ l.map Pair.first := fun hc => n3 s.second (by simp [hc]) s.second (by simp) rfl
      rw [fill2_other a b l _ n1.1 f1, fill2_other a b l _ f2 n2.1]
      unfold setNode
      rw [if_neg h12, if_pos rfl, if_pos rfl]
      exact ⟨rfl, rfl⟩
    · exact ih hl _ hs

lemma pass1_mem {C : Case ι K} {l : List (Pair ι K)} {e1 e2 : List ι} (h : LayerFaces C l e1 e2) (u : State ι K)
    (s : Pair ι K) (hs : s ∈ l) (f : FieldT) (d : Dir) :
    pass1 u l f d s.first = u f d s.first ∧
      pass1 u l f d s.second = fillValues (fun f d => u f d s.first) s.left f d :=
  fill2_mem (fun s f d => u f d s.first) (fun s => fillValues (fun f d => u f d s.first) s.left) l h.nodup _ s hs f d

lemma pass2_mem {C : Case ι K} {l : List (Pair ι K)} {e1 e2 : List ι} (h : LayerFaces C l e1 e2) (u : State ι K)
    (s : Pair ι K) (hs : s ∈ l) (f : FieldT) (d : Dir) :
    pass2 u l f d s.first = fillValues (fun f d => u f d s.second) s.right f d ∧
      pass2 u l f d s.second = u f d s.second :=
  fill2_mem (fun s => fillValues (fun f d => u f d s.second) s.right) (fun s f d => u f d s.second) l h.nodup _ s hs f d

/-! ### traces -/

lemma tr1_sub (F : Face ι K) (p : Pt K) (u v : ι → K) : tr1 F p (fun i => u i - v i) = tr1 F p u - tr1 F p v := by
  unfold tr1
  rw [← Finset.sum_sub_distrib]
  exact Finset.sum_congr rfl fun i _ => by ring

lemma tr2_sub (F : Face ι K) (p : Pt K) (u v : ι → K) : tr2 F p (fun i => u i - v i) = tr2 F p u - tr2 F p v := by
  unfold tr2
  rw [← Finset.sum_sub_distrib]
  exact Finset.sum_congr rfl fun i _ => by ring

lemma tr1_zero' (F : Face ι K) (p : Pt K) : tr1 F p (fun _ => 0) = 0 := by unfold tr1; simp
lemma tr2_zero' (F : Face ι K) (p : Pt K) : tr2 F p (fun _ => 0) = 0 := by unfold tr2; simp

/-- Fields that agree at the first nodes have the same trace there. -/
lemma paired_first {l : List (Pair ι K)} {fwd : Bool} {F : Face ι K} (h : Paired l fwd F) {a b : ι → K}
    (e : ∀ s ∈ l, a s.first = b s.first) {p : Pt K} (hp : p ∈ F.pts) :
    if fwd then tr1 F p a = tr1 F p b else tr2 F p a = tr2 F p b := by
  have := h (fun i => a i - b i) (fun _ => 0) (fun s hs => by rw [e s hs, sub_self]) p hp
  cases fwd
  · simp only [Bool.false_eq_true, if_false] at this ⊢
    rw [tr2_sub, tr1_zero'] at this
    exact sub_eq_zero.mp this
  · simp only [if_true] at this ⊢
    rw [tr1_sub, tr2_zero'] at this
    exact sub_eq_zero.mp this

lemma paired_second {l : List (Pair ι K)} {fwd : Bool} {F : Face ι K} (h : Paired l fwd F) {a b : ι → K}
    (e : ∀ s ∈ l, a s.second = b s.second) {p : Pt K} (hp : p ∈ F.pts) :
    if fwd then tr2 F p a = tr2 F p b else tr1 F p a = tr1 F p b := by
  have := h (fun _ => 0) (fun i => a i - b i) (fun s hs => by rw [e s hs, sub_self]) p hp
  cases fwd
  · simp only [Bool.false_eq_true, if_false] at this ⊢
    rw [tr1_sub, tr2_zero'] at this
    exact sub_eq_zero.mp this.symm
  · simp only [if_true] at this ⊢
    rw [tr2_sub, tr1_zero'] at this
    exact sub_eq_zero.mp this.symm

/-- An element matrix that only sees traces. -/
def SeesTraces (F : Face ι K) (m : EMat K) : Prop :=
  ∀ v u u', (∀ p ∈ F.pts, tr1 F p u = tr1 F p u' ∧ tr2 F p u = tr2 F p u') → fbil F m v u = fbil F m v u'

lemma sum_map_congr {α : Type} (l : List α) (g h : α → K) (e : ∀ a ∈ l, g a = h a) : (l.map g).sum = (l.map h).sum := by
  rw [List.map_congr_left e]

lemma seesTraces_zero (beta : K) (F : Face ι K) : SeesTraces F (zeroNormal beta F) := by
  intro v u u' h
  rw [fbil_zeroNormal, fbil_zeroNormal]
  exact sum_map_congr _ _ _ fun p hp => by rw [(h p hp).1, (h p hp).2]

lemma seesTraces_one (d : Dir) (beta : K) (F : Face ι K) : SeesTraces F (oneNormal d beta F) := by
  intro v u u' h
  rw [fbil_oneNormal, fbil_oneNormal]
  exact sum_map_congr _ _ _ fun p hp => by rw [(h p hp).1, (h p hp).2]

lemma seesTraces_two (d d2 : Dir) (beta : K) (F : Face ι K) : SeesTraces F (twoNormal d d2 beta F) := by
  intro v u u' h
  rw [fbil_twoNormal, fbil_twoNormal]
  exact sum_map_congr _ _ _ fun p hp => by rw [(h p hp).1, (h p hp).2]

lemma faces_congr {fs : List (Face ι K)} {mk mk' : Face ι K → EMat K} {x u : ι → K} {r : ι}
    (h : ∀ F ∈ fs, fbil F (mk F) (Pi.single r 1) x = fbil F (mk' F) (Pi.single r 1) u) :
    (assemble (fs.map fun F => (F, mk F))).mulVec x r = (assemble (fs.map fun F => (F, mk' F))).mulVec u r := by
  rw [mulVec_form, mulVec_form, form_assemble, form_assemble, List.map_map, List.map_map]
  exact sum_map_congr _ _ _ fun F hF => h F hF

lemma faces_zero {fs : List (Face ι K)} {mk : Face ι K → EMat K} {x : ι → K} {r : ι}
    (h : ∀ F ∈ fs, fbil F (mk F) (Pi.single r 1) x = 0) : (assemble (fs.map fun F => (F, mk F))).mulVec x r = 0 := by
  rw [mulVec_form, form_assemble, List.map_map]
  exact sum_map_zero _ _ fun F hF => h F hF

/-! ### removing layers, replacing them by walls -/

/-- Wall terms on the faces of the layers. -/
def wallBlocks (C : Case ι K) (c : BdrCond) (fs : List (Face ι K)) : List (GBlock ι K) :=
  oneBlocks C.dim (fun f x => C.Minv f * assemble (fs.map fun F => (F, interiorJump [x] (fluxCoeff c (altField f)) F))) ++
  zeroBlocks (fun f => C.Minv f * assemble (fs.map fun F => (F, interiorJump [] (penaltyCoeff C.prob c f) F))) ++
  twoBlocks C.dim (fun f d d2 => C.Minv f * assemble (fs.map fun F => (F, interiorJump [d, d2] (penaltyCoeff C.prob c f) F)))

lemma mulVec_assemble (l : List (Face ι K × EMat K)) (u : ι → K) (r : ι) :
    (assemble l).mulVec u r = (l.map fun q => fbil q.1 q.2 (Pi.single r 1) u).sum := by
  rw [mulVec_form, form_assemble]

lemma plainFaces_remove (C : Case ι K) (φ : Face ι K → K) :
    ((plainFaces (replaceLayers none C).prob).map φ).sum =
      ((plainFaces C.prob).map φ).sum + (C.sgbcFaces.map φ).sum := by
  rw [plainFaces_prob, plainFaces_prob]
  unfold replaceLayers Case.sgbcFaces
  simp only
  generalize C.interior = l
  induction l with
  | nil => simp
  | cons q l ih =>
    simp only [List.map_cons, List.filterMap_cons]
    by_cases h : q.cond = some .SGBC
    · simp only [h, if_pos, reduceCtorEq, decide_false, decide_true, Bool.false_eq_true, if_false, if_true, List.map_cons,
        List.sum_cons]
      rw [ih]; ring
    · by_cases hn : q.cond = none
      · simp only [hn, reduceCtorEq, if_false, decide_true, if_true, List.map_cons, List.sum_cons]
        rw [ih]; ring
      · simp only [h, hn, if_false, decide_false, Bool.false_eq_true]
        exact ih

lemma plainFaces_wall (C : Case ι K) (c : BdrCond) : plainFaces (replaceLayers (some c) C).prob = plainFaces C.prob := by
  rw [plainFaces_prob, plainFaces_prob]
  unfold replaceLayers
  simp only
  generalize C.interior = l
  induction l with
  | nil => rfl
  | cons q l ih =>
    simp only [List.map_cons, List.filterMap_cons]
    by_cases h : q.cond = some .SGBC
    · simp only [h, if_pos, reduceCtorEq, decide_false, Bool.false_eq_true, if_false]
      exact ih
    · simp only [h, if_false]
      rw [ih]

lemma intBdrFaces_remove (C : Case ι K) : intBdrFaces (replaceLayers none C).prob = intBdrFaces C.prob := by
  unfold intBdrFaces replaceLayers Case.prob
  simp only
  generalize C.interior = l
  induction l with
  | nil => rfl
  | cons q l ih =>
    simp only [List.map_cons, List.filterMap_cons]
    by_cases h : q.cond = some .SGBC
    · simp only [h, if_pos]
      exact ih
    · simp only [h, if_false]
      rw [ih]

lemma intBdrFaces_wall (C : Case ι K) {c : BdrCond} (hc : c ≠ .SGBC) (φ : BdrCond × Face ι K → K) :
    ((intBdrFaces (replaceLayers (some c) C).prob).map φ).sum =
      ((intBdrFaces C.prob).map φ).sum + (C.sgbcFaces.map fun F => φ (c, F)).sum := by
  unfold intBdrFaces replaceLayers Case.prob Case.sgbcFaces
  simp only
  generalize C.interior = l
  induction l with
  | nil => simp
  | cons q l ih =>
    simp only [List.map_cons, List.filterMap_cons]
    by_cases h : q.cond = some .SGBC
    · cases c
      · simp only [h, if_pos, List.map_cons, List.sum_cons]; rw [ih]; ring
      · simp only [h, if_pos, List.map_cons, List.sum_cons]; rw [ih]; ring
      · simp only [h, if_pos, List.map_cons, List.sum_cons]; rw [ih]; ring
      · exact absurd rfl hc
    · simp only [h, if_false]
      cases hq : q.cond with
      | none => simp only; exact ih
      | some b =>
        cases b
        · simp only [List.map_cons, List.sum_cons]; rw [ih]; ring
        · simp only [List.map_cons, List.sum_cons]; rw [ih]; ring
        · simp only [List.map_cons, List.sum_cons]; rw [ih]; ring
        · exact absurd hq h

/-- Without layers the fluxes of their faces are added. -/
lemma globalMult_remove (C : Case ι K) (u : State ι K) (f : FieldT) (d : Dir) (r : ι) :
    globalMult (replaceLayers none C).prob u f d r =
      globalMult C.prob u f d r + applyBlocks (sourceBlocks C C.sgbcFaces) u f d r := by
  have h3 : Rel u u u r 1 (faceBlocks C.prob) (sourceBlocks C C.sgbcFaces) (faceBlocks (replaceLayers none C).prob) := by
    refine ((Rel.one _ fun f a d => minv_row fun c _ => ?_).append
      (Rel.zero fun f d => minv_row fun c _ => ?_)).append (Rel.two _ fun f a b d => minv_row fun c _ => ?_)
    all_goals
      first
        | unfold oneNormalSub sourceOne
        | unfold zeroNormalSub sourceZero
        | unfold twoNormalSub sourceTwo
      rw [one_mul, mulVec_assemble, mulVec_assemble, mulVec_assemble, List.map_append, List.map_append, List.sum_append,
        List.sum_append, List.map_map, List.map_map, List.map_map, List.map_map, List.map_map, plainFaces_remove]
      have e : bdrFaces (replaceLayers none C).prob = bdrFaces C.prob := rfl
      rw [e]
      simp only [Function.comp_def]
      have e2 : penaltyCoeff (replaceLayers none C).prob = penaltyCoeff C.prob := rfl
      try rw [e2]
      have e3 : (replaceLayers none C).prob.alpha = C.alpha := rfl
      have e4 : C.prob.alpha = C.alpha := rfl
      try rw [e3]
      try rw [e4]
      ring
  have h1 : ibfiBlocks (replaceLayers none C).prob = ibfiBlocks C.prob := by
    unfold ibfiBlocks oneNormalIBFI zeroNormalIBFI twoNormalIBFI
    rw [intBdrFaces_remove]
    rfl
  have e := h3 f d
  rw [globalMult_eq, globalMult_eq, h1]
  have h2 : directionalBlocks (replaceLayers none C).prob = directionalBlocks C.prob := rfl
  have h4 : conductiveBlocks (replaceLayers none C).prob = conductiveBlocks C.prob := rfl
  rw [h2, h4]
  linear_combination -e

/-- With walls in place of the layers the wall terms are added. -/
lemma globalMult_wall (C : Case ι K) {c : BdrCond} (hc : c ≠ .SGBC) (u : State ι K) (f : FieldT) (d : Dir) (r : ι) :
    globalMult (replaceLayers (some c) C).prob u f d r =
      globalMult C.prob u f d r + applyBlocks (wallBlocks C c C.sgbcFaces) u f d r := by
  have h1 : Rel u u u r 1 (ibfiBlocks C.prob) (wallBlocks C c C.sgbcFaces) (ibfiBlocks (replaceLayers (some c) C).prob) := by
    refine ((Rel.one _ fun f a d => minv_row fun c' _ => ?_).append
      (Rel.zero fun f d => minv_row fun c' _ => ?_)).append (Rel.two _ fun f a b d => minv_row fun c' _ => ?_)
    all_goals
      first
        | unfold oneNormalIBFI
        | unfold zeroNormalIBFI
        | unfold twoNormalIBFI
      rw [one_mul, mulVec_assemble, mulVec_assemble, mulVec_assemble, List.map_map, List.map_map, List.map_map,
        intBdrFaces_wall C hc]
      rfl
  have h3 : faceBlocks (replaceLayers (some c) C).prob = faceBlocks C.prob := by
    unfold faceBlocks oneNormalSub zeroNormalSub twoNormalSub
    rw [plainFaces_wall]
    rfl
  have e := h1 f d
  rw [globalMult_eq, globalMult_eq, h3]
  have h2 : directionalBlocks (replaceLayers (some c) C).prob = directionalBlocks C.prob := rfl
  have h4 : conductiveBlocks (replaceLayers (some c) C).prob = conductiveBlocks C.prob := rfl
  rw [h2, h4]
  linear_combination -e

/-! ### C107 -/

lemma source_congr {C : Case ι K} {fs : List (Face ι K)} {x u : State ι K}
    (h : ∀ F ∈ fs, ∀ p ∈ F.pts, ∀ f d, tr1 F p (x f d) = tr1 F p (u f d) ∧ tr2 F p (x f d) = tr2 F p (u f d))
    (f : FieldT) (d : Dir) (r : ι) :
    applyBlocks (sourceBlocks C fs) x f d r = applyBlocks (sourceBlocks C fs) u f d r := by
  have hr : Rel x x u r 1 (sourceBlocks C fs) [] (sourceBlocks C fs) := by
    refine ((Rel.one0 _ fun f a d => minv_row0 fun c _ => ?_).append0
      (Rel.zero0 fun f d => minv_row0 fun c _ => ?_)).append0 (Rel.two0 _ fun f a b d => minv_row0 fun c _ => ?_)
    all_goals rw [one_mul]
    · exact faces_congr fun F hF => seesTraces_one _ _ _ _ _ _ fun p hp => h F hF p hp _ d
    · exact faces_congr fun F hF => seesTraces_zero _ _ _ _ _ fun p hp => h F hF p hp _ d
    · exact faces_congr fun F hF => seesTraces_two _ _ _ _ _ _ _ fun p hp => h F hF p hp _ d
  have := hr f d
  simpa [applyBlocks_nilS] using this

lemma single_ne (r : ι) {i : ι} (h : i ≠ r) : (Pi.single r (1 : K) : ι → K) i = 0 := by simp [Pi.single_apply, h]

/-- Nodes away from the layers get nothing. -/
lemma source_away {C : Case ι K} {l : List (Pair ι K)} {e1 e2 : List ι} (h : LayerFaces C l e1 e2) (u : State ι K)
    (f : FieldT) (d : Dir) {r : ι} (h1 : r ∉ e1) (h2 : r ∉ e2) :
    applyBlocks (sourceBlocks C C.sgbcFaces) u f d r = 0 := by
  have away : ∀ c, ∀ f, C.Minv f r c ≠ 0 → c ∉ e1 ∧ c ∉ e2 := by
    intro c f hc
    constructor
    · intro hm; exact hc (h.minv1 f r c (by simp [h1, hm]))
    · intro hm; exact hc (h.minv2 f r c (by simp [h2, hm]))
  have zero : ∀ (m : EMat K) (v : ι → K) (c : ι), c ∉ e1 → c ∉ e2 → ∀ F ∈ C.sgbcFaces, fbil F m (Pi.single c 1) v = 0 := by
    intro m v c c1 c2 F hF
    apply fbil_left_zero
    intro i hi
    apply single_ne
    rintro rfl
    obtain ⟨fwd, _, hs⟩ := h.sides F hF
    cases fwd
    · simp only [Bool.false_eq_true, if_false] at hs
      by_cases hlt : i < F.ndof1
      · exact c2 (hs.1 i hlt)
      · have := hs.2 (i - F.ndof1) (by omega)
        rw [show F.ndof1 + (i - F.ndof1) = i by omega] at this
        exact c1 this
    · simp only [if_true] at hs
      by_cases hlt : i < F.ndof1
      · exact c1 (hs.1 i hlt)
      · have := hs.2 (i - F.ndof1) (by omega)
        rw [show F.ndof1 + (i - F.ndof1) = i by omega] at this
        exact c2 this
  have hr : Rel u u u r 0 (sourceBlocks C C.sgbcFaces) [] (sourceBlocks C C.sgbcFaces) := by
    refine ((Rel.one0 _ fun f a d => minv_row0 fun c hc => ?_).append0
      (Rel.zero0 fun f d => minv_row0 fun c hc => ?_)).append0 (Rel.two0 _ fun f a b d => minv_row0 fun c hc => ?_)
    all_goals
      rw [zero_mul]
      exact faces_zero fun F hF => zero _ _ c (away c f hc).1 (away c f hc).2 F hF
  have := hr f d
  simpa [applyBlocks_nilS] using this

/-- C107: layers that show on each surface the field on the other side can be left out of the model. -/
theorem C107_transparent {C : Case ι K} {l : List (Pair ι K)} {e1 e2 : List ι} (h : LayerFaces C l e1 e2)
    {u : State ι K} (ht : Transparent u l) :
    layerRhs C l e1 e2 u = globalMult (replaceLayers none C).prob u := by
  have p1 : ∀ F ∈ C.sgbcFaces, ∀ p ∈ F.pts, ∀ f d,
      tr1 F p (pass1 u l f d) = tr1 F p (u f d) ∧ tr2 F p (pass1 u l f d) = tr2 F p (u f d) := by
    intro F hF p hp f d
    obtain ⟨fwd, hP, _⟩ := h.sides F hF
    have a := paired_first hP (a := pass1 u l f d) (b := u f d) (fun s hs => (pass1_mem h u s hs f d).1) hp
    have b := paired_second hP (a := pass1 u l f d) (b := u f d)
      (fun s hs => by rw [(pass1_mem h u s hs f d).2, (ht s hs).1]; rfl) hp
    cases fwd
    · exact ⟨b, a⟩
    · exact ⟨a, b⟩
  have p2 : ∀ F ∈ C.sgbcFaces, ∀ p ∈ F.pts, ∀ f d,
      tr1 F p (pass2 u l f d) = tr1 F p (u f d) ∧ tr2 F p (pass2 u l f d) = tr2 F p (u f d) := by
    intro F hF p hp f d
    obtain ⟨fwd, hP, _⟩ := h.sides F hF
    have a := paired_first hP (a := pass2 u l f d) (b := u f d)
      (fun s hs => by rw [(pass2_mem h u s hs f d).1, (ht s hs).2]; rfl) hp
    have b := paired_second hP (a := pass2 u l f d) (b := u f d) (fun s hs => (pass2_mem h u s hs f d).2) hp
    cases fwd
    · exact ⟨b, a⟩
    · exact ⟨a, b⟩
  funext f d r
  rw [globalMult_remove]
  unfold layerRhs addNodes
  by_cases h1 : r ∈ e1
  · rw [if_neg (h.disjoint r h1), if_pos h1, source_congr p1]
  · rw [if_neg h1]
    by_cases h2 : r ∈ e2
    · rw [if_pos h2, source_congr p2]
    · rw [if_neg h2, source_away h u f d h1 h2, add_zero]

/-! ### C108 -/

/-- Sign of the mirrored field. -/
def mirror : Surf K → FieldT → K
  | .PEC, .E => -1
  | .PEC, .H => 1
  | .PMC, .E => 1
  | .PMC, .H => -1
  | .SMA, _ => 1
  | .slab _, _ => 0

/-- The wall a surface stands for. -/
inductive IsMirror : Surf K → Prop
  | PEC : IsMirror .PEC
  | PMC : IsMirror .PMC
  | SMA : IsMirror .SMA

lemma fill_mirror {c : Surf K} (h : IsMirror c) (own : FieldT → Dir → K) (f : FieldT) (d : Dir) :
    fillValues own c f d = mirror c f * own f d := by
  cases h <;> cases f <;> simp [fillValues, mirror]

/-- One side of the face shows the field, the other its mirror image, and the test function is on the first. -/
def Near (F : Face ι K) (x u v : ι → K) (σ : K) : Prop :=
  (∀ p ∈ F.pts, tr1 F p x = tr1 F p u ∧ tr2 F p x = σ * tr1 F p u ∧ tr2 F p v = 0) ∨
  (∀ p ∈ F.pts, tr2 F p x = tr2 F p u ∧ tr1 F p x = σ * tr2 F p u ∧ tr1 F p v = 0)

lemma near_zero {F : Face ι K} {x u v : ι → K} {σ : K} (h : Near F x u v σ) (beta : K) :
    fbil F (zeroNormal beta F) v x = fbil F (interiorJump [] ((1 - σ) * beta) F) v u := by
  rw [fbil_zeroNormal, fbil_interior0]
  refine sum_map_congr _ _ _ fun p hp => ?_
  rcases h with h | h
  · obtain ⟨a, b, c⟩ := h p hp; rw [a, b, c]; ring
  · obtain ⟨a, b, c⟩ := h p hp; rw [a, b, c]; ring

lemma near_one {F : Face ι K} {x u v : ι → K} {σ : K} (h : Near F x u v σ) (d : Dir) (beta : K) :
    fbil F (oneNormal d beta F) v x = fbil F (interiorJump [d] ((1 - σ) * beta) F) v u := by
  rw [fbil_oneNormal, fbil_interior1]
  refine sum_map_congr _ _ _ fun p hp => ?_
  rcases h with h | h
  · obtain ⟨a, b, c⟩ := h p hp; rw [a, b, c]; ring
  · obtain ⟨a, b, c⟩ := h p hp; rw [a, b, c]; ring

lemma near_two {F : Face ι K} {x u v : ι → K} {σ : K} (h : Near F x u v σ) (d d2 : Dir) (beta : K) :
    fbil F (twoNormal d d2 beta F) v x = fbil F (interiorJump [d, d2] ((1 - σ) * beta) F) v u := by
  rw [fbil_twoNormal, fbil_interior2]
  refine sum_map_congr _ _ _ fun p hp => ?_
  rcases h with h | h
  · obtain ⟨a, b, c⟩ := h p hp; rw [a, b, c]; ring
  · obtain ⟨a, b, c⟩ := h p hp; rw [a, b, c]; ring

lemma near1 {C : Case ι K} {l : List (Pair ι K)} {e1 e2 : List ι} (h : LayerFaces C l e1 e2) {c : Surf K}
    (hm : IsMirror c) (hl : ∀ s ∈ l, s.left = c) (u : State ι K) (f : FieldT) (d : Dir) {r : ι} (hr : r ∈ e1)
    (F : Face ι K) (hF : F ∈ C.sgbcFaces) :
    Near F (pass1 u l f d) (u f d) (Pi.single r 1) (mirror c f) := by
  obtain ⟨fwd, hP, hs⟩ := h.sides F hF
  have a := fun p hp => paired_first hP (a := pass1 u l f d) (b := u f d) (fun s hs => (pass1_mem h u s hs f d).1) (p := p) hp
  have b := fun p hp => hP (fun i => mirror c f * u f d i) (pass1 u l f d)
    (fun s hs => by rw [(pass1_mem h u s hs f d).2, hl s hs, fill_mirror hm]) p hp
  cases fwd
  · simp only [Bool.false_eq_true, if_false] at a b hs
    refine Or.inr fun p hp => ⟨a p hp, by rw [← b p hp, tr2_smul], ?_⟩
    rw [tr1_congr F p (u' := fun _ => 0) (fun i hi => single_ne r (by rintro rfl; exact h.disjoint _ hr (hs.1 i hi))),
      tr1_zero']
  · simp only [if_true] at a b hs
    refine Or.inl fun p hp => ⟨a p hp, by rw [← b p hp, tr1_smul], ?_⟩
    rw [tr2_congr F p (u' := fun _ => 0) (fun i hi => single_ne r (by rintro rfl; exact h.disjoint _ hr (hs.2 i hi))),
      tr2_zero']

lemma near2 {C : Case ι K} {l : List (Pair ι K)} {e1 e2 : List ι} (h : LayerFaces C l e1 e2) {c : Surf K}
    (hm : IsMirror c) (hl : ∀ s ∈ l, s.right = c) (u : State ι K) (f : FieldT) (d : Dir) {r : ι} (hr : r ∈ e2)
    (F : Face ι K) (hF : F ∈ C.sgbcFaces) :
    Near F (pass2 u l f d) (u f d) (Pi.single r 1) (mirror c f) := by
  obtain ⟨fwd, hP, hs⟩ := h.sides F hF
  have a := fun p hp => paired_second hP (a := pass2 u l f d) (b := u f d) (fun s hs => (pass2_mem h u s hs f d).2) (p := p) hp
  have b := fun p hp => hP (pass2 u l f d) (fun i => mirror c f * u f d i)
    (fun s hs => by rw [(pass2_mem h u s hs f d).1, hl s hs, fill_mirror hm]) p hp
  cases fwd
  · simp only [Bool.false_eq_true, if_false] at a b hs
    refine Or.inl fun p hp => ⟨a p hp, by rw [b p hp, tr1_smul], ?_⟩
    rw [tr2_congr F p (u' := fun _ => 0) (fun i hi => single_ne r (by rintro rfl; exact h.disjoint _ (hs.2 i hi) hr)),
      tr2_zero']
  · simp only [if_true] at a b hs
    refine Or.inr fun p hp => ⟨a p hp, by rw [b p hp, tr2_smul], ?_⟩
    rw [tr1_congr F p (u' := fun _ => 0) (fun i hi => single_ne r (by rintro rfl; exact h.disjoint _ (hs.1 i hi) hr)),
      tr1_zero']

/-- Rows next to a mirror: the flux is the one of a wall with coefficients `1 - σ`. -/
lemma source_mirror {C : Case ι K} {fs : List (Face ι K)} {x u : State ι K} {r : ι} {σ : FieldT → K} {c : BdrCond}
    (hσ : ∀ f, fluxCoeff c f = 1 - σ f) (hσ' : ∀ f, penaltyCoeff C.prob c f = (1 - σ f) * C.alpha)
    (h : ∀ f, ∀ c, C.Minv f r c ≠ 0 → ∀ F ∈ fs, ∀ g d, Near F (x g d) (u g d) (Pi.single c 1) (σ g)) (f : FieldT) (d : Dir) :
    applyBlocks (sourceBlocks C fs) x f d r = applyBlocks (wallBlocks C c fs) u f d r := by
  have hr : Rel x x u r 1 (sourceBlocks C fs) [] (wallBlocks C c fs) := by
    refine ((Rel.one0 _ fun f a d => minv_row0 fun c hc => ?_).append0
      (Rel.zero0 fun f d => minv_row0 fun c hc => ?_)).append0 (Rel.two0 _ fun f a b d => minv_row0 fun c hc => ?_)
    all_goals rw [one_mul]; refine faces_congr fun F hF => ?_
    · rw [hσ, near_one (h f c hc F hF _ d), mul_one]
    · rw [hσ', near_zero (h f c hc F hF _ d)]
    · rw [hσ', near_two (h f c hc F hF _ d)]
  have := hr f d
  simpa [applyBlocks_nilS] using this

/-- Rows next to a surface that shows the field itself: no flux. -/
lemma source_none {C : Case ι K} {fs : List (Face ι K)} {x u : State ι K} {r : ι}
    (h : ∀ f, ∀ c, C.Minv f r c ≠ 0 → ∀ F ∈ fs, ∀ g d, Near F (x g d) (u g d) (Pi.single c 1) 1) (f : FieldT) (d : Dir) :
    applyBlocks (sourceBlocks C fs) x f d r = 0 := by
  have hz : ∀ F : Face ι K, ∀ v u : ι → K, fbil F (interiorJump [] 0 F) v u = 0 := fun F v u => by
    rw [fbil_interior0]; exact sum_map_zero _ _ fun p _ => by ring
  have ho : ∀ F : Face ι K, ∀ (v u : ι → K) (d : Dir), fbil F (interiorJump [d] 0 F) v u = 0 := fun F v u d => by
    rw [fbil_interior1]; exact sum_map_zero _ _ fun p _ => by ring
  have ht : ∀ F : Face ι K, ∀ (v u : ι → K) (d d2 : Dir), fbil F (interiorJump [d, d2] 0 F) v u = 0 := fun F v u d d2 => by
    rw [fbil_interior2]; exact sum_map_zero _ _ fun p _ => by ring
  have hr : Rel x x u r 0 (sourceBlocks C fs) [] (sourceBlocks C fs) := by
    refine ((Rel.one0 _ fun f a d => minv_row0 fun c hc => ?_).append0
      (Rel.zero0 fun f d => minv_row0 fun c hc => ?_)).append0 (Rel.two0 _ fun f a b d => minv_row0 fun c hc => ?_)
    all_goals rw [zero_mul]; refine faces_zero fun F hF => ?_
    · rw [near_one (h f c hc F hF _ d), sub_self, zero_mul, ho]
    · rw [near_zero (h f c hc F hF _ d), sub_self, zero_mul, hz]
    · rw [near_two (h f c hc F hF _ d), sub_self, zero_mul, ht]
  have := hr f d
  simpa [applyBlocks_nilS] using this

lemma minv_mem1 {C : Case ι K} {l : List (Pair ι K)} {e1 e2 : List ι} (h : LayerFaces C l e1 e2) {r c : ι} {f : FieldT}
    (hr : r ∈ e1) (hc : C.Minv f r c ≠ 0) : c ∈ e1 := by
  by_contra hn; exact hc (h.minv1 f r c (by simp [hr, hn]))

lemma minv_mem2 {C : Case ι K} {l : List (Pair ι K)} {e1 e2 : List ι} (h : LayerFaces C l e1 e2) {r c : ι} {f : FieldT}
    (hr : r ∈ e2) (hc : C.Minv f r c ≠ 0) : c ∈ e2 := by
  by_contra hn; exact hc (h.minv2 f r c (by simp [hr, hn]))

lemma wall_away {C : Case ι K} {l : List (Pair ι K)} {e1 e2 : List ι} (h : LayerFaces C l e1 e2) (c0 : BdrCond)
    (u : State ι K) (f : FieldT) (d : Dir) {r : ι} (h1 : r ∉ e1) (h2 : r ∉ e2) :
    applyBlocks (wallBlocks C c0 C.sgbcFaces) u f d r = 0 := by
  have zero : ∀ f c, C.Minv f r c ≠ 0 → ∀ F ∈ C.sgbcFaces, ∀ i < F.ndof1 + F.ndof2, (Pi.single c (1 : K) : ι → K) (F.dofs i) = 0 := by
    intro f c hc F hF i hi
    have c1 : c ∉ e1 := fun hm => hc (h.minv1 f r c (by simp [h1, hm]))
    have c2 : c ∉ e2 := fun hm => hc (h.minv2 f r c (by simp [h2, hm]))
    apply single_ne
    rintro rfl
    obtain ⟨fwd, _, hs⟩ := h.sides F hF
    cases fwd
    · simp only [Bool.false_eq_true, if_false] at hs
      by_cases hlt : i < F.ndof1
      · exact c2 (hs.1 i hlt)
      · have := hs.2 (i - F.ndof1) (by omega)
        rw [show F.ndof1 + (i - F.ndof1) = i by omega] at this
        exact c1 this
    · simp only [if_true] at hs
      by_cases hlt : i < F.ndof1
      · exact c1 (hs.1 i hlt)
      · have := hs.2 (i - F.ndof1) (by omega)
        rw [show F.ndof1 + (i - F.ndof1) = i by omega] at this
        exact c2 this
  have hr : Rel u u u r 0 (wallBlocks C c0 C.sgbcFaces) [] (wallBlocks C c0 C.sgbcFaces) := by
    refine ((Rel.one0 _ fun f a d => minv_row0 fun c hc => ?_).append0
      (Rel.zero0 fun f d => minv_row0 fun c hc => ?_)).append0 (Rel.two0 _ fun f a b d => minv_row0 fun c hc => ?_)
    all_goals
      rw [zero_mul]
      exact faces_zero fun F hF => fbil_left_zero _ _ _ (zero f c hc F hF)
  have := hr f d
  simpa [applyBlocks_nilS] using this

/-- The walls that conducting surfaces stand for. -/
inductive WallOf : Surf K → BdrCond → Prop
  | PEC : WallOf .PEC .PEC
  | PMC : WallOf .PMC .PMC

lemma WallOf.isMirror {s : Surf K} {c : BdrCond} (h : WallOf s c) : IsMirror s := by
  cases h
  · exact .PEC
  · exact .PMC

lemma WallOf.flux {s : Surf K} {c : BdrCond} (h : WallOf s c) (f : FieldT) : (fluxCoeff c f : K) = 1 - mirror s f := by
  cases h <;> cases f <;> simp [fluxCoeff, bdrCoeff, mirror] <;> norm_num

lemma WallOf.penalty {s : Surf K} {c : BdrCond} (h : WallOf s c) (C : Case ι K) (f : FieldT) :
    penaltyCoeff C.prob c f = (1 - mirror s f) * C.alpha := by
  cases h <;> cases f <;> simp [penaltyCoeff, bdrCoeff, mirror, Case.prob] <;> norm_num

lemma WallOf.ne {s : Surf K} {c : BdrCond} (h : WallOf s c) : c ≠ .SGBC := by cases h <;> simp

/-- C108: on the first side, layers whose left surface is a perfect electric (magnetic) conductor act as walls of
that kind, whatever is inside the layers and on their other surface. -/
theorem C108_first_side_partial {C : Case ι K} {l : List (Pair ι K)} {e1 e2 : List ι} (h : LayerFaces C l e1 e2)
    {s : Surf K} {c : BdrCond} (hc : WallOf s c) (hl : ∀ q ∈ l, q.left = s) (u : State ι K) (f : FieldT) (d : Dir) {r : ι}
    (hr : r ∈ e1) : layerRhs C l e1 e2 u f d r = globalMult (replaceLayers (some c) C).prob u f d r := by
  rw [globalMult_wall C hc.ne]
  unfold layerRhs addNodes
  rw [if_neg (h.disjoint r hr), if_pos hr,
    source_mirror hc.flux (hc.penalty C) fun f c' hc' F hF g d => near1 h hc.isMirror hl u g d (minv_mem1 h hr hc') F hF]

/-- C108: the same on the second side. -/
theorem C108_second_side_partial {C : Case ι K} {l : List (Pair ι K)} {e1 e2 : List ι} (h : LayerFaces C l e1 e2)
    {s : Surf K} {c : BdrCond} (hc : WallOf s c) (hl : ∀ q ∈ l, q.right = s) (u : State ι K) (f : FieldT) (d : Dir) {r : ι}
    (hr : r ∈ e2) : layerRhs C l e1 e2 u f d r = globalMult (replaceLayers (some c) C).prob u f d r := by
  rw [globalMult_wall C hc.ne]
  unfold layerRhs addNodes
  rw [if_pos hr, if_neg (fun h1 => h.disjoint r h1 hr),
    source_mirror hc.flux (hc.penalty C) fun f c' hc' F hF g d => near2 h hc.isMirror hl u g d (minv_mem2 h hr hc') F hF]

/-- C108: with both surfaces conducting the layer is a conducting wall. -/
theorem C108_conducting_partial {C : Case ι K} {l : List (Pair ι K)} {e1 e2 : List ι} (h : LayerFaces C l e1 e2)
    {s : Surf K} {c : BdrCond} (hc : WallOf s c) (hl : BothSurfaces s l) (u : State ι K) :
    layerRhs C l e1 e2 u = globalMult (replaceLayers (some c) C).prob u := by
  funext f d r
  by_cases h1 : r ∈ e1
  · exact C108_first_side_partial h hc (fun q hq => (hl q hq).1) u f d h1
  · by_cases h2 : r ∈ e2
    · exact C108_second_side_partial h hc (fun q hq => (hl q hq).2) u f d h2
    · rw [globalMult_wall C hc.ne, wall_away h c u f d h1 h2, add_zero]
      unfold layerRhs addNodes
      rw [if_neg h2, if_neg h1]

/-- C108 violated: absorbing surfaces do nothing at all; the faces of the layer have no flux. -/
theorem C108_violated_absorbing {C : Case ι K} {l : List (Pair ι K)} {e1 e2 : List ι} (h : LayerFaces C l e1 e2)
    (hl : BothSurfaces .SMA l) (u : State ι K) : layerRhs C l e1 e2 u = globalMult C.prob u := by
  funext f d r
  unfold layerRhs addNodes
  by_cases h1 : r ∈ e1
  · rw [if_neg (h.disjoint r h1), if_pos h1,
      source_none fun f c' hc' F hF g d => near1 h .SMA (fun q hq => (hl q hq).1) u g d (minv_mem1 h h1 hc') F hF, add_zero]
  · rw [if_neg h1]
    by_cases h2 : r ∈ e2
    · rw [if_pos h2,
        source_none fun f c' hc' F hF g d => near2 h .SMA (fun q hq => (hl q hq).2) u g d (minv_mem2 h h2 hc') F hF, add_zero]
    · rw [if_neg h2]

/-! ### a concrete case -/

namespace LayerExample

open TfsfExample

def C : Case (Fin 4) ℚ := { TfsfExample.C with interior := [⟨some .SGBC, false, inner⟩] }

def pair (a b : Surf ℚ) : List (Pair (Fin 4) ℚ) := [⟨1, 2, a, b⟩]

lemma sgbcFaces_eq : C.sgbcFaces = [inner] := rfl

lemma layerFaces (a b : Surf ℚ) : LayerFaces C (pair a b) [0, 1] [2, 3] where
  nodup := by simp [pair]
  disjoint := by decide
  sides := by
    intro F hF
    rw [sgbcFaces_eq, List.mem_singleton] at hF
    subst hF
    refine ⟨true, ?_, ?_⟩
    · intro x y h p hp
      simp only [inner, List.mem_singleton] at hp
      subst hp
      have := h ⟨1, 2, a, b⟩ (by simp [pair])
      simp only [if_true]
      unfold tr1 tr2
      simp only [inner, pt, Finset.sum_range_succ, Finset.sum_range_zero]
      norm_num [Fin.ofNat]
      exact this
    · simp only [if_true]
      refine ⟨?_, ?_⟩
      · intro i hi; have : i < 2 := hi; interval_cases i <;> decide
      · intro i hi; have : i < 2 := hi; interval_cases i <;> decide
  minv1 := by
    intro f r c h
    have h' : ¬ (r ∈ [0, 1] ↔ c ∈ [0, 1]) := fun e => h (propext e)
    show (if r.val / 2 = c.val / 2 then _ else _) = _
    rw [if_neg]
    intro e
    exact h' ((by decide : ∀ r c : Fin 4, r.val / 2 = c.val / 2 → (r ∈ [0, 1] ↔ c ∈ [0, 1])) r c e)
  minv2 := by
    intro f r c h
    have h' : ¬ (r ∈ [2, 3] ↔ c ∈ [2, 3]) := fun e => h (propext e)
    show (if r.val / 2 = c.val / 2 then _ else _) = _
    rw [if_neg]
    intro e
    exact h' ((by decide : ∀ r c : Fin 4, r.val / 2 = c.val / 2 → (r ∈ [2, 3] ↔ c ∈ [2, 3])) r c e)

def u : State (Fin 4) ℚ := fun f d i =>
  if f = .E ∧ d = 1 then [0, 1, 0, 0].getD i.val 0 else if f = .H ∧ d = 2 then [0, -1, 0, 0].getD i.val 0 else 0

example : layerRhs C (pair (.slab fun f d => u f d 2) (.slab fun f d => u f d 1)) [0, 1] [2, 3] u =
    globalMult (replaceLayers none C).prob u :=
  C107_transparent (layerFaces _ _) (by intro s hs; simp only [pair, List.mem_singleton] at hs; subst hs; exact ⟨rfl, rfl⟩)

example : layerRhs C (pair .PEC .PEC) [0, 1] [2, 3] u = globalMult (replaceLayers (some .PEC) C).prob u :=
  C108_conducting_partial (layerFaces _ _) .PEC
    (by intro s hs; simp only [pair, List.mem_singleton] at hs; subst hs; exact ⟨rfl, rfl⟩) u

/-- The three rates differ. -/
example : globalMult (replaceLayers none C).prob u .E 1 1 ≠ globalMult C.prob u .E 1 1 ∧
    globalMult (replaceLayers (some .PEC) C).prob u .E 1 1 ≠ globalMult C.prob u .E 1 1 := by decide +kernel

/-- The mass matrix of the example. -/
def M : FieldT → Matrix (Fin 4) (Fin 4) ℚ := fun _ r c => if r.val / 2 = c.val / 2 then (if r = c then 1 / 3 else 1 / 6) else 0

end LayerExample

open LayerExample in
/-- C108 violated, witness: a layer with absorbing surfaces creates energy, without any source, in a model with
absorbing ends. -/
theorem C108_violated_absorbing_witness : ∃ (C : Case (Fin 4) ℚ) (l : List (Pair (Fin 4) ℚ)) (M : FieldT → Matrix (Fin 4) (Fin 4) ℚ)
    (u : State (Fin 4) ℚ), LayerFaces C l [0, 1] [2, 3] ∧ BothSurfaces .SMA l ∧ (∀ f, M f * C.Minv f = 1) ∧
      ¬ energyRate M u (layerRhs C l [0, 1] [2, 3] u) ≤ 0 := by
  refine ⟨C, pair .SMA .SMA, M, u, layerFaces _ _, ?_, ?_, ?_⟩
  · intro s hs; simp only [pair, List.mem_singleton] at hs; subst hs; exact ⟨rfl, rfl⟩
  · intro f; cases f <;> ext i j <;> fin_cases i <;> fin_cases j <;> decide +kernel
  · decide +kernel

end Dgtd.Op
