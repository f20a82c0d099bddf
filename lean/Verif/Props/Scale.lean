/-
C172: the unit of length.
-/
import Verif.Spec.Scale
import Verif.Lemmas.TimeIntScale
import Verif.Props.Frame

set_option linter.unusedSectionVars false

namespace Dgtd.Scale

open Op Op.Spec TimeInt TimeInt.Spec Implicit Frame

variable {ι : Type} [Fintype ι] [DecidableEq ι]

/-! ### the operator -/

section
variable {K : Type} [Field K] [LinearOrder K] [IsStrictOrderedRing K]

lemma normal_scaled (k : K) (l : List K) (d : Dir) : normalTerm (l.map (k * ·)) d = k * normalTerm l d := by
  unfold normalTerm
  rw [List.getElem?_map]
  cases l[d.val]? <;> simp

lemma cross_scaled (k : K) (n t : Dir → K) (d : Dir) : crossT (fun d => k * n d) t d = k * crossT n t d := by
  unfold crossT
  ring

lemma pen_scaled {k : K} (hk : k ≠ 0) (n : Dir → K) (W : K) (t : Dir → K) (d : Dir) : pen (fun d => k * n d) (k * W) t d = k * pen n W t d := by
  have e : k * n d * (k * n 0 * t 0 + k * n 1 * t 1 + k * n 2 * t 2) = k * (k * (n d * (n 0 * t 0 + n 1 * t 1 + n 2 * t 2))) := by ring
  unfold pen
  rw [e, mul_div_mul_left _ _ hk]
  ring

lemma plainTerm_scaled {k : K} (hk : k ≠ 0) (u : State ι K) (f : FieldT) (d : Dir) (bf bp : K) (F : Face ι K) (v : ι → K) :
    plainTerm u f d bf bp (scaledFace k F) v = k * plainTerm u f d bf bp F v := by
  unfold plainTerm scaledFace
  rw [List.map_map, ← List.sum_map_mul_left]
  congr 1
  apply List.map_congr_left
  intro p _
  have hn : normalTerm (scaledPt k p).nor = fun d => k * normalTerm p.nor d := funext fun d => normal_scaled k p.nor d
  show plainPt _ bf bp (scaledPt k p) _ _ _ _ d = _
  unfold plainPt
  rw [hn, cross_scaled]
  show p.w / 2 * (_ - bp * pen _ (k * p.W) _ d * _) = _
  rw [pen_scaled hk]
  simp only [tr1, tr2, scaledPt]
  ring

lemma wallTerm_scaled {k : K} (hk : k ≠ 0) (u : State ι K) (f : FieldT) (d : Dir) (bf bp : K) (F : Face ι K) (v : ι → K) :
    wallTerm u f d bf bp (scaledFace k F) v = k * wallTerm u f d bf bp F v := by
  unfold wallTerm scaledFace
  rw [List.map_map, ← List.sum_map_mul_left]
  congr 1
  apply List.map_congr_left
  intro p _
  have hn : normalTerm (scaledPt k p).nor = fun d => k * normalTerm p.nor d := funext fun d => normal_scaled k p.nor d
  show wallPt _ bf bp (scaledPt k p) _ _ _ _ _ _ d = _
  unfold wallPt
  rw [hn, cross_scaled, cross_scaled]
  show p.w / 2 * (_ - bp * (pen _ (k * p.W) _ d * _ + pen _ (k * p.W) _ d * _)) = _
  rw [pen_scaled hk, pen_scaled hk]
  simp only [tr1, tr2, scaledPt]
  ring

lemma form_smul (c : K) (A : Matrix ι ι K) (v x : ι → K) : form (c • A) v x = c * form A v x := by
  unfold form
  rw [Matrix.smul_mulVec, dotProduct_smul, smul_eq_mul]

lemma weak_scaled {s : K} (hs : s ≠ 0) (P : Prob ι K) (u : State ι K) (f : FieldT) (d : Dir) (v : ι → K) :
    weak (scaledProb s P) u f d v = s ^ P.dim / s * weak P u f d v := by
  have hk : s ^ P.dim / s ≠ 0 := div_ne_zero (pow_ne_zero _ hs) hs
  rw [weak_faces, weak_faces]
  have hc : curlTerm (scaledProb s P) u f d v = s ^ P.dim / s * curlTerm P u f d v := by
    have hD : ∀ x, derivativeSub (scaledProb s P) x = (s ^ P.dim / s) • derivativeSub P x := by
      intro x
      unfold derivativeSub
      show (if x.val ≥ P.dim then (0 : Matrix ι ι K) else (s ^ P.dim / s) • P.D x) = _
      split_ifs <;> simp
    unfold curlTerm
    rw [hD, hD, form_smul, form_smul]
    ring
  have hl : lossTerm (scaledProb s P) u f d v = s ^ P.dim / s * lossTerm P u f d v := by
    cases f
    · show form (s ^ P.dim • s⁻¹ • P.Msig) v (u .E d) = _ * form P.Msig v (u .E d)
      rw [form_smul, form_smul]
      ring
    · exact (mul_zero _).symm
  have hi : ((scaledProb s P).interior.map fun q => interiorTerm (scaledProb s P).alpha u f d v q.1 q.2).sum =
      s ^ P.dim / s * (P.interior.map fun q => interiorTerm P.alpha u f d v q.1 q.2).sum := by
    rw [← List.sum_map_mul_left]
    show ((P.interior.map _).map _).sum = _
    rw [List.map_map]
    congr 1
    apply List.map_congr_left
    rintro ⟨c, F⟩ _
    cases c with
    | none => exact plainTerm_scaled hk u f d _ _ F v
    | some c => cases c <;> first | exact wallTerm_scaled hk u f d _ _ F v | exact (mul_zero _).symm
  have he : ((scaledProb s P).bdr.map fun q => exteriorTerm (scaledProb s P).alpha u f d v q.1 q.2).sum =
      s ^ P.dim / s * (P.bdr.map fun q => exteriorTerm P.alpha u f d v q.1 q.2).sum := by
    rw [← List.sum_map_mul_left]
    show ((P.bdr.map _).map _).sum = _
    rw [List.map_map]
    congr 1
    apply List.map_congr_left
    rintro ⟨c, F⟩ _
    cases c with
    | none => exact (mul_zero _).symm
    | some c => exact plainTerm_scaled hk u f d _ _ F v
  rw [hc, hl, hi, he]
  ring

lemma faces_scaled (s : K) (P : Prob ι K) : allFaces (scaledProb s P) = (allFaces P).map (scaledFace (s ^ P.dim / s)) := by
  unfold allFaces scaledProb
  simp only [List.map_append, List.map_map]
  rfl

/-- **C172**: when all lengths are multiplied by `s`, the fields change `s` times slower. -/
theorem C172_operator {s : K} (hs : s ≠ 0) (P : Prob ι K) (hn : ∀ f ∈ allFaces P, ∀ p ∈ f.pts, p.nor.length = P.dim) (u : State ι K) :
    globalMult (scaledProb s P) u = s⁻¹ • globalMult P u := by
  funext f d i
  have hn' : ∀ f ∈ allFaces (scaledProb s P), ∀ p ∈ f.pts, p.nor.length = (scaledProb s P).dim := by
    intro f hf p hp
    rw [faces_scaled] at hf
    obtain ⟨F, hF, rfl⟩ := List.mem_map.1 hf
    obtain ⟨p, hq, rfl⟩ := List.mem_map.1 hp
    show (p.nor.map _).length = P.dim
    rw [List.length_map]
    exact hn F hF p hq
  show globalMult (scaledProb s P) u f d i = s⁻¹ * globalMult P u f d i
  rw [global_weak _ hn', global_weak _ hn, Finset.mul_sum]
  refine Finset.sum_congr rfl fun c _ => ?_
  rw [weak_scaled hs]
  show (s ^ P.dim)⁻¹ * P.Minv f i c * _ = _
  have := pow_ne_zero P.dim hs
  field_simp

/-- **C172**: the larger mesh is as passive as the other; its energy is larger by the volume. -/
theorem C172_passive {s : K} (hs : 0 < s) {P : Prob ι K} {M : FieldT → Matrix ι ι K} (h : Passive P M) :
    Passive (scaledProb s P) fun f => s ^ P.dim • M f := by
  have hk : 0 < s ^ P.dim / s := div_pos (pow_pos hs _) hs
  have hv : 0 < s ^ P.dim := pow_pos hs _
  refine ⟨⟨h.good.dim_le, ?_, ?_, ?_, ?_, ?_, ?_, ?_⟩, h.alpha, ?_, ?_⟩
  · intro f hf p hp
    rw [faces_scaled] at hf
    obtain ⟨F, hF, rfl⟩ := List.mem_map.1 hf
    obtain ⟨p, hq, rfl⟩ := List.mem_map.1 hp
    have g := h.good.pts F hF p hq
    refine ⟨g.w_nonneg, mul_pos hk g.W_pos, ?_, ?_⟩
    · show (p.nor.map _).length = P.dim
      rw [List.length_map]
      exact g.size
    · simp only [scaledPt, normal_scaled]
      linear_combination (s ^ P.dim / s) ^ 2 * g.norm
  · intro d hd v u
    have e := h.good.sbp d hd v u
    rw [faces_scaled, List.map_map]
    show v ⬝ᵥ ((s ^ P.dim / s) • P.D d).mulVec u + u ⬝ᵥ ((s ^ P.dim / s) • P.D d).mulVec v = _
    rw [Matrix.smul_mulVec, Matrix.smul_mulVec, dotProduct_smul, dotProduct_smul, smul_eq_mul, smul_eq_mul, ← mul_add, e,
      ← List.sum_map_mul_left]
    congr 1
    apply List.map_congr_left
    intro F _
    simp only [Function.comp, faceBoundary, scaledFace, List.map_map, ← List.sum_map_mul_left]
    congr 1
    apply List.map_congr_left
    intro p _
    simp only [Function.comp, scaledPt, normal_scaled, tr1, tr2]
    ring
  · intro q hq
    obtain ⟨q, hm, rfl⟩ := List.mem_map.1 hq
    exact h.good.bdr_cond q hm
  · intro q hq
    obtain ⟨q, hm, rfl⟩ := List.mem_map.1 hq
    exact h.good.bdr_one_side q hm
  · intro q hq
    obtain ⟨q, hm, rfl⟩ := List.mem_map.1 hq
    exact h.good.no_sgbc q hm
  · intro f
    show (s ^ P.dim • M f) * ((s ^ P.dim)⁻¹ • P.Minv f) = 1
    rw [Matrix.smul_mul, Matrix.mul_smul, smul_smul, mul_inv_cancel₀ hv.ne', one_smul, h.good.inv]
  · intro f
    rw [Matrix.transpose_smul, h.good.symm]
  · intro v
    show 0 ≤ v ⬝ᵥ (s ^ P.dim • s⁻¹ • P.Msig).mulVec v
    rw [Matrix.smul_mulVec, Matrix.smul_mulVec, dotProduct_smul, dotProduct_smul, smul_eq_mul, smul_eq_mul]
    exact mul_nonneg hv.le (mul_nonneg (inv_nonneg.2 hs.le) (h.sig v))
  · intro u hu
    have e : energy (fun f => s ^ P.dim • M f) u = s ^ P.dim * energy M u := by
      unfold energy
      rw [mul_left_comm]
      congr 1
      rw [Finset.mul_sum]
      refine Finset.sum_congr rfl fun d _ => ?_
      simp only [Matrix.smul_mulVec, dotProduct_smul, smul_eq_mul]
      ring
    rw [e]
    exact mul_pos hv (h.pos u hu)

end

/-- **C172**: with every integrator, any steps and any sources, a run in the other unit of length gives the same fields at the same
instants, when the times are converted too. -/
theorem C172_run (q : Sdirk ℝ) (hq : Ideal33 q) {s : ℝ} (hs : 0 < s) (P : Prob ι ℝ) (M : FieldT → Matrix ι ι ℝ) (hP : Passive P M)
    (A : Matrix (Slot ι) (Slot ι) ℝ) (hA : ∀ u : State ι ℝ, A.mulVec (flat u) = flat (globalMult P u)) (A' : Matrix (Slot ι) (Slot ι) ℝ)
    (hA' : ∀ u : State ι ℝ, A'.mulVec (flat u) = flat (globalMult (scaledProb s P) u)) (src : ℝ → State ι ℝ) (o : Ode) (dts : List ℝ)
    (hdts : ∀ dt ∈ dts, 0 ≤ dt) (u : State ι ℝ) (t : ℝ) :
    ∃ y c c', run q o (globalTdo A fun t => flat (src t)) dts (flat u) t fresh = some (flat y, t + dts.sum, c) ∧
      run q o (globalTdo A' fun t => flat (s⁻¹ • src (t / s))) (dts.map (s * ·)) (flat u) (s * t) fresh =
        some (flat y, s * (t + dts.sum), c') := by
  have hP' := C172_passive hs hP
  have eA : A'.mulVecLin = s⁻¹ • A.mulVecLin := by
    apply LinearMap.ext
    intro x
    rw [LinearMap.smul_apply, Matrix.mulVecLin_apply, Matrix.mulVecLin_apply, ← flat_unflat x, hA, hA',
      C172_operator hs.ne' P fun f hf p hp => (hP.good.pts f hf p hp).size]
    rfl
  have h' := global_solves hP'.good hP'.alpha hP'.sig hP'.pos hA' fun t => flat (s⁻¹ • src (t / s))
  rw [eA] at h'
  obtain ⟨y, c, c', e, e'⟩ := run_scale hq hs (global_solves hP.good hP.alpha hP.sig hP.pos hA fun t => flat (src t)) h' (by
      intro t
      rw [mul_div_cancel_left₀ t hs.ne']
      rfl)
    (eform_diss hP.good hP.alpha hP.sig hP.pos hA) (eform_pos hP.pos) o dts (flat u) t fresh fresh hdts (good_fresh A) (good_fresh A')
  exact ⟨unflat y, c, c', e, e'⟩

/-- The line with absorbing end, in millimetres and in metres. -/
example (q : Sdirk ℝ) (hq : Ideal33 q) (A A' : Matrix (Slot (Fin 4)) (Slot (Fin 4)) ℝ)
    (hA : ∀ u : State (Fin 4) ℝ, A.mulVec (flat u) = flat (globalMult (line ℝ 1 none .PEC .SMA) u))
    (hA' : ∀ u : State (Fin 4) ℝ, A'.mulVec (flat u) = flat (globalMult (scaledProb 1000 (line ℝ 1 none .PEC .SMA)) u))
    (src : ℝ → State (Fin 4) ℝ) (o : Ode) (u : State (Fin 4) ℝ) :
    ∃ y c c', run q o (globalTdo A fun t => flat (src t)) [1, 2] (flat u) 0 fresh = some (flat y, 0 + [1, 2].sum, c) ∧
      run q o (globalTdo A' fun t => flat ((1000 : ℝ)⁻¹ • src (t / 1000))) ([1, 2].map (1000 * ·)) (flat u) (1000 * 0) fresh =
        some (flat y, 1000 * (0 + [1, 2].sum), c') :=
  C172_run q hq (by norm_num) _ _ (line_passive 1 (by norm_num) none (by simp) _ _) A hA A' hA' src o [1, 2] (by
    intro dt h
    simp only [List.mem_cons, List.not_mem_nil, or_false] at h
    rcases h with rfl | rfl <;> norm_num) u 0

/-! ### the automatic step -/

section
open TimeStep

lemma minOf_scaled {s : ℝ} (hs : 0 ≤ s) (l : List ℝ) : ∀ a, minOf (s * a) (l.map (s * ·)) = s * minOf a l := by
  unfold minOf
  induction l with
  | nil => exact fun a => rfl
  | cons b l ih =>
    intro a
    rw [List.map_cons, List.foldl_cons, List.foldl_cons, ← mul_min_of_nonneg _ _ hs, ih]

lemma edge_scaled {s : ℝ} (hs : 0 ≤ s) (e : TimeStep.Pt × TimeStep.Pt) :
    edgeLength (TimeStep.Spec.scaledPt s e.1, TimeStep.Spec.scaledPt s e.2) = s * edgeLength e := by
  unfold edgeLength TimeStep.Spec.scaledPt
  have : ∀ x y z x' y' z' : ℝ, (s * x - s * x') * (s * x - s * x') + (s * y - s * y') * (s * y - s * y') + (s * z - s * z') * (s * z - s * z') =
      s ^ 2 * ((x - x') * (x - x') + (y - y') * (y - y') + (z - z') * (z - z')) := by
    intros
    ring
  rw [this, Real.sqrt_mul (sq_nonneg s), Real.sqrt_sq hs]

lemma area_scaled (s : ℝ) (f : TimeStep.Face) : faceArea (TimeStep.Spec.scaledFace s f) = s ^ 2 * faceArea f := by
  simp only [faceArea, TimeStep.Spec.scaledFace, TimeStep.Spec.scaledPt]
  rw [mul_left_comm, ← Real.sqrt_sq (sq_nonneg s), ← Real.sqrt_mul (sq_nonneg (s ^ 2))]
  congr 2
  ring

lemma scale_scaled {s : ℝ} (hs : 0 < s) (dim : Nat) (hd : dim = 2 ∨ dim = 3) (e : Elem) :
    dtScale dim (TimeStep.Spec.scaledElem s dim e) = s * dtScale dim e := by
  have ha : faceAreaSum dim (TimeStep.Spec.scaledElem s dim e) = s ^ (dim - 1) * faceAreaSum dim e := by
    unfold faceAreaSum
    rcases hd with rfl | rfl
    · rw [if_pos rfl, if_pos rfl]
      show ((e.edges.map _).map edgeLength).sum = _
      rw [List.map_map, ← List.sum_map_mul_left]
      congr 1
      apply List.map_congr_left
      intro p _
      show edgeLength (_, _) = s ^ 1 * _
      rw [edge_scaled hs.le, pow_one]
    · rw [if_neg (by norm_num), if_neg (by norm_num)]
      show ((e.faces.map _).map faceArea).sum = _
      rw [List.map_map, ← List.sum_map_mul_left]
      congr 1
      apply List.map_congr_left
      intro f _
      exact area_scaled s f
  unfold dtScale
  rw [ha]
  show s ^ dim * e.volume / (s ^ (dim - 1) * faceAreaSum dim e / 2) = _
  have hp : s ^ dim = s ^ (dim - 1) * s := by rcases hd with rfl | rfl <;> ring
  rw [hp, mul_div_assoc (s ^ (dim - 1)), mul_assoc, mul_div_mul_left _ _ (pow_ne_zero _ hs.ne'), mul_div_assoc]

lemma mesh_scaled {s : ℝ} (hs : 0 < s) (lobatto : Nat → List ℝ) (order dim : Nat) (hd : dim = 2 ∨ dim = 3) (elems : List Elem) (divisor : ℝ)
    (special : Shape) : calcMeshTimeStep lobatto order dim (elems.map (TimeStep.Spec.scaledElem s dim)) divisor special =
      (calcMeshTimeStep lobatto order dim elems divisor special).map (s * ·) := by
  unfold calcMeshTimeStep
  cases rMin lobatto order with
  | error e => rfl
  | ok r =>
    have hm : (elems.map (TimeStep.Spec.scaledElem s dim)).map (dtScale dim) = (elems.map (dtScale dim)).map (s * ·) := by
      rw [List.map_map, List.map_map]
      exact List.map_congr_left fun e _ => scale_scaled hs dim hd e
    have ha : (elems.map (TimeStep.Spec.scaledElem s dim)).any (fun e => decide (e.shape = special)) =
        elems.any (fun e => decide (e.shape = special)) := by
      rw [List.any_map]
      rfl
    simp only [hm, ha]
    cases elems.map (dtScale dim) with
    | nil => rfl
    | cons a l =>
      show Except.ok _ = Except.ok _
      simp only [minOf_scaled hs.le]
      congr 1
      split_ifs <;> ring

lemma fscale_scaled {c : ℝ} (hc : 0 ≤ c) (storage : List ℝ) (n : Nat) :
    maxFscale (storage.map (c * ·)) n = (maxFscale storage n).map (c * ·) := by
  have gen : ∀ (l : List Nat) (m : ℝ), l.foldlM (fun m e => ((storage.map (c * ·))[e]?).map fun f => max m f) (c * m) =
      (l.foldlM (fun m e => (storage[e]?).map fun f => max m f) m).map (c * ·) := by
    intro l
    induction l with
    | nil => exact fun m => rfl
    | cons e l ih =>
      intro m
      rw [List.foldlM_cons, List.foldlM_cons, List.getElem?_map]
      cases storage[e]? with
      | none => rfl
      | some f =>
        simp only [Option.map_some, Option.bind_eq_bind, Option.bind_some]
        rw [← mul_max_of_nonneg _ _ hc, ih]
  have := gen (List.range n) 0
  rw [mul_zero] at this
  exact this

lemma pair_scaled {s : ℝ} (hs : 0 ≤ s) (l : List ℝ) : pairDistances (l.map (s * ·)) = (pairDistances l).map (s * ·) := by
  induction l with
  | nil => rfl
  | cons x l ih =>
    simp only [List.map_cons, pairDistances, List.map_append, List.map_map, ih]
    congr 1
    apply List.map_congr_left
    intro y _
    show |s * x - s * y| = s * |x - y|
    rw [← mul_sub, abs_mul, abs_of_nonneg hs]

lemma distances_scaled {s : ℝ} (hs : 0 ≤ s) (dim : Nat) (e : Elem) :
    elemDistances (TimeStep.Spec.scaledElem s dim e) = (elemDistances e).map (s * ·) := by
  unfold elemDistances
  simp only [TimeStep.Spec.scaledElem, List.length_map]
  split_ifs
  · rfl
  · exact pair_scaled hs _

lemma minOf_cap (l : List ℝ) : ∀ (a b : ℝ), (∃ x ∈ l, x ≤ a ∧ x ≤ b) → minOf a l = minOf b l := by
  unfold minOf
  induction l with
  | nil => rintro a b ⟨x, hx, -⟩; simp at hx
  | cons y l ih =>
    rintro a b ⟨x, hx, ha, hb⟩
    rw [List.foldl_cons, List.foldl_cons]
    rcases List.mem_cons.1 hx with rfl | hx
    · rw [min_eq_right ha, min_eq_right hb]
    · by_cases hy : y ≤ a ∧ y ≤ b
      · rw [min_eq_right hy.1, min_eq_right hy.2]
      · by_cases hxy : x ≤ y
        · exact ih _ _ ⟨x, hx, le_min ha hxy, le_min hb hxy⟩
        · exact absurd ⟨(not_le.1 hxy).le.trans ha, (not_le.1 hxy).le.trans hb⟩ hy

/-- **C172**: the automatic step is converted like any other time.  On a line it is the smallest distance of two nodes, but never more than
the largest number, so some distance has to be a number in both units. -/
theorem C172_step {s : ℝ} (hs : 0 < s) (lobatto : Nat → List ℝ) (m : Setup) (o : Options)
    (h1 : m.dim = 1 → ∃ e ∈ m.elems, ∃ x ∈ elemDistances e, x ≤ dblMax ∧ s * x ≤ dblMax) :
    estimateTimeStep lobatto (TimeStep.Spec.scaledSetup s m) o = (estimateTimeStep lobatto m o).map (s * ·) := by
  unfold estimateTimeStep
  show (if m.dim = 1 then _ else _) = _
  by_cases hd : m.dim = 1
  · rw [if_pos hd, if_pos hd]
    have hm : minDistance (TimeStep.Spec.scaledSetup s m).elems = s * minDistance m.elems := by
      unfold minDistance
      have hl : (TimeStep.Spec.scaledSetup s m).elems.flatMap elemDistances = (m.elems.flatMap elemDistances).map (s * ·) := by
        show (m.elems.map _).flatMap _ = _
        rw [List.flatMap_map, List.map_flatMap]
        congr 1
        funext e
        exact distances_scaled hs.le _ e
      obtain ⟨e, he, x, hx, hx1, hx2⟩ := h1 hd
      rw [hl, ← minOf_scaled hs.le]
      refine minOf_cap _ _ _ ⟨s * x, List.mem_map.2 ⟨x, List.mem_flatMap.2 ⟨e, he, hx⟩, rfl⟩, hx2, ?_⟩
      exact mul_le_mul_of_nonneg_left hx1 hs.le
    rw [hm]
    split_ifs
    · show Except.ok _ = Except.ok _
      congr 1
      ring
    · show Except.ok _ = Except.ok _
      congr 1
      ring
  · rw [if_neg hd, if_neg hd]
    have hb : baseStep lobatto (TimeStep.Spec.scaledSetup s m) o = (baseStep lobatto m o).map (s * ·) := by
      unfold baseStep
      have hdim : (TimeStep.Spec.scaledSetup s m).dim = m.dim := rfl
      have hel : (TimeStep.Spec.scaledSetup s m).elems = m.elems.map (TimeStep.Spec.scaledElem s m.dim) := rfl
      rw [hdim, hel]
      by_cases h2 : m.dim = 2
      · rw [if_pos h2, if_pos h2, h2, mesh_scaled hs _ _ _ (.inl rfl)]
        cases calcMeshTimeStep lobatto o.order.toNat 2 m.elems 2 .quadrilateral with
        | error e => rfl
        | ok x =>
          exact congrArg Except.ok (mul_assoc _ _ _)
      · rw [if_neg h2, if_neg h2]
        by_cases h3 : m.dim = 3
        · rw [if_pos h3, if_pos h3, h3, mesh_scaled hs _ _ _ (.inr rfl)]
          cases calcMeshTimeStep lobatto o.order.toNat 3 m.elems 6 .hexahedron with
          | error e => rfl
          | ok x =>
            exact congrArg Except.ok (mul_assoc _ _ _)
        · rw [if_neg h3, if_neg h3]
          rfl
    rw [hb]
    cases baseStep lobatto m o with
    | error e => rfl
    | ok x =>
      show operatorStep (TimeStep.Spec.scaledSetup s m) o (s * x) = (operatorStep m o x).map (s * ·)
      unfold operatorStep
      have hst : maxFscale (TimeStep.Spec.scaledSetup s m).storage (TimeStep.Spec.scaledSetup s m).elems.length =
          (maxFscale m.storage m.elems.length).map (s⁻¹ * ·) := by
        show maxFscale (m.storage.map _) (m.elems.map _).length = _
        rw [List.length_map, fscale_scaled (inv_nonneg.2 hs.le)]
      rw [hst]
      show (if o.op = .hesthaven ∧ m.dim = 3 then _ else if o.op = .global ∧ m.dim = 3 then _ else _) = _
      split_ifs
      · cases maxFscale m.storage m.elems.length with
        | none => rfl
        | some f =>
          show Except.ok _ = Except.ok _
          congr 1
          rw [mul_assoc s⁻¹, mul_assoc s⁻¹, ← div_div, div_inv_eq_mul]
          ring
      · show Except.ok _ = Except.ok _
        congr 1
        ring
      · rfl

/-- Two elements on a line, in millimetres. -/
example (lobatto : Nat → List ℝ) (o : Options) :
    estimateTimeStep lobatto (TimeStep.Spec.scaledSetup 1000 ⟨1, [⟨.segment, 1, 1, [], [], [0, 1]⟩, ⟨.segment, 2, 2, [], [], [1, 3]⟩], []⟩) o =
      (estimateTimeStep lobatto ⟨1, [⟨.segment, 1, 1, [], [], [0, 1]⟩, ⟨.segment, 2, 2, [], [], [1, 3]⟩], []⟩ o).map (1000 * ·) :=
  C172_step (by norm_num) lobatto _ o fun _ => ⟨_, List.mem_cons_self, 1, by simp [elemDistances, pairDistances], by
    have h : (2 : ℝ) ^ 10 ≤ 2 ^ 1023 := pow_le_pow_right₀ (by norm_num) (by norm_num)
    have h' : (1024 : ℝ) ≤ 2 ^ 1023 := le_trans (by norm_num) h
    unfold dblMax
    generalize (2 : ℝ) ^ 1023 = x at h'
    constructor <;> linarith⟩

end

end Dgtd.Scale
