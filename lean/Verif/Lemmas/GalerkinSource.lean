/-
What injected waves do to the equations of a mesh.
-/
import Verif.Model.GalerkinSource
import Verif.Spec.GalerkinSource
import Verif.Props.Convergence
import Verif.Props.OpSource

set_option linter.unusedSectionVars false

namespace Dgtd.Op
open Spec

variable {ι K : Type} [Fintype ι] [DecidableEq ι] [Field K] [LinearOrder K] [IsStrictOrderedRing K]

/-! ### the operator of the sources -/

/-- The marked faces on their own. -/
def srcProb (C : Case ι K) : Prob ι K :=
  { dim := C.dim, alpha := C.alpha, interior := C.tfFaces.map fun F => (none, F), bdr := [], Minv := C.Minv, Msig := 0, D := fun _ => 0 }

lemma srcProb_plain (C : Case ι K) : plainFaces (srcProb C) = C.tfFaces := by
  unfold plainFaces srcProb
  simp only [List.filterMap_map]
  induction C.tfFaces with
  | nil => rfl
  | cons F l ih => simp [List.filterMap_cons]

lemma source_mult (C : Case ι K) (g : State ι K) (f : FieldT) (d : Dir) (i : ι) :
    applyBlocks (sourceBlocks C C.tfFaces) g f d i = globalMult (srcProb C) g f d i := by
  have hI : hasIntBdr (srcProb C) = false := by
    unfold hasIntBdr srcProb
    induction C.tfFaces with
    | nil => rfl
    | cons F l ih => simp
  have hb : bdrFaces (srcProb C) = [] := rfl
  have h1 : ∀ f x, oneNormalSub (srcProb C) f x = sourceOne C.tfFaces x := fun f x => by
    unfold oneNormalSub sourceOne; rw [srcProb_plain, hb]; simp
  have h0 : ∀ f, zeroNormalSub (srcProb C) f = sourceZero C.alpha C.tfFaces := fun f => by
    unfold zeroNormalSub sourceZero; rw [srcProb_plain, hb]; simp; rfl
  have h2 : ∀ f x y, twoNormalSub (srcProb C) f x y = sourceTwo C.alpha C.tfFaces x y := fun f x y => by
    unfold twoNormalSub sourceTwo; rw [srcProb_plain, hb]; simp; rfl
  have hd : applyBlocks (directionalBlocks (srcProb C)) g f d i = 0 := by
    rw [apply_dir]
    simp [derivativeSub, srcProb]
  have hc : applyBlocks (conductiveBlocks (srcProb C)) g f d i = 0 := by
    unfold conductiveBlocks dirs
    cases f <;> fin_cases d <;> simp [applyBlocks_cons', applyBlocks_nil, srcProb]
  unfold globalMult globalBlocks sourceBlocks
  rw [hI]
  simp only [h1, h0, h2, Bool.false_eq_true, if_false, List.nil_append, applyBlocks_append, Pi.add_apply, hd, hc, zero_add, add_zero]
  rfl

lemma weak_of (P : Prob ι K) (hn : ∀ f ∈ allFaces P, ∀ p ∈ f.pts, p.nor.length = P.dim) {M : FieldT → Matrix ι ι K}
    (hM : ∀ f, M f * P.Minv f = 1) (u : State ι K) (f : FieldT) (d : Dir) (x : ι → K) :
    x ⬝ᵥ (M f).mulVec (globalMult P u f d) = weak P u f d x := by
  let L : (ι → K) →ₗ[K] K :=
    { toFun := weak P u f d
      map_add' := fun x y => by
        have := weak_lin P u f d 1 1 x y
        simpa using this
      map_smul' := fun c x => by
        have := weak_lin P u f d c 0 x x
        simpa using this }
  have e : weak P u f d x = L x := rfl
  rw [e]
  conv_rhs => rw [← Finset.univ_sum_single x]
  rw [map_sum]
  unfold dotProduct
  refine Finset.sum_congr rfl fun c _ => ?_
  rw [weak_mass P hn hM]
  have : (Pi.single c (x c) : ι → K) = x c • Pi.single c 1 := by
    rw [← Pi.single_smul, smul_eq_mul, mul_one]
  rw [this, map_smul]
  rfl

/-- The sources tested with a function. -/
lemma source_weak (C : Case ι K) (hn : ∀ F ∈ C.tfFaces, ∀ p ∈ F.pts, p.nor.length = C.dim) {M : FieldT → Matrix ι ι K}
    (hM : ∀ f, M f * C.Minv f = 1) (g : State ι K) (f : FieldT) (d : Dir) (x : ι → K) :
    x ⬝ᵥ (M f).mulVec (fun i => applyBlocks (sourceBlocks C C.tfFaces) g f d i) = (C.tfFaces.map fun F => plainTerm g f d 1 C.alpha F x).sum := by
  have e : (fun i => applyBlocks (sourceBlocks C C.tfFaces) g f d i) = globalMult (srcProb C) g f d := funext fun i => source_mult C g f d i
  rw [e, weak_of (srcProb C) (M := M) (fun F hF => ?_) hM]
  · unfold weak
    rw [srcProb_plain]
    have hb : bdrFaces (srcProb C) = [] := rfl
    have hi : intBdrFaces (srcProb C) = [] := by
      unfold intBdrFaces srcProb
      induction C.tfFaces with
      | nil => rfl
      | cons F l ih => simp
    have hc : curlTerm (srcProb C) g f d x = 0 := by
      unfold curlTerm form derivativeSub srcProb
      simp
    have hl : lossTerm (srcProb C) g f d x = 0 := by
      cases f
      · simp [lossTerm, form, srcProb]
      · rfl
    rw [hb, hi, hc, hl]
    simp only [List.map_nil, List.sum_nil, zero_add, add_zero, sub_zero]
    rfl
  · refine hn F ?_
    simpa [allFaces, srcProb, List.map_map, Function.comp_def] using hF

lemma plainTerm_sub (u g : State ι K) (f : FieldT) (d : Dir) (bf bp : K) (F : Face ι K) (v : ι → K) :
    plainTerm (u - g) f d bf bp F v = plainTerm u f d bf bp F v - plainTerm g f d bf bp F v := by
  have h1 : ∀ p a b, tr1 F p (fun i => a i - b i) = tr1 F p a - tr1 F p b := fun p a b => by
    unfold tr1; simp only [mul_sub, Finset.sum_sub_distrib]
  have h2 : ∀ p a b, tr2 F p (fun i => a i - b i) = tr2 F p a - tr2 F p b := fun p a b => by
    unfold tr2; simp only [mul_sub, Finset.sum_sub_distrib]
  have e : ∀ f k, (u - g) f k = fun i => u f k i - g f k i := fun _ _ => rfl
  unfold plainTerm
  induction F.pts with
  | nil => simp
  | cons p l ih =>
    simp only [List.map_cons, List.sum_cons]
    rw [ih]
    simp only [e, h1, h2, plainPt, crossT, pen]
    ring

end Dgtd.Op

namespace Dgtd.Galerkin
open MvPolynomial Spec Dgtd.Op Dgtd.Op.Spec
open Dgtd.Config (Material)
open scoped ContDiff

variable {n : Nat} {ι : Type} {S : Setup n ι} {ms : List (Int × Material ℝ)} {p : Nat}
  {ρ m0 m1 Λ h B T : ℝ} {tot : Elem n ι ℝ → Bool} {G : Solution n ι} {ws : List (Wave n)} {node : Elem n ι ℝ → Nat → Fin (n + 1) → ℝ}

/-! ### the stored field -/

lemma diff_of {D : Nat} {g : Event D → ℝ} (hg : ContDiff ℝ ∞ g) : Differentiable ℝ g := hg.differentiable (by simp)

lemma dt_lin {D : Nat} {a b : Event D → ℝ} (ha : ContDiff ℝ ∞ a) (hb : ContDiff ℝ ∞ b) (k : ℝ) (z : Event D) :
    dt (fun z => a z + k * b z) z = dt a z + k * dt b z := by
  unfold dt
  have h1 : HasFDerivAt (fun z => a z + k * b z) (fderiv ℝ a z + k • fderiv ℝ b z) z :=
    (diff_of ha z).hasFDerivAt.add ((diff_of hb z).hasFDerivAt.const_mul k)
  rw [h1.fderiv]
  rfl

lemma dir_lin {a b : Event (n + 1) → ℝ} (ha : ContDiff ℝ ∞ a) (hb : ContDiff ℝ ∞ b) (k : ℝ) (d : Dir) (z : Event (n + 1)) :
    dirDeriv d (fun z => a z + k * b z) z = dirDeriv d a z + k * dirDeriv d b z := by
  unfold dirDeriv
  split
  · unfold dx
    have h1 : HasFDerivAt (fun z => a z + k * b z) (fderiv ℝ a z + k • fderiv ℝ b z) z :=
      (diff_of ha z).hasFDerivAt.add ((diff_of hb z).hasFDerivAt.const_mul k)
    rw [h1.fderiv]
    rfl
  · simp

lemma curlAt_lin {a b : Dir → Event (n + 1) → ℝ} (ha : ∀ d, ContDiff ℝ ∞ (a d)) (hb : ∀ d, ContDiff ℝ ∞ (b d)) (k : ℝ) (d : Dir) (z : Event (n + 1)) :
    curlAt (fun d z => a d z + k * b d z) d z = curlAt a d z + k * curlAt b d z := by
  unfold curlAt
  rw [dir_lin (ha _) (hb _), dir_lin (ha _) (hb _)]
  ring

lemma propagates_add {v w : Wave n} (hv : Propagates S ms tot T v) (hw : Propagates S ms tot T w) :
    Propagates S ms tot T (fun f d z => v f d z + 1 * w f d z) := by
  refine ⟨fun f d => (hv.smooth f d).add (contDiff_const.mul (hw.smooth f d)), fun c hc ht t h0 hT y hy d => ?_, fun c hc ht t h0 hT y hy d => ?_⟩
  · have e1 := hv.electric c hc ht t h0 hT y hy d
    have e2 := hw.electric c hc ht t h0 hT y hy d
    rw [dt_lin (hv.smooth _ _) (hw.smooth _ _), curlAt_lin (hv.smooth _) (hw.smooth _)]
    linear_combination e1 + e2
  · have e1 := hv.magnetic c hc ht t h0 hT y hy d
    have e2 := hw.magnetic c hc ht t h0 hT y hy d
    rw [dt_lin (hv.smooth _ _) (hw.smooth _ _), curlAt_lin (hv.smooth _) (hw.smooth _)]
    linear_combination e1 + e2

lemma propagates_zero : Propagates S ms tot T (fun _ _ _ => 0) := by
  have h1 : ∀ z, dt (fun _ : Event (n + 1) => (0 : ℝ)) z = 0 := fun z => by unfold dt; simp
  have h2 : ∀ d z, curlAt (fun _ (_ : Event (n + 1)) => (0 : ℝ)) d z = 0 := fun d z => by
    unfold curlAt dirDeriv; split <;> split <;> simp [dx]
  exact ⟨fun f d => contDiff_const, fun c _ _ t _ _ y _ d => by rw [h1, h2]; ring, fun c _ _ t _ _ y _ d => by rw [h1, h2]; ring⟩

lemma propagates_incident (hw : ∀ w ∈ ws, Propagates S ms tot T w) : Propagates S ms tot T (incident ws) := by
  induction ws with
  | nil => exact propagates_zero
  | cons w l ih =>
    have e : incident (w :: l) = fun f d z => w f d z + 1 * incident l f d z := by
      funext f d z
      unfold incident
      rw [List.map_cons, List.sum_cons, one_mul]
    rw [e]
    exact propagates_add (hw w List.mem_cons_self) (ih fun v hv => hw v (List.mem_cons_of_mem _ hv))

lemma scatters_solves (r : Scatters S ms p ρ m0 m1 Λ h B T tot G ws node) : Solves S ms T (stored tot G ws) := by
  have hI := propagates_incident r.waves
  have hG := r.solves
  have eT : ∀ e, tot e = true → stored tot G ws e = G e := fun e he => by
    funext f d z; unfold stored; rw [if_pos he]
  have eF : ∀ e, tot e = false → stored tot G ws e = fun f d z => G e f d z + -1 * incident ws f d z := fun e he => by
    funext f d z; unfold stored; rw [if_neg (by rw [he]; simp)]; ring
  refine ⟨fun e f d => ?_, fun c hc t h0 hT y hy d => ?_, fun c hc t h0 hT y hy d => ?_⟩
  · cases he : tot e with
    | true => rw [eT e he]; exact hG.smooth e f d
    | false => rw [eF e he]; exact (hG.smooth e f d).add (contDiff_const.mul (hI.smooth f d))
  · cases he : tot c.e with
    | true => rw [eT _ he]; exact hG.electric c hc t h0 hT y hy d
    | false =>
      rw [eF _ he]
      have e1 := hG.electric c hc t h0 hT y hy d
      have e2 := hI.electric c hc he t h0 hT y hy d
      rw [dt_lin (hG.smooth _ _ _) (hI.smooth _ _), curlAt_lin (hG.smooth _ _) (hI.smooth _)]
      linear_combination e1 - e2
  · cases he : tot c.e with
    | true => rw [eT _ he]; exact hG.magnetic c hc t h0 hT y hy d
    | false =>
      rw [eF _ he]
      have e1 := hG.magnetic c hc t h0 hT y hy d
      have e2 := hI.magnetic c hc he t h0 hT y hy d
      rw [dt_lin (hG.smooth _ _ _) (hI.smooth _ _), curlAt_lin (hG.smooth _ _) (hI.smooth _)]
      linear_combination e1 - e2

lemma scatters_smooth (r : Scatters S ms p ρ m0 m1 Λ h B T tot G ws node) : Smooth S ms p ρ m0 m1 Λ h B T (stored tot G ws) node :=
  ⟨r.mesh, r.materials, r.between, r.fine, r.small, r.nodal, scatters_solves r, r.bounded, r.bound⟩

/-! ### the sampled waves -/

variable [Fintype ι] [DecidableEq ι]

/-- A function given by its values at the nodes of an element. -/
lemma interp_near (hm : ValidMesh S p 1) (hf : Fineness S h ρ) (hn : Nodal S p Λ node) (hB : 0 ≤ B) {I : Event (n + 1) → ℝ} (hI : ContDiff ℝ ∞ I)
    {c : Cell n ι} (hc : c ∈ S.cells) {t : ℝ} (hb : ∀ y, InElem c.e y → ∀ l : List (Fin (n + 1)), l.length = p + 1 → |dxs l I (t, y)| ≤ B)
    {v : ι → ℝ} (hv : ∀ i < c.e.size, v (c.e.dof i) = I (t, fun k => eval (node c.e i) (c.e.geom k))) {x : Fin (n + 1) → ℝ} (hx : InSimplex x) :
    |eval x (onElem c.e v) - I (t, fun k => eval x (c.e.geom k))| ≤ (1 + Λ) * ((3 * h) ^ (p + 1) * B) := by
  have hh := hf.pos
  have near : ∀ {y}, InElem c.e y → |I (t, y) - eval y (tay (corner c.e) t p I)| ≤ (3 * h) ^ (p + 1) * B := by
    intro y hy
    refine (tay_error {y | InElem c.e y} (corner c.e) h B t (fun x hx s h0 h1 => elem_star hm hc x hx s h0 h1)
      (fun x hx i => hf.size c hc x _ hx ⟨0, origin_in, rfl⟩ i) p hI (fun l hl x hx => hb x hx l hl) y hy).trans ?_
    exact mul_le_mul_of_nonneg_right (pow_dim hm.simplicial.dim hf.pos.le (p + 1)) hB
  obtain ⟨a, ha⟩ := hn.complete c hc (bind₁ c.e.geom (tay (corner c.e) t p I)) ((degree_bind_one _ (hm.geom hc) _).trans (tay_degree _ _ _ _))
  have hai : ∀ i < c.e.size, a i = eval (fun k => eval (node c.e i) (c.e.geom k)) (tay (corner c.e) t p I) := by
    intro i hi
    rw [← eval_bind, ha, map_sum, Finset.sum_eq_single i]
    · rw [map_mul, eval_C, hn.delta c hc i hi i hi, if_pos rfl, mul_one]
    · intro j hj hne
      rw [map_mul, eval_C, hn.delta c hc i hi j (Finset.mem_range.1 hj), if_neg (Ne.symm hne), mul_zero]
    · intro hn
      exact absurd (Finset.mem_range.2 hi) hn
  have e1 : eval x (onElem c.e v) - eval x (bind₁ c.e.geom (tay (corner c.e) t p I)) =
      ∑ i ∈ Finset.range c.e.size, (v (c.e.dof i) - a i) * eval x (c.e.shape i) := by
    rw [ha]
    unfold onElem
    rw [map_sum, map_sum, ← Finset.sum_sub_distrib]
    exact Finset.sum_congr rfl fun i _ => by rw [map_mul, map_mul, eval_C, eval_C]; ring
  have e2 : |eval x (onElem c.e v) - eval x (bind₁ c.e.geom (tay (corner c.e) t p I))| ≤ Λ * ((3 * h) ^ (p + 1) * B) := by
    rw [e1]
    refine (Finset.abs_sum_le_sum_abs _ _).trans ?_
    calc ∑ i ∈ Finset.range c.e.size, |(v (c.e.dof i) - a i) * eval x (c.e.shape i)|
        ≤ ∑ i ∈ Finset.range c.e.size, ((3 * h) ^ (p + 1) * B) * |eval x (c.e.shape i)| := by
          refine Finset.sum_le_sum fun i hi => ?_
          have hi := Finset.mem_range.1 hi
          rw [abs_mul, hv i hi, hai i hi]
          exact mul_le_mul_of_nonneg_right (near ⟨_, hn.inside c hc i hi, rfl⟩) (abs_nonneg _)
      _ = ((3 * h) ^ (p + 1) * B) * ∑ i ∈ Finset.range c.e.size, |eval x (c.e.shape i)| := by rw [Finset.mul_sum]
      _ ≤ ((3 * h) ^ (p + 1) * B) * Λ := mul_le_mul_of_nonneg_left (hn.lebesgue c hc x hx) (by positivity)
      _ = _ := mul_comm _ _
  have e3 := near (y := fun k => eval x (c.e.geom k)) ⟨x, hx, rfl⟩
  rw [eval_bind] at e2
  rw [abs_sub_comm] at e3
  have := abs_sub_le (eval x (onElem c.e v)) (eval (fun k => eval x (c.e.geom k)) (tay (corner c.e) t p I)) (I (t, fun k => eval x (c.e.geom k)))
  linarith

/-- The waves together at the nodes. -/
lemma sampled_total {t : ℝ} {vs : List (State ι ℝ)} (hs : SampledWaves S node ws t vs) : Sampled S node (fun _ => incident ws) t (total vs) := by
  unfold SampledWaves at hs
  induction hs with
  | nil => intro c _ i _ f d; simp [total, incident]
  | cons hv _ ih =>
    intro c hc i hi f d
    have h1 := hv c hc i hi f d
    have h2 := ih c hc i hi f d
    unfold total incident at h2 ⊢
    beta_reduce at h2 ⊢
    rw [List.map_cons, List.sum_cons, List.map_cons, List.sum_cons, h1, h2]

/-- Weight of the injected waves in an element. -/
noncomputable def weight (sfSub : Option (List ι)) (tot : Elem n ι ℝ → Bool) (e : Elem n ι ℝ) : ℝ :=
  match sfSub with
  | some _ => if tot e = true then 1 / 2 else -(1 / 2)
  | none => if tot e = true then 1 else 0

lemma weight_le (sfSub : Option (List ι)) (e : Elem n ι ℝ) : |weight sfSub tot e| ≤ 1 := by
  unfold weight
  cases sfSub <;> simp only [] <;> split <;> norm_num [abs_of_pos, abs_of_neg]

variable {tf : MeshFace n ι → Bool} {sub : List ι} {sfSub : Option (List ι)}

lemma source_onElem (C : Case ι ℝ) (vs : List (State ι ℝ)) (e : Elem n ι ℝ)
    (hn : ∀ i < e.size, match C.sfSub with
      | some l => e.dof i ∈ C.sub ∧ (e.dof i ∈ l ↔ tot e = false)
      | none => (e.dof i ∈ C.sub ↔ tot e = true)) (f : FieldT) (d : Dir) :
    onElem e (sourceField C vs f d) = MvPolynomial.C (weight C.sfSub tot e) * onElem e (total vs f d) := by
  unfold onElem
  rw [Finset.mul_sum]
  refine Finset.sum_congr rfl fun i hi => ?_
  rw [← mul_assoc, ← MvPolynomial.C_mul]
  congr 2
  have := hn i (Finset.mem_range.1 hi)
  unfold weight
  cases hl : C.sfSub with
  | none =>
    rw [hl] at this
    have this : e.dof i ∈ C.sub ↔ tot e = true := this
    by_cases ht : tot e = true
    · simp only [if_pos ht]
      rw [sourceField_eq C vs f d _ (this.2 ht)]
      unfold tfsfSign
      rw [hl]
      ring
    · simp only [if_neg ht]
      unfold sourceField
      rw [if_neg fun hc => ht (this.1 hc)]
      ring
  | some l =>
    rw [hl] at this
    have this : e.dof i ∈ C.sub ∧ (e.dof i ∈ l ↔ tot e = false) := this
    rw [sourceField_eq C vs f d _ this.1]
    unfold tfsfSign
    rw [hl]
    by_cases ht : tot e = true
    · have : ¬ e.dof i ∈ l := fun hc => by rw [this.2.1 hc] at ht; simp at ht
      simp only [if_pos ht, if_neg this]; ring
    · have : e.dof i ∈ l := this.2.2 (by simpa using ht)
      simp only [if_neg ht, if_pos this]; ring

/-- The trace of the injected waves on one side of a face. -/
lemma side_wave (r : Scatters S ms p ρ m0 m1 Λ h B T tot G ws node) {t : ℝ} (h0 : 0 ≤ t) (hT : t ≤ T) {vs : List (State ι ℝ)}
    (hs : SampledWaves S node ws t vs) {s : Side n ι ℝ} {c : Cell n ι} (hc : c ∈ S.cells) (he : s.e = c.e) {x : Fin n → ℝ} (hx : InSimplex x)
    (f : FieldT) (d : Dir) : |eval x (s.restrict (onElem s.e (total vs f d))) - incident ws f d (t, pos s x)| ≤ (1 + Λ) * ((3 * h) ^ (p + 1) * B) := by
  have hin := loc_inside s.face s.turn x hx
  have hI := propagates_incident r.waves
  have key := interp_near r.mesh r.fine r.nodal r.bound (hI.smooth f d) hc (t := t) (fun y hy l hl => (r.incident c hc t h0 hT y hy f d l hl).1)
    (v := total vs f d) (fun i hi => sampled_total hs c hc i hi f d) hin
  rw [eval_restrict]
  have hp : pos s x = fun k => eval (fun j => eval x (loc s.face s.turn j)) (c.e.geom k) := funext fun k => by unfold pos; rw [eval_restrict, he]
  rw [hp, he]
  exact key

/-! ### the faces with the injected waves -/

lemma source_prob (S : Setup n ι) (ms : List (Int × Material ℝ)) : (S.source (femOf S ms) tf sub sfSub).prob = (femOf S ms).prob := by
  have e : (femOf S ms).prob.interior = ((S.interior.map fun q => (q.1, q.2.fem)).map fun q => (q.1, q.2.toFace)) := rfl
  have e2 : (S.source (femOf S ms) tf sub sfSub).prob = { (femOf S ms).prob with
      interior := (S.interior.map fun q => (⟨q.1, tf q.2, q.2.fem.toFace⟩ : IFace ι ℝ)).map fun q => (q.cond, q.face) } := rfl
  rw [e2]
  conv_rhs => rw [show (femOf S ms).prob = { (femOf S ms).prob with interior := (femOf S ms).prob.interior } from rfl, e]
  rw [List.map_map, List.map_map]
  rfl

lemma tfFaces_eq (S : Setup n ι) (P : Fem n ι ℝ) : (S.source P tf sub sfSub).tfFaces =
    S.interior.filterMap fun q => if tf q.2 = true then some q.2.fem.toFace else none := by
  unfold Case.tfFaces Setup.source
  rw [List.filterMap_map]
  rfl

lemma sum_marked {α : Type} (l : List α) (c : α → Bool) (φ : Face ι ℝ → ℝ) (g : α → Face ι ℝ) :
    ((l.filterMap fun q => if c q = true then some (g q) else none).map φ).sum = (l.map fun q => if c q = true then φ (g q) else 0).sum := by
  induction l with
  | nil => rfl
  | cons q l ih => by_cases h : c q = true <;> simp [List.filterMap_cons, h, ih]

lemma restrict_scale (s : Side n ι ℝ) (a : ℝ) (q : Poly (n + 1) ℝ) (x : Fin n → ℝ) :
    eval x (s.restrict (MvPolynomial.C a * q)) = a * eval x (s.restrict q) := by
  rw [eval_restrict, eval_restrict, map_mul, eval_C]

/-- The error of the traces of fields and waves. -/
noncomputable def traceErr (Λ h B : ℝ) (p : Nat) : ℝ := (2 + Λ) * ((3 * h) ^ (p + 1) * B)

/-- A marked face: the jump that the injected waves leave. -/
lemma marked_le (r : Scatters S ms p ρ m0 m1 Λ h B T tot G ws node) (hsf : Surface S tf sub sfSub tot) (hΛ : 0 ≤ Λ) (hα : 0 ≤ S.alpha) {t : ℝ}
    (h0 : 0 ≤ t) (hT : t ≤ T) {vs : List (State ι ℝ)} (hs : SampledWaves S node ws t vs) {u : State ι ℝ}
    (hu : Carries S (taylorField (stored tot G ws) p t) u) (P : Fem n ι ℝ) {g : MeshFace n ι} (hg : (none, g) ∈ S.interior) (ht : tf g = true)
    (f : FieldT) (d : Dir) (v : ι → ℝ) :
    |plainTerm (u - sourceField (S.source P tf sub sfSub) vs) f d 1 S.alpha g.fem.toFace v| ≤
      faceBound ((4 + 4 * S.alpha) * traceErr Λ h B p) g.fem.toFace v := by
  have hh := r.fine.pos
  have hB := r.bound
  have a0 : 0 ≤ traceErr Λ h B p := by unfold traceErr; positivity
  have hg' : (none, g) ∈ S.interior ++ S.bdr := List.mem_append_left _ hg
  obtain ⟨s, hs2⟩ := Option.ne_none_iff_exists'.1 (r.fine.two_sides _ hg)
  have hs2 : g.s2 = some s := hs2
  obtain ⟨⟨c1, hc1, he1⟩, hcell2⟩ := sides_cells r.mesh hg'
  obtain ⟨c2, hc2, he2⟩ := hcell2 s hs2
  refine jump_le r.mesh r.fine.weights a0 hg (fun q hq => ?_) hα f d v
  have hin : InSimplex q.2 := r.mesh.inside _ hg' q hq
  obtain ⟨θ1, hθ1⟩ : ∃ θ, θ = weight sfSub tot g.s1.e := ⟨_, rfl⟩
  obtain ⟨θ2, hθ2⟩ : ∃ θ, θ = weight sfSub tot s.e := ⟨_, rfl⟩
  have l1 : |θ1| ≤ 1 := by rw [hθ1]; exact weight_le _ _
  have l2 : |θ2| ≤ 1 := by rw [hθ2]; exact weight_le _ _
  have hdiff := (hsf.divides _ hg rfl s hs2).1 ht
  have hpos := r.conform _ hg s hs2 q.2
  have hpos : pos g.s1 q.2 = pos s q.2 := hpos
  refine ⟨fun f k => (beside (stored tot G ws) t g.s1 q.2 f k - beside (stored tot G ws) t s q.2 f k) - (θ1 - θ2) * incident ws f k (t, pos s q.2),
    fun f d => ?_, fun f k => ?_⟩
  · have hin' := r.inner _ hg rfl s hs2 t h0 hT q.2 hin f d
    rw [← hin']
    congr 1
    funext k
    unfold beside stored
    change _ = G g.s1.e f k (t, pos g.s1 q.2) - G s.e f k (t, pos s q.2)
    have hdiff : tot g.s1.e ≠ tot s.e := hdiff
    rw [hpos, hθ1, hθ2]
    unfold weight
    cases t1 : tot g.s1.e <;> cases t2 : tot s.e
    · exact absurd (t1.trans t2.symm) hdiff
    · cases sfSub <;> simp <;> ring
    · cases sfSub <;> simp <;> ring
    · exact absurd (t1.trans t2.symm) hdiff
  · have x1 := side_wave r h0 hT hs hc1 he1 hin f k
    have x2 := side_wave r h0 hT hs hc2 he2 hin f k
    have y1 := (near_of (scatters_smooth r) h0 hT _ hg' q.2 hin f k).1
    have y2 := (near_of (scatters_smooth r) h0 hT _ hg' q.2 hin f k).2 s hs2
    have n1 := source_onElem (tot := tot) (S.source P tf sub sfSub) vs g.s1.e (hsf.nodes _ hg ht _ (Or.inl rfl)) f k
    have n2 := source_onElem (tot := tot) (S.source P tf sub sfSub) vs s.e (hsf.nodes _ hg ht _ (Or.inr ⟨s, hs2, rfl⟩)) f k
    have n1 : onElem g.s1.e (sourceField (S.source P tf sub sfSub) vs f k) = MvPolynomial.C θ1 * onElem g.s1.e (total vs f k) := by rw [hθ1]; exact n1
    have n2 : onElem s.e (sourceField (S.source P tf sub sfSub) vs f k) = MvPolynomial.C θ2 * onElem s.e (total vs f k) := by rw [hθ2]; exact n2
    have e1 : tr1 g.fem.toFace (point g.fem q) ((u - sourceField (S.source P tf sub sfSub) vs) f k) =
        onSide (taylorField (stored tot G ws) p t) g.s1 q.2 f k - θ1 * eval q.2 (g.s1.restrict (onElem g.s1.e (total vs f k))) := by
      rw [← carries_one r.mesh hu hg', ← restrict_scale, ← n1]
      have : tr1 g.fem.toFace (point g.fem q) (sourceField (S.source P tf sub sfSub) vs f k) =
          eval q.2 (g.s1.restrict (onElem g.s1.e (sourceField (S.source P tf sub sfSub) vs f k))) := by rw [trace1_eq]; rfl
      rw [← this]
      unfold tr1
      rw [← Finset.sum_sub_distrib]
      exact Finset.sum_congr rfl fun i _ => mul_sub _ _ _
    have e2 : tr2 g.fem.toFace (point g.fem q) ((u - sourceField (S.source P tf sub sfSub) vs) f k) =
        onSide (taylorField (stored tot G ws) p t) s q.2 f k - θ2 * eval q.2 (s.restrict (onElem s.e (total vs f k))) := by
      have o2 : onOther (taylorField (stored tot G ws) p t) g q.2 f k = onSide (taylorField (stored tot G ws) p t) s q.2 f k := by
        unfold onOther; rw [hs2]
      rw [← o2, ← carries_two r.mesh hu hg', ← restrict_scale, ← n2]
      have : tr2 g.fem.toFace (point g.fem q) (sourceField (S.source P tf sub sfSub) vs f k) =
          eval q.2 (s.restrict (onElem s.e (sourceField (S.source P tf sub sfSub) vs f k))) := by
        rw [trace2_eq]; unfold trace2
        change eval q.2 (match g.s2 with | some s => s.restrict (fld s.e _) | none => 0) = _
        rw [hs2]; rfl
      rw [← this]
      unfold tr2
      rw [← Finset.sum_sub_distrib]
      exact Finset.sum_congr rfl fun i _ => mul_sub _ _ _
    rw [e1, e2]
    beta_reduce
    rw [hpos] at x1
    have y1 : |onSide (taylorField (stored tot G ws) p t) g.s1 q.2 f k - beside (stored tot G ws) t g.s1 q.2 f k| ≤ (3 * h) ^ (p + 1) * B := y1
    obtain ⟨U1, hU1⟩ : ∃ U, U = onSide (taylorField (stored tot G ws) p t) g.s1 q.2 f k := ⟨_, rfl⟩
    obtain ⟨U2, hU2⟩ : ∃ U, U = onSide (taylorField (stored tot G ws) p t) s q.2 f k := ⟨_, rfl⟩
    obtain ⟨F1, hF1⟩ : ∃ U, U = beside (stored tot G ws) t g.s1 q.2 f k := ⟨_, rfl⟩
    obtain ⟨F2, hF2⟩ : ∃ U, U = beside (stored tot G ws) t s q.2 f k := ⟨_, rfl⟩
    obtain ⟨X1, hX1⟩ : ∃ U, U = eval q.2 (g.s1.restrict (onElem g.s1.e (total vs f k))) := ⟨_, rfl⟩
    obtain ⟨X2, hX2⟩ : ∃ U, U = eval q.2 (s.restrict (onElem s.e (total vs f k))) := ⟨_, rfl⟩
    obtain ⟨I, hI⟩ : ∃ U, U = incident ws f k (t, pos s q.2) := ⟨_, rfl⟩
    rw [← hU1, ← hF1] at y1
    rw [← hU2, ← hF2] at y2
    rw [← hX1, ← hI] at x1
    rw [← hX2, ← hI] at x2
    rw [← hU1, ← hU2, ← hF1, ← hF2, ← hX1, ← hX2, ← hI]
    have e : U1 - θ1 * X1 - (U2 - θ2 * X2) - (F1 - F2 - (θ1 - θ2) * I) = ((U1 - F1) - (U2 - F2)) - (θ1 * (X1 - I) - θ2 * (X2 - I)) := by ring
    rw [e]
    refine (abs_sub _ _).trans ?_
    have z1 := abs_sub (U1 - F1) (U2 - F2)
    have z2 := abs_sub (θ1 * (X1 - I)) (θ2 * (X2 - I))
    rw [abs_mul, abs_mul] at z2
    have z3 := mul_le_mul l1 x1 (abs_nonneg _) zero_le_one
    have z4 := mul_le_mul l2 x2 (abs_nonneg _) zero_le_one
    unfold traceErr
    linarith

lemma Near.mono {Q : PField n ι} {V : Side n ι ℝ → (Fin n → ℝ) → FieldT → Dir → ℝ} {a b : ℝ} (hn : Near S Q V a) (hab : a ≤ b) : Near S Q V b :=
  fun q hq x hx f d => ⟨((hn q hq x hx f d).1).trans hab, fun s hs => ((hn q hq x hx f d).2 s hs).trans hab⟩

/-- The Taylor polynomials of what is stored, as unknowns: how far they are from solving the equations of the mesh with the injected waves. -/
lemma wave_interpolant (r : Scatters S ms p ρ m0 m1 Λ h B T tot G ws node) (hsf : Surface S tf sub sfSub tot) (hΛ : 0 ≤ Λ) (hm0 : 0 < m0)
    (hα : 0 ≤ S.alpha) {L : ℝ} (hL0 : 0 ≤ L)
    (hL : ∀ (face : Option (Fin (n + 1))) (turn : Equiv.Perm (Fin (n + 1))) (v : Poly (n + 1) ℝ), v.totalDegree ≤ p →
      integral n (bind₁ (loc face turn) v ^ 2) ≤ L * integral (n + 1) (v ^ 2))
    {waves : ℝ → List (State ι ℝ)} (hs : ∀ t, SampledWaves S node ws t (waves t)) :
    ∃ w : ℝ → State ι ℝ, (∀ t, Carries S (taylorField (stored tot G ws) p t) (w t)) ∧
      Dgtd.Super.Spec.Consistent (femOf S ms).prob (massOf S ms)
        (fun t f d i => -applyBlocks (sourceBlocks (S.source (femOf S ms) tf sub sfSub) (S.source (femOf S ms) tf sub sfSub).tfFaces)
          (sourceField (S.source (femOf S ms) tf sub sfSub) (waves t)) f d i) w 0 T
        (√(residConst L ρ m0 m1 ((1 + S.alpha) * (2 + Λ) - 1) p * volume S) * (B * h ^ p)) := by
  have rs := scatters_smooth r
  obtain ⟨w, r', hw, hr', hd⟩ := carry_time r.mesh r.nodal.complete (taylorField (stored tot G ws) p) (taylorRate (stored tot G ws) p)
    (fun t c _ f d => tay_degree _ _ _ _) (fun t c _ f d => tay_degree _ _ _ _)
    (fun t c _ f d a => tay_time (corner c.e) t p (rs.solves.smooth _ _ _) a)
  obtain ⟨Cs, hCs⟩ : ∃ C, C = S.source (femOf S ms) tf sub sfSub := ⟨_, rfl⟩
  rw [← hCs]
  obtain ⟨b, hb⟩ : ∃ b : ℝ → State ι ℝ, b = fun t f d i => -applyBlocks (sourceBlocks Cs Cs.tfFaces) (sourceField Cs (waves t)) f d i := ⟨_, rfl⟩
  rw [← hb]
  have hh := r.fine.pos
  have hB := r.bound
  refine ⟨w, hw, fun s f d i => r' s f d i - (globalMult (femOf S ms).prob (w s) f d i + b s f d i), fun s h0 hT => ⟨?_, fun f d i => ?_⟩⟩
  · obtain ⟨a, ha⟩ : ∃ a, a = traceErr Λ h B p := ⟨_, rfl⟩
    have a0 : 0 ≤ a := by rw [ha]; unfold traceErr; positivity
    have hle : (3 * h) ^ (p + 1) * B ≤ a := by
      rw [ha]; unfold traceErr
      have : 0 ≤ (3 * h) ^ (p + 1) * B := by positivity
      nlinarith
    have hn := (near_of rs h0 hT).mono hle
    obtain ⟨J, hJ⟩ : ∃ J, J = (4 + 4 * S.alpha) * a := ⟨_, rfl⟩
    have hJ0 : 0 ≤ J := by rw [hJ]; positivity
    have hgood := good_fem r.mesh ms r.materials r.fine.weights
    have key := residual_core r.mesh ms r.materials hL0 hL r.fine hm0 (fun c hc => ⟨(r.between c hc).1.1, (r.between c hc).2.1.1⟩) (hw s) (hr' s)
      (b := b s) hJ0 (fun c hc f d y hy => resid_le rs hm0 h0 hT hc f d y hy) fun f d v => by
      have hsrc : form (massOf S ms f) v (b s f d) =
          -(S.interior.map fun q => if tf q.2 = true then plainTerm (sourceField Cs (waves s)) f d 1 S.alpha q.2.fem.toFace v else 0).sum := by
        have e : b s f d = -fun i => applyBlocks (sourceBlocks Cs Cs.tfFaces) (sourceField Cs (waves s)) f d i := by rw [hb]; rfl
        rw [e]
        unfold form
        rw [Matrix.mulVec_neg, dotProduct_neg, source_weak Cs (M := massOf S ms) (fun F hF => ?_) (fun f => ?_)]
        · rw [hCs, tfFaces_eq, sum_marked]
          rfl
        · rw [hCs, tfFaces_eq] at hF
          obtain ⟨q, hq, hqF⟩ := List.mem_filterMap.1 hF
          have : F = q.2.fem.toFace := by
            by_cases ht : tf q.2 = true
            · rw [if_pos ht] at hqF; exact (Option.some.inj hqF).symm
            · rw [if_neg ht] at hqF; exact absurd hqF (by simp)
          rw [this, hCs]
          intro x hx
          refine (hgood.pts q.2.fem.toFace ?_ x hx).size
          unfold allFaces
          refine List.mem_append_left _ ?_
          change _ ∈ ((S.interior.map fun q => (q.1, q.2.fem)).map fun q => (q.1, q.2.toFace)).map Prod.snd
          rw [List.map_map, List.map_map]
          exact List.mem_map.2 ⟨q, hq, rfl⟩
        · rw [hCs]; exact hgood.inv f
      have hI : -((femOf S ms).prob.interior.map fun q => interiorTerm (femOf S ms).prob.alpha (w s) f d v q.1 q.2).sum - form (massOf S ms f) v (b s f d) ≤
          (S.interior.map fun q => faceBound J q.2.fem.toFace v).sum := by
        rw [hsrc]
        change -(((S.interior.map fun q => (q.1, q.2.fem)).map fun q => (q.1, q.2.toFace)).map _).sum - _ ≤ _
        rw [List.map_map, List.map_map, sub_neg_eq_add, neg_add_eq_sub, list_sum_sub]
        refine (le_abs_self _).trans ?_
        refine sum_abs_le _ _ _ fun q hq => ?_
        obtain ⟨o, g⟩ := q
        obtain ⟨s', hs'⟩ := Option.ne_none_iff_exists'.1 (r.fine.two_sides _ hq)
        rw [hJ, abs_sub_comm]
        change |interiorTerm S.alpha (w s) f d v o g.fem.toFace - (if tf g = true then _ else 0)| ≤ _
        cases o with
        | none =>
          by_cases ht : tf g = true
          · rw [if_pos ht]
            change |plainTerm (w s) f d 1 S.alpha g.fem.toFace v - _| ≤ _
            rw [← plainTerm_sub, ha, hCs]
            exact marked_le r hsf hΛ hα h0 hT (hs s) (hw s) _ hq ht f d v
          · rw [if_neg ht, sub_zero]
            refine plain_le r.mesh r.fine.weights (hw s) a0 hn hq hs' (fun x hx f d => ?_) hα f d v
            have hin := r.inner _ hq rfl s' hs' s h0 hT x hx f d
            rw [← hin]
            congr 1
            funext k
            have heq : tot g.s1.e = tot s'.e := by
              by_contra hne
              exact ht ((hsf.divides _ hq rfl s' hs').2 hne)
            have hpos : pos g.s1 x = pos s' x := r.conform _ hq s' hs' x
            unfold beside stored
            change _ = G g.s1.e f k (s, pos g.s1 x) - G s'.e f k (s, pos s' x)
            rw [hpos]
            rw [heq]
            split <;> ring
        | some c =>
          have ht : ¬ tf g = true := fun ht => by have := hsf.plain _ hq ht; simp at this
          rw [if_neg ht, sub_zero]
          exact wall_le r.mesh r.fine.weights (hw s) hn hq hs'
            (fun x hx => ⟨(r.walls _ hq c rfl s h0 hT x hx).1, (r.walls _ hq c rfl s h0 hT x hx).2 s' hs'⟩) hα f d v
      have hO : -((femOf S ms).prob.bdr.map fun q => exteriorTerm (femOf S ms).prob.alpha (w s) f d v q.1 q.2).sum ≤
          (S.bdr.map fun q => faceBound J q.2.fem.toFace v).sum := by
        refine (neg_le_abs _).trans ?_
        change |((S.bdr.map fun q => (q.1, q.2.fem)).map fun q => (q.1, q.2.toFace)).map _ |>.sum| ≤ _
        rw [List.map_map, List.map_map]
        refine sum_abs_le _ _ _ fun q hq => ?_
        obtain ⟨o, g⟩ := q
        rw [hJ]
        cases o with
        | none => exact absurd rfl (r.mesh.bdr_cond _ hq)
        | some c => exact exterior_le r.mesh r.fine.weights (hw s) hn hq (r.outer _ hq c rfl s h0 hT) hα f d v
      rw [List.map_append, List.sum_append]
      linarith
    have e : 3 * ((1 + 4 * ρ * L) * (((6 * m1 + 2) * 3 ^ p * B * h ^ p) ^ 2 + 12 * ρ * J ^ 2 / h ^ 2) / m0 * volume S) =
        residConst L ρ m0 m1 ((1 + S.alpha) * (2 + Λ) - 1) p * volume S * (B * h ^ p) ^ 2 := by
      rw [hJ, ha]
      unfold residConst traceErr
      rw [mul_pow 3 h]
      field_simp
      ring
    rw [e] at key
    unfold Dgtd.TimeInt.Spec.size
    refine (Real.sqrt_le_sqrt key).trans (le_of_eq ?_)
    rw [Real.sqrt_mul' _ (sq_nonneg _), Real.sqrt_sq (by positivity)]
  · refine (hd s f d i).congr_deriv ?_
    ring

end Dgtd.Galerkin
