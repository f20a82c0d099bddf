/-
C177: modes of the discrete equations.
-/
import Verif.Spec.OpModes
import Verif.Props.Reverse
import Verif.Props.Frame

set_option linter.unusedSectionVars false

namespace Dgtd.Modes

open Op Op.Spec TimeInt TimeInt.Spec Implicit Dgtd.Frame Spec

/-! ### linear maps -/

section
variable {V : Type} [AddCommGroup V] [Module ℝ V] {B : V →ₗ[ℝ] V →ₗ[ℝ] ℝ} {L : V →ₗ[ℝ] V} {a b : ℝ} {x y : V}

lemma growth (hd : Diss B L) (hB : ∀ u, u ≠ 0 → 0 < B u u) (hx : L x = a • x - b • y) (hy : L y = b • x + a • y) (hne : x ≠ 0 ∨ y ≠ 0) : a ≤ 0 := by
  have h1 := hd.diss x
  have h2 := hd.diss y
  rw [hx, map_sub, map_smul, map_smul, smul_eq_mul, smul_eq_mul] at h1
  rw [hy, map_add, map_smul, map_smul, smul_eq_mul, smul_eq_mul, hd.symm y x] at h2
  have p1 := hd.nonneg x
  have p2 := hd.nonneg y
  have p : 0 < B x x + B y y := by
    rcases hne with h | h
    · linarith [hB x h]
    · linarith [hB y h]
  by_contra ha
  nlinarith

/-- No polynomial growth: a neutral mode has no generalized mode above it. -/
lemma pure_mode (hd : Diss B L) (hB : ∀ u, u ≠ 0 → 0 < B u u) (hx : L x = -(b • y)) (hy : L y = b • x) {p q : V} (hp : L p = x - b • q)
    (hq : L q = y + b • p) : x = 0 ∧ y = 0 := by
  have key : ∀ s : ℝ, s * (B x x + B y y) + s ^ 2 * (B x p + B y q) ≤ 0 := by
    intro s
    have h1 := hd.diss (x + s • p)
    have h2 := hd.diss (y + s • q)
    simp only [map_add, map_smul, hx, hp, hy, hq, map_sub, map_neg, LinearMap.add_apply, LinearMap.smul_apply, smul_eq_mul] at h1 h2
    have e1 := hd.symm p x
    have e2 := hd.symm q y
    have e3 := hd.symm p y
    have e4 := hd.symm q x
    have e5 := hd.symm x y
    have e6 := hd.symm p q
    rw [e1, e3, e6] at h1
    rw [e2, e4, ← e5] at h2
    nlinarith
  have p1 := hd.nonneg x
  have p2 := hd.nonneg y
  have z : B x x + B y y = 0 := by
    by_contra hne
    have hpos : 0 < B x x + B y y := lt_of_le_of_ne (by linarith) (Ne.symm hne)
    set c := B x p + B y q
    have k := key ((B x x + B y y) / (2 * (|c| + 1)))
    have hc : 0 < 2 * (|c| + 1) := by positivity
    set s := (B x x + B y y) / (2 * (|c| + 1)) with hs
    have spos : 0 < s := by positivity
    have hs' : s * (2 * (|c| + 1)) = B x x + B y y := by rw [hs]; field_simp
    have hcc : -|c| ≤ c := neg_abs_le c
    have : 0 < s * (B x x + B y y + s * c) := by
      refine mul_pos spos ?_
      have : -(s * |c|) ≤ s * c := by nlinarith
      nlinarith [abs_nonneg c]
    nlinarith
  constructor
  · by_contra h
    linarith [hB x h]
  · by_contra h
    linarith [hB y h]

lemma orthogonal (hs : ∀ u v, B u v = B v u) (hk : ∀ u v, B u (L v) = -B v (L u)) (hx : L x = -(b • y)) (hy : L y = b • x) {b' : ℝ} {x' y' : V}
    (hx' : L x' = -(b' • y')) (hy' : L y' = b' • x') (hb : b ≠ b') : B x x' + B y y' = 0 ∧ B x y' - B y x' = 0 := by
  have h1 := hk x x'
  have h2 := hk y y'
  have h3 := hk x y'
  have h4 := hk y x'
  simp only [hx, hy, hx', hy', map_neg, map_smul, smul_eq_mul] at h1 h2 h3 h4
  rw [hs x' y] at h1
  rw [hs y' x] at h2
  rw [hs y' y] at h3
  rw [hs x' x] at h4
  have hb' : b' - b ≠ 0 := sub_ne_zero.2 (Ne.symm hb)
  constructor
  · apply mul_left_cancel₀ hb'
    linear_combination h3 - h4
  · apply mul_left_cancel₀ hb'
    linear_combination -h1 - h2

end

variable {ι : Type} [Fintype ι] [DecidableEq ι]

lemma parts_ne {v : State ι ℂ} (h : v ≠ 0) : flat (rePart v) ≠ 0 ∨ flat (imPart v) ≠ 0 := by
  by_contra hc
  push Not at hc
  refine h ?_
  funext f d i
  exact Complex.ext (congrFun (congrFun (congrFun (congrArg unflat hc.1) f) d) i) (congrFun (congrFun (congrFun (congrArg unflat hc.2) f) d) i)

lemma rate_re (P : Prob ι ℝ) (v : State ι ℂ) : rePart (speed P v) = globalMult P (rePart v) := by
  funext f d i; simp [rePart, speed]

lemma rate_im (P : Prob ι ℝ) (v : State ι ℂ) : imPart (speed P v) = globalMult P (imPart v) := by
  funext f d i; simp [imPart, speed]

/-- The rate of both parts of a field whose rate is `l` times the field plus another field. -/
lemma parts_eq {P : Prob ι ℝ} {l : ℂ} {v w : State ι ℂ} (h : ∀ f d i, speed P v f d i = l * v f d i + w f d i) :
    globalMult P (rePart v) = l.re • rePart v - l.im • imPart v + rePart w ∧
    globalMult P (imPart v) = l.im • rePart v + l.re • imPart v + imPart w := by
  constructor
  · rw [← rate_re]
    funext f d i
    simp [rePart, imPart, h]
  · rw [← rate_im]
    funext f d i
    simp [rePart, imPart, h]
    ring

lemma mode_parts {P : Prob ι ℝ} {l : ℂ} {v : State ι ℂ} (h : Mode P l v) :
    globalMult P (rePart v) = l.re • rePart v - l.im • imPart v ∧ globalMult P (imPart v) = l.im • rePart v + l.re • imPart v := by
  have := parts_eq (w := 0) (l := l) (P := P) (v := v) fun f d i => by rw [h.eq]; simp
  have e1 : rePart (0 : State ι ℂ) = 0 := rfl
  have e2 : imPart (0 : State ι ℂ) = 0 := rfl
  rwa [e1, e2, add_zero, add_zero] at this

/-- **C177**: no mode grows. -/
theorem C177_growth (P : Prob ι ℝ) (M : FieldT → Matrix ι ι ℝ) (hP : Passive P M) (l : ℂ) (v : State ι ℂ) (h : Mode P l v) : l.re ≤ 0 := by
  obtain ⟨A, hA⟩ := exists_matrix P
  obtain ⟨h1, h2⟩ := mode_parts h
  refine growth (B := eform M) (L := A.mulVecLin) (x := flat (rePart v)) (y := flat (imPart v)) (b := l.im)
    (eform_diss hP.good hP.alpha hP.sig hP.pos hA) (eform_pos hP.pos) ?_ ?_ (parts_ne h.ne)
  · rw [Matrix.mulVecLin_apply, hA, h1]; rfl
  · rw [Matrix.mulVecLin_apply, hA, h2]; rfl

/-- **C177**: nor does a neutral mode grow like a power of the time: nothing has it as its rate relative to the mode's. -/
theorem C177_pure (P : Prob ι ℝ) (M : FieldT → Matrix ι ι ℝ) (hP : Passive P M) (l : ℂ) (hl : l.re = 0) (v : State ι ℂ) (h : Mode P l v)
    (w : State ι ℂ) : ∃ f d i, speed P w f d i ≠ l * w f d i + v f d i := by
  by_contra hc
  push Not at hc
  obtain ⟨A, hA⟩ := exists_matrix P
  obtain ⟨h1, h2⟩ := mode_parts h
  obtain ⟨h3, h4⟩ := parts_eq hc
  rw [hl] at h1 h2 h3 h4
  have := pure_mode (B := eform M) (L := A.mulVecLin) (x := flat (rePart v)) (y := flat (imPart v)) (b := l.im) (p := flat (rePart w))
    (q := flat (imPart w)) (eform_diss hP.good hP.alpha hP.sig hP.pos hA) (eform_pos hP.pos)
    (by rw [Matrix.mulVecLin_apply, hA, h1, zero_smul, zero_sub]; rfl)
    (by rw [Matrix.mulVecLin_apply, hA, h2, zero_smul, add_zero]; rfl)
    (by rw [Matrix.mulVecLin_apply, hA, h3, zero_smul, zero_sub, add_comm, ← sub_eq_add_neg]; rfl)
    (by rw [Matrix.mulVecLin_apply, hA, h4, zero_smul, add_zero, add_comm]; rfl)
  rcases parts_ne h.ne with k | k
  · exact k this.1
  · exact k this.2

lemma skew {P : Prob ι ℝ} {M : FieldT → Matrix ι ι ℝ} (h : Op.Spec.Good P M) (ha : P.alpha = 0) (hs : P.Msig = 0)
    (hsma : (∀ q ∈ P.bdr, q.1 ≠ some .SMA) ∧ ∀ q ∈ P.interior, q.1 ≠ some .SMA) {A : Matrix (Slot ι) (Slot ι) ℝ}
    (hA : ∀ u : State ι ℝ, A.mulVec (flat u) = flat (globalMult P u)) (x y : Slot ι → ℝ) :
    eform M x (A.mulVecLin y) = -eform M y (A.mulVecLin x) := by
  have z : ∀ x, eform M x (A.mulVecLin x) = 0 := by
    intro x
    rw [eform_apply, Matrix.mulVecLin_apply, ← flat_unflat x, hA]
    exact mul_eq_zero_of_right _ (C02_centred_conserves P M h ha hs hsma (unflat x))
  have := z (x + y)
  simp only [map_add, LinearMap.add_apply, z x, z y] at this
  linarith

/-- **C177**: without upwinding, conductivity or absorbing boundaries every mode is neutral, the mode played backwards has the opposite frequency,
and so has the complex conjugate. -/
theorem C177_neutral (P : Prob ι ℝ) (M : FieldT → Matrix ι ι ℝ) (hP : Passive P M) (ha : P.alpha = 0) (hs : P.Msig = 0)
    (hsma : (∀ q ∈ P.bdr, q.1 ≠ some .SMA) ∧ ∀ q ∈ P.interior, q.1 ≠ some .SMA) (l : ℂ) (v : State ι ℂ) (h : Mode P l v) :
    l.re = 0 ∧ Mode P (-l) (turned v) ∧ Mode P (-l) (conjugate v) := by
  have back : Mode P (-l) (turned v) := by
    refine ⟨fun h0 => h.ne ?_, ?_⟩
    · funext f d i
      have := congrFun (congrFun (congrFun h0 f) d) i
      cases f
      · exact this
      · exact neg_eq_zero.1 this
    · have e1 : rePart (turned v) = reversed (rePart v) := by
        funext f d i; cases f <;> simp [rePart, turned, reversed]
      have e2 : imPart (turned v) = reversed (imPart v) := by
        funext f d i; cases f <;> simp [imPart, turned, reversed]
      intro f d i
      have k := h.eq f d i
      unfold speed at k ⊢
      rw [e1, e2, Reverse.C170_operator P M hP.good ha hs hsma, Reverse.C170_operator P M hP.good ha hs hsma]
      cases f
      · simp only [Pi.neg_apply, reversed, turned, Complex.ofReal_neg]
        linear_combination -k
      · simp only [Pi.neg_apply, reversed, turned, Complex.ofReal_neg]
        linear_combination k
  have hl : l.re = 0 := by
    have h1 := C177_growth P M hP l v h
    have h2 := C177_growth P M hP (-l) _ back
    rw [Complex.neg_re] at h2
    linarith
  refine ⟨hl, back, ⟨fun h0 => h.ne ?_, ?_⟩⟩
  · funext f d i
    have := congrFun (congrFun (congrFun h0 f) d) i
    simpa [conjugate] using this
  · have e1 : rePart (conjugate v) = rePart v := by
      funext f d i; simp [rePart, conjugate]
    have e2 : imPart (conjugate v) = (-1 : ℝ) • imPart v := by
      funext f d i; simp [imPart, conjugate]
    obtain ⟨h1, h2⟩ := mode_parts h
    have h3 : globalMult P ((-1 : ℝ) • imPart v) = (-1 : ℝ) • globalMult P (imPart v) := by
      have := globalMult_comb P (-1 : ℝ) 0 (imPart v) 0
      simpa using this
    intro f d i
    unfold speed
    rw [e1, e2, h3, h1, h2]
    apply Complex.ext <;> simp [conjugate, rePart, imPart, hl]

lemma product_eq (M : FieldT → Matrix ι ι ℝ) (v w : State ι ℂ) : product M v w =
    ⟨energyRate M (rePart v) (rePart w) + energyRate M (imPart v) (imPart w), energyRate M (rePart v) (imPart w) - energyRate M (imPart v) (rePart w)⟩ := by
  apply Complex.ext
  · simp only [product, Complex.re_sum, energyRate, dotProduct, Matrix.mulVec, Finset.mul_sum, ← Finset.sum_add_distrib]
    refine Finset.sum_congr rfl fun d _ => Finset.sum_congr rfl fun i _ => Finset.sum_congr rfl fun j _ => ?_
    simp [rePart, imPart]
    ring
  · simp only [product, Complex.im_sum, energyRate, dotProduct, Matrix.mulVec, Finset.mul_sum, ← Finset.sum_add_distrib, ← Finset.sum_sub_distrib]
    refine Finset.sum_congr rfl fun d _ => Finset.sum_congr rfl fun i _ => Finset.sum_congr rfl fun j _ => ?_
    simp [rePart, imPart]
    ring

/-- **C177**: and modes of different frequencies are orthogonal: their energies add up. -/
theorem C177_orthogonal (P : Prob ι ℝ) (M : FieldT → Matrix ι ι ℝ) (hP : Passive P M) (ha : P.alpha = 0) (hs : P.Msig = 0)
    (hsma : (∀ q ∈ P.bdr, q.1 ≠ some .SMA) ∧ ∀ q ∈ P.interior, q.1 ≠ some .SMA) (l l' : ℂ) (hne : l ≠ l') (v v' : State ι ℂ) (h : Mode P l v)
    (h' : Mode P l' v') : product M v v' = 0 := by
  obtain ⟨A, hA⟩ := exists_matrix P
  have z := (C177_neutral P M hP ha hs hsma l v h).1
  have z' := (C177_neutral P M hP ha hs hsma l' v' h').1
  obtain ⟨h1, h2⟩ := mode_parts h
  obtain ⟨h3, h4⟩ := mode_parts h'
  rw [z] at h1 h2
  rw [z'] at h3 h4
  have := orthogonal (B := eform M) (L := A.mulVecLin) (x := flat (rePart v)) (y := flat (imPart v)) (b := l.im) (x' := flat (rePart v'))
    (y' := flat (imPart v')) (b' := l'.im) (eform_symm hP.good.symm) (skew hP.good ha hs hsma hA)
    (by rw [Matrix.mulVecLin_apply, hA, h1, zero_smul, zero_sub]; rfl)
    (by rw [Matrix.mulVecLin_apply, hA, h2, zero_smul, add_zero]; rfl)
    (by rw [Matrix.mulVecLin_apply, hA, h3, zero_smul, zero_sub]; rfl)
    (by rw [Matrix.mulVecLin_apply, hA, h4, zero_smul, add_zero]; rfl)
    (fun e => hne (Complex.ext (z.trans z'.symm) e))
  simp only [eform_apply] at this
  rw [product_eq]
  apply Complex.ext
  · change energyRate M (rePart v) (rePart v') + energyRate M (imPart v) (imPart v') = 0
    have := this.1
    change 1 / 2 * energyRate M (rePart v) (rePart v') + 1 / 2 * energyRate M (imPart v) (imPart v') = 0 at this
    linarith
  · change energyRate M (rePart v) (imPart v') - energyRate M (imPart v) (rePart v') = 0
    have := this.2
    change 1 / 2 * energyRate M (rePart v) (imPart v') - 1 / 2 * energyRate M (imPart v) (rePart v') = 0 at this
    linarith

/-- **C177**: modes are what is meant: the real part of `exp (l t) v` solves the discrete equations. -/
theorem C177_solution (P : Prob ι ℝ) (l : ℂ) (v : State ι ℂ) (h : Mode P l v) (t : ℝ) (f : FieldT) (d : Dir) (i : ι) :
    HasDerivAt (fun s : ℝ => (Complex.exp (l * s) * v f d i).re)
      (globalMult P (rePart fun f d i => Complex.exp (l * t) * v f d i) f d i) t := by
  have hr : globalMult P (rePart fun f d i => Complex.exp (l * t) * v f d i) f d i = (Complex.exp (l * t) * (l * v f d i)).re := by
    have e : (rePart fun f d i => Complex.exp (l * t) * v f d i) = (Complex.exp (l * t)).re • rePart v + (-(Complex.exp (l * t)).im) • imPart v := by
      funext f d i
      simp [rePart, imPart]
      ring
    rw [e, globalMult_comb, ← h.eq]
    simp [speed]
    ring
  rw [hr]
  have h1 : HasDerivAt (fun s : ℝ => l * (s : ℂ)) l t := by
    simpa using (Complex.ofRealCLM.hasDerivAt (x := t)).const_mul l
  have h2 := (h1.cexp.mul_const (v f d i))
  have h3 := Complex.reCLM.hasFDerivAt.comp_hasDerivAt t h2
  have e : Complex.reCLM (Complex.exp (l * t) * l * v f d i) = (Complex.exp (l * t) * (l * v f d i)).re := by
    rw [mul_assoc]; rfl
  rw [← e]
  exact h3

/-- **C177**: and they are the eigenvectors of the matrix of the operator. -/
theorem C177_matrix (P : Prob ι ℝ) (A : Matrix (Slot ι) (Slot ι) ℝ) (hA : ∀ u : State ι ℝ, A.mulVec (flat u) = flat (globalMult P u)) (l : ℂ)
    (v : State ι ℂ) : Mode P l v ↔ v ≠ 0 ∧ (A.map Complex.ofReal).mulVec (flat v) = l • flat v := by
  have key : (A.map Complex.ofReal).mulVec (flat v) = flat (speed P v) := by
    have h1 := hA (rePart v)
    have h2 := hA (imPart v)
    funext s
    have e1 := congrFun h1 s
    have e2 := congrFun h2 s
    apply Complex.ext
    · have : (flat (speed P v) s).re = flat (globalMult P (rePart v)) s := by
        rw [← rate_re]; rfl
      rw [this, ← e1]
      simp only [Matrix.mulVec, dotProduct, Complex.re_sum]
      refine Finset.sum_congr rfl fun j _ => ?_
      simp [flat, rePart]
    · have : (flat (speed P v) s).im = flat (globalMult P (imPart v)) s := by
        rw [← rate_im]; rfl
      rw [this, ← e2]
      simp only [Matrix.mulVec, dotProduct, Complex.im_sum]
      refine Finset.sum_congr rfl fun j _ => ?_
      simp [flat, imPart]
  rw [key]
  constructor
  · intro h
    refine ⟨h.ne, ?_⟩
    funext s
    exact h.eq _ _ _
  · rintro ⟨h0, h⟩
    refine ⟨h0, fun f d i => ?_⟩
    exact congrFun (congrFun (congrFun (congrArg unflat h) f) d) i

/-! ### modes of the line -/

section line

/-- Fields along the second and the third axis. -/
def lineState {K : Type} [Zero K] (e h : Fin 4 → K) : State (Fin 4) K
  | .E => fun d => if d = 1 then e else 0
  | .H => fun d => if d = 2 then h else 0

lemma line_rate (e h : Fin 4 → ℝ) :
    globalMult (line ℝ 0 none .PEC .PEC) (lineState e h) =
      lineState ![h 0 - 2 * h 1 + h 2, h 0 + h 1 - 2 * h 2, 2 * h 1 - h 2 - h 3, -h 1 + 2 * h 2 - h 3]
        ![-3 * e 0 - 2 * e 1 + e 2, 3 * e 0 + e 1 - 2 * e 2, 2 * e 1 - e 2 - 3 * e 3, -e 1 + 2 * e 2 + 3 * e 3] := by
  funext f d r
  rw [global_weak _ fun f hf p hp => (line_size (K := ℝ) 0 none .PEC .PEC f hf p hp).size]
  cases f <;> fin_cases d <;> simp [weak, curlTerm, plainFaces, bdrFaces, intBdrFaces, line, lossTerm, plainTerm, plainPt, crossT, pen,
    fluxCoeff, penaltyCoeff, bdrCoeff, FieldT.idx, altField, sgn, lineState, lineInt, lineL, lineR, linePt, tr1, tr2, normalTerm, form, derivativeSub,
    Fin.sum_univ_four, lineD, lineMinv, Finset.sum_range_succ, Pi.single_apply, Matrix.mulVec, dotProduct] <;>
    fin_cases r <;> simp <;> ring

lemma line_mode (e h : Fin 4 → ℂ) (l : ℂ) (he : e 0 ≠ 0)
    (h1 : ![h 0 - 2 * h 1 + h 2, h 0 + h 1 - 2 * h 2, 2 * h 1 - h 2 - h 3, -h 1 + 2 * h 2 - h 3] = fun i => l * e i)
    (h2 : ![-3 * e 0 - 2 * e 1 + e 2, 3 * e 0 + e 1 - 2 * e 2, 2 * e 1 - e 2 - 3 * e 3, -e 1 + 2 * e 2 + 3 * e 3] = fun i => l * h i) :
    Mode (line ℝ 0 none .PEC .PEC) l (lineState e h) := by
  refine ⟨fun h0 => he ?_, fun f d i => ?_⟩
  · simpa [lineState] using congrFun (congrFun (congrFun h0 .E) 1) 0
  have er : rePart (lineState e h) = lineState (fun i => (e i).re) (fun i => (h i).re) := by
    funext f d i
    cases f <;> simp only [rePart, lineState] <;> split <;> simp
  have ei : imPart (lineState e h) = lineState (fun i => (e i).im) (fun i => (h i).im) := by
    funext f d i
    cases f <;> simp only [imPart, lineState] <;> split <;> simp
  unfold speed
  rw [er, ei, line_rate, line_rate]
  cases f <;> fin_cases d <;> simp only [lineState] <;> simp
  · rw [← congrFun h1 i]
    fin_cases i <;> apply Complex.ext <;> simp
  · rw [← congrFun h2 i]
    fin_cases i <;> apply Complex.ext <;> simp

/-- A standing wave of the line between two perfect conductors. -/
noncomputable def wave : State (Fin 4) ℂ :=
  lineState ![1, 1, -1, -1] ![Real.sqrt 3 * Complex.I, -(Real.sqrt 3 * Complex.I), -(Real.sqrt 3 * Complex.I), Real.sqrt 3 * Complex.I]

/-- A field of it that stands still. -/
def still : State (Fin 4) ℂ := lineState ![1, -1, 1, -1] 0

lemma wave_mode : Mode (line ℝ 0 none .PEC .PEC) (2 * Real.sqrt 3 * Complex.I) wave := by
  have hs : ((Real.sqrt 3 : ℝ) : ℂ) * Complex.I * (((Real.sqrt 3 : ℝ) : ℂ) * Complex.I) = -3 := by
    have : ((Real.sqrt 3 : ℝ) : ℂ) * ((Real.sqrt 3 : ℝ) : ℂ) = 3 := by
      rw [← Complex.ofReal_mul, Real.mul_self_sqrt (by norm_num)]
      norm_num
    linear_combination (Complex.I * Complex.I) * this + 3 * Complex.I_mul_I
  refine line_mode _ _ _ (by simp) ?_ ?_
  · funext i
    fin_cases i <;> simp <;> ring
  · funext i
    fin_cases i <;> simp <;> first | linear_combination (2 : ℂ) * hs | linear_combination (-2 : ℂ) * hs

lemma still_mode : Mode (line ℝ 0 none .PEC .PEC) 0 still := by
  refine line_mode _ _ _ (by simp) ?_ ?_
  · funext i
    fin_cases i <;> simp
  · funext i
    fin_cases i <;> simp <;> norm_num

example : (2 * (Real.sqrt 3 : ℂ) * Complex.I).re = 0 ∧ Mode (line ℝ 0 none .PEC .PEC) (-(2 * Real.sqrt 3 * Complex.I)) (turned wave) ∧
    product (fun _ => lineMass ℝ) wave still = 0 ∧
    ∀ w : State (Fin 4) ℂ, ∃ f d i, speed (line ℝ 0 none .PEC .PEC) w f d i ≠ 0 * w f d i + still f d i := by
  have hp := line_passive (0 : ℝ) le_rfl none (by simp) .PEC .PEC
  have hs : (∀ q ∈ (line ℝ 0 none .PEC .PEC).bdr, q.1 ≠ some .SMA) ∧ ∀ q ∈ (line ℝ 0 none .PEC .PEC).interior, q.1 ≠ some .SMA := by
    simp [line]
  have h := C177_neutral _ _ hp rfl rfl hs _ _ wave_mode
  refine ⟨h.1, h.2.1, C177_orthogonal _ _ hp rfl rfl hs _ _ ?_ _ _ wave_mode still_mode, C177_pure _ _ hp _ rfl _ still_mode⟩
  simp [Complex.ext_iff]

end line
end Dgtd.Modes
