/-
Lemmas about the radar-cross-section model.
-/
import Verif.Spec.Rcs
import Mathlib.Algebra.BigOperators.Ring.List
import Mathlib.Data.List.Range

set_option linter.unusedSectionVars false
set_option linter.unusedSimpArgs false

namespace Dgtd.Rcs

open Spec

noncomputable section

/-! ### sums -/

lemma foldl_sum {A M : Type} [AddCommMonoid M] (g : A → M) (l : List A) (z : M) :
    l.foldl (fun acc x => acc + g x) z = z + (l.map g).sum := by
  induction l generalizing z with
  | nil => simp
  | cons x l ih => simp [ih, add_assoc]

lemma sum_swap {A B M : Type} [AddCommMonoid M] (g : A → B → M) (l : List A) (m : List B) :
    (l.map fun x => (m.map (g x)).sum).sum = (m.map fun y => (l.map fun x => g x y).sum).sum := by
  induction l with
  | nil => simp
  | cons x l ih => simp [ih, List.sum_map_add]

lemma sum_mul_l {A : Type} (c : ℂ) (g : A → ℂ) (l : List A) : (l.map fun x => c * g x).sum = c * (l.map g).sum := by
  induction l with
  | nil => simp
  | cons x l ih => simp [ih, mul_add]

lemma sum_mul_r {A : Type} (c : ℂ) (g : A → ℂ) (l : List A) : (l.map fun x => g x * c).sum = (l.map g).sum * c := by
  induction l with
  | nil => simp
  | cons x l ih => simp [ih, add_mul]

lemma ofReal_sum {A : Type} (g : A → ℝ) (l : List A) : (((l.map g).sum : ℝ) : ℂ) = (l.map fun x => ((g x : ℝ) : ℂ)).sum := by
  induction l with
  | nil => simp
  | cons x l ih => simp [ih]

lemma sum_apply {A I : Type} (g : A → I → ℂ) (l : List A) (i : I) : (l.map g).sum i = (l.map fun x => g x i).sum := by
  induction l with
  | nil => simp
  | cons x l ih => simp [ih]

lemma sum_flatMap' {A : Type} (g : A → List ℂ) (l : List A) : (l.flatMap g).sum = (l.map fun x => (g x).sum).sum := by
  induction l with
  | nil => simp
  | cons x l ih => simp [ih]

/-- A sum over all degrees of freedom with a selector picks one. -/
lemma sum_select (n d : Nat) (x : ℂ) (F : Nat → ℂ) (h : d < n) :
    ((List.range n).map fun v => (if d = v then x else 0) * F v).sum = x * F d := by
  induction n with
  | zero => omega
  | succ n ih =>
    rw [List.range_succ, List.map_append, List.sum_append]
    by_cases hd : d = n
    · subst hd
      have : ((List.range d).map fun v => (if d = v then x else 0) * F v).sum = 0 := by
        apply List.sum_eq_zero
        intro y hy
        obtain ⟨v, hv, rfl⟩ := List.mem_map.1 hy
        have := List.mem_range.1 hv
        rw [if_neg (by omega)]
        ring
      rw [this]
      simp
    · rw [ih (by omega)]
      simp [hd]

/-! ### transform -/

lemma kernel_exp (f t : ℝ) : kernel f t = Complex.exp (-(2 * Real.pi * f * t : ℝ) * Complex.I) := by
  have : -((2 * Real.pi * f * t : ℝ) : ℂ) * Complex.I = ((-(2 * Real.pi * f * t) : ℝ) : ℂ) * Complex.I := by push_cast; ring
  rw [this, Complex.exp_mul_I, ← Complex.ofReal_cos, ← Complex.ofReal_sin]
  unfold kernel
  simp only
  generalize 2 * Real.pi * f * t = x
  rw [Real.cos_neg, Real.sin_neg]
  apply Complex.ext
  · rw [Complex.add_re, Complex.re_ofReal_mul, Complex.I_re, Complex.ofReal_re]; ring
  · rw [Complex.add_im, Complex.im_ofReal_mul, Complex.I_im, Complex.ofReal_im]; ring

lemma dft_eq (snaps : List Snapshot) (h : snaps ≠ []) (f : ℝ) (c : Fin 6) (v : Nat) :
    dft snaps f c v = some (transform f (snaps.map fun s => (s.time, s.f c v))) := by
  have hl : snaps.length ≠ 0 := by simpa using h
  unfold dft transform
  rw [if_neg hl, foldl_sum]
  simp only [zero_add, List.map_map, List.length_map, Option.some.injEq, c0, div_one, Function.comp_def]
  rw [div_eq_mul_inv]
  congr 1
  · congr 1
    apply List.map_congr_left
    intro s _
    rw [kernel_exp, mul_comm]
  · push_cast
    ring

/-- Interpolating spectra is the transform of the interpolated series. -/
lemma interp_transform (snaps : List Snapshot) (f : ℝ) (c : Fin 6) (n : Nat) (sh : Nat → ℝ) (dofs : Nat → Nat) :
    ((List.range n).map fun i => (sh i : ℂ) * transform f (snaps.map fun s => (s.time, s.f c (dofs i)))).sum =
      transform f (snaps.map fun s => (s.time, ((List.range n).map fun i => sh i * s.f c (dofs i)).sum)) := by
  unfold transform
  simp only [List.map_map, List.length_map, Function.comp_def]
  simp only [ofReal_sum, ← mul_div_assoc, ← sum_mul_l]
  simp only [div_eq_mul_inv, sum_mul_r]
  congr 1
  rw [sum_swap]
  congr 1
  apply List.map_congr_left
  intro s _
  congr 1
  apply List.map_congr_left
  intro i _
  push_cast
  ring

/-! ### phase -/

lemma sq_trig (a : Angles) :
    Real.sin a.theta * Real.cos a.phi * (Real.sin a.theta * Real.cos a.phi) +
      Real.sin a.theta * Real.sin a.phi * (Real.sin a.theta * Real.sin a.phi) + Real.cos a.theta * Real.cos a.theta = 1 := by
  have h1 := Real.sin_sq_add_cos_sq a.theta
  have h2 := Real.sin_sq_add_cos_sq a.phi
  linear_combination h1 + Real.sin a.theta ^ 2 * h2

lemma norm_obs (a : Angles) : norm3 (obsPoint a) = 1000000 := by
  have : norm3 (obsPoint a) = Real.sqrt (1000000 ^ 2) := by
    unfold norm3 obsPoint
    congr 1
    simp only [Matrix.cons_val_zero, Matrix.cons_val_one, Matrix.cons_val]
    linear_combination 1000000 ^ 2 * sq_trig a
  rw [this, Real.sqrt_sq (by norm_num)]

lemma norm3_pos {p : Fin 3 → ℝ} (h : p ≠ 0) : 0 < norm3 p := by
  apply Real.sqrt_pos.2
  by_contra hc
  have h0 : p 0 = 0 := by nlinarith [mul_self_nonneg (p 0), mul_self_nonneg (p 1), mul_self_nonneg (p 2)]
  have h1 : p 1 = 0 := by nlinarith [mul_self_nonneg (p 0), mul_self_nonneg (p 1), mul_self_nonneg (p 2)]
  have h2 : p 2 = 0 := by nlinarith [mul_self_nonneg (p 0), mul_self_nonneg (p 1), mul_self_nonneg (p 2)]
  apply h
  funext i
  fin_cases i <;> assumption

lemma norm3_zero : norm3 0 = 0 := by simp [norm3]

lemma normPos_eq (is3D : Bool) (p : Fin 3 → ℝ) : normPos is3D p = norm3 (surfVec is3D p) := by
  cases is3D <;> simp [normPos, surfVec, norm3]

/-- Cauchy–Schwarz for the direction. -/
lemma proj_le (s : Fin 3 → ℝ) (a : Angles) : |dot s (direction a)| ≤ norm3 s := by
  apply Real.abs_le_sqrt
  have h := sq_trig a
  simp only [dot, direction, Matrix.cons_val_zero, Matrix.cons_val_one, Matrix.cons_val]
  set x := Real.sin a.theta * Real.cos a.phi
  set y := Real.sin a.theta * Real.sin a.phi
  set z := Real.cos a.theta
  have key : (s 0 * s 0 + s 1 * s 1 + s 2 * s 2) * (x * x + y * y + z * z) - (s 0 * x + s 1 * y + s 2 * z) ^ 2 =
      (s 0 * y - s 1 * x) ^ 2 + (s 1 * z - s 2 * y) ^ 2 + (s 2 * x - s 0 * z) ^ 2 := by ring
  rw [h] at key
  nlinarith [sq_nonneg (s 0 * y - s 1 * x), sq_nonneg (s 1 * z - s 2 * y), sq_nonneg (s 2 * x - s 0 * z)]

/-- The angle gives the cosine of the projection. -/
lemma psi_eq (is3D : Bool) (p : Fin 3 → ℝ) (a : Angles) (h : surfVec is3D p ≠ 0) :
    psi is3D p a = some (Real.arccos (dot (surfVec is3D p) (direction a) / norm3 (surfVec is3D p))) := by
  have hp := norm3_pos h
  unfold psi
  simp only [norm_obs]
  rw [if_neg (by positivity)]
  congr 2
  rw [div_eq_div_iff (by positivity) (by positivity)]
  simp only [obsPoint, dot, direction, Matrix.cons_val_zero, Matrix.cons_val_one, Matrix.cons_val]
  ring

lemma psi_none (is3D : Bool) (p : Fin 3 → ℝ) (a : Angles) (h : surfVec is3D p = 0) : psi is3D p a = none := by
  unfold psi
  simp [h, norm3_zero]

lemma radTerm_eq (is3D : Bool) (f : ℝ) (p : Fin 3 → ℝ) (a : Angles) (h : surfVec is3D p ≠ 0) :
    radTerm is3D f p a = some (2 * Real.pi * f * dot (surfVec is3D p) (direction a)) := by
  have hp := norm3_pos h
  have hle := abs_le.1 (proj_le (surfVec is3D p) a)
  unfold radTerm
  simp only [psi_eq is3D p a h, Option.map_some, normPos_eq, Option.some.injEq]
  rw [Real.cos_arccos (by rw [le_div_iff₀ hp]; linarith) (by rw [div_le_iff₀ hp]; linarith)]
  simp only [c0]
  rw [one_div, div_inv_eq_mul]
  field_simp

lemma radTerm_none (is3D : Bool) (f : ℝ) (p : Fin 3 → ℝ) (a : Angles) (h : surfVec is3D p = 0) :
    radTerm is3D f p a = none := by
  unfold radTerm
  simp [psi_none is3D p a h]

/-- What is left to compute once the phase is known. -/
def ph (is3D : Bool) (f : ℝ) (a : Angles) (q : Pt) : ℝ := 2 * Real.pi * f * dot (surfVec is3D q.pos) (direction a)

/-! ### surface integrals -/

lemma foldlM_map_some {A B : Type} (g : A → Option (B → B)) (g' : A → B → B) (l : List A) (z : B)
    (h : ∀ x ∈ l, g x = some (g' x)) :
    l.foldlM (fun b x => (g x).map fun k => k b) z = some (l.foldl (fun b x => g' x b) z) := by
  induction l generalizing z with
  | nil => rfl
  | cons x l ih =>
    rw [List.foldlM_cons, h x (by simp)]
    exact ih _ (fun y hy => h y (List.mem_cons_of_mem _ hy))

lemma elVect_eq (is3D : Bool) (dim : Nat) (trig : ℝ → ℝ) (f : ℝ) (a : Angles) (dir : Fin 3) (pts : List Pt)
    (h : ∀ q ∈ pts, surfVec is3D q.pos ≠ 0) :
    elVect is3D dim trig f a dir pts = some fun i =>
      (pts.map fun q => q.w * trig (ph is3D f a q) * (if dir.val < dim then -q.ortho dir else 0) * q.shape i).sum := by
  unfold elVect
  have gen : ∀ (pts : List Pt) (v : Nat → ℝ), (∀ q ∈ pts, surfVec is3D q.pos ≠ 0) →
      pts.foldlM (fun (v : Nat → ℝ) (q : Pt) => (radTerm is3D f q.pos a).map fun r => fun i =>
        v i + q.w * trig r * (if dir.val < dim then -q.ortho dir else 0) * q.shape i) v = some fun i => v i +
        (pts.map fun q => q.w * trig (ph is3D f a q) * (if dir.val < dim then -q.ortho dir else 0) * q.shape i).sum := by
    intro pts
    induction pts with
    | nil => intro v _; simp
    | cons q pts ih =>
      intro v hq
      rw [List.foldlM_cons, radTerm_eq is3D f q.pos a (hq q (by simp))]
      simp only [Option.map_some, Option.bind_eq_bind, Option.bind_some]
      rw [ih _ (fun y hy => hq y (List.mem_cons_of_mem _ hy))]
      simp only [Option.some.injEq, List.map_cons, List.sum_cons, ph]
      funext i
      ring
  rw [gen pts _ h]
  simp

lemma scatter_eq (f : Face) (ev lf : Nat → ℝ) (v : Nat) :
    scatter f ev lf v = lf v + ((List.range f.ndof).map fun i => if f.dofs i = v then ev i else 0).sum := by
  unfold scatter
  generalize List.range f.ndof = l
  induction l generalizing lf with
  | nil => simp
  | cons i l ih =>
    rw [List.foldl_cons, ih]
    by_cases h : f.dofs i = v
    · subst h; simp; ring
    · simp [h, Function.update_of_ne (Ne.symm h)]

/-- The form assembled for a direction. -/
def formVal (is3D : Bool) (trig : ℝ → ℝ) (f : ℝ) (a : Angles) (dir : Fin 3) (faces : List Face) (v : Nat) : ℝ :=
  (faces.map fun F => ((List.range F.ndof).map fun i => if F.dofs i = v then
    (F.pts.map fun q => q.w * trig (ph is3D f a q) * (if is3D = false ∧ dir = 2 then 0 else -q.ortho dir) * q.shape i).sum
    else 0).sum).sum

lemma linearForm_raw (is3D : Bool) (trig : ℝ → ℝ) (f : ℝ) (a : Angles) (dim : Nat) (dir : Fin 3) (faces : List Face)
    (h : ∀ F ∈ faces, ∀ q ∈ F.pts, surfVec is3D q.pos ≠ 0) :
    faces.foldlM (fun (lf : Nat → ℝ) (F : Face) =>
      (elVect is3D dim trig f a dir F.pts).map fun ev => scatter F ev lf) (fun _ => 0) =
    some fun v => (faces.map fun F => ((List.range F.ndof).map fun i => if F.dofs i = v then
      (F.pts.map fun q => q.w * trig (ph is3D f a q) * (if dir.val < dim then -q.ortho dir else 0) * q.shape i).sum
      else 0).sum).sum := by
  have gen : ∀ (faces : List Face) (lf : Nat → ℝ), (∀ F ∈ faces, ∀ q ∈ F.pts, surfVec is3D q.pos ≠ 0) →
      faces.foldlM (fun (lf : Nat → ℝ) (F : Face) =>
        (elVect is3D dim trig f a dir F.pts).map fun ev => scatter F ev lf) lf =
      some fun v => lf v + (faces.map fun F => ((List.range F.ndof).map fun i => if F.dofs i = v then
        (F.pts.map fun q => q.w * trig (ph is3D f a q) * (if dir.val < dim then -q.ortho dir else 0) * q.shape i).sum
        else 0).sum).sum := by
    intro faces
    induction faces with
    | nil => intro lf _; simp
    | cons F faces ih =>
      intro lf hF
      rw [List.foldlM_cons, elVect_eq is3D dim trig f a dir F.pts (hF F (by simp))]
      simp only [Option.map_some, Option.bind_eq_bind, Option.bind_some]
      rw [ih _ (fun y hy => hF y (List.mem_cons_of_mem _ hy))]
      simp only [Option.some.injEq, List.map_cons, List.sum_cons]
      funext v
      rw [scatter_eq, add_assoc]
  rw [gen faces _ h]
  simp

lemma linearForm_eq (is3D : Bool) (trig : ℝ → ℝ) (f : ℝ) (a : Angles) (dir : Fin 3) (faces : List Face)
    (h : ∀ F ∈ faces, ∀ q ∈ F.pts, surfVec is3D q.pos ≠ 0) :
    linearForm is3D trig f a dir faces = some (formVal is3D trig f a dir faces) := by
  unfold linearForm
  simp only [linearForm_raw is3D trig f a _ _ faces h, Option.map_some, Option.some.injEq]
  funext v
  unfold formVal
  cases is3D with
  | true =>
    have : ∀ d : Fin 3, d.val < 3 := fun d => d.isLt
    simp [this]
  | false =>
    by_cases hd : dir = 2
    · subst hd
      simp
    · have : dir.val < 2 := by
        have := dir.isLt
        have : dir.val ≠ 2 := fun hc => hd (Fin.ext hc)
        omega
      simp [hd, this]

lemma pairing_eq (n : Nat) (lfR lfI : Nat → ℝ) (F : Nat → ℂ) :
    pairing n lfR lfI F = ((List.range n).map fun v => ((lfR v : ℂ) + (lfI v : ℂ) * Complex.I) * F v).sum := by
  unfold pairing
  have gen : ∀ (l : List Nat) (s : ℝ × ℝ),
      (⟨(l.foldl (fun (s : ℝ × ℝ) v => (s.1 + (lfR v * (F v).re - lfI v * (F v).im),
        s.2 + (lfR v * (F v).im + lfI v * (F v).re))) s).1,
        (l.foldl (fun (s : ℝ × ℝ) v => (s.1 + (lfR v * (F v).re - lfI v * (F v).im),
        s.2 + (lfR v * (F v).im + lfI v * (F v).re))) s).2⟩ : ℂ) =
      ⟨s.1, s.2⟩ + (l.map fun v => ((lfR v : ℂ) + (lfI v : ℂ) * Complex.I) * F v).sum := by
    intro l
    induction l with
    | nil => intro s; simp
    | cons v l ih =>
      intro s
      have hs : (⟨s.1 + (lfR v * (F v).re - lfI v * (F v).im), s.2 + (lfR v * (F v).im + lfI v * (F v).re)⟩ : ℂ) =
          ⟨s.1, s.2⟩ + ((lfR v : ℂ) + (lfI v : ℂ) * Complex.I) * F v := by
        apply Complex.ext <;> simp
      rw [List.foldl_cons, ih, List.map_cons, List.sum_cons]
      simp only
      rw [hs]
      ring
  have := gen (List.range n) (0, 0)
  rw [this]
  have : (⟨0, 0⟩ : ℂ) = 0 := rfl
  rw [this, zero_add]

/-- The complex integral of a direction and a component is the sum over samples. -/
lemma pairing_form (is3D : Bool) (f : ℝ) (a : Angles) (dir : Fin 3) (R : Rank) (hwf : WF R) (F : Nat → ℂ) :
    pairing R.nDofs (formVal is3D Real.cos f a dir R.faces) (formVal is3D Real.sin f a dir R.faces) F =
    (R.faces.map fun G => (G.pts.map fun q => Complex.exp ((ph is3D f a q : ℝ) * Complex.I) *
      ((q.w * (if is3D = false ∧ dir = 2 then 0 else -q.ortho dir) : ℝ) : ℂ) *
      ((List.range G.ndof).map fun i => (q.shape i : ℂ) * F (G.dofs i)).sum).sum).sum := by
  rw [pairing_eq]
  have hv : ∀ v, ((formVal is3D Real.cos f a dir R.faces v : ℂ) + (formVal is3D Real.sin f a dir R.faces v : ℂ) * Complex.I) =
      (R.faces.map fun G => ((List.range G.ndof).map fun i => if G.dofs i = v then
        (G.pts.map fun q => Complex.exp ((ph is3D f a q : ℝ) * Complex.I) *
          ((q.w * (if is3D = false ∧ dir = 2 then 0 else -q.ortho dir) : ℝ) : ℂ) * (q.shape i : ℂ)).sum else 0).sum).sum := by
    intro v
    unfold formVal
    rw [ofReal_sum, ofReal_sum, ← sum_mul_r, ← List.sum_map_add]
    congr 1
    apply List.map_congr_left
    intro G _
    rw [ofReal_sum, ofReal_sum, ← sum_mul_r, ← List.sum_map_add]
    congr 1
    apply List.map_congr_left
    intro i _
    by_cases hc : G.dofs i = v
    · rw [if_pos hc, if_pos hc, if_pos hc, ofReal_sum, ofReal_sum, ← sum_mul_r, ← List.sum_map_add]
      congr 1
      apply List.map_congr_left
      intro q _
      rw [Complex.exp_mul_I, ← Complex.ofReal_cos, ← Complex.ofReal_sin]
      push_cast
      ring
    · simp [hc]
  simp only [hv, ← sum_mul_r]
  rw [sum_swap]
  congr 1
  apply List.map_congr_left
  intro G hG
  rw [sum_swap]
  have hsel : ((List.range G.ndof).map fun i => ((List.range R.nDofs).map fun v => (if G.dofs i = v then
        (G.pts.map fun q => Complex.exp ((ph is3D f a q : ℝ) * Complex.I) *
          ((q.w * (if is3D = false ∧ dir = 2 then 0 else -q.ortho dir) : ℝ) : ℂ) * (q.shape i : ℂ)).sum else 0) * F v).sum).sum =
      ((List.range G.ndof).map fun i => (G.pts.map fun q => Complex.exp ((ph is3D f a q : ℝ) * Complex.I) *
          ((q.w * (if is3D = false ∧ dir = 2 then 0 else -q.ortho dir) : ℝ) : ℂ) * (q.shape i : ℂ)).sum * F (G.dofs i)).sum := by
    congr 1
    apply List.map_congr_left
    intro i hi
    exact sum_select R.nDofs (G.dofs i) _ F (hwf G hG i (List.mem_range.1 hi))
  rw [hsel]
  simp only [← sum_mul_r, ← sum_mul_l]
  rw [sum_swap]
  congr 1
  apply List.map_congr_left
  intro q _
  congr 1
  apply List.map_congr_left
  intro i _
  ring

/-! ### amplitudes of a rank -/

/-- The integral of a component over samples. -/
def intg (l : List Sample) (f : ℝ) (a : Angles) (dir : Fin 3) (F : Sample → ℂ) : ℂ :=
  (l.map fun s => phase f a s.pos * (-(s.area dir) : ℝ) * F s).sum

lemma pos_sample (is3D : Bool) (snaps : List Snapshot) (G : Face) (q : Pt) :
    (sampleOf is3D snaps G q).pos = surfVec is3D q.pos := by
  cases is3D <;> rfl

lemma area_sample (is3D : Bool) (snaps : List Snapshot) (G : Face) (q : Pt) (dir : Fin 3) :
    q.w * (if is3D = false ∧ dir = 2 then 0 else -q.ortho dir) = -(sampleOf is3D snaps G q).area dir := by
  cases is3D with
  | true => simp [sampleOf]
  | false => fin_cases dir <;> simp [sampleOf]

lemma pairing_samples (is3D : Bool) (f : ℝ) (a : Angles) (dir : Fin 3) (R : Rank) (hwf : WF R) (c : Fin 6) :
    pairing R.nDofs (formVal is3D Real.cos f a dir R.faces) (formVal is3D Real.sin f a dir R.faces)
      (fun v => transform f (R.snaps.map fun s => (s.time, s.f c v))) =
    intg (samplesOf is3D R) f a dir (fun s => transform f (s.series.map fun p => (p.1, p.2 c))) := by
  rw [pairing_form is3D f a dir R hwf]
  unfold intg samplesOf
  rw [List.map_flatMap, sum_flatMap']
  congr 1
  apply List.map_congr_left
  intro G _
  rw [List.map_map]
  congr 1
  apply List.map_congr_left
  intro q _
  rw [interp_transform, area_sample is3D R.snaps G q dir]
  simp only [Function.comp_def, phase, pos_sample, ph]
  congr 2
  simp [sampleOf, List.map_map, Function.comp_def]

lemma linForm_some (is3D : Bool) (trig : ℝ → ℝ) (f : ℝ) (a : Angles) (dir : Fin 3) (R : Rank)
    (h : ∀ s ∈ samplesOf is3D R, s.pos ≠ 0) :
    linearForm is3D trig f a dir R.faces = some (formVal is3D trig f a dir R.faces) := by
  apply linearForm_eq
  intro G hG q hq
  rw [← pos_sample is3D R.snaps G q]
  exact h _ (List.mem_flatMap.2 ⟨G, hG, List.mem_map_of_mem hq⟩)

lemma freqField_eq (snaps : List Snapshot) (h : snaps ≠ []) (f : ℝ) :
    freqField snaps f = some fun c v => transform f (snaps.map fun s => (s.time, s.f c v)) := by
  have hl : snaps.length ≠ 0 := by simpa using h
  unfold freqField
  rw [if_neg hl]
  simp only [dft_eq snaps h f, Option.getD_some]

lemma nlStep_eq (is3D : Bool) (R : Rank) (hwf : WF R) (h : ∀ s ∈ samplesOf is3D R, s.pos ≠ 0) (f : ℝ) (a : Angles)
    (NL : (Fin 3 → ℂ) × (Fin 3 → ℂ)) (dir : Fin 3) :
    nlStep is3D R (fun c v => transform f (R.snaps.map fun s => (s.time, s.f c v))) f a NL dir =
    some (crossAdd dir (fun c => intg (samplesOf is3D R) f a dir (fun s => s.H f c)) NL.1,
      crossAdd dir (fun c => -intg (samplesOf is3D R) f a dir (fun s => s.E f c)) NL.2) := by
  unfold nlStep
  rw [linForm_some is3D Real.cos f a dir R h, linForm_some is3D Real.sin f a dir R h]
  simp only [Option.bind_eq_bind, Option.bind_some, pairing_samples is3D f a dir R hwf]
  rfl

lemma cross_fold (X : Fin 3 → Fin 3 → ℂ) :
    crossAdd 2 (X 2) (crossAdd 1 (X 1) (crossAdd 0 (X 0) 0)) =
      ![X 2 1 - X 1 2, X 0 2 - X 2 0, X 1 0 - X 0 1] := by
  funext i
  fin_cases i
  · simp [crossAdd, Function.update, show (2 : Fin 3) + 1 = 0 from rfl, show (2 : Fin 3) + 2 = 1 from rfl,
      show (1 : Fin 3) + 1 = 2 from rfl, show (1 : Fin 3) + 2 = 0 from rfl]
    ring
  · simp [crossAdd, Function.update, show (2 : Fin 3) + 1 = 0 from rfl, show (2 : Fin 3) + 2 = 1 from rfl,
      show (1 : Fin 3) + 1 = 2 from rfl, show (1 : Fin 3) + 2 = 0 from rfl]
    try ring
  · simp [crossAdd, Function.update, show (2 : Fin 3) + 1 = 0 from rfl, show (2 : Fin 3) + 2 = 1 from rfl,
      show (1 : Fin 3) + 1 = 2 from rfl, show (1 : Fin 3) + 2 = 0 from rfl]
    ring

lemma sum_sub' {A : Type} (g k : A → ℂ) (l : List A) :
    (l.map g).sum - (l.map k).sum = (l.map fun x => g x - k x).sum := by
  induction l with
  | nil => simp
  | cons x l ih => simp only [List.map_cons, List.sum_cons, ← ih]; ring

lemma sum_neg' {A : Type} (g : A → ℂ) (l : List A) : -(l.map g).sum = (l.map fun x => -g x).sum := by
  induction l with
  | nil => simp
  | cons x l ih => simp only [List.map_cons, List.sum_cons, ← ih]; ring

lemma intg_cross (l : List Sample) (f : ℝ) (a : Angles) (F : Sample → Fin 3 → ℂ) :
    ![intg l f a 2 (fun s => F s 1) - intg l f a 1 (fun s => F s 2),
      intg l f a 0 (fun s => F s 2) - intg l f a 2 (fun s => F s 0),
      intg l f a 1 (fun s => F s 0) - intg l f a 0 (fun s => F s 1)] =
    (l.map fun s => phase f a s.pos • cross s.area (F s)).sum := by
  funext i
  rw [sum_apply]
  unfold intg
  fin_cases i
  · simp only [Fin.zero_eta, Matrix.cons_val_zero, sum_sub']
    congr 1
    apply List.map_congr_left
    intro s _
    simp [cross]
    ring
  · simp only [Fin.mk_one, Matrix.cons_val_one, Matrix.cons_val_zero, sum_sub']
    congr 1
    apply List.map_congr_left
    intro s _
    simp [cross]
    ring
  · simp only [Fin.reduceFinMk, Matrix.cons_val, sum_sub']
    congr 1
    apply List.map_congr_left
    intro s _
    simp [cross]
    ring

lemma N_eq (l : List Sample) (f : ℝ) (a : Angles) :
    ![intg l f a 2 (fun s => s.H f 1) - intg l f a 1 (fun s => s.H f 2),
      intg l f a 0 (fun s => s.H f 2) - intg l f a 2 (fun s => s.H f 0),
      intg l f a 1 (fun s => s.H f 0) - intg l f a 0 (fun s => s.H f 1)] = N l f a :=
  intg_cross l f a (fun s => s.H f)

lemma L_eq (l : List Sample) (f : ℝ) (a : Angles) :
    ![(-intg l f a 2 (fun s => s.E f 1)) - (-intg l f a 1 (fun s => s.E f 2)),
      (-intg l f a 0 (fun s => s.E f 2)) - (-intg l f a 2 (fun s => s.E f 0)),
      (-intg l f a 1 (fun s => s.E f 0)) - (-intg l f a 0 (fun s => s.E f 1))] = L l f a := by
  have h := intg_cross l f a (fun s => s.E f)
  have h2 : L l f a = -((l.map fun s => phase f a s.pos • cross s.area (s.E f)).sum) := by
    unfold L
    funext i
    rw [Pi.neg_apply, sum_apply, sum_apply, sum_neg']
    rfl
  rw [h2, ← h]
  funext i
  fin_cases i <;> simp <;> ring

theorem amplitudes_eq (is3D : Bool) (R : Rank) (hwf : WF R) (hs : R.snaps ≠ [])
    (h : ∀ s ∈ samplesOf is3D R, s.pos ≠ 0) (f : ℝ) (a : Angles) :
    amplitudes is3D R f a = some (farField (samplesOf is3D R) f a) := by
  unfold amplitudes
  rw [freqField_eq R.snaps hs f]
  simp only [Option.bind_eq_bind, Option.bind_some, List.foldlM_cons, List.foldlM_nil, nlStep_eq is3D R hwf h f a,
    Option.pure_def]
  have h1 := cross_fold (fun d c => intg (samplesOf is3D R) f a d (fun s => s.H f c))
  have h2 := cross_fold (fun d c => -intg (samplesOf is3D R) f a d (fun s => s.E f c))
  rw [N_eq] at h1
  rw [L_eq] at h2
  simp only [h1, h2]
  rfl

/-! ### accumulation -/

lemma farField_append (l m : List Sample) (f : ℝ) (a : Angles) : farField (l ++ m) f a = farField l f a + farField m f a := by
  unfold farField N L along
  simp only [List.map_append, List.sum_append]
  funext i
  fin_cases i <;> simp <;> ring

lemma farField_nil (f : ℝ) (a : Angles) : farField [] f a = 0 := by
  unfold farField N L along
  funext i
  fin_cases i <;> simp

lemma bump_self (k : Angles × ℝ) (x : Fin 4 → ℂ) (acc : Acc) : bump k x acc k = acc k + x := by
  classical
  unfold bump; rw [Function.update_self]

lemma bump_ne (k k' : Angles × ℝ) (x : Fin 4 → ℂ) (acc : Acc) (h : k' ≠ k) : bump k x acc k' = acc k' := by
  classical
  unfold bump; rw [Function.update_of_ne h]

lemma occ_cons {A : Type} (x y : A) (l : List A) : occ x (y :: l) = occ x l + (by classical exact if y = x then 1 else 0) := by
  classical
  unfold occ
  rw [List.count_cons]
  congr 1
  by_cases h : y = x <;> simp [h]

lemma occ_nodup {A : Type} (x : A) (l : List A) (h : l.Nodup) (hx : x ∈ l) : occ x l = 1 := by
  classical
  unfold occ
  exact List.count_eq_one_of_mem h hx

lemma angles_fold (X : Angles → Fin 4 → ℂ) (f : ℝ) (angles : List Angles) (acc : Acc)
    (g : Angles → Option (Fin 4 → ℂ)) (hg : ∀ a, g a = some (X a)) :
    ∃ acc' : Acc, angles.foldlM (fun (acc : Acc) a => (g a).map fun x => bump (a, f) x acc) acc = some acc' ∧
      (∀ a, acc' (a, f) = acc (a, f) + occ a angles • X a) ∧ ∀ a f', f' ≠ f → acc' (a, f') = acc (a, f') := by
  induction angles generalizing acc with
  | nil => exact ⟨acc, rfl, fun a => by simp [occ], fun _ _ _ => rfl⟩
  | cons b l ih =>
    obtain ⟨acc', h1, h2, h3⟩ := ih (bump (b, f) (X b) acc)
    refine ⟨acc', ?_, ?_, ?_⟩
    · rw [List.foldlM_cons, hg]
      exact h1
    · intro a
      rw [h2, occ_cons]
      by_cases hb : b = a
      · subst hb
        rw [bump_self, if_pos rfl]
        rw [add_smul, one_smul]
        abel
      · rw [if_neg hb]
        have : ((a, f) : Angles × ℝ) ≠ (b, f) := fun hc => hb (by rw [Prod.mk.injEq] at hc; exact hc.1.symm)
        rw [bump_ne _ _ _ _ this, add_zero]
    · intro a f' hf
      rw [h3 a f' hf]
      have : ((a, f') : Angles × ℝ) ≠ (b, f) := fun hc => hf (by rw [Prod.mk.injEq] at hc; exact hc.2)
      rw [bump_ne _ _ _ _ this]

lemma freqs_fold (X : ℝ → Angles → Fin 4 → ℂ) (freqs : List ℝ) (angles : List Angles) (acc : Acc)
    (g : ℝ → Angles → Option (Fin 4 → ℂ)) (hg : ∀ f a, g f a = some (X f a)) :
    ∃ acc' : Acc, freqs.foldlM (fun acc f => angles.foldlM (fun (acc : Acc) a =>
      (g f a).map fun x => bump (a, f) x acc) acc) acc = some acc' ∧
      ∀ a f, acc' (a, f) = acc (a, f) + (occ f freqs * occ a angles) • X f a := by
  induction freqs generalizing acc with
  | nil => exact ⟨acc, rfl, fun a f => by simp [occ]⟩
  | cons b l ih =>
    obtain ⟨acc1, h1, h2, h3⟩ := angles_fold (X b) b angles acc (g b) (hg b)
    obtain ⟨acc', h4, h5⟩ := ih acc1
    refine ⟨acc', ?_, ?_⟩
    · rw [List.foldlM_cons, h1]
      exact h4
    · intro a f
      rw [h5, occ_cons]
      by_cases hb : b = f
      · subst hb
        rw [h2, if_pos rfl, add_mul, add_smul, one_mul]
        abel
      · rw [if_neg hb, h3 a f (Ne.symm hb), add_zero]

theorem addRank_eq (is3D : Bool) (freqs : List ℝ) (angles : List Angles) (acc : Acc) (R : Rank) (hwf : WF R)
    (hs : R.snaps ≠ []) (h : ∀ s ∈ samplesOf is3D R, s.pos ≠ 0) :
    ∃ acc', addRank is3D freqs angles acc R = some acc' ∧ ∀ a f, acc' (a, f) =
      acc (a, f) + (occ f freqs * occ a angles) • farField (samplesOf is3D R) f a :=
  freqs_fold (fun f a => farField (samplesOf is3D R) f a) freqs angles acc (fun f a => amplitudes is3D R f a)
    (fun f a => amplitudes_eq is3D R hwf hs h f a)

/-- All ranks together. -/
theorem coherentSum_eq (is3D : Bool) (freqs : List ℝ) (angles : List Angles) (ranks : List Rank)
    (hwf : ∀ R ∈ ranks, WF R) (hs : ∀ R ∈ ranks, R.snaps ≠ []) (h : AwayFromOrigin is3D ranks) :
    ∃ acc, coherentSum is3D freqs angles ranks = some acc ∧ ∀ a f, acc (a, f) =
      (occ f freqs * occ a angles) • farField (samples is3D ranks) f a := by
  have gen : ∀ (ranks : List Rank) (acc : Acc), (∀ R ∈ ranks, WF R) → (∀ R ∈ ranks, R.snaps ≠ []) →
      AwayFromOrigin is3D ranks → ∃ acc', ranks.foldlM (addRank is3D freqs angles) acc = some acc' ∧ ∀ a f, acc' (a, f) =
      acc (a, f) + (occ f freqs * occ a angles) • farField (samples is3D ranks) f a := by
    intro ranks
    induction ranks with
    | nil => intro acc _ _ _; exact ⟨acc, rfl, fun a f => by simp [samples, farField_nil]⟩
    | cons R l ih =>
      intro acc h1 h2 h3
      obtain ⟨acc1, e1, e2⟩ := addRank_eq is3D freqs angles acc R (h1 R (by simp)) (h2 R (by simp))
        (fun s hs => h3 s (by unfold samples; rw [List.flatMap_cons]; exact List.mem_append_left _ hs))
      obtain ⟨acc', e3, e4⟩ := ih acc1 (fun R hR => h1 R (List.mem_cons_of_mem _ hR))
        (fun R hR => h2 R (List.mem_cons_of_mem _ hR))
        (fun s hs => h3 s (by unfold samples; rw [List.flatMap_cons]; exact List.mem_append_right _ hs))
      refine ⟨acc', ?_, ?_⟩
      · rw [List.foldlM_cons, e1]
        exact e3
      · intro a f
        rw [e4, e2]
        have : samples is3D (R :: l) = samplesOf is3D R ++ samples is3D l := by unfold samples; rw [List.flatMap_cons]
        rw [this, farField_append, smul_add]
        abel
  obtain ⟨acc, e1, e2⟩ := gen ranks (fun _ => 0) hwf hs h
  exact ⟨acc, e1, fun a f => by rw [e2]; simp⟩

end

end Dgtd.Rcs
