/-
C139, C140: initial fields and the solutions of Maxwell's equations they start.
-/
import Verif.Model.Mode
import Verif.Spec.Mode
import Mathlib.Analysis.SpecialFunctions.Trigonometric.Deriv
import Mathlib.Analysis.SpecialFunctions.ExpDeriv
import Mathlib.Tactic.FinCases
import Mathlib.Tactic.Positivity
import Mathlib.Tactic.FieldSimp
import Mathlib.Tactic.Ring
import Mathlib.Tactic.LinearCombination

set_option linter.unusedSectionVars false

namespace Dgtd.Mode
open Spec Dgtd.Wave.Spec
open Dgtd.Config (FieldType Axis)

/-! ### what is read -/

lemma sinLoop_eq (pos : List ℝ) : ∀ (ms : List Nat) (d : Nat) (res : ℝ), sinLoop pos d ms res =
    if ms = [] ∨ d + ms.length ≤ pos.length then
      some (res * (List.zipWith (fun (m : Nat) (x : ℝ) => Real.sin (m * Real.pi * x)) ms (pos.drop d)).prod)
    else none := by
  intro ms
  induction ms with
  | nil => intro d res; simp [sinLoop]
  | cons m ms ih =>
    intro d res
    unfold sinLoop
    by_cases hd : d < pos.length
    · rw [List.getElem?_eq_getElem hd]
      simp only [Option.bind_eq_bind, Option.bind_some]
      rw [ih, List.drop_eq_getElem_cons hd, List.zipWith_cons_cons, List.prod_cons, List.length_cons, mul_assoc]
      by_cases h : d + 1 + ms.length ≤ pos.length
      · rw [if_pos (Or.inr h), if_pos (Or.inr (by omega))]
      · rw [if_neg (c := m :: ms = [] ∨ d + (ms.length + 1) ≤ pos.length) (by
          rintro (h' | h')
          · exact absurd h' (by simp)
          · omega)]
        rw [if_neg]
        rintro (h' | h')
        · subst h'
          simp only [List.length_nil] at h
          omega
        · exact h h'
    · rw [List.getElem?_eq_none (by omega)]
      rw [if_neg]
      · rfl
      · rintro (h' | h')
        · exact absurd h' (by simp)
        · rw [List.length_cons] at h'; omega

/-- **C139**: what the resonant initial field is at a point: the product of the sines, along the polarisation, in its own field only; provided
there are as many modes as coordinates. -/
theorem C139_value (own : FieldType) (pol : Axis → ℝ) (modes : List Nat) (p : List ℝ) (ft : FieldType) (d : Axis)
    (h : modes.length = p.length) : resonant own pol modes p ft d = some (if ft = own then
      (List.zipWith (fun (m : Nat) (x : ℝ) => Real.sin (m * Real.pi * x)) modes p).prod * pol d else 0) := by
  have hz : List.zipWith (· - ·) p (List.replicate modes.length (0 : ℝ)) = p := by
    rw [h]
    clear h
    induction p with
    | nil => rfl
    | cons x p ih => rw [List.length_cons, List.replicate_succ, List.zipWith_cons_cons, sub_zero, ih]
  unfold resonant evalInitial
  by_cases hf : ft = own
  · rw [if_neg (by simpa using hf), if_neg (by simp [h]), if_pos hf, hz]
    unfold sinMode
    rw [sinLoop_eq, if_pos (Or.inr (by omega))]
    simp
  · rw [if_pos (by simpa using hf), if_neg hf]

/-- **C139 fails**: if there are fewer or more modes than coordinates, a vector is read out of bounds; nothing checks it. -/
theorem C139_modes_fails (own : FieldType) (pol : Axis → ℝ) (modes : List Nat) (p : List ℝ) (d : Axis) (h : modes.length ≠ p.length) :
    resonant own pol modes p own d = none := by
  unfold resonant evalInitial
  rw [if_neg (by simp)]
  by_cases hl : modes.length < p.length
  · rw [if_pos (by simpa using hl)]
  · rw [if_neg (by simpa using hl)]
    unfold sinMode
    rw [sinLoop_eq, if_neg]
    · rfl
    · rintro (h' | h')
      · subst h'
        simp only [List.length_nil] at h hl
        omega
      · simp only [List.length_zipWith, List.length_replicate] at h'
        omega

example : resonant .E (fun d => if d = .Z then 1 else 0) [1, 2] [1 / 2, 1 / 4] .E .Z = some 1 := by
  rw [C139_value _ _ _ _ _ _ rfl]
  simp only [if_true, List.zipWith_cons_cons, List.zipWith_nil_right, List.prod_cons, List.prod_nil]
  rw [show ((1 : Nat) : ℝ) * Real.pi * (1 / 2) = Real.pi / 2 by push_cast; ring,
    show ((2 : Nat) : ℝ) * Real.pi * (1 / 4) = Real.pi / 2 by push_cast; ring, Real.sin_pi_div_two]
  norm_num

/-! ### standing waves -/

lemma dsin (k x : ℝ) : HasDerivAt (fun a => Real.sin (k * a)) (k * Real.cos (k * x)) x := by
  have := ((hasDerivAt_id x).const_mul k).sin
  simp only [id_eq, mul_one] at this
  convert this using 1
  ring

lemma dcos (k x : ℝ) : HasDerivAt (fun a => Real.cos (k * a)) (-(k * Real.sin (k * x))) x := by
  have := ((hasDerivAt_id x).const_mul k).cos
  simp only [id_eq, mul_one] at this
  convert this using 1
  ring

/-- The standing wave of wave numbers `a`, `b` in the field that is set. -/
noncomputable def standA (w a b : ℝ) : VField := fun x y _ t => ![0, 0, Real.cos (w * t) * (Real.sin (a * x) * Real.sin (b * y))]

/-- The other field, with the sign `s` (minus for the magnetic one, plus for the electric one). -/
noncomputable def standB (s w a b : ℝ) : VField := fun x y _ t =>
  ![s * (b / w) * (Real.sin (w * t) * (Real.sin (a * x) * Real.cos (b * y))),
    -s * (a / w) * (Real.sin (w * t) * (Real.cos (a * x) * Real.sin (b * y))), 0]

lemma part_zero (x y z t : ℝ) : Partials (fun _ _ _ _ => (0 : ℝ)) x y z t 0 0 0 0 :=
  ⟨hasDerivAt_const _ _, hasDerivAt_const _ _, hasDerivAt_const _ _, hasDerivAt_const _ _⟩

/-- The derivatives of `standA`. -/
noncomputable def dA (w a b x y t : ℝ) : Fin 3 → Fin 4 → ℝ :=
  ![![0, 0, 0, 0], ![0, 0, 0, 0], ![Real.cos (w * t) * (a * Real.cos (a * x) * Real.sin (b * y)),
      Real.cos (w * t) * (Real.sin (a * x) * (b * Real.cos (b * y))), 0,
      -(w * Real.sin (w * t)) * (Real.sin (a * x) * Real.sin (b * y))]]

/-- The derivatives of `standB`. -/
noncomputable def dB (s w a b x y t : ℝ) : Fin 3 → Fin 4 → ℝ :=
  ![![s * (b / w) * (Real.sin (w * t) * (a * Real.cos (a * x) * Real.cos (b * y))),
        s * (b / w) * (Real.sin (w * t) * (Real.sin (a * x) * -(b * Real.sin (b * y)))), 0,
        s * (b / w) * (w * Real.cos (w * t) * (Real.sin (a * x) * Real.cos (b * y)))],
      ![-s * (a / w) * (Real.sin (w * t) * (-(a * Real.sin (a * x)) * Real.sin (b * y))),
        -s * (a / w) * (Real.sin (w * t) * (Real.cos (a * x) * (b * Real.cos (b * y)))), 0,
        -s * (a / w) * (w * Real.cos (w * t) * (Real.cos (a * x) * Real.sin (b * y)))], ![0, 0, 0, 0]]

lemma partA (w a b x y z t : ℝ) : ∀ c, Partials (fun x y z t => standA w a b x y z t c) x y z t
    (dA w a b x y t c 0) (dA w a b x y t c 1) (dA w a b x y t c 2) (dA w a b x y t c 3) := by
  intro c
  fin_cases c
  · exact part_zero x y z t
  · exact part_zero x y z t
  · constructor
    · exact ((dsin a x).mul_const _).const_mul _
    · exact ((dsin b y).const_mul _).const_mul _
    · exact hasDerivAt_const _ _
    · exact (dcos w t).mul_const _

lemma partB (s w a b x y z t : ℝ) : ∀ c, Partials (fun x y z t => standB s w a b x y z t c) x y z t
    (dB s w a b x y t c 0) (dB s w a b x y t c 1) (dB s w a b x y t c 2) (dB s w a b x y t c 3) := by
  intro c
  fin_cases c
  · constructor
    · exact (((dsin a x).mul_const _).const_mul _).const_mul _
    · exact (((dcos b y).const_mul _).const_mul _).const_mul _
    · exact hasDerivAt_const _ _
    · exact ((dsin w t).mul_const _).const_mul _
  · constructor
    · exact (((dcos a x).mul_const _).const_mul _).const_mul _
    · exact (((dsin b y).const_mul _).const_mul _).const_mul _
    · exact hasDerivAt_const _ _
    · exact ((dsin w t).mul_const _).const_mul _
  · exact part_zero x y z t

/-- The two fields solve Maxwell's equations. -/
lemma stand_solves (w a b : ℝ) (hw : w ≠ 0) (hwab : w ^ 2 = a ^ 2 + b ^ 2) :
    Solves (standA w a b) (standB (-1) w a b) ∧ Solves (standB 1 w a b) (standA w a b) := by
  constructor
  · intro x y z t
    refine ⟨_, _, partA w a b x y z t, partB (-1) w a b x y z t, ?_, ?_, ?_, ?_, ?_, ?_, ?_, ?_⟩ <;>
      simp [dA, dB, Matrix.cons_val_two, Matrix.cons_val_three, Matrix.head_cons, Matrix.tail_cons]
    · field_simp
      linear_combination (-(Real.sin (w * t) * Real.sin (a * x) * Real.sin (b * y))) * hwab
    all_goals (try field_simp)
    all_goals (try ring)
  · intro x y z t
    refine ⟨_, _, partB 1 w a b x y z t, partA w a b x y z t, ?_, ?_, ?_, ?_, ?_, ?_, ?_, ?_⟩ <;>
      simp [dA, dB, Matrix.cons_val_two, Matrix.cons_val_three, Matrix.head_cons, Matrix.tail_cons]
    · field_simp
    · field_simp
    · field_simp
      linear_combination (-(Real.sin (w * t) * Real.sin (a * x) * Real.sin (b * y))) * hwab
    · ring

/-- Polarisation along `z`. -/
noncomputable def zpol : Axis → ℝ := fun d => if d = .Z then 1 else 0

lemma freq_sq (a b : ℝ) : (Real.pi * Real.sqrt (a ^ 2 + b ^ 2)) ^ 2 = (a * Real.pi) ^ 2 + (b * Real.pi) ^ 2 := by
  rw [mul_pow, Real.sq_sqrt (by positivity)]
  ring

lemma freq_ne (a b : ℝ) (h : a ≠ 0) : Real.pi * Real.sqrt (a ^ 2 + b ^ 2) ≠ 0 := by
  have : 0 < a ^ 2 + b ^ 2 := by positivity
  exact mul_ne_zero Real.pi_ne_zero (Real.sqrt_ne_zero'.2 this)

/-- **C139**: on a plane mesh the resonant initial field polarised out of the plane is the value at time zero of a standing wave: a solution of
Maxwell's equations, with perfectly conducting walls (electric ones for an electric initial field, magnetic ones for a magnetic one) round the
unit square, that oscillates with the frequency of the mode. -/
theorem C139_plane (own : FieldType) (m n : Nat) (hm : 1 ≤ m) :
    ∃ E H : VField, Solves E H ∧ Walls2 1 1 (pick own E H) ∧
      (∀ x y z ft d, resonant own zpol [m, n] [x, y] ft d = some (pick ft E H x y z 0 (ix d))) ∧
      ∀ x y z t c, pick own E H x y z t c = Real.cos (Real.pi * Real.sqrt ((m : ℝ) ^ 2 + (n : ℝ) ^ 2) * t) * pick own E H x y z 0 c := by
  have hm' : (m : ℝ) ≠ 0 := by
    have : m ≠ 0 := by omega
    exact_mod_cast this
  have hS := stand_solves _ (m * Real.pi) (n * Real.pi) (freq_ne (m : ℝ) (n : ℝ) hm') (freq_sq _ _)
  have hW : Walls2 1 1 (standA (Real.pi * Real.sqrt ((m : ℝ) ^ 2 + (n : ℝ) ^ 2)) (m * Real.pi) (n * Real.pi)) := by
    intro s z t
    simp [standA, Real.sin_nat_mul_pi]
  have hT : ∀ x y z t c, standA (Real.pi * Real.sqrt ((m : ℝ) ^ 2 + (n : ℝ) ^ 2)) (m * Real.pi) (n * Real.pi) x y z t c =
      Real.cos (Real.pi * Real.sqrt ((m : ℝ) ^ 2 + (n : ℝ) ^ 2) * t) *
        standA (Real.pi * Real.sqrt ((m : ℝ) ^ 2 + (n : ℝ) ^ 2)) (m * Real.pi) (n * Real.pi) x y z 0 c := by
    intro x y z t c
    fin_cases c <;> simp [standA]
  cases own with
  | E =>
    refine ⟨_, _, hS.1, hW, ?_, hT⟩
    intro x y z ft d
    rw [C139_value _ _ _ _ _ _ rfl]
    cases ft <;> cases d <;> simp [pick, standA, standB, ix, zpol]
  | H =>
    refine ⟨_, _, hS.2, hW, ?_, hT⟩
    intro x y z ft d
    rw [C139_value _ _ _ _ _ _ rfl]
    cases ft <;> cases d <;> simp [pick, standA, standB, ix, zpol]

/-! ### waves along a line -/

/-- Fields of a wave along `x`: `A` has the components `p`, `q` along `y`, `z`; `g` and `h` are the profiles of `A` and of the other field. -/
def lineA (g : ℝ → ℝ → ℝ) (p q : ℝ) : VField := fun x _ _ t => ![0, p * g x t, q * g x t]

/-- The other field. -/
def lineB (h : ℝ → ℝ → ℝ) (p q : ℝ) : VField := fun x _ _ t => ![0, q * h x t, -p * h x t]

lemma part_line (g gx gt : ℝ → ℝ → ℝ) (hx : ∀ x t, HasDerivAt (fun a => g a t) (gx x t) x) (ht : ∀ x t, HasDerivAt (fun a => g x a) (gt x t) t)
    (p q : ℝ) (x y z t : ℝ) : ∀ c, Partials (fun x y z t => (![0, p * g x t, q * g x t] : Fin 3 → ℝ) c) x y z t
      ((![![0, 0, 0, 0], ![p * gx x t, 0, 0, p * gt x t], ![q * gx x t, 0, 0, q * gt x t]] : Fin 3 → Fin 4 → ℝ) c 0)
      ((![![0, 0, 0, 0], ![p * gx x t, 0, 0, p * gt x t], ![q * gx x t, 0, 0, q * gt x t]] : Fin 3 → Fin 4 → ℝ) c 1)
      ((![![0, 0, 0, 0], ![p * gx x t, 0, 0, p * gt x t], ![q * gx x t, 0, 0, q * gt x t]] : Fin 3 → Fin 4 → ℝ) c 2)
      ((![![0, 0, 0, 0], ![p * gx x t, 0, 0, p * gt x t], ![q * gx x t, 0, 0, q * gt x t]] : Fin 3 → Fin 4 → ℝ) c 3) := by
  intro c
  fin_cases c
  · exact part_zero x y z t
  · exact ⟨(hx x t).const_mul _, hasDerivAt_const _ _, hasDerivAt_const _ _, (ht x t).const_mul _⟩
  · exact ⟨(hx x t).const_mul _, hasDerivAt_const _ _, hasDerivAt_const _ _, (ht x t).const_mul _⟩

/-- Profiles with `∂t g = ∂x h` and `∂t h = ∂x g` give solutions, with either field the electric one. -/
lemma line_solves (g gx gt h hx' ht' : ℝ → ℝ → ℝ) (g1 : ∀ x t, HasDerivAt (fun a => g a t) (gx x t) x)
    (g2 : ∀ x t, HasDerivAt (fun a => g x a) (gt x t) t) (h1 : ∀ x t, HasDerivAt (fun a => h a t) (hx' x t) x)
    (h2 : ∀ x t, HasDerivAt (fun a => h x a) (ht' x t) t) (e1 : ∀ x t, gt x t = hx' x t) (e2 : ∀ x t, ht' x t = gx x t) (p q : ℝ) :
    Solves (lineA g p q) (lineB h p q) ∧ Solves (lineB h (-p) (-q)) (lineA g p q) := by
  constructor
  · intro x y z t
    refine ⟨_, _, part_line g gx gt g1 g2 p q x y z t, part_line h hx' ht' h1 h2 q (-p) x y z t, ?_, ?_, ?_, ?_, ?_, ?_, ?_, ?_⟩ <;>
      simp [Matrix.cons_val_two, Matrix.cons_val_three, Matrix.head_cons, Matrix.tail_cons, e1, e2]
  · intro x y z t
    refine ⟨_, _, part_line h hx' ht' h1 h2 (-q) (- -p) x y z t, part_line g gx gt g1 g2 p q x y z t, ?_, ?_, ?_, ?_, ?_, ?_, ?_, ?_⟩ <;>
      simp [Matrix.cons_val_two, Matrix.cons_val_three, Matrix.head_cons, Matrix.tail_cons, e1, e2]

/-- **C139**: the same on a mesh of an interval, for every polarisation across it. -/
theorem C139_line (own : FieldType) (m : Nat) (pol : Axis → ℝ) (hp : pol .X = 0) :
    ∃ E H : VField, Solves E H ∧ Walls1 1 (pick own E H) ∧
      (∀ x y z ft d, resonant own pol [m] [x] ft d = some (pick ft E H x y z 0 (ix d))) ∧
      ∀ x y z t c, pick own E H x y z t c = Real.cos (m * Real.pi * t) * pick own E H x y z 0 c := by
  have hS := line_solves (fun x t => Real.sin (m * Real.pi * x) * Real.cos (m * Real.pi * t))
    (fun x t => m * Real.pi * Real.cos (m * Real.pi * x) * Real.cos (m * Real.pi * t))
    (fun x t => Real.sin (m * Real.pi * x) * -(m * Real.pi * Real.sin (m * Real.pi * t)))
    (fun x t => Real.cos (m * Real.pi * x) * Real.sin (m * Real.pi * t))
    (fun x t => -(m * Real.pi * Real.sin (m * Real.pi * x)) * Real.sin (m * Real.pi * t))
    (fun x t => Real.cos (m * Real.pi * x) * (m * Real.pi * Real.cos (m * Real.pi * t)))
    (fun x t => (dsin _ x).mul_const _) (fun x t => (dcos _ t).const_mul _)
    (fun x t => (dcos _ x).mul_const _) (fun x t => (dsin _ t).const_mul _)
    (fun x t => by ring) (fun x t => by ring) (pol .Y) (pol .Z)
  have hW : Walls1 1 (lineA (fun x t => Real.sin (m * Real.pi * x) * Real.cos (m * Real.pi * t)) (pol .Y) (pol .Z)) := by
    intro y z t
    simp [lineA, Real.sin_nat_mul_pi]
  have hT : ∀ x y z t c, lineA (fun x t => Real.sin (m * Real.pi * x) * Real.cos (m * Real.pi * t)) (pol .Y) (pol .Z) x y z t c =
      Real.cos (m * Real.pi * t) * lineA (fun x t => Real.sin (m * Real.pi * x) * Real.cos (m * Real.pi * t)) (pol .Y) (pol .Z) x y z 0 c := by
    intro x y z t c
    fin_cases c <;> simp [lineA] <;> ring
  cases own with
  | E =>
    refine ⟨_, _, hS.1, hW, ?_, hT⟩
    intro x y z ft d
    rw [C139_value _ _ _ _ _ _ rfl]
    cases ft <;> cases d <;> simp [pick, lineA, lineB, ix, hp, mul_comm]
  | H =>
    refine ⟨_, _, hS.2, hW, ?_, hT⟩
    intro x y z ft d
    rw [C139_value _ _ _ _ _ _ rfl]
    cases ft <;> cases d <;> simp [pick, lineA, lineB, ix, hp, mul_comm]

/-! ### initial fields that start no solution -/

/-- An initial field `p c · f(x) g(y) h(z)` that starts a solution has no divergence. -/
lemma div_free {dim : Nat} {own : FieldType} {pol : Axis → ℝ} {init : List ℝ → FieldType → Axis → Option ℝ} {f g h : ℝ → ℝ}
    (hi : ∀ x y z d, init ([x, y, z].take dim) own d = some (f x * g y * h z * pol d)) (hS : StartsSolution dim init)
    {x y z : ℝ} (hin : Inside x y z) {f' g' h' : ℝ} (hf : HasDerivAt f f' x) (hg : HasDerivAt g g' y) (hh : HasDerivAt h h' z) :
    pol .X * (f' * g y * h z) + pol .Y * (f x * g' * h z) + pol .Z * (f x * g y * h') = 0 := by
  obtain ⟨E, H, hM, hv⟩ := hS
  have hA : ∀ x y z, Inside x y z → ∀ d, pick own E H x y z 0 (ix d) = f x * g y * h z * pol d := by
    intro x y z hin d
    have := hv x y z hin own d
    rw [hi] at this
    exact (Option.some.inj this).symm
  have hD : ∃ D : Fin 3 → Fin 4 → ℝ, (∀ c, Partials (fun x y z t => pick own E H x y z t c) x y z 0 (D c 0) (D c 1) (D c 2) (D c 3)) ∧
      D 0 0 + D 1 1 + D 2 2 = 0 := by
    obtain ⟨De, Dh, h1, h2, -, -, -, -, -, -, h3, h4⟩ := hM x y z hin
    cases own with
    | E => exact ⟨De, h1, h3⟩
    | H => exact ⟨Dh, h2, h4⟩
  obtain ⟨D, hP, hdiv⟩ := hD
  have nx : ∀ᶠ a in nhds x, Inside a y z := by
    filter_upwards [Ioo_mem_nhds hin.1.1 hin.1.2] with a ha using ⟨ha, hin.2⟩
  have ny : ∀ᶠ a in nhds y, Inside x a z := by
    filter_upwards [Ioo_mem_nhds hin.2.1.1 hin.2.1.2] with a ha using ⟨hin.1, ha, hin.2.2⟩
  have nz : ∀ᶠ a in nhds z, Inside x y a := by
    filter_upwards [Ioo_mem_nhds hin.2.2.1 hin.2.2.2] with a ha using ⟨hin.1, hin.2.1, ha⟩
  have e0 : D 0 0 = f' * g y * h z * pol .X := by
    refine ((hP 0).hx.congr_of_eventuallyEq ?_).unique (((hf.mul_const (g y)).mul_const (h z)).mul_const (pol .X))
    filter_upwards [nx] with a ha using (hA a y z ha .X).symm
  have e1 : D 1 1 = f x * g' * h z * pol .Y := by
    refine ((hP 1).hy.congr_of_eventuallyEq ?_).unique (((hg.const_mul (f x)).mul_const (h z)).mul_const (pol .Y))
    filter_upwards [ny] with a ha using (hA x a z ha .Y).symm
  have e2 : D 2 2 = f x * g y * h' * pol .Z := by
    refine ((hP 2).hz.congr_of_eventuallyEq ?_).unique ((hh.const_mul (f x * g y)).mul_const (pol .Z))
    filter_upwards [nz] with a ha using (hA x y a ha .Z).symm
  rw [e0, e1, e2] at hdiv
  linear_combination hdiv

/-- A point between the walls where the sine of a mode is one, and one where its slope is not zero. -/
lemma crest (m : Nat) (hm : 1 ≤ m) : ∃ x : ℝ, (0 < x ∧ x < 1) ∧ Real.sin (m * Real.pi * x) = 1 ∧ Real.cos (m * Real.pi * x) = 0 := by
  have h1 : (1 : ℝ) ≤ m := by exact_mod_cast hm
  have h0 : (m : ℝ) ≠ 0 := by positivity
  refine ⟨1 / (2 * m), ⟨by positivity, ?_⟩, ?_⟩
  · rw [div_lt_one (by positivity)]; linarith
  · have : (m : ℝ) * Real.pi * (1 / (2 * m)) = Real.pi / 2 := by field_simp
    rw [this]
    exact ⟨Real.sin_pi_div_two, Real.cos_pi_div_two⟩

lemma slope (m : Nat) (hm : 1 ≤ m) : ∃ x : ℝ, (0 < x ∧ x < 1) ∧ m * Real.pi * Real.cos (m * Real.pi * x) ≠ 0 := by
  have h1 : (1 : ℝ) ≤ m := by exact_mod_cast hm
  have h0 : (m : ℝ) ≠ 0 := by positivity
  refine ⟨1 / (3 * m), ⟨by positivity, ?_⟩, ?_⟩
  · rw [div_lt_one (by positivity)]; linarith
  · have : (m : ℝ) * Real.pi * (1 / (3 * m)) = Real.pi / 3 := by field_simp
    rw [this, Real.cos_pi_div_three]
    have := Real.pi_ne_zero
    positivity

/-- **C139 fails**: in three dimensions no resonant initial field, but the zero one, starts a solution: it has a divergence. -/
theorem C139_space_fails (own : FieldType) (pol : Axis → ℝ) (l m n : Nat) (hl : 1 ≤ l) (hm : 1 ≤ m) (hn : 1 ≤ n) (hp : ∃ d, pol d ≠ 0) :
    ¬ StartsSolution 3 (resonant own pol [l, m, n]) := by
  intro hS
  have hi : ∀ x y z d, resonant own pol [l, m, n] ([x, y, z].take 3) own d =
      some (Real.sin (l * Real.pi * x) * Real.sin (m * Real.pi * y) * Real.sin (n * Real.pi * z) * pol d) := by
    intro x y z d
    rw [C139_value _ _ _ _ _ _ rfl]
    simp [mul_assoc]
  obtain ⟨x, hx, sx, cx⟩ := crest l hl
  obtain ⟨y, hy, sy, cy⟩ := crest m hm
  obtain ⟨z, hz, sz, cz⟩ := crest n hn
  obtain ⟨x', hx', dx⟩ := slope l hl
  obtain ⟨y', hy', dy⟩ := slope m hm
  obtain ⟨z', hz', dz⟩ := slope n hn
  have a0 := div_free hi hS ⟨hx', hy, hz⟩ (dsin _ x') (dsin _ y) (dsin _ z)
  have a1 := div_free hi hS ⟨hx, hy', hz⟩ (dsin _ x) (dsin _ y') (dsin _ z)
  have a2 := div_free hi hS ⟨hx, hy, hz'⟩ (dsin _ x) (dsin _ y) (dsin _ z')
  rw [sy, sz, cy, cz] at a0
  rw [sx, sz, cx, cz] at a1
  rw [sx, sy, cx, cy] at a2
  simp only [mul_zero, mul_one, zero_mul, add_zero, zero_add, one_mul] at a0 a1 a2
  obtain ⟨d, hd⟩ := hp
  cases d with
  | X => exact (mul_ne_zero hd dx) a0
  | Y => exact (mul_ne_zero hd dy) a1
  | Z => exact (mul_ne_zero hd dz) a2

/-- **C139 fails**: on a plane mesh no resonant initial field with a component in the plane starts a solution. -/
theorem C139_plane_fails (own : FieldType) (pol : Axis → ℝ) (l m : Nat) (hl : 1 ≤ l) (hm : 1 ≤ m) (hp : pol .X ≠ 0 ∨ pol .Y ≠ 0) :
    ¬ StartsSolution 2 (resonant own pol [l, m]) := by
  intro hS
  have hi : ∀ x y z d, resonant own pol [l, m] ([x, y, z].take 2) own d =
      some (Real.sin (l * Real.pi * x) * Real.sin (m * Real.pi * y) * (fun _ => (1 : ℝ)) z * pol d) := by
    intro x y z d
    rw [C139_value _ _ _ _ _ _ rfl]
    simp
  obtain ⟨x, hx, sx, cx⟩ := crest l hl
  obtain ⟨y, hy, sy, cy⟩ := crest m hm
  obtain ⟨x', hx', dx⟩ := slope l hl
  obtain ⟨y', hy', dy⟩ := slope m hm
  have a0 := div_free hi hS (z := 1 / 2) ⟨hx', hy, by norm_num⟩ (dsin _ x') (dsin _ y) (hasDerivAt_const _ _)
  have a1 := div_free hi hS (z := 1 / 2) ⟨hx, hy', by norm_num⟩ (dsin _ x) (dsin _ y') (hasDerivAt_const _ _)
  rw [sy, cy] at a0
  rw [sx, cx] at a1
  simp only [mul_zero, mul_one, zero_mul, add_zero, zero_add, one_mul] at a0 a1
  rcases hp with hd | hd
  · exact (mul_ne_zero hd dx) a0
  · exact (mul_ne_zero hd dy) a1

/-- **C139 fails**: on an interval no resonant initial field with a component along it starts a solution. -/
theorem C139_line_fails (own : FieldType) (pol : Axis → ℝ) (l : Nat) (hl : 1 ≤ l) (hp : pol .X ≠ 0) :
    ¬ StartsSolution 1 (resonant own pol [l]) := by
  intro hS
  have hi : ∀ x y z d, resonant own pol [l] ([x, y, z].take 1) own d =
      some (Real.sin (l * Real.pi * x) * (fun _ => (1 : ℝ)) y * (fun _ => (1 : ℝ)) z * pol d) := by
    intro x y z d
    rw [C139_value _ _ _ _ _ _ rfl]
    simp
  obtain ⟨x', hx', dx⟩ := slope l hl
  have a0 := div_free hi hS (y := 1 / 2) (z := 1 / 2) ⟨hx', by norm_num, by norm_num⟩ (dsin _ x') (hasDerivAt_const _ _) (hasDerivAt_const _ _)
  simp only [mul_zero, mul_one, add_zero] at a0
  exact (mul_ne_zero hp dx) a0

/-- **C139 fails**: a mode number zero, which stands for a field that does not vary along that axis, gives no field at all. -/
theorem C139_zero_fails (own : FieldType) (pol : Axis → ℝ) (modes : List Nat) (h0 : 0 ∈ modes) (p : List ℝ) (hp : modes.length = p.length)
    (ft : FieldType) (d : Axis) : resonant own pol modes p ft d = some 0 := by
  rw [C139_value _ _ _ _ _ _ hp]
  have : (List.zipWith (fun (m : Nat) (x : ℝ) => Real.sin (m * Real.pi * x)) modes p).prod = 0 := by
    rw [List.prod_eq_zero_iff]
    clear ft d
    induction modes generalizing p with
    | nil => simp at h0
    | cons m ms ih =>
      cases p with
      | nil => simp at hp
      | cons x p =>
        rw [List.zipWith_cons_cons]
        rcases List.mem_cons.1 h0 with h | h
        · subst h; simp
        · exact List.mem_cons_of_mem _ (ih h p (by simpa using hp))
  rw [this]
  simp

/-- The solutions of the theorems above do start from their initial fields, so `StartsSolution` is not empty. -/
example : StartsSolution 2 (resonant .E zpol [1, 2]) := by
  obtain ⟨E, H, hS, -, hv, -⟩ := C139_plane .E 1 2 le_rfl
  exact ⟨E, H, fun x y z _ => hS x y z 0, fun x y z _ ft d => hv x y z ft d⟩

/-! ### the reference modes -/

theorem mapM_none {α β : Type} (f : α → Option β) (k : α) (hk : f k = none) : ∀ l : List α, k ∈ l → l.mapM f = none
  | a :: l, h => by
    rw [List.mapM_cons]
    rcases List.mem_cons.1 h with rfl | h
    · rw [hk]; rfl
    · rw [mapM_none f k hk l h]
      cases f a <;> rfl

/-- **C139 is false (reference modes).** With fewer sides than modes the three reference modes read past the end of the sides, at every
point and instant. -/
theorem C139_box_fails (modes : List Nat) (box pos : List ℝ) (t : ℝ) (h : box.length < modes.length) :
    tm2d modes box pos t = none ∧ tm2dDx modes box pos t = none ∧ tm2dDy modes box pos t = none := by
  have e : boxOf modes box = none :=
    mapM_none _ box.length (List.getElem?_eq_none le_rfl) _ (List.mem_range.2 h)
  refine ⟨?_, ?_, ?_⟩
  · unfold tm2d; rw [e]; rfl
  · unfold tm2dDx; rw [e]; rfl
  · unfold tm2dDy; rw [e]; rfl

example : ([1] : List ℝ).length < [1, 2].length := by decide

/-- **C139**: the reference mode is the electric field of the standing wave in the rectangle of the given sides. -/
theorem C139_reference (m n : Nat) (hm : 1 ≤ m) (a b : ℝ) (ha : a ≠ 0) (hb : b ≠ 0) :
    ∃ E H : VField, Solves E H ∧ Walls2 a b E ∧ (∀ x y z t, tm2d [m, n] [a, b] [x, y] t = some (E x y z t 2)) ∧
      (∀ x y z t, E x y z t 0 = 0 ∧ E x y z t 1 = 0) ∧ ∀ x y z c, H x y z 0 c = 0 := by
  have hm' : (m : ℝ) ≠ 0 := by
    have : m ≠ 0 := by omega
    exact_mod_cast this
  have hma : (m : ℝ) / a ≠ 0 := div_ne_zero hm' ha
  refine ⟨_, _, (stand_solves _ _ _ (freq_ne ((m : ℝ) / a) ((n : ℝ) / b) hma) (freq_sq _ _)).1, ?_, ?_, ?_, ?_⟩
  · intro s z t
    have e1 : (m : ℝ) / a * Real.pi * a = m * Real.pi := by field_simp
    have e2 : (n : ℝ) / b * Real.pi * b = n * Real.pi := by field_simp
    simp [standA, Real.sin_nat_mul_pi, e1, e2]
  · intro x y z t
    have e1 : (m : ℝ) * Real.pi * x / a = m / a * Real.pi * x := by field_simp
    have e2 : (n : ℝ) * Real.pi * y / b = n / b * Real.pi * y := by field_simp
    simp [tm2d, boxOf, modeFreq, standA, List.range_succ, List.mapM_cons, e1, e2]
  · intro x y z t
    simp [standA]
  · intro x y z c
    fin_cases c <;> simp [standB]

/-- **C139 fails**: the two functions given for the magnetic field of that mode are not: whatever factor they are multiplied by, neither
solves Maxwell's equations with it (they swing in phase with the electric field, not a quarter of a period behind). -/
theorem C139_reference_fails (m n : Nat) (hm : 1 ≤ m) (hn : 1 ≤ n) (s : ℝ) (E H : VField)
    (hE : ∀ x y z t, tm2d [m, n] [1, 1] [x, y] t = some (E x y z t 2)) (h0 : ∀ x y z t, E x y z t 0 = 0 ∧ E x y z t 1 = 0)
    (hH : (∀ x y z t, (tm2dDy [m, n] [1, 1] [x, y] t).map (s * ·) = some (H x y z t 0)) ∨
      (∀ x y z t, (tm2dDx [m, n] [1, 1] [x, y] t).map (s * ·) = some (H x y z t 1))) : ¬ Solves E H := by
  intro hS
  have vE : ∀ x y z t, E x y z t 2 = Real.cos (modeFreq [m, n] [1, 1] * t) * (Real.sin (m * Real.pi * x) * Real.sin (n * Real.pi * y)) := by
    intro x y z t
    have := hE x y z t
    simp [tm2d, boxOf, List.range_succ, List.mapM_cons] at this
    exact this.symm
  have c0 : ∀ k q r : ℝ, HasDerivAt (fun t => k * Real.cos (q * t) * r) 0 0 := by
    intro k q r
    have := ((dcos q 0).const_mul k).mul_const r
    simpa using this
  rcases hH with hH | hH
  · obtain ⟨x, -, sx, -⟩ := crest m hm
    obtain ⟨y, -, dy⟩ := slope n hn
    obtain ⟨De, Dh, h1, h2, -, -, -, h3, -⟩ := hS x y 0 0
    have vH : ∀ t, H x y 0 t 0 = (s * (n * Real.pi / (modeFreq [m, n] [1, 1] * 1))) * Real.cos (modeFreq [m, n] [1, 1] * t) *
        (Real.sin (m * Real.pi * x) * Real.cos (n * Real.pi * y)) := by
      intro t
      have := hH x y 0 t
      simp [tm2dDy, boxOf, List.range_succ, List.mapM_cons] at this
      rw [← this]
      ring
    have e1 : Dh 0 3 = 0 := by
      have := (h2 0).ht
      simp only [vH] at this
      exact this.unique (c0 _ _ _)
    have e2 : De 2 1 = n * Real.pi * Real.cos (n * Real.pi * y) := by
      have := (h1 2).hy
      simp only [vE, mul_zero, Real.cos_zero, one_mul, sx] at this
      exact this.unique (dsin _ y)
    have e3 : De 1 2 = 0 := by
      have := (h1 1).hz
      simp only [(h0 _ _ _ _).2] at this
      exact this.unique (hasDerivAt_const _ _)
    rw [e1, e2, e3] at h3
    exact dy (by linarith)
  · obtain ⟨y, -, sy, -⟩ := crest n hn
    obtain ⟨x, -, dx⟩ := slope m hm
    obtain ⟨De, Dh, h1, h2, -, -, -, -, h3, -⟩ := hS x y 0 0
    have vH : ∀ t, H x y 0 t 1 = (s * (m * Real.pi / (modeFreq [m, n] [1, 1] * 1))) * Real.cos (modeFreq [m, n] [1, 1] * t) *
        (Real.cos (m * Real.pi * x) * Real.sin (n * Real.pi * y)) := by
      intro t
      have := hH x y 0 t
      simp [tm2dDx, boxOf, List.range_succ, List.mapM_cons] at this
      rw [← this]
      ring
    have e1 : Dh 1 3 = 0 := by
      have := (h2 1).ht
      simp only [vH] at this
      exact this.unique (c0 _ _ _)
    have e2 : De 2 0 = m * Real.pi * Real.cos (m * Real.pi * x) := by
      have := (h1 2).hx
      simp only [vE, mul_zero, Real.cos_zero, one_mul, sy, mul_one] at this
      exact this.unique (dsin _ x)
    have e3 : De 0 2 = 0 := by
      have := (h1 0).hz
      simp only [(h0 _ _ _ _).1] at this
      exact this.unique (hasDerivAt_const _ _)
    rw [e1, e2, e3] at h3
    exact dx (by linarith)

/-! ### Gaussian pulses -/

lemma zip_zero (p c : List ℝ) (h : p.length ≤ c.length) (k : Nat) : (List.zipWith (· - ·) p c)[k]? =
    if k < p.length then some (p.getD k 0 - c.getD k 0) else none := by
  by_cases hk : k < p.length
  · have hc : k < c.length := by omega
    rw [if_pos hk, List.getElem?_zipWith]
    simp [List.getD_eq_getElem?_getD, List.getElem?_eq_getElem hk, List.getElem?_eq_getElem hc]
  · rw [if_neg hk, List.getElem?_zipWith, List.getElem?_eq_none (by omega)]

/-- **C140**: what the Gaussian initial field is: a bell of the given spread about the given centre, over the first `dim` coordinates. -/
theorem C140_value (own : FieldType) (spread : ℝ) (center : List ℝ) (pol : Axis → ℝ) (dim : Nat) (h1 : 1 ≤ dim) (h3 : dim ≤ 3) (p : List ℝ)
    (hp : dim ≤ p.length) (hc : p.length ≤ center.length) (ft : FieldType) (d : Axis) :
    gaussianField own spread center pol dim p ft d = some (if ft = own then
      Real.exp (-((List.range dim).map fun k => (p.getD k 0 - center.getD k 0) ^ 2).sum / (2 * spread ^ 2)) * pol d else 0) := by
  unfold gaussianField evalInitial
  by_cases hf : ft = own
  · rw [if_neg (by simpa using hf), if_neg (by omega), if_pos hf]
    have hd : dim = 1 ∨ dim = 2 ∨ dim = 3 := by omega
    rcases hd with rfl | rfl | rfl
    · simp only [gaussian, zip_zero p center hc]
      rw [if_pos (by omega)]
      simp
    · simp only [gaussian, zip_zero p center hc]
      rw [if_pos (by omega), if_pos (by omega)]
      simp [List.range_succ]
    · simp only [gaussian, zip_zero p center hc]
      rw [if_pos (by omega), if_pos (by omega), if_pos (by omega)]
      simp [List.range_succ, add_assoc]
  · rw [if_pos (by simpa using hf), if_neg hf]

/-- **C140 fails**: a centre of fewer coordinates than the mesh has dimensions, a pulse of more dimensions than the mesh, and a pulse of a
dimension other than 1, 2 or 3 are not evaluated; only the last raises an error, the first two read a vector out of bounds. -/
theorem C140_reads_fails (own : FieldType) (spread : ℝ) (center : List ℝ) (pol : Axis → ℝ) (dim : Nat) (p : List ℝ) (d : Axis)
    (h : center.length < p.length ∨ p.length < dim ∨ dim = 0 ∨ 3 < dim) : gaussianField own spread center pol dim p own d = none := by
  unfold gaussianField evalInitial
  rw [if_neg (by simp)]
  by_cases hc : center.length < p.length
  · rw [if_pos hc]
  · rw [if_neg hc]
    have hr := h.resolve_left hc
    by_cases hd : dim = 0 ∨ 3 < dim
    · have : gaussian spread (List.replicate dim 0) dim (List.zipWith (· - ·) p center) = none := by
        unfold gaussian
        split
        · omega
        · omega
        · omega
        · rfl
      rw [this]
      rfl
    · have hd' : dim = 1 ∨ dim = 2 ∨ dim = 3 := by omega
      have hl : p.length < dim := by omega
      rcases hd' with rfl | rfl | rfl
      · simp only [gaussian, zip_zero p center (by omega)]
        rw [if_neg (by omega)]
        rfl
      · simp only [gaussian, zip_zero p center (by omega)]
        rw [if_neg (c := 1 < p.length) (by omega)]
        by_cases h0 : 0 < p.length
        · rw [if_pos h0]; rfl
        · rw [if_neg h0]; rfl
      · simp only [gaussian, zip_zero p center (by omega)]
        rw [if_neg (c := 2 < p.length) (by omega)]
        by_cases h0 : 0 < p.length
        · rw [if_pos h0]
          by_cases h1 : 1 < p.length
          · rw [if_pos h1]; rfl
          · rw [if_neg h1]; rfl
        · rw [if_neg h0]; rfl

/-- The bell along a line. -/
noncomputable def bell (spread c x : ℝ) : ℝ := Real.exp (-(x - c) ^ 2 / (2 * spread ^ 2))

/-- Its slope. -/
noncomputable def bell' (spread c x : ℝ) : ℝ := bell spread c x * (-(2 * (x - c)) / (2 * spread ^ 2))

lemma bell_deriv (spread c x : ℝ) : HasDerivAt (bell spread c) (bell' spread c x) x := by
  have h : HasDerivAt (fun a : ℝ => (a - c) ^ 2) (2 * (x - c)) x := by
    have := ((hasDerivAt_id x).sub_const c).fun_pow 2
    simpa using this
  exact (h.fun_neg.div_const (2 * spread ^ 2)).exp

/-- **C140**: a Gaussian pulse of one dimension, polarised across it, on a mesh of any dimension, starts the solution in which it splits into two
pulses of half the height that travel apart with the speed of light. -/
theorem C140_split (own : FieldType) (spread c0 : ℝ) (cs : List ℝ) (pol : Axis → ℝ) (hp : pol .X = 0) :
    ∃ E H : VField, Solves E H ∧
      (∀ x y z ft d dim, 1 ≤ dim → dim ≤ 3 → dim ≤ cs.length + 1 →
        gaussianField own spread (c0 :: cs) pol 1 ([x, y, z].take dim) ft d = some (pick ft E H x y z 0 (ix d))) ∧
      ∀ x y z t d, pick own E H x y z t (ix d) = (1 / 2 * bell spread c0 (x - t) + 1 / 2 * bell spread c0 (x + t)) * pol d := by
  have d1 : ∀ x t : ℝ, HasDerivAt (fun a => bell spread c0 (a - t)) (bell' spread c0 (x - t)) x := fun x t =>
    (bell_deriv spread c0 (x - t)).comp_sub_const x t
  have d2 : ∀ x t : ℝ, HasDerivAt (fun a => bell spread c0 (a + t)) (bell' spread c0 (x + t)) x := fun x t =>
    (bell_deriv spread c0 (x + t)).comp_add_const x t
  have d3 : ∀ x t : ℝ, HasDerivAt (fun a => bell spread c0 (x - a)) (-bell' spread c0 (x - t)) t := fun x t =>
    (bell_deriv spread c0 (x - t)).comp_const_sub x t
  have d4 : ∀ x t : ℝ, HasDerivAt (fun a => bell spread c0 (x + a)) (bell' spread c0 (x + t)) t := fun x t =>
    (bell_deriv spread c0 (x + t)).comp_const_add x t
  have hS := line_solves (fun x t => 1 / 2 * bell spread c0 (x - t) + 1 / 2 * bell spread c0 (x + t))
    (fun x t => 1 / 2 * bell' spread c0 (x - t) + 1 / 2 * bell' spread c0 (x + t))
    (fun x t => 1 / 2 * -bell' spread c0 (x - t) + 1 / 2 * bell' spread c0 (x + t))
    (fun x t => (-(1 / 2)) * bell spread c0 (x - t) + 1 / 2 * bell spread c0 (x + t))
    (fun x t => (-(1 / 2)) * bell' spread c0 (x - t) + 1 / 2 * bell' spread c0 (x + t))
    (fun x t => (-(1 / 2)) * -bell' spread c0 (x - t) + 1 / 2 * bell' spread c0 (x + t))
    (fun x t => ((d1 x t).const_mul _).add ((d2 x t).const_mul _)) (fun x t => ((d3 x t).const_mul _).add ((d4 x t).const_mul _))
    (fun x t => ((d1 x t).const_mul _).add ((d2 x t).const_mul _)) (fun x t => ((d3 x t).const_mul _).add ((d4 x t).const_mul _))
    (fun x t => by ring) (fun x t => by ring) (pol .Y) (pol .Z)
  have hv : ∀ x y z ft d dim, 1 ≤ dim → dim ≤ 3 → dim ≤ cs.length + 1 →
        gaussianField own spread (c0 :: cs) pol 1 ([x, y, z].take dim) ft d = some (if ft = own then bell spread c0 x * pol d else 0) := by
    intro x y z ft d dim h1 h3 hc
    have hl : ([x, y, z].take dim).length = dim := by simp; omega
    rw [C140_value own spread (c0 :: cs) pol 1 le_rfl (by norm_num) _ (by omega) (by rw [hl]; simpa using hc)]
    have : ([x, y, z].take dim).getD 0 0 = x := by
      obtain ⟨k, rfl⟩ : ∃ k, dim = k + 1 := ⟨dim - 1, by omega⟩
      simp
    simp only [List.range_one, List.map_cons, List.map_nil, List.sum_cons, List.sum_nil, add_zero, this, List.getD_cons_zero]
    rfl
  cases own with
  | E =>
    refine ⟨_, _, hS.1, ?_, ?_⟩
    · intro x y z ft d dim h1 h3 hc
      rw [hv x y z ft d dim h1 h3 hc]
      cases ft <;> cases d <;> simp [pick, lineA, lineB, ix, hp] <;> ring
    · intro x y z t d
      cases d <;> simp [pick, lineA, ix, hp] <;> ring
  | H =>
    refine ⟨_, _, hS.2, ?_, ?_⟩
    · intro x y z ft d dim h1 h3 hc
      rw [hv x y z ft d dim h1 h3 hc]
      cases ft <;> cases d <;> simp [pick, lineA, lineB, ix, hp] <;> ring
    · intro x y z t d
      cases d <;> simp [pick, lineA, ix, hp] <;> ring

/-- **C140 fails**: polarised along its line, the pulse starts no solution: it has a divergence. -/
theorem C140_along_fails (own : FieldType) (spread c0 : ℝ) (hs : spread ≠ 0) (pol : Axis → ℝ) (hp : pol .X ≠ 0) :
    ¬ StartsSolution 1 (gaussianField own spread [c0] pol 1) := by
  intro hS
  have hi : ∀ x y z d, gaussianField own spread [c0] pol 1 ([x, y, z].take 1) own d =
      some (bell spread c0 x * (fun _ => (1 : ℝ)) y * (fun _ => (1 : ℝ)) z * pol d) := by
    intro x y z d
    rw [C140_value own spread [c0] pol 1 le_rfl (by norm_num) _ (by simp) (by simp)]
    simp [bell]
  have key : ∀ x, 0 < x → x < 1 → x ≠ c0 → False := by
    intro x h0 h1 hx
    have a0 := div_free hi hS (x := x) (y := 1 / 2) (z := 1 / 2) ⟨⟨h0, h1⟩, by norm_num, by norm_num⟩ (bell_deriv _ _ x)
      (hasDerivAt_const _ _) (hasDerivAt_const _ _)
    simp only [mul_zero, mul_one, add_zero] at a0
    refine (mul_ne_zero hp (mul_ne_zero (Real.exp_ne_zero _) ?_)) a0
    refine div_ne_zero (neg_ne_zero.2 (mul_ne_zero two_ne_zero (sub_ne_zero.2 hx))) (mul_ne_zero two_ne_zero (pow_ne_zero _ hs))
  by_cases h : (1 / 2 : ℝ) = c0
  · exact key (1 / 3) (by norm_num) (by norm_num) (by rw [← h]; norm_num)
  · exact key (1 / 2) (by norm_num) (by norm_num) h

/-- A pulse about the middle of the unit interval, as in the default of the builder. -/
example : gaussianField .E (1 / 10) [1 / 2] zpol 1 [1 / 2] .E .Z = some 1 := by
  rw [C140_value .E (1 / 10) [1 / 2] zpol 1 le_rfl (by norm_num) _ (by simp) (by simp)]
  simp [zpol]

end Dgtd.Mode
