/-
C145: charges are conserved.
-/
import Verif.Lemmas.Interp
import Verif.Spec.Charge
import Verif.Props.Polynomial
import Verif.Props.Recip
import Mathlib.Algebra.MvPolynomial.Funext

set_option linter.unusedSectionVars false

namespace Dgtd.TimeInt
open Dgtd.Implicit (Sdirk)
open Spec

variable {V S : Type} [AddCommGroup V] [Module ℝ V]

section
variable {A : V →ₗ[ℝ] V} {l : V →ₗ[ℝ] ℝ}

lemma rk4_keeps (hA : ∀ x, l (A x) = 0) {F : Tdo V S} {src : ℝ → V} (hF : ∀ t x, F.mult t x = A x + src t) (hs : ∀ t, l (src t) = 0) (x : V)
    (t dt : ℝ) : l (rk4 F x t dt).1 = l x := by
  have h0 : ∀ t x, l (F.mult t x) = 0 := fun t x => by rw [hF, map_add, hA, hs, add_zero]
  simp only [rk4, map_add, map_smul, h0, smul_zero, add_zero]

lemma Rel.keeps (hA : ∀ x, l (A x) = 0) {q : Sdirk ℝ} {o : Ode} {dt : ℝ} {c1 c2 c3 x y : V} (h1 : l c1 = 0) (h2 : l c2 = 0) (h3 : l c3 = 0)
    (h : Rel q o (dt • A) c1 c2 c3 x y) : l y = l x := by
  have z : ∀ v, l ((dt • A) v) = 0 := fun v => by rw [LinearMap.smul_apply, map_smul, hA, smul_zero]
  cases o with
  | rk4 => exact h.elim
  | backwardEuler =>
    have h := congrArg l h
    simpa only [map_add, map_smul, z, h1, h2, h3, smul_zero, add_zero] using h
  | trapezoidal =>
    have h := congrArg l h
    simpa only [map_add, map_smul, z, h1, h2, h3, smul_zero, add_zero] using h
  | implicitMidpoint =>
    obtain ⟨m, -, e⟩ := h
    have h := congrArg l e
    simpa only [map_add, map_smul, z, h1, h2, h3, smul_zero, add_zero] using h
  | sdirk33 =>
    obtain ⟨y1, y2, -, -, e⟩ := h
    have h := congrArg l e
    simpa only [map_add, map_smul, z, h1, h2, h3, smul_zero, add_zero] using h
  | sdirk23 =>
    obtain ⟨y1, y2, -, -, e⟩ := h
    have h := congrArg l e
    simpa only [map_add, map_smul, z, h1, h2, h3, smul_zero, add_zero] using h
  | sdirk34 =>
    obtain ⟨y1, y2, y3, -, -, -, e⟩ := h
    have h := congrArg l e
    simpa only [map_add, map_smul, z, h1, h2, h3, smul_zero, add_zero] using h

/-- A linear function that the rates never change is kept by every run. -/
theorem run_keeps (hA : ∀ x, l (A x) = 0) {q : Sdirk ℝ} (hq : Ideal33 q) {F : Tdo V S} {src : ℝ → V} {I : S → Prop} (h : Solves F A src I)
    (hs : ∀ t, l (src t) = 0) (o : Ode) (dts : List ℝ) : ∀ (x : V) (t : ℝ) (s : S), (∀ dt ∈ dts, 0 ≤ dt) → I s →
      ∃ y c, run q o F dts x t s = some (y, t + dts.sum, c) ∧ l y = l x := by
  induction dts with
  | nil => exact fun x t s _ _ => ⟨x, s, by simp [run], rfl⟩
  | cons dt rest ih =>
    intro x t s hp hi
    have hdt := hp dt List.mem_cons_self
    have one : ∃ y c, step q o F x t dt s = some (y, t + dt, c) ∧ l y = l x ∧ I c := by
      by_cases ho : o = .rk4
      · subst ho
        exact ⟨_, s, rfl, rk4_keeps hA h.mult hs x t dt, hi⟩
      · obtain ⟨y, c, e, i, k⟩ := step_rel hq h ho x t dt hdt s hi
        have hs' : ∀ t, l (dt • src t) = 0 := fun t => by rw [map_smul, hs, smul_zero]
        exact ⟨y, c, e, Rel.keeps hA (hs' _) (hs' _) (hs' _) k, i⟩
    obtain ⟨y, c, e, hy, i⟩ := one
    obtain ⟨z, v, f, hz⟩ := ih y (t + dt) c (fun d hd => hp d (List.mem_cons_of_mem _ hd)) i
    exact ⟨z, v, by simp only [run, e, Option.bind_eq_bind, Option.bind_some, f, List.sum_cons, add_assoc], hz.trans hy⟩

end

end Dgtd.TimeInt

namespace Dgtd.Galerkin
open MvPolynomial Spec Dgtd.Op Dgtd.Op.Spec
open Dgtd.Implicit Dgtd.TimeInt.Spec Dgtd.Recip
open Dgtd.Config (Material)

variable {n : Nat} {ι : Type} [Fintype ι] [DecidableEq ι] {S : Setup n ι} {p m : Nat}

/-! ### gradients of test functions on faces -/

lemma zero_on_simplex {D : Nat} (q : Poly D ℝ) (h : ∀ x, InSimplex x → eval x q = 0) : q = 0 := by
  have hD : (0 : ℝ) < 1 / (D + 1) := by positivity
  refine funext_set (fun _ => Set.Icc 0 (1 / ((D : ℝ) + 1))) (fun _ => Set.Icc_infinite hD) fun x hx => ?_
  rw [map_zero]
  refine h x ⟨fun i => (hx i (Set.mem_univ i)).1, ?_⟩
  calc ∑ i, x i ≤ ∑ _i : Fin D, 1 / ((D : ℝ) + 1) := Finset.sum_le_sum fun i _ => (hx i (Set.mem_univ i)).2
    _ = D * (1 / ((D : ℝ) + 1)) := by simp
    _ ≤ 1 := by rw [mul_one_div, div_le_one (by positivity)]; linarith

/-- The test function on a face, as a polynomial. -/
noncomputable def testPoly (φ : Test n ι) (s : Side n ι ℝ) : Poly n ℝ := bind₁ (fun d => s.restrict (s.e.geom d)) (φ s.e)

lemma eval_testPoly (φ : Test n ι) (s : Side n ι ℝ) (x : Fin n → ℝ) : eval x (testPoly φ s) = testAt φ s x := by
  unfold testPoly testAt pos
  rw [eval_bind]

/-- Derivative of the test function along a face. -/
lemma pderiv_testPoly (φ : Test n ι) (s : Side n ι ℝ) (c : Fin n) (x : Fin n → ℝ) :
    eval x (pderiv c (testPoly φ s)) = ∑ d, eval (pos s x) (pderiv d (φ s.e)) * eval x (s.jac d c) := by
  unfold testPoly
  rw [pderiv_bind, map_sum]
  refine Finset.sum_congr rfl fun d _ => ?_
  rw [map_mul, eval_bind]
  rfl

lemma cross_of_tangents : ∀ {n : Nat} (_ : n < 3) (s : Side n ι ℝ) (x : Fin n → ℝ) (w : Dir → ℝ) (_ : ∀ d : Dir, n + 1 ≤ d.val → w d = 0)
    (_ : ∀ c : Fin n, ∑ d : Fin (n + 1), (if h : d.val < 3 then w ⟨d.val, h⟩ else 0) * eval x (s.jac d c) = 0) (d : Dir),
    cross (unitNormal s x) w d = 0
  | 0, _, s, x, w, h0, _, d => by
    have w1 := h0 1 (by decide)
    have w2 := h0 2 (by decide)
    fin_cases d <;> simp [cross, unitNormal, normal, w1, w2]
  | 1, _, s, x, w, h0, ht, d => by
    have w2 := h0 2 (by decide)
    have t0 := ht 0
    rw [Fin.sum_univ_two] at t0
    simp at t0
    obtain ⟨L, hL⟩ : ∃ L, L = √(((normal s).map fun c => eval x c ^ 2).sum) := ⟨_, rfl⟩
    have u0 : unitNormal s x 0 = eval x (s.jac 1 0) / L := by unfold unitNormal; rw [← hL]; simp [normal]
    have u1 : unitNormal s x 1 = -eval x (s.jac 0 0) / L := by unfold unitNormal; rw [← hL]; simp [normal]
    have u2 : unitNormal s x 2 = 0 := by unfold unitNormal; simp [normal]
    fin_cases d
    · simp [cross, u2, w2]
    · simp [cross, u2, w2]
    · change unitNormal s x 0 * w 1 - unitNormal s x 1 * w 0 = 0
      rw [u0, u1]
      linear_combination (1 / L) * t0
  | 2, _, s, x, w, h0, ht, d => by
    have t0 := ht 0
    have t1 := ht 1
    rw [Fin.sum_univ_three] at t0 t1
    simp at t0 t1
    have hw2 : w ⟨2, by decide⟩ = w 2 := rfl
    obtain ⟨L, hL⟩ : ∃ L, L = √(((normal s).map fun c => eval x c ^ 2).sum) := ⟨_, rfl⟩
    have u0 : unitNormal s x 0 = (eval x (s.jac 1 0) * eval x (s.jac 2 1) - eval x (s.jac 2 0) * eval x (s.jac 1 1)) / L := by
      unfold unitNormal; rw [← hL]; simp [normal]
    have u1 : unitNormal s x 1 = (eval x (s.jac 2 0) * eval x (s.jac 0 1) - eval x (s.jac 0 0) * eval x (s.jac 2 1)) / L := by
      unfold unitNormal; rw [← hL]; simp [normal]
    have u2 : unitNormal s x 2 = (eval x (s.jac 0 0) * eval x (s.jac 1 1) - eval x (s.jac 1 0) * eval x (s.jac 0 1)) / L := by
      unfold unitNormal; rw [← hL]; simp [normal]
    fin_cases d
    · change unitNormal s x 1 * w 2 - unitNormal s x 2 * w 1 = 0
      rw [u1, u2]
      linear_combination (eval x (s.jac 0 1) / L) * t0 - (eval x (s.jac 0 0) / L) * t1
    · change unitNormal s x 2 * w 0 - unitNormal s x 0 * w 2 = 0
      rw [u0, u2]
      linear_combination (eval x (s.jac 1 1) / L) * t0 - (eval x (s.jac 1 0) / L) * t1
    · change unitNormal s x 0 * w 1 - unitNormal s x 1 * w 0 = 0
      rw [u0, u1]
      linear_combination (eval x (s.jac 2 1) / L) * t0 - (eval x (s.jac 2 0) / L) * t1

lemma ddx_high (q : Poly (n + 1) ℝ) (d : Dir) (h : n + 1 ≤ d.val) : ddx d q = 0 := by
  unfold ddx; rw [dif_neg (by omega)]

lemma ddx_low (hn : n < 3) (q : Poly (n + 1) ℝ) (d : Fin (n + 1)) : ddx ⟨d.val, by omega⟩ q = pderiv d q := by
  unfold ddx; rw [dif_pos d.isLt]

/-- The tangential derivative at a level face vanishes. -/
lemma cross_level (hn : n < 3) {φ : Test n ι} {s : Side n ι ℝ} (h : Level φ s) (x : Fin n → ℝ) (d : Dir) :
    cross (unitNormal s x) (fun d => eval (pos s x) (ddx d (φ s.e))) d = 0 := by
  obtain ⟨k, hk⟩ := h
  have hp : testPoly φ s = C k := by
    rw [← sub_eq_zero]
    refine zero_on_simplex _ fun x hx => ?_
    rw [map_sub, eval_testPoly, hk x hx, eval_C, sub_self]
  refine cross_of_tangents hn s x _ (fun d hd => by rw [ddx_high _ _ hd, map_zero]) (fun c => ?_) d
  have e := pderiv_testPoly φ s c x
  rw [hp, pderiv_C, map_zero] at e
  rw [e]
  refine Finset.sum_congr rfl fun d _ => ?_
  rw [dif_pos (by omega), ddx_low hn]

/-- The same of the difference at a face where the test function is continuous. -/
lemma cross_same : ∀ {n : Nat} (_ : n < 3) {φ : Test n ι} {s s2 : Side n ι ℝ} (_ : Meet s s2) (_ : ∀ x, InSimplex x → testAt φ s x = testAt φ s2 x)
    (x : Fin n → ℝ) (d : Dir),
    cross (unitNormal s x) (fun d => eval (pos s x) (ddx d (φ s.e)) - eval (pos s2 x) (ddx d (φ s2.e))) d = 0
  | 0, hn, φ, s, s2, _, _, x, d =>
    cross_of_tangents hn s x _ (fun d hd => by rw [ddx_high _ _ hd, ddx_high _ _ hd, map_zero, map_zero, sub_zero]) (fun c => c.elim0) d
  | n + 1, hn, φ, s, s2, hm, h, x, d => by
    have hp : testPoly φ s - testPoly φ s2 = 0 := zero_on_simplex _ fun x hx => by
      rw [map_sub, eval_testPoly, eval_testPoly, h x hx, sub_self]
    have hj : ∀ d c, s2.jac d c = s.jac d c := fun d c => by unfold Side.jac; rw [hm.1 d]
    refine cross_of_tangents hn s x _ (fun d hd => by rw [ddx_high _ _ hd, ddx_high _ _ hd, map_zero, map_zero, sub_zero]) (fun c => ?_) d
    have e : eval x (pderiv c (testPoly φ s)) - eval x (pderiv c (testPoly φ s2)) = 0 := by
      rw [← map_sub, ← map_sub, hp, map_zero, map_zero]
    rw [pderiv_testPoly, pderiv_testPoly, ← Finset.sum_sub_distrib] at e
    rw [← e]
    refine Finset.sum_congr rfl fun d _ => ?_
    rw [dif_pos (by omega), ddx_low hn, ddx_low hn, hj]
    ring

/-- A field of one kind with vanishing tangential components obeys all conditions. -/
lemma obeys_of {c : BdrCond} {f : FieldT} {ν : Dir → ℝ} (hν : ν 0 ^ 2 + ν 1 ^ 2 + ν 2 ^ 2 = 1) {v : FieldT → Dir → ℝ} (h0 : ∀ g, g ≠ f → v g = 0)
    (h : Holds f c → ∀ d, cross ν (v f) d = 0) : Obeys c ν v := by
  have z : ∀ g, g ≠ f → ∀ d, cross ν (v g) d = 0 := fun g hg d => by rw [h0 g hg]; simp [cross]
  cases f with
  | E =>
    have hH : v .H = 0 := h0 .H (by simp)
    cases c with
    | PEC => exact h trivial
    | PMC => exact z .H (by simp)
    | SMA =>
      intro d
      have := tang_zero hν (h trivial) d
      rw [hH]
      unfold tang at this
      simpa [cross] using this
    | SGBC =>
      intro g
      cases g with
      | E => exact h trivial
      | H => exact z .H (by simp)
  | H =>
    have hE : v .E = 0 := h0 .E (by simp)
    cases c with
    | PEC => exact z .E (by simp)
    | PMC => exact h trivial
    | SMA =>
      intro d
      have : cross (v .H) ν d = -cross ν (v .H) d := by unfold cross; ring
      rw [this, h trivial d, hE]
      simp
    | SGBC =>
      intro g
      cases g with
      | E => exact z .E (by simp)
      | H => exact h trivial

/-- The second side of a level face, with the normal of the first. -/
lemma cross_level_two : ∀ {n : Nat} (_ : n < 3) {φ : Test n ι} {s s2 : Side n ι ℝ} (_ : Meet s s2) (_ : Level φ s2) (x : Fin n → ℝ) (d : Dir),
    cross (unitNormal s x) (fun d => eval (pos s2 x) (ddx d (φ s2.e))) d = 0
  | 0, hn, φ, s, s2, _, _, x, d =>
    cross_of_tangents hn s x _ (fun d hd => by rw [ddx_high _ _ hd, map_zero]) (fun c => c.elim0) d
  | n + 1, hn, φ, s, s2, hm, h, x, d => by
    obtain ⟨k, hk⟩ := h
    have hp : testPoly φ s2 = C k := by
      rw [← sub_eq_zero]
      refine zero_on_simplex _ fun x hx => ?_
      rw [map_sub, eval_testPoly, hk x hx, eval_C, sub_self]
    have hj : ∀ d c, s2.jac d c = s.jac d c := fun d c => by unfold Side.jac; rw [hm.1 d]
    refine cross_of_tangents hn s x _ (fun d hd => by rw [ddx_high _ _ hd, map_zero]) (fun c => ?_) d
    have e := pderiv_testPoly φ s2 c x
    rw [hp, pderiv_C, map_zero] at e
    rw [e]
    refine Finset.sum_congr rfl fun d _ => ?_
    rw [dif_pos (by omega), ddx_low hn, hj]

lemma cross_neg (ν v : Dir → ℝ) (d : Dir) : cross (fun d => -ν d) v d = -cross ν v d := by unfold cross; ring

lemma meet_of (h : ValidMesh S p m) {o : Option BdrCond} {g : MeshFace n ι} (hg : (o, g) ∈ S.interior ++ S.bdr) {s : Side n ι ℝ} (hs : g.s2 = some s) :
    Meet g.s1 s := by
  have hf : g.fem ∈ Spec.faces S.skeleton := by
    simp only [Spec.faces, Setup.skeleton, List.map_map, ← List.map_append]
    exact List.mem_map_of_mem (f := fun q : Option BdrCond × MeshFace n ι => q.2.fem) hg
  exact h.simplicial.two _ hf s hs

lemma onSide_gradient (f : FieldT) (φ : Test n ι) (s : Side n ι ℝ) (x : Fin n → ℝ) :
    onSide (gradient f φ) s x f = fun d => eval (pos s x) (ddx d (φ s.e)) := by
  funext d; simp [onSide, gradient]

lemma onSide_other {f g : FieldT} (hg : g ≠ f) (φ : Test n ι) (s : Side n ι ℝ) (x : Fin n → ℝ) : onSide (gradient f φ) s x g = 0 := by
  funext d; simp [onSide, gradient, hg]

/-- The gradient of a test function is a field that respects interfaces and boundaries. -/
lemma gradient_admissible (h : ValidMesh S p m) {f : FieldT} {φ : Test n ι} (hφ : Testing S f φ) : Admissible S (gradient f φ) := by
  have hn := h.simplicial.dim
  refine ⟨?_, ?_, ?_⟩
  · rintro ⟨o, g⟩ hq rfl x hx g' d
    obtain ⟨s, hs, hc⟩ := hφ.inner _ hq rfl
    have hs : g.s2 = some s := hs
    have ho : ∀ k, onOther (gradient f φ) g x g' k = onSide (gradient f φ) s x g' k := fun k => by unfold onOther; rw [hs]
    by_cases hg : g' = f
    · subst hg
      simp only [ho]
      simp only [onSide_gradient]
      exact cross_same hn (meet_of h (List.mem_append_left _ hq) hs) hc x d
    · simp only [ho]
      simp only [onSide_other hg]
      simp [cross]
  · rintro ⟨o, g⟩ hq c hc x hx
    have hw := hφ.walls _ hq c hc
    have hν := (unit_facts h (List.mem_append_left _ hq) x hx).2.2
    have hν' : (fun d => -unitNormal g.s1 x d) 0 ^ 2 + (fun d => -unitNormal g.s1 x d) 1 ^ 2 + (fun d => -unitNormal g.s1 x d) 2 ^ 2 = 1 := by
      rw [← hν]; ring
    refine ⟨obeys_of hν (f := f) (fun g' hg => onSide_other hg φ _ x) fun hh d => ?_, ?_⟩
    · rw [onSide_gradient]
      exact cross_level hn (hw hh).1 x d
    · cases hs : g.s2 with
      | none =>
        have ho : onOther (gradient f φ) g x = 0 := by funext f d; unfold onOther; rw [hs]; rfl
        rw [ho]
        exact obeys_of hν' (f := f) (fun _ _ => rfl) fun _ d => by simp [cross]
      | some s =>
        have ho : onOther (gradient f φ) g x = onSide (gradient f φ) s x := by funext f d; unfold onOther; rw [hs]
        rw [ho]
        refine obeys_of hν' (f := f) (fun g' hg => onSide_other hg φ _ x) fun hh d => ?_
        rw [onSide_gradient, cross_neg, cross_level_two hn (meet_of h (List.mem_append_left _ hq) hs) ((hw hh).2 s hs) x d, neg_zero]
  · rintro ⟨o, g⟩ hq c hc x hx
    have hν := (unit_facts h (List.mem_append_right _ hq) x hx).2.2
    refine obeys_of hν (f := f) (fun g' hg => onSide_other hg φ _ x) fun hh d => ?_
    rw [onSide_gradient]
    exact cross_level hn (hφ.outer _ hq c hc hh) x d

/-! ### the balance of charge -/

lemma ddx_comm (a b : Dir) (q : Poly (n + 1) ℝ) : ddx a (ddx b q) = ddx b (ddx a q) := by
  unfold ddx
  by_cases ha : a.val < n + 1 <;> by_cases hb : b.val < n + 1 <;> simp [ha, hb, pderiv_comm']

lemma curl_gradient (q : Poly (n + 1) ℝ) (d : Dir) : curl (fun d => ddx d q) d = 0 := by
  unfold curl; rw [ddx_comm, sub_self]

lemma curl_zero (d : Dir) : curl (fun _ => (0 : Poly (n + 1) ℝ)) d = 0 := by
  unfold curl ddx; simp

/-! ### the operator and gradients -/

lemma weak_admissible (h : ValidMesh S p m) (ms : List (Int × Material ℝ)) {Q : PField n ι} {u : State ι ℝ} (hu : Carries S Q u)
    (ha : Admissible S Q) (f : FieldT) (d : Dir) (v : ι → ℝ) :
    weak (femOf S ms).prob u f d v = curlTerm (femOf S ms).prob u f d v - lossTerm (femOf S ms).prob u f d v := by
  rw [weak_faces]
  have z1 : ((femOf S ms).prob.interior.map fun q => interiorTerm (femOf S ms).prob.alpha u f d v q.1 q.2).sum = 0 := by
    refine sum_zero_of _ _ fun q hq => ?_
    obtain ⟨a, ha', rfl⟩ := List.mem_map.1 hq
    obtain ⟨b, hb, rfl⟩ := List.mem_map.1 ha'
    obtain ⟨o, g⟩ := b
    cases o with
    | none => exact plain_zero h hu ha hb _ f d v
    | some c => exact wall_zero h hu ha hb _ f d v
  have z2 : ((femOf S ms).prob.bdr.map fun q => exteriorTerm (femOf S ms).prob.alpha u f d v q.1 q.2).sum = 0 := by
    refine sum_zero_of _ _ fun q hq => ?_
    obtain ⟨a, ha', rfl⟩ := List.mem_map.1 hq
    obtain ⟨b, hb, rfl⟩ := List.mem_map.1 ha'
    obtain ⟨o, g⟩ := b
    cases o with
    | none => rfl
    | some c => exact exterior_zero h hu ha hb _ f d v
  rw [z1, z2, add_zero, add_zero]

/-- What the operator makes of a gradient: losses only. -/
lemma weak_gradient (h : ValidMesh S p m) (ms : List (Int × Material ℝ)) {f : FieldT} {φ : Test n ι} (hφ : Testing S f φ) {w : State ι ℝ}
    (hw : Carries S (gradient f φ) w) (g : FieldT) (d : Dir) (v : ι → ℝ) :
    weak (femOf S ms).prob w g d v = -lossTerm (femOf S ms).prob w g d v := by
  rw [weak_admissible h ms hw (gradient_admissible h hφ), curl_exact h ms hw]
  have z : ∀ e : Elem n ι ℝ, curl (gradient f φ e (altField g)) d = 0 := by
    intro e
    by_cases hg : altField g = f
    · have : gradient f φ e (altField g) = fun d => ddx d (φ e) := by funext d; simp [gradient, hg]
      rw [this]; exact curl_gradient _ _
    · have : gradient f φ e (altField g) = fun _ => 0 := by funext d; simp [gradient, hg]
      rw [this]; exact curl_zero _
  rw [sum_zero_of _ _ fun c _ => by rw [z, map_zero, mul_zero, mul_zero, map_zero, mul_zero], zero_sub]

lemma pairing_form (h : ValidMesh S p m) (g : Cell n ι → ℝ) {f : FieldT} {φ : Test n ι} {w : State ι ℝ}
    (hw : Carries S (gradient f φ) w) (v : Dir → ι → ℝ) :
    ∑ d, v d ⬝ᵥ (massMatrix (S.cells.map fun c => (c, g c))).mulVec (w f d) = (S.cells.map fun c => g c * pairing c.e (φ c.e) v).sum := by
  simp only [mass_form h]
  rw [list_sum_swap]
  congr 1
  refine List.map_congr_left fun c hc => ?_
  rw [← Finset.mul_sum]
  unfold pairing
  congr 1
  refine Finset.sum_congr rfl fun d _ => ?_
  rw [hw c hc]
  simp [gradient]

lemma other_form (h : ValidMesh S p m) (g : Cell n ι → ℝ) {f : FieldT} {φ : Test n ι} {w : State ι ℝ}
    (hw : Carries S (gradient f φ) w) {f' : FieldT} (hf : f' ≠ f) (v : Dir → ι → ℝ) :
    ∑ d, v d ⬝ᵥ (massMatrix (S.cells.map fun c => (c, g c))).mulVec (w f' d) = 0 := by
  refine Finset.sum_eq_zero fun d _ => ?_
  rw [mass_form h]
  refine sum_zero_of _ _ fun c hc => ?_
  rw [hw c hc]
  simp [gradient, hf]

lemma charge_form (h : ValidMesh S p m) (ms : List (Int × Material ℝ)) {f : FieldT} {φ : Test n ι} {w : State ι ℝ}
    (hw : Carries S (gradient f φ) w) (u : State ι ℝ) : charge S ms f φ u = -∑ d, u f d ⬝ᵥ (massOf S ms f).mulVec (w f d) := by
  cases f with
  | E => exact congrArg Neg.neg (pairing_form h (fun c => (materialOf ms c).eps) hw (u .E)).symm
  | H => exact congrArg Neg.neg (pairing_form h (fun c => (materialOf ms c).mu) hw (u .H)).symm

lemma dot_symm {M : Matrix ι ι ℝ} (h : M.transpose = M) (v w : ι → ℝ) : v ⬝ᵥ M.mulVec w = w ⬝ᵥ M.mulVec v := by
  rw [Matrix.dotProduct_mulVec, ← Matrix.mulVec_transpose, h, dotProduct_comm]

/-- The rate of the charge. -/
lemma charge_rate (h : ValidMesh S p m) (ms : List (Int × Material ℝ)) (hm : ValidMaterials S ms)
    (hw : ∀ q ∈ S.interior ++ S.bdr, ∀ x ∈ q.2.rule, 0 ≤ x.1) {f : FieldT} {φ : Test n ι} (hφ : Testing S f φ) {w : State ι ℝ}
    (hc : Carries S (gradient f φ) w) (u : State ι ℝ) :
    charge S ms f φ (globalMult (femOf S ms).prob u) = if f = .E then conduction S ms φ u else 0 := by
  have hg := good_fem h ms hm hw
  have hs : (femOf S ms).prob.Msig.transpose = (femOf S ms).prob.Msig := mass_symm h _
  have hr := reading_symm_mult (femOf S ms).prob hg hs w u
  have hR : reading (massOf S ms) u (globalMult (femOf S ms).prob w) =
      -∑ d, u .E d ⬝ᵥ (massMatrix (S.cells.map fun c => (c, (materialOf ms c).sigma))).mulVec (w .E d) := by
    unfold reading
    rw [← Finset.sum_neg_distrib]
    refine Finset.sum_congr rfl fun d _ => ?_
    rw [weak_test _ hg, weak_test _ hg, weak_gradient h ms hφ hc, weak_gradient h ms hφ hc]
    simp only [lossTerm, neg_zero, sub_zero]
    rfl
  rw [hR] at hr
  rw [charge_form h ms hc]
  unfold reading at hr
  rw [Finset.sum_sub_distrib] at hr
  simp only [dot_symm (hg.symm _) (w _ _)] at hr
  cases f with
  | E =>
    have z := other_form h (fun c => (materialOf ms c).mu) hc (f' := .H) (by decide) (globalMult (femOf S ms).prob u .H)
    have e := pairing_form h (fun c => (materialOf ms c).sigma) hc (u .E)
    change _ - (∑ d, globalMult (femOf S ms).prob u .H d ⬝ᵥ (massMatrix (S.cells.map fun c => (c, (materialOf ms c).mu))).mulVec (w .H d)) = _ at hr
    rw [z, sub_zero] at hr
    rw [hr, e, neg_neg, if_pos rfl]
    rfl
  | H =>
    have z := other_form h (fun c => (materialOf ms c).eps) hc (f' := .E) (by decide) (globalMult (femOf S ms).prob u .E)
    have e := other_form h (fun c => (materialOf ms c).sigma) hc (f' := .E) (by decide) (u .E)
    change (∑ d, globalMult (femOf S ms).prob u .E d ⬝ᵥ (massMatrix (S.cells.map fun c => (c, (materialOf ms c).eps))).mulVec (w .E d)) - _ = _ at hr
    rw [z, e, zero_sub, neg_zero] at hr
    rw [hr, if_neg (by decide)]

/-- **C145**: on every valid mesh with valid materials, electric charge as any continuous test function sees it that is level on the walls
holding charge, and whose gradient the elements can hold, changes only by the currents in conductors; magnetic charge does not change. -/
theorem C145_continuity (h : ValidMesh S p m) (ms : List (Int × Material ℝ)) (hm : ValidMaterials S ms)
    (hw : ∀ q ∈ S.interior ++ S.bdr, ∀ x ∈ q.2.rule, 0 ≤ x.1) :
    ∃ F, S.fem ms = .ok F ∧ ∀ (φ : Test n ι) (w u : State ι ℝ),
      (Testing S .E φ → Carries S (gradient .E φ) w → charge S ms .E φ (globalMult F.prob u) = conduction S ms φ u) ∧
      (Testing S .H φ → Carries S (gradient .H φ) w → charge S ms .H φ (globalMult F.prob u) = 0) :=
  ⟨femOf S ms, fem_ok S ms hm, fun φ w u => ⟨fun hφ hc => by simpa using charge_rate h ms hm hw hφ hc u,
    fun hφ hc => by simpa using charge_rate h ms hm hw hφ hc u⟩⟩

/-- The charge as a linear function of the vector of unknowns. -/
noncomputable def chargeFn (S : Setup n ι) (ms : List (Int × Material ℝ)) (f : FieldT) (w : State ι ℝ) : (Slot ι → ℝ) →ₗ[ℝ] ℝ where
  toFun x := -∑ d, unflat x f d ⬝ᵥ (massOf S ms f).mulVec (w f d)
  map_add' x y := by
    have e : ∀ d, unflat (x + y) f d = unflat x f d + unflat y f d := fun d => rfl
    simp only [e, add_dotProduct, Finset.sum_add_distrib]
    ring
  map_smul' a x := by
    have e : ∀ d, unflat (a • x) f d = a • unflat x f d := fun d => rfl
    simp only [e, smul_dotProduct, smul_eq_mul, ← Finset.mul_sum, RingHom.id_apply]
    ring

/-- **C145**: with every integrator and whatever the steps, magnetic charge, and without conductors electric charge, stay what they were at
the start, if the sources bring none. -/
theorem C145_run (h : ValidMesh S p m) (ms : List (Int × Material ℝ)) (hm : ValidMaterials S ms) (hal : 0 ≤ S.alpha)
    (hw : ∀ q ∈ S.interior ++ S.bdr, ∀ x ∈ q.2.rule, 0 ≤ x.1) (f : FieldT) (φ : Test n ι) (hφ : Testing S f φ) (w : State ι ℝ)
    (hc : Carries S (gradient f φ) w) (hf : f = .H ∨ ∀ c ∈ S.cells, (materialOf ms c).sigma = 0) (j : ℝ → State ι ℝ)
    (hj : ∀ t, charge S ms f φ (j t) = 0) (q : Sdirk ℝ) (hi : Ideal33 q) :
    ∃ F A, S.fem ms = .ok F ∧ (∀ u : State ι ℝ, A.mulVec (flat u) = flat (globalMult F.prob u)) ∧
      ∀ (u : State ι ℝ) (o : TimeInt.Ode) (dts : List ℝ) (_ : ∀ dt ∈ dts, 0 ≤ dt) (t : ℝ), ∃ y c,
        TimeInt.run q o (TimeInt.globalTdo A fun t => flat (j t)) dts (flat u) t fresh = some (flat y, t + dts.sum, c) ∧
          charge S ms f φ y = charge S ms f φ u := by
  obtain ⟨F, M, e, hg, hal', he, hp, hsig⟩ := good_of h ms hm hw
  rw [fem_ok S ms hm] at e
  obtain rfl := Except.ok.inj e
  obtain ⟨A, hA⟩ := exists_matrix (femOf S ms).prob
  refine ⟨femOf S ms, A, fem_ok S ms hm, hA, fun u o dts hd t => ?_⟩
  have hl : ∀ u : State ι ℝ, chargeFn S ms f w (flat u) = charge S ms f φ u := fun u => (charge_form h ms hc u).symm
  have hl0 : ∀ x, chargeFn S ms f w (A.mulVecLin x) = 0 := by
    intro x
    rw [Matrix.mulVecLin_apply, ← flat_unflat x, hA, hl, charge_rate h ms hm hw hφ hc]
    split
    · rename_i hE
      rcases hf with rfl | hf
      · exact absurd hE (by decide)
      · exact sum_zero_of _ _ fun c hc => by rw [hf c hc, zero_mul]
    · rfl
  obtain ⟨y, c, e, hy⟩ := TimeInt.run_keeps (l := chargeFn S ms f w) hl0 hi (TimeInt.global_solves hg
    (by change 0 ≤ (femOf S ms).alpha; rw [hal']; exact hal) hsig (fun u hu => by rw [he]; exact hp u hu) hA fun t => flat (j t))
    (fun t => by rw [hl, hj]) o dts (flat u) t fresh hd (good_fresh A)
  refine ⟨unflat y, c, e, ?_⟩
  rw [← hl, ← hl]
  exact hy

/-- On straight elements that hold all polynomials of the order `p`, the test functions are the continuous ones of order `p + 1`. -/
theorem C145_held (h : ValidMesh S p 1)
    (hcom : ∀ c ∈ S.cells, ∀ q : Poly (n + 1) ℝ, q.totalDegree ≤ p → ∃ a : Nat → ℝ, q = ∑ i ∈ Finset.range c.e.size, C (a i) * c.e.shape i)
    (f : FieldT) (φ : Test n ι) (hφ : ∀ c ∈ S.cells, (φ c.e).totalDegree ≤ p + 1) : ∃ w, Carries S (gradient f φ) w := by
  have hdeg : ∀ c ∈ S.cells, ∀ g d, (gradient f φ c.e g d).totalDegree ≤ p := by
    intro c hc g d
    unfold gradient ddx
    split_ifs
    · exact (totalDegree_pderiv _ _).trans (by have := hφ c hc; omega)
    · simp
    · simp
  obtain ⟨w, r, hw, -⟩ := carry_time h hcom (fun _ => gradient f φ) (fun _ => 0) (fun _ => hdeg) (fun _ c _ g d => by simp)
    fun t c _ g d a => by simpa using hasDerivAt_const t (coeff a (gradient f φ c.e g d))
  exact ⟨w 0, hw 0⟩

/-- **C145** on straight elements of the order `p`, for every continuous test function of the order `p + 1`. -/
theorem C145_straight (h : ValidMesh S p 1) (ms : List (Int × Material ℝ)) (hm : ValidMaterials S ms)
    (hw : ∀ q ∈ S.interior ++ S.bdr, ∀ x ∈ q.2.rule, 0 ≤ x.1)
    (hcom : ∀ c ∈ S.cells, ∀ q : Poly (n + 1) ℝ, q.totalDegree ≤ p → ∃ a : Nat → ℝ, q = ∑ i ∈ Finset.range c.e.size, C (a i) * c.e.shape i) :
    ∃ F, S.fem ms = .ok F ∧ ∀ φ : Test n ι, (∀ c ∈ S.cells, (φ c.e).totalDegree ≤ p + 1) → ∀ u : State ι ℝ,
      (Testing S .E φ → charge S ms .E φ (globalMult F.prob u) = conduction S ms φ u) ∧
      (Testing S .H φ → charge S ms .H φ (globalMult F.prob u) = 0) := by
  obtain ⟨F, e, hF⟩ := C145_continuity h ms hm hw
  refine ⟨F, e, fun φ hφ u => ⟨fun ht => ?_, fun ht => ?_⟩⟩
  · obtain ⟨w, hc⟩ := C145_held h hcom .E φ hφ
    exact (hF φ w u).1 ht hc
  · obtain ⟨w, hc⟩ := C145_held h hcom .H φ hφ
    exact (hF φ w u).2 ht hc

end Dgtd.Galerkin
