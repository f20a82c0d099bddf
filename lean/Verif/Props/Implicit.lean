/-
C31: the cached implicit factorisation is never stale.
-/
import Verif.Model.Implicit
import Mathlib.Tactic.Abel
import Mathlib.Tactic.NormNum
import Mathlib.Tactic.FinCases
import Mathlib.Data.Rat.Defs
import Mathlib.LinearAlgebra.Matrix.Determinant.Basic

set_option linter.unusedSectionVars false

namespace Dgtd.Implicit

open Matrix

variable {K : Type} [Field K] [DecidableEq K] {ι : Type} [Fintype ι] [DecidableEq ι]

/-- The cache belongs to the operator: once formed, the dense copy is the operator, and a factorisation, when
present, is the one of the recorded step. -/
structure Good (A : Matrix ι ι K) (c : Cache K ι) : Prop where
  dense : c.formed = true → c.aDense = A
  fact : c.formed = true → (∀ J, c.jInv = some J → J = 1 - c.cachedDt • A) ∧
    (c.cachedDt ≠ -1 → c.jInv ≠ none)
  unformed : c.formed = false → c.jInv = none ∧ c.cachedDt = -1

lemma good_fresh (A : Matrix ι ι K) : Good A (fresh : Cache K ι) :=
  ⟨by simp [fresh], by simp [fresh], by simp [fresh]⟩

lemma good_step (A : Matrix ι ι K) (c : Cache K ι) (h : Good A c) (dt : K) :
    Good A (refactor dt (formDense A c)) ∧ (refactor dt (formDense A c)).cachedDt = dt ∧
      (refactor dt (formDense A c)).formed = true := by
  have key : Good A (formDense A c) ∧ (formDense A c).formed = true := by
    unfold formDense
    by_cases hf : c.formed = true
    · rw [if_pos hf]; exact ⟨h, hf⟩
    · rw [if_neg hf]
      have := h.unformed (by simpa using hf)
      exact ⟨⟨by simp, by simp [this.1], by simp⟩, rfl⟩
  obtain ⟨g, hf⟩ := key
  unfold refactor
  by_cases hd : dt = (formDense A c).cachedDt
  · rw [if_neg (by simpa using hd)]
    exact ⟨g, hd.symm, hf⟩
  · rw [if_pos (by simpa using hd)]
    refine ⟨⟨?_, ?_, ?_⟩, rfl, hf⟩
    · intro _; exact g.dense hf
    · intro _
      refine ⟨fun J hJ => ?_, fun _ => by simp⟩
      simp only [Option.some.injEq] at hJ
      rw [← hJ, g.dense hf, neg_smul]
      abel
    · intro h2
      simp only at h2
      rw [hf] at h2; exact absurd h2 (by simp)

lemma implicit_result {A : Matrix ι ι K} {src : ι → K} {c : Cache K ι} (h : Good A c) {dt : K} {x k : ι → K}
    {c' : Cache K ι} (e : implicitSolve A src c dt x = some (k, c')) :
    Good A c' ∧ c'.formed = true ∧ c'.cachedDt = dt ∧ c'.jInv ≠ none ∧ IsUnit (1 - dt • A).det ∧
      k = (1 - dt • A)⁻¹ *ᵥ (A *ᵥ x + src) := by
  obtain ⟨g, hd, hf⟩ := good_step A c h dt
  unfold implicitSolve at e
  simp only at e
  split at e
  · exact absurd e (by simp)
  · rename_i J hJ
    have hJe := (g.fact hf).1 J hJ
    rw [hd] at hJe
    subst hJe
    split at e
    · rename_i hu
      simp only [Option.some.injEq, Prod.mk.injEq] at e
      obtain ⟨rfl, rfl⟩ := e
      exact ⟨g, hf, hd, by simp [hJ], hu, rfl⟩
    · exact absurd e (by simp)

/-- **C31**: in every history of implicit solves on one operator, whatever the steps, every result solves the
equation of its own step: `(I - dt A) k = A x + src`. -/
theorem C31_never_stale (A : Matrix ι ι K) (calls : List (K × (ι → K) × (ι → K))) (ks : List (ι → K))
    (c : Cache K ι) (h : solveAll A fresh calls = some (ks, c)) :
    ks.length = calls.length ∧
    ∀ (i : Nat) (dt : K) (x src k : ι → K), calls[i]? = some (dt, x, src) → ks[i]? = some k →
      (1 - dt • A) *ᵥ k = A *ᵥ x + src := by
  have gen : ∀ (calls : List (K × (ι → K) × (ι → K))) (c0 : Cache K ι), Good A c0 → ∀ ks c,
      solveAll A c0 calls = some (ks, c) → ks.length = calls.length ∧
      ∀ (i : Nat) (dt : K) (x src k : ι → K), calls[i]? = some (dt, x, src) → ks[i]? = some k →
        (1 - dt • A) *ᵥ k = A *ᵥ x + src := by
    intro calls
    induction calls with
    | nil =>
      intro c0 _ ks c e
      simp only [solveAll, Option.some.injEq, Prod.mk.injEq] at e
      rw [← e.1]
      exact ⟨rfl, by simp⟩
    | cons q r ih =>
      obtain ⟨dt, x, src⟩ := q
      intro c0 g ks c e
      simp only [solveAll, Option.bind_eq_bind, Option.bind_eq_some_iff] at e
      obtain ⟨⟨k, c1⟩, e1, ⟨ks', c2⟩, e2, e3⟩ := e
      simp only [Option.some.injEq, Prod.mk.injEq] at e3
      obtain ⟨rfl, rfl⟩ := e3
      obtain ⟨g1, -, -, -, hu, hk⟩ := implicit_result g e1
      obtain ⟨hl, hr⟩ := ih c1 g1 _ _ e2
      refine ⟨by simp [hl], ?_⟩
      intro i dt' x' src' k' hi hk'
      cases i with
      | zero =>
        simp only [List.getElem?_cons_zero, Option.some.injEq, Prod.mk.injEq] at hi hk'
        obtain ⟨rfl, rfl, rfl⟩ := hi
        subst hk'
        rw [hk, mulVec_mulVec, mul_nonsing_inv _ hu, one_mulVec]
      | succ i =>
        simp only [List.getElem?_cons_succ] at hi hk'
        exact hr i dt' x' src' k' hi hk'
  exact gen calls fresh (good_fresh A) ks c h

/-- **C31**, history independence: a solve after any history returns what it would return as the first solve of
a new solver. -/
theorem C31_history_independent (A : Matrix ι ι K) (calls : List (K × (ι → K) × (ι → K))) (ks : List (ι → K))
    (c : Cache K ι) (h : solveAll A fresh calls = some (ks, c)) (dt : K) (hdt : dt ≠ -1) (src x : ι → K) :
    (implicitSolve A src c dt x).map Prod.fst = (implicitSolve A src fresh dt x).map Prod.fst := by
  have gen : ∀ (calls : List (K × (ι → K) × (ι → K))) (c0 : Cache K ι), Good A c0 → ∀ ks c,
      solveAll A c0 calls = some (ks, c) → Good A c := by
    intro calls
    induction calls with
    | nil =>
      intro c0 g ks c e
      simp only [solveAll, Option.some.injEq, Prod.mk.injEq] at e
      rw [← e.2]; exact g
    | cons q r ih =>
      obtain ⟨dt, x, src⟩ := q
      intro c0 g ks c e
      simp only [solveAll, Option.bind_eq_bind, Option.bind_eq_some_iff] at e
      obtain ⟨⟨k, c1⟩, e1, ⟨ks', c2⟩, e2, e3⟩ := e
      simp only [Option.some.injEq, Prod.mk.injEq] at e3
      rw [← e3.2]
      exact ih c1 (implicit_result g e1).1 _ _ e2
  classical
  have res : ∀ c0 : Cache K ι, Good A c0 →
      (implicitSolve A src c0 dt x).map Prod.fst =
        if IsUnit (1 - dt • A).det then some ((1 - dt • A)⁻¹ *ᵥ (A *ᵥ x + src)) else none := by
    intro c0 g0
    obtain ⟨g, hd, hf⟩ := good_step A c0 g0 dt
    unfold implicitSolve
    simp only
    split
    · rename_i hn
      exact absurd hn ((g.fact hf).2 (by rw [hd]; exact hdt))
    · rename_i J hJ
      have hJe := (g.fact hf).1 J hJ
      rw [hd] at hJe
      subst hJe
      split <;> simp_all
  rw [res c (gen calls fresh (good_fresh A) ks c h), res fresh (good_fresh A)]

/-- **C31**, completion: the history completes whenever every step has a regular matrix and the step -1, which
the code uses as a mark for "nothing cached", is not used. -/
theorem C31_completes (A : Matrix ι ι K) (calls : List (K × (ι → K) × (ι → K)))
    (h : ∀ q ∈ calls, q.1 ≠ -1 ∧ IsUnit (1 - q.1 • A).det) : ∃ r, solveAll A fresh calls = some r := by
  have gen : ∀ (calls : List (K × (ι → K) × (ι → K))) (c0 : Cache K ι), Good A c0 →
      (∀ q ∈ calls, q.1 ≠ -1 ∧ IsUnit (1 - q.1 • A).det) → ∃ r, solveAll A c0 calls = some r := by
    intro calls
    induction calls with
    | nil => intro c0 _ _; exact ⟨_, rfl⟩
    | cons q r ih =>
      obtain ⟨dt, x, src⟩ := q
      intro c0 g hq
      obtain ⟨hdt, hu⟩ := hq (dt, x, src) (by simp)
      obtain ⟨g1, hd, hf⟩ := good_step A c0 g dt
      obtain ⟨J, hJ⟩ : ∃ J, (refactor dt (formDense A c0)).jInv = some J :=
        Option.ne_none_iff_exists'.1 ((g1.fact hf).2 (by rw [hd]; exact hdt))
      have hJe := (g1.fact hf).1 J hJ
      rw [hd] at hJe
      have e : implicitSolve A src c0 dt x =
          some (J⁻¹ *ᵥ (A *ᵥ x + src), refactor dt (formDense A c0)) := by
        unfold implicitSolve
        simp only [hJ]
        rw [if_pos (by rw [hJe]; exact hu)]
      obtain ⟨r', hr'⟩ := ih _ g1 (fun q hq' => hq q (List.mem_cons_of_mem _ hq'))
      exact ⟨(J⁻¹ *ᵥ (A *ᵥ x + src) :: r'.1, r'.2), by
        simp only [solveAll, e, Option.bind_eq_bind, Option.bind_some, hr']⟩
  exact gen calls fresh (good_fresh A) h

/-- Failing case: a first solve with step exactly -1 finds no factorisation. -/
theorem C31_mark_as_first_step (A : Matrix ι ι K) (src x : ι → K) : implicitSolve A src fresh (-1) x = none := by
  simp [implicitSolve, refactor, formDense, fresh]

/-- The integrator of the thin-layer solver calls the solve with a single step size; its result does not depend
on the cache it finds. -/
theorem C31_integrator (s : Sdirk K) (A : Matrix ι ι K) (src : K → ι → K) (c1 c2 : Cache K ι)
    (h1 : Good A c1) (h2 : Good A c2) (x : ι → K) (t dt : K) (hdt : s.a * dt ≠ -1)
    (hu : IsUnit (1 - (s.a * dt) • A).det) :
    ∃ y d1 d2, sdirk33 s A src c1 x t dt = some (y, t + dt, d1) ∧ sdirk33 s A src c2 x t dt = some (y, t + dt, d2) ∧
      Good A d1 ∧ Good A d2 := by
  have step : ∀ (c : Cache K ι), Good A c → ∀ src x : ι → K, ∃ c', Good A c' ∧
      implicitSolve A src c (s.a * dt) x = some ((1 - (s.a * dt) • A)⁻¹ *ᵥ (A *ᵥ x + src), c') := by
    intro c g src x
    obtain ⟨g1, hd, hf⟩ := good_step A c g (s.a * dt)
    obtain ⟨J, hJ⟩ : ∃ J, (refactor (s.a * dt) (formDense A c)).jInv = some J :=
      Option.ne_none_iff_exists'.1 ((g1.fact hf).2 (by rw [hd]; exact hdt))
    have hJe := (g1.fact hf).1 J hJ
    rw [hd] at hJe
    refine ⟨_, g1, ?_⟩
    unfold implicitSolve
    simp only [hJ]
    rw [if_pos (by rw [hJe]; exact hu), hJe]
  obtain ⟨a1, g1, e1⟩ := step c1 h1 (src (t + s.a * dt)) x
  obtain ⟨b1, k1, f1⟩ := step c2 h2 (src (t + s.a * dt)) x
  generalize (1 - (s.a * dt) • A)⁻¹ *ᵥ (A *ᵥ x + src (t + s.a * dt)) = kk1 at *
  obtain ⟨a2, g2, e2⟩ := step a1 g1 (src (t + s.c * dt)) (x + ((s.c - s.a) * dt) • kk1)
  obtain ⟨b2, k2, f2⟩ := step b1 k1 (src (t + s.c * dt)) (x + ((s.c - s.a) * dt) • kk1)
  generalize (1 - (s.a * dt) • A)⁻¹ *ᵥ (A *ᵥ (x + ((s.c - s.a) * dt) • kk1) + src (t + s.c * dt)) = kk2 at *
  obtain ⟨a3, g3, e3⟩ := step a2 g2 (src (t + dt)) (x + (s.b * dt) • kk1 + ((1 - s.a - s.b) * dt) • kk2)
  obtain ⟨b3, k3, f3⟩ := step b2 k2 (src (t + dt)) (x + (s.b * dt) • kk1 + ((1 - s.a - s.b) * dt) • kk2)
  generalize (1 - (s.a * dt) • A)⁻¹ *ᵥ (A *ᵥ (x + (s.b * dt) • kk1 + ((1 - s.a - s.b) * dt) • kk2) +
    src (t + dt)) = kk3 at *
  refine ⟨x + (s.b * dt) • kk1 + ((1 - s.a - s.b) * dt) • kk2 + (s.a * dt) • kk3, a3, b3, ?_, ?_, g3, k3⟩
  · simp only [sdirk33, e1, e2, e3, Option.bind_eq_bind, Option.bind_some]
  · simp only [sdirk33, f1, f2, f3, Option.bind_eq_bind, Option.bind_some]

/-- A damped rotation: regular for the steps 1 and 2, none of which is the mark. -/
example : ∀ q ∈ [((1 : ℚ), (![1, 0] : Fin 2 → ℚ), (0 : Fin 2 → ℚ)), (2, ![0, 1], 0), (1, ![1, 1], 0)],
    q.1 ≠ -1 ∧ IsUnit (1 - q.1 • (!![-1, 1; -1, -1] : Matrix (Fin 2) (Fin 2) ℚ)).det := by
  intro q hq
  simp only [List.mem_cons, List.not_mem_nil, or_false] at hq
  rcases hq with rfl | rfl | rfl <;> constructor <;> norm_num [det_fin_two, isUnit_iff_ne_zero]

end Dgtd.Implicit
