/-
Runs of an operator that is symmetric for a bilinear form.
-/
import Verif.Lemmas.TimeIntMap
import Mathlib.LinearAlgebra.FiniteDimensional.Basic

set_option linter.unusedSectionVars false

namespace Dgtd.TimeInt

open Dgtd.Implicit (Sdirk)
open Spec

variable {V S : Type} [AddCommGroup V] [Module ℝ V]

/-- Symmetric for `b`, and commuting with all that commutes with `A`. -/
structure SelfAdj (b : V →ₗ[ℝ] V →ₗ[ℝ] ℝ) (A Q : V →ₗ[ℝ] V) : Prop where
  comm : ∀ T : V →ₗ[ℝ] V, (∀ x, T (A x) = A (T x)) → ∀ x, T (Q x) = Q (T x)
  symm : ∀ u v, b u (Q v) = b v (Q u)

variable {b : V →ₗ[ℝ] V →ₗ[ℝ] ℝ} {A : V →ₗ[ℝ] V}

lemma SelfAdj.one (hb : ∀ u v, b u v = b v u) : SelfAdj b A LinearMap.id := ⟨fun _ _ _ => rfl, hb⟩

lemma SelfAdj.self (hA : ∀ u v, b u (A v) = b v (A u)) : SelfAdj b A A := ⟨fun _ h => h, hA⟩

lemma SelfAdj.add {Q Q' : V →ₗ[ℝ] V} (h : SelfAdj b A Q) (h' : SelfAdj b A Q') : SelfAdj b A (Q + Q') where
  comm := fun T hT x => by rw [LinearMap.add_apply, LinearMap.add_apply, map_add, h.comm T hT, h'.comm T hT]
  symm := fun u v => by rw [LinearMap.add_apply, LinearMap.add_apply, map_add, map_add, h.symm, h'.symm]

lemma SelfAdj.smul {Q : V →ₗ[ℝ] V} (c : ℝ) (h : SelfAdj b A Q) : SelfAdj b A (c • Q) where
  comm := fun T hT x => by rw [LinearMap.smul_apply, LinearMap.smul_apply, map_smul, h.comm T hT]
  symm := fun u v => by rw [LinearMap.smul_apply, LinearMap.smul_apply, map_smul, map_smul, h.symm]

lemma SelfAdj.comp (hb : ∀ u v, b u v = b v u) {Q Q' : V →ₗ[ℝ] V} (h : SelfAdj b A Q) (h' : SelfAdj b A Q') :
    SelfAdj b A (Q.comp Q') where
  comm := fun T hT x => by
    show T (Q (Q' x)) = Q (Q' (T x))
    rw [h.comm T hT, h'.comm T hT]
  symm := fun u v => by
    show b u (Q (Q' v)) = b v (Q (Q' u))
    have e : ∀ x, Q (Q' x) = Q' (Q x) := h'.comm Q fun x => (h.comm A (fun _ => rfl) x).symm
    rw [h.symm, hb, h'.symm, e]

/-- The solution of the implicit equation of a stage. -/
lemma SelfAdj.resolvent [FiniteDimensional ℝ V] (hb : ∀ u v, b u v = b v u) (hA : ∀ u v, b u (A v) = b v (A u))
    {B : V →ₗ[ℝ] V →ₗ[ℝ] ℝ} (hd : Diss B A) (hB : ∀ u, u ≠ 0 → 0 < B u u) {g : ℝ} (hg : 0 ≤ g) :
    ∃ Q, SelfAdj b A Q ∧ ∀ m p : V, m = p + g • A m → m = Q p := by
  let N : V →ₗ[ℝ] V := LinearMap.id - g • A
  have hN : ∀ x, N x = x - g • A x := fun x => rfl
  have inj : Function.Injective N := by
    rw [← LinearMap.ker_eq_bot, LinearMap.ker_eq_bot']
    intro m hm
    by_contra hne
    rw [hN, sub_eq_zero] at hm
    have h1 := hB m hne
    have h2 : B m m = g * B m (A m) := by
      have := congrArg (B m) hm
      rw [map_smul, smul_eq_mul] at this
      exact this
    have h3 := mul_nonpos_of_nonneg_of_nonpos hg (hd.diss m)
    linarith
  let E := LinearEquiv.ofInjectiveEndo N inj
  have hE : ∀ x, E x = N x := fun x => rfl
  have l : ∀ x, E.symm (N x) = x := fun x => by rw [← hE]; exact E.symm_apply_apply x
  have r : ∀ x, N (E.symm x) = x := fun x => by rw [← hE]; exact E.apply_symm_apply x
  have sN : ∀ u v, b u (N v) = b v (N u) := by
    intro u v
    rw [hN, hN, map_sub, map_sub, map_smul, map_smul, hA u v, hb u v]
  refine ⟨E.symm, ⟨fun T hT x => ?_, fun u v => ?_⟩, fun m p hm => ?_⟩
  · show T (E.symm x) = E.symm (T x)
    have hTN : ∀ y, T (N y) = N (T y) := fun y => by rw [hN, hN, map_sub, map_smul, hT]
    conv_rhs => rw [← r x, hTN, l]
  · show b u (E.symm v) = b v (E.symm u)
    conv_lhs => rw [← r u, hb, sN]
    rw [r, hb]
  · have : N m = p := by
      rw [hN]
      nth_rewrite 1 [hm]
      abel
    show m = E.symm p
    rw [← this, l]

/-- Two vectors got from `w` and from `r` in the same way. -/
def Tied (b : V →ₗ[ℝ] V →ₗ[ℝ] ℝ) (A : V →ₗ[ℝ] V) (w r y y' : V) : Prop := ∃ Q, SelfAdj b A Q ∧ y = Q w ∧ y' = Q r

section
variable {w r y y' z z' : V}

lemma Tied.reads (h : Tied b A w r y y') : b r y = b w y' := by
  obtain ⟨Q, hQ, rfl, rfl⟩ := h
  exact hQ.symm r w

lemma Tied.self (hb : ∀ u v, b u v = b v u) (c : ℝ) : Tied b A w r (c • w) (c • r) := ⟨_, (SelfAdj.one hb).smul c, rfl, rfl⟩

lemma Tied.add (h : Tied b A w r y y') (h' : Tied b A w r z z') : Tied b A w r (y + z) (y' + z') := by
  obtain ⟨Q, hQ, rfl, rfl⟩ := h
  obtain ⟨Q', hQ', rfl, rfl⟩ := h'
  exact ⟨_, hQ.add hQ', rfl, rfl⟩

lemma Tied.smul (c : ℝ) (h : Tied b A w r y y') : Tied b A w r (c • y) (c • y') := by
  obtain ⟨Q, hQ, rfl, rfl⟩ := h
  exact ⟨_, hQ.smul c, rfl, rfl⟩

lemma Tied.map (hb : ∀ u v, b u v = b v u) (hA : ∀ u v, b u (A v) = b v (A u)) (h : Tied b A w r y y') :
    Tied b A w r (A y) (A y') := by
  obtain ⟨Q, hQ, rfl, rfl⟩ := h
  exact ⟨_, SelfAdj.comp hb (SelfAdj.self hA) hQ, rfl, rfl⟩

lemma Tied.solve [FiniteDimensional ℝ V] (hb : ∀ u v, b u v = b v u) (hA : ∀ u v, b u (A v) = b v (A u))
    {B : V →ₗ[ℝ] V →ₗ[ℝ] ℝ} (hd : Diss B A) (hB : ∀ u, u ≠ 0 → 0 < B u u) {g : ℝ} (hg : 0 ≤ g) {m m' : V}
    (h : Tied b A w r y y') (hm : m = y + g • A m) (hm' : m' = y' + g • A m') : Tied b A w r m m' := by
  obtain ⟨Q, hQ, rfl, rfl⟩ := h
  obtain ⟨T, hT, hs⟩ := SelfAdj.resolvent hb hA hd hB hg
  exact ⟨_, SelfAdj.comp hb hT hQ, hs _ _ hm, hs _ _ hm'⟩

end

lemma rk4_tied (hb : ∀ u v, b u v = b v u) (hA : ∀ u v, b u (A v) = b v (A u)) {w r : V} {F F' : Tdo V S} {src src' : ℝ → V}
    (hF : ∀ t x, F.mult t x = A x + src t) (hF' : ∀ t x, F'.mult t x = A x + src' t) (hs : ∀ t, Tied b A w r (src t) (src' t))
    {x x' : V} (hx : Tied b A w r x x') (t dt : ℝ) : Tied b A w r (rk4 F x t dt).1 (rk4 F' x' t dt).1 := by
  have m : ∀ {z z' : V} (τ : ℝ), Tied b A w r z z' → Tied b A w r (F.mult τ z) (F'.mult τ z') := by
    intro z z' τ hz
    rw [hF, hF']
    exact (hz.map hb hA).add (hs τ)
  have k1 := m t hx
  have k2 := m (t + dt / 2) (hx.add (k1.smul (dt / 2)))
  have k3 := m (t + dt / 2) (hx.add (k2.smul (dt / 2)))
  have k4 := m (t + dt) (hx.add (k3.smul dt))
  exact (((hx.add (k1.smul (dt / 6))).add (k2.smul (dt / 3))).add (k3.smul (dt / 3))).add (k4.smul (dt / 6))

lemma Rel.tied [FiniteDimensional ℝ V] (hb : ∀ u v, b u v = b v u) (hA : ∀ u v, b u (A v) = b v (A u))
    {B : V →ₗ[ℝ] V →ₗ[ℝ] ℝ} (hd : Diss B A) (hB : ∀ u, u ≠ 0 → 0 < B u u) {q : Sdirk ℝ} (hq : Ideal33 q) {o : Ode} {dt : ℝ}
    (hdt : 0 ≤ dt) {w r c1 c2 c3 c1' c2' c3' x x' y y' : V} (h1 : Tied b A w r c1 c1') (h2 : Tied b A w r c2 c2')
    (h3 : Tied b A w r c3 c3') (hx : Tied b A w r x x') (h : Rel q o (dt • A) c1 c2 c3 x y) (h' : Rel q o (dt • A) c1' c2' c3' x' y') :
    Tied b A w r y y' := by
  have hqa : 0 ≤ q.a * dt := mul_nonneg (by linarith [hq.lo]) hdt
  have hga : 0 ≤ gamma23 * dt := mul_nonneg (by linarith [gamma23_bounds.1]) hdt
  have h4a : 0 ≤ a34 * dt := mul_nonneg (by linarith [is34.lo]) hdt
  have slope : ∀ {z z' c c' : V}, Tied b A w r z z' → Tied b A w r c c' → Tied b A w r ((dt • A) z + c) ((dt • A) z' + c') := by
    intro z z' c c' hz hc
    exact ((hz.map hb hA).smul dt).add hc
  have stage : ∀ {g : ℝ} {p p' c c' m m' : V}, 0 ≤ g * dt → Tied b A w r p p' → Tied b A w r c c' → m = p + g • ((dt • A) m + c) →
      m' = p' + g • ((dt • A) m' + c') → Tied b A w r m m' := by
    intro g p p' c c' m m' hg hp hc hm hm'
    refine Tied.solve hb hA hd hB hg (hp.add (hc.smul g)) ?_ ?_
    · rw [LinearMap.smul_apply] at hm
      linear_combination (norm := module) hm
    · rw [LinearMap.smul_apply] at hm'
      linear_combination (norm := module) hm'
  cases o with
  | rk4 => exact h.elim
  | backwardEuler =>
    simp only [Rel] at h h'
    exact stage (g := 1) (by linarith) hx h1 (by rw [one_smul]; exact h) (by rw [one_smul]; exact h')
  | trapezoidal =>
    simp only [Rel] at h h'
    exact stage (g := 1 / 2) (by linarith) (hx.add ((slope hx h1).smul _)) h2 h h'
  | implicitMidpoint =>
    obtain ⟨m, e1, e⟩ := h
    obtain ⟨m', e1', e'⟩ := h'
    have hm := stage (g := 1 / 2) (by linarith) hx h1 e1 e1'
    rw [e, e']
    exact hx.add (slope hm h1)
  | sdirk33 =>
    obtain ⟨y1, y2, e1, e2, e⟩ := h
    obtain ⟨y1', y2', e1', e2', e'⟩ := h'
    have t1 := stage hqa hx h1 e1 e1'
    have t2 := stage hqa (hx.add ((slope t1 h1).smul _)) h2 e2 e2'
    exact stage hqa ((hx.add ((slope t1 h1).smul _)).add ((slope t2 h2).smul _)) h3 e e'
  | sdirk23 =>
    obtain ⟨y1, y2, e1, e2, e⟩ := h
    obtain ⟨y1', y2', e1', e2', e'⟩ := h'
    have t1 := stage hga hx h1 e1 e1'
    have t2 := stage hga (hx.add ((slope t1 h1).smul _)) h2 e2 e2'
    rw [e, e']
    exact (hx.add ((slope t1 h1).smul _)).add ((slope t2 h2).smul _)
  | sdirk34 =>
    obtain ⟨y1, y2, y3, e1, e2, e3, e⟩ := h
    obtain ⟨y1', y2', y3', e1', e2', e3', e'⟩ := h'
    have t1 := stage h4a hx h1 e1 e1'
    have t2 := stage h4a (hx.add ((slope t1 h1).smul _)) h2 e2 e2'
    have t3 := stage h4a ((hx.add ((slope t1 h1).smul _)).add ((slope t2 h2).smul _)) h3 e3 e3'
    rw [e, e']
    exact ((hx.add ((slope t1 h1).smul _)).add ((slope t2 h2).smul _)).add ((slope t3 h3).smul _)

/-- The runs of two operators with the same matrix and tied sources, from tied fields, stay tied. -/
theorem run_tied [FiniteDimensional ℝ V] (hb : ∀ u v, b u v = b v u) (hA : ∀ u v, b u (A v) = b v (A u))
    {B : V →ₗ[ℝ] V →ₗ[ℝ] ℝ} (hd : Diss B A) (hB : ∀ u, u ≠ 0 → 0 < B u u) {q : Sdirk ℝ} (hq : Ideal33 q) {F F' : Tdo V S}
    {src src' : ℝ → V} {I : S → Prop} (h : Solves F A src I) (h' : Solves F' A src' I) {w r : V}
    (hs : ∀ t, Tied b A w r (src t) (src' t)) (o : Ode) (dts : List ℝ) : ∀ (x x' : V) (t : ℝ) (s s' : S), (∀ dt ∈ dts, 0 ≤ dt) →
      Tied b A w r x x' → I s → I s' → ∃ y y' c c', run q o F dts x t s = some (y, t + dts.sum, c) ∧
        run q o F' dts x' t s' = some (y', t + dts.sum, c') ∧ Tied b A w r y y' := by
  induction dts with
  | nil => exact fun x x' t s s' _ hx _ _ => ⟨x, x', s, s', by simp [run], by simp [run], hx⟩
  | cons dt rest ih =>
    intro x x' t s s' hp hx hi hi'
    have hdt := hp dt List.mem_cons_self
    have one : ∃ y y' c c', step q o F x t dt s = some (y, t + dt, c) ∧ step q o F' x' t dt s' = some (y', t + dt, c') ∧
        Tied b A w r y y' ∧ I c ∧ I c' := by
      by_cases ho : o = .rk4
      · subst ho
        exact ⟨_, _, s, s', rfl, rfl, rk4_tied hb hA h.mult h'.mult hs hx t dt, hi, hi'⟩
      · obtain ⟨y, c, e, i, k⟩ := step_rel hq h ho x t dt hdt s hi
        obtain ⟨y', c', e', i', k'⟩ := step_rel hq h' ho x' t dt hdt s' hi'
        exact ⟨y, y', c, c', e, e', Rel.tied hb hA hd hB hq hdt ((hs _).smul dt) ((hs _).smul dt) ((hs _).smul dt) hx k k', i, i'⟩
    obtain ⟨y, y', c, c', e, e', hy, i, i'⟩ := one
    obtain ⟨z, z', v, v', f, f', hz⟩ := ih y y' (t + dt) c c' (fun d hd => hp d (List.mem_cons_of_mem _ hd)) hy i i'
    refine ⟨z, z', v, v', ?_, ?_, hz⟩
    · simp only [run, e, Option.bind_eq_bind, Option.bind_some, f, List.sum_cons, add_assoc]
    · simp only [run, e', Option.bind_eq_bind, Option.bind_some, f', List.sum_cons, add_assoc]

end Dgtd.TimeInt
