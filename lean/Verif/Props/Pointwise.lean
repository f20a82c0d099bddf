/-
C152: what the probes at a point record is the solution of Maxwell's equations at that point.
-/
import Verif.Props.Simulate
import Verif.Lemmas.Pointwise

set_option linter.unusedSectionVars false

namespace Dgtd.Simulate
open Spec Dgtd.TimeLoop.Spec Dgtd.Op Dgtd.Galerkin Dgtd.Galerkin.Spec
open Dgtd.Config (Material Err)
open Dgtd.Implicit (flat unflat Slot Sdirk fresh Cache)
open Dgtd.TimeInt (Tdo Ode globalTdo)
open Dgtd.TimeInt.Spec (order Ideal33)
open MvPolynomial

variable {n : Nat} {ι : Type} [Fintype ι] [DecidableEq ι] {S : Setup n ι} {ms : List (Int × Material ℝ)} {p : Nat} {ρ m0 m1 Λ h B T : ℝ}
  {F : Solution n ι} {node : Elem n ι ℝ → Nat → Fin (n + 1) → ℝ}

/-- Constant of the errors at points. -/
noncomputable def pointConst (n p : Nat) (L ρ m0 Λ K : ℝ) : ℝ :=
  √(2 * L * (n + 1).factorial * (|ρ| + 1) ^ (n + 1) / m0) * K + (1 + Λ) * 3 ^ (p + 1)

lemma pointConst_nonneg (n p : Nat) {L ρ m0 Λ K : ℝ} (hΛ : 0 ≤ Λ) (hK : 0 ≤ K) : 0 ≤ pointConst n p L ρ m0 Λ K := by
  unfold pointConst; positivity

/-- From the norm of the energy to points. -/
lemma close_of (r : Resolves S ms p ρ m0 m1 Λ h B T F node) (hm0 : 0 < m0) (hα : 0 ≤ S.alpha) (hΛ : 0 ≤ Λ) {L K e t : ℝ} (hL0 : 0 ≤ L)
    (hL : ∀ v : Poly (n + 1) ℝ, v.totalDegree ≤ p → ∀ x, InSimplex x → eval x v ^ 2 ≤ L * integral (n + 1) (v ^ 2)) (hK : 0 ≤ K) (he : 0 ≤ e)
    (h0 : 0 ≤ t) (hT : t ≤ T) (y : State ι ℝ)
    (hy : ∀ w, Sampled S node F t w → √(fieldEnergy S ms (y - w)) ≤ K * (1 + t) * √(volume S) * (B * (h ^ p + e))) :
    Close S F t (pointConst n p L ρ m0 Λ K * (1 + t) * (1 + √(volume S)) * (B * ((h ^ p + e) / √(h ^ (n + 1))))) y := by
  obtain ⟨w, hw⟩ : ∃ w, Sampled S node F t w := by
    obtain ⟨w, hw⟩ := gather r.mesh fun c i s f d => F c.e f d (s, fun k => eval (node c.e i) (c.e.geom k))
    exact ⟨w t, fun c hc i hi f d => hw c hc i hi t f d⟩
  intro c hc x hx f d
  have hh := r.fine.pos
  have hB := r.bound
  have h1 := point_le r.mesh hm0 r.between (thick_fine r.toSmooth) hL0 hL hc (y - w) f d x hx
  have h2 := C144_nodes n p ρ m0 m1 Λ hm0 ι S ms h B T F node r hα t h0 hT w hw c hc x hx f d
  have h3 := hy w hw
  have hsub : eval x (onElem c.e ((y - w) f d)) = eval x (onElem c.e (y f d)) - eval x (onElem c.e (w f d)) := by
    rw [← map_sub, ← onElem_sub]; rfl
  rw [hsub] at h1
  have hq : 0 < √(h ^ (n + 1)) := Real.sqrt_pos.2 (by positivity)
  have hq1 : √(h ^ (n + 1)) ≤ 1 := Real.sqrt_le_one.2 (pow_le_one₀ hh.le r.small)
  have hρ := abs_nonneg ρ
  obtain ⟨Q, hQ⟩ : ∃ Q, Q = √(2 * L * (n + 1).factorial * (|ρ| + 1) ^ (n + 1) / m0) := ⟨_, rfl⟩
  have hQ0 : 0 ≤ Q := by rw [hQ]; exact Real.sqrt_nonneg _
  have hQe : √(2 * L * (n + 1).factorial / (m0 * (h / (|ρ| + 1)) ^ (n + 1))) = Q / √(h ^ (n + 1)) := by
    rw [hQ, ← Real.sqrt_div (by positivity)]
    congr 1
    rw [div_pow]; field_simp
  rw [hQe] at h1
  obtain ⟨a, hadef⟩ : ∃ a, a = B * (h ^ p + e) := ⟨_, rfl⟩
  have ha : 0 ≤ a := by rw [hadef]; positivity
  have hgoal : B * ((h ^ p + e) / √(h ^ (n + 1))) = a / √(h ^ (n + 1)) := by rw [hadef, mul_div_assoc]
  rw [hgoal]
  rw [← hadef] at h3
  obtain ⟨b, hb⟩ : ∃ b, b = a / √(h ^ (n + 1)) := ⟨_, rfl⟩
  have hb0 : 0 ≤ b := by rw [hb]; positivity
  have hab : a ≤ b := by rw [hb]; exact le_div_self ha hq hq1
  have v0 := Real.sqrt_nonneg (volume S)
  have g1 : |eval x (onElem c.e (y f d)) - eval x (onElem c.e (w f d))| ≤ Q * K * (1 + t) * √(volume S) * b := by
    calc _ ≤ Q / √(h ^ (n + 1)) * (K * (1 + t) * √(volume S) * a) := h1.trans (mul_le_mul_of_nonneg_left h3 (by positivity))
      _ = Q * K * (1 + t) * √(volume S) * b := by rw [hb]; ring
  have g2 : (1 + Λ) * ((3 * h) ^ (p + 1) * B) ≤ (1 + Λ) * 3 ^ (p + 1) * b := by
    have : h ^ (p + 1) * B ≤ a := by
      have s1 : h ^ (p + 1) ≤ h ^ p := pow_le_pow_of_le_one hh.le r.small (Nat.le_succ p)
      have := mul_le_mul_of_nonneg_right s1 hB
      rw [hadef]
      nlinarith [mul_nonneg hB he]
    calc _ = (1 + Λ) * 3 ^ (p + 1) * (h ^ (p + 1) * B) := by rw [mul_pow]; ring
      _ ≤ (1 + Λ) * 3 ^ (p + 1) * b := mul_le_mul_of_nonneg_left (this.trans hab) (by positivity)
  rw [← hb]
  have tri := abs_sub_le (eval x (onElem c.e (y f d))) (eval x (onElem c.e (w f d))) (F c.e f d (t, fun k => eval x (c.e.geom k)))
  refine tri.trans ((add_le_add g1 (h2.trans g2)).trans ?_)
  unfold pointConst
  rw [← hQ]
  have z1 : 0 ≤ Q * K * (1 + t) * b := by positivity
  have z2 : 0 ≤ (1 + Λ) * 3 ^ (p + 1) * b := by positivity
  have z3 : (1 + Λ) * 3 ^ (p + 1) * b ≤ (1 + Λ) * 3 ^ (p + 1) * b * ((1 + t) * (1 + √(volume S))) := by
    refine le_mul_of_one_le_right z2 ?_
    nlinarith [mul_nonneg h0 v0]
  calc _ ≤ Q * K * (1 + t) * √(volume S) * b + (1 + Λ) * 3 ^ (p + 1) * b * ((1 + t) * (1 + √(volume S))) := by linarith
    _ ≤ Q * K * (1 + t) * √(volume S) * b + (1 + Λ) * 3 ^ (p + 1) * b * ((1 + t) * (1 + √(volume S))) + Q * K * (1 + t) * b := by linarith
    _ = _ := by ring

/-- What a probe holds after a simulation. -/
lemma read_of {C : Type} {dt final : ℝ} {ps : List (Probe (Slot ι → ℝ) ℝ)} {x : Nat → Slot ι → ℝ} {s : Sim (Slot ι → ℝ) C ℝ}
    (hf : Finished dt final ps x s) (he : ∀ p ∈ ps, p.recs = []) {pr : Probe (Slot ι → ℝ) ℝ} (hp : pr ∈ s.probes) {r : Nat × ℝ × ℝ} (hr : r ∈ pr.recs) :
    ∃ k ≤ stepCount dt final, r = (k, instant dt final k, pr.read (x k)) := by
  rw [hf.probes] at hp
  obtain ⟨p0, h0, rfl⟩ := List.mem_map.1 hp
  have hrec : (recalculate final dt p0).recs = [] := by
    have := he p0 h0
    unfold recalculate
    split
    · exact this
    · split <;> exact this
  simp only [probeAfter, hrec, List.nil_append, readings] at hr ⊢
  split at hr
  · obtain ⟨q, hq, rfl⟩ := List.mem_map.1 hr
    obtain ⟨k, hk, rfl⟩ := List.mem_map.1 hq
    have := List.mem_range.1 (List.mem_of_mem_filter hk)
    exact ⟨k, by omega, rfl⟩
  · simp at hr

/-- From the fields to the probes at points. -/
lemma right_of {C : Type} (r : Resolves S ms p ρ m0 m1 Λ h B T F node) (hm0 : 0 < m0) (hα : 0 ≤ S.alpha) (hΛ : 0 ≤ Λ) {L K e dt : ℝ} (hL0 : 0 ≤ L)
    (hL : ∀ v : Poly (n + 1) ℝ, v.totalDegree ≤ p → ∀ x, InSimplex x → eval x v ^ 2 ≤ L * integral (n + 1) (v ^ 2)) (hK : 0 ≤ K) (he : 0 ≤ e)
    (hdt : 0 < dt) (hT : 0 ≤ T) {y : Nat → State ι ℝ} {ps : List (Probe (Slot ι → ℝ) ℝ)} {s : Sim (Slot ι → ℝ) C ℝ}
    (hf : Finished dt T ps (fun k => flat (y k)) s) (hps : ∀ p ∈ ps, p.recs = [])
    (ht : Tracks S ms node F dt T y fun t => K * (1 + t) * √(volume S) * (B * (h ^ p + e))) :
    Right S F (fun t => pointConst n p L ρ m0 Λ K * (1 + t) * (1 + √(volume S)) * (B * ((h ^ p + e) / √(h ^ (n + 1))))) s := by
  intro pr hp c hc x hx f d hread q hq
  obtain ⟨k, hk, rfl⟩ := read_of hf hps hp hq
  rw [hread]
  exact close_of r hm0 hα hΛ hL0 hL hK he (le_min (by positivity) hT) (min_le_right _ _) (y k) (fun w hw => ht k hk w hw) c hc x hx f d

/-- The constant of the previous lemma, for all meshes. -/
lemma sup_exists (n p : Nat) : ∃ L, 0 ≤ L ∧ (n < 3 → ∀ v : Poly (n + 1) ℝ, v.totalDegree ≤ p → ∀ x, InSimplex x →
    eval x v ^ 2 ≤ L * integral (n + 1) (v ^ 2)) := by
  by_cases hn : n < 3
  · obtain ⟨L, h0, hL⟩ := sup_const (D := n + 1) (by omega) p
    exact ⟨L, h0, fun _ => hL⟩
  · exact ⟨0, le_rfl, fun h => absurd h hn⟩

/-- **C152** for the implicit integrators: every value a probe has recorded at a point differs from the solution of Maxwell's equations, at that
point and at the recorded time, by at most a constant times `(h ^ p + dt ^ order) / h ^ (D / 2)`, where `D` is the dimension. -/
theorem C152_implicit (n p : Nat) (ρ m0 m1 Λ α : ℝ) (hm0 : 0 < m0) (hm1 : m0 ≤ m1) (hΛ : 0 ≤ Λ) (hα : 0 ≤ α) :
    ∃ K, 0 ≤ K ∧ ∀ (ι : Type) [Fintype ι] [DecidableEq ι] (S : Setup n ι) (ms : List (Int × Material ℝ)) (h B : ℝ) (F : Solution n ι)
      (node : Elem n ι ℝ → Nat → Fin (n + 1) → ℝ) (lobatto : Nat → List ℝ) (m : TimeStep.Setup) (o : TimeStep.Options)
      (ode : Ode), S.alpha = α → Resolves S ms p ρ m0 m1 Λ h B o.finalTime F node → Regular S o.finalTime F p (order ode + 1) B →
      TimeStep.checkOptions o = .ok () → 0 < o.timeStep → 0 < o.finalTime → TimeInt.assignOde o.odeType = .ok ode → ode ≠ .rk4 →
      ∃ P A, S.fem ms = .ok P ∧ (∀ u : State ι ℝ, A.mulVec (flat u) = flat (globalMult P.prob u)) ∧
        ∀ (q : Sdirk ℝ) (_ : Ideal33 q) (x : State ι ℝ) (ps : List (Probe (Slot ι → ℝ) ℝ)), Sampled S node F 0 x → Usable ps →
          (∀ p ∈ ps, p.recs = []) →
          ∃ (s0 s : Sim (Slot ι → ℝ) (Cache ℝ (Slot ι)) ℝ) (y : Nat → State ι ℝ),
            construct lobatto m o (flat x) fresh ps = .ok (o.timeStep, ode, s0) ∧
            (∀ fuel, stepCount o.timeStep o.finalTime ≤ fuel → run q ode (globalTdo A fun _ => 0) o.timeStep o.finalTime fuel s0 = .done s) ∧
            Finished o.timeStep o.finalTime ps (fun k => flat (y k)) s ∧
            Right S F (fun t => K * (1 + t) * (1 + √(volume S)) * (B * ((h ^ p + o.timeStep ^ order ode) / √(h ^ (n + 1))))) s := by
  obtain ⟨K, hK0, hK⟩ := C151_implicit n p ρ m0 m1 Λ α hm0 hm1 hΛ hα
  obtain ⟨L, hL0, hL⟩ := sup_exists n p
  refine ⟨pointConst n p L ρ m0 Λ K, pointConst_nonneg n p hΛ hK0, fun ι _ _ S ms h B F node lobatto m o ode ha r hb hv h0 hT hode hne => ?_⟩
  obtain ⟨P, A, hP, hA, hr⟩ := hK ι S ms h B F node lobatto m o ode ha r hb hv h0 hT hode hne
  refine ⟨P, A, hP, hA, fun q hq x ps hx hps he => ?_⟩
  obtain ⟨s0, s, y, -, e1, e2, e3, e4⟩ := hr q hq x ℝ ps hx hps
  exact ⟨s0, s, y, e1, e2, e3, right_of r hm0 (by rw [ha]; exact hα) hΛ hL0 (hL r.mesh.simplicial.dim) hK0 (by positivity) h0 hT.le e3 he e4⟩

/-- **C152** for the explicit integrator with the automatic time step. -/
theorem C152_automatic (n p : Nat) (ρ m0 m1 Λ α : ℝ) (hm0 : 0 < m0) (hm1 : m0 ≤ m1) (hΛ : 0 ≤ Λ) (hα : 0 ≤ α) (lobatto : Nat → List ℝ) (r : ℝ)
    (hr : TimeStep.Spec.FirstGap lobatto p r) :
    ∃ K c, 0 ≤ K ∧ 0 < c ∧ ∀ (ι : Type) [Fintype ι] [DecidableEq ι] (S : Setup n ι) (ms : List (Int × Material ℝ)) (h B : ℝ) (F : Solution n ι)
      (node : Elem n ι ℝ → Nat → Fin (n + 1) → ℝ) (m : TimeStep.Setup) (o : TimeStep.Options),
      S.alpha = α → Resolves S ms p ρ m0 m1 Λ h B o.finalTime F node → Regular S o.finalTime F p 5 B → S.cells ≠ [] →
      Describes m S → TimeStep.Spec.Known m → (if n = 0 then TimeStep.Spec.Usable1 m else TimeStep.Spec.Usable m) →
      TimeStep.Spec.Valid o → o.order = p → o.op = .global → o.timeStep = 0 → o.cfl ≤ c → 0 < o.finalTime → o.odeType = 0 →
      ∃ P A dt, S.fem ms = .ok P ∧ (∀ u : State ι ℝ, A.mulVec (flat u) = flat (globalMult P.prob u)) ∧ 0 < dt ∧
        ∀ (q : Sdirk ℝ) (x : State ι ℝ) (ps : List (Probe (Slot ι → ℝ) ℝ)), Sampled S node F 0 x → Usable ps → (∀ p ∈ ps, p.recs = []) →
          ∃ (s0 s : Sim (Slot ι → ℝ) (Cache ℝ (Slot ι)) ℝ) (y : Nat → State ι ℝ),
            construct lobatto m o (flat x) fresh ps = .ok (dt, .rk4, s0) ∧
            (∀ fuel, stepCount dt o.finalTime ≤ fuel → run q .rk4 (globalTdo A fun _ => 0) dt o.finalTime fuel s0 = .done s) ∧
            Finished dt o.finalTime ps (fun k => flat (y k)) s ∧
            Right S F (fun t => K * (1 + t) * (1 + √(volume S)) * (B * ((h ^ p + h ^ 4) / √(h ^ (n + 1))))) s := by
  obtain ⟨K, c, hK0, hc, hK⟩ := C151_automatic n p ρ m0 m1 Λ α hm0 hm1 hΛ hα lobatto r hr
  obtain ⟨L, hL0, hL⟩ := sup_exists n p
  refine ⟨pointConst n p L ρ m0 Λ K, c, pointConst_nonneg n p hΛ hK0, hc,
    fun ι _ _ S ms h B F node m o ha rs hb hne hd hk hu hv hp hop h0 hcfl hT hode => ?_⟩
  obtain ⟨P, A, dt, hP, hA, hdt, hr⟩ := hK ι S ms h B F node m o ha rs hb hne hd hk hu hv hp hop h0 hcfl hT hode
  refine ⟨P, A, dt, hP, hA, hdt, fun q x ps hx hps he => ?_⟩
  obtain ⟨s0, s, y, -, e1, e2, e3, e4⟩ := hr q x ℝ ps hx hps
  have hh := rs.fine.pos
  exact ⟨s0, s, y, e1, e2, e3, right_of rs hm0 (by rw [ha]; exact hα) hΛ hL0 (hL rs.mesh.simplicial.dim) hK0 (by positivity) hdt hT.le e3 he e4⟩

lemma ratio_le {h : ℝ} (h0 : 0 < h) (h1 : h ≤ 1) {k D : Nat} (hk : D < 2 * k) : h ^ k / √(h ^ D) ≤ √h := by
  rw [div_le_iff₀ (Real.sqrt_pos.2 (by positivity)), ← Real.sqrt_mul h0.le, ← pow_succ']
  refine Real.le_sqrt_of_sq_le ?_
  rw [← pow_mul]
  exact pow_le_pow_of_le_one h0.le h1 (by omega)

/-- **C152**: if twice the order is larger than the dimension, the records of the probes at points converge to the solution as the mesh is
refined, with the automatic time step and a CFL number that does not depend on the mesh. -/
theorem C152_converges (n p : Nat) (ρ m0 m1 Λ α : ℝ) (hm0 : 0 < m0) (hm1 : m0 ≤ m1) (hΛ : 0 ≤ Λ) (hα : 0 ≤ α) (lobatto : Nat → List ℝ) (r : ℝ)
    (hr : TimeStep.Spec.FirstGap lobatto p r) (hp : n + 1 < 2 * p) (B T V : ℝ) (ε : ℝ) (hε : 0 < ε) :
    ∃ hmax c, 0 < hmax ∧ 0 < c ∧ ∀ (ι : Type) [Fintype ι] [DecidableEq ι] (S : Setup n ι) (ms : List (Int × Material ℝ)) (h : ℝ) (F : Solution n ι)
      (node : Elem n ι ℝ → Nat → Fin (n + 1) → ℝ) (m : TimeStep.Setup) (o : TimeStep.Options),
      S.alpha = α → Resolves S ms p ρ m0 m1 Λ h B o.finalTime F node → Regular S o.finalTime F p 5 B → S.cells ≠ [] →
      Describes m S → TimeStep.Spec.Known m → (if n = 0 then TimeStep.Spec.Usable1 m else TimeStep.Spec.Usable m) →
      TimeStep.Spec.Valid o → o.order = p → o.op = .global → o.timeStep = 0 → o.cfl ≤ c → 0 < o.finalTime → o.odeType = 0 →
      h ≤ hmax → o.finalTime ≤ T → volume S ≤ V →
      ∃ P A dt, S.fem ms = .ok P ∧ (∀ u : State ι ℝ, A.mulVec (flat u) = flat (globalMult P.prob u)) ∧ 0 < dt ∧
        ∀ (q : Sdirk ℝ) (x : State ι ℝ) (ps : List (Probe (Slot ι → ℝ) ℝ)), Sampled S node F 0 x → Usable ps → (∀ p ∈ ps, p.recs = []) →
          ∃ (s0 s : Sim (Slot ι → ℝ) (Cache ℝ (Slot ι)) ℝ) (y : Nat → State ι ℝ),
            construct lobatto m o (flat x) fresh ps = .ok (dt, .rk4, s0) ∧
            (∀ fuel, stepCount dt o.finalTime ≤ fuel → run q .rk4 (globalTdo A fun _ => 0) dt o.finalTime fuel s0 = .done s) ∧
            Finished dt o.finalTime ps (fun k => flat (y k)) s ∧ Right S F (fun _ => ε) s := by
  obtain ⟨K, c, hK0, hc, hK⟩ := C152_automatic n p ρ m0 m1 Λ α hm0 hm1 hΛ hα lobatto r hr
  obtain ⟨Q, hQ⟩ : ∃ Q, Q = K * (1 + |T|) * (1 + √V) * (|B| * 2) + 1 := ⟨_, rfl⟩
  have hQ0 : 0 < Q := by rw [hQ]; positivity
  refine ⟨(ε / Q) ^ 2, c, by positivity, hc, fun ι _ _ S ms h F node m o ha rs hb hne hd hk hu hv hord hop h0 hcfl hT hode hhm hTm hV => ?_⟩
  obtain ⟨P, A, dt, hP, hA, hdt, hr⟩ := hK ι S ms h B F node m o ha rs hb hne hd hk hu hv hord hop h0 hcfl hT hode
  refine ⟨P, A, dt, hP, hA, hdt, fun q x ps hx hps he => ?_⟩
  obtain ⟨s0, s, y, e1, e2, e3, e4⟩ := hr q x ps hx hps he
  refine ⟨s0, s, y, e1, e2, e3, fun pr hpr c hc x hx f d hread r hrec => (e4 pr hpr c hc x hx f d hread r hrec).trans ?_⟩
  obtain ⟨k, hk, rfl⟩ := read_of e3 he hpr hrec
  have hh := rs.fine.pos
  have hB := rs.bound
  have hn := rs.mesh.simplicial.dim
  have t0 : 0 ≤ instant dt o.finalTime k := le_min (by positivity) hT.le
  have t1 : instant dt o.finalTime k ≤ |T| := (min_le_right _ _).trans (hTm.trans (le_abs_self T))
  have v1 : √(volume S) ≤ √V := Real.sqrt_le_sqrt hV
  have r1 := ratio_le hh rs.small hp
  have r2 := ratio_le (k := 4) hh rs.small (show n + 1 < 2 * 4 by omega)
  have hs : √h ≤ ε / Q := by
    rw [← Real.sqrt_sq (show 0 ≤ ε / Q by positivity)]
    exact Real.sqrt_le_sqrt hhm
  have hsum : (h ^ p + h ^ 4) / √(h ^ (n + 1)) ≤ 2 * √h := by rw [add_div]; linarith
  have hv0 := Real.sqrt_nonneg (volume S)
  calc K * (1 + instant dt o.finalTime k) * (1 + √(volume S)) * (B * ((h ^ p + h ^ 4) / √(h ^ (n + 1)))) ≤
        K * (1 + |T|) * (1 + √V) * (|B| * (2 * √h)) := by
          refine mul_le_mul (mul_le_mul (mul_le_mul_of_nonneg_left (by linarith) hK0) (by linarith) (by positivity) (by positivity)) ?_
            (by positivity) (by positivity)
          rw [abs_of_nonneg hB]
          exact mul_le_mul_of_nonneg_left hsum hB
    _ = (Q - 1) * √h := by rw [hQ]; ring
    _ ≤ Q * √h := mul_le_mul_of_nonneg_right (by linarith) (Real.sqrt_nonneg h)
    _ ≤ Q * (ε / Q) := mul_le_mul_of_nonneg_left hs hQ0.le
    _ = ε := by field_simp

end Dgtd.Simulate
