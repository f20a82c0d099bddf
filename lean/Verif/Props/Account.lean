/-
C178: the energy account of a run.
-/
import Verif.Spec.Account
import Verif.Props.Power
import Verif.Props.Reverse

set_option linter.unusedSectionVars false

namespace Dgtd.Account

open Op Op.Spec TimeInt TimeInt.Spec Implicit Dgtd.Frame Local Power Spec

/-! ### linear maps -/

section
variable {V S : Type} [AddCommGroup V] [Module ℝ V]

/-- A run goes through fields related step by step. -/
lemma run_chain {q : Sdirk ℝ} (hq : Ideal33 q) {F : Tdo V S} {A : V →ₗ[ℝ] V} {src : ℝ → V} {I : S → Prop} (h : Solves F A src I) {o : Ode}
    (ho : o ≠ .rk4) (dts : List ℝ) : ∀ (x : V) (t : ℝ) (s : S), (∀ dt ∈ dts, 0 ≤ dt) → I s → ∃ X : Nat → V, X 0 = x ∧
      (∀ k ≤ dts.length, ∃ c, run q o F (dts.take k) x t s = some (X k, t + (dts.take k).sum, c)) ∧
      ∀ (k : Nat) (hk : k < dts.length), Rel q o (dts[k] • A) (dts[k] • src (stageTimes q o (t + (dts.take k).sum) dts[k]).1)
        (dts[k] • src (stageTimes q o (t + (dts.take k).sum) dts[k]).2.1) (dts[k] • src (stageTimes q o (t + (dts.take k).sum) dts[k]).2.2)
        (X k) (X (k + 1)) := by
  induction dts with
  | nil =>
    intro x t s _ _
    refine ⟨fun _ => x, rfl, fun k _ => ⟨s, by simp [run]⟩, fun k hk => absurd hk (by simp)⟩
  | cons dt rest ih =>
    intro x t s hp hs
    obtain ⟨y, r, e, i, k⟩ := step_rel hq h ho x t dt (hp dt List.mem_cons_self) s hs
    obtain ⟨X, h0, h1, h2⟩ := ih y (t + dt) r (fun d hd => hp d (List.mem_cons_of_mem _ hd)) i
    refine ⟨fun n => match n with | 0 => x | n + 1 => X n, rfl, ?_, ?_⟩
    · intro n hn
      cases n with
      | zero => exact ⟨s, by simp [run]⟩
      | succ n =>
        obtain ⟨c, hc⟩ := h1 n (by simpa using hn)
        refine ⟨c, ?_⟩
        simp only [List.take_succ_cons, run, e, Option.bind_eq_bind, Option.bind_some, hc, List.sum_cons, add_assoc]
    · intro n hn
      cases n with
      | zero => simpa [h0] using k
      | succ n =>
        have := h2 n (by simpa using hn)
        simpa [List.sum_cons, add_assoc] using this

variable {B : V →ₗ[ℝ] V →ₗ[ℝ] ℝ} {A T : V →ₗ[ℝ] V} {dt : ℝ} {c x y : V}

lemma mean_step (hB : ∀ u v, B u v = B v u) (hT : ∀ u v, B (T u) (T v) = B (T u) v) (h : y - x = dt • (A ((1 / 2 : ℝ) • (x + y)) + c)) :
    B (T y) (T y) = B (T x) (T x) + dt * (2 * B (T ((1 / 2 : ℝ) • (x + y))) c + 2 * B (T ((1 / 2 : ℝ) • (x + y))) (A ((1 / 2 : ℝ) • (x + y)))) := by
  have k := hT ((1 / 2 : ℝ) • (x + y)) (y - x)
  rw [h, map_smul (B _), map_add (B _), ← h] at k
  simp only [smul_eq_mul] at k
  have e : B (T ((1 / 2 : ℝ) • (x + y))) (T (y - x)) = 1 / 2 * (B (T y) (T y) - B (T x) (T x)) := by
    simp only [map_smul, map_add, map_sub, LinearMap.add_apply, LinearMap.smul_apply, smul_eq_mul, hB (T y) (T x)]
    ring
  rw [e] at k
  linear_combination 2 * k

lemma new_step (hB : ∀ u v, B u v = B v u) (hT : ∀ u v, B (T u) (T v) = B (T u) v) (h : y - x = dt • (A y + c)) :
    B (T y) (T y) = B (T x) (T x) + dt * (2 * B (T y) c + 2 * B (T y) (A y)) - B (T y - T x) (T y - T x) := by
  have k := hT y (y - x)
  rw [h, map_smul (B _), map_add (B _), ← h] at k
  simp only [smul_eq_mul, map_sub] at k
  simp only [map_sub, LinearMap.sub_apply, hB (T x) (T y)]
  linear_combination 2 * k

end

variable {ι ε : Type} [Fintype ι] [DecidableEq ι]

lemma eform_part {M : FieldT → Matrix ι ι ℝ} {el : ι → ε} (hM : ∀ f r c, el r ≠ el c → M f r c = 0) (col : ε → Bool) (x y : Slot ι → ℝ) :
    eform M (partL el col true x) (partL el col true y) = eform M (partL el col true x) y := by
  have z : ∀ f d, part el col true (unflat x) f d ⬝ᵥ (M f).mulVec (part el col true (unflat y) f d) =
      part el col true (unflat x) f d ⬝ᵥ (M f).mulVec (unflat y f d) := by
    intro f d
    simp only [dotProduct, Matrix.mulVec]
    refine Finset.sum_congr rfl fun r _ => ?_
    unfold part
    by_cases hr : col (el r) = true
    · congr 1
      refine Finset.sum_congr rfl fun c _ => ?_
      by_cases hc : col (el c) = true
      · simp [hc]
      · have : el r ≠ el c := fun e => hc (e ▸ hr)
        simp [hM f r c this]
    · simp [hr]
  rw [eform_apply, eform_apply]
  unfold energyRate
  congr 1
  refine Finset.sum_congr rfl fun d _ => ?_
  exact congrArg₂ (· + ·) (z .E d) (z .H d)

/-- The change of a step, for the three integrators. -/
lemma rel_change {q : Sdirk ℝ} {o : Ode} (ho : o = .backwardEuler ∨ o = .trapezoidal ∨ o = .implicitMidpoint) {A : Matrix (Slot ι) (Slot ι) ℝ}
    {j : ℝ → State ι ℝ} {t dt : ℝ} {x y : State ι ℝ}
    (h : Rel q o (dt • A.mulVecLin) (dt • flat (j (stageTimes q o t dt).1)) (dt • flat (j (stageTimes q o t dt).2.1))
      (dt • flat (j (stageTimes q o t dt).2.2)) (flat x) (flat y)) :
    flat y - flat x = dt • (A.mulVecLin (flat (stage o x y)) + flat (drive j t dt o)) := by
  have hm : flat (fun f d i => (x f d i + y f d i) / 2) = (1 / 2 : ℝ) • (flat x + flat y) := by
    funext s
    simp [flat]
    ring
  rcases ho with rfl | rfl | rfl
  · simp only [TimeInt.Rel, stageTimes, LinearMap.smul_apply] at h
    simp only [stage, drive]
    linear_combination (norm := module) h
  · simp only [TimeInt.Rel, stageTimes, LinearMap.smul_apply] at h
    have hj : flat (fun f d i => (j t f d i + j (t + dt) f d i) / 2) = (1 / 2 : ℝ) • (flat (j t) + flat (j (t + dt))) := by
      funext s
      simp [flat]
      ring
    simp only [stage, drive]
    rw [hm, hj, map_smul, map_add]
    linear_combination (norm := module) h
  · obtain ⟨m, e1, e⟩ := h
    simp only [stageTimes, LinearMap.smul_apply] at e1 e
    simp only [stage, drive]
    have : (1 / 2 : ℝ) • (flat x + flat y) = m := by
      linear_combination (norm := module) (1 / 2 : ℝ) • e - e1
    rw [hm, this]
    linear_combination (norm := module) e

/-- What a step does to the energy of a part. -/
lemma step_account {P : Prob ι ℝ} {M : FieldT → Matrix ι ι ℝ} (hP : Passive P M) {A : Matrix (Slot ι) (Slot ι) ℝ}
    (hA : ∀ u : State ι ℝ, A.mulVec (flat u) = flat (globalMult P u)) {o : Ode}
    (ho : o = .backwardEuler ∨ o = .trapezoidal ∨ o = .implicitMidpoint) {j x y : State ι ℝ} {dt : ℝ}
    (h : flat y - flat x = dt • (A.mulVecLin (flat (stage o x y)) + flat j)) (T : (Slot ι → ℝ) →ₗ[ℝ] (Slot ι → ℝ))
    (hT : ∀ u v, eform M (T u) (T v) = eform M (T u) v) :
    energy M (unflat (T (flat y))) = energy M (unflat (T (flat x))) + dt * (energyRate M (unflat (T (flat (stage o x y)))) j +
      energyRate M (unflat (T (flat (stage o x y)))) (globalMult P (stage o x y))) - lost M o (unflat (T (flat x))) (unflat (T (flat y))) := by
  have two : ∀ (a : Slot ι → ℝ) (b : State ι ℝ), 2 * eform M a (flat b) = energyRate M (unflat a) b := by
    intro a b
    rw [eform_apply]
    show 2 * (1 / 2 * energyRate M (unflat a) b) = _
    ring
  have hB := eform_symm (M := M) hP.good.symm
  have mean : stage o x y = (fun f d i => (x f d i + y f d i) / 2) → lost M o (unflat (T (flat x))) (unflat (T (flat y))) = 0 →
      energy M (unflat (T (flat y))) = energy M (unflat (T (flat x))) + dt * (energyRate M (unflat (T (flat (stage o x y)))) j +
        energyRate M (unflat (T (flat (stage o x y)))) (globalMult P (stage o x y))) - lost M o (unflat (T (flat x))) (unflat (T (flat y))) := by
    intro hs hl
    have hm : flat (stage o x y) = (1 / 2 : ℝ) • (flat x + flat y) := by
      rw [hs]
      funext s
      simp [flat]
      ring
    rw [hm] at h
    have k := mean_step hB hT h
    rw [← hm, Matrix.mulVecLin_apply, hA, two, two, eform_self, eform_self] at k
    rw [k, hl, sub_zero]
  rcases ho with rfl | rfl | rfl
  · have k := new_step hB hT (A := A.mulVecLin) (c := flat j) (dt := dt) h
    rw [Matrix.mulVecLin_apply, hA, two, two, eform_self, eform_self, eform_self] at k
    exact k
  · exact mean rfl rfl
  · exact mean rfl rfl

lemma recorded_rel {q : Sdirk ℝ} (hq : Ideal33 q) {P : Prob ι ℝ} {M : FieldT → Matrix ι ι ℝ} (hP : Passive P M)
    {A : Matrix (Slot ι) (Slot ι) ℝ} (hA : ∀ u : State ι ℝ, A.mulVec (flat u) = flat (globalMult P u)) {o : Ode} (ho : o ≠ .rk4)
    {j : ℝ → State ι ℝ} {dts : List ℝ} (hdts : ∀ dt ∈ dts, 0 ≤ dt) {u : State ι ℝ} {t : ℝ} :
    (∃ x, Recorded q o (globalTdo A fun s => flat (j s)) fresh dts u t x) ∧ ∀ x, Recorded q o (globalTdo A fun s => flat (j s)) fresh dts u t x → x 0 = u ∧ ∀ (k : Nat) (hk : k < dts.length),
      Rel q o (dts[k] • A.mulVecLin) (dts[k] • flat (j (stageTimes q o (t + (dts.take k).sum) dts[k]).1))
        (dts[k] • flat (j (stageTimes q o (t + (dts.take k).sum) dts[k]).2.1))
        (dts[k] • flat (j (stageTimes q o (t + (dts.take k).sum) dts[k]).2.2)) (flat (x k)) (flat (x (k + 1))) := by
  obtain ⟨X, h0, h1, h2⟩ := run_chain hq (global_solves hP.good hP.alpha hP.sig hP.pos hA fun s => flat (j s)) ho dts (flat u) t fresh hdts
    (good_fresh A)
  refine ⟨⟨fun k => unflat (X k), h1⟩, fun x hx => ?_⟩
  have e : ∀ k ≤ dts.length, flat (x k) = X k := by
    intro k hk
    obtain ⟨c, hc⟩ := hx k hk
    obtain ⟨c', hc'⟩ := h1 k hk
    rw [hc] at hc'
    exact (Prod.mk.inj (Option.some.inj hc')).1
  refine ⟨?_, fun k hk => ?_⟩
  · have := e 0 (Nat.zero_le _)
    rw [h0] at this
    have := congrArg unflat this
    exact this
  · rw [e k hk.le, e (k + 1) hk]
    exact h2 k hk

/-- **C178**: the fields after every step of a run exist. -/
theorem C178_recorded (q : Sdirk ℝ) (hq : Ideal33 q) (P : Prob ι ℝ) (M : FieldT → Matrix ι ι ℝ) (hP : Passive P M)
    (A : Matrix (Slot ι) (Slot ι) ℝ) (hA : ∀ u : State ι ℝ, A.mulVec (flat u) = flat (globalMult P u)) (o : Ode) (ho : o ≠ .rk4)
    (j : ℝ → State ι ℝ) (dts : List ℝ) (hdts : ∀ dt ∈ dts, 0 ≤ dt) (u : State ι ℝ) (t : ℝ) : ∃ x, Recorded q o (globalTdo A fun s => flat (j s)) fresh dts u t x :=
  (recorded_rel hq hP hA ho hdts).1

/-- **C178**: in every step of the backward Euler, trapezoidal and midpoint rules the energy of any set of elements changes by the work of
the sources in it, less the energy that leaves through its surface and in its losses, less, for the backward Euler rule, the energy of the
change itself. -/
theorem C178_region (q : Sdirk ℝ) (hq : Ideal33 q) (P : Prob ι ℝ) (M : FieldT → Matrix ι ι ℝ) (hP : Passive P M)
    (A : Matrix (Slot ι) (Slot ι) ℝ) (hA : ∀ u : State ι ℝ, A.mulVec (flat u) = flat (globalMult P u)) (o : Ode)
    (ho : o = .backwardEuler ∨ o = .trapezoidal ∨ o = .implicitMidpoint) (el : ι → ε) (h : Elementwise P el)
    (hM : ∀ f r c, el r ≠ el c → M f r c = 0) (col : ε → Bool) (j : ℝ → State ι ℝ) (dts : List ℝ) (hdts : ∀ dt ∈ dts, 0 ≤ dt)
    (u : State ι ℝ) (t : ℝ) (x : Nat → State ι ℝ) (hx : Recorded q o (globalTdo A fun s => flat (j s)) fresh dts u t x) (k : Nat) (hk : k < dts.length) :
    energy M (part el col true (x (k + 1))) = energy M (part el col true (x k)) +
      dts[k] * (energyRate M (part el col true (stage o (x k) (x (k + 1)))) (drive j (t + (dts.take k).sum) dts[k] o) -
        powerOut P el col (stage o (x k) (x (k + 1)))) - lost M o (part el col true (x k)) (part el col true (x (k + 1))) := by
  have ho' : o ≠ .rk4 := by rcases ho with rfl | rfl | rfl <;> simp
  have r := rel_change ho (((recorded_rel hq hP hA ho' hdts).2 x hx).2 k hk)
  have := step_account hP hA ho r (partL el col true) (eform_part hM col)
  have b := C174_balance P M hP.good el h col (stage o (x k) (x (k + 1)))
  rw [sub_eq_add_neg (energyRate M _ _), ← b]
  exact this

/-- **C178**: the whole run: the last energy is the first, plus the work of the sources, less the losses, summed over the steps. -/
theorem C178_total (q : Sdirk ℝ) (hq : Ideal33 q) (P : Prob ι ℝ) (M : FieldT → Matrix ι ι ℝ) (hP : Passive P M)
    (A : Matrix (Slot ι) (Slot ι) ℝ) (hA : ∀ u : State ι ℝ, A.mulVec (flat u) = flat (globalMult P u)) (o : Ode)
    (ho : o = .backwardEuler ∨ o = .trapezoidal ∨ o = .implicitMidpoint) (j : ℝ → State ι ℝ) (dts : List ℝ) (hdts : ∀ dt ∈ dts, 0 ≤ dt)
    (u : State ι ℝ) (t : ℝ) (x : Nat → State ι ℝ) (hx : Recorded q o (globalTdo A fun s => flat (j s)) fresh dts u t x) :
    energy M (x dts.length) = energy M u + ∑ k : Fin dts.length,
      (dts[k] * (energyRate M (stage o (x k) (x (k + 1))) (drive j (t + (dts.take k).sum) dts[k] o) -
        dissipation P (stage o (x k) (x (k + 1)))) - lost M o (x k) (x (k + 1))) := by
  have ho' : o ≠ .rk4 := by rcases ho with rfl | rfl | rfl <;> simp
  obtain ⟨h0, hr⟩ := (recorded_rel hq hP hA ho' hdts).2 x hx
  have one : ∀ (k : Nat) (hk : k < dts.length), energy M (x (k + 1)) - energy M (x k) =
      dts[k] * (energyRate M (stage o (x k) (x (k + 1))) (drive j (t + (dts.take k).sum) dts[k] o) -
        dissipation P (stage o (x k) (x (k + 1)))) - lost M o (x k) (x (k + 1)) := by
    intro k hk
    have := step_account hP hA ho (rel_change ho (hr k hk)) LinearMap.id (fun _ _ => rfl)
    have b := C01_energy_balance P M hP.good (stage o (x k) (x (k + 1)))
    rw [sub_eq_add_neg (energyRate M _ _), ← b]
    have t : energy M (x (k + 1)) = energy M (x k) + _ - _ := this
    rw [t]
    exact by ring_nf; rfl
  rw [← h0, ← sub_eq_iff_eq_add', ← Finset.sum_range_sub (fun k => energy M (x k)), Finset.sum_range]
  exact Finset.sum_congr rfl fun k _ => one k k.2

/-- **C178**: without sources, however long the run, the heat in conductors is at most the energy at the start. -/
theorem C178_heat (q : Sdirk ℝ) (hq : Ideal33 q) (P : Prob ι ℝ) (M : FieldT → Matrix ι ι ℝ) (hP : Passive P M)
    (A : Matrix (Slot ι) (Slot ι) ℝ) (hA : ∀ u : State ι ℝ, A.mulVec (flat u) = flat (globalMult P u)) (o : Ode)
    (ho : o = .backwardEuler ∨ o = .trapezoidal ∨ o = .implicitMidpoint) (dts : List ℝ) (hdts : ∀ dt ∈ dts, 0 ≤ dt)
    (u : State ι ℝ) (t : ℝ) (x : Nat → State ι ℝ) (hx : Recorded q o (globalTdo A fun _ => 0) fresh dts u t x) :
    ∑ k : Fin dts.length, dts[k] * heat P (stage o (x k) (x (k + 1))) + energy M (x dts.length) ≤ energy M u := by
  have e := C178_total q hq P M hP A hA o ho 0 dts hdts u t x hx
  have hd : ∀ v, heat P v ≤ dissipation P v := by
    intro v
    have : dissipation P v = dissipation { P with Msig := 0 } v + heat P v := by
      simp [dissipation, heat]
    have n := dissipation_nonneg { P with Msig := 0 } M
      ⟨hP.good.dim_le, hP.good.pts, hP.good.sbp, hP.good.bdr_cond, hP.good.bdr_one_side, hP.good.no_sgbc, hP.good.inv, hP.good.symm⟩ hP.alpha (fun v => by simp) v
    linarith
  have z : ∀ v s d, energyRate M v (drive 0 s d o) = 0 := by
    intro v s d
    have : drive (ι := ι) 0 s d o = 0 := by
      rcases ho with rfl | rfl | rfl
      · rfl
      · funext f d i
        simp [drive]
      · rfl
    rw [this]
    simp [energyRate]
  have hl : ∀ a b, 0 ≤ lost M o a b := by
    intro a b
    rcases ho with rfl | rfl | rfl
    · by_cases h : b - a = 0
      · show 0 ≤ energy M (b - a)
        rw [h]
        simp [energy]
      · exact (hP.pos _ h).le
    · exact le_rfl
    · exact le_rfl
  rw [e, add_comm (energy M u), ← add_assoc, ← Finset.sum_add_distrib]
  have : ∑ k : Fin dts.length, (dts[k] * heat P (stage o (x k) (x (k + 1))) +
      (dts[k] * (energyRate M (stage o (x k) (x (k + 1))) (drive 0 (t + (dts.take k).sum) dts[k] o) -
        dissipation P (stage o (x k) (x (k + 1)))) - lost M o (x k) (x (k + 1)))) ≤ 0 := by
    refine Finset.sum_nonpos fun k _ => ?_
    rw [z]
    have h1 := hd (stage o (x k) (x (k + 1)))
    have h2 := hl (x k) (x (k + 1))
    have h3 := hdts dts[k] (List.getElem_mem _)
    nlinarith
  linarith

/-- A line of two conducting elements between a perfect conductor and an absorbing end. -/
noncomputable def lossy : Prob (Fin 4) ℝ := { line ℝ 1 none .PEC .SMA with Msig := lineMass ℝ }

lemma lossy_passive : Passive lossy fun _ => lineMass ℝ := by
  have h := line_passive (1 : ℝ) zero_le_one none (by simp) .PEC .SMA
  exact ⟨⟨h.good.dim_le, h.good.pts, h.good.sbp, h.good.bdr_cond, h.good.bdr_one_side, h.good.no_sgbc, h.good.inv, h.good.symm⟩, h.alpha,
    fun v => (lineMass_pos v).1, h.pos⟩

lemma three_steps : ∀ dt ∈ [(1 : ℝ), 2, 3], 0 ≤ dt := by
  intro dt h
  simp only [List.mem_cons, List.not_mem_nil, or_false] at h
  rcases h with rfl | rfl | rfl <;> norm_num

example (q : Sdirk ℝ) (hq : Ideal33 q) (w : State (Fin 4) ℝ) : ∃ (A : Matrix (Slot (Fin 4)) (Slot (Fin 4)) ℝ) (x : Nat → State (Fin 4) ℝ),
    (∀ u : State (Fin 4) ℝ, A.mulVec (flat u) = flat (globalMult lossy u)) ∧ Recorded q .backwardEuler (globalTdo A fun _ => 0) fresh [1, 2, 3] w 0 x ∧
      1 * heat lossy (x 1) + 2 * heat lossy (x 2) + 3 * heat lossy (x 3) + energy (fun _ => lineMass ℝ) (x 3) ≤ energy (fun _ => lineMass ℝ) w := by
  obtain ⟨A, hA⟩ := exists_matrix lossy
  obtain ⟨x, hx⟩ := C178_recorded q hq lossy _ lossy_passive A hA .backwardEuler (by simp) 0 [1, 2, 3] three_steps w 0
  refine ⟨A, x, hA, hx, ?_⟩
  have := C178_heat q hq lossy _ lossy_passive A hA .backwardEuler (.inl rfl) [1, 2, 3] three_steps w 0 x hx
  simpa [Fin.sum_univ_succ, stage, ← add_assoc] using this

lemma lineMass_el : ∀ (_ : FieldT) (r c : Fin 4), lineEl r ≠ lineEl c → lineMass ℝ r c = 0 := by
  intro f r c
  fin_cases r <;> fin_cases c <;> simp [lineEl, lineMass]

example (q : Sdirk ℝ) (hq : Ideal33 q) (A : Matrix (Slot (Fin 4)) (Slot (Fin 4)) ℝ)
    (hA : ∀ u : State (Fin 4) ℝ, A.mulVec (flat u) = flat (globalMult (line ℝ 1 none .PEC .SMA) u)) (j : ℝ → State (Fin 4) ℝ)
    (u : State (Fin 4) ℝ) (x : Nat → State (Fin 4) ℝ)
    (hx : Recorded q .implicitMidpoint (globalTdo A fun s => flat (j s)) fresh [1, 2, 3] u 0 x) :=
  C178_region q hq _ _ (line_passive (1 : ℝ) zero_le_one none (by simp) .PEC .SMA) A hA .implicitMidpoint (.inr (.inr rfl)) lineEl
    (line_elementwise _ _ _ _) lineMass_el id j [1, 2, 3] three_steps u 0 x hx 1 (by simp)

end Dgtd.Account
