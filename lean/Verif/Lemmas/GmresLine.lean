/-
The iterative solve on a line of cells: its iterations carry values one cell further each.
-/
import Verif.Lemmas.Line
import Verif.Lemmas.Gmres

set_option linter.unusedSectionVars false

namespace Dgtd.Gmres

open Matrix
open Dgtd.Op Dgtd.Op.Spec Dgtd.Implicit Dgtd.Line

lemma dot_rate {m : ℕ} (x y : Slot (Fin (m + 1)) → ℝ) : x ⬝ᵥ y = energyRate (fun _ => 1) (unflat x) (unflat y) := by
  unfold energyRate dotProduct
  simp only [Matrix.one_mulVec]
  rw [Fintype.sum_prod_type]
  have : (Finset.univ : Finset FieldT) = {.E, .H} := rfl
  rw [this, Finset.sum_insert (by simp), Finset.sum_singleton, Fintype.sum_prod_type, Fintype.sum_prod_type, ← Finset.sum_add_distrib]
  rfl

lemma dot_energy {m : ℕ} (x : Slot (Fin (m + 1)) → ℝ) : energy (fun _ => 1) (unflat x) = 1 / 2 * (x ⬝ᵥ x) := by
  rw [dot_rate]; rfl

lemma line_passive (m : ℕ) : Passive (line m) (fun _ => 1) where
  good := line_good m
  alpha := by simp [line]
  sig := by simp [line]
  pos := by
    intro u hu
    have e := dot_energy (flat u)
    have : unflat (flat u) = u := rfl
    rw [this] at e
    rw [e]
    have h0 : flat u ≠ 0 := by
      intro h
      apply hu
      funext f d i
      exact congrFun h (f, d, i)
    have h1 := len_pos h0
    rw [← len_sq (flat u)]
    positivity

section
variable {m : ℕ} {A : Matrix (Slot (Fin (m + 1))) (Slot (Fin (m + 1))) ℝ} (hA : ∀ u : State (Fin (m + 1)) ℝ, A *ᵥ flat u = flat (globalMult (line m) u))
include hA

lemma line_apply (x : Slot (Fin (m + 1)) → ℝ) (f : FieldT) (d : Dir) (c : Fin (m + 1)) :
    (A *ᵥ x) (f, d, c) = turn f d * exchange (wallShare f) (fun i => x (altField f, other d, i)) c := by
  rw [← flat_unflat x, hA]
  exact line_mult (unflat x) f d c

lemma line_diss (x : Slot (Fin (m + 1)) → ℝ) : x ⬝ᵥ (A *ᵥ x) ≤ 0 := by
  rw [dot_rate, ← flat_unflat x, hA]
  have h := line_passive m
  exact C01_energy_never_grows _ _ h.good h.alpha h.sig (unflat x)

/-- The system of a stage never shrinks a vector. -/
lemma line_stiff {dt : ℝ} (hdt : 0 ≤ dt) (e : Slot (Fin (m + 1)) → ℝ) : len e ≤ len ((1 - dt • A) *ᵥ e) := by
  refine len_le_of_sq (len_nonneg _) ?_
  rw [len_sq, sub_mulVec, one_mulVec, smul_mulVec]
  have key : (e - dt • (A *ᵥ e)) ⬝ᵥ (e - dt • (A *ᵥ e)) =
      e ⬝ᵥ e - 2 * (dt * (e ⬝ᵥ (A *ᵥ e))) + dt * (dt * ((A *ᵥ e) ⬝ᵥ (A *ᵥ e))) := by
    simp only [sub_dotProduct, dotProduct_sub, smul_dotProduct, dotProduct_smul, smul_eq_mul, dotProduct_comm (A *ᵥ e) e]
    ring
  rw [key]
  have h1 := line_diss hA e
  have h2 := dot_nonneg (A *ᵥ e)
  have h3 : 0 ≤ dt * (dt * ((A *ᵥ e) ⬝ᵥ (A *ᵥ e))) := mul_nonneg hdt (mul_nonneg hdt h2)
  have h4 : 0 ≤ dt * -(e ⬝ᵥ (A *ᵥ e)) := mul_nonneg hdt (by linarith)
  linarith

lemma line_entry {B : ℝ} {x : Slot (Fin (m + 1)) → ℝ} (hx : ∀ s, |x s| ≤ B) (s : Slot (Fin (m + 1))) : |(A *ᵥ x) s| ≤ 2 * B := by
  obtain ⟨f, d, c⟩ := s
  have hB : 0 ≤ B := (abs_nonneg _).trans (hx (f, d, c))
  have h1 : |turn f d| ≤ 1 := by
    unfold turn sgn
    split_ifs <;> cases f <;> norm_num [FieldT.idx]
  have h2 : |exchange (wallShare f) (fun i => x (altField f, other d, i)) c| ≤ 2 * B :=
    exchange_le (by cases f <;> simp [wallShare]) (by cases f <;> simp [wallShare]) (fun i => hx _) c
  rw [line_apply hA, abs_mul]
  calc _ ≤ 1 * (2 * B) := mul_le_mul h1 h2 (abs_nonneg _) (by norm_num)
    _ = _ := one_mul _
end

lemma len_le_card {m : ℕ} {B : ℝ} {x : Slot (Fin (m + 1)) → ℝ} (hx : ∀ s, |x s| ≤ B) : len x ^ 2 ≤ 6 * (m + 1) * B ^ 2 := by
  rw [len_sq]
  have hB : 0 ≤ B := (abs_nonneg _).trans (hx (.E, 0, 0))
  have h : x ⬝ᵥ x ≤ ∑ _s : Slot (Fin (m + 1)), B ^ 2 := by
    refine Finset.sum_le_sum fun s _ => ?_
    rw [← sq, ← sq_abs]
    exact pow_le_pow_left₀ (abs_nonneg _) (hx s) 2
  have c : Fintype.card FieldT = 2 := rfl
  rw [Finset.sum_const, Finset.card_univ, Fintype.card_prod, Fintype.card_prod, c, Fintype.card_fin, Fintype.card_fin, nsmul_eq_mul] at h
  push_cast at h
  linarith

lemma entry_le_len {ι : Type} [Fintype ι] (x : ι → ℝ) (s : ι) : |x s| ≤ len x := by
  refine Real.abs_le_sqrt ?_
  have := Finset.single_le_sum (f := fun i => x i * x i) (fun i _ => mul_self_nonneg _) (Finset.mem_univ s)
  rw [sq]
  exact this

/-! ### Nothing in the middle -/

/-- Vectors without values more than `a` cells from the walls. -/
def empty (m a : ℕ) : Submodule ℝ (Slot (Fin (m + 1)) → ℝ) where
  carrier := {x | ∀ f d (c : Fin (m + 1)), a < c.val → c.val + a < m → x (f, d, c) = 0}
  add_mem' := fun hx hy f d c h1 h2 => by rw [Pi.add_apply, hx f d c h1 h2, hy f d c h1 h2, add_zero]
  zero_mem' := fun _ _ _ _ _ => rfl
  smul_mem' := fun s x hx f d c h1 h2 => by rw [Pi.smul_apply, hx f d c h1 h2, smul_zero]

lemma empty_mono {m a b : ℕ} (h : a ≤ b) : empty m a ≤ empty m b := fun _ hx f d c h1 h2 => hx f d c (by omega) (by omega)

section
variable {m : ℕ} {A : Matrix (Slot (Fin (m + 1))) (Slot (Fin (m + 1))) ℝ} (hA : ∀ u : State (Fin (m + 1)) ℝ, A *ᵥ flat u = flat (globalMult (line m) u))
include hA

lemma empty_mult {a : ℕ} {x : Slot (Fin (m + 1)) → ℝ} (hx : x ∈ empty m a) : A *ᵥ x ∈ empty m (a + 1) := by
  intro f d c h1 h2
  rw [line_apply hA, exchange_zero, mul_zero]
  intro i h3 h4
  exact hx _ _ i (by omega) (by omega)

lemma empty_system {a : ℕ} (dt : ℝ) {x : Slot (Fin (m + 1)) → ℝ} (hx : x ∈ empty m a) : (1 - dt • A) *ᵥ x ∈ empty m (a + 1) := by
  rw [sub_mulVec, one_mulVec, smul_mulVec]
  exact Submodule.sub_mem _ (empty_mono (Nat.le_succ a) hx) (Submodule.smul_mem _ _ (empty_mult hA hx))

lemma empty_krylov {a : ℕ} (dt : ℝ) {r : Slot (Fin (m + 1)) → ℝ} (hr : r ∈ empty m (a + 1)) {i : ℕ} :
    krylov (1 - dt • A) r i ≤ empty m (a + i) := by
  refine Submodule.span_le.2 ?_
  rintro v ⟨j, hj, rfl⟩
  have : ∀ j, ((1 - dt • A) ^ j) *ᵥ r ∈ empty m (a + 1 + j) := by
    intro j
    induction j with
    | zero => simpa using hr
    | succ j ih =>
      rw [pow_succ', ← mulVec_mulVec]
      exact empty_system hA dt ih
  exact empty_mono (by omega) (this j)

lemma empty_iterates {dt : ℝ} {b : Slot (Fin (m + 1)) → ℝ} (hb : b ∈ empty m 1) {tol : ℝ} {n : ℕ} {x z : Slot (Fin (m + 1)) → ℝ}
    (h : Iterates (1 - dt • A) b tol n x z) : ∀ a, x ∈ empty m a → z ∈ empty m (a + n) := by
  induction h with
  | met n x _ => intro a hx; exact empty_mono (by omega) hx
  | spent x _ => intro a hx; exact hx
  | cycle n i x y z _ hi hk hn best _ _ _ ih =>
    intro a hx
    have hr : res (1 - dt • A) b x ∈ empty m (a + 1) :=
      Submodule.sub_mem _ (empty_mono (by omega) hb) (empty_system hA dt hx)
    have hy : y ∈ empty m (a + i) := by
      have := Submodule.add_mem _ (empty_krylov hA dt hr best.reached) (empty_mono (by omega : a ≤ a + i) hx)
      rwa [sub_add_cancel] at this
    exact empty_mono (by omega) (ih _ hy)
end

/-! ### A wave the iterations do not reach -/

/-- The component of the wave. -/
def along : FieldT → Dir
  | .E => 1
  | .H => 2

lemma other_along (f : FieldT) : other (along f) = along (altField f) := by cases f <;> simp [other, along, altField]

lemma turn_along (f : FieldT) : turn f (along f) = 1 := by cases f <;> simp [turn, along, sgn, FieldT.idx] <;> norm_num

lemma turn_else (f : FieldT) {d : Dir} (h : d ≠ along f) : turn f d = 0 ∨ other d ≠ along (altField f) := by
  obtain rfl | rfl | rfl : d = 0 ∨ d = 1 ∨ d = 2 := by fin_cases d <;> simp
  all_goals cases f <;> simp [turn, other, along, altField, sgn] at h ⊢

/-- `λ^i` in cell `i`. -/
noncomputable def decay (m : ℕ) (r : ℝ) : Slot (Fin (m + 1)) → ℝ := fun s => if s.2.1 = along s.1 then r ^ s.2.2.val else 0

lemma decay_mult {m : ℕ} {A : Matrix (Slot (Fin (m + 1))) (Slot (Fin (m + 1))) ℝ}
    (hA : ∀ u : State (Fin (m + 1)) ℝ, A *ᵥ flat u = flat (globalMult (line m) u)) {r dt : ℝ} (hr : dt * (1 - r ^ 2) = 2 * r) (f : FieldT)
    (d : Dir) (c : Fin (m + 1)) (h0 : 0 < c.val) (hm : c.val < m) : dt * (A *ᵥ decay m r) (f, d, c) = decay m r (f, d, c) := by
  rw [line_apply hA]
  by_cases hd : d = along f
  · have e : (fun i : Fin (m + 1) => decay m r (altField f, other d, i)) = fun i => r ^ i.val := by
      funext i
      simp only [decay, hd, other_along, if_true]
    rw [e, exchange_inside _ (fun i => r ^ i) c h0 hm, hd, turn_along]
    simp only [decay, if_true]
    obtain ⟨k, hk⟩ : ∃ k, c.val = k + 1 := ⟨c.val - 1, by omega⟩
    rw [hk, Nat.add_sub_cancel]
    have : dt * (1 * (1 / 2 * (r ^ k - r ^ (k + 1 + 1)))) = 1 / 2 * r ^ k * (dt * (1 - r ^ 2)) := by ring
    rw [this, hr]
    ring
  · have e : decay m r (f, d, c) = 0 := if_neg hd
    rw [e]
    rcases turn_else f hd with h | h
    · rw [h, zero_mul, mul_zero]
    · rw [exchange_zero, mul_zero, mul_zero]
      intro i _ _
      exact if_neg h

/-- On a line of 803 cells, 400 iterations from zero do not meet the tolerance. -/
theorem line_stuck {A : Matrix (Slot (Fin 803)) (Slot (Fin 803)) ℝ} (hA : ∀ u : State (Fin 803) ℝ, A *ᵥ flat u = flat (globalMult (line 802) u)) :
    ∃ dt x, 0 < dt ∧ ∀ k, iterativeSolve A 0 dt x 0 k →
      relTol * len (res (1 - dt • A) (A *ᵥ x + 0) 0) < len (res (1 - dt • A) (A *ᵥ x + 0) k) := by
  obtain ⟨r, hr⟩ : ∃ r : ℝ, r = 249 / 250 := ⟨_, rfl⟩
  obtain ⟨dt, hdt⟩ : ∃ dt : ℝ, dt = 124500 / 499 := ⟨_, rfl⟩
  have hd0 : 0 < dt := by rw [hdt]; norm_num
  have hrr : dt * (1 - r ^ 2) = 2 * r := by rw [hr, hdt]; norm_num
  obtain ⟨w, hw⟩ : ∃ w, w = decay 802 r := ⟨_, rfl⟩
  obtain ⟨x, hx⟩ : ∃ x, x = w - dt • (A *ᵥ w) := ⟨_, rfl⟩
  have hxe : x ∈ empty 802 0 := by
    intro f d c h1 h2
    have := decay_mult hA hrr f d c h1 h2
    rw [hx, hw, Pi.sub_apply, Pi.smul_apply, smul_eq_mul, this, sub_self]
  have hwb : ∀ s, |w s| ≤ 1 := by
    intro s
    rw [hw]
    unfold decay
    split_ifs
    · rw [abs_of_nonneg (by rw [hr]; positivity)]
      exact pow_le_one₀ (by rw [hr]; norm_num) (by rw [hr]; norm_num)
    · simp
  have hxb : ∀ s, |x s| ≤ 1 + 2 * dt := by
    intro s
    have h1 := line_entry hA hwb s
    rw [hx, Pi.sub_apply, Pi.smul_apply, smul_eq_mul]
    refine (abs_sub _ _).trans (add_le_add (hwb s) ?_)
    rw [abs_mul, abs_of_pos hd0, mul_comm]
    exact mul_le_mul_of_nonneg_right (by linarith) hd0.le
  have hb : len (A *ᵥ x) ≤ 70 * (2 * (1 + 2 * dt)) := by
    refine len_le_of_sq (by positivity) ?_
    have h := len_le_card (line_entry hA hxb)
    rw [len_sq] at h
    refine h.trans ?_
    rw [mul_pow 70]
    refine mul_le_mul_of_nonneg_right ?_ (by positivity)
    norm_num
  refine ⟨dt, x, hd0, fun k hk => ?_⟩
  unfold iterativeSolve Solved at hk
  rw [add_zero] at hk ⊢
  have hk0 : k ∈ empty 802 400 := by
    have := empty_iterates hA (empty_mult hA hxe) hk 0 (Submodule.zero_mem _)
    simpa [maxIter] using this
  have hres : res (1 - dt • A) (A *ᵥ x) k = (1 - dt • A) *ᵥ (A *ᵥ w - k) := by
    unfold res
    rw [mulVec_sub, hx, sub_mulVec 1 _ (A *ᵥ w), one_mulVec, smul_mulVec, mulVec_sub, mulVec_smul]
  have h0 : res (1 - dt • A) (A *ᵥ x) 0 = A *ᵥ x := by unfold res; rw [mulVec_zero, sub_zero]
  have h1 := line_stiff hA hd0.le (A *ᵥ w - k)
  have h2 := entry_le_len (A *ᵥ w - k) (.E, along .E, (401 : Fin 803))
  have h3 : k (.E, along .E, (401 : Fin 803)) = 0 := hk0 _ _ _ (by decide) (by decide)
  have h4 := decay_mult hA hrr .E (along .E) (401 : Fin 803) (by decide) (by decide)
  rw [Pi.sub_apply, h3, sub_zero] at h2
  rw [← hw] at h4
  have h5 : w (.E, along .E, (401 : Fin 803)) = r ^ 401 := by
    rw [hw]
    exact if_pos rfl
  rw [h5] at h4
  have h6 := le_abs_self ((A *ᵥ w) (.E, along .E, (401 : Fin 803)))
  have h7 : relTol * (70 * (2 * (1 + 2 * dt))) * dt < r ^ 401 := by
    have a1 : (0.669 : ℝ) ≤ r ^ 100 := by rw [hr]; norm_num
    have a2 : (0.669 : ℝ) ^ 4 ≤ (r ^ 100) ^ 4 := pow_le_pow_left₀ (by norm_num) a1 4
    have a3 : r ^ 401 = (r ^ 100) ^ 4 * r := by ring
    rw [a3]
    refine lt_of_lt_of_le ?_ (mul_le_mul_of_nonneg_right a2 (by rw [hr]; norm_num))
    rw [hr, hdt]; unfold relTol; norm_num
  rw [hres, h0]
  have h8 : relTol * (70 * (2 * (1 + 2 * dt))) < (A *ᵥ w) (.E, along .E, (401 : Fin 803)) := by
    rw [← h4, mul_comm dt] at h7
    exact lt_of_mul_lt_mul_right h7 hd0.le
  have h9 : relTol * len (A *ᵥ x) ≤ relTol * (70 * (2 * (1 + 2 * dt))) := mul_le_mul_of_nonneg_left hb (by unfold relTol; positivity)
  linarith

/-! ### What was in memory -/

/-- Vectors without values beyond cell `l`. -/
def behind (m l : ℕ) : Submodule ℝ (Slot (Fin (m + 1)) → ℝ) where
  carrier := {x | ∀ f d (c : Fin (m + 1)), l < c.val → x (f, d, c) = 0}
  add_mem' := fun hx hy f d c h => by rw [Pi.add_apply, hx f d c h, hy f d c h, add_zero]
  zero_mem' := fun _ _ _ _ => rfl
  smul_mem' := fun s x hx f d c h => by rw [Pi.smul_apply, hx f d c h, smul_zero]

lemma behind_mono {m a b : ℕ} (h : a ≤ b) : behind m a ≤ behind m b := fun _ hx f d c h1 => hx f d c (by omega)

/-- The farthest cell with a value is `l`. -/
def Front (m l : ℕ) (x : Slot (Fin (m + 1)) → ℝ) : Prop := x ∈ behind m l ∧ ∃ f, ∃ h : l < m + 1, x (f, along f, ⟨l, h⟩) ≠ 0

lemma altField_altField (f : FieldT) : altField (altField f) = f := by cases f <;> rfl

/-- A value in the first cell. -/
noncomputable def spike (m : ℕ) : Slot (Fin (m + 1)) → ℝ := Pi.single (.E, along .E, 0) 1

lemma spike_front (m : ℕ) : Front m 0 (spike m) := by
  refine ⟨fun f d c h => ?_, .E, Nat.succ_pos m, ?_⟩
  · refine Pi.single_eq_of_ne ?_ _
    intro h'
    simp only [Prod.mk.injEq] at h'
    rw [h'.2.2] at h
    simp at h
  · have : (⟨0, Nat.succ_pos m⟩ : Fin (m + 1)) = 0 := rfl
    rw [this, spike, Pi.single_eq_same]
    norm_num

section
variable {m : ℕ} {A : Matrix (Slot (Fin (m + 1))) (Slot (Fin (m + 1))) ℝ} (hA : ∀ u : State (Fin (m + 1)) ℝ, A *ᵥ flat u = flat (globalMult (line m) u))
include hA

lemma front_system {dt : ℝ} (hdt : 0 < dt) {l : ℕ} (hl : l + 1 ≤ m) {x : Slot (Fin (m + 1)) → ℝ} (h : Front m l x) :
    Front m (l + 1) ((1 - dt • A) *ᵥ x) := by
  obtain ⟨hx, f, hl', hf⟩ := h
  have e : ∀ s, ((1 - dt • A) *ᵥ x) s = x s - dt * (A *ᵥ x) s := fun s => by
    rw [sub_mulVec, one_mulVec, smul_mulVec, Pi.sub_apply, Pi.smul_apply, smul_eq_mul]
  refine ⟨fun f d c hc => ?_, altField f, by omega, ?_⟩
  · rw [e, hx f d c (by omega), line_apply hA, exchange_zero, mul_zero, mul_zero, sub_zero]
    intro i h1 _
    exact hx _ _ i (by omega)
  · rw [e, hx _ _ _ (by simp), line_apply hA, exchange_front hl, turn_along, other_along, altField_altField]
    · intro h0
      apply hf
      have : dt * (1 * (1 / 2 * x (f, along f, ⟨l, by omega⟩))) = 0 := by linarith
      have h2 : dt * (1 / 2) ≠ 0 := by positivity
      exact (mul_eq_zero.1 (by linarith : dt * (1 / 2) * x (f, along f, ⟨l, by omega⟩) = 0)).resolve_left h2
    · intro i hi
      exact hx _ _ i hi

lemma front_pow {dt : ℝ} (hdt : 0 < dt) : ∀ j ≤ m, Front m j (((1 - dt • A) ^ j) *ᵥ spike m)
  | 0, _ => by simpa using spike_front m
  | j + 1, h => by
    rw [pow_succ', ← mulVec_mulVec]
    exact front_system hA hdt h (front_pow hdt j (by omega))

lemma front_krylov {dt : ℝ} (hdt : 0 < dt) : ∀ n ≤ m, ∀ g ∈ krylov (1 - dt • A) (spike m) n, g ≠ 0 → ∃ l < n, Front m l g
  | 0, _, g, hg, h0 => by
    have : krylov (1 - dt • A) (spike m) 0 = ⊥ := by
      unfold krylov
      rw [Submodule.span_eq_bot]
      rintro v ⟨j, hj, -⟩
      exact absurd hj (Nat.not_lt_zero j)
    rw [this] at hg
    exact absurd ((Submodule.mem_bot ℝ).1 hg) h0
  | n + 1, hn, g, hg, h0 => by
    have hs : krylov (1 - dt • A) (spike m) (n + 1) ≤ krylov (1 - dt • A) (spike m) n ⊔ Submodule.span ℝ {((1 - dt • A) ^ n) *ᵥ spike m} := by
      refine Submodule.span_le.2 ?_
      rintro v ⟨j, hj, rfl⟩
      rcases Nat.lt_succ_iff_lt_or_eq.1 hj with h | h
      · exact Submodule.mem_sup_left (Submodule.subset_span ⟨j, h, rfl⟩)
      · exact Submodule.mem_sup_right (Submodule.subset_span (by rw [h]; rfl))
    obtain ⟨g', hg', w, hw, rfl⟩ := Submodule.mem_sup.1 (hs hg)
    obtain ⟨a, rfl⟩ := Submodule.mem_span_singleton.1 hw
    by_cases ha : a = 0
    · rw [ha, zero_smul, add_zero] at h0 ⊢
      obtain ⟨l, hl, hf⟩ := front_krylov hdt n (by omega) g' hg' h0
      exact ⟨l, by omega, hf⟩
    · obtain ⟨hb, f, hl, hf⟩ := front_pow hA hdt n (by omega)
      refine ⟨n, by omega, ?_⟩
      by_cases h' : g' = 0
      · rw [h', zero_add]
        exact ⟨Submodule.smul_mem _ _ hb, f, hl, by rw [Pi.smul_apply, smul_eq_mul]; exact mul_ne_zero ha hf⟩
      · obtain ⟨l, hl', hf'⟩ := front_krylov hdt n (by omega) g' hg' h'
        refine ⟨Submodule.add_mem _ (behind_mono hl'.le hf'.1) (Submodule.smul_mem _ _ hb), f, hl, ?_⟩
        rw [Pi.add_apply, hf'.1 _ _ _ (by simpa using hl'), zero_add, Pi.smul_apply, smul_eq_mul]
        exact mul_ne_zero ha hf

lemma spike_survives {dt : ℝ} (hdt : 0 < dt) {n : ℕ} (hn : n ≤ m) {g : Slot (Fin (m + 1)) → ℝ}
    (hg : g ∈ krylov (1 - dt • A) (spike m) n) : spike m + (1 - dt • A) *ᵥ g ≠ 0 := by
  by_cases h0 : g = 0
  · rw [h0, mulVec_zero, add_zero]
    intro h
    obtain ⟨-, f, hl, hf⟩ := spike_front m
    exact hf (congrFun h _)
  · obtain ⟨l, hl, hf⟩ := front_krylov hA hdt n hn g hg h0
    obtain ⟨-, f, hl', h⟩ := front_system hA hdt (by omega) hf
    intro e
    have := congrFun e (f, along f, ⟨l + 1, hl'⟩)
    rw [Pi.add_apply, (spike_front m).1 _ _ _ (by simp), zero_add] at this
    exact h this
end

lemma krylov_of_mem {ι : Type} [Fintype ι] [DecidableEq ι] {J : Matrix ι ι ℝ} {v x : ι → ℝ} {a i : ℕ} (hx : x ∈ krylov J v (a + 1)) :
    krylov J x i ≤ krylov J v (a + i) := by
  refine Submodule.span_le.2 ?_
  rintro w ⟨j, hj, rfl⟩
  have : ∀ j, (J ^ j) *ᵥ x ∈ krylov J v (a + 1 + j) := by
    intro j
    induction j with
    | zero => simpa using hx
    | succ j ih =>
      rw [pow_succ', ← mulVec_mulVec]
      exact krylov_mul ih
  exact krylov_mono (by omega) (this j)

lemma krylov_image {ι : Type} [Fintype ι] [DecidableEq ι] {J : Matrix ι ι ℝ} {x w : ι → ℝ} {i : ℕ} (hw : w ∈ krylov J (res J 0 x) i) :
    ∃ g ∈ krylov J x i, w = J *ᵥ g := by
  refine Submodule.span_induction (p := fun w _ => ∃ g ∈ krylov J x i, w = J *ᵥ g) ?_ ?_ ?_ ?_ hw
  · rintro w ⟨j, hj, rfl⟩
    refine ⟨-((J ^ j) *ᵥ x), Submodule.neg_mem _ (Submodule.subset_span ⟨j, hj, rfl⟩), ?_⟩
    unfold res
    rw [zero_sub, mulVec_neg, mulVec_neg, mulVec_mulVec, mulVec_mulVec, ← pow_succ, ← pow_succ']
  · exact ⟨0, Submodule.zero_mem _, by rw [mulVec_zero]⟩
  · rintro _ _ _ _ ⟨g, hg, rfl⟩ ⟨g', hg', rfl⟩
    exact ⟨g + g', Submodule.add_mem _ hg hg', by rw [mulVec_add]⟩
  · rintro c _ _ ⟨g, hg, rfl⟩
    exact ⟨c • g, Submodule.smul_mem _ _ hg, by rw [mulVec_smul]⟩

lemma iterates_form {ι : Type} [Fintype ι] [DecidableEq ι] {J : Matrix ι ι ℝ} {v : ι → ℝ} {tol : ℝ} {n : ℕ} {x z : ι → ℝ}
    (h : Iterates J 0 tol n x z) : ∀ a, (∃ g ∈ krylov J v a, x = v + J *ᵥ g) → ∃ g ∈ krylov J v (a + n), z = v + J *ᵥ g := by
  induction h with
  | met n x _ => rintro a ⟨g, hg, e⟩; exact ⟨g, krylov_mono (by omega) hg, e⟩
  | spent x _ => rintro a ⟨g, hg, e⟩; exact ⟨g, hg, e⟩
  | cycle n i x y z _ hi hk hn best _ _ _ ih =>
    rintro a ⟨g, hg, e⟩
    have hx : x ∈ krylov J v (a + 1) := by
      rw [e]
      exact Submodule.add_mem _ (krylov_self J v a) (krylov_mul hg)
    obtain ⟨g', hg', e'⟩ := krylov_image best.reached
    have hy : ∃ g ∈ krylov J v (a + i), y = v + J *ᵥ g :=
      ⟨g + g', Submodule.add_mem _ (krylov_mono (by omega) hg) (krylov_of_mem hx hg'), by
        rw [mulVec_add, ← add_assoc, ← e, ← e', add_sub_cancel]⟩
    obtain ⟨g2, h2, e2⟩ := ih _ hy
    exact ⟨g2, krylov_mono (by omega) h2, e2⟩

/-- With nothing to solve for, the answer is as large as what was in memory makes it. -/
theorem line_memory {m : ℕ} (hm : maxIter ≤ m) {A : Matrix (Slot (Fin (m + 1))) (Slot (Fin (m + 1))) ℝ}
    (hA : ∀ u : State (Fin (m + 1)) ℝ, A *ᵥ flat u = flat (globalMult (line m) u)) {dt : ℝ} (hdt : 0 < dt) (C : ℝ) :
    ∃ k0, ∀ k, iterativeSolve A 0 dt 0 k0 k → C < len k := by
  obtain ⟨z, hz⟩ := iterates_exists (1 - dt • A) 0 (relTol * len (res (1 - dt • A) 0 (spike m))) maxIter (spike m)
  obtain ⟨g, hg, e⟩ := iterates_form hz 0 ⟨0, Submodule.zero_mem _, by rw [mulVec_zero, add_zero]⟩
  rw [zero_add] at hg
  have h0 : z ≠ 0 := e ▸ spike_survives hA hdt hm hg
  have hp := len_pos h0
  obtain ⟨s, hs⟩ : ∃ s, s = (|C| + 1) / len z := ⟨_, rfl⟩
  have hs0 : 0 < s := by rw [hs]; positivity
  refine ⟨s • spike m, fun k hk => ?_⟩
  unfold iterativeSolve Solved at hk
  rw [mulVec_zero, add_zero, res_zero_smul, len_smul, abs_of_pos hs0, mul_left_comm] at hk
  have hJ : ∀ v, (1 - dt • A) *ᵥ v = 0 → v = 0 := by
    intro v hv
    have := line_stiff hA hdt.le v
    rw [hv, len_zero] at this
    exact eq_zero_of_len this
  rw [iterates_unique hJ hk (hz.scale hs0), len_smul, abs_of_pos hs0, hs, div_mul_cancel₀ _ hp.ne']
  have := le_abs_self C
  linarith

end Dgtd.Gmres
