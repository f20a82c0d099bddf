/-
Linear algebra of the source-face operators.
-/
import Verif.Spec.OpSource
import Verif.Lemmas.OpForm
import Mathlib.Tactic.LinearCombination

set_option linter.unusedSectionVars false
set_option linter.unusedSimpArgs false

namespace Dgtd.Op

open Spec

variable {ι K : Type} [Fintype ι] [DecidableEq ι] [Field K] [LinearOrder K]

/-! ### sums over lists of blocks -/

lemma applyBlocks_nilS (u : State ι K) (f : FieldT) (d : Dir) : applyBlocks [] u f d = (0 : ι → K) := rfl

lemma applyBlocks_consS (b : GBlock ι K) (bs : List (GBlock ι K)) (u : State ι K) (f : FieldT) (d : Dir) :
    applyBlocks (b :: bs) u f d =
      (if b.rowF = f ∧ b.rowD = d then b.sign • b.mat.mulVec (u b.colF b.colD) else 0) + applyBlocks bs u f d := by
  unfold applyBlocks
  rw [List.filter_cons]
  by_cases h : b.rowF = f ∧ b.rowD = d
  · rw [if_pos (by simpa using h), if_pos h, List.map_cons, List.sum_cons]
  · rw [if_neg (by simpa using h), if_neg h, zero_add]

lemma applyBlocks_appendS (as bs : List (GBlock ι K)) (u : State ι K) (f : FieldT) (d : Dir) :
    applyBlocks (as ++ bs) u f d = applyBlocks as u f d + applyBlocks bs u f d := by
  unfold applyBlocks
  rw [List.filter_append, List.map_append, List.sum_append]

lemma applyBlocks_sub (bs : List (GBlock ι K)) (u v : State ι K) (f : FieldT) (d : Dir) (i : ι) :
    applyBlocks bs (fun f d i => u f d i - v f d i) f d i = applyBlocks bs u f d i - applyBlocks bs v f d i := by
  induction bs with
  | nil => simp [applyBlocks_nilS]
  | cons b bs ih =>
    simp only [applyBlocks_consS, Pi.add_apply, ih]
    have e : (b.mat.mulVec fun i => u b.colF b.colD i - v b.colF b.colD i) i =
        b.mat.mulVec (u b.colF b.colD) i - b.mat.mulVec (v b.colF b.colD) i := by
      have := Matrix.mulVec_sub b.mat (u b.colF b.colD) (v b.colF b.colD)
      exact congrFun this i
    by_cases h : b.rowF = f ∧ b.rowD = d
    · simp only [if_pos h, Pi.smul_apply, smul_eq_mul, e]; ring
    · simp only [if_neg h, Pi.zero_apply]; ring

/-- Three parallel lists of blocks acting on three states, at one row. -/
def Rel (x y z : State ι K) (r : ι) (k : K) (as bs cs : List (GBlock ι K)) : Prop :=
  ∀ f d, applyBlocks as x f d r + applyBlocks bs y f d r = k * applyBlocks cs z f d r

section rel
variable {x y z : State ι K} {r : ι} {k : K}

lemma Rel.nil : Rel x y z r k [] [] [] := fun f d => by simp [applyBlocks_nilS]

lemma Rel.append {as bs cs as' bs' cs' : List (GBlock ι K)} (h : Rel x y z r k as bs cs)
    (h' : Rel x y z r k as' bs' cs') : Rel x y z r k (as ++ as') (bs ++ bs') (cs ++ cs') := by
  intro f d
  simp only [applyBlocks_appendS, Pi.add_apply]
  have := h f d
  have := h' f d
  linear_combination h f d + h' f d

lemma Rel.single (rf : FieldT) (rd : Dir) (cf : FieldT) (cd : Dir) (s : K) (A B C : Matrix ι ι K)
    (h : A.mulVec (x cf cd) r + B.mulVec (y cf cd) r = k * C.mulVec (z cf cd) r) :
    Rel x y z r k [⟨rf, rd, cf, cd, s, A⟩] [⟨rf, rd, cf, cd, s, B⟩] [⟨rf, rd, cf, cd, s, C⟩] := by
  intro f d
  simp only [applyBlocks_consS, applyBlocks_nilS, add_zero]
  by_cases hh : rf = f ∧ rd = d
  · simp only [if_pos hh, Pi.smul_apply, smul_eq_mul]
    linear_combination s * h
  · simp [if_neg hh]

lemma Rel.single0 (rf : FieldT) (rd : Dir) (cf : FieldT) (cd : Dir) (s : K) (A C : Matrix ι ι K)
    (h : A.mulVec (x cf cd) r = k * C.mulVec (z cf cd) r) :
    Rel x y z r k [⟨rf, rd, cf, cd, s, A⟩] [] [⟨rf, rd, cf, cd, s, C⟩] := by
  intro f d
  simp only [applyBlocks_consS, applyBlocks_nilS, add_zero, Pi.zero_apply]
  by_cases hh : rf = f ∧ rd = d
  · simp only [if_pos hh, Pi.smul_apply, smul_eq_mul]
    linear_combination s * h
  · simp [if_neg hh]

lemma Rel.flatMap {α : Type} (l : List α) (a b c : α → List (GBlock ι K))
    (h : ∀ t ∈ l, Rel x y z r k (a t) (b t) (c t)) :
    Rel x y z r k (l.flatMap a) (l.flatMap b) (l.flatMap c) := by
  induction l with
  | nil => exact Rel.nil
  | cons t l ih =>
    simp only [List.flatMap_cons]
    exact (h t (by simp)).append (ih fun t ht => h t (by simp [ht]))

lemma Rel.map {α : Type} (l : List α) (a b c : α → GBlock ι K)
    (h : ∀ t ∈ l, Rel x y z r k [a t] [b t] [c t]) : Rel x y z r k (l.map a) (l.map b) (l.map c) := by
  induction l with
  | nil => exact Rel.nil
  | cons t l ih =>
    have := (h t (by simp)).append (ih fun t ht => h t (by simp [ht]))
    simpa using this

lemma Rel.zero {A B C : FieldT → Matrix ι ι K}
    (h : ∀ f d, (A f).mulVec (x f d) r + (B f).mulVec (y f d) r = k * (C f).mulVec (z f d) r) :
    Rel x y z r k (zeroBlocks A) (zeroBlocks B) (zeroBlocks C) :=
  Rel.flatMap _ _ _ _ fun f _ => Rel.map _ _ _ _ fun d _ => Rel.single _ _ _ _ _ _ _ _ (h f d)

lemma Rel.one (dim : Nat) {A B C : FieldT → Dir → Matrix ι ι K}
    (h : ∀ f a d, (A f a).mulVec (x (altField f) d) r + (B f a).mulVec (y (altField f) d) r =
      k * (C f a).mulVec (z (altField f) d) r) :
    Rel x y z r k (oneBlocks dim A) (oneBlocks dim B) (oneBlocks dim C) :=
  Rel.flatMap _ _ _ _ fun f _ => Rel.flatMap _ _ _ _ fun a _ =>
    (Rel.single _ _ _ _ _ _ _ _ (h f a _)).append (Rel.single _ _ _ _ _ _ _ _ (h f a _))

lemma Rel.two (dim : Nat) {A B C : FieldT → Dir → Dir → Matrix ι ι K}
    (h : ∀ f a b d, (A f a b).mulVec (x f d) r + (B f a b).mulVec (y f d) r = k * (C f a b).mulVec (z f d) r) :
    Rel x y z r k (twoBlocks dim A) (twoBlocks dim B) (twoBlocks dim C) :=
  Rel.flatMap _ _ _ _ fun f _ => Rel.flatMap _ _ _ _ fun a _ => Rel.map _ _ _ _ fun b _ =>
    Rel.single _ _ _ _ _ _ _ _ (h f a b _)

lemma Rel.flatMap0 {α : Type} (l : List α) (a c : α → List (GBlock ι K))
    (h : ∀ t ∈ l, Rel x y z r k (a t) [] (c t)) : Rel x y z r k (l.flatMap a) [] (l.flatMap c) := by
  induction l with
  | nil => exact Rel.nil
  | cons t l ih =>
    have := (h t (by simp)).append (ih fun t ht => h t (by simp [ht]))
    simpa using this

lemma Rel.map0 {α : Type} (l : List α) (a c : α → GBlock ι K)
    (h : ∀ t ∈ l, Rel x y z r k [a t] [] [c t]) : Rel x y z r k (l.map a) [] (l.map c) := by
  induction l with
  | nil => exact Rel.nil
  | cons t l ih =>
    have := (h t (by simp)).append (ih fun t ht => h t (by simp [ht]))
    simpa using this

lemma Rel.append0 {as cs as' cs' : List (GBlock ι K)} (h : Rel x y z r k as [] cs)
    (h' : Rel x y z r k as' [] cs') : Rel x y z r k (as ++ as') [] (cs ++ cs') := by
  simpa using h.append h'

lemma Rel.zero0 {A C : FieldT → Matrix ι ι K} (h : ∀ f d, (A f).mulVec (x f d) r = k * (C f).mulVec (z f d) r) :
    Rel x y z r k (zeroBlocks A) [] (zeroBlocks C) :=
  Rel.flatMap0 _ _ _ fun f _ => Rel.map0 _ _ _ fun d _ => Rel.single0 _ _ _ _ _ _ _ (h f d)

lemma Rel.one0 (dim : Nat) {A C : FieldT → Dir → Matrix ι ι K}
    (h : ∀ f a d, (A f a).mulVec (x (altField f) d) r = k * (C f a).mulVec (z (altField f) d) r) :
    Rel x y z r k (oneBlocks dim A) [] (oneBlocks dim C) :=
  Rel.flatMap0 _ _ _ fun f _ => Rel.flatMap0 _ _ _ fun a _ =>
    (Rel.single0 _ _ _ _ _ _ _ (h f a _)).append0 (Rel.single0 _ _ _ _ _ _ _ (h f a _))

lemma Rel.two0 (dim : Nat) {A C : FieldT → Dir → Dir → Matrix ι ι K}
    (h : ∀ f a b d, (A f a b).mulVec (x f d) r = k * (C f a b).mulVec (z f d) r) :
    Rel x y z r k (twoBlocks dim A) [] (twoBlocks dim C) :=
  Rel.flatMap0 _ _ _ fun f _ => Rel.flatMap0 _ _ _ fun a _ => Rel.map0 _ _ _ fun b _ =>
    Rel.single0 _ _ _ _ _ _ _ (h f a b _)

end rel

/-- The global operator whether or not there are interior boundaries: without them their blocks are zero. -/
def ibfiBlocks (P : Prob ι K) : List (GBlock ι K) :=
  oneBlocks P.dim (fun f x => P.Minv f * oneNormalIBFI P (altField f) x) ++
  zeroBlocks (fun f => P.Minv f * zeroNormalIBFI P f) ++
  twoBlocks P.dim (fun f d d2 => P.Minv f * twoNormalIBFI P f d d2)

def faceBlocks (P : Prob ι K) : List (GBlock ι K) :=
  oneBlocks P.dim (fun f x => P.Minv f * oneNormalSub P (altField f) x) ++
  zeroBlocks (fun f => P.Minv f * zeroNormalSub P f) ++
  twoBlocks P.dim (fun f d d2 => P.Minv f * twoNormalSub P f d d2)

lemma assemble_nil : assemble ([] : List (Face ι K × EMat K)) = 0 := rfl

lemma globalMult_eq (P : Prob ι K) (u : State ι K) (f : FieldT) (d : Dir) (r : ι) :
    globalMult P u f d r = applyBlocks (ibfiBlocks P) u f d r + applyBlocks (directionalBlocks P) u f d r +
      applyBlocks (faceBlocks P) u f d r + applyBlocks (conductiveBlocks P) u f d r := by
  unfold globalMult globalBlocks
  by_cases h : hasIntBdr P = true
  · rw [if_pos h]
    unfold ibfiBlocks faceBlocks
    simp only [applyBlocks_appendS, Pi.add_apply]; ring
  · rw [if_neg h]
    have hn : intBdrFaces P = [] := by
      unfold intBdrFaces
      rw [List.filterMap_eq_nil_iff]
      intro q hq
      have : q.1 = none := by
        by_contra hc
        apply h
        unfold hasIntBdr
        rw [List.any_eq_true]
        exact ⟨q, hq, by cases hq1 : q.1 <;> simp_all⟩
      rw [this]
    have z : applyBlocks (ibfiBlocks P) u f d r = 0 := by
      have hr : Rel u u u r 0 (ibfiBlocks P) [] (ibfiBlocks P) := by
        unfold ibfiBlocks oneNormalIBFI zeroNormalIBFI twoNormalIBFI
        rw [hn]
        simp only [List.map_nil, assemble_nil, Matrix.mul_zero]
        exact ((Rel.one0 _ fun f a d => by simp [Matrix.zero_mulVec]).append0
          (Rel.zero0 fun f d => by simp [Matrix.zero_mulVec])).append0 (Rel.two0 _ fun f a b d => by simp [Matrix.zero_mulVec])
      have := hr f d
      rw [applyBlocks_nilS, Pi.zero_apply, zero_mul, add_zero] at this
      exact this
    rw [z]
    unfold faceBlocks
    simp only [applyBlocks_appendS, List.nil_append, Pi.add_apply]; ring

/-! ### rows through forms -/

lemma mulVec_form (A : Matrix ι ι K) (u : ι → K) (r : ι) : A.mulVec u r = form A (Pi.single r 1) u := by
  unfold form
  rw [single_dotProduct, one_mul]

/-- Row of `Minv * X`, when only rows of `X` in a set that `Minv` respects matter. -/
lemma minv_row {M X Y Z : Matrix ι ι K} {x y z : ι → K} {k : K} {r : ι}
    (h : ∀ c, M r c ≠ 0 → X.mulVec x c + Y.mulVec y c = k * Z.mulVec z c) :
    (M * X).mulVec x r + (M * Y).mulVec y r = k * (M * Z).mulVec z r := by
  rw [← Matrix.mulVec_mulVec, ← Matrix.mulVec_mulVec, ← Matrix.mulVec_mulVec]
  have e : ∀ v : ι → K, M.mulVec v r = ∑ c, M r c * v c := fun v => rfl
  rw [e, e, e, Finset.mul_sum, ← Finset.sum_add_distrib]
  apply Finset.sum_congr rfl
  intro c _
  by_cases hc : M r c = 0
  · rw [hc]; ring
  · linear_combination M r c * h c hc

/-- The same for two matrices. -/
lemma minv_row0 {M X Z : Matrix ι ι K} {x z : ι → K} {k : K} {r : ι}
    (h : ∀ c, M r c ≠ 0 → X.mulVec x c = k * Z.mulVec z c) :
    (M * X).mulVec x r = k * (M * Z).mulVec z r := by
  have := minv_row (M := M) (X := X) (Y := 0) (Z := Z) (x := x) (y := x) (z := z) (k := k) (r := r)
    fun c hc => by simp [h c hc]
  simpa using this

lemma fbil_add (F : Face ι K) (m : EMat K) (v u u' : ι → K) :
    fbil F m v (fun i => u i + u' i) = fbil F m v u + fbil F m v u' := by
  unfold fbil bil
  simp only [mul_add, Finset.sum_add_distrib]

lemma fbil_congr (F : Face ι K) (m : EMat K) {v v' u u' : ι → K}
    (hv : ∀ i < F.ndof1 + F.ndof2, v (F.dofs i) = v' (F.dofs i))
    (hu : ∀ i < F.ndof1 + F.ndof2, u (F.dofs i) = u' (F.dofs i)) : fbil F m v u = fbil F m v' u' := by
  unfold fbil bil
  apply Finset.sum_congr rfl
  intro i hi
  apply Finset.sum_congr rfl
  intro j hj
  beta_reduce
  rw [hv i (Finset.mem_range.mp hi), hu j (Finset.mem_range.mp hj)]

lemma fbil_left_zero (F : Face ι K) (m : EMat K) {v : ι → K} (u : ι → K)
    (hv : ∀ i < F.ndof1 + F.ndof2, v (F.dofs i) = 0) : fbil F m v u = 0 := by
  unfold fbil bil
  apply Finset.sum_eq_zero
  intro i hi
  apply Finset.sum_eq_zero
  intro j _
  beta_reduce
  rw [hv i (Finset.mem_range.mp hi)]; ring

lemma fbil_right_zero (F : Face ι K) (m : EMat K) (v : ι → K) {u : ι → K}
    (hu : ∀ i < F.ndof1 + F.ndof2, u (F.dofs i) = 0) : fbil F m v u = 0 := by
  unfold fbil bil
  apply Finset.sum_eq_zero
  intro i _
  apply Finset.sum_eq_zero
  intro j hj
  beta_reduce
  rw [hu j (Finset.mem_range.mp hj)]; ring

lemma tr1_congr (F : Face ι K) (p : Pt K) {u u' : ι → K} (h : ∀ i < F.ndof1, u (F.dofs i) = u' (F.dofs i)) :
    tr1 F p u = tr1 F p u' := by
  unfold tr1
  apply Finset.sum_congr rfl
  intro i hi
  rw [h i (Finset.mem_range.mp hi)]

lemma tr2_congr (F : Face ι K) (p : Pt K) {u u' : ι → K}
    (h : ∀ i < F.ndof2, u (F.dofs (F.ndof1 + i)) = u' (F.dofs (F.ndof1 + i))) : tr2 F p u = tr2 F p u' := by
  unfold tr2
  apply Finset.sum_congr rfl
  intro i hi
  rw [h i (Finset.mem_range.mp hi)]

lemma tr1_smul (F : Face ι K) (p : Pt K) (k : K) (u : ι → K) : tr1 F p (fun i => k * u i) = k * tr1 F p u := by
  unfold tr1
  rw [Finset.mul_sum]
  exact Finset.sum_congr rfl fun i _ => by ring

lemma tr2_smul (F : Face ι K) (p : Pt K) (k : K) (u : ι → K) : tr2 F p (fun i => k * u i) = k * tr2 F p u := by
  unfold tr2
  rw [Finset.mul_sum]
  exact Finset.sum_congr rfl fun i _ => by ring

/-- An element matrix that only sees jumps. -/
def SeesJumps (F : Face ι K) (m : EMat K) : Prop :=
  ∀ v u, (∀ p ∈ F.pts, tr1 F p u = tr2 F p u) → fbil F m v u = 0

lemma sum_map_zero {α : Type} (l : List α) (g : α → K) (h : ∀ a ∈ l, g a = 0) : (l.map g).sum = 0 := by
  induction l with
  | nil => rfl
  | cons a l ih => rw [List.map_cons, List.sum_cons, h a (by simp), ih fun b hb => h b (by simp [hb]), add_zero]

lemma seesJumps_zero (beta : K) (F : Face ι K) : SeesJumps F (zeroNormal beta F) := by
  intro v u h
  rw [fbil_zeroNormal]
  exact sum_map_zero _ _ fun p hp => by rw [h p hp]; ring

lemma seesJumps_one (d : Dir) (beta : K) (F : Face ι K) : SeesJumps F (oneNormal d beta F) := by
  intro v u h
  rw [fbil_oneNormal]
  exact sum_map_zero _ _ fun p hp => by rw [h p hp]; ring

lemma seesJumps_two (d d2 : Dir) (beta : K) (F : Face ι K) : SeesJumps F (twoNormal d d2 beta F) := by
  intro v u h
  rw [fbil_twoNormal]
  exact sum_map_zero _ _ fun p hp => by rw [h p hp]; ring

end Dgtd.Op
