/-
Equivariance of the weak form of the global operator.
-/
import Verif.Lemmas.OpWeak
import Verif.Spec.OpFrame
import Mathlib.LinearAlgebra.Matrix.Adjugate

set_option linter.unusedSectionVars false

namespace Dgtd.Op

open Spec

variable {ι ι' K : Type} [Fintype ι] [DecidableEq ι] [Fintype ι'] [DecidableEq ι'] [Field K] [LinearOrder K] [IsStrictOrderedRing K]

/-! ### all faces -/

/-- Contribution of an interior face. -/
def interiorTerm (alpha : K) (u : State ι K) (f : FieldT) (d : Dir) (v : ι → K) : Option BdrCond → Face ι K → K
  | none, F => plainTerm u f d 1 alpha F v
  | some .SGBC, _ => 0
  | some c, F => wallTerm u f d (fluxCoeff c (altField f)) (if c ≠ .SMA then bdrCoeff c f * alpha else 1) F v

/-- Contribution of an exterior face. -/
def exteriorTerm (alpha : K) (u : State ι K) (f : FieldT) (d : Dir) (v : ι → K) : Option BdrCond → Face ι K → K
  | none, _ => 0
  | some c, F => plainTerm u f d (fluxCoeff c (altField f)) (if c ≠ .SMA then bdrCoeff c f * alpha else 1) F v

lemma weak_faces (P : Prob ι K) (u : State ι K) (f : FieldT) (d : Dir) (v : ι → K) :
    weak P u f d v = curlTerm P u f d v + (P.interior.map fun q => interiorTerm P.alpha u f d v q.1 q.2).sum +
      (P.bdr.map fun q => exteriorTerm P.alpha u f d v q.1 q.2).sum - lossTerm P u f d v := by
  have h1 : (P.interior.map fun q => interiorTerm P.alpha u f d v q.1 q.2).sum =
      ((plainFaces P).map fun F => plainTerm u f d 1 P.alpha F v).sum +
      ((intBdrFaces P).map fun q => wallTerm u f d (fluxCoeff q.1 (altField f)) (penaltyCoeff P q.1 f) q.2 v).sum := by
    unfold plainFaces intBdrFaces
    induction P.interior with
    | nil => simp
    | cons q l ih =>
      obtain ⟨o, F⟩ := q
      rw [List.map_cons, List.sum_cons, ih]
      cases o with
      | none => simp [interiorTerm]; ring
      | some c => cases c <;> simp [interiorTerm, penaltyCoeff] <;> ring
  have h2 : (P.bdr.map fun q => exteriorTerm P.alpha u f d v q.1 q.2).sum =
      ((bdrFaces P).map fun q => plainTerm u f d (fluxCoeff q.1 (altField f)) (penaltyCoeff P q.1 f) q.2 v).sum := by
    unfold bdrFaces
    induction P.bdr with
    | nil => simp
    | cons q l ih =>
      obtain ⟨o, F⟩ := q
      rw [List.map_cons, List.sum_cons, ih]
      cases o with
      | none => simp [exteriorTerm]
      | some c => cases c <;> simp [exteriorTerm, penaltyCoeff]
  rw [h1, h2]
  unfold weak
  ring

/-! ### vectors -/

section vectors
variable {R : Matrix Dir Dir K} {s : K}

lemma Spec.Frame.sq (h : Frame R s) : s * s = 1 := by
  have := congrArg Matrix.det h.orth
  rw [Matrix.det_mul, Matrix.det_transpose, h.det, Matrix.det_one] at this
  exact this

lemma Spec.Frame.cols (h : Frame R s) (b c : Dir) : ∑ a, R a b * R a c = if b = c then 1 else 0 := by
  have : R.transpose * R = 1 := mul_eq_one_comm.1 h.orth
  have := congrFun (congrFun this b) c
  rw [Matrix.mul_apply, Matrix.one_apply] at this
  exact this

lemma Spec.Frame.cofactor (h : Frame R s) (d k : Dir) :
    R (d + 1) (k + 1) * R (d + 2) (k + 2) - R (d + 1) (k + 2) * R (d + 2) (k + 1) = s * R d k := by
  have h1 : R.adjugate = s • R.transpose := by
    have h2 := Matrix.adjugate_mul R
    calc R.adjugate = R.adjugate * (R * R.transpose) := by rw [h.orth, Matrix.mul_one]
      _ = (R.adjugate * R) * R.transpose := by rw [Matrix.mul_assoc]
      _ = s • R.transpose := by rw [h2, h.det, Matrix.smul_mul, Matrix.one_mul]
  have h3 := congrFun (congrFun h1 k) d
  rw [Matrix.adjugate_fin_three] at h3
  rw [Matrix.smul_apply, Matrix.transpose_apply, smul_eq_mul] at h3
  rw [← h3]
  fin_cases d <;> fin_cases k <;> simp [Matrix.of_apply] <;> ring

/-- Products of components along new axes. -/
lemma cross_along (h : Frame R s) (T : Dir → Dir → K) (d : Dir) :
    (∑ b, ∑ c, R (d + 1) b * R (d + 2) c * T b c) - (∑ b, ∑ c, R (d + 2) b * R (d + 1) c * T b c) =
      s * ∑ k, R d k * (T (k + 1) (k + 2) - T (k + 2) (k + 1)) := by
  have e : ∀ k, s * R d k = R (d + 1) (k + 1) * R (d + 2) (k + 2) - R (d + 1) (k + 2) * R (d + 2) (k + 1) := fun k =>
    (h.cofactor d k).symm
  rw [Finset.mul_sum]
  simp only [← mul_assoc, e]
  simp only [Fin.sum_univ_three]
  show _ = (R (d + 1) 1 * R (d + 2) 2 - R (d + 1) 2 * R (d + 2) 1) * (T 1 2 - T 2 1) +
    (R (d + 1) 2 * R (d + 2) 0 - R (d + 1) 0 * R (d + 2) 2) * (T 2 0 - T 0 2) +
    (R (d + 1) 0 * R (d + 2) 1 - R (d + 1) 1 * R (d + 2) 0) * (T 0 1 - T 1 0)
  ring

lemma crossT_along (h : Frame R s) (n t : Dir → K) (d : Dir) : crossT (along R n) (along R t) d = s * along R (crossT n t) d := by
  have := cross_along h (fun b c => n c * t b) d
  unfold crossT along
  simp only [Fin.sum_univ_three] at this ⊢
  have z1 : (0 : Dir) + 1 = 1 := rfl
  have z2 : (0 : Dir) + 2 = 2 := rfl
  have o1 : (1 : Dir) + 1 = 2 := rfl
  have o2 : (1 : Dir) + 2 = 0 := rfl
  have t1 : (2 : Dir) + 1 = 0 := rfl
  have t2 : (2 : Dir) + 2 = 1 := rfl
  simp only [z1, z2, o1, o2, t1, t2] at this ⊢
  linear_combination this

lemma dot_along (h : Frame R s) (n t : Dir → K) :
    along R n 0 * along R t 0 + along R n 1 * along R t 1 + along R n 2 * along R t 2 = n 0 * t 0 + n 1 * t 1 + n 2 * t 2 := by
  have c := h.cols
  have e00 := c 0 0
  have e01 := c 0 1
  have e02 := c 0 2
  have e11 := c 1 1
  have e12 := c 1 2
  have e22 := c 2 2
  simp only [Fin.sum_univ_three, if_true] at e00 e01 e02 e11 e12 e22
  rw [if_neg (by decide)] at e01 e02 e12
  unfold along
  simp only [Fin.sum_univ_three]
  linear_combination (n 0 * t 0) * e00 + (n 0 * t 1 + n 1 * t 0) * e01 + (n 0 * t 2 + n 2 * t 0) * e02 + (n 1 * t 1) * e11 +
    (n 1 * t 2 + n 2 * t 1) * e12 + (n 2 * t 2) * e22

lemma pen_along (h : Frame R s) (n t : Dir → K) (W : K) (d : Dir) :
    pen (along R n) W (along R t) d = along R (pen n W t) d := by
  unfold pen
  rw [dot_along h]
  unfold along
  simp only [Fin.sum_univ_three]
  ring

lemma crossT_smul (c k : K) (n t : Dir → K) (d : Dir) :
    crossT (fun a => c * n a) (fun a => k * t a) d = c * k * crossT n t d := by
  unfold crossT
  ring

lemma pen_smul (c k : K) (hc : c * c = 1) (n t : Dir → K) (W : K) (d : Dir) :
    pen (fun a => c * n a) W (fun a => k * t a) d = k * pen n W t d := by
  unfold pen
  linear_combination (-k * n d * (n 0 * t 0 + n 1 * t 1 + n 2 * t 2) / W) * hc

lemma along_smul (k : K) (t : Dir → K) (d : Dir) : along R (fun a => k * t a) d = k * along R t d := by
  unfold along
  rw [Finset.mul_sum]
  exact Finset.sum_congr rfl fun b _ => by ring

lemma along_add (t t' : Dir → K) (d : Dir) : along R (fun a => t a + t' a) d = along R t d + along R t' d := by
  unfold along
  rw [← Finset.sum_add_distrib]
  exact Finset.sum_congr rfl fun b _ => by ring

lemma along_sub (t t' : Dir → K) (d : Dir) : along R (fun a => t a - t' a) d = along R t d - along R t' d := by
  unfold along
  rw [← Finset.sum_sub_distrib]
  exact Finset.sum_congr rfl fun b _ => by ring

end vectors

/-! ### points and faces -/

section faces
variable {R : Matrix Dir Dir K} {s : K} {e : ι ≃ ι'}

/-- Sign that a field takes under a change of handedness. -/
def parity (s : K) : FieldT → K
  | .E => 1
  | .H => s

lemma parity_alt (h : Frame R s) (f : FieldT) : parity s (altField f) * s = parity s f := by
  cases f
  · exact h.sq
  · exact one_mul s

lemma moved_eq (u : State ι K) (f : FieldT) (a : Dir) :
    moved R s e u f a = (fun i => parity s f * along R (fun b => u f b i) a) ∘ e.symm := by
  funext i
  cases f
  · exact (one_mul _).symm
  · rfl

lemma tr1_along (F : Face ι K) (p : Pt K) (k : K) (x : Dir → ι → K) (a : Dir) :
    tr1 F p (fun i => k * along R (fun b => x b i) a) = k * along R (fun b => tr1 F p (x b)) a := by
  unfold tr1 along
  simp only [Finset.mul_sum]
  rw [Finset.sum_comm]
  exact Finset.sum_congr rfl fun b _ => Finset.sum_congr rfl fun i _ => by ring

lemma tr2_along (F : Face ι K) (p : Pt K) (k : K) (x : Dir → ι → K) (a : Dir) :
    tr2 F p (fun i => k * along R (fun b => x b i) a) = k * along R (fun b => tr2 F p (x b)) a := by
  unfold tr2 along
  simp only [Finset.mul_sum]
  rw [Finset.sum_comm]
  exact Finset.sum_congr rfl fun b _ => Finset.sum_congr rfl fun i _ => by ring

lemma plain_same (h : Frame R s) {flip : Bool} {F : Face ι K} {F' : Face ι' K} {p p' : Pt K} (hp : SamePt R e flip F F' p p')
    (u : State ι K) (v : ι → K) (f : FieldT) (bf bp : K) (d : Dir) :
    plainPt (sgn f) bf bp p' (fun k => tr1 F' p' (moved R s e u (altField f) k) - tr2 F' p' (moved R s e u (altField f) k))
      (fun k => tr1 F' p' (moved R s e u f k) - tr2 F' p' (moved R s e u f k)) (tr1 F' p' (v ∘ e.symm)) (tr2 F' p' (v ∘ e.symm)) d =
    parity s f * along R (plainPt (sgn f) bf bp p (fun k => tr1 F p (u (altField f) k) - tr2 F p (u (altField f) k))
      (fun k => tr1 F p (u f k) - tr2 F p (u f k)) (tr1 F p v) (tr2 F p v)) d := by
  set c : K := if flip then -1 else 1 with hc
  have hcc : c * c = 1 := by rw [hc]; split_ifs <;> ring
  have hn : normalTerm p'.nor = fun a => c * along R (normalTerm p.nor) a := funext hp.normal
  have hj : ∀ g : FieldT, (fun k => tr1 F' p' (moved R s e u g k) - tr2 F' p' (moved R s e u g k)) =
      fun k => c * parity s g * along R (fun b => tr1 F p (u g b) - tr2 F p (u g b)) k := by
    intro g
    funext k
    rw [moved_eq, hp.first, hp.second, tr1_along, tr2_along, along_sub, hc]
    split_ifs <;> ring
  have hs : tr1 F' p' (v ∘ e.symm) + tr2 F' p' (v ∘ e.symm) = tr1 F p v + tr2 F p v := by
    rw [hp.first, hp.second]
    split_ifs <;> ring
  have hd : tr1 F' p' (v ∘ e.symm) - tr2 F' p' (v ∘ e.symm) = c * (tr1 F p v - tr2 F p v) := by
    rw [hp.first, hp.second, hc]
    split_ifs <;> ring
  have hr : ∀ (x y : K) (g1 g2 : Dir → K), along R (fun a => p.w / 2 * (sgn f * bf * g1 a * x - bp * g2 a * y)) d =
      p.w / 2 * (sgn f * bf * along R g1 d * x - bp * along R g2 d * y) := by
    intro x y g1 g2
    unfold along
    simp only [Fin.sum_univ_three]
    ring
  unfold plainPt
  rw [hr, hs, hd, hj, hj, hn, crossT_smul, pen_smul c _ hcc, crossT_along h, pen_along h, hp.weight, hp.surface, ← parity_alt h f]
  have hs2 := h.sq
  linear_combination (p.w / 2 * (sgn f * bf * s * parity s (altField f) *
      along R (crossT (normalTerm p.nor) fun b => tr1 F p (u (altField f) b) - tr2 F p (u (altField f) b)) d * (tr1 F p v + tr2 F p v)
      - bp * (parity s (altField f) * s) * along R (pen (normalTerm p.nor) p.W fun b => tr1 F p (u f b) - tr2 F p (u f b)) d *
        (tr1 F p v - tr2 F p v))) * hcc

lemma wall_same (h : Frame R s) {flip : Bool} {F : Face ι K} {F' : Face ι' K} {p p' : Pt K} (hp : SamePt R e flip F F' p p')
    (u : State ι K) (v : ι → K) (f : FieldT) (bf bp : K) (d : Dir) :
    wallPt (sgn f) bf bp p' (fun k => tr1 F' p' (moved R s e u (altField f) k)) (fun k => tr2 F' p' (moved R s e u (altField f) k))
      (fun k => tr1 F' p' (moved R s e u f k)) (fun k => tr2 F' p' (moved R s e u f k))
      (tr1 F' p' (v ∘ e.symm)) (tr2 F' p' (v ∘ e.symm)) d =
    parity s f * along R (wallPt (sgn f) bf bp p (fun k => tr1 F p (u (altField f) k)) (fun k => tr2 F p (u (altField f) k))
      (fun k => tr1 F p (u f k)) (fun k => tr2 F p (u f k)) (tr1 F p v) (tr2 F p v)) d := by
  have h1 : ∀ g : FieldT, (fun k => tr1 F' p' (moved R s e u g k)) =
      fun k => parity s g * along R (fun b => if flip then tr2 F p (u g b) else tr1 F p (u g b)) k := by
    intro g
    funext k
    rw [moved_eq, hp.first, tr1_along, tr2_along]
    split_ifs <;> rfl
  have h2 : ∀ g : FieldT, (fun k => tr2 F' p' (moved R s e u g k)) =
      fun k => parity s g * along R (fun b => if flip then tr1 F p (u g b) else tr2 F p (u g b)) k := by
    intro g
    funext k
    rw [moved_eq, hp.second, tr1_along, tr2_along]
    split_ifs <;> rfl
  have hn : normalTerm p'.nor = fun a => (if flip then -1 else 1 : K) * along R (normalTerm p.nor) a := funext hp.normal
  have hr : ∀ (x y : K) (g1 g2 g3 g4 : Dir → K),
      along R (fun a => p.w / 2 * (sgn f * bf * (g1 a * x - g2 a * y) - bp * (g3 a * x + g4 a * y))) d =
      p.w / 2 * (sgn f * bf * (along R g1 d * x - along R g2 d * y) - bp * (along R g3 d * x + along R g4 d * y)) := by
    intro x y g1 g2 g3 g4
    unfold along
    simp only [Fin.sum_univ_three]
    ring
  have hcc : (if flip then -1 else 1 : K) * (if flip then -1 else 1) = 1 := by split_ifs <;> ring
  unfold wallPt
  rw [hr, h1, h1, h2, h2, hn, crossT_smul, crossT_smul, pen_smul _ _ hcc, pen_smul _ _ hcc, crossT_along h, crossT_along h, pen_along h,
    pen_along h, hp.weight, hp.surface, hp.first, hp.second, ← parity_alt h f]
  cases flip <;> simp only [Bool.false_eq_true, if_false, if_true] <;> ring

lemma along_list {α : Type} (l : List α) (g : α → Dir → K) (d : Dir) :
    along R (fun a => (l.map fun q => g q a).sum) d = (l.map fun q => along R (g q) d).sum := by
  induction l with
  | nil => simp [along]
  | cons q l ih => simp only [List.map_cons, List.sum_cons]; rw [along_add, ih]

lemma mul_list {α : Type} (l : List α) (g : α → K) (k : K) : (l.map fun q => k * g q).sum = k * (l.map g).sum := by
  induction l with
  | nil => simp
  | cons q l ih => simp only [List.map_cons, List.sum_cons]; rw [ih]; ring

lemma sum_forall2 {α β : Type} {rel : α → β → Prop} {l : List α} {l' : List β} (h : List.Forall₂ rel l l') (g : α → K) (g' : β → K)
    (hg : ∀ a b, rel a b → g' b = g a) : (l'.map g').sum = (l.map g).sum := by
  induction h with
  | nil => rfl
  | cons hab _ ih => simp only [List.map_cons, List.sum_cons]; rw [ih, hg _ _ hab]

lemma plainTerm_same (h : Frame R s) {q : Option BdrCond × Face ι K} {q' : Option BdrCond × Face ι' K} (hq : SameFace R e q q')
    (u : State ι K) (v : ι → K) (f : FieldT) (bf bp : K) (d : Dir) :
    plainTerm (moved R s e u) f d bf bp q'.2 (v ∘ e.symm) = parity s f * along R (fun a => plainTerm u f a bf bp q.2 v) d := by
  obtain ⟨-, flip, l, hl, h2⟩ := hq
  unfold plainTerm
  rw [along_list, ← mul_list, ← (hl.map _).sum_eq]
  exact sum_forall2 h2 _ _ fun p p' hp => plain_same h hp u v f bf bp d

lemma wallTerm_same (h : Frame R s) {q : Option BdrCond × Face ι K} {q' : Option BdrCond × Face ι' K} (hq : SameFace R e q q')
    (u : State ι K) (v : ι → K) (f : FieldT) (bf bp : K) (d : Dir) :
    wallTerm (moved R s e u) f d bf bp q'.2 (v ∘ e.symm) = parity s f * along R (fun a => wallTerm u f a bf bp q.2 v) d := by
  obtain ⟨-, flip, l, hl, h2⟩ := hq
  unfold wallTerm
  rw [along_list, ← mul_list, ← (hl.map _).sum_eq]
  exact sum_forall2 h2 _ _ fun p p' hp => wall_same h hp u v f bf bp d

lemma along_zero (d : Dir) : along R (fun _ => 0) d = 0 := by simp [along]

lemma interior_same (h : Frame R s) {l : List (Option BdrCond × Face ι K)} {l' : List (Option BdrCond × Face ι' K)}
    (hl : SameFaces R e l l') (alpha : K) (u : State ι K) (v : ι → K) (f : FieldT) (d : Dir) :
    (l'.map fun q => interiorTerm alpha (moved R s e u) f d (v ∘ e.symm) q.1 q.2).sum =
      parity s f * along R (fun a => (l.map fun q => interiorTerm alpha u f a v q.1 q.2).sum) d := by
  obtain ⟨k, hk, h2⟩ := hl
  rw [along_list, ← mul_list, ← (hk.map _).sum_eq]
  refine sum_forall2 h2 _ _ fun q q' hq => ?_
  rw [hq.1]
  cases q.1 with
  | none => exact plainTerm_same h hq u v f _ _ d
  | some c =>
    cases c with
    | SGBC => simp [interiorTerm, along_zero]
    | PEC => exact wallTerm_same h hq u v f _ _ d
    | PMC => exact wallTerm_same h hq u v f _ _ d
    | SMA => exact wallTerm_same h hq u v f _ _ d

lemma exterior_same (h : Frame R s) {l : List (Option BdrCond × Face ι K)} {l' : List (Option BdrCond × Face ι' K)}
    (hl : SameFaces R e l l') (alpha : K) (u : State ι K) (v : ι → K) (f : FieldT) (d : Dir) :
    (l'.map fun q => exteriorTerm alpha (moved R s e u) f d (v ∘ e.symm) q.1 q.2).sum =
      parity s f * along R (fun a => (l.map fun q => exteriorTerm alpha u f a v q.1 q.2).sum) d := by
  obtain ⟨k, hk, h2⟩ := hl
  rw [along_list, ← mul_list, ← (hk.map _).sum_eq]
  refine sum_forall2 h2 _ _ fun q q' hq => ?_
  rw [hq.1]
  cases q.1 with
  | none => simp [exteriorTerm, along_zero]
  | some c => exact plainTerm_same h hq u v f _ _ d

/-! ### matrices -/

lemma form_reindex {A : Matrix ι ι K} {A' : Matrix ι' ι' K} (h : ∀ r c, A' (e r) (e c) = A r c) (v x : ι → K) :
    form A' (v ∘ e.symm) (x ∘ e.symm) = form A v x := by
  rw [form_eq, form_eq, ← Equiv.sum_comp e]
  refine Finset.sum_congr rfl fun r _ => ?_
  rw [← Equiv.sum_comp e]
  refine Finset.sum_congr rfl fun c _ => ?_
  simp [h]

lemma form_along (A : Matrix ι ι K) (k : K) (v : ι → K) (x : Dir → ι → K) (a : Dir) :
    form A v (fun i => k * along R (fun b => x b i) a) = k * along R (fun b => form A v (x b)) a := by
  unfold along
  simp only [form_eq, Fin.sum_univ_three, Finset.mul_sum, mul_add, Finset.sum_add_distrib]
  congr 1
  · congr 1 <;> exact Finset.sum_congr rfl fun r _ => Finset.sum_congr rfl fun c _ => by ring
  · exact Finset.sum_congr rfl fun r _ => Finset.sum_congr rfl fun c _ => by ring

lemma derivativeSub_eq (P : Prob ι K) (x : Dir) : derivativeSub P x = partialD P x := by
  unfold derivativeSub partialD
  by_cases h : x.val < P.dim
  · rw [if_neg (by omega), if_pos h]
  · rw [if_pos (by omega), if_neg h]

lemma form_deriv {A : Dir → Matrix ι ι K} {A' : Matrix ι' ι' K} {a : Dir} (h : ∀ r c, A' (e r) (e c) = ∑ b, R a b * A b r c)
    (v x : ι → K) : form A' (v ∘ e.symm) (x ∘ e.symm) = ∑ b, R a b * form (A b) v x := by
  rw [form_reindex (A := Matrix.of fun r c => ∑ b, R a b * A b r c) h]
  simp only [form_eq, Matrix.of_apply, Fin.sum_univ_three, Finset.mul_sum, mul_add, add_mul, Finset.sum_add_distrib]
  congr 1
  · congr 1 <;> exact Finset.sum_congr rfl fun r _ => Finset.sum_congr rfl fun c _ => by ring
  · exact Finset.sum_congr rfl fun r _ => Finset.sum_congr rfl fun c _ => by ring

variable {P : Prob ι K} {P' : Prob ι' K}

lemma curl_same (h : Redescribed R s e P P') (u : State ι K) (v : ι → K) (f : FieldT) (d : Dir) :
    curlTerm P' (moved R s e u) f d (v ∘ e.symm) = parity s f * along R (fun a => curlTerm P u f a v) d := by
  have key : ∀ a c, form (derivativeSub P' a) (v ∘ e.symm) (moved R s e u (altField f) c) =
      parity s (altField f) * ∑ b, ∑ k, R a b * R c k * form (partialD P b) v (u (altField f) k) := by
    intro a c
    rw [derivativeSub_eq, moved_eq, form_deriv (h.deriv a)]
    simp only [form_along]
    unfold along
    simp only [Finset.mul_sum]
    exact Finset.sum_congr rfl fun b _ => Finset.sum_congr rfl fun k _ => by ring
  unfold curlTerm
  rw [key, key]
  have := cross_along h.frame (fun b k => form (partialD P b) v (u (altField f) k)) d
  rw [along_smul]
  unfold along
  simp only [derivativeSub_eq]
  rw [← parity_alt h.frame f]
  linear_combination (sgn f * parity s (altField f)) * this

lemma loss_same (h : Redescribed R s e P P') (u : State ι K) (v : ι → K) (f : FieldT) (d : Dir) :
    lossTerm P' (moved R s e u) f d (v ∘ e.symm) = parity s f * along R (fun a => lossTerm P u f a v) d := by
  cases f with
  | E =>
    show form P'.Msig (v ∘ e.symm) (moved R s e u .E d) = _
    rw [moved_eq, form_reindex h.msig, form_along]
    rfl
  | H =>
    show (0 : K) = _ * along R (fun _ => 0) d
    rw [along_zero, mul_zero]

lemma weak_same (h : Redescribed R s e P P') (u : State ι K) (v : ι → K) (f : FieldT) (d : Dir) :
    weak P' (moved R s e u) f d (v ∘ e.symm) = parity s f * along R (fun a => weak P u f a v) d := by
  rw [weak_faces, curl_same h, loss_same h, h.alpha, interior_same h.frame h.interior, exterior_same h.frame h.bdr]
  simp only [weak_faces]
  rw [along_sub, along_add, along_add]
  ring

/-- The global operator gives the same time derivative in both descriptions. -/
lemma global_same (h : Redescribed R s e P P') (u : State ι K) : globalMult P' (moved R s e u) = moved R s e (globalMult P u) := by
  funext f d i
  rw [global_weak P' h.size', moved_eq]
  show _ = parity s f * along R (fun b => globalMult P u f b (e.symm i)) d
  have h1 : ∀ b, globalMult P u f b (e.symm i) = ∑ c, P.Minv f (e.symm i) c * weak P u f b (Pi.single c 1) := fun b =>
    global_weak P h.size u f b _
  simp only [h1]
  rw [← Equiv.sum_comp e]
  have h2 : ∀ c, P'.Minv f i (e c) * weak P' (moved R s e u) f d (Pi.single (e c) 1) =
      P.Minv f (e.symm i) c * (parity s f * along R (fun a => weak P u f a (Pi.single c 1)) d) := by
    intro c
    have hv : (Pi.single (e c) 1 : ι' → K) = (Pi.single c 1 : ι → K) ∘ e.symm := by
      funext j
      simp only [Function.comp, Pi.single_apply, Equiv.symm_apply_eq]
    rw [hv, weak_same h, ← h.minv, Equiv.apply_symm_apply]
  rw [Finset.sum_congr rfl fun c _ => h2 c]
  unfold along
  simp only [Fin.sum_univ_three, Finset.mul_sum, mul_add, Finset.sum_add_distrib]
  congr 1
  · congr 1 <;> exact Finset.sum_congr rfl fun c _ => by ring
  · exact Finset.sum_congr rfl fun c _ => by ring

end faces

end Dgtd.Op
