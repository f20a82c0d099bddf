/-
Rows of the operators of a rank and of the whole problem.
-/
import Verif.Spec.Par
import Verif.Lemmas.OpForm

set_option linter.unusedSectionVars false
set_option linter.unusedSimpArgs false

namespace Dgtd.Par

open Dgtd.Op Dgtd.Op.Spec Spec

variable {ι κ K : Type} [Fintype ι] [DecidableEq ι] [Fintype κ] [DecidableEq κ] [Field K] [LinearOrder K]

/-! ### sums over the points of a face -/

/-- Sum over the quadrature points of a quantity that depends on the traces. -/
def pointSum (g : Pt K → K → K → K → K → K) (F : Face ι K) (v u : ι → K) : K :=
  (F.pts.map fun p => g p (tr1 F p v) (tr2 F p v) (tr1 F p u) (tr2 F p u)).sum

lemma tr1_same {num : κ → ι} {F' : Face κ K} {F : Face ι K} (h : SameFace num F' F) (p : Pt K) (u : ι → K) :
    tr1 F' p (fun k => u (num k)) = tr1 F p u := by
  unfold tr1
  rw [h.n1]
  refine Finset.sum_congr rfl fun i hi => ?_
  simp only
  rw [h.dofs i (by have := Finset.mem_range.mp hi; omega)]

lemma tr2_same {num : κ → ι} {F' : Face κ K} {F : Face ι K} (h : SameFace num F' F) (p : Pt K) (u : ι → K) :
    tr2 F' p (fun k => u (num k)) = tr2 F p u := by
  unfold tr2
  rw [h.n1, h.n2]
  refine Finset.sum_congr rfl fun i hi => ?_
  simp only
  rw [h.dofs (F.ndof1 + i) (by have := Finset.mem_range.mp hi; omega)]

lemma pointSum_same (g : Pt K → K → K → K → K → K) {num : κ → ι} {F' : Face κ K} {F : Face ι K}
    (h : SameFace num F' F) (v u : ι → K) :
    pointSum g F' (fun k => v (num k)) (fun k => u (num k)) = pointSum g F v u := by
  unfold pointSum
  simp only [tr1_same h, tr2_same h]
  exact (h.pts.map _).sum_eq

lemma tr1_flip (F : Face ι K) (p : Pt K) (u : ι → K) : tr1 (otherSide F) (flipPt p) u = tr2 F p u := by
  unfold tr1 tr2 otherSide flipPt
  refine Finset.sum_congr rfl fun i hi => ?_
  simp only
  rw [if_pos (Finset.mem_range.mp hi)]

lemma tr2_flip (F : Face ι K) (p : Pt K) (u : ι → K) : tr2 (otherSide F) (flipPt p) u = tr1 F p u := by
  unfold tr1 tr2 otherSide flipPt
  refine Finset.sum_congr rfl fun i hi => ?_
  simp only
  rw [if_neg (by omega), Nat.add_sub_cancel_left]

lemma pointSum_flip {g : Pt K → K → K → K → K → K} (hg : ∀ p a b c d, g (flipPt p) b a d c = g p a b c d)
    (F : Face ι K) (v u : ι → K) : pointSum g (otherSide F) v u = pointSum g F v u := by
  unfold pointSum
  rw [show (otherSide F).pts = F.pts.map flipPt from rfl, List.map_map]
  congr 1
  refine List.map_congr_left fun p _ => ?_
  simp only [Function.comp, tr1_flip, tr2_flip, hg]

/-- The value vanishes if the first argument does on the face. -/
lemma pointSum_off {g : Pt K → K → K → K → K → K} (hg : ∀ p c d, g p 0 0 c d = 0) (F : Face ι K) (v u : ι → K)
    (h : ∀ i, i < F.ndof1 + F.ndof2 → v (F.dofs i) = 0) : pointSum g F v u = 0 := by
  unfold pointSum
  have h1 : ∀ p, tr1 F p v = 0 := by
    intro p
    refine Finset.sum_eq_zero fun i hi => ?_
    rw [h i (by have := Finset.mem_range.mp hi; omega), mul_zero]
  have h2 : ∀ p, tr2 F p v = 0 := by
    intro p
    refine Finset.sum_eq_zero fun i hi => ?_
    rw [h _ (by have := Finset.mem_range.mp hi; omega), mul_zero]
  simp only [h1, h2, hg]
  simp

/-! ### the integrators -/

def g0 (beta : K) (p : Pt K) (a b c d : K) : K := p.w * beta * (1 / 2) * p.W * ((a - b) * (c - d))
def g1 (dir : Dir) (beta : K) (p : Pt K) (a b c d : K) : K :=
  p.w * (beta * normalTerm p.nor dir) * (1 / 2) * ((a + b) * (c - d))
def g2 (d1 d2 : Dir) (beta : K) (p : Pt K) (a b c d : K) : K :=
  p.w * (beta * normalTerm p.nor d1 * normalTerm p.nor d2) * (1 / 2) / p.W * ((a - b) * (c - d))
def i0 (beta : K) (p : Pt K) (a b c d : K) : K := p.w * beta * (1 / 2) * p.W * (a * c + b * d)
def i1 (dir : Dir) (beta : K) (p : Pt K) (a b c d : K) : K :=
  p.w * (beta * normalTerm p.nor dir) * (1 / 2) * (a * c - b * d)
def i2 (d1 d2 : Dir) (beta : K) (p : Pt K) (a b c d : K) : K :=
  p.w * (beta * normalTerm p.nor d1 * normalTerm p.nor d2) * (1 / 2) / p.W * (a * c + b * d)

lemma normalTerm_neg (l : List K) (d : Dir) : normalTerm (l.map fun x => -x) d = -normalTerm l d := by
  unfold normalTerm
  rw [List.getElem?_map]
  cases l[d.val]? <;> simp

lemma g0_flip (beta : K) (p : Pt K) (a b c d : K) : g0 beta (flipPt p) b a d c = g0 beta p a b c d := by
  unfold g0 flipPt; simp only; ring
lemma g1_flip (dir : Dir) (beta : K) (p : Pt K) (a b c d : K) : g1 dir beta (flipPt p) b a d c = g1 dir beta p a b c d := by
  unfold g1 flipPt; simp only [normalTerm_neg]; ring
lemma g2_flip (d1 d2 : Dir) (beta : K) (p : Pt K) (a b c d : K) :
    g2 d1 d2 beta (flipPt p) b a d c = g2 d1 d2 beta p a b c d := by
  unfold g2 flipPt; simp only [normalTerm_neg]; ring

/-! ### lists -/

lemma sum_filterMap {α β : Type} (f : α → Option β) (φ : β → K) (l : List α) :
    ((l.filterMap f).map φ).sum = (l.map fun a => (f a).elim 0 φ).sum := by
  induction l with
  | nil => simp
  | cons a l ih =>
    rw [List.filterMap_cons]
    cases h : f a with
    | none => simp [h, ih]
    | some b => simp [h, ih]

lemma sum_two {α : Type} (a b : α → Bool) (φ : α → K) (l : List α) (h1 : ∀ q ∈ l, ¬ (a q = true ∧ b q = true))
    (h2 : ∀ q ∈ l, a q = false → b q = false → φ q = 0) :
    (l.map φ).sum = ((l.filter a).map φ).sum + ((l.filter b).map φ).sum := by
  induction l with
  | nil => simp
  | cons q l ih =>
    have ih := ih (fun q hq => h1 q (List.mem_cons_of_mem _ hq)) (fun q hq => h2 q (List.mem_cons_of_mem _ hq))
    have e1 := h1 q List.mem_cons_self
    have e2 := h2 q List.mem_cons_self
    rw [List.filter_cons, List.filter_cons, List.map_cons, List.sum_cons, ih]
    cases ha : a q <;> cases hb : b q
    · simp [e2 ha hb]
    · simp; ring
    · simp; ring
    · exact absurd ⟨ha, hb⟩ e1

lemma sum_listed {α β : Type} {rel : α → β → Prop} {l : List α} {l' : List β} (h : Listed rel l l') (φ : α → K) (ψ : β → K)
    (e : ∀ a b, a ∈ l → b ∈ l' → rel a b → φ a = ψ b) : (l.map φ).sum = (l'.map ψ).sum := by
  obtain ⟨m, hm, hf⟩ := h
  rw [← (hm.map φ).sum_eq]
  have hmem : ∀ a ∈ m, a ∈ l := fun a ha => hm.subset ha
  clear hm
  induction hf with
  | nil => simp
  | cons hab _ ih =>
    rw [List.map_cons, List.map_cons, List.sum_cons, List.sum_cons, e _ _ (hmem _ List.mem_cons_self) List.mem_cons_self hab,
      ih (fun a b ha hb => e a b ha (List.mem_cons_of_mem _ hb)) (fun a ha => hmem a (List.mem_cons_of_mem _ ha))]

lemma forall₂_mem {α β : Type} {rel : α → β → Prop} {l : List α} {l' : List β} (h : List.Forall₂ rel l l') {a : α}
    (ha : a ∈ l) : ∃ b ∈ l', rel a b := by
  induction h with
  | nil => simp at ha
  | cons h _ ih =>
    rcases List.mem_cons.mp ha with rfl | ha
    · exact ⟨_, List.mem_cons_self, h⟩
    · obtain ⟨q, hq, e⟩ := ih ha
      exact ⟨q, List.mem_cons_of_mem _ hq, e⟩

/-! ### the split -/

section split
variable {R : Type} [DecidableEq R] {N G : R → Nat} {P : Prob ι K} {Q : (r : R) → RankProb (N r) (G r) K}
  {src : (r : R) → Fin (G r) → (q : R) × Fin (N q)} {num : (r : R) → Fin (N r + G r) → ι} {side1 side2 : Face ι K → R}

lemma Spec.Split.inj (S : Split P Q src num side1 side2) {r r' : R} {k : Fin (N r)} {k' : Fin (N r')}
    (h : num r (Fin.castAdd _ k) = num r' (Fin.castAdd _ k')) : (⟨r, k⟩ : (r : R) × Fin (N r)) = ⟨r', k'⟩ := by
  obtain ⟨p, _, hp⟩ := S.owned (num r' (Fin.castAdd _ k'))
  rw [hp ⟨r, k⟩ h, hp ⟨r', k'⟩ rfl]

lemma Spec.Split.inj_own (S : Split P Q src num side1 side2) {r : R} {k k' : Fin (N r)}
    (h : num r (Fin.castAdd _ k) = num r (Fin.castAdd _ k')) : k = k' := by
  have := S.inj h
  simpa using this

/-- An own degree of freedom is known to the rank under one number only. -/
lemma Spec.Split.num_eq (S : Split P Q src num side1 side2) {r : R} {c : Fin (N r + G r)} {k : Fin (N r)} :
    num r c = num r (Fin.castAdd _ k) ↔ c = Fin.castAdd _ k := by
  constructor
  · intro h
    induction c using Fin.addCases with
    | left c => rw [S.inj_own h]
    | right j =>
      rw [← S.ghost r j] at h
      have := S.inj h
      exact absurd (congrArg Sigma.fst this) (S.ghost_other r j)
  · rintro rfl; rfl

lemma Spec.Split.single (S : Split P Q src num side1 side2) (r : R) (k : Fin (N r)) :
    (Pi.single (Fin.castAdd (G r) k) 1 : Fin (N r + G r) → K) =
      fun c => (Pi.single (num r (Fin.castAdd _ k)) 1 : ι → K) (num r c) := by
  funext c
  rw [Pi.single_apply, Pi.single_apply]
  simp only [S.num_eq]

lemma Spec.Split.single_own (S : Split P Q src num side1 side2) (r : R) (k : Fin (N r)) :
    (Pi.single k 1 : Fin (N r) → K) =
      fun c => (Pi.single (num r (Fin.castAdd _ k)) 1 : ι → K) (num r (Fin.castAdd _ c)) := by
  funext c
  rw [Pi.single_apply, Pi.single_apply]
  simp only [S.num_eq, Fin.castAdd_inj]

lemma Spec.Split.first_off (S : Split P Q src num side1 side2) {r : R} (k : Fin (N r)) {q : Option BdrCond × Face ι K}
    (hq : q ∈ P.interior ++ P.bdr) (h : side1 q.2 ≠ r) {i : Nat} (hi : i < q.2.ndof1) :
    (Pi.single (num r (Fin.castAdd _ k)) 1 : ι → K) (q.2.dofs i) = 0 := by
  obtain ⟨k', e⟩ := S.first q hq i hi
  rw [Pi.single_apply, if_neg]
  intro e'
  rw [← e] at e'
  exact h (congrArg Sigma.fst (S.inj e'))

lemma Spec.Split.second_off (S : Split P Q src num side1 side2) {r : R} (k : Fin (N r)) {q : Option BdrCond × Face ι K}
    (hq : q ∈ P.interior) (h : side2 q.2 ≠ r) {i : Nat} (hi : i < q.2.ndof2) :
    (Pi.single (num r (Fin.castAdd _ k)) 1 : ι → K) (q.2.dofs (q.2.ndof1 + i)) = 0 := by
  obtain ⟨k', e⟩ := S.second q hq i hi
  rw [Pi.single_apply, if_neg]
  intro e'
  rw [← e] at e'
  exact h (congrArg Sigma.fst (S.inj e'))

/-- The faces inside the mesh, seen from a row. -/
lemma Spec.Split.interior_sum (S : Split P Q src num side1 side2) (r : R) (k : Fin (N r)) (x : ι → K)
    (g : Option BdrCond → Pt K → K → K → K → K → K) (hflip : ∀ p a b c d, g none (flipPt p) b a d c = g none p a b c d)
    (hoff : ∀ o p c d, g o p 0 0 c d = 0) :
    ((Q r).interior.map fun q => pointSum (g q.1) q.2 (Pi.single k 1) (fun c => x (num r (Fin.castAdd _ c)))).sum +
      ((Q r).shared.map fun F => pointSum (g none) F (Pi.single (Fin.castAdd _ k) 1) (fun c => x (num r c))).sum =
    (P.interior.map fun q => pointSum (g q.1) q.2 (Pi.single (num r (Fin.castAdd _ k)) 1) x).sum := by
  rw [sum_two (fun q => decide (side1 q.2 = r ∧ side2 q.2 = r)) (fun q => decide (¬ (side1 q.2 = r ↔ side2 q.2 = r)))
    _ P.interior]
  · congr 1
    · refine sum_listed (S.interior r) _ _ ?_
      rintro q' q _ _ ⟨e, h⟩
      rw [e, S.single_own, pointSum_same (g q.1) h]
    · refine sum_listed (S.shared1 r) _ _ ?_
      intro F' q _ hq h
      have hq := List.mem_filter.mp hq
      have hc : q.1 = none := by
        by_contra hc
        have := S.uncut q hq.1 hc
        simp [this] at hq
      rw [hc, S.single, pointSum_same (g none) h]
      split_ifs
      · rfl
      · exact pointSum_flip hflip _ _ _
  · intro q _
    simp only [decide_eq_true_eq]
    tauto
  · intro q hq h1 h2
    simp only [decide_eq_false_iff_not] at h1 h2
    have h3 : side1 q.2 ≠ r := by tauto
    have h4 : side2 q.2 ≠ r := by tauto
    refine pointSum_off (hoff q.1) _ _ _ fun i hi => ?_
    by_cases h : i < q.2.ndof1
    · exact S.first_off k (List.mem_append_left _ hq) h3 h
    · have := S.second_off k hq h4 (i := i - q.2.ndof1) (by omega)
      rwa [show q.2.ndof1 + (i - q.2.ndof1) = i by omega] at this

/-- The exterior faces, seen from a row. -/
lemma Spec.Split.bdr_sum (S : Split P Q src num side1 side2) (r : R) (k : Fin (N r)) (x : ι → K)
    (g : Option BdrCond → Pt K → K → K → K → K → K) (hoff : ∀ o p c d, g o p 0 0 c d = 0) :
    ((Q r).bdr.map fun q => pointSum (g q.1) q.2 (Pi.single k 1) (fun c => x (num r (Fin.castAdd _ c)))).sum =
    (P.bdr.map fun q => pointSum (g q.1) q.2 (Pi.single (num r (Fin.castAdd _ k)) 1) x).sum := by
  rw [sum_two (fun q => decide (side1 q.2 = r)) (fun _ => false) _ P.bdr]
  · rw [List.filter_false, List.map_nil, List.sum_nil, add_zero]
    refine sum_listed (S.bdr r) _ _ ?_
    rintro q' q _ _ ⟨e, h⟩
    rw [e, S.single_own, pointSum_same (g q.1) h]
  · simp
  · intro q hq h1 _
    simp only [decide_eq_false_iff_not] at h1
    refine pointSum_off (hoff q.1) _ _ _ fun i hi => ?_
    rw [S.one_side q hq] at hi
    exact S.first_off k (List.mem_append_right _ hq) h1 (by omega)

/-- The second side of a shared face is not the rank's. -/
lemma Spec.Split.shared_far (S : Split P Q src num side1 side2) (r : R) (k : Fin (N r)) {F' : Face (Fin (N r + G r)) K}
    (hF : F' ∈ (Q r).shared) {i : Nat} (hi : i < F'.ndof2) : F'.dofs (F'.ndof1 + i) ≠ Fin.castAdd _ k := by
  obtain ⟨m, hm, hf⟩ := S.shared1 r
  have hF := hm.symm.subset hF
  have : ∃ q ∈ P.interior.filter fun q => ¬ (side1 q.2 = r ↔ side2 q.2 = r),
      SameFace (num r) F' (if side1 q.2 = r then q.2 else otherSide q.2) := by
    exact forall₂_mem hf hF
  obtain ⟨q, hq, h⟩ := this
  obtain ⟨hq, hs⟩ := List.mem_filter.mp hq
  simp only [decide_eq_true_eq] at hs
  intro e
  have e2 := congrArg (num r) e
  have hd := h.dofs (F'.ndof1 + i) (by rw [← h.n1, ← h.n2]; omega)
  rw [e2, h.n1] at hd
  have hi' := hi
  rw [h.n2] at hi'
  by_cases h1 : side1 q.2 = r
  · rw [if_pos h1] at hd hi'
    have h2 : side2 q.2 ≠ r := by tauto
    have := S.second_off k hq h2 hi'
    rw [← hd] at this
    simp at this
  · rw [if_neg h1] at hd hi'
    have := S.first_off k (List.mem_append_left _ hq) h1 (i := i) hi'
    have e3 : (otherSide q.2).dofs ((otherSide q.2).ndof1 + i) = q.2.dofs i := by
      unfold otherSide
      simp only
      rw [if_neg (by omega), Nat.add_sub_cancel_left]
    rw [e3] at hd
    rw [← hd] at this
    simp at this

end split

/-! ### assembled matrices -/

variable {n g : Nat}

lemma widen_mulVec (A : Matrix (Fin n) (Fin n) K) (x : Fin (n + g) → K) :
    (widen A).mulVec x = A.mulVec (firstPart x) := by
  funext k
  unfold Matrix.mulVec dotProduct firstPart
  rw [Fin.sum_univ_add]
  simp [widen]

lemma addRows_mulVec (F : Face (Fin (n + g)) K) (m : EMat K) (A : Matrix (Fin n) (Fin (n + g)) K) (x : Fin (n + g) → K)
    (k : Fin n) (h : ∀ i, i < F.ndof2 → F.dofs (F.ndof1 + i) ≠ Fin.castAdd _ k) :
    (addRows F m A).mulVec x k = A.mulVec x k + fbil F m (Pi.single (Fin.castAdd _ k) 1) x := by
  unfold fbil bil
  rw [Finset.sum_range_add, Finset.sum_eq_zero (s := Finset.range F.ndof2), add_zero]
  · unfold Matrix.mulVec dotProduct addRows
    simp only [add_mul, Finset.sum_add_distrib]
    congr 1
    simp only [Finset.sum_mul]
    rw [Finset.sum_comm]
    refine Finset.sum_congr rfl fun i _ => ?_
    rw [Finset.sum_comm]
    refine Finset.sum_congr rfl fun j _ => ?_
    rw [Finset.sum_eq_single (F.dofs j)]
    · simp only [and_true, Pi.single_apply]
      split_ifs <;> simp
    · intro c _ hc
      rw [if_neg (fun e => hc e.2.symm), zero_mul]
    · simp
  · intro i hi
    refine Finset.sum_eq_zero fun j _ => ?_
    simp only [Pi.single_apply]
    rw [if_neg (h i (Finset.mem_range.mp hi)), zero_mul, zero_mul]

lemma assembleShared_mulVec (A : Matrix (Fin n) (Fin n) K) (l : List (Face (Fin (n + g)) K × EMat K)) (x : Fin (n + g) → K)
    (k : Fin n) (h : ∀ p ∈ l, ∀ i, i < p.1.ndof2 → p.1.dofs (p.1.ndof1 + i) ≠ Fin.castAdd _ k) :
    (assembleShared A l).mulVec x k =
      A.mulVec (firstPart x) k + (l.map fun p => fbil p.1 p.2 (Pi.single (Fin.castAdd _ k) 1) x).sum := by
  unfold assembleShared
  rw [← widen_mulVec]
  generalize widen (g := g) A = B
  induction l generalizing B with
  | nil => simp
  | cons p l ih =>
    rw [List.foldl_cons, ih (fun p hp => h p (List.mem_cons_of_mem _ hp)), addRows_mulVec _ _ _ _ _ (h p List.mem_cons_self),
      List.map_cons, List.sum_cons]
    ring

lemma assemble_mulVec (l : List (Face ι K × EMat K)) (u : ι → K) (r : ι) :
    (assemble l).mulVec u r = (l.map fun q => fbil q.1 q.2 (Pi.single r 1) u).sum := by
  rw [← form_assemble]
  unfold form
  rw [single_one_dotProduct]

section agree
variable {R : Type} [DecidableEq R] {N G : R → Nat} {P : Prob ι K} {Q : (r : R) → RankProb (N r) (G r) K}
  {src : (r : R) → Fin (G r) → (q : R) × Fin (N q)} {num : (r : R) → Fin (N r + G r) → ι} {side1 side2 : Face ι K → R}

/-- The matrix of a rank gives the rows of the whole matrix that belong to the rank. -/
def Agrees (num : Fin (n + g) → ι) (A : Matrix (Fin n) (Fin (n + g)) K) (B : Matrix ι ι K) : Prop :=
  ∀ (x : ι → K) (k : Fin n), A.mulVec (fun c => x (num c)) k = B.mulVec x (num (Fin.castAdd _ k))

lemma Spec.Split.face_agree (S : Split P Q src num side1 side2) (r : R) (gI : Pt K → K → K → K → K → K)
    (gB : BdrCond → Pt K → K → K → K → K → K) {mI : Face ι K → EMat K} {mI' : Face (Fin (N r)) K → EMat K}
    {mS : Face (Fin (N r + G r)) K → EMat K} {mB : BdrCond → Face ι K → EMat K} {mB' : BdrCond → Face (Fin (N r)) K → EMat K}
    (hI : ∀ F v u, fbil F (mI F) v u = pointSum gI F v u) (hI' : ∀ F v u, fbil F (mI' F) v u = pointSum gI F v u)
    (hS : ∀ F v u, fbil F (mS F) v u = pointSum gI F v u) (hB : ∀ c F v u, fbil F (mB c F) v u = pointSum (gB c) F v u)
    (hB' : ∀ c F v u, fbil F (mB' c F) v u = pointSum (gB c) F v u)
    (hflip : ∀ p a b c d, gI (flipPt p) b a d c = gI p a b c d) (hoff : ∀ p c d, gI p 0 0 c d = 0)
    (hoffB : ∀ o p c d, gB o p 0 0 c d = 0) :
    Agrees (num r) (assembleShared (assemble ((plainFaces (Q r).local).map (fun F => (F, mI' F)) ++
        (bdrFaces (Q r).local).map fun q => (q.2, mB' q.1 q.2))) ((Q r).shared.map fun F => (F, mS F)))
      (assemble ((plainFaces P).map (fun F => (F, mI F)) ++ (bdrFaces P).map fun q => (q.2, mB q.1 q.2))) := by
  intro x k
  rw [assembleShared_mulVec, assemble_mulVec, assemble_mulVec]
  · simp only [List.map_append, List.map_map, Function.comp_def, List.sum_append, hI, hI', hS, hB, hB']
    unfold plainFaces bdrFaces
    simp only [sum_filterMap]
    have e1 := S.interior_sum r k x (fun o => if o = none then gI else fun _ _ _ _ _ => 0)
      (by simpa using hflip) (by intro o p c d; split_ifs <;> simp [hoff])
    have e2 := S.bdr_sum r k x (fun o => match o with | none => fun _ _ _ _ _ => 0 | some c => gB c)
      (by intro o p c d; cases o <;> simp [hoffB])
    have e3 : ∀ {κ : Type} [Fintype κ] [DecidableEq κ] (l : List (Option BdrCond × Face κ K)) (v u : κ → K),
        (l.map fun q => (if q.1 = none then some q.2 else none : Option (Face κ K)).elim 0 fun F => pointSum gI F v u) =
        l.map fun q => pointSum (if q.1 = none then gI else fun _ _ _ _ _ => 0) q.2 v u := by
      intro κ _ _ l v u
      refine List.map_congr_left fun q _ => ?_
      split_ifs
      · rfl
      · simp [pointSum]
    have e4 : ∀ {κ : Type} [Fintype κ] [DecidableEq κ] (l : List (Option BdrCond × Face κ K)) (v u : κ → K),
        (l.map fun q => (q.1.map fun c => (c, q.2) : Option (BdrCond × Face κ K)).elim 0
          fun q => pointSum (gB q.1) q.2 v u) =
        l.map fun q => pointSum (match q.1 with | none => fun _ _ _ _ _ => 0 | some c => gB c) q.2 v u := by
      intro κ _ _ l v u
      refine List.map_congr_left fun q _ => ?_
      cases q.1 <;> simp [pointSum]
    simp only [e3, e4]
    rw [← e1, ← e2]
    have hf : (firstPart fun c => x (num r c) : Fin (N r) → K) = fun c => x (num r (Fin.castAdd _ c)) := rfl
    simp only [RankProb.local, hf, if_true]
    ring
  · intro p hp i hi
    obtain ⟨F, hF, rfl⟩ := List.mem_map.mp hp
    exact S.shared_far r k hF hi

/-- The term of a face with an interior condition; none for a plain face or a thin layer. -/
def wallG (gB : BdrCond → Pt K → K → K → K → K → K) : Option BdrCond → Pt K → K → K → K → K → K
  | none => fun _ _ _ _ _ => 0
  | some .SGBC => fun _ _ _ _ _ => 0
  | some c => gB c

lemma intBdr_sum (P : Prob ι K) (gB : BdrCond → Pt K → K → K → K → K → K) (v u : ι → K) :
    ((intBdrFaces P).map fun q => pointSum (gB q.1) q.2 v u).sum =
      (P.interior.map fun q => pointSum (wallG gB q.1) q.2 v u).sum := by
  unfold intBdrFaces
  generalize P.interior = l
  induction l with
  | nil => simp
  | cons q l ih =>
    rcases q with ⟨o, F⟩
    rw [List.filterMap_cons, List.map_cons, List.sum_cons, ← ih]
    rcases o with _ | c
    · simp [wallG, pointSum]
    · cases c <;> simp [wallG, pointSum]

lemma Spec.Split.wall_agree (S : Split P Q src num side1 side2) (r : R)
    (gB : BdrCond → Pt K → K → K → K → K → K) {mB : BdrCond → Face ι K → EMat K} {mB' : BdrCond → Face (Fin (N r)) K → EMat K}
    (hB : ∀ c F v u, fbil F (mB c F) v u = pointSum (gB c) F v u)
    (hB' : ∀ c F v u, fbil F (mB' c F) v u = pointSum (gB c) F v u) (hoffB : ∀ o p c d, gB o p 0 0 c d = 0) :
    Agrees (num r) (widen (assemble ((intBdrFaces (Q r).local).map fun q => (q.2, mB' q.1 q.2))))
      (assemble ((intBdrFaces P).map fun q => (q.2, mB q.1 q.2))) := by
  intro x k
  rw [widen_mulVec, assemble_mulVec, assemble_mulVec]
  simp only [List.map_map, Function.comp_def, hB, hB']
  have e1 := S.interior_sum r k x (wallG gB) (by simp [wallG])
    (by
      intro o p c d
      rcases o with _ | o
      · simp [wallG]
      · cases o <;> simp [wallG, hoffB])
  rw [intBdr_sum, intBdr_sum, ← e1]
  have e5 : ((Q r).shared.map fun F => pointSum (wallG gB none) F
      (Pi.single (Fin.castAdd (G r) k) 1) (fun c => x (num r c))).sum = 0 := by
    simp [pointSum, wallG]
  rw [e5, add_zero]
  rfl

lemma fbil_g0 (beta : K) (F : Face ι K) (v u : ι → K) : fbil F (zeroNormal beta F) v u = pointSum (g0 beta) F v u :=
  fbil_zeroNormal beta F v u
lemma fbil_g1 (d : Dir) (beta : K) (F : Face ι K) (v u : ι → K) : fbil F (oneNormal d beta F) v u = pointSum (g1 d beta) F v u :=
  fbil_oneNormal d beta F v u
lemma fbil_g2 (d d2 : Dir) (beta : K) (F : Face ι K) (v u : ι → K) :
    fbil F (twoNormal d d2 beta F) v u = pointSum (g2 d d2 beta) F v u := fbil_twoNormal d d2 beta F v u

lemma penalty_local (S : Split P Q src num side1 side2) (r : R) : penaltyCoeff (Q r).local = penaltyCoeff P := by
  funext c f
  unfold penaltyCoeff RankProb.local
  simp only [S.alpha r]

lemma Spec.Split.zero_agree (S : Split P Q src num side1 side2) (r : R) (f : FieldT) :
    Agrees (num r) (zeroNormalPar (Q r) f) (zeroNormalSub P f) := by
  unfold zeroNormalPar zeroNormalSub
  rw [show (Q r).local.alpha = P.alpha from S.alpha r, S.alpha r, penalty_local S r]
  exact S.face_agree r (g0 P.alpha) (fun c => g0 (penaltyCoeff P c f)) (mI := zeroNormal P.alpha) (mI' := zeroNormal P.alpha)
    (mS := zeroNormal P.alpha) (mB := fun c => zeroNormal (penaltyCoeff P c f)) (mB' := fun c => zeroNormal (penaltyCoeff P c f))
    (fbil_g0 _) (fbil_g0 _) (fbil_g0 _)
    (fun _ => fbil_g0 _) (fun _ => fbil_g0 _) (g0_flip _) (by intros; simp [g0]) (by intros; simp [g0])

lemma Spec.Split.one_agree (S : Split P Q src num side1 side2) (r : R) (f : FieldT) (d : Dir) :
    Agrees (num r) (oneNormalPar (Q r) f d) (oneNormalSub P f d) := by
  unfold oneNormalPar oneNormalSub
  exact S.face_agree r (g1 d 1) (fun c => g1 d (fluxCoeff c f)) (mI := oneNormal d 1) (mI' := oneNormal d 1)
    (mS := oneNormal d 1) (mB := fun c => oneNormal d (fluxCoeff c f)) (mB' := fun c => oneNormal d (fluxCoeff c f))
    (fbil_g1 _ _) (fbil_g1 _ _) (fbil_g1 _ _)
    (fun _ => fbil_g1 _ _) (fun _ => fbil_g1 _ _) (g1_flip _ _) (by intros; simp [g1]) (by intros; simp [g1])

lemma Spec.Split.two_agree (S : Split P Q src num side1 side2) (r : R) (f : FieldT) (d d2 : Dir) :
    Agrees (num r) (twoNormalPar (Q r) f d d2) (twoNormalSub P f d d2) := by
  unfold twoNormalPar twoNormalSub
  rw [show (Q r).local.alpha = P.alpha from S.alpha r, S.alpha r, penalty_local S r]
  exact S.face_agree r (g2 d d2 P.alpha) (fun c => g2 d d2 (penaltyCoeff P c f)) (mI := twoNormal d d2 P.alpha)
    (mI' := twoNormal d d2 P.alpha) (mS := twoNormal d d2 P.alpha) (mB := fun c => twoNormal d d2 (penaltyCoeff P c f))
    (mB' := fun c => twoNormal d d2 (penaltyCoeff P c f)) (fbil_g2 _ _ _) (fbil_g2 _ _ _) (fbil_g2 _ _ _)
    (fun _ => fbil_g2 _ _ _) (fun _ => fbil_g2 _ _ _) (g2_flip _ _ _) (by intros; simp [g2]) (by intros; simp [g2])

lemma Spec.Split.zeroW_agree (S : Split P Q src num side1 side2) (r : R) (f : FieldT) :
    Agrees (num r) (widen (zeroNormalIBFI (Q r).local f)) (zeroNormalIBFI P f) := by
  unfold zeroNormalIBFI
  rw [penalty_local S r]
  exact S.wall_agree r (fun c => i0 (penaltyCoeff P c f))
    (mB := fun c => interiorJump [] (penaltyCoeff P c f)) (mB' := fun c => interiorJump [] (penaltyCoeff P c f))
    (fun c F v u => fbil_interior0 _ F v u)
    (fun c F v u => fbil_interior0 _ F v u) (by intros; simp [i0])

lemma Spec.Split.oneW_agree (S : Split P Q src num side1 side2) (r : R) (f : FieldT) (d : Dir) :
    Agrees (num r) (widen (oneNormalIBFI (Q r).local f d)) (oneNormalIBFI P f d) := by
  unfold oneNormalIBFI
  exact S.wall_agree r (fun c => i1 d (fluxCoeff c f))
    (mB := fun c => interiorJump [d] (fluxCoeff c f)) (mB' := fun c => interiorJump [d] (fluxCoeff c f))
    (fun c F v u => fbil_interior1 _ _ F v u)
    (fun c F v u => fbil_interior1 _ _ F v u) (by intros; simp [i1])

lemma Spec.Split.twoW_agree (S : Split P Q src num side1 side2) (r : R) (f : FieldT) (d d2 : Dir) :
    Agrees (num r) (widen (twoNormalIBFI (Q r).local f d d2)) (twoNormalIBFI P f d d2) := by
  unfold twoNormalIBFI
  rw [penalty_local S r]
  exact S.wall_agree r (fun c => i2 d d2 (penaltyCoeff P c f))
    (mB := fun c => interiorJump [d, d2] (penaltyCoeff P c f)) (mB' := fun c => interiorJump [d, d2] (penaltyCoeff P c f))
    (fun c F v u => fbil_interior2 _ _ _ F v u)
    (fun c F v u => fbil_interior2 _ _ _ F v u) (by intros; simp [i2])

/-- A matrix that does not couple ranks. -/
lemma Spec.Split.block_sum (S : Split P Q src num side1 side2) (r : R) (k : Fin (N r)) {A : Matrix (Fin (N r)) (Fin (N r)) K}
    {B : Matrix ι ι K} (h : ∀ k', A k k' = B (num r (Fin.castAdd _ k)) (num r (Fin.castAdd _ k')))
    (h0 : ∀ i, (∀ k', num r (Fin.castAdd _ k') ≠ i) → B (num r (Fin.castAdd _ k)) i = 0) {y : Fin (N r) → K} {z : ι → K}
    (e : ∀ k', y k' = z (num r (Fin.castAdd _ k'))) : A.mulVec y k = B.mulVec z (num r (Fin.castAdd _ k)) := by
  unfold Matrix.mulVec dotProduct
  refine Fintype.sum_of_injective (fun k' => num r (Fin.castAdd _ k')) (fun a b hab => S.inj_own hab) _ _ ?_ ?_
  · intro i hi
    simp only
    rw [h0 i (fun k' e => hi ⟨k', e⟩), zero_mul]
  · intro k'
    simp only
    rw [h, e]

lemma Spec.Split.minv_agree (S : Split P Q src num side1 side2) (r : R) (f : FieldT) {A : Matrix (Fin (N r)) (Fin (N r + G r)) K}
    {B : Matrix ι ι K} (h : Agrees (num r) A B) : Agrees (num r) ((Q r).Minv f * A) (P.Minv f * B) := by
  intro x k
  rw [← Matrix.mulVec_mulVec, ← Matrix.mulVec_mulVec]
  exact S.block_sum r k (S.Minv r f k) (fun i hi => (S.apart r k i hi f 0).1) (h x)

lemma widen_mul (A B : Matrix (Fin n) (Fin n) K) : (widen (A * B) : Matrix (Fin n) (Fin (n + g)) K) = A * widen B := by
  ext i j
  induction j using Fin.addCases <;> simp [widen, Matrix.mul_apply]

lemma Spec.Split.der_agree (S : Split P Q src num side1 side2) (r : R) (d : Dir) :
    Agrees (num r) (widen (derivativeSub (Q r).local d)) (derivativeSub P d) := by
  intro x k
  rw [widen_mulVec]
  unfold derivativeSub
  rw [show (Q r).local.dim = P.dim from S.dim r]
  split_ifs
  · simp
  · exact S.block_sum r k (S.D r d k) (fun i hi => (S.apart r k i hi .E d).2.2) (fun _ => rfl)

lemma Spec.Split.sig_agree (S : Split P Q src num side1 side2) (r : R) : Agrees (num r) (widen (Q r).Msig) P.Msig := by
  intro x k
  rw [widen_mulVec]
  exact S.block_sum r k (S.Msig r k) (fun i hi => (S.apart r k i hi .E 0).2.1) (fun _ => rfl)

/-! ### blocks -/

/-- Blocks in the same place whose matrices agree. -/
structure BAgrees (num : Fin (n + g) → ι) (b' : RBlock (Fin n) (Fin (n + g)) K) (b : GBlock ι K) : Prop where
  rowF : b'.rowF = b.rowF
  rowD : b'.rowD = b.rowD
  colF : b'.colF = b.colF
  colD : b'.colD = b.colD
  sign : b'.sign = b.sign
  mat : Agrees num b'.mat b.mat

lemma forall₂_flatMap {α β γ : Type} {rel : β → γ → Prop} (l : List α) (f : α → List β) (f' : α → List γ)
    (h : ∀ a, List.Forall₂ rel (f a) (f' a)) : List.Forall₂ rel (l.flatMap f) (l.flatMap f') := by
  induction l with
  | nil => exact List.Forall₂.nil
  | cons a l ih =>
    rw [List.flatMap_cons, List.flatMap_cons]
    exact List.rel_append (h a) ih

lemma forall₂_map {α β γ : Type} {rel : β → γ → Prop} (l : List α) (f : α → β) (f' : α → γ)
    (h : ∀ a, rel (f a) (f' a)) : List.Forall₂ rel (l.map f) (l.map f') := by
  induction l with
  | nil => exact List.Forall₂.nil
  | cons a l ih => exact List.Forall₂.cons (h a) ih

lemma zero_blocks {num : Fin (n + g) → ι} {op' : FieldT → Matrix (Fin n) (Fin (n + g)) K} {op : FieldT → Matrix ι ι K}
    (h : ∀ f, Agrees num (op' f) (op f)) : List.Forall₂ (BAgrees num) (zeroBlocks op') (zeroBlocks op) :=
  forall₂_flatMap _ _ _ fun f => forall₂_map _ _ _ fun _ => ⟨rfl, rfl, rfl, rfl, rfl, h f⟩

lemma one_blocks {num : Fin (n + g) → ι} (dim : Nat) {op' : FieldT → Dir → Matrix (Fin n) (Fin (n + g)) K}
    {op : FieldT → Dir → Matrix ι ι K} (h : ∀ f d, Agrees num (op' f d) (op f d)) :
    List.Forall₂ (BAgrees num) (oneBlocks dim op') (oneBlocks dim op) :=
  forall₂_flatMap _ _ _ fun f => forall₂_flatMap _ _ _ fun x =>
    .cons ⟨rfl, rfl, rfl, rfl, rfl, h f x⟩ (.cons ⟨rfl, rfl, rfl, rfl, rfl, h f x⟩ .nil)

lemma two_blocks {num : Fin (n + g) → ι} (dim : Nat) {op' : FieldT → Dir → Dir → Matrix (Fin n) (Fin (n + g)) K}
    {op : FieldT → Dir → Dir → Matrix ι ι K} (h : ∀ f d d2, Agrees num (op' f d d2) (op f d d2)) :
    List.Forall₂ (BAgrees num) (twoBlocks dim op') (twoBlocks dim op) :=
  forall₂_flatMap _ _ _ fun f => forall₂_flatMap _ _ _ fun d => forall₂_map _ _ _ fun d2 =>
    ⟨rfl, rfl, rfl, rfl, rfl, h f d d2⟩

theorem Spec.Split.blocks (S : Split P Q src num side1 side2) (r : R) :
    List.Forall₂ (BAgrees (num r)) (rankBlocks (Q r)) (globalBlocks P) := by
  unfold rankBlocks globalBlocks
  rw [S.intBdr r, S.dim r, show hasIntBdr P = P.interior.any fun p => p.1.isSome from rfl]
  refine List.rel_append (List.rel_append (List.rel_append (List.rel_append (List.rel_append ?_ ?_) ?_) ?_) ?_) ?_
  · split_ifs
    · refine List.rel_append (List.rel_append (one_blocks _ ?_) (zero_blocks ?_)) (two_blocks _ ?_)
      · intro f d; rw [widen_mul]; exact S.minv_agree r f (S.oneW_agree r _ d)
      · intro f; rw [widen_mul]; exact S.minv_agree r f (S.zeroW_agree r f)
      · intro f d d2; rw [widen_mul]; exact S.minv_agree r f (S.twoW_agree r f d d2)
    · exact .nil
  · unfold directionalPar directionalBlocks
    rw [S.dim r]
    refine forall₂_flatMap _ _ _ fun f => forall₂_flatMap _ _ _ fun x => ?_
    have h : Agrees (num r) (widen ((Q r).Minv f * derivativeSub (Q r).local x)) (P.Minv f * derivativeSub P x) := by
      rw [widen_mul]; exact S.minv_agree r f (S.der_agree r x)
    exact .cons ⟨rfl, rfl, rfl, rfl, rfl, h⟩ (.cons ⟨rfl, rfl, rfl, rfl, rfl, h⟩ .nil)
  · exact one_blocks _ fun f d => S.minv_agree r f (S.one_agree r _ d)
  · exact zero_blocks fun f => S.minv_agree r f (S.zero_agree r f)
  · exact two_blocks _ fun f d d2 => S.minv_agree r f (S.two_agree r f d d2)
  · unfold conductivePar conductiveBlocks
    refine forall₂_map _ _ _ fun d => ⟨rfl, rfl, rfl, rfl, rfl, ?_⟩
    rw [widen_mul]; exact S.minv_agree r .E (S.sig_agree r)

lemma apply_agree {num : Fin (n + g) → ι} {bs' : List (RBlock (Fin n) (Fin (n + g)) K)} {bs : List (GBlock ι K)}
    (h : List.Forall₂ (BAgrees num) bs' bs) (u : State ι K) (f : FieldT) (d : Dir) (k : Fin n) :
    applyBlocks bs' (fun f d c => u f d (num c)) f d k = applyBlocks bs u f d (num (Fin.castAdd _ k)) := by
  unfold applyBlocks
  induction h with
  | nil => simp
  | @cons b' b bs' bs hb _ ih =>
    rw [List.filter_cons, List.filter_cons, hb.rowF, hb.rowD]
    by_cases hc : b.rowF = f ∧ b.rowD = d
    · simp only [hc, and_self, decide_true, if_true, List.map_cons, List.sum_cons, Pi.add_apply, Pi.smul_apply, ih, hb.sign,
        hb.colF, hb.colD]
      rw [hb.mat]
    · simp only [hc, decide_false, Bool.false_eq_true, if_false]
      exact ih

/-- The own fields and the exchanged ones are the fields of the whole problem. -/
lemma Spec.Split.ghosts (S : Split P Q src num side1 side2) (u : State ι K) (r : R) :
    withGhosts (scatter (G := G) num u r) (exchange src (scatter num u) r) = fun f d c => u f d (num r c) := by
  funext f d c
  unfold withGhosts
  induction c using Fin.addCases with
  | left k => simp [scatter]
  | right j => simp [exchange, scatter, S.ghost]

end agree

end Dgtd.Par
