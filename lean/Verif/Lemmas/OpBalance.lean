/-
The energy balance of the global operator: rate of change = - dissipation.
-/
import Verif.Lemmas.OpEnergy
import Mathlib.Algebra.Order.BigOperators.Group.List

set_option linter.unusedSectionVars false
set_option linter.unusedSimpArgs false

namespace Dgtd.Op

open Spec

variable {ι K : Type} [Fintype ι] [DecidableEq ι] [Field K] [LinearOrder K] [IsStrictOrderedRing K]

lemma normalTerm_zero {dim : Nat} {p : Pt K} (h : p.nor.length = dim) {x : Dir} (hx : x.val ≥ dim) :
    normalTerm p.nor x = 0 := by
  unfold normalTerm
  rw [List.getElem?_eq_none (by rw [h]; exact hx)]; rfl

/-! ### per face -/

lemma map_sum_congr {α : Type} (l : List α) (f g : α → K) (h : ∀ a ∈ l, f a = g a) :
    (l.map f).sum = (l.map g).sum := by
  rw [List.map_congr_left h]

lemma face_plain {dim : Nat} (alpha : K) (f : Face ι K) (hp : ∀ p ∈ f.pts, GeoPt dim p) (u : State ι K) :
    oneRate (fun _ x => fbil f (oneNormal x 1 f)) u + zeroRate (fun _ => fbil f (zeroNormal alpha f)) u +
      twoRate (fun _ d d2 => fbil f (twoNormal d d2 alpha f)) u + bdryRate (faceBoundary f) u =
      -dissInterior alpha f u := by
  have e1 : (fun (_ : FieldT) x => fbil f (oneNormal x 1 f)) =
      fun _ x v w => (f.pts.map fun p => Opt f p 1 x v w).sum := by
    funext g x v w; exact fbil_oneNormal x 1 f v w
  have e2 : (fun (_ : FieldT) => fbil f (zeroNormal alpha f)) =
      fun _ v w => (f.pts.map fun p => Zpt f p alpha v w).sum := by
    funext g v w; exact fbil_zeroNormal alpha f v w
  have e3 : (fun (_ : FieldT) d d2 => fbil f (twoNormal d d2 alpha f)) =
      fun _ d d2 v w => (f.pts.map fun p => Tpt f p alpha d d2 v w).sum := by
    funext g d d2 v w; exact fbil_twoNormal d d2 alpha f v w
  have e4 : faceBoundary f = fun x v w => (f.pts.map fun p => Bpt f p x v w).sum := by
    funext x v w; rfl
  rw [e1, e2, e3, e4, oneRate_list, zeroRate_list, twoRate_list, bdryRate_list, sum_map_add', sum_map_add',
    sum_map_add']
  unfold dissInterior
  rw [sum_map_neg']
  apply map_sum_congr
  intro p hpm
  have g := hp p hpm
  have h1 := pt_flux f (p := p) u 1 1 two_ne_zero (by norm_num) (Or.inl ⟨rfl, rfl⟩)
  have h2 := pt_penalty f (p := p) u alpha alpha g.W_pos.ne' g.norm
  simp only [ite_self] at h1 h2
  linear_combination h1 + h2

lemma face_bdr {dim : Nat} (P : Prob ι K) (c : BdrCond) (f : Face ι K) (hp : ∀ p ∈ f.pts, GeoPt dim p)
    (hn : f.ndof2 = 0) (u : State ι K) :
    oneRate (fun g x => fbil f (oneNormal x (fluxCoeff c g) f)) u +
      zeroRate (fun g => fbil f (zeroNormal (penaltyCoeff P c g) f)) u +
      twoRate (fun g d d2 => fbil f (twoNormal d d2 (penaltyCoeff P c g) f)) u + bdryRate (faceBoundary f) u =
      -dissBdr P.alpha c f u := by
  have e1 : (fun (g : FieldT) x => fbil f (oneNormal x (fluxCoeff c g) f)) =
      fun g x v w => (f.pts.map fun p => Opt f p (fluxCoeff c g) x v w).sum := by
    funext g x v w; exact fbil_oneNormal x _ f v w
  have e2 : (fun (g : FieldT) => fbil f (zeroNormal (penaltyCoeff P c g) f)) =
      fun g v w => (f.pts.map fun p => Zpt f p (penaltyCoeff P c g) v w).sum := by
    funext g v w; exact fbil_zeroNormal _ f v w
  have e3 : (fun (g : FieldT) d d2 => fbil f (twoNormal d d2 (penaltyCoeff P c g) f)) =
      fun g d d2 v w => (f.pts.map fun p => Tpt f p (penaltyCoeff P c g) d d2 v w).sum := by
    funext g d d2 v w; exact fbil_twoNormal d d2 _ f v w
  have e4 : faceBoundary f = fun x v w => (f.pts.map fun p => Bpt f p x v w).sum := by
    funext x v w; rfl
  rw [e1, e2, e3, e4, oneRate_list, zeroRate_list, twoRate_list, bdryRate_list, sum_map_add', sum_map_add',
    sum_map_add']
  unfold dissBdr
  rw [sum_map_neg']
  apply map_sum_congr
  intro p hpm
  have g := hp p hpm
  have h1 := pt_flux f (p := p) u (fluxCoeff c .E) (fluxCoeff c .H) two_ne_zero
    (by cases c <;> simp [fluxCoeff, bdrCoeff] <;> norm_num) (Or.inr hn)
  have h2 := pt_penalty f (p := p) u (penaltyCoeff P c .E) (penaltyCoeff P c .H) g.W_pos.ne' g.norm
  have i1 : (fun (g : FieldT) x => Opt f p (if g = .E then fluxCoeff c .E else fluxCoeff c .H) x) =
      fun g x => Opt f p (fluxCoeff c g) x := by
    funext g x; cases g <;> rfl
  have i2 : (fun (g : FieldT) => Zpt f p (if g = .E then penaltyCoeff P c .E else penaltyCoeff P c .H)) =
      fun g => Zpt f p (penaltyCoeff P c g) := by
    funext g; cases g <;> rfl
  have i3 : (fun (g : FieldT) d d2 =>
      Tpt f p (if g = .E then penaltyCoeff P c .E else penaltyCoeff P c .H) d d2) =
      fun g d d2 => Tpt f p (penaltyCoeff P c g) d d2 := by
    funext g d d2; cases g <;> rfl
  rw [i1] at h1
  rw [i2, i3] at h2
  have t0 : ∀ g : FieldT, tanSq p (fun d => tr2 f p (u g d)) = 0 := by
    intro g; simp [tanSq, tr2_zero f p _ hn]
  have hwE : bdrWeight P.alpha c .E = penaltyCoeff P c .E / 2 := by
    cases c <;> simp [bdrWeight, penaltyCoeff, bdrCoeff]; ring
  have hwH : bdrWeight P.alpha c .H = penaltyCoeff P c .H / 2 := by
    cases c <;> simp [bdrWeight, penaltyCoeff, bdrCoeff]; ring
  simp only [tr2_zero f p _ hn, sub_zero] at h2
  rw [t0, t0, hwE, hwH]
  linear_combination h1 + h2

lemma face_intBdr {dim : Nat} (P : Prob ι K) (c : BdrCond) (f : Face ι K)
    (hp : ∀ p ∈ f.pts, GeoPt dim p) (u : State ι K) :
    oneRate (fun g x => fbil f (interiorJump [x] (fluxCoeff c g) f)) u +
      zeroRate (fun g => fbil f (interiorJump [] (penaltyCoeff P c g) f)) u +
      twoRate (fun g d d2 => fbil f (interiorJump [d, d2] (penaltyCoeff P c g) f)) u +
      bdryRate (faceBoundary f) u = -dissBdr P.alpha c f u := by
  have e1 : (fun (g : FieldT) x => fbil f (interiorJump [x] (fluxCoeff c g) f)) =
      fun g x v w => (f.pts.map fun p => OptI f p (fluxCoeff c g) x v w).sum := by
    funext g x v w; exact fbil_interior1 x _ f v w
  have e2 : (fun (g : FieldT) => fbil f (interiorJump [] (penaltyCoeff P c g) f)) =
      fun g v w => (f.pts.map fun p => ZptI f p (penaltyCoeff P c g) v w).sum := by
    funext g v w; exact fbil_interior0 _ f v w
  have e3 : (fun (g : FieldT) d d2 => fbil f (interiorJump [d, d2] (penaltyCoeff P c g) f)) =
      fun g d d2 v w => (f.pts.map fun p => TptI f p (penaltyCoeff P c g) d d2 v w).sum := by
    funext g d d2 v w; exact fbil_interior2 d d2 _ f v w
  have e4 : faceBoundary f = fun x v w => (f.pts.map fun p => Bpt f p x v w).sum := by
    funext x v w; rfl
  rw [e1, e2, e3, e4, oneRate_list, zeroRate_list, twoRate_list, bdryRate_list, sum_map_add', sum_map_add',
    sum_map_add']
  unfold dissBdr
  rw [sum_map_neg']
  apply map_sum_congr
  intro p hpm
  have g := hp p hpm
  have h1 := pt_fluxI f (p := p) u (fluxCoeff c .E) (fluxCoeff c .H) two_ne_zero
    (by cases c <;> simp [fluxCoeff, bdrCoeff] <;> norm_num)
  have h2 := pt_penaltyI f (p := p) u (penaltyCoeff P c .E) (penaltyCoeff P c .H) g.W_pos.ne' g.norm
  have i1 : (fun (g : FieldT) x => OptI f p (if g = .E then fluxCoeff c .E else fluxCoeff c .H) x) =
      fun g x => OptI f p (fluxCoeff c g) x := by
    funext g x; cases g <;> rfl
  have i2 : (fun (g : FieldT) => ZptI f p (if g = .E then penaltyCoeff P c .E else penaltyCoeff P c .H)) =
      fun g => ZptI f p (penaltyCoeff P c g) := by
    funext g; cases g <;> rfl
  have i3 : (fun (g : FieldT) d d2 =>
      TptI f p (if g = .E then penaltyCoeff P c .E else penaltyCoeff P c .H) d d2) =
      fun g d d2 => TptI f p (penaltyCoeff P c g) d d2 := by
    funext g d d2; cases g <;> rfl
  rw [i1] at h1
  rw [i2, i3] at h2
  have hwE : bdrWeight P.alpha c .E = penaltyCoeff P c .E / 2 := by
    cases c <;> simp [bdrWeight, penaltyCoeff, bdrCoeff]; ring
  have hwH : bdrWeight P.alpha c .H = penaltyCoeff P c .H / 2 := by
    cases c <;> simp [bdrWeight, penaltyCoeff, bdrCoeff]; ring
  rw [hwE, hwH]
  linear_combination h1 + h2

/-! ### classification of the faces -/

lemma sum_interior (P : Prob ι K) (h : ∀ q ∈ P.interior, q.1 ≠ some .SGBC)
    (g : Option BdrCond → Face ι K → K) :
    (P.interior.map fun q => g q.1 q.2).sum =
      ((plainFaces P).map fun f => g none f).sum + ((intBdrFaces P).map fun q => g (some q.1) q.2).sum := by
  unfold plainFaces intBdrFaces
  revert h
  induction P.interior with
  | nil => simp
  | cons q l ih =>
    intro h
    obtain ⟨o, f⟩ := q
    have ih := ih (fun q hq => h q (List.mem_cons_of_mem _ hq))
    have h0 := h (o, f) (by simp)
    rw [List.map_cons, List.sum_cons, ih]
    cases o with
    | none => simp only [List.filterMap_cons, if_true, List.map_cons, List.sum_cons]; ring
    | some c =>
      cases c with
      | SGBC => exact absurd rfl h0
      | _ => simp [List.filterMap_cons]; ring

lemma sum_bdr (P : Prob ι K) (h : ∀ q ∈ P.bdr, q.1 ≠ none) (g : Option BdrCond → Face ι K → K) :
    (P.bdr.map fun q => g q.1 q.2).sum = ((bdrFaces P).map fun q => g (some q.1) q.2).sum := by
  unfold bdrFaces
  revert h
  induction P.bdr with
  | nil => simp
  | cons q l ih =>
    intro h
    obtain ⟨o, f⟩ := q
    have ih := ih (fun q hq => h q (List.mem_cons_of_mem _ hq))
    have h0 := h (o, f) (by simp)
    rw [List.map_cons, List.sum_cons, ih]
    cases o with
    | none => exact absurd rfl h0
    | some c => simp [List.filterMap_cons]

lemma mem_plain {P : Prob ι K} {f : Face ι K} (h : f ∈ plainFaces P) : f ∈ allFaces P := by
  unfold plainFaces at h
  obtain ⟨q, hq, h⟩ := List.mem_filterMap.mp h
  split_ifs at h
  simp only [Option.some.injEq] at h; subst h
  unfold allFaces
  exact List.mem_append_left _ (List.mem_map_of_mem hq)

lemma mem_intBdr {P : Prob ι K} {q : BdrCond × Face ι K} (h : q ∈ intBdrFaces P) : q.2 ∈ allFaces P := by
  unfold intBdrFaces at h
  obtain ⟨q', hq, h⟩ := List.mem_filterMap.mp h
  obtain ⟨o, f⟩ := q'
  have : q.2 = f := by
    cases o with
    | none => simp at h
    | some c => cases c <;> simp at h <;> (try subst h) <;> rfl
  rw [this]
  unfold allFaces
  exact List.mem_append_left _ (List.mem_map_of_mem (f := Prod.snd) hq)

lemma mem_bdr {P : Prob ι K} {q : BdrCond × Face ι K} (h : q ∈ bdrFaces P) :
    q.2 ∈ allFaces P ∧ ∃ o, (o, q.2) ∈ P.bdr := by
  unfold bdrFaces at h
  obtain ⟨q', hq, h⟩ := List.mem_filterMap.mp h
  obtain ⟨o, f⟩ := q'
  cases o with
  | none => simp at h
  | some c =>
    simp at h; subst h
    refine ⟨?_, some c, hq⟩
    unfold allFaces
    exact List.mem_append_right _ (List.mem_map_of_mem (f := Prod.snd) hq)

lemma intBdr_nil {P : Prob ι K} (h : hasIntBdr P = false) : intBdrFaces P = [] := by
  unfold hasIntBdr at h
  unfold intBdrFaces
  rw [List.filterMap_eq_nil_iff]
  intro q hq
  have := List.any_eq_false.mp h q hq
  obtain ⟨o, f⟩ := q
  cases o with
  | none => rfl
  | some c => simp at this

/-! ### forms of the sub-operators -/

lemma form_zeroNormalSub (P : Prob ι K) (g : FieldT) (v w : ι → K) :
    form (zeroNormalSub P g) v w = ((plainFaces P).map fun f => fbil f (zeroNormal P.alpha f) v w).sum +
      ((bdrFaces P).map fun q => fbil q.2 (zeroNormal (penaltyCoeff P q.1 g) q.2) v w).sum := by
  unfold zeroNormalSub
  rw [form_assemble, List.map_append, List.sum_append, List.map_map, List.map_map]; rfl

lemma form_oneNormalSub (P : Prob ι K) (g : FieldT) (x : Dir) (v w : ι → K) :
    form (oneNormalSub P g x) v w = ((plainFaces P).map fun f => fbil f (oneNormal x 1 f) v w).sum +
      ((bdrFaces P).map fun q => fbil q.2 (oneNormal x (fluxCoeff q.1 g) q.2) v w).sum := by
  unfold oneNormalSub
  rw [form_assemble, List.map_append, List.sum_append, List.map_map, List.map_map]; rfl

lemma form_twoNormalSub (P : Prob ι K) (g : FieldT) (x y : Dir) (v w : ι → K) :
    form (twoNormalSub P g x y) v w = ((plainFaces P).map fun f => fbil f (twoNormal x y P.alpha f) v w).sum +
      ((bdrFaces P).map fun q => fbil q.2 (twoNormal x y (penaltyCoeff P q.1 g) q.2) v w).sum := by
  unfold twoNormalSub
  rw [form_assemble, List.map_append, List.sum_append, List.map_map, List.map_map]; rfl

lemma form_zeroIBFI (P : Prob ι K) (g : FieldT) (v w : ι → K) :
    form (zeroNormalIBFI P g) v w =
      ((intBdrFaces P).map fun q => fbil q.2 (interiorJump [] (penaltyCoeff P q.1 g) q.2) v w).sum := by
  unfold zeroNormalIBFI
  rw [form_assemble, List.map_map]; rfl

lemma form_oneIBFI (P : Prob ι K) (g : FieldT) (x : Dir) (v w : ι → K) :
    form (oneNormalIBFI P g x) v w =
      ((intBdrFaces P).map fun q => fbil q.2 (interiorJump [x] (fluxCoeff q.1 g) q.2) v w).sum := by
  unfold oneNormalIBFI
  rw [form_assemble, List.map_map]; rfl

lemma form_twoIBFI (P : Prob ι K) (g : FieldT) (x y : Dir) (v w : ι → K) :
    form (twoNormalIBFI P g x y) v w =
      ((intBdrFaces P).map fun q => fbil q.2 (interiorJump [x, y] (penaltyCoeff P q.1 g) q.2) v w).sum := by
  unfold twoNormalIBFI
  rw [form_assemble, List.map_map]; rfl

lemma sum_eq_zero' {α : Type} (l : List α) (f : α → K) (h : ∀ a ∈ l, f a = 0) : (l.map f).sum = 0 := by
  apply List.sum_eq_zero
  intro x hx
  obtain ⟨a, ha, rfl⟩ := List.mem_map.mp hx
  exact h a ha

section vanish
variable {P : Prob ι K} (hp : ∀ f ∈ allFaces P, ∀ p ∈ f.pts, p.nor.length = P.dim)
include hp

lemma van_oneSub (g : FieldT) (x : Dir) (hx : x.val ≥ P.dim) (v w : ι → K) :
    form (oneNormalSub P g x) v w = 0 := by
  rw [form_oneNormalSub, sum_eq_zero', sum_eq_zero', add_zero]
  · intro q hq
    rw [fbil_oneNormal]
    apply sum_eq_zero'
    intro p hpm
    rw [normalTerm_zero (hp _ (mem_bdr hq).1 p hpm) hx]; ring
  · intro f hf
    rw [fbil_oneNormal]
    apply sum_eq_zero'
    intro p hpm
    rw [normalTerm_zero (hp _ (mem_plain hf) p hpm) hx]; ring

lemma van_twoSub (g : FieldT) (x y : Dir) (hx : x.val ≥ P.dim ∨ y.val ≥ P.dim) (v w : ι → K) :
    form (twoNormalSub P g x y) v w = 0 := by
  rw [form_twoNormalSub, sum_eq_zero', sum_eq_zero', add_zero]
  · intro q hq
    rw [fbil_twoNormal]
    apply sum_eq_zero'
    intro p hpm
    rcases hx with hx | hx <;> rw [normalTerm_zero (hp _ (mem_bdr hq).1 p hpm) hx] <;> ring
  · intro f hf
    rw [fbil_twoNormal]
    apply sum_eq_zero'
    intro p hpm
    rcases hx with hx | hx <;> rw [normalTerm_zero (hp _ (mem_plain hf) p hpm) hx] <;> ring

lemma van_oneIBFI (g : FieldT) (x : Dir) (hx : x.val ≥ P.dim) (v w : ι → K) :
    form (oneNormalIBFI P g x) v w = 0 := by
  rw [form_oneIBFI, sum_eq_zero']
  intro q hq
  rw [fbil_interior1]
  apply sum_eq_zero'
  intro p hpm
  rw [normalTerm_zero (hp _ (mem_intBdr hq) p hpm) hx]; ring

lemma van_twoIBFI (g : FieldT) (x y : Dir) (hx : x.val ≥ P.dim ∨ y.val ≥ P.dim) (v w : ι → K) :
    form (twoNormalIBFI P g x y) v w = 0 := by
  rw [form_twoIBFI, sum_eq_zero']
  intro q hq
  rw [fbil_interior2]
  apply sum_eq_zero'
  intro p hpm
  rcases hx with hx | hx <;> rw [normalTerm_zero (hp _ (mem_intBdr hq) p hpm) hx] <;> ring

lemma van_faceBoundary (f : Face ι K) (hf : f ∈ allFaces P) (x : Dir) (hx : x.val ≥ P.dim) (v w : ι → K) :
    faceBoundary f x v w = 0 := by
  unfold faceBoundary
  apply sum_eq_zero'
  intro p hpm
  rw [normalTerm_zero (hp _ hf p hpm) hx]; ring

end vanish

/-! ### additivity over two lists -/

lemma oneRate_add (A B : FieldT → Dir → Bil ι K) (u : State ι K) :
    oneRate (fun g x v w => A g x v w + B g x v w) u = oneRate A u + oneRate B u := by
  unfold oneRate
  rw [← Finset.sum_add_distrib]
  apply Finset.sum_congr rfl
  intro x _; ring

lemma zeroRate_add (A B : FieldT → Bil ι K) (u : State ι K) :
    zeroRate (fun g v w => A g v w + B g v w) u = zeroRate A u + zeroRate B u := by
  unfold zeroRate
  rw [← neg_add, ← Finset.sum_add_distrib]
  congr 1
  apply Finset.sum_congr rfl
  intro x _; ring

lemma twoRate_add (A B : FieldT → Dir → Dir → Bil ι K) (u : State ι K) :
    twoRate (fun g x y v w => A g x y v w + B g x y v w) u = twoRate A u + twoRate B u := by
  unfold twoRate
  rw [← Finset.sum_add_distrib]
  apply Finset.sum_congr rfl
  intro x _
  rw [← Finset.sum_add_distrib]
  apply Finset.sum_congr rfl
  intro y _; ring

/-! ### the balance -/

/-- With any quadrature: the losses, and what the quadrature adds where it is not exact. -/
theorem energy_gap (P : Prob ι K) (M : FieldT → Matrix ι ι K) (h : Regular P M) (u : State ι K) :
    energyRate M u (globalMult P u) = -dissipation P u + gap P u := by
  have hsz : ∀ f ∈ allFaces P, ∀ p ∈ f.pts, p.nor.length = P.dim := fun f hf p hp => (h.pts f hf p hp).size
  unfold globalMult
  rw [energyRate_blocks]
  -- interior-boundary part
  have hIB : ((if hasIntBdr P then
      oneBlocks P.dim (fun f x => P.Minv f * oneNormalIBFI P (altField f) x) ++
      zeroBlocks (fun f => P.Minv f * zeroNormalIBFI P f) ++
      twoBlocks P.dim (fun f d d2 => P.Minv f * twoNormalIBFI P f d d2)
      else []).map (blockRate M u)).sum =
      oneRate (fun g x => form (oneNormalIBFI P g x)) u + zeroRate (fun g => form (zeroNormalIBFI P g)) u +
        twoRate (fun g x y => form (twoNormalIBFI P g x y)) u := by
    by_cases hb : hasIntBdr P = true
    · rw [if_pos hb, List.map_append, List.map_append, List.sum_append, List.sum_append,
        rate_oneBlocks h.inv P.dim (fun g x => oneNormalIBFI P g x) (fun f x hx v w => van_oneIBFI hsz f x hx v w),
        rate_zeroBlocks h.inv,
        rate_twoBlocks h.inv P.dim _ (fun f x y hx v w => van_twoIBFI hsz f x y hx v w)]
    · have hb' : hasIntBdr P = false := by simpa using hb
      rw [if_neg hb]
      have hz : ∀ g, (form (zeroNormalIBFI P g) : Bil ι K) = fun _ _ => 0 := by
        intro g; funext v w; rw [form_zeroIBFI, intBdr_nil hb']; rfl
      have ho : ∀ g x, (form (oneNormalIBFI P g x) : Bil ι K) = fun _ _ => 0 := by
        intro g x; funext v w; rw [form_oneIBFI, intBdr_nil hb']; rfl
      have ht : ∀ g x y, (form (twoNormalIBFI P g x y) : Bil ι K) = fun _ _ => 0 := by
        intro g x y; funext v w; rw [form_twoIBFI, intBdr_nil hb']; rfl
      simp only [hz, ho, ht]
      simp [oneRate, zeroRate, twoRate]
  -- volume part
  have hdir : dirRate (fun x => form (derivativeSub P x)) u =
      bdryRate (fun x v w => ((allFaces P).map fun f => faceBoundary f x v w).sum) u + gap P u := by
    unfold dirRate bdryRate gap
    rw [← Finset.sum_add_distrib]
    apply Finset.sum_congr rfl
    intro x _
    by_cases hx : x.val ≥ P.dim
    · have hz : ∀ v w : ι → K, form (derivativeSub P x) v w = 0 := by
        intro v w; unfold derivativeSub; rw [if_pos hx, form_zero]
      have hb : ∀ v w : ι → K, ((allFaces P).map fun f => faceBoundary f x v w).sum = 0 := by
        intro v w
        apply sum_eq_zero'
        intro f hf
        exact van_faceBoundary hsz f hf x hx v w
      rw [if_neg (by omega)]
      simp only [hz, hb]; ring
    · have hd : derivativeSub P x = P.D x := by unfold derivativeSub; rw [if_neg hx]
      rw [if_pos (by omega)]
      simp only [hd]
      unfold form defect
      ring
  unfold globalBlocks
  rw [List.map_append, List.map_append, List.map_append, List.map_append, List.map_append,
    List.sum_append, List.sum_append, List.sum_append, List.sum_append, List.sum_append, hIB,
    rate_directional P h.inv, hdir,
    rate_oneBlocks h.inv P.dim (fun g x => oneNormalSub P g x) (fun f x hx v w => van_oneSub hsz f x hx v w),
    rate_zeroBlocks h.inv,
    rate_twoBlocks h.inv P.dim _ (fun f x y hx v w => van_twoSub hsz f x y hx v w),
    rate_conductive P h.inv]
  -- everything as sums over faces
  have a1 : (fun g x => (form (oneNormalIBFI P g x) : Bil ι K)) = fun g x v w =>
      ((intBdrFaces P).map fun q => fbil q.2 (interiorJump [x] (fluxCoeff q.1 g) q.2) v w).sum := by
    funext g x v w; exact form_oneIBFI P g x v w
  have a2 : (fun g => (form (zeroNormalIBFI P g) : Bil ι K)) = fun g v w =>
      ((intBdrFaces P).map fun q => fbil q.2 (interiorJump [] (penaltyCoeff P q.1 g) q.2) v w).sum := by
    funext g v w; exact form_zeroIBFI P g v w
  have a3 : (fun g x y => (form (twoNormalIBFI P g x y) : Bil ι K)) = fun g x y v w =>
      ((intBdrFaces P).map fun q => fbil q.2 (interiorJump [x, y] (penaltyCoeff P q.1 g) q.2) v w).sum := by
    funext g x y v w; exact form_twoIBFI P g x y v w
  have a4 : (fun g x => (form (oneNormalSub P g x) : Bil ι K)) = fun g x v w =>
      ((plainFaces P).map fun f => fbil f (oneNormal x 1 f) v w).sum +
      ((bdrFaces P).map fun q => fbil q.2 (oneNormal x (fluxCoeff q.1 g) q.2) v w).sum := by
    funext g x v w; exact form_oneNormalSub P g x v w
  have a5 : (fun g => (form (zeroNormalSub P g) : Bil ι K)) = fun g v w =>
      ((plainFaces P).map fun f => fbil f (zeroNormal P.alpha f) v w).sum +
      ((bdrFaces P).map fun q => fbil q.2 (zeroNormal (penaltyCoeff P q.1 g) q.2) v w).sum := by
    funext g v w; exact form_zeroNormalSub P g v w
  have a6 : (fun g x y => (form (twoNormalSub P g x y) : Bil ι K)) = fun g x y v w =>
      ((plainFaces P).map fun f => fbil f (twoNormal x y P.alpha f) v w).sum +
      ((bdrFaces P).map fun q => fbil q.2 (twoNormal x y (penaltyCoeff P q.1 g) q.2) v w).sum := by
    funext g x y v w; exact form_twoNormalSub P g x y v w
  rw [a1, a2, a3, a4, a5, a6, bdryRate_list,
    oneRate_add (fun g x v w => ((plainFaces P).map fun f => fbil f (oneNormal x 1 f) v w).sum),
    zeroRate_add (fun g v w => ((plainFaces P).map fun f => fbil f (zeroNormal P.alpha f) v w).sum),
    twoRate_add (fun g x y v w => ((plainFaces P).map fun f => fbil f (twoNormal x y P.alpha f) v w).sum)]
  rw [oneRate_list (intBdrFaces P) (fun q g x => fbil q.2 (interiorJump [x] (fluxCoeff q.1 g) q.2)),
    zeroRate_list (intBdrFaces P) (fun q g => fbil q.2 (interiorJump [] (penaltyCoeff P q.1 g) q.2)),
    twoRate_list (intBdrFaces P) (fun q g x y => fbil q.2 (interiorJump [x, y] (penaltyCoeff P q.1 g) q.2)),
    oneRate_list (plainFaces P) (fun f _ x => fbil f (oneNormal x 1 f)),
    zeroRate_list (plainFaces P) (fun f _ => fbil f (zeroNormal P.alpha f)),
    twoRate_list (plainFaces P) (fun f _ x y => fbil f (twoNormal x y P.alpha f)),
    oneRate_list (bdrFaces P) (fun q g x => fbil q.2 (oneNormal x (fluxCoeff q.1 g) q.2)),
    zeroRate_list (bdrFaces P) (fun q g => fbil q.2 (zeroNormal (penaltyCoeff P q.1 g) q.2)),
    twoRate_list (bdrFaces P) (fun q g x y => fbil q.2 (twoNormal x y (penaltyCoeff P q.1 g) q.2))]
  -- boundary functional over the three classes
  have hall : ((allFaces P).map fun f => bdryRate (faceBoundary f) u).sum =
      ((plainFaces P).map fun f => bdryRate (faceBoundary f) u).sum +
      ((intBdrFaces P).map fun q => bdryRate (faceBoundary q.2) u).sum +
      ((bdrFaces P).map fun q => bdryRate (faceBoundary q.2) u).sum := by
    unfold allFaces
    rw [List.map_append, List.sum_append, List.map_map, List.map_map]
    have s1 := sum_interior P h.no_sgbc (fun _ f => bdryRate (faceBoundary f) u)
    have s2 := sum_bdr P h.bdr_cond (fun _ f => bdryRate (faceBoundary f) u)
    have : ∀ l : List (Option BdrCond × Face ι K),
        (l.map ((fun f => bdryRate (faceBoundary f) u) ∘ Prod.snd)).sum =
        (l.map fun q => bdryRate (faceBoundary q.2) u).sum := fun l => rfl
    rw [this, this, s1, s2]
  have hall' : ((allFaces P).map fun a => bdryRate (fun x v w => faceBoundary a x v w) u).sum =
      ((allFaces P).map fun f => bdryRate (faceBoundary f) u).sum := rfl
  rw [hall', hall]
  -- per class
  have k1 : ((plainFaces P).map fun f => oneRate (fun _ x => fbil f (oneNormal x 1 f)) u).sum +
      ((plainFaces P).map fun f => zeroRate (fun _ => fbil f (zeroNormal P.alpha f)) u).sum +
      ((plainFaces P).map fun f => twoRate (fun _ x y => fbil f (twoNormal x y P.alpha f)) u).sum +
      ((plainFaces P).map fun f => bdryRate (faceBoundary f) u).sum =
      -((plainFaces P).map fun f => dissInterior P.alpha f u).sum := by
    rw [sum_map_add', sum_map_add', sum_map_add', sum_map_neg']
    apply map_sum_congr
    intro f hf
    exact face_plain P.alpha f (h.pts f (mem_plain hf)) u
  have k2 : ((intBdrFaces P).map fun q =>
        oneRate (fun g x => fbil q.2 (interiorJump [x] (fluxCoeff q.1 g) q.2)) u).sum +
      ((intBdrFaces P).map fun q =>
        zeroRate (fun g => fbil q.2 (interiorJump [] (penaltyCoeff P q.1 g) q.2)) u).sum +
      ((intBdrFaces P).map fun q =>
        twoRate (fun g x y => fbil q.2 (interiorJump [x, y] (penaltyCoeff P q.1 g) q.2)) u).sum +
      ((intBdrFaces P).map fun q => bdryRate (faceBoundary q.2) u).sum =
      -((intBdrFaces P).map fun q => dissBdr P.alpha q.1 q.2 u).sum := by
    rw [sum_map_add', sum_map_add', sum_map_add', sum_map_neg']
    apply map_sum_congr
    intro q hq
    exact face_intBdr P q.1 q.2 (h.pts q.2 (mem_intBdr hq)) u
  have k3 : ((bdrFaces P).map fun q =>
        oneRate (fun g x => fbil q.2 (oneNormal x (fluxCoeff q.1 g) q.2)) u).sum +
      ((bdrFaces P).map fun q =>
        zeroRate (fun g => fbil q.2 (zeroNormal (penaltyCoeff P q.1 g) q.2)) u).sum +
      ((bdrFaces P).map fun q =>
        twoRate (fun g x y => fbil q.2 (twoNormal x y (penaltyCoeff P q.1 g) q.2)) u).sum +
      ((bdrFaces P).map fun q => bdryRate (faceBoundary q.2) u).sum =
      -((bdrFaces P).map fun q => dissBdr P.alpha q.1 q.2 u).sum := by
    rw [sum_map_add', sum_map_add', sum_map_add', sum_map_neg']
    apply map_sum_congr
    intro q hq
    obtain ⟨hm, o, ho⟩ := mem_bdr hq
    exact face_bdr P q.1 q.2 (h.pts q.2 hm) (h.bdr_one_side _ ho) u
  have d1 := sum_interior P h.no_sgbc (fun o f => match o with
    | none => dissInterior P.alpha f u
    | some c => dissBdr P.alpha c f u)
  have d2 := sum_bdr P h.bdr_cond (fun o f => match o with
    | none => 0
    | some c => dissBdr P.alpha c f u)
  have hdis : dissipation P u = ((plainFaces P).map fun f => dissInterior P.alpha f u).sum +
      ((intBdrFaces P).map fun q => dissBdr P.alpha q.1 q.2 u).sum +
      ((bdrFaces P).map fun q => dissBdr P.alpha q.1 q.2 u).sum +
      ∑ d, form P.Msig (u .E d) (u .E d) := by
    unfold dissipation form
    rw [← d1, ← d2]
    rfl
  rw [hdis]
  linear_combination k1 + k2 + k3

lemma Spec.GoodPt.geo {dim : Nat} {p : Pt K} (h : GoodPt dim p) : GeoPt dim p := ⟨h.W_pos, h.size, h.norm⟩

lemma Spec.Good.regular {P : Prob ι K} {M : FieldT → Matrix ι ι K} (h : Good P M) : Regular P M :=
  ⟨h.dim_le, fun f hf p hp => (h.pts f hf p hp).geo, h.bdr_cond, h.bdr_one_side, h.no_sgbc, h.inv, h.symm⟩

lemma gap_zero {P : Prob ι K} (h : SBP P) (u : State ι K) : gap P u = 0 := by
  unfold gap
  apply Finset.sum_eq_zero
  intro x _
  split
  · next hx =>
    unfold defect
    rw [h x hx, h x hx]
    ring
  · rfl

theorem energy_balance (P : Prob ι K) (M : FieldT → Matrix ι ι K) (h : Good P M) (u : State ι K) :
    energyRate M u (globalMult P u) = -dissipation P u := by
  rw [energy_gap P M h.regular, gap_zero h.sbp, add_zero]

end Dgtd.Op
