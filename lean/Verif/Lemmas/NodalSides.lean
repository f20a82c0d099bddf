/-
The terms of a face of the global operator as sums over the nodes of its two sides.
-/
import Verif.Lemmas.NodalAssembly

set_option linter.unusedSectionVars false

namespace Dgtd.Nodal

open Spec NodalMaps Dgtd.Op
open Dgtd.Op.Spec (tr1 tr2)

variable {K : Type} [Field K] [LinearOrder K] [IsStrictOrderedRing K]

/-- The flux of a field at a point. -/
def pflux (f : FieldT) (alpha : K) (n dE dH : V3 K) (d : Fin 3) : K :=
  match f with
  | .E => fluxE alpha n dE dH d
  | .H => fluxH alpha n dE dH d

lemma pflux_sum {ι : Type} [Fintype ι] (f : FieldT) (alpha : K) (n : V3 K) (a : ι → K) (dE dH : ι → V3 K) (d : Fin 3) :
    pflux f alpha n (fun x => ∑ k, a k * dE k x) (fun x => ∑ k, a k * dH k x) d = ∑ k, a k * pflux f alpha n (dE k) (dH k) d := by
  cases f <;> simp only [pflux, fluxE, fluxH, ndot, Finset.mul_sum, Finset.sum_mul, ← Finset.sum_add_distrib, ← Finset.sum_sub_distrib] <;>
    exact Finset.sum_congr rfl fun k _ => by ring

/-- Flux through a side in terms of the jumps of the traces. -/
lemma pflux_side (f : FieldT) (alpha W : K) (hW : W ≠ 0) (m : V3 K) (J : FieldT → V3 K) (d : Fin 3) (s : K) (hs : s * s = 1) :
    W * pflux f alpha (fun x => s * m x / W) (fun x => -s * J .E x) (fun x => -s * J .H x) d =
      sgn f * (m (d + 2) * J (altField f) (d + 1) - m (d + 1) * J (altField f) (d + 2)) -
        s * alpha * (W * J f d - m d * (m 0 * J f 0 + m 1 * J f 1 + m 2 * J f 2) / W) := by
  have hs3 : s ^ 3 = s := by linear_combination s * hs
  cases f <;> simp only [pflux, fluxE, fluxH, ndot, sgn, FieldT.idx, altField] <;> field_simp <;> push_cast
  · ring_nf
    simp only [show s ^ 2 = 1 by linear_combination hs, hs3]
    ring
  · ring_nf
    simp only [show s ^ 2 = 1 by linear_combination hs, hs3]
    ring

/-- Sums over the nodes of the element reduce to the nodes of the face. -/
lemma sum_face {n nf : Nat} (node : Fin nf → Fin n) (hm : StrictMono node) (g : Fin n → K) (hz : ∀ i, (∀ k, node k ≠ i) → g i = 0) :
    ∑ i, g i = ∑ k, g (node k) := by
  rw [← Finset.sum_image (s := Finset.univ) (g := node) (f := g) (fun a _ b _ h => hm.injective h)]
  symm
  apply Finset.sum_subset (Finset.subset_univ _)
  intro i _ hi
  apply hz
  intro k hk
  exact hi (Finset.mem_image.2 ⟨k, Finset.mem_univ _, hk⟩)

lemma mass_sum {nf : Nat} (pts : List (Pt K)) (sh : Pt K → Nat → K) (node : Fin nf → Nat) (W : K) (g : Fin nf → K) (i : Nat) :
    W / 2 * ∑ k, faceMass pts sh i (node k) * g k = (pts.map fun p => p.w / 2 * (W * (sh p i * ∑ k, sh p (node k) * g k))).sum := by
  unfold faceMass
  induction pts with
  | nil => simp
  | cons p l ih =>
    simp only [List.map_cons, List.sum_cons, add_mul, Finset.sum_add_distrib, mul_add]
    rw [ih]
    congr 1
    rw [Finset.mul_sum, Finset.mul_sum, Finset.mul_sum, Finset.mul_sum]
    exact Finset.sum_congr rfl fun k _ => by ring

variable {ne : Nat} {R : Ref K} {w : K} {Mhat : Fin R.n → Fin R.n → K} {node : Fin R.nF → Fin R.nf → Fin R.n}
  {el : Nat → Elem K} {c : Nat → Nat × Nat}

/-- Unit normal of a face of an element. -/
def unitNormal (R : Ref K) (el : Nat → Elem K) (e : Fin ne) (f : Fin R.nF) : V3 K := fun d =>
  if d.val < R.dim then (el e).nor f d / (el e).sJ f else 0

lemma normals_pos (e : Fin ne) (f : Fin R.nF) (k : Fin R.nf) : normals R el (posOf e f k) = unitNormal R el e f := by
  unfold normals normalAt unitNormal
  rw [pos_div, pos_mod, place_div]

/-- Term of one side of a face in the row of node `i` of the element. -/
def sideTerm (R : Ref K) (el : Nat → Elem K) (node : Fin R.nF → Fin R.nf → Fin R.n) (alpha : K) (j : Fields K) (f : FieldT) (d : Fin 3)
    (e : Fin ne) (φ : Fin R.nF) (i : Fin R.n) : K :=
  (el e).sJ φ / 2 * ∑ k, faceMass (R.faces φ).pts Pt.sh1 i (node φ k) *
    pflux f alpha (unitNormal R el e φ) (j.e (posOf e φ k)) (j.h (posOf e φ k)) d

lemma normalTerm_beyond (l : List K) (d : Fin 3) (h : ¬ d.val < l.length) : normalTerm l d = 0 := by
  unfold normalTerm
  rw [List.getElem?_eq_none (by omega)]
  rfl

section inner
variable {q : Inner ne R.nF R.nf R.n K} (h : InnerOk R el node c q)
include h

lemma inner_tr1 (hr : RefOk R w Mhat node) (p : Pt K) (hp : p ∈ q.face.pts) (v : Fin ne × Fin R.n → K) :
    tr1 q.face p v = ∑ k, p.sh1 (node q.f1 k) * v (q.e1, node q.f1 k) := by
  unfold tr1
  rw [h.size.1, Finset.sum_range]
  simp only [h.dofs1]
  exact sum_face (node q.f1) (hr.mono q.f1) (fun i => p.sh1 i * v (q.e1, i)) fun i hi => by rw [h.off1 p hp i hi, zero_mul]

lemma inner_tr2 (hr : RefOk R w Mhat node) (p : Pt K) (hp : p ∈ q.face.pts) (v : Fin ne × Fin R.n → K) :
    tr2 q.face p v = ∑ k, p.sh2 (node q.f2 k) * v (q.e2, node q.f2 k) := by
  unfold tr2
  rw [h.size.2, h.size.1, Finset.sum_range]
  simp only [h.dofs2]
  exact sum_face (node q.f2) (hr.mono q.f2) (fun i => p.sh2 i * v (q.e2, i)) fun i hi => by rw [h.off2 p hp i hi, zero_mul]

lemma inner_tr2' (hr : RefOk R w Mhat node) (p : Pt K) (hp : p ∈ q.face.pts) (v : Fin ne × Fin R.n → K) :
    tr2 q.face p v = ∑ k, p.sh1 (node q.f1 k) * v (q.e2, node q.f2 (q.mate k)) := by
  rw [inner_tr2 h hr p hp, ← Equiv.sum_comp q.mate]
  exact Finset.sum_congr rfl fun k _ => by rw [h.match_ p hp]

lemma inner_single1 (p : Pt K) (e : Fin ne) (i : Fin R.n) :
    tr1 q.face p (Pi.single (e, i) 1) = if q.e1 = e then p.sh1 i else 0 := by
  unfold tr1
  rw [h.size.1, Finset.sum_range]
  simp only [h.dofs1, Pi.single_apply, Prod.mk.injEq]
  by_cases he : q.e1 = e
  · simp [he]
  · simp [he]

lemma inner_single2 (p : Pt K) (e : Fin ne) (i : Fin R.n) :
    tr2 q.face p (Pi.single (e, i) 1) = if q.e2 = e then p.sh2 i else 0 := by
  unfold tr2
  rw [h.size.2, h.size.1, Finset.sum_range]
  simp only [h.dofs2, Pi.single_apply, Prod.mk.injEq]
  by_cases he : q.e2 = e
  · simp [he]
  · simp [he]

/-- A face between two elements without a condition. -/
theorem inner_term (hr : RefOk R w Mhat node) (alpha : K) (u : State (Fin ne × Fin R.n) K) (j : Fields K)
    (h1 : ∀ k x, j.e (posOf q.e1 q.f1 k) x = u .E x (q.e2, node q.f2 (q.mate k)) - u .E x (q.e1, node q.f1 k) ∧
      j.h (posOf q.e1 q.f1 k) x = u .H x (q.e2, node q.f2 (q.mate k)) - u .H x (q.e1, node q.f1 k))
    (h2 : ∀ k x, j.e (posOf q.e2 q.f2 (q.mate k)) x = u .E x (q.e1, node q.f1 k) - u .E x (q.e2, node q.f2 (q.mate k)) ∧
      j.h (posOf q.e2 q.f2 (q.mate k)) x = u .H x (q.e1, node q.f1 k) - u .H x (q.e2, node q.f2 (q.mate k)))
    (f : FieldT) (d : Fin 3) (e : Fin ne) (i : Fin R.n) :
    faceTerm u f d 1 alpha q.face (Pi.single (e, i) 1) =
      (if q.e1 = e then sideTerm R el node alpha j f d q.e1 q.f1 i else 0) +
      (if q.e2 = e then sideTerm R el node alpha j f d q.e2 q.f2 i else 0) := by
  set W1 := (el q.e1).sJ q.f1 with hW1
  set W2 := (el q.e2).sJ q.f2 with hW2
  have s1 : sideTerm R el node alpha j f d q.e1 q.f1 i = (q.face.pts.map fun p => p.w / 2 * (W1 * (p.sh1 i *
      ∑ k, p.sh1 (node q.f1 k) * pflux f alpha (unitNormal R el q.e1 q.f1) (j.e (posOf q.e1 q.f1 k)) (j.h (posOf q.e1 q.f1 k)) d))).sum := by
    unfold sideTerm
    simp only [← h.quad1]
    exact mass_sum _ _ (fun k => (node _ k).val) _ _ _
  have s2 : sideTerm R el node alpha j f d q.e2 q.f2 i = (q.face.pts.map fun p => p.w / 2 * (W2 * (p.sh2 i *
      ∑ k, p.sh2 (node q.f2 k) * pflux f alpha (unitNormal R el q.e2 q.f2) (j.e (posOf q.e2 q.f2 k)) (j.h (posOf q.e2 q.f2 k)) d))).sum := by
    unfold sideTerm
    simp only [← h.quad2]
    exact mass_sum _ _ (fun k => (node _ k).val) _ _ _
  have pt : ∀ p ∈ q.face.pts,
      W1 * ∑ k, p.sh1 (node q.f1 k) * pflux f alpha (unitNormal R el q.e1 q.f1) (j.e (posOf q.e1 q.f1 k)) (j.h (posOf q.e1 q.f1 k)) d =
        sgn f * (normalTerm p.nor (d + 2) * (tr1 q.face p (u (altField f) (d + 1)) - tr2 q.face p (u (altField f) (d + 1))) -
          normalTerm p.nor (d + 1) * (tr1 q.face p (u (altField f) (d + 2)) - tr2 q.face p (u (altField f) (d + 2)))) -
        1 * alpha * (p.W * (tr1 q.face p (u f d) - tr2 q.face p (u f d)) -
          normalTerm p.nor d * (normalTerm p.nor 0 * (tr1 q.face p (u f 0) - tr2 q.face p (u f 0)) +
          normalTerm p.nor 1 * (tr1 q.face p (u f 1) - tr2 q.face p (u f 1)) +
          normalTerm p.nor 2 * (tr1 q.face p (u f 2) - tr2 q.face p (u f 2))) / p.W) ∧
      W2 * ∑ k, p.sh2 (node q.f2 k) * pflux f alpha (unitNormal R el q.e2 q.f2) (j.e (posOf q.e2 q.f2 k)) (j.h (posOf q.e2 q.f2 k)) d =
        sgn f * (normalTerm p.nor (d + 2) * (tr1 q.face p (u (altField f) (d + 1)) - tr2 q.face p (u (altField f) (d + 1))) -
          normalTerm p.nor (d + 1) * (tr1 q.face p (u (altField f) (d + 2)) - tr2 q.face p (u (altField f) (d + 2)))) -
        (-1) * alpha * (p.W * (tr1 q.face p (u f d) - tr2 q.face p (u f d)) -
          normalTerm p.nor d * (normalTerm p.nor 0 * (tr1 q.face p (u f 0) - tr2 q.face p (u f 0)) +
          normalTerm p.nor 1 * (tr1 q.face p (u f 1) - tr2 q.face p (u f 1)) +
          normalTerm p.nor 2 * (tr1 q.face p (u f 2) - tr2 q.face p (u f 2))) / p.W) := by
    intro p hp
    obtain ⟨hlen, hW0, hWa, hWb, hnor⟩ := h.normal p hp
    set J : FieldT → V3 K := fun g x => tr1 q.face p (u g x) - tr2 q.face p (u g x) with hJ
    have n1 : unitNormal R el q.e1 q.f1 = fun x => 1 * normalTerm p.nor x / p.W := by
      funext x
      unfold unitNormal
      by_cases hx : x.val < R.dim
      · rw [if_pos hx, (hnor x hx).1, ← hWa, one_mul]
      · rw [if_neg hx, normalTerm_beyond _ _ (by omega)]; simp
    have n2 : unitNormal R el q.e2 q.f2 = fun x => -1 * normalTerm p.nor x / p.W := by
      funext x
      unfold unitNormal
      by_cases hx : x.val < R.dim
      · rw [if_pos hx, (hnor x hx).2, ← hWb]; ring
      · rw [if_neg hx, normalTerm_beyond _ _ (by omega)]; simp
    have j1 : ∀ g : FieldT, (fun x => ∑ k, p.sh1 (node q.f1 k) * (match g with
        | .E => j.e (posOf q.e1 q.f1 k) x | .H => j.h (posOf q.e1 q.f1 k) x)) = fun x => -1 * J g x := by
      intro g
      funext x
      rw [hJ]
      simp only
      rw [inner_tr1 h hr p hp, inner_tr2' h hr p hp, ← Finset.sum_sub_distrib, Finset.mul_sum]
      refine Finset.sum_congr rfl fun k _ => ?_
      cases g
      · simp only; rw [(h1 k x).1]; ring
      · simp only; rw [(h1 k x).2]; ring
    have j2 : ∀ g : FieldT, (fun x => ∑ k, p.sh2 (node q.f2 k) * (match g with
        | .E => j.e (posOf q.e2 q.f2 k) x | .H => j.h (posOf q.e2 q.f2 k) x)) = fun x => -(-1) * J g x := by
      intro g
      funext x
      rw [hJ]
      simp only
      rw [inner_tr1 h hr p hp, inner_tr2' h hr p hp, ← Finset.sum_sub_distrib, Finset.mul_sum, ← Equiv.sum_comp q.mate]
      refine Finset.sum_congr rfl fun k _ => ?_
      rw [h.match_ p hp]
      cases g
      · simp only; rw [(h2 k x).1]; ring
      · simp only; rw [(h2 k x).2]; ring
    constructor
    · rw [← pflux_sum f alpha _ _ (fun k => j.e (posOf q.e1 q.f1 k)) (fun k => j.h (posOf q.e1 q.f1 k)), n1, show W1 = p.W from hWa.symm]
      have a := j1 .E
      have b := j1 .H
      simp only at a b
      rw [a, b]
      exact pflux_side f alpha p.W hW0 (fun x => normalTerm p.nor x) J d 1 (by ring)
    · rw [← pflux_sum f alpha _ _ (fun k => j.e (posOf q.e2 q.f2 k)) (fun k => j.h (posOf q.e2 q.f2 k)), n2, show W2 = p.W from hWb.symm]
      have a := j2 .E
      have b := j2 .H
      simp only at a b
      rw [a, b]
      exact pflux_side f alpha p.W hW0 (fun x => normalTerm p.nor x) J d (-1) (by ring)
  rw [s1, s2]
  unfold faceTerm
  have split : ∀ (P Q : Prop) [Decidable P] [Decidable Q] (l : List (Pt K)) (F G H : Pt K → K),
      (∀ p ∈ l, F p = (if P then G p else 0) + (if Q then H p else 0)) →
      (l.map F).sum = (if P then (l.map G).sum else 0) + (if Q then (l.map H).sum else 0) := by
    intro P Q _ _ l F G H hl
    induction l with
    | nil => simp
    | cons p l ih =>
      simp only [List.map_cons, List.sum_cons]
      rw [ih fun p' hp' => hl p' (List.mem_cons_of_mem _ hp'), hl p (List.mem_cons_self ..)]
      split_ifs <;> ring
  apply split
  intro p hp
  obtain ⟨a, b⟩ := pt p hp
  rw [inner_single1 h, inner_single2 h]
  have ea : W1 * (p.sh1 i * ∑ k, p.sh1 (node q.f1 k) * pflux f alpha (unitNormal R el q.e1 q.f1) (j.e (posOf q.e1 q.f1 k)) (j.h (posOf q.e1 q.f1 k)) d) =
      p.sh1 i * (W1 * ∑ k, p.sh1 (node q.f1 k) * pflux f alpha (unitNormal R el q.e1 q.f1) (j.e (posOf q.e1 q.f1 k)) (j.h (posOf q.e1 q.f1 k)) d) := by
    ring
  have eb : W2 * (p.sh2 i * ∑ k, p.sh2 (node q.f2 k) * pflux f alpha (unitNormal R el q.e2 q.f2) (j.e (posOf q.e2 q.f2 k)) (j.h (posOf q.e2 q.f2 k)) d) =
      p.sh2 i * (W2 * ∑ k, p.sh2 (node q.f2 k) * pflux f alpha (unitNormal R el q.e2 q.f2) (j.e (posOf q.e2 q.f2 k)) (j.h (posOf q.e2 q.f2 k)) d) := by
    ring
  rw [ea, eb, a, b]
  split_ifs <;> ring

end inner

section outer
variable {q : Outer ne R.nF R.n K} (h : OuterOk R el node c q)
include h

lemma outer_tr1 (hr : RefOk R w Mhat node) (p : Pt K) (hp : p ∈ q.face.pts) (v : Fin ne × Fin R.n → K) :
    tr1 q.face p v = ∑ k, p.sh1 (node q.f k) * v (q.e, node q.f k) := by
  unfold tr1
  rw [h.size.1, Finset.sum_range]
  simp only [h.dofs]
  exact sum_face (node q.f) (hr.mono q.f) (fun i => p.sh1 i * v (q.e, i)) fun i hi => by rw [h.off p hp i hi, zero_mul]

lemma outer_tr2 (p : Pt K) (v : Fin ne × Fin R.n → K) : tr2 q.face p v = 0 := by
  unfold tr2
  rw [h.size.2]
  simp

lemma outer_single (p : Pt K) (e : Fin ne) (i : Fin R.n) :
    tr1 q.face p (Pi.single (e, i) 1) = if q.e = e then p.sh1 i else 0 := by
  unfold tr1
  rw [h.size.1, Finset.sum_range]
  simp only [h.dofs, Pi.single_apply, Prod.mk.injEq]
  by_cases he : q.e = e
  · simp [he]
  · simp [he]

/-- A face of the outer boundary: jumps `-cE E` and `-cH H`. -/
theorem outer_term (hr : RefOk R w Mhat node) (alpha : K) (u : State (Fin ne × Fin R.n) K) (j : Fields K) (co : FieldT → K)
    (h1 : ∀ k x, j.e (posOf q.e q.f k) x = -(co .E * u .E x (q.e, node q.f k)) ∧
      j.h (posOf q.e q.f k) x = -(co .H * u .H x (q.e, node q.f k)))
    (f : FieldT) (d : Fin 3) (e : Fin ne) (i : Fin R.n) :
    faceTerm u f d (co (altField f)) (co f * alpha) q.face (Pi.single (e, i) 1) =
      if q.e = e then sideTerm R el node alpha j f d q.e q.f i else 0 := by
  set W1 := (el q.e).sJ q.f with hW1
  have s1 : sideTerm R el node alpha j f d q.e q.f i = (q.face.pts.map fun p => p.w / 2 * (W1 * (p.sh1 i *
      ∑ k, p.sh1 (node q.f k) * pflux f alpha (unitNormal R el q.e q.f) (j.e (posOf q.e q.f k)) (j.h (posOf q.e q.f k)) d))).sum := by
    unfold sideTerm
    simp only [← h.quad]
    exact mass_sum _ _ (fun k => (node _ k).val) _ _ _
  have pt : ∀ p ∈ q.face.pts,
      W1 * ∑ k, p.sh1 (node q.f k) * pflux f alpha (unitNormal R el q.e q.f) (j.e (posOf q.e q.f k)) (j.h (posOf q.e q.f k)) d =
        sgn f * (normalTerm p.nor (d + 2) * (co (altField f) * tr1 q.face p (u (altField f) (d + 1))) -
          normalTerm p.nor (d + 1) * (co (altField f) * tr1 q.face p (u (altField f) (d + 2)))) -
        1 * alpha * (p.W * (co f * tr1 q.face p (u f d)) -
          normalTerm p.nor d * (normalTerm p.nor 0 * (co f * tr1 q.face p (u f 0)) +
          normalTerm p.nor 1 * (co f * tr1 q.face p (u f 1)) +
          normalTerm p.nor 2 * (co f * tr1 q.face p (u f 2))) / p.W) := by
    intro p hp
    obtain ⟨hlen, hW0, hWa, hnor⟩ := h.normal p hp
    set J : FieldT → V3 K := fun g x => co g * tr1 q.face p (u g x) with hJ
    have n1 : unitNormal R el q.e q.f = fun x => 1 * normalTerm p.nor x / p.W := by
      funext x
      unfold unitNormal
      by_cases hx : x.val < R.dim
      · rw [if_pos hx, hnor x hx, ← hWa, one_mul]
      · rw [if_neg hx, normalTerm_beyond _ _ (by omega)]; simp
    have j1 : ∀ g : FieldT, (fun x => ∑ k, p.sh1 (node q.f k) * (match g with
        | .E => j.e (posOf q.e q.f k) x | .H => j.h (posOf q.e q.f k) x)) = fun x => -1 * J g x := by
      intro g
      funext x
      rw [hJ]
      simp only
      rw [outer_tr1 h hr p hp, Finset.mul_sum, Finset.mul_sum]
      refine Finset.sum_congr rfl fun k _ => ?_
      cases g
      · simp only; rw [(h1 k x).1]; ring
      · simp only; rw [(h1 k x).2]; ring
    rw [← pflux_sum f alpha _ _ (fun k => j.e (posOf q.e q.f k)) (fun k => j.h (posOf q.e q.f k)), n1, show W1 = p.W from hWa.symm]
    have a := j1 .E
    have b := j1 .H
    simp only at a b
    rw [a, b]
    exact pflux_side f alpha p.W hW0 (fun x => normalTerm p.nor x) J d 1 (by ring)
  rw [s1]
  unfold faceTerm
  have split : ∀ (P : Prop) [Decidable P] (l : List (Pt K)) (F G : Pt K → K),
      (∀ p ∈ l, F p = if P then G p else 0) → (l.map F).sum = if P then (l.map G).sum else 0 := by
    intro P _ l F G hl
    induction l with
    | nil => simp
    | cons p l ih =>
      simp only [List.map_cons, List.sum_cons]
      rw [ih fun p' hp' => hl p' (List.mem_cons_of_mem _ hp'), hl p (List.mem_cons_self ..)]
      split_ifs <;> ring
  apply split
  intro p hp
  have a := pt p hp
  simp only [outer_single h, outer_tr2 h]
  have ea : W1 * (p.sh1 i * ∑ k, p.sh1 (node q.f k) * pflux f alpha (unitNormal R el q.e q.f) (j.e (posOf q.e q.f k)) (j.h (posOf q.e q.f k)) d) =
      p.sh1 i * (W1 * ∑ k, p.sh1 (node q.f k) * pflux f alpha (unitNormal R el q.e q.f) (j.e (posOf q.e q.f k)) (j.h (posOf q.e q.f k)) d) := by
    ring
  rw [ea, a]
  split_ifs <;> ring

end outer

end Dgtd.Nodal
