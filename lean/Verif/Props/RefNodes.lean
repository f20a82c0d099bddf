/-
C166: the nodes of simplices and boxes of every dimension and order.
-/
import Verif.Spec.RefNodes
import Verif.Spec.NodalConn
import Mathlib.Data.Finset.Sort
import Mathlib.Data.Fintype.Card

namespace Dgtd.Nodal

open Spec

/-- Different faces have different nodes and consecutive faces meet. -/
lemma nodesOk_of {nF nf n : Nat} {node : Fin nF → Fin nf → Fin n} {on : Fin nF → Fin n → Prop} (h : Lists node on)
    (hpos : 0 < nf) (hne : ∀ f f', f ≠ f' → ∃ i, on f i ∧ ¬ on f' i)
    (hmeet : ∀ f f' : Fin nF, f'.val = f.val + 1 → ∃ i, on f i ∧ on f' i) : NodesOk node where
  pos := hpos
  mono := h.mono
  distinct := by
    intro f f' e
    by_contra hf
    obtain ⟨i, h1, h2⟩ := hne f f' hf
    exact h2 ((h.mem f' i).1 (by rw [← e]; exact (h.mem f i).2 h1))
  meet := by
    intro f f' hf
    obtain ⟨i, h1, h2⟩ := hmeet f f' hf
    obtain ⟨k, hk⟩ := (h.mem f i).2 h1
    obtain ⟨k', hk'⟩ := (h.mem f' i).2 h2
    exact ⟨k, k', hk'.trans hk.symm⟩

lemma Spec.Lists.pos {nF nf n : Nat} {node : Fin nF → Fin nf → Fin n} {on : Fin nF → Fin n → Prop} (h : Lists node on) (f : Fin nF)
    {i : Fin n} (hi : on f i) : 0 < nf := by
  obtain ⟨k, -⟩ := (h.mem f i).2 hi
  exact Nat.lt_of_le_of_lt (Nat.zero_le _) k.2

/-- Faces with the same number of nodes can be listed. -/
lemma exists_lists {nF n : Nat} (on : Fin nF → Fin n → Prop) [∀ f, DecidablePred (on f)] {nf : Nat}
    (h : ∀ f, (Finset.univ.filter (on f)).card = nf) : ∃ node : Fin nF → Fin nf → Fin n, Lists node on := by
  refine ⟨fun f => (Finset.univ.filter (on f)).orderEmbOfFin (h f), fun f => ((Finset.univ.filter (on f)).orderEmbOfFin (h f)).strictMono, fun f i => ?_⟩
  have k := Set.ext_iff.1 (Finset.range_orderEmbOfFin (Finset.univ.filter (on f)) (h f)) i
  rw [Set.mem_range, Finset.mem_coe, Finset.mem_filter] at k
  exact k.trans (and_iff_right (Finset.mem_univ i))

/-! ### simplices -/

/-- The vertex opposite to face `a`. -/
def cornerNode (D p : Nat) (a : Fin (D + 1)) : SimplexNode D p := ⟨fun b => if b = a then Fin.last p else 0, by
  rw [Finset.sum_eq_single a]
  · simp
  · intro b _ hb
    simp [hb]
  · simp⟩

lemma cornerNode_zero (D : Nat) {p : Nat} (hp : 1 ≤ p) (a b : Fin (D + 1)) : (cornerNode D p a).1 b = 0 ↔ b ≠ a := by
  unfold cornerNode
  by_cases h : b = a
  · simp only [h, if_true, ne_eq, not_true, iff_false]
    intro e
    have := congrArg Fin.val e
    simp at this
    omega
  · simp [h]

/-- **C166**: simplices of every dimension from two on (triangles, tetrahedra) and every order from one on, with the nodes numbered in any
way, meet the hypothesis on the nodes. -/
theorem C166_simplices (D p : Nat) (hD : 2 ≤ D) (hp : 1 ≤ p) {n nf : Nat} (num : SimplexNode D p ≃ Fin n) (node : Fin (D + 1) → Fin nf → Fin n)
    (h : Lists node fun f i => (num.symm i).1 f = 0) : NodesOk node := by
  have on : ∀ a f, (num.symm (num (cornerNode D p a))).1 f = 0 ↔ f ≠ a := fun a f => by rw [Equiv.symm_apply_apply, cornerNode_zero D hp]
  refine nodesOk_of h (h.pos 0 ((on 1 0).2 ?_)) ?_ ?_
  · intro e
    have := congrArg Fin.val e
    rw [Fin.val_one', Nat.mod_eq_of_lt (by omega)] at this
    simp at this
  · intro f f' hf
    exact ⟨num (cornerNode D p f'), (on f' f).2 hf, fun e => (on f' f').1 e rfl⟩
  · intro f f' hf
    obtain ⟨g, hg⟩ : ∃ g : Fin (D + 1), f ≠ g ∧ f' ≠ g := by
      by_cases h0 : f.val = 0
      · exact ⟨⟨2, by omega⟩, fun e => by have := congrArg Fin.val e; simp at this; omega, fun e => by have := congrArg Fin.val e; simp at this; omega⟩
      · exact ⟨⟨0, by omega⟩, fun e => h0 (congrArg Fin.val e), fun e => by have : f'.val = 0 := congrArg Fin.val e; omega⟩
    exact ⟨num (cornerNode D p g), (on g f).2 hg.1, (on g f').2 hg.2⟩

/-- The nodes of a simplex with two coordinates exchanged. -/
def exchanged {D p : Nat} (a b : Fin (D + 1)) : SimplexNode D p ≃ SimplexNode D p where
  toFun x := ⟨fun c => x.1 (Equiv.swap a b c), (Equiv.sum_comp (Equiv.swap a b) fun c => (x.1 c).val).trans x.2⟩
  invFun x := ⟨fun c => x.1 (Equiv.swap a b c), (Equiv.sum_comp (Equiv.swap a b) fun c => (x.1 c).val).trans x.2⟩
  left_inv x := by ext c; simp
  right_inv x := by ext c; simp

/-- All faces of a simplex have the same number of nodes: there is such a list. -/
theorem C166_simplices_listed (D p : Nat) {n : Nat} (num : SimplexNode D p ≃ Fin n) :
    ∃ (nf : Nat) (node : Fin (D + 1) → Fin nf → Fin n), Lists node fun f i => (num.symm i).1 f = 0 := by
  refine ⟨_, exists_lists _ (nf := (Finset.univ.filter fun i => (num.symm i).1 0 = 0).card) fun f => ?_⟩
  refine Finset.card_equiv ((num.symm.trans (exchanged f 0)).trans num) fun i => ?_
  simp [exchanged]

/-! ### boxes -/

/-- **C166**: boxes of every dimension (quadrilaterals, hexahedra) and every order from one on, with the nodes numbered in any way and the
faces in any order in which no face is followed by the opposite one, meet the hypothesis on the nodes. -/
theorem C166_boxes (D p : Nat) (hp : 1 ≤ p) {n nf nF : Nat} (num : BoxNode D p ≃ Fin n) (face : Fin nF → BoxFace D) (hf : Function.Injective face)
    (hF : 0 < nF) (hn : ∀ f f' : Fin nF, f'.val = f.val + 1 → (face f).1 ≠ (face f').1) (node : Fin nF → Fin nf → Fin n)
    (h : Lists node fun f i => num.symm i (face f).1 = side p (face f).2) : NodesOk node := by
  have sides : ∀ s s' : Bool, s ≠ s' → side p s ≠ side p s' := by
    have h0 : (0 : Fin (p + 1)) ≠ Fin.last p := fun e => by
      have := congrArg Fin.val e
      simp at this
      omega
    intro s s' hs
    cases s <;> cases s' <;> simp_all [side]
  refine nodesOk_of h (h.pos ⟨0, hF⟩ (i := num fun _ => side p (face ⟨0, hF⟩).2) (by simp)) ?_ ?_
  · intro f f' hff
    by_cases hd : (face f).1 = (face f').1
    · refine ⟨num fun _ => side p (face f).2, by simp, ?_⟩
      simp only [Equiv.symm_apply_apply]
      exact sides _ _ fun e => hff (hf (Prod.ext hd e))
    · refine ⟨num fun d => if d = (face f).1 then side p (face f).2 else side p (!(face f').2), by simp, ?_⟩
      simp only [Equiv.symm_apply_apply, if_neg (Ne.symm hd)]
      exact sides _ _ (by simp)
  · intro f f' hff
    refine ⟨num fun d => if d = (face f).1 then side p (face f).2 else side p (face f').2, by simp, ?_⟩
    simp [(hn f f' hff).symm]

lemma box_card (D p : Nat) (d : Fin D) (a : Fin (p + 1)) : (Finset.univ.filter fun x : BoxNode D p => x d = a).card = (p + 1) ^ (D - 1) := by
  have e : (Finset.univ.filter fun x : BoxNode D p => x d = a) = Fintype.piFinset fun b => if b = d then {a} else Finset.univ := by
    ext x
    simp only [Finset.mem_filter, Finset.mem_univ, true_and, Fintype.mem_piFinset]
    refine ⟨fun h b => ?_, fun h => ?_⟩
    · by_cases hb : b = d
      · subst hb; simp [h]
      · simp [hb]
    · simpa using h d
  rw [e, Fintype.card_piFinset]
  have : ∀ b, (if b = d then ({a} : Finset (Fin (p + 1))) else Finset.univ).card = if b = d then 1 else p + 1 := by
    intro b
    split <;> simp
  rw [Finset.prod_congr rfl fun b _ => this b, Finset.prod_ite, Finset.prod_const_one, one_mul, Finset.prod_const]
  congr 1
  rw [Finset.filter_not, Finset.card_sdiff, Finset.inter_univ, Finset.filter_eq' Finset.univ d]
  simp

/-- All faces of a box have `(p + 1) ^ (D - 1)` nodes: there is such a list. -/
theorem C166_boxes_listed (D p : Nat) {n nF : Nat} (num : BoxNode D p ≃ Fin n) (face : Fin nF → BoxFace D) :
    ∃ node : Fin nF → Fin ((p + 1) ^ (D - 1)) → Fin n, Lists node fun f i => num.symm i (face f).1 = side p (face f).2 := by
  refine exists_lists _ fun f => ?_
  rw [← box_card D p (face f).1 (side p (face f).2)]
  exact Finset.card_equiv num.symm fun i => by simp

/-- Hexahedra: the order of the faces in MFEM. -/
def hexFaces : Fin 6 → BoxFace 3 := ![(2, false), (1, false), (0, true), (1, true), (0, false), (2, true)]

/-- Tetrahedra and hexahedra of order three, with nodes numbered in any way. -/
example (num : SimplexNode 3 3 ≃ Fin 20) (num' : BoxNode 3 3 ≃ Fin 64) :
    (∃ (nf : Nat) (node : Fin 4 → Fin nf → Fin 20), Lists node (fun f i => (num.symm i).1 f = 0) ∧ NodesOk node) ∧
    ∃ node : Fin 6 → Fin 16 → Fin 64, Lists node (fun f i => num'.symm i (hexFaces f).1 = side 3 (hexFaces f).2) ∧ NodesOk node := by
  obtain ⟨nf, node, h⟩ := C166_simplices_listed 3 3 num
  obtain ⟨node', h'⟩ := C166_boxes_listed 3 3 num' hexFaces
  exact ⟨⟨nf, node, h, C166_simplices 3 3 (by omega) (by omega) num node h⟩, node', h',
    C166_boxes 3 3 (by omega) num' hexFaces (by decide) (by omega) (by decide) node' h'⟩

end Dgtd.Nodal
