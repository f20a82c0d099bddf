import Verif.Spec.NodalAssembly

/-
Specification: a mesh with straight and curved elements, described to the global operator and to the nodal one.
-/
namespace Dgtd.Nodal.Spec

open Dgtd.Op (Prob Face Pt BdrCond State normalTerm)

variable {K : Type} [Field K] [LinearOrder K]

/-- A problem and the data of the nodal operator describe the same mesh, of which the elements `lin` are straight.  Of the others only
the numbering and the block structure of the inverse mass matrix is asked: they may have any shape and any material.  The conditions of
`InnerOk` and `OuterOk` are asked of the faces of straight elements; of such a face `el` gives the size and the normal from both sides, also
if the element behind it is curved (the operator reads `el` at straight elements only). -/
structure Mixed {ne : Nat} (lin : Fin ne → Prop) (R : Ref K) (w : K) (Mhat : Fin R.n → Fin R.n → K) (node : Fin R.nF → Fin R.nf → Fin R.n)
    (el : Nat → Elem K) (eps mu : Fin ne → K) (P : Prob (Fin ne × Fin R.n) K) (c : Nat → Nat × Nat) (b : BdrMaps)
    (inner : List (Inner ne R.nF R.nf R.n K)) (outer : List (Outer ne R.nF R.n K)) : Prop where
  ref     : RefOk R w Mhat node
  dim     : P.dim = R.dim
  local_  : ∀ f (r c : Fin ne × Fin R.n), r.1 ≠ c.1 → P.Minv f r c = 0
  J       : ∀ e : Fin ne, lin e → (el e).J ≠ 0
  epsPos  : ∀ e, lin e → eps e ≠ 0
  muPos   : ∀ e, lin e → mu e ≠ 0
  vol     : ∀ e : Fin ne, lin e → (el e).vol = (el e).J * unitVolume R.geom
  deriv   : ∀ (d : Fin 3) (r c : Fin ne × Fin R.n), lin r.1 → P.D d r c = if r.1 = c.1 then (el r.1).D d r.2 c.2 else 0
  invE    : ∀ e, lin e → ∀ i j, (∑ k, P.Minv .E (e, i) (e, k) * (eps e * (el e).J * Mhat k j)) = if i = j then 1 else 0
  invH    : ∀ e, lin e → ∀ i j, (∑ k, P.Minv .H (e, i) (e, k) * (mu e * (el e).J * Mhat k j)) = if i = j then 1 else 0
  faces   : P.interior = inner.map (fun q => (q.cond, q.face)) ∧ P.bdr = outer.map fun q => (q.cond, q.face)
  cover   : (inner.flatMap (fun q => [(q.e1, q.f1), (q.e2, q.f2)]) ++ outer.map fun q => (q.e, q.f)).Perm
    ((List.finRange ne).product (List.finRange R.nF))
  inside  : ∀ q ∈ inner, q.face.ndof1 = R.n ∧ q.face.ndof2 = R.n ∧ (∀ i : Fin R.n, q.face.dofs i = (q.e1, i)) ∧
    (∀ i : Fin R.n, q.face.dofs (R.n + i) = (q.e2, i)) ∧ ∀ p ∈ q.face.pts, p.nor.length = R.dim
  outside : ∀ q ∈ outer, q.face.ndof1 = R.n ∧ q.face.ndof2 = 0 ∧ (∀ i : Fin R.n, q.face.dofs i = (q.e, i)) ∧
    ∀ p ∈ q.face.pts, p.nor.length = R.dim
  innerOk : ∀ q ∈ inner, lin q.e1 ∨ lin q.e2 → InnerOk R el node c q
  outerOk : ∀ q ∈ outer, lin q.e → OuterOk R el node c q
  once    : (listed b).Nodup
  free    : ∀ q ∈ inner, q.cond = none ∧
    (lin q.e1 ∨ lin q.e2 → ∀ k : Fin R.nf, posOf q.e1 q.f1 k ∉ listed b ∧ posOf q.e2 q.f2 k ∉ listed b)
  conds   : ∀ q ∈ outer, lin q.e → match q.cond with
    | none => ∀ k : Fin R.nf, posOf q.e q.f k ∉ listed b
    | some .PEC => listedIn node q b.pec
    | some .PMC => listedIn node q b.pmc
    | some .SMA => P.alpha = 1 ∧ listedIn node q b.sma
    | some .SGBC => False

/-- A node of an element is displaced by the curvature by more than `1e-5` in some direction. -/
def Displaced (n : Nat) (straight actual : Nat → V3 K) (e : Nat) : Prop :=
  ∃ k, k < n ∧ ∃ d : Fin 3, 1 / 100000 < |straight (e * n + k) d - actual (e * n + k) d|

end Dgtd.Nodal.Spec
