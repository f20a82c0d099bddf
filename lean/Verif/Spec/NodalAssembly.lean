import Verif.Model.NodalAssembly
import Verif.Spec.Nodal
import Verif.Spec.Op
import Verif.Spec.OpSource

/-
Specification: when a finite-element problem and the data read by the nodal operator describe the same mesh of linear elements.
-/
namespace Dgtd.Nodal.Spec

open Dgtd.Op (Prob Face Pt BdrCond State normalTerm)

variable {K : Type} [Field K] [LinearOrder K]

/-- Volume of MFEM's reference elements. -/
def unitVolume : Geom → K
  | .triangle => 1 / 2
  | .quadrilateral => 1
  | .tetrahedron => 1 / 6
  | .hexahedron => 1

/-- A face between two elements: element and local face of both sides, and the node of the second side at the place of each node
of the first one. -/
structure Inner (ne nF nf n : Nat) (K : Type) where
  e1   : Fin ne
  f1   : Fin nF
  e2   : Fin ne
  f2   : Fin nF
  mate : Equiv.Perm (Fin nf)
  cond : Option BdrCond
  face : Face (Fin ne × Fin n) K

/-- A face of the outer boundary. -/
structure Outer (ne nF n : Nat) (K : Type) where
  e    : Fin ne
  f    : Fin nF
  cond : Option BdrCond
  face : Face (Fin ne × Fin n) K

/-- Number of a node. -/
def num {ne n : Nat} (r : Fin ne × Fin n) : Nat := r.1.val * n + r.2.val

/-- Position of node `k` of face `f` of element `e`. -/
def posOf {ne nF nf : Nat} (e : Fin ne) (f : Fin nF) (k : Fin nf) : Nat := e.val * (nF * nf) + (f.val * nf + k.val)

/-- The fields of the nodal operator hold the state. -/
def Holds {ne n : Nat} (v : Fields K) (u : State (Fin ne × Fin n) K) : Prop :=
  ∀ r d, v.e (num r) d = u .E d r ∧ v.h (num r) d = u .H d r

/-- Face mass matrix `∫ φ_i φ_j` on the reference face by the quadrature of a list of points. -/
def faceMass (pts : List (Pt K)) (sh : Pt K → Nat → K) (i j : Nat) : K := (pts.map fun p => p.w * (sh p i * sh p j)).sum

/-- The reference element: `node f k` is node `k` of face `f`, in increasing order; the shape functions of the other nodes vanish on the
face; `Mhat` is the mass matrix on MFEM's reference element, and `inv` inverts the one on the reference mesh. -/
structure RefOk (R : Ref K) (w : K) (Mhat : Fin R.n → Fin R.n → K) (node : Fin R.nF → Fin R.nf → Fin R.n) : Prop where
  mesh    : refMesh R.dim R.geom = some ⟨R.geom, w⟩
  inv     : ∀ i j : Fin R.n, (∑ k : Fin R.n, R.inv i k * (w * Mhat k j)) = if i = j then 1 else 0
  mono    : ∀ f, StrictMono (node f)
  one     : ∀ f : Fin R.nF, (R.faces f).ndof1 = R.n ∧ (R.faces f).ndof2 = 0
  off     : ∀ f : Fin R.nF, ∀ p ∈ (R.faces f).pts, ∀ i : Fin R.n, (∀ k, node f k ≠ i) → p.sh1 i = 0
  seen    : ∀ (f : Fin R.nF) (k : Fin R.nf), ∃ i : Fin R.n, 1 / 1000000 ≤ |2 * faceMass (R.faces f).pts Pt.sh1 i (node f k)|

/-- Elements: affine images of the reference element with constant permittivity and permeability; `Minv` inverts their mass
matrices. -/
structure ElemsOk {ne : Nat} (R : Ref K) (Mhat : Fin R.n → Fin R.n → K) (el : Nat → Elem K) (eps mu : Fin ne → K)
    (P : Prob (Fin ne × Fin R.n) K) : Prop where
  dim     : P.dim = R.dim
  J       : ∀ e : Fin ne, (el e).J ≠ 0
  epsPos  : ∀ e, eps e ≠ 0
  muPos   : ∀ e, mu e ≠ 0
  vol     : ∀ e : Fin ne, (el e).vol = (el e).J * unitVolume R.geom
  deriv   : ∀ (d : Fin 3) (r c : Fin ne × Fin R.n), P.D d r c = if r.1 = c.1 then (el r.1).D d r.2 c.2 else 0
  local_  : ∀ f (r c : Fin ne × Fin R.n), r.1 ≠ c.1 → P.Minv f r c = 0
  invE    : ∀ e i j, (∑ k, P.Minv .E (e, i) (e, k) * (eps e * (el e).J * Mhat k j)) = if i = j then 1 else 0
  invH    : ∀ e i j, (∑ k, P.Minv .H (e, i) (e, k) * (mu e * (el e).J * Mhat k j)) = if i = j then 1 else 0

/-- A face between two elements: its degrees of freedom, geometry (flat, seen with opposite normals), shape functions (those of
the nodes of the face at the same place coincide, the others vanish), quadrature (as exact as that of the reference face), and
its entries of the connectivity. -/
structure InnerOk {ne : Nat} (R : Ref K) (el : Nat → Elem K) (node : Fin R.nF → Fin R.nf → Fin R.n) (c : Nat → Nat × Nat)
    (q : Inner ne R.nF R.nf R.n K) : Prop where
  size   : q.face.ndof1 = R.n ∧ q.face.ndof2 = R.n
  dofs1  : ∀ i : Fin R.n, q.face.dofs i = (q.e1, i)
  dofs2  : ∀ i : Fin R.n, q.face.dofs (R.n + i) = (q.e2, i)
  normal : ∀ p ∈ q.face.pts, p.nor.length = R.dim ∧ p.W ≠ 0 ∧ p.W = (el q.e1).sJ q.f1 ∧ p.W = (el q.e2).sJ q.f2 ∧
    ∀ d : Fin 3, d.val < R.dim → normalTerm p.nor d = (el q.e1).nor q.f1 d ∧ normalTerm p.nor d = -(el q.e2).nor q.f2 d
  off1   : ∀ p ∈ q.face.pts, ∀ i : Fin R.n, (∀ k, node q.f1 k ≠ i) → p.sh1 i = 0
  off2   : ∀ p ∈ q.face.pts, ∀ i : Fin R.n, (∀ k, node q.f2 k ≠ i) → p.sh2 i = 0
  match_ : ∀ p ∈ q.face.pts, ∀ k, p.sh2 (node q.f2 (q.mate k)) = p.sh1 (node q.f1 k)
  quad1  : ∀ i j : Fin R.n, faceMass q.face.pts Pt.sh1 i j = faceMass (R.faces q.f1).pts Pt.sh1 i j
  quad2  : ∀ i j : Fin R.n, faceMass q.face.pts Pt.sh2 i j = faceMass (R.faces q.f2).pts Pt.sh1 i j
  conn1  : ∀ k, c (posOf q.e1 q.f1 k) = (num (q.e1, node q.f1 k), num (q.e2, node q.f2 (q.mate k)))
  conn2  : ∀ k, c (posOf q.e2 q.f2 (q.mate k)) = (num (q.e2, node q.f2 (q.mate k)), num (q.e1, node q.f1 k))

/-- The same for a face of the outer boundary. -/
structure OuterOk {ne : Nat} (R : Ref K) (el : Nat → Elem K) (node : Fin R.nF → Fin R.nf → Fin R.n) (c : Nat → Nat × Nat)
    (q : Outer ne R.nF R.n K) : Prop where
  size   : q.face.ndof1 = R.n ∧ q.face.ndof2 = 0
  dofs   : ∀ i : Fin R.n, q.face.dofs i = (q.e, i)
  normal : ∀ p ∈ q.face.pts, p.nor.length = R.dim ∧ p.W ≠ 0 ∧ p.W = (el q.e).sJ q.f ∧
    ∀ d : Fin 3, d.val < R.dim → normalTerm p.nor d = (el q.e).nor q.f d
  off    : ∀ p ∈ q.face.pts, ∀ i : Fin R.n, (∀ k, node q.f k ≠ i) → p.sh1 i = 0
  quad   : ∀ i j : Fin R.n, faceMass q.face.pts Pt.sh1 i j = faceMass (R.faces q.f).pts Pt.sh1 i j
  conn   : ∀ k, c (posOf q.e q.f k) = (num (q.e, node q.f k), num (q.e, node q.f k))

/-- The list of positions and nodes of an outer condition holds a face. -/
def listedIn {ne : Nat} {R : Ref K} (node : Fin R.nF → Fin R.nf → Fin R.n) (q : Outer ne R.nF R.n K) (l : List (Nat × Nat)) : Prop :=
  ∀ k, (posOf q.e q.f k, num (q.e, node q.f k)) ∈ l

/-- The conditions the two operators agree on: none, electric and magnetic conductors, and absorbing if `alpha = 1`; the maps of
the nodal operator list exactly the faces with a condition, each position once. -/
structure CondsOk {ne : Nat} (R : Ref K) (node : Fin R.nF → Fin R.nf → Fin R.n) (alpha : K) (b : BdrMaps)
    (inner : List (Inner ne R.nF R.nf R.n K)) (outer : List (Outer ne R.nF R.n K)) : Prop where
  once   : (listed b).Nodup
  inside : ∀ q ∈ inner, q.cond = none ∧ ∀ k : Fin R.nf, posOf q.e1 q.f1 k ∉ listed b ∧ posOf q.e2 q.f2 k ∉ listed b
  outside : ∀ q ∈ outer, match q.cond with
    | none => ∀ k : Fin R.nf, posOf q.e q.f k ∉ listed b
    | some .PEC => listedIn node q b.pec
    | some .PMC => listedIn node q b.pmc
    | some .SMA => alpha = 1 ∧ listedIn node q b.sma
    | some .SGBC => False

/-- A problem and the data of the nodal operator describe the same mesh: all of the above, and every local face of every element
belongs to exactly one face. -/
structure Same {ne : Nat} (R : Ref K) (w : K) (Mhat : Fin R.n → Fin R.n → K) (node : Fin R.nF → Fin R.nf → Fin R.n)
    (el : Nat → Elem K) (eps mu : Fin ne → K) (P : Prob (Fin ne × Fin R.n) K) (c : Nat → Nat × Nat) (b : BdrMaps)
    (inner : List (Inner ne R.nF R.nf R.n K)) (outer : List (Outer ne R.nF R.n K)) : Prop where
  ref   : RefOk R w Mhat node
  elems : ElemsOk R Mhat el eps mu P
  faces : P.interior = inner.map (fun q => (q.cond, q.face)) ∧ P.bdr = outer.map fun q => (q.cond, q.face)
  innerOk : ∀ q ∈ inner, InnerOk R el node c q
  outerOk : ∀ q ∈ outer, OuterOk R el node c q
  cover : (inner.flatMap (fun q => [(q.e1, q.f1), (q.e2, q.f2)]) ++ outer.map fun q => (q.e, q.f)).Perm
    ((List.finRange ne).product (List.finRange R.nF))
  conds : CondsOk R node P.alpha b inner outer

/-- The total-field surface is the same for both operators: `surf q` tells whether the face `q` belongs to it, and whether its
first side is the inner one.  The nodal operator lists its faces node by node, each position once; the value of the waves at the node where it
evaluates them is the one the global operator sees at the nodes of both sides, since all are at the same point. -/
structure SurfaceOk {ne : Nat} {R : Ref K} (node : Fin R.nF → Fin R.nf → Fin R.n) (inner : List (Inner ne R.nF R.nf R.n K))
    (outer : List (Outer ne R.nF R.n K)) (surf : Inner ne R.nF R.nf R.n K → Option Bool) (C : Op.Case (Fin ne × Fin R.n) K)
    (tf : List TfNode) (sources : List (Option (Fields K))) (waves : List (State (Fin ne × Fin R.n) K)) : Prop where
  marked : C.interior = inner.map fun q => ⟨q.cond, (surf q).isSome, q.face⟩
  once   : (positions tf).Nodup
  off    : ∀ q ∈ inner, surf q = none → ∀ k : Fin R.nf, posOf q.e1 q.f1 k ∉ positions tf ∧ posOf q.e2 q.f2 k ∉ positions tf
  outerOff : ∀ q ∈ outer, ∀ k : Fin R.nf, posOf q.e q.f k ∉ positions tf
  on     : ∀ q ∈ inner, ∀ s, surf q = some s → ∀ k : Fin R.nf, ∃ t ∈ tf,
    (if s = true then t.tf = posOf q.e1 q.f1 k ∧ t.sf = posOf q.e2 q.f2 (q.mate k)
      else t.sf = posOf q.e1 q.f1 k ∧ t.tf = posOf q.e2 q.f2 (q.mate k)) ∧
    ∀ x, (incident sources).e t.node x = Op.Spec.total waves .E x (q.e1, node q.f1 k) ∧
      (incident sources).e t.node x = Op.Spec.total waves .E x (q.e2, node q.f2 (q.mate k)) ∧
      (incident sources).h t.node x = Op.Spec.total waves .H x (q.e1, node q.f1 k) ∧
      (incident sources).h t.node x = Op.Spec.total waves .H x (q.e2, node q.f2 (q.mate k))
  sides  : ∃ l, C.sfSub = some l ∧ ∀ q ∈ inner, ∀ s, surf q = some s → ∀ k : Fin R.nf,
    (q.e1, node q.f1 k) ∈ C.sub ∧ (q.e2, node q.f2 k) ∈ C.sub ∧ ((q.e1, node q.f1 k) ∈ l ↔ s = false) ∧
    ((q.e2, node q.f2 k) ∈ l ↔ s = true)

/-- How many times too fast the fields change: volume of the reference element assumed by the code over that of the mesh from which
its mass matrix comes. -/
def speed (R : Ref K) (w : K) : K := referenceVolume R.geom / (unitVolume R.geom * w)

end Dgtd.Nodal.Spec
