import Verif.Model.NodalConn
import Verif.Spec.NodalAssembly

/-
Specification of the tables of the nodal operator: which faces a mesh has, and what the tables must hold for each of them.
-/
namespace Dgtd.Nodal.Spec

open Dgtd.Op (Pt BdrCond)

variable {K : Type} [Field K] [LinearOrder K]

/-- The nodes of the faces of the reference element: in increasing order, different sets for different faces, and a face has a
node in common with the next one.  (So it is for the nodal elements of MFEM of order at least one.) -/
structure NodesOk {nF nf n : Nat} (node : Fin nF → Fin nf → Fin n) : Prop where
  pos      : 0 < nf
  mono     : ∀ f, StrictMono (node f)
  distinct : Function.Injective node
  meet     : ∀ f f' : Fin nF, f'.val = f.val + 1 → ∃ k k', node f' k' = node f k

/-- On every face of the reference element the coupling of a node with itself is not small and differs from its coupling with
the other nodes. -/
structure Separated (R : Ref K) (node : Fin R.nF → Fin R.nf → Fin R.n) : Prop where
  big : ∀ (f : Fin R.nF) (k : Fin R.nf), 1 / 1000000 < |2 * faceMass (R.faces f).pts Pt.sh1 (node f k) (node f k)|
  sep : ∀ (f : Fin R.nF) (k k' : Fin R.nf), k ≠ k' →
    1 / 1000000 ≤ |2 * faceMass (R.faces f).pts Pt.sh1 (node f k) (node f k') - 2 * faceMass (R.faces f).pts Pt.sh1 (node f k) (node f k)|

/-- Shape functions on a face between two elements: those of nodes at the same place coincide, those of nodes off the face vanish, and
the quadrature is as exact as that of the reference face. -/
structure InnerTraces {ne : Nat} (R : Ref K) (node : Fin R.nF → Fin R.nf → Fin R.n) (q : Inner ne R.nF R.nf R.n K) : Prop where
  size   : q.face.ndof1 = R.n ∧ q.face.ndof2 = R.n
  off1   : ∀ p ∈ q.face.pts, ∀ i : Fin R.n, (∀ k, node q.f1 k ≠ i) → p.sh1 i = 0
  off2   : ∀ p ∈ q.face.pts, ∀ i : Fin R.n, (∀ k, node q.f2 k ≠ i) → p.sh2 i = 0
  match_ : ∀ p ∈ q.face.pts, ∀ k, p.sh2 (node q.f2 (q.mate k)) = p.sh1 (node q.f1 k)
  quad1  : ∀ i j : Fin R.n, faceMass q.face.pts Pt.sh1 i j = faceMass (R.faces q.f1).pts Pt.sh1 i j

/-- The same on a face of the outer boundary. -/
structure OuterTraces {ne : Nat} (R : Ref K) (node : Fin R.nF → Fin R.nf → Fin R.n) (q : Outer ne R.nF R.n K) : Prop where
  size   : q.face.ndof1 = R.n ∧ q.face.ndof2 = 0
  off    : ∀ p ∈ q.face.pts, ∀ i : Fin R.n, (∀ k, node q.f k ≠ i) → p.sh1 i = 0
  quad   : ∀ i j : Fin R.n, faceMass q.face.pts Pt.sh1 i j = faceMass (R.faces q.f).pts Pt.sh1 i j

/-- The faces read by the code are those of the mesh: `fid e f` is the number of local face `f` of element `e`; every local face
belongs to exactly one face, and two elements share at most one. -/
structure MeshOk {ne nF nf n : Nat} (T : Faces (Fin ne × Fin n) K) (fid : Fin ne → Fin nF → Nat)
    (inner : List (Inner ne nF nf n K)) (outer : List (Outer ne nF n K)) : Prop where
  ne_    : T.ne = ne
  n_     : T.n = n
  table  : ∀ e : Fin ne, T.table e = (List.finRange nF).map (fid e)
  inner_ : ∀ q ∈ inner, q.e1 < q.e2 ∧ fid q.e1 q.f1 = fid q.e2 q.f2 ∧ T.first (fid q.e1 q.f1) = q.e1 ∧
    T.second (fid q.e1 q.f1) = some q.e2.val ∧ T.face (fid q.e1 q.f1) = q.face
  outer_ : ∀ q ∈ outer, T.first (fid q.e q.f) = q.e ∧ T.second (fid q.e q.f) = none ∧ T.face (fid q.e q.f) = q.face
  cover  : (inner.flatMap (fun q => [(q.e1, q.f1), (q.e2, q.f2)]) ++ outer.map fun q => (q.e, q.f)).Perm
    ((List.finRange ne).product (List.finRange nF))
  alone  : ∀ q ∈ inner, ∀ q' ∈ inner, q.e1 = q'.e1 → q.e2 = q'.e2 → q = q'

/-- The connectivity of a mesh: one place for every node of every face of every element, which holds the node and the one it
faces, or twice the node on the outer boundary. -/
structure ConnOk {ne nF nf n : Nat} (node : Fin nF → Fin nf → Fin n) (inner : List (Inner ne nF nf n K))
    (outer : List (Outer ne nF n K)) (c : List (Nat × Nat)) : Prop where
  size  : c.length = ne * (nF * nf)
  conn1 : ∀ q ∈ inner, ∀ k, c[posOf q.e1 q.f1 k]? = some (num (q.e1, node q.f1 k), num (q.e2, node q.f2 (q.mate k)))
  conn2 : ∀ q ∈ inner, ∀ k, c[posOf q.e2 q.f2 (q.mate k)]? =
    some (num (q.e2, node q.f2 (q.mate k)), num (q.e1, node q.f1 k))
  conn  : ∀ q ∈ outer, ∀ k : Fin nf, c[posOf q.e q.f k]? = some (num (q.e, node q.f k), num (q.e, node q.f k))

/-- The condition of a marker. -/
def condOf : Mark → Option BdrCond
  | .PEC => some .PEC
  | .PMC => some .PMC
  | .SMA => some .SMA
  | _ => none

/-- Places and nodes of a face of the outer boundary. -/
def outerPlaces {ne nF nf n : Nat} (node : Fin nF → Fin nf → Fin n) (q : Outer ne nF n K) : List (Nat × Nat) :=
  (List.finRange nf).map fun k => (posOf q.e q.f k, num (q.e, node q.f k))

/-- Places and nodes of both sides of a face between two elements. -/
def innerPlaces {ne nF nf n : Nat} (node : Fin nF → Fin nf → Fin n) (q : Inner ne nF nf n K) : List IntPair :=
  (List.finRange nf).map fun k =>
    ⟨posOf q.e1 q.f1 k, posOf q.e2 q.f2 (q.mate k), num (q.e1, node q.f1 k), num (q.e2, node q.f2 (q.mate k))⟩

/-- The same for a face of the total-field surface: the scattered side is the first one if `first` holds, and the wave is
evaluated at the node of the scattered side. -/
def totalPlaces {ne nF nf n : Nat} (node : Fin nF → Fin nf → Fin n) (q : Inner ne nF nf n K) (first : Bool) : List TfNode :=
  (List.finRange nf).map fun k =>
    if first = true then ⟨posOf q.e1 q.f1 k, posOf q.e2 q.f2 (q.mate k), num (q.e1, node q.f1 k)⟩
    else ⟨posOf q.e2 q.f2 (q.mate k), posOf q.e1 q.f1 k, num (q.e2, node q.f2 (q.mate k))⟩

/-- The boundary elements: `so b` is the face of one on the outer boundary, `si b` that of one inside.  Interior conditions are
only given to faces inside, and are those the code knows; at least one boundary element lies on the outer boundary. -/
structure BdrsOk {ne nF nf n : Nat} (T : Faces (Fin ne × Fin n) K) (fid : Fin ne → Fin nF → Nat)
    (inner : List (Inner ne nF nf n K)) (outer : List (Outer ne nF n K)) (bs : List (Bdr K)) (so : Bdr K → Outer ne nF n K)
    (si : Bdr K → Inner ne nF nf n K) : Prop where
  outer_ : ∀ b ∈ bs, T.second b.face = none → so b ∈ outer ∧ b.face = fid (so b).e (so b).f ∧ b.inner = [] ∧ b.total = []
  inner_ : ∀ b ∈ bs, T.second b.face ≠ none → si b ∈ inner ∧ b.face = fid (si b).e1 (si b).f1 ∧
    (∀ k ∈ b.inner, k = .PEC ∨ k = .PMC ∨ k = .SMA) ∧ ∀ k ∈ b.total, k = .totalFieldIn
  some_  : ∃ b ∈ bs, T.second b.face = none

/-- The places of the faces whose markers contain a condition, in the order of the boundary elements. -/
def listing {α : Type} (k : Mark) (marks : Bdr K → List Mark) (places : Bdr K → List α) (bs : List (Bdr K)) : List α :=
  bs.flatMap fun b => ((marks b).filter fun k' => decide (k' = k)).flatMap fun _ => places b

/-- The tables of the conditions hold exactly the places of the faces with that condition. -/
structure TablesOk {ne nF nf n : Nat} (T : Faces (Fin ne × Fin n) K) (node : Fin nF → Fin nf → Fin n) (bs : List (Bdr K))
    (so : Bdr K → Outer ne nF n K) (si : Bdr K → Inner ne nF nf n K) (b : BdrMaps) (tf : List TfNode) : Prop where
  pec  : b.pec = listing .PEC Bdr.outer (fun b => outerPlaces node (so b)) (bs.filter fun b => decide (T.second b.face = none))
  pmc  : b.pmc = listing .PMC Bdr.outer (fun b => outerPlaces node (so b)) (bs.filter fun b => decide (T.second b.face = none))
  sma  : b.sma = listing .SMA Bdr.outer (fun b => outerPlaces node (so b)) (bs.filter fun b => decide (T.second b.face = none))
  ipec : b.ipec = listing .PEC Bdr.inner (fun b => innerPlaces node (si b)) bs
  ipmc : b.ipmc = listing .PMC Bdr.inner (fun b => innerPlaces node (si b)) bs
  isma : b.isma = listing .SMA Bdr.inner (fun b => innerPlaces node (si b)) bs
  tf_  : tf = listing .totalFieldIn Bdr.total (fun b => totalPlaces node (si b) (decide (0 ≤ b.ori))) bs

/-- What `InnerOk` says of the geometry of a face, without the tables. -/
structure InnerGeom {ne : Nat} (R : Ref K) (el : Nat → Elem K) (node : Fin R.nF → Fin R.nf → Fin R.n)
    (q : Inner ne R.nF R.nf R.n K) : Prop extends InnerTraces R node q where
  dofs1  : ∀ i : Fin R.n, q.face.dofs i = (q.e1, i)
  dofs2  : ∀ i : Fin R.n, q.face.dofs (R.n + i) = (q.e2, i)
  normal : ∀ p ∈ q.face.pts, p.nor.length = R.dim ∧ p.W ≠ 0 ∧ p.W = (el q.e1).sJ q.f1 ∧ p.W = (el q.e2).sJ q.f2 ∧
    ∀ d : Fin 3, d.val < R.dim → Op.normalTerm p.nor d = (el q.e1).nor q.f1 d ∧ Op.normalTerm p.nor d = -(el q.e2).nor q.f2 d
  quad2  : ∀ i j : Fin R.n, faceMass q.face.pts Pt.sh2 i j = faceMass (R.faces q.f2).pts Pt.sh1 i j

/-- The same for `OuterOk`. -/
structure OuterGeom {ne : Nat} (R : Ref K) (el : Nat → Elem K) (node : Fin R.nF → Fin R.nf → Fin R.n)
    (q : Outer ne R.nF R.n K) : Prop extends OuterTraces R node q where
  dofs   : ∀ i : Fin R.n, q.face.dofs i = (q.e, i)
  normal : ∀ p ∈ q.face.pts, p.nor.length = R.dim ∧ p.W ≠ 0 ∧ p.W = (el q.e).sJ q.f ∧
    ∀ d : Fin 3, d.val < R.dim → Op.normalTerm p.nor d = (el q.e).nor q.f d

/-- The boundary elements declare the conditions of the problem: each outer face with a condition once, with that condition,
and none inside; absorbing faces need `alpha = 1`. -/
structure Declared {ne nF nf n : Nat} (T : Faces (Fin ne × Fin n) K) (inner : List (Inner ne nF nf n K))
    (outer : List (Outer ne nF n K)) (bs : List (Bdr K)) (so : Bdr K → Outer ne nF n K) (alpha : K) : Prop where
  conds  : ((bs.filter fun b => decide (T.second b.face = none)).flatMap fun b => (b.outer.filterMap condOf).map fun k => (so b, k)).Perm
    (outer.filterMap fun q => q.cond.map fun k => (q, k))
  inside : (∀ b ∈ bs, b.inner = []) ∧ ∀ q ∈ inner, q.cond = none
  alpha_ : ∀ q ∈ outer, q.cond = some .SMA → alpha = 1

/-- The boundary elements declare the total-field surface `surf`: each of its faces once, with the sign of the side it has
inside; the sources are evaluated at the nodes, and nodes at the same place have the same values. -/
structure SurfDeclared {ne : Nat} {R : Ref K} (node : Fin R.nF → Fin R.nf → Fin R.n) (inner : List (Inner ne R.nF R.nf R.n K))
    (surf : Inner ne R.nF R.nf R.n K → Option Bool) (C : Op.Case (Fin ne × Fin R.n) K) (bs : List (Bdr K))
    (si : Bdr K → Inner ne R.nF R.nf R.n K) (sources : List (Option (Fields K))) (waves : List (Op.State (Fin ne × Fin R.n) K)) : Prop where
  marked : C.interior = inner.map fun q => ⟨q.cond, (surf q).isSome, q.face⟩
  faces  : (bs.flatMap fun b => b.total.map fun _ => (si b, decide (0 ≤ b.ori))).Perm
    (inner.filterMap fun q => (surf q).map fun s => (q, !s))
  values : ∀ q ∈ inner, (surf q).isSome = true → ∀ (k : Fin R.nf) (x : Fin 3), ∀ r ∈ [(q.e1, node q.f1 k), (q.e2, node q.f2 (q.mate k))],
    (incident sources).e (num r) x = Op.Spec.total waves .E x r ∧ (incident sources).h (num r) x = Op.Spec.total waves .H x r
  place  : ∀ q ∈ inner, (surf q).isSome = true → ∀ (k : Fin R.nf) (f : Op.FieldT) (x : Fin 3),
    Op.Spec.total waves f x (q.e1, node q.f1 k) = Op.Spec.total waves f x (q.e2, node q.f2 (q.mate k))
  sides  : ∃ l, C.sfSub = some l ∧ ∀ q ∈ inner, ∀ s, surf q = some s → ∀ k : Fin R.nf,
    (q.e1, node q.f1 k) ∈ C.sub ∧ (q.e2, node q.f2 k) ∈ C.sub ∧ ((q.e1, node q.f1 k) ∈ l ↔ s = false) ∧
    ((q.e2, node q.f2 k) ∈ l ↔ s = true)

end Dgtd.Nodal.Spec
