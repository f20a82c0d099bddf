/-
Specification side of the construction of thin-layer data.
-/
import Verif.Model.SgbcInit
import Verif.Spec.SubMesh

namespace Dgtd.SgbcInit.Spec

open SgbcInit

variable {R : Type}

/-- The value of a map of vectors: empty if the key is absent. -/
def at' {α : Type} (m : List (Int × List α)) (k : Int) : List α := (Assoc.find m k).getD []

/-- The pairs of nodes of all the faces with a tag, in the order of the mesh. -/
def pairsOf (C : Ctx R) (bs : List (BE R)) (tag : Int) : List (Raw R) :=
  (bs.filter fun b => decide (b.attr = tag)).flatMap fun b => (facePairs C b).getD []

/-- The nodes that a face joins, from what is known of the face: in the plane and in space those which face each other, in
the order of the orientation, if the tag is of interior layers; on a line the two nodes at the end of the first element, and
for exterior layers the node at the end of the mesh, with -1 for no partner. -/
def facing (C : Ctx R) (b : BE R) : List (Int × Int) :=
  let last : Int := b.e1 * (C.order + 1) + C.order
  (if C.interior b.attr = false then []
    else if C.dim = 1 then [(last, last + 1)]
    else if b.negative then b.conn.map Prod.swap else b.conn) ++
  if C.exterior b.attr = true ∧ C.dim = 1 then [(if b.e1 = 0 then 0 else last, -1)] else []

/-- No tag is listed twice, in one definition or in two. -/
def Once (props : List Prp) : Prop := (props.flatMap Prp.tags).Nodup

/-- The nodes are those of discontinuous elements: all in range, none in two elements. -/
structure Table (ndofs : Nat) (table : List (List Nat)) : Prop where
  range : ∀ r ∈ table, ∀ d ∈ r, d < ndofs
  cover : ∀ d < ndofs, ∃ (e : Nat) (r : List Nat), table[e]? = some r ∧ d ∈ r
  once : ∀ (e e' : Nat) (r r' : List Nat) (d : Nat), table[e]? = some r → table[e']? = some r' → d ∈ r → d ∈ r' → e = e'

/-- A node belongs to an element. -/
def In (table : List (List Nat)) (d : Nat) (e : Nat) : Prop := ∃ r : List Nat, table[e]? = some r ∧ d ∈ r

/-- The node tables of a line of `n` elements of order `p`. -/
def lineTable (n p : Nat) : List (List Nat) := (List.range n).map fun e => List.range' (e * (p + 1)) (p + 1)

/-- A boundary element of a mesh of the plane or of space as the constructor reads it: its sides, the sign of its
orientation, and pairs made of a node of the first and a node of the second element. -/
structure Reads {K : Type} [Field K] [LinearOrder K] (dim : Nat) (m : SubMesh.Mesh K) (table : List (List Nat))
    (f : SubMesh.BFace) (b : BE R) : Prop where
  e1 : b.e1 = f.e1
  e2 : b.e2 = f.e2
  sign : b.negative = decide ((if dim = 2 then SubMesh.orientation2 m f else SubMesh.orientation3 m f) < 0)
  conn : ∀ q ∈ b.conn, ∃ n1 n2 : Nat, q = ((n1 : Int), (n2 : Int)) ∧ In table n1 f.e1 ∧ ∀ e2, f.e2 = some e2 → In table n2 e2

/-- All the layers of a list of pairs start on the same side: first nodes in elements of one region, second nodes in
elements of the other. -/
def Stacked (table : List (List Nat)) (region : Nat → Bool) (l : List (Raw R)) : Prop :=
  ∃ side, ∀ x ∈ l, ∃ n1 n2 e1 e2 : Nat, x.pair = ((n1 : Int), (n2 : Int)) ∧ In table n1 e1 ∧ In table n2 e2 ∧
    region e1 = side ∧ region e2 = !side

/-- Inner product. -/
def dot {K : Type} [Add K] [Mul K] (a b : Fin 3 → K) : K := a 0 * b 0 + a 1 * b 1 + a 2 * b 2

end Dgtd.SgbcInit.Spec
