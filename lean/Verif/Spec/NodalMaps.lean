import Verif.Model.NodalMaps

/-
Specification side of the tables of the nodal operator.
-/
namespace Dgtd.NodalMaps.Spec

/-- A segment or a triangle with distinct vertices. -/
def Valid (a : Elem) : Prop :=
  a.verts.Nodup ∧ ((a.geo = .segment ∧ a.verts.length = 2) ∨ (a.geo = .triangle ∧ a.verts.length = 3))

/-- Same orientation: a segment is run from the same end; the vertices of a triangle follow each other in the same cyclic
order. -/
def Same (a b : Elem) : Prop :=
  match a.geo with
  | .triangle => ∃ k, a.verts = b.verts.rotate k
  | _ => a.verts = b.verts

/-- Two matrices with the same size and entries. -/
def Equal {K : Type} (a b : Mat K) : Prop :=
  a.rows = b.rows ∧ a.cols = b.cols ∧ ∀ i < a.rows, ∀ j < a.cols, a.val i j = b.val i j

/-- The columns of a matrix. -/
def columns {K : Type} (m : Mat K) : List (List K) :=
  (List.range m.cols).map fun c => (List.range m.rows).map fun r => m.val r c

/-- In one dimension element `e` has the nodes `(p + 1) e, …, (p + 1) e + p`.  The face positions are: the left end, then for
every interface the last node of an element with the first one of the next, and back, then the right end. -/
def line (n p : Nat) : List (Nat × Nat) :=
  (0, 0) :: ((List.range (n - 1)).flatMap fun e =>
      [((p + 1) * e + p, (p + 1) * (e + 1)), ((p + 1) * (e + 1), (p + 1) * e + p)])
    ++ [((p + 1) * n - 1, (p + 1) * n - 1)]

end Dgtd.NodalMaps.Spec
