import Verif.Model.Gmsh

/-
Specification of the Gmsh 2.2 element section and of its normal form, independent of how the file is read.
-/
namespace Dgtd.Gmsh.Spec

/-- A line that neither opens nor closes the element section. -/
def Plain (l : Line) : Prop := ¬ "$Elements".toList <:+: l ∧ ¬ "$EndElements".toList <:+: l

/-- A text cut at its element section: the lines before, the opening line, the line with the number of
elements, the element lines, and the rest, which starts with the closing line (or is missing when the
file is cut short). -/
structure Sections where
  pre : List Line
  opening : Line
  count : Line
  elems : List Line
  rest : List Line

/-- All the lines, in order. -/
def Sections.lines (s : Sections) : List Line :=
  s.pre ++ s.opening :: s.count :: (s.elems ++ s.rest)

/-- The sections are where the markers are. -/
structure Sections.Ok (s : Sections) : Prop where
  pre : ∀ l ∈ s.pre, Plain l
  opening : "$Elements".toList <:+: s.opening
  elems : ∀ l ∈ s.elems, ¬ "$EndElements".toList <:+: l
  rest : s.rest = [] ∨ ∃ e r, s.rest = e :: r ∧ "$EndElements".toList <:+: e
  oneLine : ∀ l ∈ s.lines, '\n' ∉ l

/-- An element: number, type, number of tags, physical tag, geometrical tag, remaining tags and nodes. -/
structure Elem where
  id : Nat
  type : Nat
  ntags : Line
  physical : Line
  geometrical : Line
  nodes : List Line
deriving DecidableEq

/-- The words of an element line. -/
def Elem.words (e : Elem) : List Line :=
  natStr e.id :: natStr e.type :: e.ntags :: e.physical :: e.geometrical :: e.nodes

/-- `l` is a way to write `e`, with any amount of blanks between the words; numbers fit in 32 bits. -/
def Writes (l : Line) (e : Elem) : Prop :=
  tokens l = e.words ∧ e.id < 2 ^ 31 ∧ e.type < 2 ^ 31

/-- Gmsh types 4, 11, 29: tetrahedra of order 1, 2, 3. -/
def isTet (t : Nat) : Bool := t == 4 || t == 11 || t == 29
/-- Gmsh types 2, 9, 20, 21: triangles. -/
def isTri (t : Nat) : Bool := t == 2 || t == 9 || t == 20 || t == 21
/-- Gmsh type 15: a point. -/
def isPoint (t : Nat) : Bool := t == 15
/-- Gmsh types 1, 8, 26, 27, 28: lines. -/
def isLine (t : Nat) : Bool := t == 1 || t == 8 || t == 26 || t == 27 || t == 28

/-- The elements worth keeping: in a mesh with tetrahedra no points and no lines, in a mesh with triangles
but no tetrahedra no points, otherwise all. -/
def wanted (es : List Elem) (e : Elem) : Bool :=
  if es.any (fun x => isTet x.type) then !isPoint e.type && !isLine e.type
  else if es.any (fun x => isTri x.type) then !isPoint e.type
  else true

/-- Consecutive numbers from `n` on, geometrical tag copied onto the physical one. -/
def renumber (n : Nat) : List Elem → List Elem
  | [] => []
  | e :: es => { e with id := n, physical := e.geometrical } :: renumber (n + 1) es

/-- The normal form of a list of elements. -/
def normal (es : List Elem) : List Elem := renumber 1 (es.filter (wanted es))

end Dgtd.Gmsh.Spec
