/-
Model of the tables of the nodal (hesthaven) operator: src/evolution/HesthavenEvolutionMethods.{h,cpp},
src/evolution/HesthavenEvolution.cpp (storage of matrices) and src/math/Geometry.cpp.

`double` is an element of an ordered field: rounding and NaN are not modelled.  `none` is a thrown exception unless said
otherwise.
-/
import Mathlib.Algebra.Order.Field.Basic
import Mathlib.Algebra.Order.Group.Unbundled.Abs
import Mathlib.Data.List.Rotate
import Mathlib.Data.List.Sort

namespace Dgtd.NodalMaps

/-! ### Orientation of elements -/

/-- The types of elements told apart by src/math/Geometry.cpp:20-38. -/
inductive Geo | segment | triangle | other
  deriving DecidableEq

/-- An element: its type and its vertices. (src/evolution/HesthavenEvolutionMethods.cpp:721-800) -/
structure Elem where
  geo   : Geo
  verts : List Nat

/-- src/math/Geometry.cpp:24-33: the triangle case: find the first vertex of the first element in the second one, rotate to
it, compare. -/
def sameTriangle (a b : List Nat) : Bool :=
  let i := b.idxOf (a.getD 0 0)
  if i = b.length then false else decide (a = b.rotate i)

/-- src/math/Geometry.cpp:7-42 `elementsHaveSameOrientation`. -/
def sameOrientation (a b : Elem) : Option Bool :=
  if a.geo ≠ b.geo then none
  else match a.geo with
    | .segment => some (decide (a.verts = b.verts))
    | .triangle => some (sameTriangle a.verts b.verts)
    | .other => none

/-! ### Matrices stored once -/

variable {K : Type} [Field K] [LinearOrder K]

/-- `Eigen::MatrixXd`. (src/evolution/HesthavenEvolutionMethods.h:28-57) -/
structure Mat (K : Type) where
  rows : Nat
  cols : Nat
  val  : Nat → Nat → K

/-- The positions of a matrix in the order of the two loops of src/evolution/HesthavenEvolutionMethods.h:44-45. -/
def positions (rows cols : Nat) : List (Nat × Nat) :=
  (List.range rows).flatMap fun i => (List.range cols).map fun j => (i, j)

/-- src/evolution/HesthavenEvolutionMethods.h:44-51: the loops. -/
def lexLt (ps : List (Nat × Nat)) (f g : Nat → Nat → K) : Bool :=
  match ps with
  | [] => false
  | p :: ps => if f p.1 p.2 ≠ g p.1 p.2 then decide (f p.1 p.2 < g p.1 p.2) else lexLt ps f g

/-- src/evolution/HesthavenEvolutionMethods.h:28-55 `MatrixCompareLessThan`. -/
def matLt (l r : Mat K) : Bool :=
  if l.rows < r.rows then true
  else if r.rows < l.rows then false
  else if l.cols < r.cols then true
  else if r.cols < l.cols then false
  else lexLt (positions l.rows l.cols) l.val r.val

/-- `std::set::find`: an element equivalent to the key under the comparison.
(src/evolution/HesthavenEvolutionMethods.h:28-57, src/evolution/HesthavenEvolution.cpp:160-168) -/
def find (s : List (Mat K)) (m : Mat K) : Option (Mat K) := s.find? fun x => !matLt x m && !matLt m x

/-- src/evolution/HesthavenEvolution.cpp:160-168: the stored matrix to use for a matrix. -/
def storeMat (s : List (Mat K)) (m : Mat K) : List (Mat K) × Mat K :=
  match find s m with
  | some x => (s, x)
  | none => (m :: s, m)

/-- All the matrices of a run, one after another (src/evolution/HesthavenEvolution.cpp:156 and 371-393). -/
def storeAll (s : List (Mat K)) : List (Mat K) → List (Mat K) × List (Mat K)
  | [] => (s, [])
  | m :: ms =>
    let r := storeMat s m
    let t := storeAll r.1 ms
    (t.1, r.2 :: t.2)

/-! ### Columns -/

/-- src/evolution/HesthavenEvolutionMethods.cpp:212-221 `removeColumn`: later columns move one place to the left and the
last one is cut off. -/
def removeColumn (m : Mat K) (c : Nat) : Mat K where
  rows := m.rows
  cols := m.cols - 1
  val := fun r j => if c < m.cols - 1 ∧ c ≤ j ∧ j < m.cols - 1 then m.val r (j + 1) else m.val r j

/-- src/evolution/HesthavenEvolutionMethods.cpp:227-234. -/
def isZeroColumn (m : Mat K) (c : Nat) : Bool :=
  (List.range m.rows).all fun r => !decide (1 / 1000000 ≤ |m.val r c|)

/-- src/evolution/HesthavenEvolutionMethods.cpp:223-242 `removeZeroColumns`: from the last zero column to the first one. -/
def removeZeroColumns (m : Mat K) : Mat K :=
  ((List.range m.cols).filter fun c => isZeroColumn m c).foldr (fun c m => removeColumn m c) m

/-! ### Connectivity -/

/-- src/evolution/HesthavenEvolutionMethods.cpp:697-719 `assembleGlobalConnectivityMap1D`, for at least one element. -/
def conn1D (n p : Nat) : List (Nat × Nat) :=
  (0, 0) :: ((List.range (n - 1)).flatMap fun e => [(p * e + p, p * e + p + 1), (p * e + p + 1, p * e + p)])
    ++ [(p * n + p, p * n + p)]

/-- src/evolution/HesthavenEvolutionMethods.cpp:638-647 `initMapB`. -/
def initMapB (c : List (Nat × Nat)) : List Nat :=
  (c.zipIdx.filter fun q => decide (q.1.1 = q.1.2)).map fun q => q.2

/-- src/evolution/HesthavenEvolutionMethods.cpp:650-657 `initVMapB`; `none` is a read out of bounds. -/
def initVMapB (c : List (Nat × Nat)) (mapB : List Nat) : Option (List Nat) :=
  mapB.mapM fun i => c[i]?.map Prod.fst

/-- src/evolution/HesthavenEvolutionMethods.cpp:622-626: whether the nodes at `n, n+1, …` are the sorted nodes. -/
def windowAt (sorted : List Nat) (c : List (Nat × Nat)) (n : Nat) : Bool :=
  decide (n + sorted.length ≤ c.length) && decide (((c.drop n).take sorted.length).map Prod.fst = sorted)

/-- src/evolution/HesthavenEvolutionMethods.cpp:616-636 `findMapBIDForFaceNodes`, for at least one node (the code reads the
first one).  The comparison of the first node alone, which precedes that of all the nodes, is contained in it. -/
def findMapBID (nodes : List Nat) (c : List (Nat × Nat)) : Option (List Nat) :=
  let sorted := nodes.insertionSort (· ≤ ·)
  ((List.range c.length).find? fun n => windowAt sorted c n).map fun n => List.range' n sorted.length

/-- src/evolution/HesthavenEvolutionMethods.cpp:578-588 `initInteriorFacesMapB`, one node pair: the positions of the pair and
of its reverse (the length of the list if there is none). -/
def interiorMapB (c : List (Nat × Nat)) (a b : Nat) : Nat × Nat := (c.idxOf (a, b), c.idxOf (b, a))

/-- A row of a sparse matrix: columns and values. (src/evolution/HesthavenEvolutionMethods.cpp:60-75, 460-475) -/
abbrev Row (K : Type) := List (Nat × K)

/-- `vals[cols.Find(r)]`; `none` is a read out of bounds. (src/evolution/HesthavenEvolutionMethods.cpp:68) -/
def diag (row : Row K) (r : Nat) : Option K := (row.find? fun q => decide (q.1 = r)).map Prod.snd

/-- src/evolution/HesthavenEvolutionMethods.cpp:65-73: one row of `mapConnectivity`. -/
def rowPairs (tol : K) (row : Row K) (r : Nat) : List (Nat × Nat) :=
  match diag row r with
  | none => []
  | some d => (row.filter fun q => decide (r ≠ q.1 ∧ |q.2 - d| < tol ∧ tol < |d|)).map fun q => (r, q.1)

/-- src/evolution/HesthavenEvolutionMethods.cpp:59-75 `mapConnectivity`: the nodes of the first half of the rows paired with
the columns whose value equals that of the diagonal; `tol` is 1e-6.  Rows without a diagonal entry but with other entries
read out of bounds in the code and are taken to give nothing. -/
def mapConnectivity (tol : K) (rows : List (Row K)) : List (Nat × Nat) :=
  (List.range (rows.length / 2)).flatMap fun r => rowPairs tol (rows.getD r []) r

/-! ### Attributes -/

/-- src/components/Types.h:71. -/
def tag : Int := 777

/-- `SetAttribute`. (src/evolution/HesthavenEvolutionMethods.cpp:104-112, 161-162, 306-320) -/
def setAttr (a : Nat → Int) (e : Nat) (v : Int) : Nat → Int := fun i => if i = e then v else a i

/-- Elements of a sub-mesh made from an attribute. (src/evolution/HesthavenEvolutionMethods.cpp:155-175, 300-325) -/
def withAttr (ne : Nat) (a : Nat → Int) (v : Int) : List Nat := (List.range ne).filter fun e => decide (a e = v)

/-- src/evolution/HesthavenEvolutionMethods.cpp:302-311 `assembleBoundaryFaceSubMesh`: the elements of the sub-mesh and the
attributes left in the parent. -/
def boundarySub (ne : Nat) (orig a : Nat → Int) (e1 : Nat) : List Nat × (Nat → Int) :=
  let m := setAttr a e1 tag
  (withAttr ne m tag, setAttr m e1 (orig e1))

/-- src/evolution/HesthavenEvolutionMethods.cpp:313-323 `assembleInteriorFaceSubMesh`. -/
def interiorSub (ne : Nat) (orig a : Nat → Int) (e1 e2 : Nat) : List Nat × (Nat → Int) :=
  let m := setAttr (setAttr a e1 tag) e2 tag
  (withAttr ne m tag, setAttr (setAttr m e1 (orig e1)) e2 (orig e2))

/-- src/evolution/HesthavenEvolutionMethods.cpp:102-108 `restoreOriginalAttributesAfterSubMeshing` of a face: the second
element is restored if its number is not zero; a negative number is not found in the map. -/
def restoreFace (orig a : Nat → Int) (e1 : Nat) (e2 : Int) : Option (Nat → Int) :=
  let m := setAttr a e1 (orig e1)
  if e2 = 0 then some m
  else if e2 < 0 then none
  else some (setAttr m e2.toNat (orig e2.toNat))

end Dgtd.NodalMaps
