/-
Model of the treatment of curved elements by the nodal (hesthaven) operator: src/evolution/HesthavenEvolution.cpp.

`double` is an element of an ordered field.  Positions of the nodes and the product by the global operator are inputs.
-/
import Verif.Model.NodalAssembly

namespace Dgtd.Nodal

variable {K : Type} [Field K] [LinearOrder K]

/-- Numbers of the nodes of element `e` (an `L2` space: consecutive). (src/evolution/HesthavenEvolution.cpp:207-241, 417-434) -/
def elemDofs (n e : Nat) : List Nat := (List.range n).map fun k => e * n + k

/-- src/evolution/HesthavenEvolution.cpp:224-232: positions of the nodes on the straightened mesh and on the mesh. -/
def isCurved (n : Nat) (straight actual : Nat → V3 K) (e : Nat) : Bool :=
  (elemDofs n e).any fun d =>
    decide (1 / 100000 < |straight d 0 - actual d 0|) || decide (1 / 100000 < |straight d 1 - actual d 1|) ||
      decide (1 / 100000 < |straight d 2 - actual d 2|)

/-- src/evolution/HesthavenEvolution.cpp:207-241 `initCurvedAndLinearElementsLists`: linear elements, and curved elements with their
nodes (a `std::map`: in the order of the elements). -/
def classify (n ne : Nat) (straight actual : Nat → V3 K) : List Nat × List (Nat × List Nat) :=
  (List.range ne).foldl (fun res e =>
    if isCurved n straight actual e then (res.1, res.2 ++ [(e, elemDofs n e)]) else (res.1 ++ [e], res.2)) ([], [])

/-- src/evolution/HesthavenEvolution.cpp:243-262 `checkForTFSFInCurvedElements`: the elements next to each face of the total-field
surfaces (one only on the boundary); `false` is the exception. -/
def checkTFSF (curved : List (Nat × List Nat)) (faces : List (Nat × Option Nat)) : Bool :=
  faces.all fun f => !(curved.any fun q => q.1 == f.1) &&
    match f.2 with
    | none => true
    | some e2 => !(curved.any fun q => q.1 == e2)

/-- src/evolution/HesthavenEvolution.cpp:264-273 `isDoFinCurvedElement`. -/
def isDofCurved (curved : List (Nat × List Nat)) (d : Nat) : Bool := curved.any fun q => q.2.contains d

/-- src/evolution/HesthavenEvolution.cpp:439-448 `loadOutVectors` for all the components: the rows of element `e` are overwritten. -/
def setRows (n : Nat) (v out : Fields K) (e : Nat) : Fields K :=
  { e := fun i x => if i ∈ elemDofs n e then v.e i x else out.e i x
    h := fun i x => if i ∈ elemDofs n e then v.h i x else out.h i x }

/-- src/evolution/HesthavenEvolution.cpp:417-434 and 538-540: the matrix of a curved element holds the rows of the global operator at its
nodes and no others; its product is added.  `global` is the product of the whole global operator. -/
def addRows (global out : Fields K) (q : Nat × List Nat) : Fields K :=
  { e := fun i x => out.e i x + if i ∈ q.2 then global.e i x else 0
    h := fun i x => out.h i x + if i ∈ q.2 then global.h i x else 0 }

/-- src/evolution/HesthavenEvolution.cpp:450-542 `Mult`, with linear and curved elements; `global` is the product by the operator of
src/evolution/HesthavenEvolution.cpp:412-415. -/
def mixedMult (R : Ref K) (E : Nat → Nat → K) (el : Nat → Elem K) (c : Nat → Nat × Nat) (b : BdrMaps) (alpha : K)
    (sources : List (Option (Fields K))) (tf : List TfNode) (lists : List Nat × List (Nat × List Nat)) (global : Fields K → Fields K)
    (u : Fields K) : Fields K :=
  let j := evaluateTFSF sources tf (applyBC (isDofCurved lists.2) alpha b u (jumps c u))
  let v : Fields K := { e := fun i x => outE (ops R E el) alpha (normals R el) u j x i
                        h := fun i x => outH (ops R E el) alpha (normals R el) u j x i }
  lists.2.foldl (addRows (global u)) (lists.1.foldl (setRows R.n v) ⟨fun _ _ => 0, fun _ _ => 0⟩)

end Dgtd.Nodal
