import Mathlib.Algebra.Order.Field.Basic

/-
Model of src/components/SubMesher.cpp:116-197: the normal used at each node of a thin-layer face.  `F` are the points of
the reference face, `loc` is `fet.Loc1.Transform` (reference face to reference element, three coordinates), `normal` is
`CalcOrtho(fet.Jacobian())` at a point of the face.  Both are MFEM's; they are parameters.
-/

namespace Dgtd.NodeNormal

variable {F K : Type} [Field K] [LinearOrder K]

/-- src/components/SubMesher.cpp:178-182: squared distance in the reference element. -/
def dist2 (a b : Fin 3 → K) : K := (a 0 - b 0) * (a 0 - b 0) + (a 1 - b 1) * (a 1 - b 1) + (a 2 - b 2) * (a 2 - b 2)

/-- src/components/SubMesher.cpp:176-187: the loop over the points of the face rule; `k` is the number of the next
point. -/
def search (loc : F → Fin 3 → K) (x : Fin 3 → K) : List F → Nat → K → Nat → Nat
  | [], _, _, bestFI => bestFI
  | s :: rest, k, bestDist, bestFI =>
    if dist2 (loc s) x < bestDist then search loc x rest (k + 1) (dist2 (loc s) x) k
    else search loc x rest (k + 1) bestDist bestFI

/-- src/components/SubMesher.cpp:116-136, 170-191 `computePerDofFaceNormals` for a node at `x`; `none` is a read outside
of the rule. -/
def nodeNormal (dim : Nat) (loc normal : F → Fin 3 → K) (rule : List F) (x : Fin 3 → K) : Option (Fin 3 → K) :=
  if dim ≤ 1 then some fun d => if d = 0 then 1 else 0
  else (rule[search loc x rule 0 (10 ^ 30) 0]?).map normal

/-- src/components/SubMesher.cpp:138-197 for all the nodes of a face. -/
def nodeNormals (dim : Nat) (loc normal : F → Fin 3 → K) (rule : List F) (nodes : List (Fin 3 → K)) :
    Option (List (Fin 3 → K)) :=
  nodes.mapM (nodeNormal dim loc normal rule)

end Dgtd.NodeNormal
