/-
Model of the construction of the thin-layer data of the evolution object: src/evolution/GlobalEvolution.cpp:47-308,
with the copies of src/solver/SolverExtension.cpp:175-185.

Simplifications.  The pairs of nodes of an interior face (`buildConnectivityForInteriorBdrFace`, C86), the local frames of
its nodes and the orientation of the face are inputs.  `std::map` is a list sorted by key; `std::unordered_set` is a list
without repetitions.  One MPI rank's view.  `none` is undefined behaviour (a read or write outside an array).
-/
import Mathlib.Data.List.Sort
import Mathlib.Data.List.Dedup
import Verif.Model.Assoc

namespace Dgtd.SgbcInit

/-- `RawSGBCPair` (line 47). (src/evolution/GlobalEvolution.cpp) -/
structure Raw (R : Type) where
  pair : Int × Int
  rot : R
deriving DecidableEq

/-- A boundary element as the constructor reads it: attribute, elements on its sides, pairs of nodes (of the first and of
the second element), whether `buildFaceOrientation` is negative (line 93), and the frame of the nodes built from the normal
(`false`) or its opposite (`true`) (lines 104-112, 154-160). (src/evolution/GlobalEvolution.cpp) -/
structure BE (R : Type) where
  attr : Int
  e1 : Nat
  e2 : Option Nat
  conn : List (Int × Int)
  negative : Bool
  frame : Bool → Nat → R

/-- What the loop reads: dimension, order, identity matrix, markers of the two kinds of boundaries.
(src/evolution/GlobalEvolution.cpp:47-60) -/
structure Ctx (R : Type) where
  dim : Nat
  order : Nat
  ident : R
  interior : Int → Bool
  exterior : Int → Bool

variable {R : Type}

/-- Lines 77-127. (src/evolution/GlobalEvolution.cpp) -/
def interiorPairs (C : Ctx R) (b : BE R) : List (Raw R) :=
  if C.dim = 1 then
    [⟨(((b.e1 * (C.order + 1) + C.order : Nat) : Int), ((b.e1 * (C.order + 1) + C.order + 1 : Nat) : Int)), C.ident⟩]
  else b.conn.zipIdx.map fun q =>
    if b.negative then ⟨(q.1.2, q.1.1), b.frame true q.2⟩ else ⟨q.1, b.frame false q.2⟩

/-- Lines 129-167.  In two and three dimensions the connectivity of a sub-mesh of a single element is asked for
(lines 142-144): without second element `GetElementDofs(-1)` is outside of the table
(src/evolution/HesthavenEvolutionMethods.cpp:393), with one there is no interior face in the sub-mesh and so no pair. -/
def exteriorPairs (C : Ctx R) (b : BE R) : Option (List (Raw R)) :=
  if C.dim = 1 then
    if b.e1 = 0 then some [⟨(0, -1), C.ident⟩]
    else some [⟨(((b.e1 * (C.order + 1) + C.order : Nat) : Int), -1), C.ident⟩]
  else match b.e2 with
    | none => none
    | some _ => some []

/-- Lines 60-167: the pairs of one boundary element. (src/evolution/GlobalEvolution.cpp) -/
def facePairs (C : Ctx R) (b : BE R) : Option (List (Raw R)) :=
  if C.exterior b.attr then
    (exteriorPairs C b).map fun l => (if C.interior b.attr then interiorPairs C b else []) ++ l
  else some (if C.interior b.attr then interiorPairs C b else [])

/-- `m[k].push_back(x)` on a `std::map` of vectors. (src/evolution/GlobalEvolution.cpp:110-125, 160-167) -/
def push {α : Type} (k : Int) (x : α) : List (Int × List α) → List (Int × List α)
  | [] => [(k, [x])]
  | (k', l) :: r =>
    if k = k' then (k', l ++ [x]) :: r
    else if k < k' then (k, [x]) :: (k', l) :: r
    else (k', l) :: push k x r

/-- Lines 59-169: the loop over the boundary elements. (src/evolution/GlobalEvolution.cpp) -/
def rawPairs (C : Ctx R) (bs : List (BE R)) : Option (List (Int × List (Raw R))) :=
  bs.foldlM (fun m b => (facePairs C b).map fun l => l.foldl (fun m x => push b.attr x m) m) []

/-- Lines 172-183 `temp_dof_to_elem`: the last element that has the node, -1 if none has. (src/evolution/GlobalEvolution.cpp) -/
def dofElem (table : List (List Nat)) : Nat → Int :=
  table.zipIdx.foldl (fun a q => q.1.foldl (fun a d => Function.update a d (q.2 : Int)) a) fun _ => -1

/-- Reading entry `n` of an array of `ndofs` entries. (src/evolution/GlobalEvolution.cpp:172-183) -/
def elemOf (ndofs : Nat) (table : List (List Nat)) (n : Int) : Option Int :=
  if 0 ≤ n ∧ n < ndofs then some (dofElem table n.toNat) else none

/-- src/solver/SolverExtension.h:44-65 `SGBCState` as constructed: nodes, elements, number of values, frame. -/
structure St (R : Type) where
  pair : Int × Int
  elems : Int × Int
  size : Nat
  rot : R
deriving DecidableEq

/-- Lines 213-231. (src/evolution/GlobalEvolution.cpp) -/
def mkState (ndofs : Nat) (table : List (List Nat)) (size : Nat) (x : Raw R) : Option (St R) := do
  let a ← elemOf ndofs table x.pair.1
  if x.pair.2 ≠ -1 then
    let b ← elemOf ndofs table x.pair.2
    some ⟨x.pair, (a, b), size, x.rot⟩
  else some ⟨x.pair, (a, -1), size, x.rot⟩

/-- A definition of a thin layer: its tags and the number of values of its solver (`getStateSize`). (src/components/Model.h:87-121) -/
structure Prp where
  tags : List Int
  size : Nat

/-- What is constructed: the states per tag, and which definition's wrapper a tag uses (`sgbc_wrapper_map_`).
(src/evolution/GlobalEvolution.h:43-46) -/
structure Made (R : Type) where
  states : List (Int × List (St R))
  wrap : List (Int × Nat)
deriving DecidableEq

/-- Lines 208-235: the body for one matching tag of definition `p`. (src/evolution/GlobalEvolution.cpp) -/
def addDefinition (ndofs : Nat) (table : List (List Nat)) (tag : Int) (pairs : List (Raw R)) (p : Nat) (size : Nat)
    (I : Made R) : Option (Made R) :=
  (pairs.mapM (mkState ndofs table size)).map fun sts =>
    ⟨sts.foldl (fun m s => push tag s m) I.states, Assoc.assign I.wrap tag p⟩

/-- Lines 204-238: the two loops over definitions and their tags, as one loop over all tags of all definitions.
(src/evolution/GlobalEvolution.cpp) -/
def allTags (props : List Prp) : List (Int × Nat × Nat) :=
  props.zipIdx.flatMap fun q => q.1.tags.map fun t => (t, q.2, q.1.size)

/-- Lines 205-237 for one tag of the mesh. (src/evolution/GlobalEvolution.cpp) -/
def forTag (ndofs : Nat) (table : List (List Nat)) (props : List Prp) (tag : Int) (pairs : List (Raw R)) (I : Made R) :
    Option (Made R) :=
  (allTags props).foldlM (fun I q => if tag = q.1 then addDefinition ndofs table tag pairs q.2.1 q.2.2 I else some I) I

/-- Lines 202-239. (src/evolution/GlobalEvolution.cpp) -/
def makeStates (ndofs : Nat) (table : List (List Nat)) (props : List Prp) (raw : List (Int × List (Raw R))) :
    Option (Made R) :=
  raw.foldlM (fun I q => forTag ndofs table props q.1 q.2 I) ⟨[], []⟩

/-- Lines 47-239. (src/evolution/GlobalEvolution.cpp) -/
def construct (C : Ctx R) (ndofs : Nat) (table : List (List Nat)) (props : List Prp) (bs : List (BE R)) :
    Option (Made R) := do
  let raw ← rawPairs C bs
  makeStates ndofs table props raw

/-- Lines 245-249 `sgbc_tasks_`. (src/evolution/GlobalEvolution.cpp) -/
def tasks (I : Made R) : List (Int × Nat) := I.states.flatMap fun q => (List.range q.2.length).map fun i => (q.1, i)

/-- All the states. (src/evolution/GlobalEvolution.cpp:245-249) -/
def allStates (I : Made R) : List (St R) := I.states.flatMap fun q => q.2

/-- Lines 284-292 `elem1_set`, `elem2_set`. (src/evolution/GlobalEvolution.cpp) -/
def elem1 (I : Made R) : List Int := ((allStates I).map fun s => s.elems.1).dedup
/-- The elements of the second sides. (src/evolution/GlobalEvolution.cpp:284-292) -/
def elem2 (I : Made R) : List Int :=
  (((allStates I).filter fun s => decide (s.elems.2 ≠ -1)).map fun s => s.elems.2).dedup

/-- `GetRow` of an element; `none` is outside of the table. (src/evolution/GlobalEvolution.cpp:294-299) -/
def row (table : List (List Nat)) (e : Int) : Option (List Nat) := if 0 ≤ e then table[e.toNat]? else none

/-- Lines 294-305 `collectDofs`. (src/evolution/GlobalEvolution.cpp) -/
def collect (table : List (List Nat)) (els : List Int) : Option (List Nat) :=
  (els.mapM (row table)).map fun rows => (rows.flatten.dedup).insertionSort (· ≤ ·)

/-- src/solver/SolverExtension.cpp:175-179 `loadState`: copies as many values as the solver has. -/
def loadState {K : Type} (solver state : List K) : Option (List K) :=
  if solver.length ≤ state.length then some (state.take solver.length) else none

/-- src/solver/SolverExtension.cpp:181-185 `saveState`: the same in the other direction. -/
def saveState {K : Type} (solver state : List K) : Option (List K) :=
  if solver.length ≤ state.length then some (solver ++ state.drop solver.length) else none

end Dgtd.SgbcInit
