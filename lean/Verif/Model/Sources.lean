/-
Model of the sources: initial fields and total fields, and of the three ways in which the operators evaluate them.

Numbers: `double` is an element of a field `K`; rounding is not modelled.  Projecting a function on the finite element
space is evaluating it at the nodes (nodal bases, the default).
-/
import Verif.Model.Config
import Mathlib.Data.List.Basic

namespace Dgtd.Sources
open Dgtd.Config (FieldType Axis)

/-- src/components/Sources.h:26-53 `InitialField`: a function of the position, the field it sets, its polarisation and
its centre. -/
structure Initial (K : Type) where
  fn     : List K → K
  ftype  : FieldType
  pol    : Axis → K
  center : List K

/-- src/components/Sources.h:55-68 `TotalField`: all the components of the two fields at a position and time. -/
structure Total (K : Type) where
  fn : List K → K → FieldType → Axis → K

/-- An entry of `Sources` (src/components/Sources.h:71-143). -/
inductive Source (K : Type) where
  | initial (s : Initial K)
  | total (s : Total K)

/-- The values of the six components at the degrees of freedom. (src/evolution/Fields.h:10-66) -/
abbrev Fields (K : Type) := FieldType → Axis → Nat → K

variable {K : Type} [Field K] [DecidableEq K]

/-! ### Initial fields -/

/-- src/components/Sources.cpp:37-57 `InitialField::eval`; reading a centre with fewer coordinates than the position
is out of bounds. -/
def Initial.eval (s : Initial K) (p : List K) (ft : FieldType) (d : Axis) : Option K :=
  if ft ≠ s.ftype then some 0
  else if s.center.length < p.length then none
  else some (s.fn (List.zipWith (· - ·) p s.center) * s.pol d)

/-- Both fields and all directions, in the order of the loops (src/solver/SourcesManager.cpp:23-24). -/
def components : List (FieldType × Axis) :=
  [(.E, .X), (.E, .Y), (.E, .Z), (.H, .X), (.H, .Y), (.H, .Z)]

/-- src/solver/SourcesManager.cpp:25-32: project one component on the `n` degrees of freedom, at the positions `pos`,
and add it. -/
def addComponent (pos : Nat → List K) (n : Nat) (s : Initial K) (f : Fields K) (c : FieldType × Axis) :
    Option (Fields K) := do
  let vals ← (List.range n).mapM fun i : Nat => s.eval (pos i) c.1 c.2
  pure fun ft d i => if ft = c.1 ∧ d = c.2 then f ft d i + vals.getD i 0 else f ft d i

/-- src/solver/SourcesManager.cpp:18-34: one source; the others than initial fields are skipped. -/
def addSource (pos : Nat → List K) (n : Nat) (f : Fields K) (s : Source K) : Option (Fields K) :=
  match s with
  | .initial i => components.foldlM (addComponent pos n i) f
  | .total _ => some f

/-- src/solver/SourcesManager.cpp:16-36 `setInitialFields`. -/
def setInitialFields (pos : Nat → List K) (n : Nat) (ss : List (Source K)) (f : Fields K) : Option (Fields K) :=
  ss.foldlM (addSource pos n) f

/-! ### Total fields -/

/-- The total fields among the sources: `dynamic_cast<TotalField*>` succeeds. (src/solver/SourcesManager.cpp:38-60, 204-232) -/
def asTotal : Source K → Option (Total K)
  | .total s => some s
  | .initial _ => none

/-- The sub-mesh around the total-field surface: parent elements of its elements (`GetParentElementIDMap`), degrees of
freedom of each, and parent elements of the scattered and total sides, when there are some
(src/components/SubMesher.cpp:359-395). -/
structure Regions where
  parents : List Int
  dofs    : Nat → List Nat
  sf      : Option (List Int)
  tf      : Option (List Int)

/-- src/solver/SourcesManager.cpp:163-166 `parent_to_global`: a later element overwrites an earlier one. -/
def lastIndex (l : List Int) (x : Int) : Option Nat :=
  (l.zipIdx.filter fun p => decide (p.1 = x)).getLast?.map Prod.snd

/-- src/solver/SourcesManager.cpp:172-183 `sf_dof_set`; unknown elements are skipped. -/
def sfDofs (r : Regions) (ids : List Int) : List Nat :=
  (ids.filterMap (lastIndex r.parents)).flatMap r.dofs

/-- src/solver/SourcesManager.cpp:155-187: the sign of a degree of freedom. -/
def sign (r : Regions) (i : Nat) : K :=
  match r.sf with
  | none => 1
  | some ids => if i ∈ sfDofs r ids then -(1 / 2) else 1 / 2

/-- src/solver/SourcesManager.cpp:204-231 `evalTimeVarFieldDirect`, used by the global operator. -/
def direct (r : Regions) (pos : Nat → List K) (ss : List (Source K)) (t : K) : Fields K :=
  (ss.filterMap asTotal).foldl (fun f s => fun ft d i => f ft d i + s.fn (pos i) t ft d * sign r i) fun _ _ _ => 0

/-- src/solver/SourcesManager.cpp:38-73 `evalTimeVarField`: the projection of each source overwrites that of the
previous one. -/
def projected (pos : Nat → List K) (ss : List (Source K)) (t : K) : Fields K :=
  (ss.filterMap asTotal).foldl (fun _ s => fun ft d i => s.fn (pos i) t ft d) fun _ _ _ => 0

/-- src/solver/SourcesManager.cpp:91-103: the degrees of freedom of one element are set to zero;
`global_tfsf_map.Find` of an absent element makes an invalid element number. -/
def zeroElement (r : Regions) (f : Fields K) (id : Int) : Option (Fields K) :=
  (r.parents.idxOf? id).map fun e => fun ft d i => if i ∈ r.dofs e then 0 else f ft d i

/-- src/solver/SourcesManager.cpp:75-104 `markDoFSforTForSF`: the elements of the other side, if there is one. -/
def zeroSide (r : Regions) (ids : Option (List Int)) (f : Fields K) : Option (Fields K) :=
  (ids.getD []).foldlM (zeroElement r) f

/-- src/evolution/MaxwellEvolutionMethods.cpp:8-33 `evalTimeVarFunction`, the path without direct evaluation, used by
the maxwell operator. -/
def fallback (r : Regions) (pos : Nat → List K) (ss : List (Source K)) (t : K) : Option (Fields K) := do
  let g := projected pos ss t
  let res ← zeroSide r r.sf g
  if r.sf.isSome then
    let other ← zeroSide r r.tf g
    pure fun ft d i => (res ft d i - other ft d i) * (1 / 2)
  else pure res

/-- src/evolution/MaxwellEvolution.cpp:275-328: the block for total fields runs once for every total-field source, each
time with the excitation of all of them.  `A` stands for the linear operators and transfers that turn the excitation
into a contribution to one unknown. -/
def maxwellTerm (r : Regions) (pos : Nat → List K) (ss : List (Source K)) (t : K) (A : Fields K → K) : Option K :=
  (ss.filterMap asTotal).foldlM (fun acc _ => (fallback r pos ss t).map fun f => acc + A f) 0

/-- One pair of nodes of the total-field surface for the nodal operator: position in the jumps on the scattered side and
on the total side, and node of the scattered side (src/evolution/HesthavenEvolution.cpp:100-103, the lists `mapBSF`,
`mapBTF`, `vmapBSF` read in parallel). -/
structure Pair where
  bsf  : Nat
  btf  : Nat
  node : Nat

/-- src/evolution/HesthavenEvolution.cpp:111-118: one pair and one source. -/
def addPair (pos : Nat → List K) (t : K) (s : Total K) (out : Fields K) (p : Pair) : Fields K :=
  fun ft d k =>
    let v := s.fn (pos p.node) t ft d
    let a := if k = p.bsf then out ft d k - v else out ft d k
    if k = p.btf then a + v else a

/-- src/evolution/HesthavenEvolution.cpp:97-124 `evaluateTFSF`. -/
def nodalTerm (pairs : List Pair) (pos : Nat → List K) (ss : List (Source K)) (t : K) (out : Fields K) : Fields K :=
  (ss.filterMap asTotal).foldl (fun o s => pairs.foldl (addPair pos t s) o) out

end Dgtd.Sources
