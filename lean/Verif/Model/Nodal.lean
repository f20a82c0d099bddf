/-
Model of the nodal (hesthaven) operator: src/evolution/HesthavenEvolution.cpp.

Fields are functions of the node, jumps and fluxes of the face position (`connectivity_.global[v]`).  `double` is an element
of an ordered field.  All the elements are linear unless said otherwise: the branch for curved elements (lines 536-538)
applies rows of the global operator and is not modelled here.
-/
import Mathlib.Algebra.Order.Field.Basic
import Mathlib.Data.Fin.VecNotation

namespace Dgtd.Nodal

variable {K : Type} [Field K]

/-- Three components. (src/evolution/HesthavenEvolutionMethods.h:130-133) -/
abbrev V3 (K : Type) := Fin 3 → K

/-- Electric and magnetic field. (src/evolution/HesthavenEvolutionMethods.h:130-133) -/
structure Fields (K : Type) where
  e : Nat → V3 K
  h : Nat → V3 K

/-- src/evolution/HesthavenEvolution.cpp:499-502: `ndotdH`, `ndotdE` at one face node. -/
def ndot (n d : V3 K) : K := n 0 * d 0 + n 1 * d 1 + n 2 * d 2

/-- src/evolution/HesthavenEvolution.cpp:507-514: magnetic flux at one face node; the sums of indices are modulo three. -/
def fluxH (alpha : K) (n dE dH : V3 K) (x : Fin 3) : K :=
  -1 * n (x + 1) * dE (x + 2) + n (x + 2) * dE (x + 1) + alpha * (dH x - ndot n dH * n x)

/-- src/evolution/HesthavenEvolution.cpp:507-515: electric flux at one face node. -/
def fluxE (alpha : K) (n dE dH : V3 K) (x : Fin 3) : K :=
  n (x + 1) * dH (x + 2) - n (x + 2) * dH (x + 1) + alpha * (dE x - ndot n dE * n x)

/-- src/evolution/HesthavenEvolution.cpp:471-478: jumps from the connectivity. -/
def jumps (c : Nat → Nat × Nat) (u : Fields K) : Fields K where
  e := fun p x => u.e (c p).2 x - u.e (c p).1 x
  h := fun p x => u.h (c p).2 x - u.h (c p).1 x

/-- Assignment of both jumps of a position from the traces at a node (src/evolution/HesthavenEvolution.cpp:282-283).  The
loop over components is inside those over nodes here and outside there; components do not mix. -/
def assign (u j : Fields K) (pos node : Nat) (ce ch : K) : Fields K where
  e := fun p x => if p = pos then ce * u.e node x else j.e p x
  h := fun p x => if p = pos then ch * u.h node x else j.h p x

/-- src/evolution/HesthavenEvolution.cpp:277-288 `applyBdrBC`: pairs of position and node, all the faces of the condition one
after another; `curved` is `isDoFinCurvedElement`. -/
def applyBdr (curved : Nat → Bool) (u : Fields K) (ce ch : K) (l : List (Nat × Nat)) (j : Fields K) : Fields K :=
  l.foldl (fun j q => if curved q.2 then j else assign u j q.1 q.2 ce ch) j

/-- A node pair of an interior face: positions and nodes of both sides. (src/evolution/HesthavenEvolutionMethods.h:80-92) -/
structure IntPair where
  pos1  : Nat
  pos2  : Nat
  node1 : Nat
  node2 : Nat

/-- src/evolution/HesthavenEvolution.cpp:294-307 `applyIntBdrBC`. -/
def applyInt (curved : Nat → Bool) (u : Fields K) (ce ch : K) (l : List IntPair) (j : Fields K) : Fields K :=
  l.foldl (fun j q => if curved q.node1 && curved q.node2 then j
    else assign u (assign u j q.pos1 q.node1 ce ch) q.pos2 q.node2 ce ch) j

/-- `BoundaryMaps` (src/evolution/HesthavenEvolutionMethods.h:94-102), without the total-field maps. -/
structure BdrMaps where
  pec  : List (Nat × Nat)
  pmc  : List (Nat × Nat)
  sma  : List (Nat × Nat)
  ipec : List IntPair
  ipmc : List IntPair
  isma : List IntPair

/-- src/evolution/HesthavenEvolution.cpp:275-313 `applyBoundaryConditionsToNodes`. -/
def applyBC (curved : Nat → Bool) (alpha : K) (b : BdrMaps) (u j : Fields K) : Fields K :=
  applyInt curved u (-1 / 2) (-1 / 2) b.isma <|
  applyInt curved u 0 (-1) b.ipmc <|
  applyInt curved u (-1) 0 b.ipec <|
  applyBdr curved u (-1 / alpha) (-1 / alpha) b.sma <|
  applyBdr curved u 0 (-2) b.pmc <|
  applyBdr curved u (-2) 0 b.pec j

/-- A node of the total-field surface: positions of its scattered and total sides and the node at which the source is
evaluated. (src/evolution/HesthavenEvolutionMethods.h:87-92) -/
structure TfNode where
  sf   : Nat
  tf   : Nat
  node : Nat

/-- src/evolution/HesthavenEvolution.cpp:111-118: one node and one source; `inc` is the incident field at the nodes at the
current time. -/
def addIncident (inc : Fields K) (j : Fields K) (q : TfNode) : Fields K :=
  let j1 : Fields K := {
    e := fun p x => if p = q.sf then j.e p x - inc.e q.node x else j.e p x
    h := fun p x => if p = q.sf then j.h p x - inc.h q.node x else j.h p x }
  { e := fun p x => if p = q.tf then j1.e p x + inc.e q.node x else j1.e p x
    h := fun p x => if p = q.tf then j1.h p x + inc.h q.node x else j1.h p x }

/-- One source at all the nodes of the total-field surface; sources of another type are skipped (`none`).
(src/evolution/HesthavenEvolution.cpp:97-124) -/
def addSource (l : List TfNode) (j : Fields K) (s : Option (Fields K)) : Fields K :=
  match s with
  | none => j
  | some inc => l.foldl (addIncident inc) j

/-- src/evolution/HesthavenEvolution.cpp:97-124 `evaluateTFSF`. -/
def evaluateTFSF (sources : List (Option (Fields K))) (l : List TfNode) (j : Fields K) : Fields K :=
  sources.foldl (addSource l) j

/-- Derivative and lift matrices of all the elements together: `D d` multiplies the nodes of each element by its matrix
`dir[d]`, `lift` is `applyLIFT` (src/evolution/HesthavenEvolution.cpp:126-132) from the positions of each element to its
nodes. -/
structure Ops (K : Type) where
  D    : Fin 3 → (Nat → K) → Nat → K
  lift : (Nat → K) → Nat → K

/-- src/evolution/HesthavenEvolution.cpp:526: `eResult`. -/
def outE (o : Ops K) (alpha : K) (n : Nat → V3 K) (u j : Fields K) (x : Fin 3) (i : Nat) : K :=
  o.D (x + 1) (fun i => u.h i (x + 2)) i - 1 * o.D (x + 2) (fun i => u.h i (x + 1)) i
    + o.lift (fun p => fluxE alpha (n p) (j.e p) (j.h p) x) i

/-- src/evolution/HesthavenEvolution.cpp:525: `hResult`. -/
def outH (o : Ops K) (alpha : K) (n : Nat → V3 K) (u j : Fields K) (x : Fin 3) (i : Nat) : K :=
  -1 * o.D (x + 1) (fun i => u.e i (x + 2)) i + o.D (x + 2) (fun i => u.e i (x + 1)) i
    + o.lift (fun p => fluxH alpha (n p) (j.e p) (j.h p) x) i

end Dgtd.Nodal
