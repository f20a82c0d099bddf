/-
Specification side of the thin-layer evolution: what a layer's advance is as a function of its own fields only.
-/
import Verif.Model.SgbcEvol

namespace Dgtd.SgbcEvol.Spec

open Sgbc SgbcEvol

variable {σ K : Type} [Field K] [LinearOrder K] [IsStrictOrderedRing K] [FloorRing K]

/-- The inner time integrator is a function of the fields, the time and the (positive) step: its private state, as
long as it satisfies `ok`, does not influence the result.  (Shown of the implicit integrator in C31.) -/
structure Functional (L : Layer σ K) (ok : σ → Prop) (p : (Nat → K) → K → K → Option (Nat → K)) : Prop where
  run : ∀ s x t d, ok s → 0 < d →
    (p x t d = none ∧ L.step s x t d = none) ∨ ∃ y s', p x t d = some y ∧ L.step s x t d = some (y, s') ∧ ok s'

/-- One sub-step of one layer as a function of its fields. -/
def advance1 (p : (Nat → K) → K → K → Option (Nat → K)) (j : Job K) (x : Nat → K) (s : SubStep K) :
    Option (Nat → K) :=
  (j.upd s x).bind fun a =>
    match solveStep s.start s.len with
    | none => some a
    | some (t, d) => p a t d

/-- The whole advance of one layer as a function of its fields. -/
def advance (p : (Nat → K) → K → K → Option (Nat → K)) (j : Job K) (x : Nat → K) : Option (Nat → K) :=
  if j.skip then some x else j.steps.foldlM (advance1 p j) x

/-- The advance of one state: its own job, its own fields. -/
def advanceSt (p : Int → (Nat → K) → K → K → Option (Nat → K)) (job : St K → Option (Job K)) (st : St K) :
    Option (St K) := do
  let j ← job st
  let x ← advance (p st.tag) j st.fields
  some { st with fields := x }

/-- All states, each on its own. -/
def advanceAll (p : Int → (Nat → K) → K → K → Option (Nat → K)) (job : St K → Option (Job K)) :
    List (St K) → Option (List (St K))
  | [] => some []
  | st :: r => do
    let s ← advanceSt p job st
    let r ← advanceAll p job r
    some (s :: r)

/-- The part of a state fixed at construction. -/
def frame (st : St K) : Int × NodePair × (Fin 9 → K) := (st.tag, st.pair, st.rot)

/-- The operators only refer to existing entries (established by the assembly, C04). -/
structure InBounds (S : Sys σ K) : Prop where
  global : ∀ r, ∀ e ∈ S.globalRows r, e.1 < 6 * S.B
  tfsf : ∀ T, S.tfsf = some T → ∀ r, ∀ e ∈ T.rows r, e.1 < 6 * S.B
  sgbc : ∀ R, S.sgbcRows = some R → ∀ r, ∀ e ∈ R r, e.1 < 6 * S.B

/-- What can be observed of a thin-layer state: where it is, and its fields. -/
def core (st : St K) : (Int × NodePair × (Fin 9 → K)) × (Nat → K) := (frame st, st.fields)

/-- A request to the evolution object between two time steps, by an explicit or an implicit time integrator: time,
fields, and what uninitialised memory happens to contain. -/
inductive Call (K : Type)
  | explicit (t : K) (inp junk : Nat → K)
  | implicit (t : K) (x junk : Nat → K)

/-- The answer to a request. -/
def answer (S : Sys σ K) : Call K → Ev σ K → Option ((Nat → K) × Ev σ K)
  | .explicit t inp junk, ev => mult S t inp junk ev
  | .implicit t x junk, ev => implicitRhs S t x junk ev

/-- The same request with other contents of uninitialised memory. -/
def Call.withJunk (junk : Nat → K) : Call K → Call K
  | .explicit t inp _ => .explicit t inp junk
  | .implicit t x _ => .implicit t x junk

/-- A history of requests. -/
def history (S : Sys σ K) : Ev σ K → List (Call K) → Option (Ev σ K)
  | ev, [] => some ev
  | ev, c :: r => (answer S c ev).bind fun q => history S q.2 r

/-- A global time step as `Solver::step` drives it (src/solver/Solver.cpp:535-551): commit, any requests of the
time integrator, end-of-step advance. -/
def step (S : Sys σ K) (base dt : K) (before after : Nat → K) (calls : List (Call K)) (ev : Ev σ K) :
    Option (Ev σ K) := do
  let ev ← commit S base dt before ev
  let ev ← history S ev calls
  finalize S after ev

/-! ### the flux of one face -/

/-- Six components from the two triples. -/
def comps (e h : Fin 3 → K) (c : Nat) : K :=
  if hc : c < 3 then e ⟨c, hc⟩ else if hc : c - 3 < 3 then h ⟨c - 3, hc⟩ else 0

/-- The outer field at a node. -/
def outer (ndofs : Nat) (inp : Nat → K) (node : Nat) (c : Nat) : K := inp (c * ndofs + node)

/-- The field at a node of the layer, in the global frame. -/
def surface (n : Nat) (st : St K) (idx : Nat) : Nat → K :=
  comps (FaceRotation.toGlobal st.rot fun d => st.fields (d.val * n + idx))
    (FaceRotation.toGlobal st.rot fun d => st.fields ((3 + d.val) * n + idx))

/-- What an element sees on the other side of a layer surface: the mirror field, or the layer's surface field. -/
def seen (b : Face) (own surf : Nat → K) (c : Nat) : K :=
  match b with
  | .PEC => if c < 3 then -own c else own c
  | .PMC => if c < 3 then own c else -own c
  | .SMA => own c
  | .slab => surf c

/-- The vector with values `x` at node `gl`, `y` at node `gr`, and zero elsewhere. -/
def faceVec (B gl gr : Nat) (x y : Nat → K) (k : Nat) : K :=
  if k % B = gl then x (k / B) else if k % B = gr then y (k / B) else 0

/-- The rows of the nodes of a list. -/
def rowsOf (ndofs : Nat) (dofs : List Nat) : List Nat :=
  (List.range 6).flatMap fun comp => dofs.map fun dof => comp * ndofs + dof

/-- Entry `c` of the assembled vector belongs to a node of the pair. -/
def touches (B : Nat) (pair : NodePair) (c : Nat) : Prop :=
  ∃ comp : Nat, comp < 6 ∧ ((c : Int) = (comp * B : Nat) + pair.1 ∨ (c : Int) = (comp * B : Nat) + pair.2)

/-- What one face adds to the rate of change of a row: for the element on its first side, the operator applied to
the own field and what is seen on the left surface; for the element on the second side, to what is seen on the right
surface and the own field. -/
def faceFlux (S : Sys σ K) (rows : Rows K) (inp : Nat → K) (st : St K) (gl gr : Nat) (r : Nat) : K :=
  let L := S.layers st.tag
  let own1 := outer S.ndofs inp gl
  let own2 := outer S.ndofs inp gr
  (if r ∈ rowsOf S.ndofs S.elem1 then
    rowDot (rows r) (faceVec S.B gl gr own1 (seen L.left own1 (surface L.n st L.G))) else 0) +
  (if r ∈ rowsOf S.ndofs S.elem2 then
    rowDot (rows r) (faceVec S.B gl gr (seen L.right own2 (surface L.n st (L.n - 1 - L.G))) own2) else 0)

end Dgtd.SgbcEvol.Spec
