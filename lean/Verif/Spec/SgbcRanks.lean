/-
Thin layers on several ranks: what it means that a rank holds a part of the whole problem, and requests to the evolution objects.
-/
import Verif.Spec.SgbcEvol
import Mathlib.Algebra.BigOperators.Group.Finset.Basic

namespace Dgtd.SgbcEvol.Spec

open Sgbc SgbcEvol

variable {σ K : Type} [Field K] [LinearOrder K] [IsStrictOrderedRing K] [FloorRing K]

/-- The entries of the six components of the whole (`nd` nodes each) that a numbering `φ` of `nq` nodes picks, block by block. -/
def pull (nd nq : Nat) (φ : Nat → Nat) (u : Nat → K) : Nat → K := fun k => u (k / nq * nd + φ (k % nq))

/-- A node number of the rank as a node number of the whole; `-1` (no node) stays. -/
def renode (φ : Nat → Nat) (n : Int) : Int := if 0 ≤ n then (φ n.toNat : Int) else n

/-- The layer `q` of the rank with `nq` nodes is the layer `st` of the whole: both its nodes belong to the rank. -/
structure SameLayer (nq : Nat) (φ : Nat → Nat) (st q : St K) : Prop where
  tag : q.tag = st.tag
  rot : q.rot = st.rot
  fields : q.fields = st.fields
  old : q.ghostOld = st.ghostOld
  new : q.ghostNew = st.ghostNew
  first : st.pair.1 = renode φ q.pair.1
  second : st.pair.2 = renode φ q.pair.2
  own1 : 0 ≤ q.pair.1 ∧ q.pair.1 < nq
  own2 : q.pair.2 = -1 ∨ 0 ≤ q.pair.2 ∧ q.pair.2 < nq

/-- The layer `st` of the whole has its nodes on other ranks. -/
structure Foreign (nd nq : Nat) (φ : Nat → Nat) (st : St K) : Prop where
  node1 : 0 ≤ st.pair.1 ∧ st.pair.1 < nd
  node2 : st.pair.2 = -1 ∨ 0 ≤ st.pair.2 ∧ st.pair.2 < nd
  away : ∀ i < nq, st.pair.1 ≠ (φ i : Int) ∧ st.pair.2 ≠ (φ i : Int)

/-- The layers of the whole with their checkpoints, and those of the rank: the rank has its own ones, in the same order. -/
inductive Dealt (nd nq : Nat) (φ : Nat → Nat) : List (St K) → List (Cp K) → List (St K) → List (Cp K) → Prop
  | nil : Dealt nd nq φ [] [] [] []
  | other {st r c cs qs ds} : Foreign nd nq φ st → Dealt nd nq φ r cs qs ds → Dealt nd nq φ (st :: r) (c :: cs) qs ds
  | own {st r c cs q qs ds} : SameLayer nq φ st q → Dealt nd nq φ r cs qs ds → Dealt nd nq φ (st :: r) (c :: cs) (q :: qs) (c :: ds)

/-- The row of every own node of the rank is the row of the whole, with columns renumbered. -/
def SameRows (S Q : Sys σ K) (φ : Nat → Nat) (R RQ : Rows K) : Prop :=
  ∀ c < 6, ∀ i < Q.ndofs, ∀ v, rowDot (R (c * S.ndofs + φ i)) v = rowDot (RQ (c * Q.ndofs + i)) (pull S.ndofs Q.B φ v)

/-- `Q` is the part of the problem `S` that a rank holds; `φ` numbers its own nodes and then the ones it receives from its neighbours.  Rows of
the thin-layer operator refer to own nodes: the two sides of a layer are on the same rank.  No plane-wave source. -/
structure Part (S Q : Sys σ K) (φ : Nat → Nat) : Prop where
  whole : S.nbr = 0
  node : ∀ i < Q.B, φ i < S.ndofs
  inj : ∀ i < Q.B, ∀ j < Q.B, φ i = φ j → i = j
  layers : Q.layers = S.layers
  noSource : S.tfsf = none ∧ Q.tfsf = none
  boundS : InBounds S
  boundQ : InBounds Q
  global : SameRows S Q φ S.globalRows Q.globalRows
  without : S.sgbcRows = none → Q.sgbcRows = none
  absent : S.sgbcRows ≠ none → Q.sgbcRows = none → ∀ i < Q.ndofs, φ i ∉ S.elem1 ∧ φ i ∉ S.elem2
  sgbc : ∀ R RQ, S.sgbcRows = some R → Q.sgbcRows = some RQ →
    SameRows S Q φ R RQ ∧ ∀ c < 6, ∀ i < Q.ndofs, ∀ e ∈ RQ (c * Q.ndofs + i), e.1 % Q.B < Q.ndofs
  elem1 : ∀ i < Q.ndofs, i ∈ Q.elem1 ↔ φ i ∈ S.elem1
  elem2 : ∀ i < Q.ndofs, i ∈ Q.elem2 ↔ φ i ∈ S.elem2
  nodup : S.elem1.Nodup ∧ S.elem2.Nodup ∧ Q.elem1.Nodup ∧ Q.elem2.Nodup
  lt : (∀ i ∈ S.elem1, i < S.ndofs) ∧ (∀ i ∈ S.elem2, i < S.ndofs) ∧ (∀ i ∈ Q.elem1, i < Q.ndofs) ∧ ∀ i ∈ Q.elem2, i < Q.ndofs

/-- The rank after the exchange with its neighbours when the fields of the whole are `u`. -/
def receiving (S Q : Sys σ K) (φ : Nat → Nat) (u : Nat → K) : Sys σ K :=
  { Q with nbrData := fun _ c i => u (c.val * S.ndofs + φ (Q.ndofs + i)) }

/-- What the time loop asks of the evolution object in a run: a checkpoint at the beginning of a step, rates of change, and the advance of
the layers at the end of the step (src/solver/Solver.cpp:535-551). -/
inductive Req (K : Type)
  | commit (base dt : K) (u : Nat → K)
  | rate (t : K) (u : Nat → K)
  | finish (u : Nat → K)

/-- The fields a request is about. -/
def Req.fields : Req K → Nat → K
  | .commit _ _ u => u
  | .rate _ u => u
  | .finish u => u

/-- The same request with the fields as a rank sees them. -/
def Req.onRank (S Q : Sys σ K) (φ : Nat → Nat) : Req K → Req K
  | .commit base dt u => .commit base dt (pull S.ndofs Q.ndofs φ u)
  | .rate t u => .rate t (pull S.ndofs Q.ndofs φ u)
  | .finish u => .finish (pull S.ndofs Q.ndofs φ u)

/-- The answer to a request: a rate of change, if it was asked for; `junk` is what uninitialised memory contains. -/
def serve (S : Sys σ K) (junk : Nat → K) (ev : Ev σ K) : Req K → Option (Option (Nat → K) × Ev σ K)
  | .commit base dt u => (commit S base dt u ev).map fun e => (none, e)
  | .rate t u => (mult S t u junk ev).map fun q => (some q.1, q.2)
  | .finish u => (finalize S u ev).map fun e => (none, e)

/-- A run on one rank. -/
def serveAll (S : Sys σ K) (junk : Nat → K) : Ev σ K → List (Req K) → Option (List (Option (Nat → K)) × Ev σ K)
  | ev, [] => some ([], ev)
  | ev, r :: rs => do
    let (a, ev) ← serve S junk ev r
    let (as, ev) ← serveAll S junk ev rs
    some (a :: as, ev)

/-- The same run as seen by one of several ranks: it works on its part of the fields and receives its neighbours' values before each request. -/
def serveRank (S Q : Sys σ K) (φ : Nat → Nat) (junk : Nat → K) : Ev σ K → List (Req K) → Option (List (Option (Nat → K)) × Ev σ K)
  | ev, [] => some ([], ev)
  | ev, r :: rs => do
    let (a, ev) ← serve (receiving S Q φ r.fields) junk ev (r.onRank S Q φ)
    let (as, ev) ← serveRank S Q φ junk ev rs
    some (a :: as, ev)

/-- The outer fields vanish at the nodes of a layer. -/
def Still (nd : Nat) (u : Nat → K) (st : St K) : Prop :=
  ∀ node : Nat, (st.pair.1 = node ∨ st.pair.2 = node) → ∀ c < 6, u (c * nd + node) = 0

/-- Sum of the squares of the six fields at a node; nothing for `-1` (no node). -/
def nodeSq (nd : Nat) (u : Nat → K) (n : Int) : K := if 0 ≤ n then ∑ c ∈ Finset.range 6, u (c * nd + n.toNat) ^ 2 else 0

/-- The layer counts: its fields, or the outer fields at its nodes, have norm at least `1e-8`. -/
def Audible (S : Sys σ K) (u : Nat → K) (st : St K) : Prop :=
  1 / 10 ^ 16 ≤ ∑ i ∈ Finset.range (6 * (S.layers st.tag).n), st.fields i ^ 2 ∨
  1 / 10 ^ 16 ≤ nodeSq S.ndofs u st.pair.1 + nodeSq S.ndofs u st.pair.2

/-- Every layer counts or vanishes, when the request arrives. -/
def Sound (S : Sys σ K) (ev : Ev σ K) : Req K → Prop
  | .commit _ _ _ => True
  | .rate _ u => ∀ sts, restore ev.states (ev.cp.getD []) = some sts → ∀ st ∈ sts,
      Audible S u st ∨ (st.fields = fun _ => 0) ∧ Still S.ndofs u st
  | .finish u => 0 < ev.dt ∧ ∀ sts, finalRestore S u ev.states (ev.cp.getD []) = some sts → ∀ st ∈ sts,
      Audible S u st ∨ (st.fields = fun _ => 0) ∧ st.ghostOld = 0 ∧ st.ghostNew = 0

/-- `Sound` along a run. -/
def SoundRun (S : Sys σ K) (junk : Nat → K) : Ev σ K → List (Req K) → Prop
  | _, [] => True
  | ev, r :: rs => Sound S ev r ∧ ∀ a e, serve S junk ev r = some (a, e) → SoundRun S junk e rs

/-- The evolution objects of the whole and of the rank are in corresponding states: both without checkpoint, or with corresponding ones. -/
structure Match (S Q : Sys σ K) (φ : Nat → Nat) (ev evQ : Ev σ K) : Prop where
  base : evQ.base = ev.base
  dt : evQ.dt = ev.dt
  bare : Q.sgbcRows = none → evQ.states = []
  dealt : (ev.cp = none ∧ evQ.cp = none ∧ Dealt S.ndofs Q.ndofs φ ev.states (ev.states.map fun _ => ⟨fun _ => 0, 0⟩) evQ.states
      (evQ.states.map fun _ => ⟨fun _ => 0, 0⟩)) ∨
    ∃ cs ds, ev.cp = some cs ∧ evQ.cp = some ds ∧ Dealt S.ndofs Q.ndofs φ ev.states cs evQ.states ds

/-- An answer of the rank is the part of the answer of the whole. -/
def AnswerPart (S Q : Sys σ K) (φ : Nat → Nat) : Option (Nat → K) → Option (Nat → K) → Prop
  | none, none => True
  | some a, some b => ∀ c < 6, ∀ i < Q.ndofs, b (c * Q.ndofs + i) = a (c * S.ndofs + φ i)
  | _, _ => False

end Dgtd.SgbcEvol.Spec
