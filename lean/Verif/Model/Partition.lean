/-
Model of the partition post-processing, src/driver/driver.cpp:63-290.

`std::vector<T>` of size `n` and the raw `int*` partition are functions `Nat → T` read and written through
`rd`/`wr`, which fail (`none`) outside `[0, n)`.  `int` and `long long` are unbounded.
-/
import Mathlib.Logic.Function.Basic
import Mathlib.Data.List.Sort
import Mathlib.Data.Int.Basic

namespace Dgtd.Partition

/-- Read entry `i` of an array of `n` entries. (src/driver/driver.cpp:63-290) -/
def rd {α : Type} (n : Nat) (a : Nat → α) (i : Nat) : Option α := if i < n then some (a i) else none

/-- Write entry `i` of an array of `n` entries. (src/driver/driver.cpp:63-290) -/
def wr {α : Type} (n : Nat) (a : Nat → α) (i : Nat) (x : α) : Option (Nat → α) :=
  if i < n then some (Function.update a i x) else none

/-- A boundary element: its attribute and, when its face is interior, the two elements of
`GetInternalBdrFaceTransformations` (MFEM; null otherwise). (src/driver/driver.cpp:68-72) -/
structure BdrElem where
  attr : Int
  inner : Option (Int × Int)

/-- What the post-processing reads of an `mfem::Mesh`. (src/driver/driver.cpp:63-96) -/
structure Mesh where
  NE : Nat
  bdr : List BdrElem

/-- src/driver/driver.cpp:63-77 `buildTwoElementPairsByTagToSort`. -/
def pairsByTag (m : Mesh) (tags : List Int) : List (Int × Int) :=
  tags.flatMap fun t => m.bdr.filterMap fun b => if b.attr = t then b.inner else none

/-- src/driver/driver.cpp:79-96 `gatherConstraintPairs`. -/
def gatherConstraintPairs (m : Mesh) (tfsf sgbc : List Int) : List (Int × Int) :=
  (if tfsf.length > 0 then pairsByTag m tfsf else []) ++ (if sgbc.length > 0 then pairsByTag m sgbc else [])

/-- src/driver/driver.cpp:100-101. -/
def boundaryWeight : Int := 5
/-- `BULK_ELEM_WEIGHT`. (src/driver/driver.cpp:101) -/
def bulkWeight : Int := 1

/-- The guarded assignment of lines 111 and 112. (src/driver/driver.cpp) -/
def heavy (NE : Nat) (w : Nat → Int) (e : Int) : Nat → Int :=
  if 0 ≤ e ∧ e < NE then Function.update w e.toNat boundaryWeight else w

/-- src/driver/driver.cpp:105-115 `buildElementWeights`. -/
def buildElementWeights (NE : Nat) (pairs : List (Int × Int)) : Nat → Int :=
  pairs.foldl (fun w pr => heavy NE (heavy NE w pr.1) pr.2) (fun _ => bulkWeight)

/-- src/driver/driver.cpp:118-129 `computeWeightedLoad`. -/
def computeWeightedLoad (P NE : Nat) (part : Nat → Int) (weight : Nat → Int) : Nat → Int :=
  (List.range NE).foldl (fun load e =>
    let r := part e
    if 0 ≤ r ∧ r < P then Function.update load r.toNat (load r.toNat + weight e) else load) (fun _ => 0)

/-- src/driver/driver.cpp:133-144 `countBoundaryPairsPerRank`; the read `partitioning[pr.first]` is not
guarded in the code. -/
def countBoundaryPairsPerRank (P NE : Nat) (part : Nat → Int) (pairs : List (Int × Int)) : Option (Nat → Nat) :=
  pairs.foldlM (fun cnt pr => do
    let r ← if 0 ≤ pr.1 then rd NE part pr.1.toNat else none
    pure (if 0 ≤ r ∧ r < P then Function.update cnt r.toNat (cnt r.toNat + 1) else cnt)) (fun _ => 0)

/-- src/driver/driver.cpp:147-154 `leastLoadedRank` on a vector of `P` loads. -/
def leastLoadedRank (P : Nat) (load : Nat → Int) : Nat :=
  (List.range' 1 (P - 1)).foldl (fun best r => if load r < load best then r else best) 0

/-- Body of the loop of `assignComponent`, lines 164-168. (src/driver/driver.cpp) -/
def assignElem (NE P : Nat) (weight : Nat → Int) (rank : Nat) (st : (Nat → Int) × (Nat → Int)) (e : Nat) :
    Option ((Nat → Int) × (Nat → Int)) := do
  let old ← rd NE st.1 e
  let load1 ← if 0 ≤ old ∧ old < P then wr P st.2 old.toNat (st.2 old.toNat - weight e) else some st.2
  let part1 ← wr NE st.1 e (rank : Int)
  let load2 ← wr P load1 rank (load1 rank + weight e)
  pure (part1, load2)

/-- src/driver/driver.cpp:157-170 `assignComponent`. -/
def assignComponent (NE P : Nat) (weight : Nat → Int) (elems : List Nat) (rank : Nat)
    (st : (Nat → Int) × (Nat → Int)) : Option ((Nat → Int) × (Nat → Int)) :=
  elems.foldlM (assignElem NE P weight rank) st

/-- Disjoint-set forest, lines 193-195. (src/driver/driver.cpp) -/
structure Dsu where
  parent : Nat → Nat
  rank : Nat → Nat

/-- Lines 193-195: `iota` and zero ranks. (src/driver/driver.cpp) -/
def Dsu.init : Dsu := ⟨id, fun _ => 0⟩

/-- src/driver/driver.cpp:197-203 `find` with path halving.  The `while` loop runs on fuel; running out
of fuel is `none`. -/
def findLoop (NE : Nat) : Nat → (Nat → Nat) → Nat → Option (Nat × (Nat → Nat))
  | 0, _, _ => none
  | k + 1, par, x => do
    let p ← rd NE par x
    if p = x then pure (x, par)
    else
      let g ← rd NE par p
      let par' ← wr NE par x g
      let x' ← rd NE par' x
      findLoop NE k par' x'

/-- `find(x)`; `NE + 1` rounds of the loop are allowed. (src/driver/driver.cpp:197-203) -/
def find (NE : Nat) (d : Dsu) (x : Nat) : Option (Nat × Dsu) := do
  let (r, par) ← findLoop NE (NE + 1) d.parent x
  pure (r, ⟨par, d.rank⟩)

/-- Lines 206-209 once the roots are known. (src/driver/driver.cpp) -/
def link (NE : Nat) (d : Dsu) (a0 b0 : Nat) : Option Dsu := do
  if a0 = b0 then pure d
  else
    let ra ← rd NE d.rank a0
    let rb ← rd NE d.rank b0
    let (a, b) := if ra < rb then (b0, a0) else (a0, b0)
    let par ← wr NE d.parent b a
    let ra' ← rd NE d.rank a
    let rb' ← rd NE d.rank b
    if ra' = rb' then
      let rk ← wr NE d.rank a (ra' + 1)
      pure ⟨par, rk⟩
    else pure ⟨par, d.rank⟩

/-- src/driver/driver.cpp:204-210 `unite`. -/
def unite (NE : Nat) (d : Dsu) (a b : Nat) : Option Dsu := do
  let (ra, d1) ← find NE d a
  let (rb, d2) ← find NE d1 b
  link NE d2 ra rb

/-- src/driver/driver.cpp:212-216. -/
def uniteAll (NE : Nat) (pairs : List (Int × Int)) (d : Dsu) : Option Dsu :=
  pairs.foldlM (fun d pr =>
    if pr.1 < 0 ∨ pr.1 ≥ (NE : Int) ∨ pr.2 < 0 ∨ pr.2 ≥ (NE : Int) then pure d
    else unite NE d pr.1.toNat pr.2.toNat) d

/-- `std::unordered_map<int, std::vector<int>>` as a list of entries; its iteration order is left open by
`run` below. (src/driver/driver.cpp:218-239) -/
abbrev Comps := List (Nat × List Nat)

/-- `components[r]` creating the key if needed, then applying `f` to its vector. (src/driver/driver.cpp:220-239) -/
def Comps.modify (f : List Nat → List Nat) (r : Nat) : Comps → Comps
  | [] => [(r, f [])]
  | (k, v) :: rest => if k = r then (k, f v) :: rest else (k, v) :: Comps.modify f r rest

/-- Lines 234-236. (src/driver/driver.cpp) -/
def pushNew (e : Nat) (v : List Nat) : List Nat := if v.getLast? = some e then v else v ++ [e]

/-- The elements visited by `for (int e : {pr.first, pr.second}) if (e >= 0 && e < NE)`. (src/driver/driver.cpp:220-239) -/
def visited (NE : Nat) (pairs : List (Int × Int)) : List Nat :=
  pairs.flatMap fun pr => ([pr.1, pr.2].filter fun (e : Int) => decide (0 ≤ e ∧ e < (NE : Int))).map Int.toNat

/-- Lines 220-226 with `f = id`, lines 230-239 with `f = pushNew e`. (src/driver/driver.cpp) -/
def collect (NE : Nat) (f : Nat → List Nat → List Nat) (es : List Nat) (st : Dsu × Comps) :
    Option (Dsu × Comps) :=
  es.foldlM (fun st e => do
    let (r, d) ← find NE st.1 e
    pure (d, st.2.modify (f e) r)) st

/-- `std::unique` followed by `erase`: drops an element equal to its successor. (src/driver/driver.cpp:243) -/
def unique : List Nat → List Nat
  | [] => []
  | [a] => [a]
  | a :: b :: l => if a = b then unique (b :: l) else a :: unique (b :: l)

/-- Lines 242-243: sort, then `unique`/`erase`. (src/driver/driver.cpp) -/
def sortUnique (v : List Nat) : List Nat := unique (v.insertionSort (· ≤ ·))

/-- src/driver/driver.cpp:219-244: the element lists of the components. -/
def components (NE : Nat) (pairs : List (Int × Int)) (d : Dsu) : Option (List (List Nat)) := do
  let (d1, c1) ← collect NE (fun _ => id) (visited NE pairs) (d, [])
  let c2 := c1.map fun kv => (kv.1, ([] : List Nat))
  let (_, c3) ← collect NE pushNew (visited NE pairs) (d1, c2)
  pure (c3.map fun kv => sortUnique kv.2)

/-- Lines 254-255. (src/driver/driver.cpp) -/
def cost (weight : Nat → Int) (elems : List Nat) : Int := (elems.map weight).sum

/-- src/driver/driver.cpp:264-267. -/
def assignAll (NE P : Nat) (weight : Nat → Int) (comps : List (List Nat)) (st : (Nat → Int) × (Nat → Int)) :
    Option ((Nat → Int) × (Nat → Int)) :=
  comps.foldlM (fun st c => assignComponent NE P weight c (leastLoadedRank P st.2) st) st

/-- src/driver/driver.cpp:172-290 `applyPairwiseConstraintsPartitioning`, returning the partition and the load
vector used (`none`: undefined behaviour or non-termination).  `arrange` stands for the unspecified
iteration order of the hash map followed by the unstable `std::sort`.  Printing is not modelled, but the
reads it performs on rank 0 are. -/
def run (arrange : (Nat → Int) → List (List Nat) → List (List Nat)) (m : Mesh) (P : Nat) (part : Nat → Int)
    (tfsf sgbc : List Int) : Option ((Nat → Int) × Option (Nat → Int)) :=
  if m.NE = 0 ∨ P ≤ 1 then some (part, none)
  else
    let pairs := gatherConstraintPairs m tfsf sgbc
    if pairs = [] then some (part, none)
    else do
      let weight := buildElementWeights m.NE pairs
      let load := computeWeightedLoad P m.NE part weight
      let d ← uniteAll m.NE pairs Dsu.init
      let comps ← components m.NE pairs d
      let (part', load') ← assignAll m.NE P weight (arrange weight comps) (part, load)
      let _ ← countBoundaryPairsPerRank P m.NE part' pairs
      pure (part', some load')

end Dgtd.Partition
