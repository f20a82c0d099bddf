/-
Specification side of the source faces: splitting a mesh into a total-field and a scattered-field region, and
thin-layer faces whose two sides have matching nodes.
-/
import Verif.Model.OpSource
import Verif.Spec.Op

namespace Dgtd.Op.Spec

open Dgtd.Op

variable {ι K : Type} [Fintype ι] [DecidableEq ι] [Field K] [LinearOrder K]

/-- Sum of the waves of all sources. -/
def total (waves : List (State ι K)) : State ι K := fun f d i => (waves.map fun w => w f d i).sum

/-- What the solver stores when the field is `u`: `u` where the total field is computed, `u - w` where the scattered
field is. -/
def split (sf : ι → Bool) (u w : State ι K) : State ι K := fun f d i => if sf i = true then u f d i - w f d i else u f d i

/-- The two sides of a face see the same values of `w`. -/
def SameTraces (F : Face ι K) (w : State ι K) : Prop := ∀ p ∈ F.pts, ∀ f d, tr1 F p (w f d) = tr2 F p (w f d)

/-- All nodes of a face, or of one of its sides, are in the same region. -/
def AllIn (sf : ι → Bool) (b : Bool) (F : Face ι K) : Prop := ∀ i < F.ndof1 + F.ndof2, sf (F.dofs i) = b
def FirstIn (sf : ι → Bool) (b : Bool) (F : Face ι K) : Prop := ∀ i < F.ndof1, sf (F.dofs i) = b
def SecondIn (sf : ι → Bool) (b : Bool) (F : Face ι K) : Prop := ∀ i < F.ndof2, sf (F.dofs (F.ndof1 + i)) = b

/-- The total-field surface separates the scattered-field region `sf` from the rest: elements lie in one region (so
element matrices do not mix regions), the marked faces, which carry no other condition, have one side in each, and no
other face has. -/
structure Splits (C : Case ι K) (sf : ι → Bool) : Prop where
  minv : ∀ f r c, sf r ≠ sf c → C.Minv f r c = 0
  msig : ∀ r c, sf r ≠ sf c → C.Msig r c = 0
  deriv : ∀ d r c, sf r ≠ sf c → C.D d r c = 0
  marked : ∀ q ∈ C.interior, q.tf = true → q.cond = none ∧ ∃ b, FirstIn sf b q.face ∧ SecondIn sf (!b) q.face
  other : ∀ q ∈ C.interior, q.tf = false → ∃ b, AllIn sf b q.face
  bdr : ∀ q ∈ C.bdr, ∃ b, AllIn sf b q.2

/-- The source sub-mesh has the elements on both sides of the surface, and its scattered part is on the scattered
side. -/
def TwoSided (C : Case ι K) (sf : ι → Bool) : Prop :=
  ∃ l, C.sfSub = some l ∧ ∀ F ∈ C.tfFaces, ∀ i < F.ndof1 + F.ndof2,
    F.dofs i ∈ C.sub ∧ (F.dofs i ∈ l ↔ sf (F.dofs i) = true)

/-- The source sub-mesh has only the elements on the total-field side. -/
def OneSided (C : Case ι K) (sf : ι → Bool) : Prop :=
  C.sfSub = none ∧ ∀ F ∈ C.tfFaces, ∀ i < F.ndof1 + F.ndof2, (F.dofs i ∈ C.sub ↔ sf (F.dofs i) = false)

/-! ### thin layers -/

/-- The same case with the thin layers replaced: by nothing (`none`), or by walls. -/
def replaceLayers (c : Option BdrCond) (C : Case ι K) : Case ι K :=
  { C with interior := C.interior.map fun q => if q.cond = some .SGBC then { q with cond := c } else q }

/-- Fields that have equal values at the two nodes of every pair have equal traces on the face: `a` on the side of the
first nodes, `b` on the side of the second ones.  `fwd` says that the first nodes are on the first side of the face. -/
def Paired (l : List (Pair ι K)) (fwd : Bool) (F : Face ι K) : Prop :=
  ∀ a b : ι → K, (∀ s ∈ l, a s.first = b s.second) → ∀ p ∈ F.pts,
    if fwd then tr1 F p a = tr2 F p b else tr2 F p a = tr1 F p b

/-- Thin-layer faces with matching nodes; `e1` and `e2` are the nodes of the elements on the first and second sides.
No node is in two pairs, no element has a layer on both its first and its second side. -/
structure LayerFaces (C : Case ι K) (l : List (Pair ι K)) (e1 e2 : List ι) : Prop where
  nodup : (l.map Pair.first ++ l.map Pair.second).Nodup
  disjoint : ∀ i ∈ e1, i ∉ e2
  sides : ∀ F ∈ C.sgbcFaces, ∃ fwd, Paired l fwd F ∧
    if fwd then (∀ i < F.ndof1, F.dofs i ∈ e1) ∧ ∀ i < F.ndof2, F.dofs (F.ndof1 + i) ∈ e2
    else (∀ i < F.ndof1, F.dofs i ∈ e2) ∧ ∀ i < F.ndof2, F.dofs (F.ndof1 + i) ∈ e1
  minv1 : ∀ f r c, (r ∈ e1) ≠ (c ∈ e1) → C.Minv f r c = 0
  minv2 : ∀ f r c, (r ∈ e2) ≠ (c ∈ e2) → C.Minv f r c = 0

/-- Every layer shows on each surface the field on its other side. -/
def Transparent (u : State ι K) (l : List (Pair ι K)) : Prop :=
  ∀ s ∈ l, s.left = .slab (fun f d => u f d s.second) ∧ s.right = .slab (fun f d => u f d s.first)

/-- Every layer has the given condition on both surfaces. -/
def BothSurfaces (c : Surf K) (l : List (Pair ι K)) : Prop := ∀ s ∈ l, s.left = c ∧ s.right = c

end Dgtd.Op.Spec
