/-
Vocabulary for the properties of the thin-layer mesh: where a layer starts, counted in elements and in depth.
-/
import Verif.Model.SgbcMesh
import Mathlib.Algebra.BigOperators.Group.List.Defs

namespace Dgtd.Sgbc.Spec

variable {K : Type} [Field K] {M : Type}

/-- Number of elements of the layers in front of layer `li`. -/
def elemsBefore (ls : List (Layer K M)) (li : Nat) : Nat := ((ls.take li).map (·.segs)).sum

/-- Thickness of the layers in front of layer `li`. -/
def depthBefore (ls : List (Layer K M)) (li : Nat) : K := ((ls.take li).map (·.width)).sum

/-- Number of elements and thickness of the whole stack. -/
def allElems (ls : List (Layer K M)) : Nat := (ls.map (·.segs)).sum

def thickness (ls : List (Layer K M)) : K := (ls.map (·.width)).sum

end Dgtd.Sgbc.Spec
