/-
Model of the field storage (src/evolution/Fields.h) and of the offset tables that address it
(src/components/DGOperatorFactory.h, src/components/EigenvalueEstimator.cpp,
src/evolution/MaxwellEvolution.cpp).

The state vector is a list of values; a grid function made with `MakeRef(all_dofs_, offset, size)` is a
window (offset, size) on it.
-/
import Verif.Model.Op

namespace Dgtd.Fields

open Dgtd.Op

variable {K : Type}

/-- A window made by `MakeRef`. (src/evolution/Fields.h:33-66) -/
structure View where
  off : Nat
  len : Nat
  deriving DecidableEq, Repr

/-- src/evolution/Fields.h:48-49 `all_dofs_.SetSize(6 * fes.GetNDofs()); all_dofs_ = 0.0`. -/
def initial [Zero K] (n : Nat) : List K := List.replicate (6 * n) 0

/-- src/evolution/Fields.h:50-57 with `get(f, d)`, 69-93. -/
def comp (n : Nat) : FieldT → Dir → View
  | .E, d => ⟨d.val * n, n⟩
  | .H, d => ⟨(d.val + 3) * n, n⟩

/-- src/evolution/Fields.h:62-65 with `get(f)`, 95-105: `all_dofs_.Size() / 2`. -/
def whole (all : List K) : FieldT → View
  | .E => ⟨0, all.length / 2⟩
  | .H => ⟨all.length / 2, all.length / 2⟩

/-- Reading entry `i` of a view; `none` is out of range of the view. (src/evolution/Fields.h:68-104) -/
def get (all : List K) (v : View) (i : Nat) : Option K :=
  if i < v.len then all[v.off + i]? else none

/-- Writing entry `i` of a view. (src/evolution/Fields.h:68-104) -/
def set (all : List K) (v : View) (i : Nat) (x : K) : Option (List K) :=
  if i < v.len ∧ v.off + i < all.length then some (all.set (v.off + i) x) else none

/-- src/components/DGOperatorFactory.h:64-65 with no neighbour dofs (line 66 then agrees). -/
def rowStart (n : Nat) (f : FieldT) (d : Dir) : Nat := (3 * f.idx + d.val) * n

/-- src/components/EigenvalueEstimator.cpp:6-34 `getOffset`. -/
def getOffset (n : Nat) : FieldT → Dir → Nat
  | .E, 0 => 0
  | .E, 1 => n
  | .E, 2 => 2 * n
  | .H, 0 => 3 * n
  | .H, 1 => 4 * n
  | .H, 2 => 5 * n

end Dgtd.Fields
