/-
Specification side of the launching of waves by the component-wise operator.
-/
import Verif.Spec.OpSource
import Verif.Model.OpMaxwellSource

namespace Dgtd.Op.Spec

open Dgtd.Op

variable {ι K : Type} [Fintype ι] [DecidableEq ι] [Field K] [LinearOrder K]

/-- The sub-mesh around the surface: it has the elements on both sides (element matrices do not leave it), and its
scattered part is on the scattered side. -/
structure Around (C : Case ι K) (sf : ι → Bool) : Prop where
  minv : ∀ f r c, (r ∈ C.sub) ≠ (c ∈ C.sub) → C.Minv f r c = 0
  faces : ∀ F ∈ C.tfFaces, ∀ i < F.ndof1 + F.ndof2, F.dofs i ∈ C.sub
  side : ∃ l, C.sfSub = some l ∧ ∀ i ∈ C.sub, (i ∈ l ↔ sf i = true)

/-- `Mvac` is the inverse mass matrix of the sub-mesh in vacuum; the elements next to the surface are in vacuum. -/
structure Vacuum (C : Case ι K) (Mvac : FieldT → Matrix ι ι K) : Prop where
  leaves : ∀ f r c, r ∈ C.sub → c ∉ C.sub → Mvac f r c = 0
  same : ∀ f r c, r ∈ C.sub → c ∈ C.sub → C.Minv f r c = Mvac f r c

end Dgtd.Op.Spec
