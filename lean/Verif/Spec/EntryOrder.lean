/-
Vocabulary for C185: the same case with its entries in another order.
-/
import Verif.Spec.Renumber

namespace Dgtd.EntryOrder.Spec
open Dgtd.Config Dgtd.Renumber.Spec

variable {K : Type}

/-- The same entries in another order, on the same mesh. -/
structure Reordered (c c' : Case K) : Prop where
  mats  : c.mats.Perm c'.mats
  bdrs  : c.bdrs.Perm c'.bdrs
  faces : c'.faces = c.faces
  atts  : c'.atts = c.atts
  batts : c'.batts = c.batts
  n     : c'.n = c.n

/-- Entries that list the same group say the same about it. -/
structure Agree (c : Case K) : Prop where
  mats : ∀ e ∈ c.mats, ∀ e' ∈ c.mats, ∀ t, t ∈ e.tags → t ∈ e'.tags → e.params = e'.params
  bdrs : ∀ b ∈ c.bdrs, ∀ b' ∈ c.bdrs, ∀ t, t ∈ b.tags → t ∈ b'.tags → b.type = b'.type

/-- All the incident fields enter through the same groups. -/
def SameSurface (ss : List SrcEntry) : Prop :=
  ∀ s ∈ ss, ∀ s' ∈ ss, s.totalField = true → s'.totalField = true → ∀ t, t ∈ s.tags ↔ t ∈ s'.tags

end Dgtd.EntryOrder.Spec
