/-
Specification side of two-sided memory: when a vector has a well-defined content, and which.
-/
import Verif.Model.Device

namespace Dgtd.Device.Spec

open Device

variable {σ K : Type}

/-- At least one buffer is current, and if both are they hold the same; without a device only the host is used. -/
def Coherent (gpu : Bool) (m : Mem K) : Prop :=
  if gpu then (m.hv = true ∨ m.dv = true) ∧ (m.hv = true → m.dv = true → m.host = m.dev)
  else m.hv = true ∧ m.dv = false

/-- The content of a coherent vector. -/
def value (m : Mem K) : Nat → K := if m.dv then m.dev else m.host

/-- The threads of every kernel perform the assignments of the kernel, each once, in some order. -/
def Scheduled (ord : Order K) : Prop := ∀ k l, (ord k l).Perm l

/-- The nodes of the source surface are different nodes of the mesh. -/
def SourceNodes (S : SgbcEvol.Sys σ K) : Prop :=
  ∀ T, S.tfsf = some T → T.ids.Nodup ∧ ∀ i ∈ T.ids, 0 ≤ i ∧ i < (S.ndofs : Int)

/-- The same case without its total-field sources. -/
def withoutSources (S : SgbcEvol.Sys σ K) : SgbcEvol.Sys σ K := { S with tfsf := none }

end Dgtd.Device.Spec
