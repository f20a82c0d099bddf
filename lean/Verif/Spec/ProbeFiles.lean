/-
Vocabulary for the files of probes.
-/
import Verif.Model.ProbeFiles

namespace Dgtd.ProbeFiles.Spec
open Dgtd.ProbeFiles

/-- `tr` is an execution of the programs of `n` ranks in some order that keeps the order of each rank: an operation carries the
rank that executes it. -/
def Interleaving {β : Type} (n : Nat) (prog : Nat → List β) (tr : List (Nat × β)) : Prop :=
  (∀ x ∈ tr, x.1 < n) ∧ ∀ r < n, (tr.filter fun x => x.1 = r).map Prod.snd = prog r

/-- An execution of a run with point and field probes: three phases separated by barriers.  Without field probes the second
barrier is not there, and the last two phases mix. -/
def Execution {K : Type} [Field K] [LinearOrder K] (n : Nat) (root : Nat → Bool) (ps : List Probe)
    (prog : Nat → List (Op (Text K))) (tr : List (Nat × Op (Text K))) : Prop :=
  (∃ A B C, tr = A ++ B ++ C ∧ Interleaving n (fun r => progA (root r) ps) A ∧
    Interleaving n (fun r => progB (root r) r ps) B ∧ Interleaving n prog C) ∨
  ((∀ p ∈ ps, p.kind ≠ .field) ∧ ∃ A BC, tr = A ++ BC ∧ Interleaving n (fun r => progA (root r) ps) A ∧
    Interleaving n (fun r => progB (root r) r ps ++ prog r) BC)

/-- The point of the probe was found by rank `r`, and `FindPoints` told the others. -/
def OwnedBy (n : Nat) (p : Probe) (r : Nat) : Prop := r < n ∧ 0 ≤ p.found r ∧ ∀ s < n, s ≠ r → p.found s = -2

/-- `FindPoints` found the point nowhere. -/
def Outside (n : Nat) (p : Probe) : Prop := ∀ s < n, p.found s = -1

/-- An instant is recorded by a probe: every `steps` cycles, and at the final time. -/
def Recorded {K : Type} [Field K] [LinearOrder K] (final : K) (steps : Int) (i : Instant K) : Prop :=
  (i.cycle : Int) % steps = 0 ∨ |i.time - final| < 1 / 100000000

/-- The numbers of the probes of each kind are different. -/
def DistinctIds (ps : List Probe) : Prop := (ps.map fun p => (p.kind, p.id)).Nodup

open Classical in
/-- The lines of the recorded instants, in order. -/
noncomputable def rows {K : Type} [Field K] [LinearOrder K] (final : K) (p : Probe) (is : List (Instant K)) : List (Text K) :=
  (is.filter fun i => Recorded final p.steps i).map fun i => .row i.time (i.values p)

/-- The directory of a kind of probes. -/
def directory : Kind → Path
  | .point => [.dir "PointProbes"]
  | .field => [.dir "FieldProbes"]

end Dgtd.ProbeFiles.Spec
