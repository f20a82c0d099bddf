/-
Vocabulary for the statistics of a run.
-/
import Verif.Model.Stats
import Verif.Spec.ProbeFiles

namespace Dgtd.Stats.Spec
open Dgtd.Stats Dgtd.ProbeFiles.Spec
open Dgtd.ProbeFiles (Name Path FS Op exec execAll)

variable {K : Type} [Field K]

/-- A run of a case: how, on how many ranks, and what each of them has. -/
structure Run (K : Type) where
  cuda   : Bool
  n      : Nat
  case   : String
  light  : K
  final  : K
  dt     : K
  layers : Nat → List (Local K)
  own    : Nat → Local K

/-- An execution: the first rank clears the directory, and after a barrier the ranks go on in any order. -/
def Executes (R : Run K) (tr : List (Nat × Op (Block K))) : Prop :=
  ∃ A B, tr = A ++ B ∧ Interleaving R.n (clearOps R.cuda R.n R.case) A ∧
    Interleaving R.n (fun r => prog R.cuda R.n R.case R.light R.final R.dt (R.layers r) r (R.own r)) B

/-- The files after it. -/
def after (fs : FS (Block K)) (tr : List (Nat × Op (Block K))) : FS (Block K) := execAll fs (tr.map Prod.snd)

/-- What the file of a rank should say. -/
def report (R : Run K) (r : Nat) : List (Block K) :=
  [.init (R.own r).initTime (R.own r).peak,
   .run { runtime := (R.own r).runtime, finalNs := R.final / R.light * 10 ^ 9, stepNs := R.dt / R.light * 10 ^ 9,
          elements := (R.own r).sizes.length, avgSize := (R.own r).sizes.sum / ((R.own r).sizes.length : K), dofs := (R.own r).dofs,
          operator := (R.own r).operator.map fun o => (o.1 * o.1, o.1 * o.2.1, o.2.2), memory := (R.own r).memory }]

end Dgtd.Stats.Spec
