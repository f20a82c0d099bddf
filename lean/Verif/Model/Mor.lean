/-
Model of the probe that writes snapshots for model order reduction.

Numbers: `double` is an element of a linearly ordered field `K`; rounding is not modelled.
-/
import Verif.Model.TimeLoop

namespace Dgtd.Mor

/-- src/components/Probes.h:161-166 `MORStateProbe`: window and number of snapshots (the name of its directory is
not modelled; two probes with one name share a directory). -/
structure Probe (K : Type) where
  start : K
  final : K
  saves : Int
deriving DecidableEq

/-- src/solver/ProbesManager.h:125-132 `MORStateContext`. -/
structure Ctx (K : Type) where
  count  : Int
  next   : K
  dtSave : K
  inited : Bool
deriving DecidableEq

/-- The context of a probe and the files it has written, oldest first: number in the file name, instant, degrees of
freedom (`σ`).  A file that cannot be opened is not modelled. (src/solver/ProbesManager.h:125-133, src/solver/ProbesManager.cpp:609-658) -/
structure St (K σ : Type) where
  ctx   : Ctx K
  files : List (Int × K × σ)

variable {K : Type} [Field K] [LinearOrder K] {σ : Type}

/-- The literal `1e-12` (src/solver/ProbesManager.cpp:612,613,635). -/
def tiny : K := 1 / 1000000000000

/-- src/solver/ProbesManager.h:126-131: a default-constructed context, and no file. -/
def fresh : St K σ := ⟨⟨0, 0, 0, false⟩, []⟩

/-- src/solver/ProbesManager.cpp:617-631: the first visit inside the window. -/
def initCtx (p : Probe K) (c : Ctx K) : Ctx K :=
  if c.inited then c
  else ⟨0, p.start, if p.saves > 1 then (p.final - p.start) / ((p.saves - 1 : Int) : K) else 0, true⟩

/-- src/solver/ProbesManager.cpp:635 `tol`. -/
def tol (c : Ctx K) : K := if 0 < c.dtSave then c.dtSave * (1 / 1000000) else tiny

/-- src/solver/ProbesManager.cpp:609-658 `updateProbe(MORStateProbe&, Time)`. -/
def update (p : Probe K) (s : St K σ) (tx : K × σ) : St K σ :=
  if p.saves ≤ 0 then s
  else if tx.1 < p.start - tiny then s
  else if p.final + tiny < tx.1 then s
  else
    let c := initCtx p s.ctx
    if p.saves ≤ c.count then { s with ctx := c }
    else if tx.1 < c.next - tol c then { s with ctx := c }
    else
      { ctx := { c with
          count := c.count + 1
          next := if p.saves > 1 then p.start + ((c.count + 1 : Int) : K) * c.dtSave else p.final + 1 }
        files := s.files ++ [(c.count, tx.1, tx.2)] }

/-- The files written during a run, given the instants and states the solver shows to its probes
(src/solver/ProbesManager.cpp:498-529, called from Solver.cpp:131 and 549). -/
def run (p : Probe K) (ins : List (K × σ)) : List (Int × K × σ) :=
  (ins.foldl (update p) fresh).files

end Dgtd.Mor
