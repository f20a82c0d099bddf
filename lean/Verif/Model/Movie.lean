/-
Model of the movies of field probes: src/components/Probes.h:74-132 `FieldProbe`.

`std::map<Time, double>` is a list sorted by time.  Values are ordered with a least and a greatest one (the infinities); not-a-number
is not modelled.
-/
import Mathlib.Order.BoundedOrder.Basic
import Mathlib.Order.Defs.LinearOrder
import Mathlib.Algebra.Group.Defs

namespace Dgtd.Movie

variable {T V : Type} [LinearOrder T] [LinearOrder V]

/-- `std::map::emplace` (src/components/Probes.h:95 `addFieldToMovies`): the value of a time that is present is kept. -/
def emplace (t : T) (v : V) : List (T × V) → List (T × V)
  | [] => [(t, v)]
  | f :: m => if t < f.1 then (t, v) :: f :: m else if f.1 < t then f :: emplace t v m else f :: m

/-- The movie after a history of recordings. (src/components/Probes.h:95, 109-127) -/
def movie (h : List (T × V)) : List (T × V) := h.foldl (fun m f => emplace f.1 f.2 m) []

/-- src/components/Probes.h:99-108 `findFrameWithMax`. -/
def frameMax [Zero T] [OrderBot V] (m : List (T × V)) : T × V :=
  m.foldl (fun res f => if res.2 < f.2 then f else res) (0, ⊥)

/-- src/components/Probes.h:110-119 `findFrameWithMin`. -/
def frameMin [Zero T] [OrderTop V] (m : List (T × V)) : T × V :=
  m.foldl (fun res f => if f.2 < res.2 then f else res) (0, ⊤)

end Dgtd.Movie
