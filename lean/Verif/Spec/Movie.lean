import Verif.Model.Movie

/-
Specification side of the movies.
-/
namespace Dgtd.Movie.Spec

variable {T V : Type} [LinearOrder T]

/-- The first value recorded for an instant. -/
def firstAt (h : List (T × V)) (t : T) : Option V :=
  (h.find? fun f => decide (f.1 = t)).map Prod.snd

end Dgtd.Movie.Spec
