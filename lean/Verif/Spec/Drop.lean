/-
Vocabulary for C193: the size of a state and the vector that holds it.
-/
import Verif.Spec.Op
import Verif.Spec.Csr

namespace Dgtd.Op.Spec

open Dgtd.Op

variable {n : Nat} {K : Type} [Field K]

/-- The sum of the magnitudes of all values of a state. -/
def magnitude [LinearOrder K] (u : State (Fin n) K) : K :=
  ∑ d : Dir, ∑ i : Fin n, (|u .E d i| + |u .H d i|)

/-- The sum of their squares. -/
def squares (u : State (Fin n) K) : K :=
  ∑ d : Dir, ∑ i : Fin n, (u .E d i ^ 2 + u .H d i ^ 2)

/-- The vector `Ex Ey Ez Hx Hy Hz` of a state. -/
def vectorOf (u : State (Fin n) K) (k : Int) : K :=
  if h : k.toNat % n < n then
    u (if k.toNat / n < 3 then .E else .H) ⟨k.toNat / n % 3, Nat.mod_lt _ (by norm_num)⟩ ⟨k.toNat % n, h⟩
  else 0

/-- The product of a matrix with a state. -/
def product (A : Csr.CSR K) (u : State (Fin n) K) : State (Fin n) K :=
  fun f d i => Csr.Spec.csrMul A (vectorOf u) ((3 * f.idx + d.val) * n + i.val)

end Dgtd.Op.Spec
