/-
Specification: scattering of plane waves.  The mesh is divided into a total-field and a scattered-field region; the solver stores the total field in
the first and the total field less the incident waves in the second.
-/
import Verif.Spec.Convergence
import Verif.Model.OpSource

namespace Dgtd.Galerkin.Spec
open MvPolynomial Dgtd.Op Dgtd.Op.Spec Dgtd.Galerkin
open Dgtd.Config (Material)
open scoped ContDiff

variable {n : Nat} {ι : Type}

/-- The fields of a wave, as functions of time and position. -/
abbrev Wave (n : Nat) := FieldT → Dir → Event (n + 1) → ℝ

/-- All waves together. -/
noncomputable def incident (ws : List (Wave n)) : Wave n := fun f d z => (ws.map fun w => w f d z).sum

/-- What the solver stores when the field is `G`: the elements of the total-field region are those with `tot e`. -/
noncomputable def stored (tot : Elem n ι ℝ → Bool) (G : Solution n ι) (ws : List (Wave n)) : Solution n ι :=
  fun e f d z => if tot e = true then G e f d z else G e f d z - incident ws f d z

/-- A smooth wave that satisfies Maxwell's equations in the scattered-field region. -/
structure Propagates (S : Setup n ι) (ms : List (Int × Material ℝ)) (tot : Elem n ι ℝ → Bool) (T : ℝ) (w : Wave n) : Prop where
  smooth : ∀ f d, ContDiff ℝ ∞ (w f d)
  electric : ∀ c ∈ S.cells, tot c.e = false → ∀ t, 0 ≤ t → t ≤ T → ∀ y, InElem c.e y → ∀ d,
    (materialOf ms c).eps * dt (w .E d) (t, y) = curlAt (w .H) d (t, y) - (materialOf ms c).sigma * w .E d (t, y)
  magnetic : ∀ c ∈ S.cells, tot c.e = false → ∀ t, 0 ≤ t → t ≤ T → ∀ y, InElem c.e y → ∀ d,
    (materialOf ms c).mu * dt (w .H d) (t, y) = -curlAt (w .E) d (t, y)

/-- The marked faces are those between the two regions, without another condition.  The source sub-meshes have the elements at the marked faces, on
both sides, with the scattered ones listed; or, without a scattered part, those of the total-field side only. -/
structure Surface (S : Setup n ι) (tf : MeshFace n ι → Bool) (sub : List ι) (sfSub : Option (List ι)) (tot : Elem n ι ℝ → Bool) : Prop where
  plain : ∀ q ∈ S.interior, tf q.2 = true → q.1 = none
  divides : ∀ q ∈ S.interior, q.1 = none → ∀ s ∈ q.2.s2, (tf q.2 = true ↔ tot q.2.s1.e ≠ tot s.e)
  nodes : ∀ q ∈ S.interior, tf q.2 = true → ∀ e, (e = q.2.s1.e ∨ ∃ s ∈ q.2.s2, e = s.e) → ∀ i < e.size,
    match sfSub with
    | some l => e.dof i ∈ sub ∧ (e.dof i ∈ l ↔ tot e = false)
    | none => (e.dof i ∈ sub ↔ tot e = true)

/-- Scattering of waves, on a mesh of straight elements of order `p`, with elements no larger than `h` and no thinner than `h / ρ`, materials between
`m0` and `m1`, nodal shape functions: the two sides of a face are at the same place; `G` is the total field, a
solution of Maxwell's equations whose tangential components are continuous; what is stored obeys walls and boundaries; the derivatives of what is stored and of the waves are bounded by `B`. -/
structure Scatters (S : Setup n ι) (ms : List (Int × Material ℝ)) (p : Nat) (ρ m0 m1 Λ h B T : ℝ) (tot : Elem n ι ℝ → Bool) (G : Solution n ι)
    (ws : List (Wave n)) (node : Elem n ι ℝ → Nat → Fin (n + 1) → ℝ) : Prop where
  mesh : ValidMesh S p 1
  materials : ValidMaterials S ms
  between : Between S ms m0 m1
  fine : Fineness S h ρ
  small : h ≤ 1
  nodal : Nodal S p Λ node
  solves : Solves S ms T G
  waves : ∀ w ∈ ws, Propagates S ms tot T w
  conform : ∀ q ∈ S.interior, ∀ s ∈ q.2.s2, ∀ x, pos q.2.s1 x = pos s x
  inner : ∀ q ∈ S.interior, q.1 = none → ∀ s ∈ q.2.s2, ∀ t, 0 ≤ t → t ≤ T → ∀ x, InSimplex x → ∀ f d,
    cross (unitNormal q.2.s1 x) (fun k => beside G t q.2.s1 x f k - beside G t s x f k) d = 0
  walls : ∀ q ∈ S.interior, ∀ c, q.1 = some c → ∀ t, 0 ≤ t → t ≤ T → ∀ x, InSimplex x →
    Obeys c (unitNormal q.2.s1 x) (beside (stored tot G ws) t q.2.s1 x) ∧
    ∀ s ∈ q.2.s2, Obeys c (fun d => -unitNormal q.2.s1 x d) (beside (stored tot G ws) t s x)
  outer : ∀ q ∈ S.bdr, ∀ c, q.1 = some c → ∀ t, 0 ≤ t → t ≤ T → ∀ x, InSimplex x →
    Obeys c (unitNormal q.2.s1 x) (beside (stored tot G ws) t q.2.s1 x)
  bounded : Bounded S T (stored tot G ws) (p + 1) B
  incident : Bounded S T (fun _ => incident ws) (p + 1) B
  bound : 0 ≤ B

/-- The values of the waves at the nodes at the time `t`, one state for each. -/
def SampledWaves (S : Setup n ι) (node : Elem n ι ℝ → Nat → Fin (n + 1) → ℝ) (ws : List (Wave n)) (t : ℝ) (vs : List (State ι ℝ)) : Prop :=
  List.Forall₂ (fun w v => Sampled S node (fun _ => w) t v) ws vs

end Dgtd.Galerkin.Spec
