/-
Model of the implicit solve in the branch for large or distributed systems
(src/evolution/GlobalEvolution.cpp:1176-1231), which hands the system to `mfem::GMRESSolver` (external).

The library is written as its documentation says, in exact arithmetic: after `i` iterations of a cycle the
approximation is the one of least residual among the start of the cycle plus the span of the first `i` powers of the
matrix applied to the residual at the start; a cycle ends when the residual is small enough, after `kdim` iterations
or when the iterations are spent.  How the least residual is found (Arnoldi's orthogonalisation and Givens rotations)
is not modelled.
-/
import Verif.Model.TimeInt
import Mathlib.LinearAlgebra.Span.Basic
import Mathlib.LinearAlgebra.Matrix.ToLin

namespace Dgtd.Gmres

open Matrix
open Dgtd.TimeInt (Tdo)

variable {ι : Type} [Fintype ι]

/-- `mfem::IterativeSolver::Norm` on one rank (external; the solver is made without a communicator,
src/evolution/GlobalEvolution.cpp:1221). -/
noncomputable def len (v : ι → ℝ) : ℝ := Real.sqrt (v ⬝ᵥ v)

/-- The residual of an approximation `x` of the solution of `J x = b`. (src/evolution/GlobalEvolution.cpp:1230) -/
def res (J : Matrix ι ι ℝ) (b x : ι → ℝ) : ι → ℝ := b - J *ᵥ x

/-- What can be reached from `r` with `i` iterations: the span of `r, J r, …, J^(i-1) r`.
(src/evolution/GlobalEvolution.cpp:1230) -/
noncomputable def krylov [DecidableEq ι] (J : Matrix ι ι ℝ) (r : ι → ℝ) (i : ℕ) : Submodule ℝ (ι → ℝ) :=
  Submodule.span ℝ {v | ∃ j < i, v = (J ^ j) *ᵥ r}

/-- `y` is an approximation of least residual after `i` iterations of a cycle started at `x`.
(src/evolution/GlobalEvolution.cpp:1230) -/
structure Best [DecidableEq ι] (J : Matrix ι ι ℝ) (b x : ι → ℝ) (i : ℕ) (y : ι → ℝ) : Prop where
  reached : y - x ∈ krylov J (res J b x) i
  least : ∀ z, z - x ∈ krylov J (res J b x) i → len (res J b y) ≤ len (res J b z)

/-- `SetMaxIter(400)`. (src/evolution/GlobalEvolution.cpp:1224) -/
def maxIter : ℕ := 400

/-- `SetKDim(60)`. (src/evolution/GlobalEvolution.cpp:1225) -/
def kdim : ℕ := 60

/-- `SetRelTol(1e-8)`. (src/evolution/GlobalEvolution.cpp:1223) -/
noncomputable def relTol : ℝ := 1 / 10 ^ 8

/-- `mfem::GMRESSolver::Mult` with `n` iterations left: from `x` it ends in `z`.  It ends because the residual is at
most `tol`, or because no iterations are left, in which case nothing is reported to the caller.
(src/evolution/GlobalEvolution.cpp:1221-1230) -/
inductive Iterates [DecidableEq ι] (J : Matrix ι ι ℝ) (b : ι → ℝ) (tol : ℝ) : ℕ → (ι → ℝ) → (ι → ℝ) → Prop
  | met (n : ℕ) (x : ι → ℝ) (h : len (res J b x) ≤ tol) : Iterates J b tol n x x
  | spent (x : ι → ℝ) (h : tol < len (res J b x)) : Iterates J b tol 0 x x
  | cycle (n i : ℕ) (x y z : ι → ℝ) (h : tol < len (res J b x)) (hi : 0 < i) (hk : i ≤ kdim) (hn : i ≤ n)
      (best : Best J b x i y)
      (busy : ∀ j < i, 0 < j → ∀ w, Best J b x j w → tol < len (res J b w))
      (ends : len (res J b y) ≤ tol ∨ i = min kdim n)
      (rest : Iterates J b tol (n - i) y z) : Iterates J b tol n x z

/-- `gmres.Mult(b, k)`: the tolerance is relative to the residual of the start, which is what `k` held before.
(src/evolution/GlobalEvolution.cpp:1221-1230) -/
def Solved [DecidableEq ι] (J : Matrix ι ι ℝ) (b k0 k : ι → ℝ) : Prop :=
  Iterates J b (relTol * len (res J b k0)) maxIter k0 k

/-- `ImplicitSolve(dt, x, k)` in the branch for large systems, on one rank: `rhs = A x + src` and the matrix
`I - dt A`, applied as in `JOp::Mult`.  `k0` is what `k` held before the call, or `rhs` if its size was wrong.
(src/evolution/GlobalEvolution.cpp:1139-1144, 1176-1231) -/
def iterativeSolve [DecidableEq ι] (A : Matrix ι ι ℝ) (src : ι → ℝ) (dt : ℝ) (x k0 k : ι → ℝ) : Prop :=
  Solved (1 - dt • A) (A *ᵥ x + src) k0 k

/-- The global operator when its systems are solved iteratively.  `S` is everything the solve may depend on:
what the integrator's vector `k` holds from earlier stages and steps (before the first, whatever was in memory).
(src/evolution/GlobalEvolution.cpp:628-1088, 1090-1231) -/
structure Iterative [DecidableEq ι] {S : Type} (F : Tdo (ι → ℝ) S) (A : Matrix ι ι ℝ) (src : ℝ → ι → ℝ) : Prop where
  mult : ∀ t x, F.mult t x = A *ᵥ x + src t
  solve : ∀ t dt x s, ∃ k0 k s', F.implicitSolve t dt x s = some (k, s') ∧ iterativeSolve A (src t) dt x k0 k

end Dgtd.Gmres
