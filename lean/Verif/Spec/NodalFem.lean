/-
Specification: the data of the nodal operator are read off a mesh of straight triangles or tetrahedra.
-/
import Verif.Spec.NodalAssembly
import Verif.Spec.GalerkinMass

namespace Dgtd.NodalFem.Spec
open MvPolynomial Dgtd.Galerkin Dgtd.Galerkin.Spec
open Dgtd.Op (BdrCond normalTerm Pt)
open Dgtd.Nodal (Ref refMesh BdrMaps)
open Dgtd.Nodal.Spec (Inner Outer posOf num faceMass)

variable {n ne : Nat}

/-- A point of a face of the reference simplex. -/
def OnFace (face : Option (Fin (n + 1))) (x : Fin (n + 1) → ℝ) : Prop :=
  match face with
  | none => ∑ j, x j = 1
  | some k => x k = 0

/-- The reference element: nodal shape functions `sh` of order `p` with nodes `pt`; `fc` numbers its faces, `node f k` is node `k` of face `f`;
the shape functions of the nodes off a face vanish on it; `inv` inverts the mass matrix of the reference mesh, and its faces have
quadratures exact for products of shape functions. -/
structure Shapes (R : Ref ℝ) (w : ℝ) (p : Nat) (sh : Nat → Poly (n + 1) ℝ) (pt : Fin R.n → Fin (n + 1) → ℝ)
    (fc : Option (Fin (n + 1)) ≃ Fin R.nF) (node : Fin R.nF → Fin R.nf → Fin R.n) : Prop where
  dim : R.dim = n + 1
  geom : n = 1 ∧ R.geom = .triangle ∨ n = 2 ∧ R.geom = .tetrahedron
  mesh : refMesh R.dim R.geom = some ⟨R.geom, w⟩
  inv : ∀ i j : Fin R.n, (∑ k : Fin R.n, R.inv i k * (w * integral (n + 1) (sh k * sh j))) = if i = j then 1 else 0
  degree : ∀ i, (sh i).totalDegree ≤ p
  delta : ∀ i j : Fin R.n, eval (pt i) (sh j) = if i = j then 1 else 0
  complete : ∀ q : Poly (n + 1) ℝ, q.totalDegree ≤ p → ∃ a : Fin R.n → ℝ, q = ∑ i : Fin R.n, C (a i) * sh i
  mono : ∀ f, StrictMono (node f)
  on : ∀ face k, OnFace face (pt (node (fc face) k))
  off : ∀ face (i : Fin R.n), (∀ k, node (fc face) k ≠ i) → ∀ x, OnFace face x → eval x (sh i) = 0
  faces : ∀ face, (R.faces (fc face)).ndof1 = R.n ∧ (R.faces (fc face)).ndof2 = 0 ∧ ∃ turn rule, Exact (p + p) rule ∧
    (R.faces (fc face)).pts.map (fun q => (q.w, q.sh1)) = rule.map fun q => (q.1, fun i => eval q.2 (bind₁ (loc face turn) (sh i)))
  seen : ∀ (f : Fin R.nF) (k : Fin R.nf), ∃ i : Fin R.n, 1 / 1000000 ≤ |2 * faceMass (R.faces f).pts Pt.sh1 i (node f k)|

/-- The elements: all have these shape functions; determinants are taken at some point of the element or of the face, and normals are those of
the faces of the one-element sub-meshes, which point outwards. -/
structure Elements (R : Ref ℝ) (sh : Nat → Poly (n + 1) ℝ) (fc : Option (Fin (n + 1)) ≃ Fin R.nF) (S : Setup n (Fin ne × Fin R.n))
    (cell : Fin ne → Cell n (Fin ne × Fin R.n)) (el : Nat → Dgtd.Nodal.Elem ℝ) : Prop where
  cells : S.cells = (List.finRange ne).map cell
  size : ∀ e, (cell e).e.size = R.n
  shape : ∀ e, (cell e).e.shape = sh
  dof : ∀ e (i : Fin R.n), (cell e).e.dof i = (e, i)
  J : ∀ e : Fin ne, ∃ x, (el e).J = eval x (cell e).e.jac.det
  vol : ∀ e : Fin ne, (el e).vol = integral (n + 1) (cell e).e.jac.det
  D : ∀ (e : Fin ne) (d : Fin 3) (i j : Fin R.n), (el e).D d i j = if h : d.val < n + 1 then derivElem (cell e).vol (cell e).e ⟨d.val, h⟩ i j else 0
  normal : ∀ (e : Fin ne) face, ∃ turn y, Outward (⟨(cell e).e, face, turn⟩ : Side n (Fin ne × Fin R.n) ℝ) ∧
    (el e).sJ (fc face) = √(((normal (⟨(cell e).e, face, turn⟩ : Side n (Fin ne × Fin R.n) ℝ)).map fun c => eval y c ^ 2).sum) ∧
    ∀ d : Fin 3, d.val < n + 1 → (el e).nor (fc face) d =
      normalTerm ((normal (⟨(cell e).e, face, turn⟩ : Side n (Fin ne × Fin R.n) ℝ)).map fun c => eval y c) d

/-- A face between two elements, the numbers of the elements, and the node of the second side for each node of the first one. -/
structure Link (n ne N nf : Nat) where
  q : Option BdrCond × MeshFace n (Fin ne × Fin N)
  s2 : Side n (Fin ne × Fin N) ℝ
  e1 : Fin ne
  e2 : Fin ne
  mate : Equiv.Perm (Fin nf)

/-- A face of the outer boundary and the number of its element. -/
structure Wall (n ne N : Nat) where
  q : Option BdrCond × MeshFace n (Fin ne × Fin N)
  e : Fin ne

noncomputable def Link.inner {N nF nf : Nat} (fc : Option (Fin (n + 1)) ≃ Fin nF) (l : Link n ne N nf) : Inner ne nF nf N ℝ :=
  ⟨l.e1, fc l.q.2.s1.face, l.e2, fc l.s2.face, l.mate, l.q.1, l.q.2.fem.toFace⟩

noncomputable def Wall.outer {N nF : Nat} (fc : Option (Fin (n + 1)) ≃ Fin nF) (l : Wall n ne N) : Outer ne nF N ℝ :=
  ⟨l.e, fc l.q.2.s1.face, l.q.1, l.q.2.fem.toFace⟩

/-- The faces, with the connectivity: every node of an inner face is connected to the node of the other element at the same place, every
node of the outer boundary to itself. -/
structure Connected (R : Ref ℝ) (pt : Fin R.n → Fin (n + 1) → ℝ) (fc : Option (Fin (n + 1)) ≃ Fin R.nF)
    (node : Fin R.nF → Fin R.nf → Fin R.n) (S : Setup n (Fin ne × Fin R.n)) (cell : Fin ne → Cell n (Fin ne × Fin R.n))
    (c : Nat → Nat × Nat) (links : List (Link n ne R.n R.nf)) (walls : List (Wall n ne R.n)) : Prop where
  interior : S.interior = links.map Link.q
  bdr : S.bdr = walls.map Wall.q
  sides : ∀ l ∈ links, l.q.2.s1.e = (cell l.e1).e ∧ l.q.2.s2 = some l.s2 ∧ l.s2.e = (cell l.e2).e
  side : ∀ l ∈ walls, l.q.2.s1.e = (cell l.e).e
  place : ∀ l ∈ links, ∀ k d, eval (pt (node (fc l.s2.face) (l.mate k))) ((cell l.e2).e.geom d) =
    eval (pt (node (fc l.q.2.s1.face) k)) ((cell l.e1).e.geom d)
  conn1 : ∀ l ∈ links, ∀ k, c (posOf l.e1 (fc l.q.2.s1.face) k) =
    (num (l.e1, node (fc l.q.2.s1.face) k), num (l.e2, node (fc l.s2.face) (l.mate k)))
  conn2 : ∀ l ∈ links, ∀ k, c (posOf l.e2 (fc l.s2.face) (l.mate k)) =
    (num (l.e2, node (fc l.s2.face) (l.mate k)), num (l.e1, node (fc l.q.2.s1.face) k))
  conn : ∀ l ∈ walls, ∀ k, c (posOf l.e (fc l.q.2.s1.face) k) = (num (l.e, node (fc l.q.2.s1.face) k), num (l.e, node (fc l.q.2.s1.face) k))

end Dgtd.NodalFem.Spec
