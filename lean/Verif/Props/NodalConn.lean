/-
C166: the tables of the nodal operator describe the mesh.
-/
import Verif.Lemmas.NodalConn
import Verif.Props.NodalAssembly

set_option linter.unusedSectionVars false

namespace Dgtd.Nodal

open Spec NodalMaps Dgtd.Op

section tables

variable {K : Type} [Field K] [LinearOrder K] [IsStrictOrderedRing K]

variable {ne : Nat} {R : Ref K} {node : Fin R.nF → Fin R.nf → Fin R.n} {T : Faces (Fin ne × Fin R.n) K} {fid : Fin ne → Fin R.nF → Nat}
  {inner : List (Inner ne R.nF R.nf R.n K)} {outer : List (Outer ne R.nF R.n K)} {bs : List (Bdr K)} {so : Bdr K → Outer ne R.nF R.n K}
  {si : Bdr K → Inner ne R.nF R.nf R.n K}

/-- **C166**: assembling the connectivity of a mesh succeeds, and every place of it holds the node it belongs to and the node
that faces it. -/
theorem C166_connectivity (hN : NodesOk node) (hS : Separated R node) (hM : MeshOk T fid inner outer) (hI : ∀ q ∈ inner, InnerTraces R node q)
    (hO : ∀ q ∈ outer, OuterTraces R node q) : ∃ c, globalConn T = some c ∧ ConnOk node inner outer c :=
  connOk hN hS hM hI hO

/-- **C166**: assembling all the tables succeeds; those of the conditions and of the total field hold exactly the places and
nodes of the faces of the boundary elements with that condition. -/
theorem C166_tables_partial (hN : NodesOk node) (hS : Separated R node) (hM : MeshOk T fid inner outer) (hI : ∀ q ∈ inner, InnerTraces R node q)
    (hO : ∀ q ∈ outer, OuterTraces R node q) (hB : BdrsOk T fid inner outer bs so si) :
    ∃ c m tf, connectivities T bs = some (c, m, tf) ∧ ConnOk node inner outer c ∧ TablesOk T node bs so si m tf := by
  obtain ⟨c, h1, h2⟩ := connOk hN hS hM hI hO
  unfold connectivities
  rw [h1, Option.bind_some, initBdr_eq hN hS hM hO h2 hB, Option.bind_some,
    initInt_inner hN hS hM hI h2 (fun b hb hs => (hB.outer_ b hb hs).2.2.1) (fun b hb hs => ⟨(hB.inner_ b hb hs).1, (hB.inner_ b hb hs).2.1, (hB.inner_ b hb hs).2.2.1⟩),
    Option.bind_some,
    initInt_total hN hS hM hI h2 (fun b hb hs => (hB.outer_ b hb hs).2.2.2) (fun b hb hs => ⟨(hB.inner_ b hb hs).1, (hB.inner_ b hb hs).2.1, (hB.inner_ b hb hs).2.2.2⟩)]
  refine ⟨c, _, _, rfl, h2, ?_⟩
  constructor <;> simp

variable {w : K} {Mhat : Fin R.n → Fin R.n → K} {el : Nat → Elem K} {eps mu : Fin ne → K}

/-- **C166**: the tables as built are those with which the nodal operator was compared with the global one (C129). -/
theorem C166_same {P : Prob (Fin ne × Fin R.n) K} (hN : NodesOk node) (hS : Separated R node) (hM : MeshOk T fid inner outer)
    (hB : BdrsOk T fid inner outer bs so si) (href : RefOk R w Mhat node) (helems : ElemsOk R Mhat el eps mu P)
    (hfaces : P.interior = inner.map (fun q => (q.cond, q.face)) ∧ P.bdr = outer.map fun q => (q.cond, q.face))
    (hI : ∀ q ∈ inner, InnerGeom R el node q) (hO : ∀ q ∈ outer, OuterGeom R el node q) (hD : Declared T inner outer bs so P.alpha) :
    ∃ c m tf, connectivities T bs = some (c, m, tf) ∧
      Same R w Mhat node el eps mu P (fun i => c.getD i (0, 0)) m inner outer := by
  obtain ⟨c, m, tf, h1, h2, h3⟩ := C166_tables_partial hN hS hM (fun q hq => (hI q hq).toInnerTraces) (fun q hq => (hO q hq).toOuterTraces) hB
  refine ⟨c, m, tf, h1, href, helems, hfaces, ?_, ?_, hM.cover, condsOk hM h3 hD⟩
  · intro q hq
    have h := hI q hq
    exact ⟨h.size, h.dofs1, h.dofs2, h.normal, h.off1, h.off2, h.match_, h.quad1, h.quad2,
      fun k => by rw [List.getD_eq_getElem?_getD, h2.conn1 q hq k]; rfl, fun k => by rw [List.getD_eq_getElem?_getD, h2.conn2 q hq k]; rfl⟩
  · intro q hq
    have h := hO q hq
    exact ⟨h.size, h.dofs, h.normal, h.off, h.quad, fun k => by rw [List.getD_eq_getElem?_getD, h2.conn q hq k]; rfl⟩

/-- **C166**: with plane waves, the surface of the tables as built is the one of C129 too. -/
theorem C166_surface {C : Op.Case (Fin ne × Fin R.n) K} {surf : Inner ne R.nF R.nf R.n K → Option Bool}
    {sources : List (Option (Fields K))} {waves : List (State (Fin ne × Fin R.n) K)} (hN : NodesOk node) (hS : Separated R node)
    (hM : MeshOk T fid inner outer) (hB : BdrsOk T fid inner outer bs so si) (href : RefOk R w Mhat node)
    (helems : ElemsOk R Mhat el eps mu C.prob)
    (hfaces : C.prob.interior = inner.map (fun q => (q.cond, q.face)) ∧ C.prob.bdr = outer.map fun q => (q.cond, q.face))
    (hI : ∀ q ∈ inner, InnerGeom R el node q) (hO : ∀ q ∈ outer, OuterGeom R el node q) (hD : Declared T inner outer bs so C.alpha)
    (hT : SurfDeclared node inner surf C bs si sources waves) (hq : skip2 ≤ sourceNorm2 C (sourceField C waves)) (v : Fields K)
    (u : State (Fin ne × Fin R.n) K) (hv : Holds v u) :
    ∃ c m tf E, connectivities T bs = some (c, m, tf) ∧ emat R = some E ∧ ∀ (r : Fin ne × Fin R.n) (d : Fin 3),
      (nodalMult R E el (fun i => c.getD i (0, 0)) m C.alpha sources tf v).e (num r) d =
        speed R w * eps r.1 * (sourceRhs C waves u .E d r + ∑ s, C.Minv .E r s * C.Msig.mulVec (u .E d) s) ∧
      (nodalMult R E el (fun i => c.getD i (0, 0)) m C.alpha sources tf v).h (num r) d = speed R w * mu r.1 * sourceRhs C waves u .H d r := by
  obtain ⟨c, m, tf, h1, h2⟩ := C166_same (P := C.prob) hN hS hM hB href helems hfaces hI hO hD
  obtain ⟨c', m', tf', h1', _, h3⟩ := C166_tables_partial hN hS hM (fun q hq => (hI q hq).toInnerTraces) (fun q hq => (hO q hq).toOuterTraces) hB
  rw [h1, Option.some.injEq, Prod.mk.injEq, Prod.mk.injEq] at h1'
  obtain ⟨rfl, rfl, rfl⟩ := h1'
  obtain ⟨E, h4, h5⟩ := C129_waves h2 (surfaceOk hM hB h3 hT) hq v u hv
  exact ⟨c, m, tf, E, h1, h4, h5⟩

/-- **C166**: without a boundary element on the outer boundary the solver cannot be built. -/
theorem C166_no_outer (T : Faces (Fin ne × Fin R.n) K) (bs : List (Bdr K)) (h : ∀ b ∈ bs, T.second b.face ≠ none) : connectivities T bs = none := by
  unfold connectivities
  cases globalConn T with
  | none => rfl
  | some c =>
    rw [Option.bind_some]
    have : initBdr T c bs = none := by
      unfold initBdr
      have : bs.filter (fun b => decide (T.second b.face = none)) = [] := List.filter_eq_nil_iff.2 fun b hb => by simpa using h b hb
      simp only [this]
      rfl
    rw [this]
    rfl

end tables

/-! ### the nodes of triangles and quadrilaterals of any order -/

/-- Nodes of a quadrilateral of order `p`, row by row: its four faces. -/
def squareNode (p : Nat) (f : Fin 4) (k : Fin (p + 1)) : Fin ((p + 1) * (p + 1)) :=
  ⟨match f with
    | 0 => k.val
    | 1 => k.val * (p + 1) + p
    | 2 => p * (p + 1) + k.val
    | 3 => k.val * (p + 1), by
    have hk := k.isLt
    have h1 : k.val * (p + 1) ≤ p * (p + 1) := Nat.mul_le_mul_right _ (by omega)
    have h2 : (p + 1) * (p + 1) = p * (p + 1) + (p + 1) := Nat.succ_mul _ _
    match f with
    | 0 => show k.val < _; omega
    | 1 => show k.val * (p + 1) + p < _; omega
    | 2 => show p * (p + 1) + k.val < _; omega
    | 3 => show k.val * (p + 1) < _; omega⟩

/-- **C166**: quadrilaterals of every order from one on meet the hypothesis on the nodes. -/
theorem C166_quadrilaterals (p : Nat) (hp : 1 ≤ p) : NodesOk (squareNode p) where
  pos := by omega
  mono := by
    intro f a b hab
    have hab' : a.val < b.val := hab
    have hm : a.val * (p + 1) < b.val * (p + 1) := Nat.mul_lt_mul_of_pos_right hab' (by omega)
    show (squareNode p f a).val < (squareNode p f b).val
    unfold squareNode
    match f with
    | 0 => show a.val < b.val; omega
    | 1 => show a.val * (p + 1) + p < b.val * (p + 1) + p; omega
    | 2 => show p * (p + 1) + a.val < p * (p + 1) + b.val; omega
    | 3 => show a.val * (p + 1) < b.val * (p + 1); omega
  distinct := by
    have e0 : ∀ k, (squareNode p 0 k).val = k.val := fun _ => rfl
    have e1 : ∀ k, (squareNode p 1 k).val = k.val * (p + 1) + p := fun _ => rfl
    have e2 : ∀ k, (squareNode p 2 k).val = p * (p + 1) + k.val := fun _ => rfl
    have e3 : ∀ k, (squareNode p 3 k).val = k.val * (p + 1) := fun _ => rfl
    have hpp : p + 1 ≤ p * (p + 1) := Nat.le_mul_of_pos_left _ hp
    intro f f' h
    have h0 := congrArg Fin.val (congrFun h ⟨0, by omega⟩)
    have h1 := congrArg Fin.val (congrFun h ⟨p, by omega⟩)
    clear h
    match f, f', h0, h1 with
    | 0, 0, _, _ | 1, 1, _, _ | 2, 2, _, _ | 3, 3, _, _ => rfl
    | 0, 1, h0, h1 | 0, 2, h0, h1 | 0, 3, h0, h1 | 1, 0, h0, h1 | 1, 2, h0, h1 | 1, 3, h0, h1 | 2, 0, h0, h1 | 2, 1, h0, h1 | 2, 3, h0, h1
    | 3, 0, h0, h1 | 3, 1, h0, h1 | 3, 2, h0, h1 =>
      exfalso
      simp only [squareNode] at h0 h1
      omega
  meet := by
    intro f f' h
    have e0 : ∀ k, (squareNode p 0 k).val = k.val := fun _ => rfl
    have e1 : ∀ k, (squareNode p 1 k).val = k.val * (p + 1) + p := fun _ => rfl
    have e2 : ∀ k, (squareNode p 2 k).val = p * (p + 1) + k.val := fun _ => rfl
    have e3 : ∀ k, (squareNode p 3 k).val = k.val * (p + 1) := fun _ => rfl
    match f, f', h with
    | 0, 1, _ => exact ⟨⟨p, by omega⟩, ⟨0, by omega⟩, Fin.ext (by rw [e0, e1]; simp)⟩
    | 1, 2, _ => exact ⟨⟨p, by omega⟩, ⟨p, by omega⟩, Fin.ext (by rw [e1, e2])⟩
    | 2, 3, _ => exact ⟨⟨0, by omega⟩, ⟨p, by omega⟩, Fin.ext (by rw [e2, e3]; simp)⟩

/-- Number of the first node of row `j` of a triangle of order `p`, whose rows have `p + 1, p, …, 1` nodes. -/
def rowStart (p : Nat) : Nat → Nat
  | 0 => 0
  | j + 1 => rowStart p j + (p + 1 - j)

lemma rowStart_add (p : Nat) : ∀ j d, j + d ≤ p + 1 → rowStart p j + d ≤ rowStart p (j + d)
  | j, 0, _ => le_rfl
  | j, d + 1, h => by
    have := rowStart_add p j d (by omega)
    show _ ≤ rowStart p (j + d) + (p + 1 - (j + d))
    omega

/-- Nodes of a triangle of order `p`, row by row: its three faces. -/
def triangleNode (p : Nat) (f : Fin 3) (k : Fin (p + 1)) : Fin (rowStart p (p + 1)) :=
  ⟨match f with
    | 0 => k.val
    | 1 => rowStart p k + (p - k)
    | 2 => rowStart p k, by
    have hk := k.isLt
    have h1 : rowStart p k + (p + 1 - k.val) ≤ rowStart p (p + 1) := by
      have h2 : ∀ d, k.val + 1 + d ≤ p + 1 → rowStart p (k.val + 1) ≤ rowStart p (k.val + 1 + d) := fun d hd => by
        have := rowStart_add p (k.val + 1) d hd
        omega
      have h3 := h2 (p - k.val) (by omega)
      rw [show k.val + 1 + (p - k.val) = p + 1 by omega] at h3
      exact h3
    have h4 := rowStart_add p 0 (p + 1) (by omega)
    rw [Nat.zero_add, show rowStart p 0 = 0 from rfl] at h4
    match f with
    | 0 => show k.val < _; omega
    | 1 => show rowStart p k + (p - k) < _; omega
    | 2 => show rowStart p k < _; omega⟩

/-- **C166**: triangles of every order from one on meet the hypothesis on the nodes. -/
theorem C166_triangles (p : Nat) (hp : 1 ≤ p) : NodesOk (triangleNode p) where
  pos := by omega
  mono := by
    intro f a b hab
    have hab' : a.val < b.val := hab
    have ha := a.isLt
    have hb := b.isLt
    have hs : rowStart p a + (p + 1 - a.val) ≤ rowStart p b := by
      have h1 := rowStart_add p (a.val + 1) (b.val - a.val - 1) (by omega)
      rw [show a.val + 1 + (b.val - a.val - 1) = b.val by omega] at h1
      have h2 : rowStart p (a.val + 1) = rowStart p a.val + (p + 1 - a.val) := rfl
      omega
    show (triangleNode p f a).val < (triangleNode p f b).val
    unfold triangleNode
    match f with
    | 0 => show a.val < b.val; omega
    | 1 => show rowStart p a + (p - a) < rowStart p b + (p - b); omega
    | 2 => show rowStart p a < rowStart p b; omega
  distinct := by
    have e0 : ∀ k, (triangleNode p 0 k).val = k.val := fun _ => rfl
    have e1 : ∀ k, (triangleNode p 1 k).val = rowStart p k + (p - k) := fun _ => rfl
    have e2 : ∀ k, (triangleNode p 2 k).val = rowStart p k := fun _ => rfl
    have hs : rowStart p 1 = p + 1 := by show 0 + (p + 1 - 0) = p + 1; omega
    intro f f' h
    have h0 := congrArg Fin.val (congrFun h ⟨0, by omega⟩)
    have h1 := congrArg Fin.val (congrFun h ⟨1, by omega⟩)
    have hz : rowStart p 0 = 0 := rfl
    clear h
    match f, f', h0, h1 with
    | 0, 0, _, _ | 1, 1, _, _ | 2, 2, _, _ => rfl
    | 0, 1, h0, h1 | 0, 2, h0, h1 | 1, 0, h0, h1 | 1, 2, h0, h1 | 2, 0, h0, h1 | 2, 1, h0, h1 =>
      exfalso
      simp only [triangleNode, hs, hz] at h0 h1
      omega
  meet := by
    intro f f' h
    have e0 : ∀ k, (triangleNode p 0 k).val = k.val := fun _ => rfl
    have e1 : ∀ k, (triangleNode p 1 k).val = rowStart p k + (p - k) := fun _ => rfl
    have e2 : ∀ k, (triangleNode p 2 k).val = rowStart p k := fun _ => rfl
    match f, f', h with
    | 0, 1, _ => exact ⟨⟨p, by omega⟩, ⟨0, by omega⟩, Fin.ext (by rw [e0, e1]; show rowStart p 0 + (p - 0) = p; rw [show rowStart p 0 = 0 from rfl]; omega)⟩
    | 1, 2, _ => exact ⟨⟨p, by omega⟩, ⟨p, by omega⟩, Fin.ext (by rw [e1, e2]; simp)⟩

/-! ### an instance: two triangles -/

/-- The two triangles of C129; the faces are numbered as the local faces of the first element, then of the second. -/
def triFid : Fin 2 → Fin 3 → Nat := ![![0, 1, 2], ![3, 1, 4]]

def triFaces : Faces (Fin 2 × Fin 3) ℚ where
  ne := 2
  n := 3
  table := fun e => if e = 0 then [0, 1, 2] else [3, 1, 4]
  first := fun s => if s < 3 then 0 else 1
  second := fun s => if s = 1 then some 1 else none
  face := fun s => if s = 1 then (triInner none).face else
    if s = 0 then triOuterFace 0 (exPts 0 1 3 [0, -3]) else if s = 2 then triOuterFace 0 (exPts 0 2 4 [-4, 0]) else
    if s = 3 then triOuterFace 1 (exPts 0 1 3 [0, 3]) else triOuterFace 1 (exPts 0 2 4 [4, 0])

/-- Boundary elements: absorbing, magnetic, the total-field surface, electric. -/
def triBdrs : List (Bdr ℚ) := [⟨2, 1, [.SMA], [], []⟩, ⟨3, 1, [.PMC], [], []⟩, ⟨1, -1, [], [], [.totalFieldIn]⟩, ⟨0, 1, [.PEC], [], []⟩]

def triSo (b : Bdr ℚ) : Outer 2 3 3 ℚ :=
  if b.face = 0 then ⟨0, 0, some .PEC, triOuterFace 0 (exPts 0 1 3 [0, -3])⟩ else
  if b.face = 2 then ⟨0, 2, some .SMA, triOuterFace 0 (exPts 0 2 4 [-4, 0])⟩ else
  if b.face = 3 then ⟨1, 0, some .PMC, triOuterFace 1 (exPts 0 1 3 [0, 3])⟩ else ⟨1, 2, none, triOuterFace 1 (exPts 0 2 4 [4, 0])⟩

theorem triNodesOk : NodesOk triNode where
  pos := by decide
  mono := triRefOk.mono
  distinct := by decide +kernel
  meet := by decide +kernel

theorem triSeparated : Separated triRef triNode where
  big := by decide +kernel
  sep := by decide +kernel

theorem triMeshOk : MeshOk (K := ℚ) triFaces triFid [triInner none] triOuter where
  ne_ := rfl
  n_ := rfl
  table := by decide
  inner_ := by
    intro q hq
    obtain rfl := List.mem_singleton.1 hq
    exact ⟨by decide, by decide, by decide, by decide, rfl⟩
  outer_ := by
    intro q hq
    rcases triOuter_mem hq with rfl | rfl | rfl | rfl <;> exact ⟨by decide, by decide, rfl⟩
  cover := by decide +kernel
  alone := by
    intro q hq q' hq' _ _
    rw [List.mem_singleton.1 hq, List.mem_singleton.1 hq']

theorem triBdrsOk : BdrsOk triFaces triFid [triInner none] triOuter triBdrs triSo (fun _ => triInner none) where
  outer_ := by
    intro b hb
    simp only [triBdrs, List.mem_cons, List.not_mem_nil, or_false] at hb
    rcases hb with rfl | rfl | rfl | rfl <;> intro h
    · exact ⟨by simp [triSo, triOuter], rfl, rfl, rfl⟩
    · exact ⟨by simp [triSo, triOuter], rfl, rfl, rfl⟩
    · exact absurd h (by decide)
    · exact ⟨by simp [triSo, triOuter], rfl, rfl, rfl⟩
  inner_ := by
    intro b hb
    simp only [triBdrs, List.mem_cons, List.not_mem_nil, or_false] at hb
    rcases hb with rfl | rfl | rfl | rfl <;> intro h
    · exact absurd rfl h
    · exact absurd rfl h
    · exact ⟨by simp, rfl, by simp, by simp⟩
    · exact absurd rfl h
  some_ := ⟨⟨2, 1, [.SMA], [], []⟩, by simp [triBdrs], rfl⟩

theorem triInnerGeom : ∀ q ∈ [triInner none], InnerGeom triRef triElem triNode q := by
  intro q hq
  obtain rfl := List.mem_singleton.1 hq
  have h := (triSame 1 one_ne_zero 0).innerOk (triInner none) (by simp)
  exact ⟨⟨h.size, h.off1, h.off2, h.match_, h.quad1⟩, h.dofs1, h.dofs2, h.normal, h.quad2⟩

theorem triOuterGeom : ∀ q ∈ triOuter, OuterGeom triRef triElem triNode q := by
  intro q hq
  have h := (triSame 1 one_ne_zero 0).outerOk q hq
  exact ⟨⟨h.size, h.off, h.quad⟩, h.dofs, h.normal⟩

theorem triDeclared : Declared triFaces [triInner none] triOuter triBdrs triSo 1 where
  conds := by
    show List.Perm [(_, _), (_, _), (_, _)] [(_, _), (_, _), (_, _)]
    exact ((List.Perm.swap _ _ _).cons _).trans ((List.Perm.swap _ _ _))|>.trans (List.Perm.refl _)
  inside := by
    refine ⟨?_, ?_⟩
    · intro b hb
      simp only [triBdrs, List.mem_cons, List.not_mem_nil, or_false] at hb
      rcases hb with rfl | rfl | rfl | rfl <;> rfl
    · intro q hq
      obtain rfl := List.mem_singleton.1 hq
      rfl
  alpha_ := fun _ _ _ => rfl

/-- The instance meets the hypotheses of `C166_connectivity`, `C166_tables_partial` and `C166_same`. -/
example : ∃ c m tf, connectivities triFaces triBdrs = some (c, m, tf) ∧
    Same triRef 4 triMass triNode triElem (fun _ => 1) (fun _ => 1) (triProb 1 1 0 none) (fun i => c.getD i (0, 0)) m [triInner none] triOuter :=
  C166_same triNodesOk triSeparated triMeshOk triBdrsOk triRefOk (triSame 1 one_ne_zero 0).elems ⟨rfl, rfl⟩ triInnerGeom triOuterGeom triDeclared

/-- What is built. -/
example : (connectivities triFaces triBdrs).map (fun r => r.1) =
      some [(0, 0), (1, 1), (1, 5), (2, 4), (0, 0), (2, 2), (3, 3), (4, 4), (4, 2), (5, 1), (3, 3), (5, 5)] ∧
    (connectivities triFaces triBdrs).map (fun r => [r.2.1.pec, r.2.1.pmc, r.2.1.sma]) = some [[(0, 0), (1, 1)], [(6, 3), (7, 4)], [(4, 0), (5, 2)]] ∧
    (connectivities triFaces triBdrs).map (fun r => r.2.2.map fun t => (t.sf, t.tf, t.node)) = some [(9, 2, 5), (8, 3, 4)] := by
  decide +kernel

/-- The instance meets the hypotheses of `C166_surface`. -/
example : SurfDeclared (R := triRef) triNode [triInner none] (fun _ => some true) triCase triBdrs (fun _ => triInner none)
    [some (fieldsOf (by decide) (by decide) triWave)] [triWave] where
  marked := rfl
  faces := List.Perm.refl _
  values := by
    intro q hq _
    obtain rfl := List.mem_singleton.1 hq
    decide +kernel
  place := by
    intro q hq _ k f x
    obtain rfl := List.mem_singleton.1 hq
    cases f <;> revert k x <;> decide +kernel
  sides := by
    refine ⟨_, rfl, ?_⟩
    intro q hq s hs
    obtain rfl := List.mem_singleton.1 hq
    obtain rfl : true = s := by simpa using hs
    decide +kernel

/-! ### elements with a single node -/

/-- Two elements with a single node (order zero) and three faces: face 0 lies between them. -/
def oneNode : Faces (Fin 2 × Fin 1) ℚ where
  ne := 2
  n := 1
  table := fun e => if e = 0 then [0, 1, 2] else [0, 3, 4]
  first := fun s => if s < 3 then 0 else 1
  second := fun s => if s = 0 then some 1 else none
  face := fun s => if s = 0 then ⟨1, 1, fun i => (if i = 0 then 0 else 1, 0), [⟨1, 1, [1, 0], fun _ => 1, fun _ => 1⟩]⟩
    else ⟨1, 0, fun _ => (if s < 3 then 0 else 1, 0), [⟨1, 1, [1, 0], fun _ => 1, fun _ => 0⟩]⟩

/-- **C166 is violated** by elements of order zero: a conductor on face 2, whose place is 2, is put at place 0, which belongs to the
face between the two elements. -/
theorem C166_violated_order_zero :
    (connectivities oneNode [⟨2, 1, [.PEC], [], []⟩]).map (fun r => [r.1, r.2.1.pec]) =
      some [[(0, 1), (0, 0), (0, 0), (1, 0), (1, 1), (1, 1)], [(0, 0)]] := by decide +kernel

end Dgtd.Nodal
