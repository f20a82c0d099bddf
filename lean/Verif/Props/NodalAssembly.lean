/-
C129, C130: the nodal operator against the global one.
-/
import Verif.Lemmas.NodalRow
import Mathlib.Data.List.ProdSigma

set_option linter.unusedSectionVars false

namespace Dgtd.Nodal

open Spec NodalMaps Dgtd.Op

variable {K : Type} [Field K] [LinearOrder K] [IsStrictOrderedRing K]

variable {ne : Nat} {R : Ref K} {w : K} {Mhat : Fin R.n → Fin R.n → K} {node : Fin R.nF → Fin R.nf → Fin R.n}
  {el : Nat → Elem K} {eps mu : Fin ne → K} {P : Prob (Fin ne × Fin R.n) K} {c : Nat → Nat × Nat} {b : BdrMaps}
  {inner : List (Inner ne R.nF R.nf R.n K)} {outer : List (Outer ne R.nF R.n K)}

lemma no_surface (sources : List (Option (Fields K))) (j : Fields K) : evaluateTFSF sources [] j = j := by
  unfold evaluateTFSF
  induction sources with
  | nil => rfl
  | cons s l ih =>
    rw [List.foldl_cons]
    have : addSource [] j s = j := by cases s <;> rfl
    rw [this, ih]

/-- **C129**: on the same mesh the nodal operator gives the rate of change of the global one, times the permittivity (or
permeability) of the element, without the losses, and times a factor of the reference element. -/
theorem C129_operator (S : Same R w Mhat node el eps mu P c b inner outer) (sources : List (Option (Fields K))) (v : Fields K)
    (u : State (Fin ne × Fin R.n) K) (hv : Holds v u) :
    ∃ E, emat R = some E ∧ ∀ (r : Fin ne × Fin R.n) (d : Fin 3),
      (nodalMult R E el c b P.alpha sources [] v).e (num r) d =
        speed R w * eps r.1 * (globalMult P u .E d r + ∑ s, P.Minv .E r s * P.Msig.mulVec (u .E d) s) ∧
      (nodalMult R E el c b P.alpha sources [] v).h (num r) d = speed R w * mu r.1 * globalMult P u .H d r := by
  obtain ⟨E, h1, hE⟩ := emat_entry R S.ref
  refine ⟨E, h1, fun r d => ⟨?_, ?_⟩⟩
  · have := nodal_global S.mixed v u hv (cur := fun _ => false) (fun _ _ => rfl) _ _ (jumps_plain _ S.mixed v u hv) E hE .E d r trivial
    simp only [faceTerm_zero, List.map_const', List.sum_replicate, smul_zero, mul_zero, Finset.sum_const_zero, sub_zero,
      sgn, FieldT.idx, material, altField, comp] at this
    rw [← this]
    unfold nodalMult outE
    rw [no_surface]
    simp only [pflux]
    push_cast
    ring
  · have := nodal_global S.mixed v u hv (cur := fun _ => false) (fun _ _ => rfl) _ _ (jumps_plain _ S.mixed v u hv) E hE .H d r trivial
    simp only [faceTerm_zero, List.map_const', List.sum_replicate, smul_zero, sub_zero,
      sgn, FieldT.idx, material, altField, comp, mul_zero, Finset.sum_const_zero, add_zero] at this
    rw [← this]
    unfold nodalMult outH
    rw [no_surface]
    simp only [pflux]
    push_cast
    ring

/-- **C129**: the factor is one for triangles and tetrahedra, four for quadrilaterals. -/
theorem C129_factor (h : RefOk R w Mhat node) :
    (R.geom = .triangle → speed R w = 1) ∧ (R.geom = .tetrahedron → speed R w = 1) ∧ (R.geom = .quadrilateral → speed R w = 4) ∧
      R.geom ≠ .hexahedron := by
  have := h.mesh
  unfold refMesh at this
  split_ifs at this with h2 h3
  · cases hg : R.geom <;> rw [hg] at this <;> simp at this <;> subst this <;> simp [speed, hg, referenceVolume, unitVolume] <;> norm_num
  · simp at this
    obtain ⟨hg, hw⟩ := this
    rw [← hg, ← hw]
    simp [speed, ← hg, referenceVolume, unitVolume]
    norm_num

/-- **C129**, in vacuum, without losses, on triangles and tetrahedra: the two operators are the same. -/
theorem C129_vacuum_partial (S : Same R w Mhat node el eps mu P c b inner outer) (hg : R.geom = .triangle ∨ R.geom = .tetrahedron)
    (heps : ∀ e, eps e = 1) (hmu : ∀ e, mu e = 1) (hsig : P.Msig = 0) (sources : List (Option (Fields K))) (v : Fields K)
    (u : State (Fin ne × Fin R.n) K) (hv : Holds v u) :
    ∃ E, emat R = some E ∧ Holds (nodalMult R E el c b P.alpha sources [] v) (globalMult P u) := by
  obtain ⟨E, h1, h2⟩ := C129_operator S sources v u hv
  have hs : speed R w = 1 := by
    obtain ⟨a, b', _⟩ := C129_factor S.ref
    exact hg.elim a b'
  refine ⟨E, h1, fun r d => ?_⟩
  obtain ⟨a, b'⟩ := h2 r d
  rw [a, b', hs, heps, hmu, hsig]
  simp

/-! ### plane waves -/

/-- **C129**: the same with plane waves that are not skipped. -/
theorem C129_waves {C : Op.Case (Fin ne × Fin R.n) K} {surf : Inner ne R.nF R.nf R.n K → Option Bool} {tf : List TfNode}
    {sources : List (Option (Fields K))} {waves : List (State (Fin ne × Fin R.n) K)}
    (S : Same R w Mhat node el eps mu C.prob c b inner outer) (T : SurfaceOk node inner outer surf C tf sources waves)
    (hq : skip2 ≤ sourceNorm2 C (sourceField C waves)) (v : Fields K) (u : State (Fin ne × Fin R.n) K) (hv : Holds v u) :
    ∃ E, emat R = some E ∧ ∀ (r : Fin ne × Fin R.n) (d : Fin 3),
      (nodalMult R E el c b C.alpha sources tf v).e (num r) d =
        speed R w * eps r.1 * (sourceRhs C waves u .E d r + ∑ s, C.Minv .E r s * C.Msig.mulVec (u .E d) s) ∧
      (nodalMult R E el c b C.alpha sources tf v).h (num r) d = speed R w * mu r.1 * sourceRhs C waves u .H d r := by
  obtain ⟨E, h1, hE⟩ := emat_entry R S.ref
  have J := jumps_waves (fun _ => false) S.mixed T v u hv
  refine ⟨E, h1, fun r d => ⟨?_, ?_⟩⟩
  · have := nodal_global S.mixed v u hv (fun _ _ => rfl) _ _ J E hE .E d r trivial
    rw [source_same S.mixed T hq]
    simp only [sgn, FieldT.idx, material, altField, comp] at this
    have e : ∀ a b c : K, a - b + c = a + c - b := fun a b c => by ring
    rw [e]
    refine Eq.trans ?_ this
    unfold nodalMult outE
    simp only [pflux]
    push_cast
    show _ = _
    simp only [Case.prob]
    ring
  · have := nodal_global S.mixed v u hv (fun _ _ => rfl) _ _ J E hE .H d r trivial
    rw [source_same S.mixed T hq]
    simp only [sgn, FieldT.idx, material, altField, comp, mul_zero, Finset.sum_const_zero, add_zero] at this
    refine Eq.trans ?_ this
    unfold nodalMult outH
    simp only [pflux]
    push_cast
    simp only [Case.prob]
    ring

/-! ### an instance: two triangles, with all the conditions -/

section instances

/-- Simpson's rule on a face with the nodes `a` and `b`. -/
def exPts (a b : Nat) (W : ℚ) (nor : List ℚ) : List (Pt ℚ) :=
  [(0, 1 / 6), (1 / 2, 4 / 6), (1, 1 / 6)].map fun q =>
    ⟨q.2, W, nor, fun i => if i = a then 1 - q.1 else if i = b then q.1 else 0, fun _ => 0⟩

/-- The same between two elements. -/
def exPts2 (a b a' b' : Nat) (W : ℚ) (nor : List ℚ) : List (Pt ℚ) :=
  [(0, 1 / 6), (1 / 2, 4 / 6), (1, 1 / 6)].map fun q =>
    ⟨q.2, W, nor, fun i => if i = a then 1 - q.1 else if i = b then q.1 else 0,
      fun i => if i = a' then 1 - q.1 else if i = b' then q.1 else 0⟩

/-- Linear triangles. -/
abbrev triRef : Ref ℚ where
  geom := .triangle
  dim := 2
  n := 3
  nF := 3
  nf := 2
  inv := fun i j => if i = j then 9 / 2 else -3 / 2
  faces := fun f => ⟨3, 0, fun _ => (), match f with
    | 0 => exPts 0 1 1 [0, -1]
    | 1 => exPts 1 2 1 [1, 1]
    | _ => exPts 0 2 1 [-1, 0]⟩

def triNode : Fin 3 → Fin 2 → Fin 3 := ![![0, 1], ![1, 2], ![0, 2]]

def triMass : Fin 3 → Fin 3 → ℚ := fun i j => if i = j then 1 / 12 else 1 / 24

/-- The rectangle `3 × 4` cut along its diagonal. -/
def triElem (e : Nat) : Elem ℚ :=
  let s : ℚ := if e = 0 then 1 else -1
  { vol := 6
    J := 12
    D := fun d _ j => s * (match d.val, j with
      | 0, 0 => -2 / 3
      | 0, 1 => 2 / 3
      | 1, 0 => -1 / 2
      | 1, 2 => 1 / 2
      | _, _ => 0)
    sJ := fun f => match f with
      | 0 => 3
      | 1 => 5
      | _ => 4
    nor := fun f d => s * (match f, d.val with
      | 0, 1 => -3
      | 1, 0 => 4
      | 1, 1 => 3
      | 2, 0 => -4
      | _, _ => 0) }

def triConn (p : Nat) : Nat × Nat :=
  ([(0, 0), (1, 1), (1, 5), (2, 4), (0, 0), (2, 2), (3, 3), (4, 4), (4, 2), (5, 1), (3, 3), (5, 5)] : List (Nat × Nat)).getD p (0, 0)

def triBdr : BdrMaps := ⟨[(0, 0), (1, 1)], [(6, 3), (7, 4)], [(4, 0), (5, 2)], [], [], []⟩

def triInner (k : Option BdrCond) : Inner 2 3 2 3 ℚ where
  e1 := 0
  f1 := 1
  e2 := 1
  f2 := 1
  mate := Equiv.swap 0 1
  cond := k
  face := ⟨3, 3, fun i => if h : i < 3 then (0, ⟨i, h⟩) else (1, ⟨(i - 3) % 3, Nat.mod_lt _ (by decide)⟩), exPts2 1 2 2 1 5 [4, 3]⟩

def triOuterFace (e : Fin 2) (pts : List (Pt ℚ)) : Face (Fin 2 × Fin 3) ℚ := ⟨3, 0, fun i => (e, ⟨i % 3, Nat.mod_lt _ (by decide)⟩), pts⟩

def triOuter : List (Outer 2 3 3 ℚ) :=
  [⟨0, 0, some .PEC, triOuterFace 0 (exPts 0 1 3 [0, -3])⟩,
   ⟨0, 2, some .SMA, triOuterFace 0 (exPts 0 2 4 [-4, 0])⟩,
   ⟨1, 0, some .PMC, triOuterFace 1 (exPts 0 1 3 [0, 3])⟩,
   ⟨1, 2, none, triOuterFace 1 (exPts 0 2 4 [4, 0])⟩]

theorem triOuter_mem {q : Outer 2 3 3 ℚ} (h : q ∈ triOuter) :
    q = ⟨0, 0, some .PEC, triOuterFace 0 (exPts 0 1 3 [0, -3])⟩ ∨ q = ⟨0, 2, some .SMA, triOuterFace 0 (exPts 0 2 4 [-4, 0])⟩ ∨
    q = ⟨1, 0, some .PMC, triOuterFace 1 (exPts 0 1 3 [0, 3])⟩ ∨ q = ⟨1, 2, none, triOuterFace 1 (exPts 0 2 4 [4, 0])⟩ := by
  simpa [triOuter] using h

def triProb (alpha eps sig : ℚ) (k : Option BdrCond) : Prob (Fin 2 × Fin 3) ℚ where
  dim := 2
  alpha := alpha
  interior := [(k, (triInner k).face)]
  bdr := triOuter.map fun q => (q.cond, q.face)
  Minv := fun f r s => if r.1 ≠ s.1 then 0 else
    (match f with | .E => 1 / eps | .H => 1) * (if r.2 = s.2 then 3 / 2 else -1 / 2)
  Msig := fun r s => if r.1 ≠ s.1 then 0 else sig * (if r.2 = s.2 then 1 else 1 / 2)
  D := fun d r s => if r.1 = s.1 then (triElem r.1).D d r.2 s.2 else 0

theorem triRefOk : RefOk triRef 4 triMass triNode where
  mesh := rfl
  inv := by decide +kernel
  mono := by
    intro f a b
    revert f a b
    decide +kernel
  one := by decide +kernel
  off := by decide +kernel
  seen := by decide +kernel

/-- Two triangles with the four kinds of outer faces. -/
theorem triSame (eps : ℚ) (heps : eps ≠ 0) (sig : ℚ) :
    Same triRef 4 triMass triNode triElem (fun _ => eps) (fun _ => 1) (triProb 1 eps sig none) triConn triBdr [triInner none] triOuter where
  ref := triRefOk
  elems :=
    { dim := rfl
      J := by decide +kernel
      epsPos := fun _ => heps
      muPos := by decide +kernel
      vol := by decide +kernel
      deriv := fun d r s => rfl
      local_ := by
        intro f r s h
        simp [triProb, h]
      invE := by
        intro e i j
        show (∑ k : Fin 3, _) = _
        have : ∀ i j : Fin 3, (∑ k : Fin 3, (1 : ℚ) * (if i = k then 3 / 2 else -1 / 2) * (12 * triMass k j)) = if i = j then 1 else 0 := by
          decide +kernel
        rw [← this i j]
        refine Finset.sum_congr rfl fun k _ => ?_
        simp only [triProb, triElem]
        have h12 : (1 / eps) * eps = 1 := by field_simp
        simp only [ne_eq, not_true_eq_false, if_false]
        linear_combination ((if i = k then 3 / 2 else -1 / 2 : ℚ) * 12 * triMass k j) * h12
      invH := by
        have : ∀ i j : Fin 3, (∑ k : Fin 3, (1 : ℚ) * (if i = k then 3 / 2 else -1 / 2) * (1 * 12 * triMass k j)) = if i = j then 1 else 0 := by
          decide +kernel
        intro e i j
        rw [← this i j]
        show (∑ k : Fin 3, _) = _
        refine Finset.sum_congr rfl fun k _ => ?_
        simp [triProb, triElem] }
  faces := ⟨rfl, rfl⟩
  innerOk := by
    intro q hq
    obtain rfl := List.mem_singleton.1 hq
    exact
      { size := by decide +kernel
        dofs1 := by decide +kernel
        dofs2 := by decide +kernel
        normal := by decide +kernel
        off1 := by decide +kernel
        off2 := by decide +kernel
        match_ := by decide +kernel
        quad1 := by decide +kernel
        quad2 := by decide +kernel
        conn1 := by decide +kernel
        conn2 := by decide +kernel }
  outerOk := by
    intro q hq
    rcases triOuter_mem hq with rfl | rfl | rfl | rfl <;>
    exact
      { size := by decide +kernel
        dofs := by decide +kernel
        normal := by decide +kernel
        off := by decide +kernel
        quad := by decide +kernel
        conn := by decide +kernel }
  cover := by decide +kernel
  conds :=
    { once := by decide +kernel
      inside := by
        intro q hq
        obtain rfl := List.mem_singleton.1 hq
        exact ⟨rfl, by decide +kernel⟩
      outside := by
        intro q hq
        rcases triOuter_mem hq with rfl | rfl | rfl | rfl
        · show ∀ k : Fin 2, _ ∈ triBdr.pec
          decide +kernel
        · exact ⟨rfl, show ∀ k : Fin 2, _ ∈ triBdr.sma by decide +kernel⟩
        · show ∀ k : Fin 2, _ ∈ triBdr.pmc
          decide +kernel
        · show ∀ k : Fin 2, _ ∉ listed triBdr
          decide +kernel }

/-- A state that is not symmetric. -/
def triU : State (Fin 2 × Fin 3) ℚ := fun f d r => f.idx * 3 + d.val * d.val + r.1.val * 2 + (r.2.val * r.2.val : Nat)

/-- The same state for the nodal operator. -/
def fieldsOf {ne n : Nat} (hne : 0 < ne) (hn : 0 < n) (u : State (Fin ne × Fin n) ℚ) : Fields ℚ where
  e := fun i d => u .E d (⟨i / n % ne, Nat.mod_lt _ hne⟩, ⟨i % n, Nat.mod_lt _ hn⟩)
  h := fun i d => u .H d (⟨i / n % ne, Nat.mod_lt _ hne⟩, ⟨i % n, Nat.mod_lt _ hn⟩)

theorem fieldsOf_holds {ne n : Nat} (hne : 0 < ne) (hn : 0 < n) (u : State (Fin ne × Fin n) ℚ) : Holds (fieldsOf hne hn u) u := by
  intro r d
  have h1 : (⟨num r / n % ne, Nat.mod_lt _ hne⟩ : Fin ne) = r.1 := Fin.ext (by
    show num r / n % ne = r.1
    rw [num_div, Nat.mod_eq_of_lt r.1.isLt])
  have h2 : (⟨num r % n, Nat.mod_lt _ hn⟩ : Fin n) = r.2 := Fin.ext (num_mod r)
  constructor
  · show u .E d (⟨num r / n % ne, _⟩, ⟨num r % n, _⟩) = _
    rw [h1, h2]
  · show u .H d (⟨num r / n % ne, _⟩, ⟨num r % n, _⟩) = _
    rw [h1, h2]

/-- The instance meets the hypotheses of `C129_vacuum_partial`, with a state that changes. -/
example : ∃ E, emat triRef = some E ∧ Holds (nodalMult triRef E triElem triConn triBdr 1 [] [] (fieldsOf (by decide) (by decide) triU))
    (globalMult (triProb 1 1 0 none) triU) :=
  C129_vacuum_partial (triSame 1 one_ne_zero 0) (.inl rfl) (fun _ => rfl) (fun _ => rfl)
    (by funext r s; show (if r.1 ≠ s.1 then (0 : ℚ) else 0 * _) = 0; simp) [] _ triU (fieldsOf_holds _ _ _)

example : globalMult (triProb 1 1 0 none) triU .E 1 (1, 1) = 1 / 3 := by decide +kernel

/-- The diagonal as total-field surface, the first triangle inside. -/
def triCase : Op.Case (Fin 2 × Fin 3) ℚ where
  dim := 2
  alpha := 1
  interior := [⟨none, true, (triInner none).face⟩]
  bdr := triOuter.map fun q => (q.cond, q.face)
  Minv := (triProb 1 1 0 none).Minv
  Msig := (triProb 1 1 0 none).Msig
  D := (triProb 1 1 0 none).D
  sub := [(0, 0), (0, 1), (0, 2), (1, 0), (1, 1), (1, 2)]
  sfSub := some [(1, 0), (1, 1), (1, 2)]

/-- Values of a wave at the four corners. -/
def triWave : State (Fin 2 × Fin 3) ℚ := fun f d r => (f.idx + d.val + 1) *
  (match r.1.val, r.2.val with | 0, 0 => 0 | 0, 1 => 1 | 1, 2 => 1 | 0, 2 => 2 | 1, 1 => 2 | _, _ => 3)

example : Same triRef 4 triMass triNode triElem (fun _ => 1) (fun _ => 1) triCase.prob triConn triBdr [triInner none] triOuter :=
  triSame 1 one_ne_zero 0

/-- The instance meets the hypotheses of `C129_waves`. -/
example : SurfaceOk (R := triRef) triNode [triInner none] triOuter (fun _ => some true) triCase [⟨9, 2, 5⟩, ⟨8, 3, 4⟩]
    [some (fieldsOf (by decide) (by decide) triWave)] [triWave] where
  marked := rfl
  once := by decide +kernel
  off := by simp
  outerOff := by
    intro q hq
    rcases triOuter_mem hq with rfl | rfl | rfl | rfl <;> decide +kernel
  on := by
    intro q hq s hs k
    obtain rfl := List.mem_singleton.1 hq
    obtain rfl : true = s := by simpa using hs
    match k with
    | 0 => exact ⟨⟨9, 2, 5⟩, by simp, by decide +kernel, by decide +kernel⟩
    | 1 => exact ⟨⟨8, 3, 4⟩, by simp, by decide +kernel, by decide +kernel⟩
  sides := by
    refine ⟨_, rfl, ?_⟩
    intro q hq s hs
    obtain rfl := List.mem_singleton.1 hq
    obtain rfl : true = s := by simpa using hs
    decide +kernel

example : skip2 ≤ sourceNorm2 triCase (sourceField triCase [triWave]) := by decide +kernel

/-- **C129 is violated**: with a relative permittivity of two the nodal operator gives twice the rate of change. -/
theorem C129_violated_permittivity : ∃ u : State (Fin 2 × Fin 3) ℚ, ∃ v, Holds v u ∧
    Same triRef 4 triMass triNode triElem (fun _ => 2) (fun _ => 1) (triProb 1 2 0 none) triConn triBdr [triInner none] triOuter ∧
    ∃ E, emat triRef = some E ∧ ¬ Holds (nodalMult triRef E triElem triConn triBdr 1 [] [] v) (globalMult (triProb 1 2 0 none) u) := by
  have S := triSame 2 two_ne_zero 0
  refine ⟨triU, _, fieldsOf_holds (by decide) (by decide) triU, S, ?_⟩
  obtain ⟨E, hE, h⟩ := C129_operator S [] _ triU (fieldsOf_holds (by decide) (by decide) triU)
  refine ⟨E, hE, fun hh => ?_⟩
  have h1 := (h (1, 1) 1).1
  rw [(C129_factor triRefOk).1 rfl] at h1
  have h2 := (hh (1, 1) 1).1
  have h3 : globalMult (triProb 1 2 0 none) triU .E 1 (1, 1) = 1 / 6 := by decide +kernel
  have h4 : (∑ s, (triProb 1 2 0 none).Minv .E (1, 1) s * (triProb 1 2 0 none).Msig.mulVec (triU .E 1) s) = 0 := by decide +kernel
  have h5 := h1.symm.trans h2
  have h6 : (1 : ℚ) * 2 * (globalMult (triProb 1 2 0 none) triU .E 1 (1, 1) +
    ∑ s, (triProb 1 2 0 none).Minv .E (1, 1) s * (triProb 1 2 0 none).Msig.mulVec (triU .E 1) s) =
    globalMult (triProb 1 2 0 none) triU .E 1 (1, 1) := h5
  rw [h3, h4] at h6
  norm_num at h6

/-- **C129 is violated**: losses are left out by the nodal operator. -/
theorem C129_violated_losses : ∃ u : State (Fin 2 × Fin 3) ℚ, ∃ v, Holds v u ∧
    Same triRef 4 triMass triNode triElem (fun _ => 1) (fun _ => 1) (triProb 1 1 1 none) triConn triBdr [triInner none] triOuter ∧
    ∃ E, emat triRef = some E ∧ ¬ Holds (nodalMult triRef E triElem triConn triBdr 1 [] [] v) (globalMult (triProb 1 1 1 none) u) := by
  have S := triSame 1 one_ne_zero 1
  refine ⟨triU, _, fieldsOf_holds (by decide) (by decide) triU, S, ?_⟩
  obtain ⟨E, hE, h⟩ := C129_operator S [] _ triU (fieldsOf_holds (by decide) (by decide) triU)
  refine ⟨E, hE, fun hh => ?_⟩
  have h1 := (h (1, 1) 1).1
  rw [(C129_factor triRefOk).1 rfl] at h1
  have h2 := (hh (1, 1) 1).1
  have h4 : (∑ s, (triProb 1 1 1 none).Minv .E (1, 1) s * (triProb 1 1 1 none).Msig.mulVec (triU .E 1) s) ≠ 0 := by decide +kernel
  have h6 : (1 : ℚ) * 1 * (globalMult (triProb 1 1 1 none) triU .E 1 (1, 1) +
    ∑ s, (triProb 1 1 1 none).Minv .E (1, 1) s * (triProb 1 1 1 none).Msig.mulVec (triU .E 1) s) =
    globalMult (triProb 1 1 1 none) triU .E 1 (1, 1) := h1.symm.trans h2
  apply h4
  linarith

/-- **C129 is violated**: absorbing boundaries with other upwinding than one (here a half). -/
theorem C129_violated_absorbing : ∃ u : State (Fin 2 × Fin 3) ℚ, ∃ v, Holds v u ∧
    ∃ E, emat triRef = some E ∧ ¬ Holds (nodalMult triRef E triElem triConn triBdr (1 / 2) [] [] v)
      (globalMult (triProb (1 / 2) 1 0 none) u) := by
  refine ⟨triU, _, fieldsOf_holds (by decide) (by decide) triU, (emat triRef).get (by decide +kernel), by simp, fun hh => ?_⟩
  have := (hh (0, 0) 1).1
  revert this
  decide +kernel

/-- **C129 is violated**: on the two sides of a conducting wall between elements the nodal operator applies half of the flux. -/
theorem C129_violated_walls : ∃ u : State (Fin 2 × Fin 3) ℚ, ∃ v, Holds v u ∧
    ∃ E, emat triRef = some E ∧
      ¬ Holds (nodalMult triRef E triElem triConn { triBdr with ipec := [⟨2, 9, 1, 5⟩, ⟨3, 8, 2, 4⟩] } 1 [] [] v)
      (globalMult (triProb 1 1 0 (some .PEC)) u) := by
  refine ⟨triU, _, fieldsOf_holds (by decide) (by decide) triU, (emat triRef).get (by decide +kernel), by simp, fun hh => ?_⟩
  have := (hh (0, 0) 0).1
  revert this
  decide +kernel

/-! ### an instance: a square -/

/-- Bilinear quadrilaterals. -/
abbrev quadRef : Ref ℚ where
  geom := .quadrilateral
  dim := 2
  n := 4
  nF := 4
  nf := 2
  inv := fun i j => (if i % 2 = j % 2 then 4 else -2) * (if i / 2 = j / 2 then 4 else -2)
  faces := fun f => ⟨4, 0, fun _ => (), match f with
    | 0 => exPts 0 1 1 [0, -1]
    | 1 => exPts 1 3 1 [1, 0]
    | 2 => exPts 2 3 1 [0, 1]
    | _ => exPts 0 2 1 [-1, 0]⟩

def quadNode : Fin 4 → Fin 2 → Fin 4 := ![![0, 1], ![1, 3], ![2, 3], ![0, 2]]

def quadMass : Fin 4 → Fin 4 → ℚ := fun i j => (if i.val % 2 = j.val % 2 then 1 / 3 else 1 / 6) * (if i.val / 2 = j.val / 2 then 1 / 3 else 1 / 6)

/-- The unit square. -/
def quadElem (_ : Nat) : Elem ℚ where
  vol := 1
  J := 1
  D := fun d i j => match d.val with
    | 0 => (if j % 2 = 0 then -1 / 2 else 1 / 2) * (if i / 2 = j / 2 then 1 / 3 else 1 / 6)
    | 1 => (if j / 2 = 0 then -1 / 2 else 1 / 2) * (if i % 2 = j % 2 then 1 / 3 else 1 / 6)
    | _ => 0
  sJ := fun _ => 1
  nor := fun f d => match f, d.val with
    | 0, 1 => -1
    | 1, 0 => 1
    | 2, 1 => 1
    | 3, 0 => -1
    | _, _ => 0

def quadConn (p : Nat) : Nat × Nat :=
  ([(0, 0), (1, 1), (1, 1), (3, 3), (2, 2), (3, 3), (0, 0), (2, 2)] : List (Nat × Nat)).getD p (0, 0)

def quadBdr : BdrMaps := ⟨[(0, 0), (1, 1), (2, 1), (3, 3), (4, 2), (5, 3), (6, 0), (7, 2)], [], [], [], [], []⟩

def quadFace (pts : List (Pt ℚ)) : Face (Fin 1 × Fin 4) ℚ := ⟨4, 0, fun i => (0, ⟨i % 4, Nat.mod_lt _ (by decide)⟩), pts⟩

def quadOuter : List (Outer 1 4 4 ℚ) :=
  [⟨0, 0, some .PEC, quadFace (exPts 0 1 1 [0, -1])⟩,
   ⟨0, 1, some .PEC, quadFace (exPts 1 3 1 [1, 0])⟩,
   ⟨0, 2, some .PEC, quadFace (exPts 2 3 1 [0, 1])⟩,
   ⟨0, 3, some .PEC, quadFace (exPts 0 2 1 [-1, 0])⟩]

theorem quadOuter_mem {q : Outer 1 4 4 ℚ} (h : q ∈ quadOuter) :
    q = ⟨0, 0, some .PEC, quadFace (exPts 0 1 1 [0, -1])⟩ ∨ q = ⟨0, 1, some .PEC, quadFace (exPts 1 3 1 [1, 0])⟩ ∨
    q = ⟨0, 2, some .PEC, quadFace (exPts 2 3 1 [0, 1])⟩ ∨ q = ⟨0, 3, some .PEC, quadFace (exPts 0 2 1 [-1, 0])⟩ := by
  simpa [quadOuter] using h

def quadProb : Prob (Fin 1 × Fin 4) ℚ where
  dim := 2
  alpha := 1
  interior := []
  bdr := quadOuter.map fun q => (q.cond, q.face)
  Minv := fun _ r s => quadRef.inv r.2 s.2
  Msig := 0
  D := fun d r s => if r.1 = s.1 then (quadElem r.1).D d r.2 s.2 else 0

theorem quadRefOk : RefOk quadRef 1 quadMass quadNode where
  mesh := rfl
  inv := by decide +kernel
  mono := by
    intro f a b
    revert f a b
    decide +kernel
  one := by decide +kernel
  off := by decide +kernel
  seen := by decide +kernel

theorem quadSame : Same quadRef 1 quadMass quadNode quadElem (fun _ => 1) (fun _ => 1) quadProb quadConn quadBdr [] quadOuter where
  ref := quadRefOk
  elems :=
    { dim := rfl
      J := by decide +kernel
      epsPos := by decide +kernel
      muPos := by decide +kernel
      vol := by decide +kernel
      deriv := fun d r s => rfl
      local_ := by
        intro f r s h
        exact absurd (Subsingleton.elim _ _) h
      invE := by decide +kernel
      invH := by decide +kernel }
  faces := ⟨rfl, rfl⟩
  innerOk := by simp
  outerOk := by
    intro q hq
    rcases quadOuter_mem hq with rfl | rfl | rfl | rfl <;>
    exact
      { size := by decide +kernel
        dofs := by decide +kernel
        normal := by decide +kernel
        off := by decide +kernel
        quad := by decide +kernel
        conn := by decide +kernel }
  cover := by decide +kernel
  conds :=
    { once := by decide +kernel
      inside := by simp
      outside := by
        intro q hq
        rcases quadOuter_mem hq with rfl | rfl | rfl | rfl <;>
        · show ∀ k : Fin 2, _ ∈ quadBdr.pec
          decide +kernel }

/-- A state of the square. -/
def quadU : State (Fin 1 × Fin 4) ℚ := fun f d r => f.idx * 3 + d.val * d.val + (r.2.val * r.2.val : Nat)

/-- **C129 is violated**: on quadrilaterals in vacuum the fields change four times too fast. -/
theorem C129_violated_quadrilaterals : ∃ u : State (Fin 1 × Fin 4) ℚ, ∃ v, Holds v u ∧
    Same quadRef 1 quadMass quadNode quadElem (fun _ => 1) (fun _ => 1) quadProb quadConn quadBdr [] quadOuter ∧
    ∃ E, emat quadRef = some E ∧ (∀ r d, (nodalMult quadRef E quadElem quadConn quadBdr 1 [] [] v).h (num r) d = 4 * globalMult quadProb u .H d r) ∧
      ¬ Holds (nodalMult quadRef E quadElem quadConn quadBdr 1 [] [] v) (globalMult quadProb u) := by
  refine ⟨quadU, _, fieldsOf_holds (by decide) (by decide) quadU, quadSame, ?_⟩
  obtain ⟨E, hE, h⟩ := C129_operator quadSame [] _ quadU (fieldsOf_holds (by decide) (by decide) quadU)
  rw [(C129_factor quadRefOk).2.2.1 rfl] at h
  have hall : ∀ (r : Fin 1 × Fin 4) (d : Fin 3), (nodalMult quadRef E quadElem quadConn quadBdr 1 [] [] (fieldsOf (by decide) (by decide) quadU)).h (num r) d =
      4 * globalMult quadProb quadU .H d r := by
    intro r d
    have := (h r d).2
    rw [show (4 : ℚ) * 1 = 4 by norm_num] at this
    exact this
  refine ⟨E, hE, hall, fun hh => ?_⟩
  have h2 := (hh (0, 1) 0).2
  have h3 : globalMult quadProb quadU .H 0 (0, 1) ≠ 0 := by decide +kernel
  rw [hall] at h2
  apply h3
  linarith

end instances

/-! ### C130 -/

/-- **C130**: meshes that are accepted have elements of one type, so that the reference matrix is built. -/
theorem C130_one_type (dim p : Nat) (elems : List Geom) (h : sameType elems = true) (hne : elems ≠ []) :
    ∃ g, (∀ g' ∈ elems, g' = g) ∧ refInvMassSize (K := K) dim p elems = (refMesh (K := K) dim g).map fun m => nodesOf p m.geom := by
  cases elems with
  | nil => exact absurd rfl hne
  | cons g gs =>
    have hg : ∀ g' ∈ gs, g = g' := by simpa [sameType] using h
    refine ⟨g, ?_, ?_⟩
    · intro g' hg'
      rcases List.mem_cons.1 hg' with rfl | h'
      · rfl
      · exact (hg g' h').symm
    · unfold refInvMassSize
      simp only
      rw [if_pos]
      simpa using hg

/-- **C130**: the sizes of the matrices fit on triangles, quadrilaterals and tetrahedra, of every order. -/
theorem C130_sizes_partial (p : Nat) (elems : List Geom) (hne : elems ≠ []) (g : Geom) (h : ∀ g' ∈ elems, g' = g) :
    (g = .triangle ∨ g = .quadrilateral → sizesMatch (K := K) 2 p elems = some true) ∧
    (g = .tetrahedron → sizesMatch (K := K) 3 p elems = some true) := by
  have hs : sameType elems = true := by
    cases elems with
    | nil => rfl
    | cons a l =>
      have ha := h a (List.mem_cons_self ..)
      simp only [sameType, List.all_eq_true, decide_eq_true_eq]
      intro g' hg'
      rw [ha, h g' (List.mem_cons_of_mem _ hg')]
  constructor
  · intro hg
    obtain ⟨g0, h0, h1⟩ := C130_one_type (K := K) 2 p elems hs hne
    have : g0 = g := by
      obtain ⟨a, ha⟩ := List.exists_mem_of_ne_nil _ hne
      rw [← h0 a ha, h a ha]
    subst this
    unfold sizesMatch
    rw [h1]
    rcases hg with rfl | rfl <;> simp [refMesh] <;> intro g' hg' <;> rw [h g' hg']
  · intro hg
    obtain ⟨g0, h0, h1⟩ := C130_one_type (K := K) 3 p elems hs hne
    have : g0 = g := by
      obtain ⟨a, ha⟩ := List.exists_mem_of_ne_nil _ hne
      rw [← h0 a ha, h a ha]
    subst this
    unfold sizesMatch
    rw [h1, hg]
    simp [refMesh]
    intro g' hg'
    rw [h g' hg', hg]

/-- **C130 is violated**: on hexahedra the matrices never fit, for any order from one on. -/
theorem C130_violated_hexahedra (p : Nat) (hp : 1 ≤ p) (elems : List Geom) (hne : elems ≠ []) (h : ∀ g' ∈ elems, g' = .hexahedron) :
    sameType elems = true ∧ sizesMatch (K := K) 3 p elems = some false := by
  have hs : sameType elems = true := by
    cases elems with
    | nil => rfl
    | cons a l =>
      have ha := h a (List.mem_cons_self ..)
      simp only [sameType, List.all_eq_true, decide_eq_true_eq]
      intro g' hg'
      rw [ha, h g' (List.mem_cons_of_mem _ hg')]
  refine ⟨hs, ?_⟩
  obtain ⟨g0, h0, h1⟩ := C130_one_type (K := K) 3 p elems hs hne
  unfold sizesMatch
  rw [h1]
  have hr : refMesh (K := K) 3 g0 = some ⟨.tetrahedron, 8⟩ := by cases g0 <;> rfl
  rw [hr]
  have hlt : nodesOf p .tetrahedron < nodesOf p .hexahedron := by
    simp only [nodesOf]
    rw [Nat.div_lt_iff_lt_mul (by decide)]
    nlinarith [hp, Nat.zero_le p, mul_pos (show 0 < p + 1 by omega) (show 0 < p by omega)]
  simp only [Option.map_some, Option.some.injEq]
  rw [Bool.eq_false_iff]
  intro hall
  rw [List.all_eq_true] at hall
  obtain ⟨a, ha⟩ := List.exists_mem_of_ne_nil _ hne
  have := hall a ha
  rw [h a ha, decide_eq_true_eq] at this
  omega

/-- Lines are rejected. -/
theorem C130_lines (p : Nat) (g : Geom) (gs : List Geom) (h : sameType (g :: gs) = true) : sizesMatch (K := K) 1 p (g :: gs) = none := by
  obtain ⟨g0, _, h1⟩ := C130_one_type (K := K) 1 p (g :: gs) h (by simp)
  unfold sizesMatch
  rw [h1]
  rfl

theorem nodesOf_pos (p : Nat) (g : Geom) : 0 < nodesOf p g := by
  cases g
  · exact Nat.div_pos (Nat.mul_le_mul (Nat.le_add_left 1 p) (Nat.le_add_left 2 p)) (by decide)
  · exact Nat.mul_pos (Nat.succ_pos p) (Nat.succ_pos p)
  · exact Nat.div_pos (Nat.mul_le_mul (Nat.mul_le_mul (Nat.le_add_left 1 p) (Nat.le_add_left 2 p)) (Nat.le_add_left 3 p)) (by decide)
  · exact Nat.mul_pos (Nat.mul_pos (Nat.succ_pos p) (Nat.succ_pos p)) (Nat.succ_pos p)

/-- **C130.** The check of the model on types of elements is needed: with elements of several types the reference matrix is empty and
fits no element, at every order, in every dimension. -/
theorem C130_mixed (dim p : Nat) (g : Geom) (gs : List Geom) (h : sameType (g :: gs) = false) :
    sizesMatch (K := K) dim p (g :: gs) = some false := by
  have h0 : (gs.all fun g' => decide (g = g')) = false := h
  unfold sizesMatch refInvMassSize
  simp only [h0, Bool.false_eq_true, if_false, Option.map_some, List.all_cons, Option.some.injEq, Bool.and_eq_false_iff]
  left
  exact decide_eq_false (nodesOf_pos p g).ne'

example : sizesMatch (K := ℚ) 3 2 [.hexahedron, .hexahedron] = some false := by decide +kernel
example : sizesMatch (K := ℚ) 3 2 [.tetrahedron, .tetrahedron] = some true := by decide +kernel
example : sameType [.tetrahedron, .hexahedron] = false := by decide

end Dgtd.Nodal
