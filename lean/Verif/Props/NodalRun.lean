/-
C129: explicit runs with the nodal operator and with the global one.
-/
import Verif.Props.NodalAssembly
import Verif.Props.Par

set_option linter.unusedSectionVars false

namespace Dgtd.Nodal

open Spec NodalMaps Dgtd.Op Dgtd.TimeInt

/-- The vector of the nodal operator: six components at all the nodes. -/
abbrev Vec := FieldT → Fin 3 → Nat → ℝ

/-- As fields. -/
def toFields (x : Vec) : Fields ℝ := ⟨fun i d => x .E d i, fun i d => x .H d i⟩

/-- As vector. -/
def ofFields (v : Fields ℝ) : Vec
  | .E => fun d i => v.e i d
  | .H => fun d i => v.h i d

/-- The unknowns of the mesh, in the numbering of the global operator. -/
def values {ne n : Nat} : Vec →ₗ[ℝ] State (Fin ne × Fin n) ℝ where
  toFun := fun x f d r => x f d (num r)
  map_add' := fun _ _ => rfl
  map_smul' := fun _ _ => rfl

variable {ne : Nat} {R : Ref ℝ} {w : ℝ} {Mhat : Fin R.n → Fin R.n → ℝ} {node : Fin R.nF → Fin R.nf → Fin R.n}
  {el : Nat → Elem ℝ} {eps mu : Fin ne → ℝ} {P : Prob (Fin ne × Fin R.n) ℝ} {c : Nat → Nat × Nat} {b : BdrMaps}
  {inner : List (Inner ne R.nF R.nf R.n ℝ)} {outer : List (Outer ne R.nF R.n ℝ)}

/-- **C129**: in vacuum, on triangles and tetrahedra, a run of any number of explicit steps of any sizes gives the same fields at the same
times with both operators. -/
theorem C129_run_partial (S : Same R w Mhat node el eps mu P c b inner outer) (hg : R.geom = .triangle ∨ R.geom = .tetrahedron)
    (heps : ∀ e, eps e = 1) (hmu : ∀ e, mu e = 1) (hsig : P.Msig = 0) {T : Type} (q : Implicit.Sdirk ℝ) (x : Vec) (dts : List ℝ) (t : ℝ)
    (s : T) : ∃ E, emat R = some E ∧
      TimeInt.run q .rk4 (explicitTdo fun _ u => globalMult P u) dts (values x) t s =
        (TimeInt.run q .rk4 (explicitTdo fun _ y => ofFields (nodalMult R E el c b P.alpha [] [] (toFields y))) dts x t s).map
          fun y => (values y.1, y.2) := by
  obtain ⟨E, h1, hE⟩ := emat_entry R S.ref
  refine ⟨E, h1, Par.run_map q values ?_ dts x t s⟩
  intro _ y
  have hh : Holds (toFields y) (values (ne := ne) (n := R.n) y) := fun r d => ⟨rfl, rfl⟩
  obtain ⟨E', h1', h2⟩ := C129_vacuum_partial S hg heps hmu hsig [] (toFields y) _ hh
  obtain rfl : E' = E := by rw [h1] at h1'; exact (Option.some.inj h1').symm
  funext f d r
  cases f
  · exact ((h2 r d).1).symm
  · exact ((h2 r d).2).symm

/-- **C129**: the same with plane waves, while they are not skipped. -/
theorem C129_run_waves_partial {C : Op.Case (Fin ne × Fin R.n) ℝ} {surf : Inner ne R.nF R.nf R.n ℝ → Option Bool} {tf : List TfNode}
    {sources : ℝ → List (Option (Fields ℝ))} {waves : ℝ → List (State (Fin ne × Fin R.n) ℝ)}
    (S : Same R w Mhat node el eps mu C.prob c b inner outer) (hS : ∀ t, SurfaceOk node inner outer surf C tf (sources t) (waves t))
    (hskip : ∀ t, skip2 ≤ sourceNorm2 C (sourceField C (waves t))) (hg : R.geom = .triangle ∨ R.geom = .tetrahedron)
    (heps : ∀ e, eps e = 1) (hmu : ∀ e, mu e = 1) (hsig : C.Msig = 0) {T : Type} (q : Implicit.Sdirk ℝ) (x : Vec) (dts : List ℝ) (t : ℝ)
    (s : T) : ∃ E, emat R = some E ∧
      TimeInt.run q .rk4 (explicitTdo fun t u => sourceRhs C (waves t) u) dts (values x) t s =
        (TimeInt.run q .rk4 (explicitTdo fun t y => ofFields (nodalMult R E el c b C.alpha (sources t) tf (toFields y))) dts x t s).map
          fun y => (values y.1, y.2) := by
  obtain ⟨E, h1, hE⟩ := emat_entry R S.ref
  refine ⟨E, h1, Par.run_map q values ?_ dts x t s⟩
  intro t y
  have hh : Holds (toFields y) (values (ne := ne) (n := R.n) y) := fun r d => ⟨rfl, rfl⟩
  obtain ⟨E', h1', h2⟩ := C129_waves S (hS t) (hskip t) (toFields y) _ hh
  obtain rfl : E' = E := by rw [h1] at h1'; exact (Option.some.inj h1').symm
  have hs : speed R w = 1 := by
    obtain ⟨a, b', _⟩ := C129_factor S.ref
    exact hg.elim a b'
  funext f d r
  cases f
  · have := (h2 r d).1
    rw [hs, heps, hsig] at this
    simp only [Matrix.zero_mulVec, Pi.zero_apply, mul_zero, Finset.sum_const_zero, add_zero, one_mul] at this
    exact this.symm
  · have := (h2 r d).2
    rw [hs, hmu, one_mul, one_mul] at this
    exact this.symm

/-! ### instances over the reals -/

def castPt (p : Pt ℚ) : Pt ℝ := ⟨p.w, p.W, p.nor.map fun x : ℚ => (x : ℝ), fun i => p.sh1 i, fun i => p.sh2 i⟩

def castFace {ι : Type} (F : Face ι ℚ) : Face ι ℝ := ⟨F.ndof1, F.ndof2, F.dofs, F.pts.map castPt⟩

abbrev castRef (R : Ref ℚ) : Ref ℝ := ⟨R.geom, R.dim, R.n, R.nF, R.nf, fun i j => R.inv i j, fun f => castFace (R.faces f)⟩

def castElem (e : Elem ℚ) : Elem ℝ := ⟨e.vol, e.J, fun d i j => e.D d i j, fun f => e.sJ f, fun f d => e.nor f d⟩

def castProb {ι : Type} (P : Prob ι ℚ) : Prob ι ℝ :=
  { dim := P.dim
    alpha := P.alpha
    interior := P.interior.map fun q => (q.1, castFace q.2)
    bdr := P.bdr.map fun q => (q.1, castFace q.2)
    Minv := fun f r s => P.Minv f r s
    Msig := fun r s => P.Msig r s
    D := fun d r s => P.D d r s }

def castInner {ne nF nf n : Nat} (q : Inner ne nF nf n ℚ) : Inner ne nF nf n ℝ := ⟨q.e1, q.f1, q.e2, q.f2, q.mate, q.cond, castFace q.face⟩

def castOuter {ne nF n : Nat} (q : Outer ne nF n ℚ) : Outer ne nF n ℝ := ⟨q.e, q.f, q.cond, castFace q.face⟩

lemma cast_faceMass (pts : List (Pt ℚ)) (i j : Nat) :
    faceMass (pts.map castPt) Pt.sh1 i j = ((faceMass pts Pt.sh1 i j : ℚ) : ℝ) ∧
    faceMass (pts.map castPt) Pt.sh2 i j = ((faceMass pts Pt.sh2 i j : ℚ) : ℝ) := by
  unfold faceMass
  induction pts with
  | nil => simp
  | cons p l ih =>
    simp only [List.map_cons, List.sum_cons]
    rw [ih.1, ih.2]
    push_cast
    exact ⟨rfl, rfl⟩

lemma cast_normalTerm (l : List ℚ) (d : Fin 3) : normalTerm (l.map fun x : ℚ => (x : ℝ)) d = ((normalTerm l d : ℚ) : ℝ) := by
  unfold normalTerm
  rw [List.getElem?_map]
  cases l[d.val]? with
  | none => exact (Rat.cast_zero (α := ℝ)).symm
  | some a => rfl

lemma cast_refOk {R : Ref ℚ} {w : ℚ} {Mhat : Fin R.n → Fin R.n → ℚ} {node : Fin R.nF → Fin R.nf → Fin R.n} (h : RefOk R w Mhat node) :
    RefOk (castRef R) (w : ℝ) (fun i j => (Mhat i j : ℝ)) node where
  mesh := by
    have := h.mesh
    unfold refMesh at this ⊢
    show (if R.dim = 2 then (refMesh 2 R.geom : Option (RefMesh ℝ)) else if R.dim = 3 then some ⟨.tetrahedron, 8⟩ else none) =
      some ⟨R.geom, (w : ℝ)⟩
    split_ifs at this ⊢ with h2 h3
    · cases hg : R.geom <;> rw [hg] at this <;> simp [refMesh] at this ⊢ <;> rw [← this] <;> norm_num
    · simp at this ⊢
      exact ⟨this.1, by rw [← this.2]; norm_num⟩
  inv := by
    intro i j
    have := h.inv i j
    have h2 : (((∑ k : Fin R.n, R.inv i k * (w * Mhat k j) : ℚ)) : ℝ) = ((if i = j then 1 else 0 : ℚ) : ℝ) := by rw [this]
    rw [Rat.cast_sum] at h2
    have h3 : ((if i = j then 1 else 0 : ℚ) : ℝ) = if i = j then 1 else 0 := by split_ifs <;> simp
    rw [h3] at h2
    rw [← h2]
    exact Finset.sum_congr rfl fun k _ => by push_cast; rfl
  mono := h.mono
  one := h.one
  off := by
    intro f p hp i hi
    obtain ⟨p', hp', rfl⟩ := List.mem_map.1 hp
    show ((p'.sh1 i : ℚ) : ℝ) = 0
    rw [h.off f p' hp' i hi, Rat.cast_zero]
  seen := by
    intro f k
    obtain ⟨i, hi⟩ := h.seen f k
    refine ⟨i, ?_⟩
    show (1 : ℝ) / 1000000 ≤ |2 * faceMass ((R.faces f).pts.map castPt) Pt.sh1 i (node f k)|
    rw [(cast_faceMass _ _ _).1]
    have h2 : (((1 : ℚ) / 1000000 : ℚ) : ℝ) ≤ ((|2 * faceMass (R.faces f).pts Pt.sh1 i (node f k)| : ℚ) : ℝ) := Rat.cast_le.2 hi
    push_cast at h2
    exact h2

theorem cast_same {ne : Nat} {R : Ref ℚ} {w : ℚ} {Mhat : Fin R.n → Fin R.n → ℚ} {node : Fin R.nF → Fin R.nf → Fin R.n}
    {el : Nat → Elem ℚ} {eps mu : Fin ne → ℚ} {P : Prob (Fin ne × Fin R.n) ℚ} {c : Nat → Nat × Nat} {b : BdrMaps}
    {inner : List (Inner ne R.nF R.nf R.n ℚ)} {outer : List (Outer ne R.nF R.n ℚ)}
    (S : Same R w Mhat node el eps mu P c b inner outer) :
    Same (castRef R) (w : ℝ) (fun i j => (Mhat i j : ℝ)) node (fun e => castElem (el e)) (fun e => (eps e : ℝ)) (fun e => (mu e : ℝ))
      (castProb P) c b (inner.map castInner) (outer.map castOuter) where
  ref := cast_refOk S.ref
  elems :=
    { dim := S.elems.dim
      J := fun e => Rat.cast_ne_zero.2 (S.elems.J e)
      epsPos := fun e => Rat.cast_ne_zero.2 (S.elems.epsPos e)
      muPos := fun e => Rat.cast_ne_zero.2 (S.elems.muPos e)
      vol := by
        intro e
        show (((el e).vol : ℚ) : ℝ) = (((el e).J : ℚ) : ℝ) * unitVolume R.geom
        rw [S.elems.vol]
        push_cast
        congr 1
        cases R.geom <;> simp [unitVolume]
      deriv := by
        intro d r s
        show ((P.D d r s : ℚ) : ℝ) = if r.1 = s.1 then (((el r.1).D d r.2 s.2 : ℚ) : ℝ) else 0
        rw [S.elems.deriv]
        split_ifs <;> simp
      local_ := by
        intro f r s h
        show ((P.Minv f r s : ℚ) : ℝ) = 0
        rw [S.elems.local_ f r s h, Rat.cast_zero]
      invE := by
        intro e i j
        have h2 : (((∑ k, P.Minv .E (e, i) (e, k) * (eps e * (el e).J * Mhat k j) : ℚ)) : ℝ) = ((if i = j then 1 else 0 : ℚ) : ℝ) := by
          rw [S.elems.invE e i j]
        rw [Rat.cast_sum] at h2
        have h3 : ((if i = j then 1 else 0 : ℚ) : ℝ) = if i = j then 1 else 0 := by split_ifs <;> simp
        rw [h3] at h2
        rw [← h2]
        exact Finset.sum_congr rfl fun k _ => by push_cast; rfl
      invH := by
        intro e i j
        have h2 : (((∑ k, P.Minv .H (e, i) (e, k) * (mu e * (el e).J * Mhat k j) : ℚ)) : ℝ) = ((if i = j then 1 else 0 : ℚ) : ℝ) := by
          rw [S.elems.invH e i j]
        rw [Rat.cast_sum] at h2
        have h3 : ((if i = j then 1 else 0 : ℚ) : ℝ) = if i = j then 1 else 0 := by split_ifs <;> simp
        rw [h3] at h2
        rw [← h2]
        exact Finset.sum_congr rfl fun k _ => by push_cast; rfl }
  faces := by
    constructor
    · show P.interior.map _ = (inner.map castInner).map _
      rw [S.faces.1, List.map_map, List.map_map]
      rfl
    · show P.bdr.map _ = (outer.map castOuter).map _
      rw [S.faces.2, List.map_map, List.map_map]
      rfl
  innerOk := by
    intro q hq
    obtain ⟨q, hq', rfl⟩ := List.mem_map.1 hq
    have h := S.innerOk q hq'
    exact
      { size := h.size
        dofs1 := h.dofs1
        dofs2 := h.dofs2
        normal := by
          intro p hp
          obtain ⟨p, hp', rfl⟩ := List.mem_map.1 hp
          obtain ⟨h1, h2, h3, h4, h5⟩ := h.normal p hp'
          refine ⟨by simpa [castPt] using h1, Rat.cast_ne_zero.2 h2, congrArg (fun x : ℚ => (x : ℝ)) h3, congrArg (fun x : ℚ => (x : ℝ)) h4, fun d hd => ?_⟩
          obtain ⟨a, b'⟩ := h5 d hd
          constructor
          · show normalTerm (p.nor.map fun x : ℚ => (x : ℝ)) d = (((el q.e1).nor q.f1 d : ℚ) : ℝ)
            rw [cast_normalTerm, a]
          · show normalTerm (p.nor.map fun x : ℚ => (x : ℝ)) d = -(((el q.e2).nor q.f2 d : ℚ) : ℝ)
            rw [cast_normalTerm, b', Rat.cast_neg]
        off1 := by
          intro p hp i hi
          obtain ⟨p, hp', rfl⟩ := List.mem_map.1 hp
          show ((p.sh1 i : ℚ) : ℝ) = 0
          rw [h.off1 p hp' i hi, Rat.cast_zero]
        off2 := by
          intro p hp i hi
          obtain ⟨p, hp', rfl⟩ := List.mem_map.1 hp
          show ((p.sh2 i : ℚ) : ℝ) = 0
          rw [h.off2 p hp' i hi, Rat.cast_zero]
        match_ := by
          intro p hp k
          obtain ⟨p, hp', rfl⟩ := List.mem_map.1 hp
          exact congrArg (fun x : ℚ => (x : ℝ)) (h.match_ p hp' k)
        quad1 := by
          intro i j
          show faceMass (q.face.pts.map castPt) Pt.sh1 i j = faceMass ((R.faces q.f1).pts.map castPt) Pt.sh1 i j
          rw [(cast_faceMass _ _ _).1, (cast_faceMass _ _ _).1, h.quad1]
        quad2 := by
          intro i j
          show faceMass (q.face.pts.map castPt) Pt.sh2 i j = faceMass ((R.faces q.f2).pts.map castPt) Pt.sh1 i j
          rw [(cast_faceMass _ _ _).2, (cast_faceMass _ _ _).1, h.quad2]
        conn1 := h.conn1
        conn2 := h.conn2 }
  outerOk := by
    intro q hq
    obtain ⟨q, hq', rfl⟩ := List.mem_map.1 hq
    have h := S.outerOk q hq'
    exact
      { size := h.size
        dofs := h.dofs
        normal := by
          intro p hp
          obtain ⟨p, hp', rfl⟩ := List.mem_map.1 hp
          obtain ⟨h1, h2, h3, h5⟩ := h.normal p hp'
          refine ⟨by simpa [castPt] using h1, Rat.cast_ne_zero.2 h2, congrArg (fun x : ℚ => (x : ℝ)) h3, fun d hd => ?_⟩
          show normalTerm (p.nor.map fun x : ℚ => (x : ℝ)) d = (((el q.e).nor q.f d : ℚ) : ℝ)
          rw [cast_normalTerm, h5 d hd]
        off := by
          intro p hp i hi
          obtain ⟨p, hp', rfl⟩ := List.mem_map.1 hp
          show ((p.sh1 i : ℚ) : ℝ) = 0
          rw [h.off p hp' i hi, Rat.cast_zero]
        quad := by
          intro i j
          show faceMass (q.face.pts.map castPt) Pt.sh1 i j = faceMass ((R.faces q.f).pts.map castPt) Pt.sh1 i j
          rw [(cast_faceMass _ _ _).1, (cast_faceMass _ _ _).1, h.quad]
        conn := h.conn }
  cover := by
    have := S.cover
    rw [List.flatMap_map, List.map_map]
    exact this
  conds :=
    { once := S.conds.once
      inside := by
        intro q hq
        obtain ⟨q, hq', rfl⟩ := List.mem_map.1 hq
        exact S.conds.inside q hq'
      outside := by
        intro q hq
        obtain ⟨q, hq', rfl⟩ := List.mem_map.1 hq
        have h := S.conds.outside q hq'
        show (match q.cond with
          | none => ∀ k : Fin R.nf, posOf q.e q.f k ∉ listed b
          | some .PEC => _
          | some .PMC => _
          | some .SMA => ((P.alpha : ℚ) : ℝ) = 1 ∧ _
          | some .SGBC => False)
        cases hc : q.cond with
        | none => rw [hc] at h; exact h
        | some k =>
          rw [hc] at h
          cases k with
          | PEC => exact h
          | PMC => exact h
          | SMA => exact ⟨by rw [h.1, Rat.cast_one], h.2⟩
          | SGBC => exact h }

/-- The two triangles over the reals meet the hypotheses of `C129_run_partial`. -/
example : ∃ (R : Ref ℝ) (P : Prob (Fin 2 × Fin R.n) ℝ) (Mhat : _) (node : _) (inner : _) (outer : _),
    Same R ((4 : ℚ) : ℝ) Mhat node (fun e => castElem (triElem e)) (fun _ => ((1 : ℚ) : ℝ)) (fun _ => ((1 : ℚ) : ℝ)) P triConn triBdr inner
      outer ∧ R.geom = .triangle ∧ inner.length = 1 :=
  ⟨castRef triRef, castProb (triProb 1 1 0 none), _, _, _, _, cast_same (triSame 1 one_ne_zero 0), rfl, rfl⟩

end Dgtd.Nodal
