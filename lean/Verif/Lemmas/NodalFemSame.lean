/-
The data read off a mesh of straight triangles or tetrahedra describe the problem assembled from it.
-/
import Verif.Lemmas.NodalFem

set_option linter.unusedSectionVars false

namespace Dgtd.NodalFem
open MvPolynomial Spec Dgtd.Galerkin Dgtd.Galerkin.Spec
open Dgtd.Op (BdrCond normalTerm Pt FieldT)
open Dgtd.Nodal (Ref refMesh BdrMaps)
open Dgtd.Nodal.Spec (Inner Outer posOf num faceMass RefOk ElemsOk InnerOk OuterOk CondsOk Same unitVolume)
open Dgtd.Config (Material)

variable {n ne : Nat}

/-! ### normals of straight elements -/

/-- The outward normal of a face of a straight element. -/
noncomputable def nrm {ι : Type} (e : Elem n ι ℝ) (face : Option (Fin (n + 1))) (d : Fin (n + 1)) : ℝ := ∑ k, eval 0 (e.adj k d) * refNormal face k

lemma adj_const {ι : Type} (hn : n < 3) (e : Elem n ι ℝ) (hg : ∀ d, (e.geom d).totalDegree ≤ 1) (k d : Fin (n + 1)) : e.adj k d = C (eval 0 (e.adj k d)) := by
  have hdeg : (e.adj k d).totalDegree = 0 := by
    have := degree_adj hn e hg k d
    simpa using this
  have := totalDegree_eq_zero_iff_eq_C.1 hdeg
  rw [this, eval_C]

lemma side_sum {ι : Type} (hn : n < 3) (s : Side n ι ℝ) (hg : ∀ d, (s.e.geom d).totalDegree ≤ 1) (d : Fin (n + 1)) :
    (∑ k, s.restrict (s.e.adj k d) * C (refNormal s.face k)) = C (nrm s.e s.face d) := by
  unfold nrm
  rw [map_sum]
  refine Finset.sum_congr rfl fun k _ => ?_
  rw [adj_const hn s.e hg k d]
  simp [Side.restrict]

lemma out_getD {ι : Type} [Fintype ι] [DecidableEq ι] (hn : n < 3) (s : Side n ι ℝ) (ho : Outward s) (hg : ∀ d, (s.e.geom d).totalDegree ≤ 1) (d : Fin (n + 1)) :
    (normal s).getD d 0 = C (nrm s.e s.face d) := by
  rw [normal_eq hn, ← side_sum hn s hg d]
  exact Finset.sum_congr rfl fun k _ => by rw [Galerkin.Spec.Outward.getD ho]

lemma out_normal {ι : Type} [Fintype ι] [DecidableEq ι] (hn : n < 3) (s : Side n ι ℝ) (ho : Outward s) (hg : ∀ d, (s.e.geom d).totalDegree ≤ 1) :
    normal s = (List.finRange (n + 1)).map fun d => C (nrm s.e s.face d) := by
  refine List.ext_getElem (by rw [normal_length hn]; simp) fun i h1 h2 => ?_
  have hi : i < n + 1 := by rw [normal_length hn] at h1; exact h1
  have := out_getD hn s ho hg ⟨i, hi⟩
  rw [List.getD_eq_getElem?_getD] at this
  change (normal s)[i]?.getD 0 = _ at this
  rw [List.getElem?_eq_getElem h1, Option.getD_some] at this
  rw [this]
  simp

/-- Length of the normal. -/
noncomputable def len {ι : Type} (e : Elem n ι ℝ) (face : Option (Fin (n + 1))) : ℝ := √(((List.finRange (n + 1)).map fun d => nrm e face d ^ 2).sum)

lemma out_len {ι : Type} [Fintype ι] [DecidableEq ι] (hn : n < 3) (s : Side n ι ℝ) (ho : Outward s) (hg : ∀ d, (s.e.geom d).totalDegree ≤ 1) (y : Fin n → ℝ) :
    √(((normal s).map fun c => eval y c ^ 2).sum) = len s.e s.face := by
  rw [out_normal hn s ho hg, List.map_map]
  unfold len
  congr 2
  refine List.map_congr_left fun d _ => ?_
  simp

lemma out_term {ι : Type} [Fintype ι] [DecidableEq ι] (hn : n < 3) (s : Side n ι ℝ) (ho : Outward s) (hg : ∀ d, (s.e.geom d).totalDegree ≤ 1) (y : Fin n → ℝ) (d : Fin 3)
    (hd : d.val < n + 1) : normalTerm ((normal s).map fun c => eval y c) d = nrm s.e s.face ⟨d.val, hd⟩ := by
  unfold normalTerm
  have h1 : d.val < (normal s).length := by rw [normal_length hn]; exact hd
  have := out_getD hn s ho hg ⟨d.val, hd⟩
  rw [List.getD_eq_getElem?_getD] at this
  change (normal s)[d.val]?.getD 0 = _ at this
  rw [List.getElem?_eq_getElem h1, Option.getD_some] at this
  rw [List.getElem?_map, List.getElem?_eq_getElem h1, Option.map_some, Option.getD_some, this, eval_C]

/-- Seen from the second side the normal is opposite. -/
lemma meet_nrm {ι : Type} [Fintype ι] [DecidableEq ι] (hn : n < 3) {s s2 : Side n ι ℝ} (ho : Outward s) (hm : Meet s s2) (hg : ∀ d, (s.e.geom d).totalDegree ≤ 1)
    (hg2 : ∀ d, (s2.e.geom d).totalDegree ≤ 1) (d : Fin (n + 1)) : nrm s.e s.face d = -nrm s2.e s2.face d := by
  have h1 := meet_normal hn ho hm d
  rw [out_getD hn s ho hg, side_sum hn s2 hg2, ← map_neg] at h1
  exact C_injective _ _ h1

lemma meet_len {ι : Type} [Fintype ι] [DecidableEq ι] (hn : n < 3) {s s2 : Side n ι ℝ} (ho : Outward s) (hm : Meet s s2) (hg : ∀ d, (s.e.geom d).totalDegree ≤ 1)
    (hg2 : ∀ d, (s2.e.geom d).totalDegree ≤ 1) : len s.e s.face = len s2.e s2.face := by
  unfold len
  congr 2
  refine List.map_congr_left fun d _ => ?_
  rw [meet_nrm hn ho hm hg hg2, neg_sq]

/-! ### the reference element -/

variable {R : Ref ℝ} {w : ℝ} {p : Nat} {sh : Nat → Poly (n + 1) ℝ} {pt : Fin R.n → Fin (n + 1) → ℝ} {fc : Option (Fin (n + 1)) ≃ Fin R.nF}
  {node : Fin R.nF → Fin R.nf → Fin R.n} {S : Setup n (Fin ne × Fin R.n)} {cell : Fin ne → Cell n (Fin ne × Fin R.n)}
  {el : Nat → Dgtd.Nodal.Elem ℝ} {c : Nat → Nat × Nat} {links : List (Link n ne R.n R.nf)} {walls : List (Wall n ne R.n)}

/-- Mass matrix of the reference element. -/
noncomputable def mhat (R : Ref ℝ) (sh : Nat → Poly (n + 1) ℝ) (i j : Fin R.n) : ℝ := integral (n + 1) (sh i * sh j)

lemma ref_ok (A : Shapes R w p sh pt fc node) : RefOk R w (mhat R sh) node := by
  refine ⟨A.mesh, A.inv, A.mono, ?_, ?_, A.seen⟩
  · intro f
    obtain ⟨face, rfl⟩ := fc.surjective f
    exact ⟨(A.faces face).1, (A.faces face).2.1⟩
  · intro f q hq i hi
    obtain ⟨face, rfl⟩ := fc.surjective f
    obtain ⟨-, -, turn, rule, -, e⟩ := A.faces face
    have : (q.w, q.sh1) ∈ (R.faces (fc face)).pts.map fun q => (q.w, q.sh1) := List.mem_map_of_mem (f := fun q : Pt ℝ => (q.w, q.sh1)) hq
    rw [e] at this
    obtain ⟨r, -, hr⟩ := List.mem_map.1 this
    have h2 : q.sh1 = fun i => eval r.2 (bind₁ (loc face turn) (sh i)) := (Prod.ext_iff.1 hr).2.symm
    rw [h2]
    change eval r.2 (bind₁ (loc face turn) (sh i)) = 0
    rw [restrict_off A _ _ _ hi, map_zero]

/-- A face mass matrix by quadrature is the exact one. -/
lemma face_mass (A : Shapes R w p sh pt fc node) (face : Option (Fin (n + 1))) (turn : Equiv.Perm (Fin (n + 1))) {pts : List (Pt ℝ)}
    (g : Pt ℝ → Nat → ℝ) {rule : Rule n ℝ} (hr : Exact (p + p) rule)
    (hp : pts.map (fun q => (q.w, g q)) = rule.map fun q => (q.1, fun i => eval q.2 (bind₁ (loc face turn) (sh i)))) (i j : Fin R.n) :
    faceMass pts g i j = integral n (bind₁ (loc face 1) (sh i * sh j)) := by
  unfold faceMass
  have e1 : (pts.map fun q => q.w * (g q i * g q j)) = (pts.map fun q => (q.w, g q)).map fun a => a.1 * (a.2 i * a.2 j) := by
    rw [List.map_map]; rfl
  rw [e1, hp, List.map_map, integral_turn face 1 turn, ← hr (bind₁ (loc face turn) (sh i * sh j))]
  · congr 1
    refine List.map_congr_left fun q _ => ?_
    simp [Function.comp]
  · exact (totalDegree_bind _ (totalDegree_loc _ _) _).trans (degree_mul_le (A.degree i) (A.degree j))

lemma ref_mass (A : Shapes R w p sh pt fc node) (face : Option (Fin (n + 1))) (i j : Fin R.n) :
    faceMass (R.faces (fc face)).pts Pt.sh1 i j = integral n (bind₁ (loc face 1) (sh i * sh j)) := by
  obtain ⟨-, -, turn, rule, hr, e⟩ := A.faces face
  exact face_mass A face turn Pt.sh1 hr e i j

lemma surface_rule (hm : ValidMesh S p 1) {f : FemFace n (Fin ne × Fin R.n) ℝ} (hf : f ∈ Galerkin.Spec.faces S.skeleton) : Exact (p + p) f.rule := by
  have := hm.simplicial.surface f hf
  refine exact_mono this ?_
  have := order_le (n := n) (p := p) (m := 1) f.s2
  omega

/-! ### the elements -/

lemma geom_deg (hm : ValidMesh S p 1) (E : Elements R sh fc S cell el) (e : Fin ne) (d : Fin (n + 1)) : ((cell e).e.geom d).totalDegree ≤ 1 :=
  hm.geom (cell_mem E e) d

lemma el_J (hm : ValidMesh S p 1) (E : Elements R sh fc S cell el) (e : Fin ne) : 0 < (el e).J ∧ (cell e).e.jac.det = C (el e).J := by
  obtain ⟨δ, h0, hδ⟩ := det_const hm (cell_mem E e)
  obtain ⟨x, hx⟩ := E.J e
  rw [hδ, eval_C] at hx
  rw [hx]
  exact ⟨h0, hδ⟩

lemma el_vol (hm : ValidMesh S p 1) (A : Shapes R w p sh pt fc node) (E : Elements R sh fc S cell el) (e : Fin ne) :
    (el e).vol = (el e).J * unitVolume R.geom := by
  rw [E.vol, (el_J hm E e).2, ← monomial_zero', integral_monomial]
  congr 1
  rcases A.geom with ⟨rfl, h⟩ | ⟨rfl, h⟩ <;> rw [h] <;> simp [moment, unitVolume, Nat.factorial]

lemma on_cell (E : Elements R sh fc S cell el) (e : Fin ne) (u : Fin ne × Fin R.n → ℝ) : onElem (cell e).e u = ∑ i : Fin R.n, C (u (e, i)) * sh i := by
  unfold onElem
  rw [E.size, E.shape, Finset.sum_range]
  refine Finset.sum_congr rfl fun i _ => by rw [E.dof]

/-- Mass matrices are made of blocks. -/
lemma mass_block (hm : ValidMesh S p 1) (E : Elements R sh fc S cell el) (g : Cell n (Fin ne × Fin R.n) → ℝ) (r s : Fin ne × Fin R.n) :
    massMatrix (S.cells.map fun c => (c, g c)) r s = if r.1 = s.1 then g (cell r.1) * (el r.1).J * mhat R sh r.2 s.2 else 0 := by
  have e : Pi.single r (1 : ℝ) ⬝ᵥ (massMatrix (S.cells.map fun c => (c, g c))).mulVec (Pi.single s 1) =
      massMatrix (S.cells.map fun c => (c, g c)) r s := by simp
  rw [← e, mass_form hm, E.cells, List.map_map, ← List.ofFn_eq_map, List.sum_ofFn]
  have hon : ∀ (e : Fin ne) (r : Fin ne × Fin R.n), onElem (cell e).e (Pi.single r 1) = if r.1 = e then sh r.2 else 0 := by
    intro e r
    rw [on_cell E]
    split
    · rename_i h
      rw [Finset.sum_eq_single r.2]
      · simp [← h]
      · intro i _ hi
        rw [Pi.single_apply, if_neg]
        · simp
        · intro h2
          exact hi (by rw [← h2])
      · simp
    · rename_i h
      refine Finset.sum_eq_zero fun i _ => ?_
      rw [Pi.single_apply, if_neg]
      · simp
      · intro h2
        exact h (by rw [← h2])
  simp only [Function.comp, hon]
  rw [Finset.sum_eq_single r.1]
  · rw [if_pos rfl]
    by_cases h : r.1 = s.1
    · rw [if_pos h.symm, if_pos h, (el_J hm E r.1).2, mul_comm (sh r.2 * sh s.2) (C _), ← smul_eq_C_mul, map_smul, smul_eq_mul, ← mul_assoc]
      rfl
    · rw [if_neg (Ne.symm h), if_neg h]
      simp
  · intro b _ hb
    rw [if_neg (Ne.symm hb)]
    simp
  · simp

lemma mass_inverse (hm : ValidMesh S p 1) (A : Shapes R w p sh pt fc node) (E : Elements R sh fc S cell el) (g : Cell n (Fin ne × Fin R.n) → ℝ)
    (hg : ∀ c ∈ S.cells, 0 < g c) (r s : Fin ne × Fin R.n) : invMassMatrix (S.cells.map fun c => (c, g c)) r s =
      if r.1 = s.1 then w * R.inv r.2 s.2 / (g (cell r.1) * (el r.1).J) else 0 := by
  obtain ⟨N, hN⟩ : ∃ N : Matrix (Fin ne × Fin R.n) (Fin ne × Fin R.n) ℝ, N = fun r s =>
    if r.1 = s.1 then w * R.inv r.2 s.2 / (g (cell r.1) * (el r.1).J) else 0 := ⟨_, rfl⟩
  have hpos : ∀ e, g (cell e) * (el e).J ≠ 0 := fun e => mul_ne_zero (hg _ (cell_mem E e)).ne' (el_J hm E e).1.ne'
  have h1 : N * massMatrix (S.cells.map fun c => (c, g c)) = 1 := by
    funext r s
    rw [Matrix.mul_apply, Fintype.sum_prod_type, Finset.sum_eq_single r.1]
    · simp only [mass_block hm E, hN, if_true]
      by_cases h : r.1 = s.1
      · simp only [if_pos h]
        have := A.inv r.2 s.2
        rw [Matrix.one_apply]
        have e : ∀ k : Fin R.n, w * R.inv r.2 k / (g (cell r.1) * (el r.1).J) * (g (cell r.1) * (el r.1).J * mhat R sh k s.2) =
            R.inv r.2 k * (w * integral (n + 1) (sh k * sh s.2)) := by
          intro k
          unfold mhat
          field_simp [hpos r.1, (el_J hm E r.1).1.ne', (hg _ (cell_mem E r.1)).ne']
        simp only [e, this]
        exact if_congr (by rw [Prod.ext_iff]; simp [h]) rfl rfl
      · simp only [if_neg h, mul_zero, Finset.sum_const_zero]
        rw [Matrix.one_apply_ne fun e => h (by rw [e])]
    · intro b _ hb
      refine Finset.sum_eq_zero fun k _ => ?_
      rw [hN]
      simp only
      rw [if_neg (Ne.symm hb), zero_mul]
    · simp
  have h2 := mass_mul_inv hm g hg
  have : invMassMatrix (S.cells.map fun c => (c, g c)) = N := by
    calc invMassMatrix (S.cells.map fun c => (c, g c)) = N * massMatrix (S.cells.map fun c => (c, g c)) * invMassMatrix (S.cells.map fun c => (c, g c)) := by
          rw [h1, Matrix.one_mul]
      _ = N := by rw [Matrix.mul_assoc, h2, Matrix.mul_one]
  rw [this, hN]

lemma inv_sum (hm : ValidMesh S p 1) (A : Shapes R w p sh pt fc node) (E : Elements R sh fc S cell el) (g : Cell n (Fin ne × Fin R.n) → ℝ)
    (hg : ∀ c ∈ S.cells, 0 < g c) (e : Fin ne) (i j : Fin R.n) :
    (∑ k, invMassMatrix (S.cells.map fun c => (c, g c)) (e, i) (e, k) * (g (cell e) * (el e).J * mhat R sh k j)) = if i = j then 1 else 0 := by
  have hpos : g (cell e) * (el e).J ≠ 0 := mul_ne_zero (hg _ (cell_mem E e)).ne' (el_J hm E e).1.ne'
  rw [← A.inv i j]
  refine Finset.sum_congr rfl fun k _ => ?_
  rw [mass_inverse hm A E g hg, if_pos rfl]
  unfold mhat
  field_simp [(el_J hm E e).1.ne', (hg _ (cell_mem E e)).ne']

lemma deriv_block (E : Elements R sh fc S cell el) (ms : List (Int × Material ℝ)) (d : Fin 3) (r s : Fin ne × Fin R.n) :
    (femOf S ms).prob.D d r s = if r.1 = s.1 then (el r.1).D d r.2 s.2 else 0 := by
  change derivMatrix (S.cells.map fun c => (c.e, c.vol)) d r s = _
  unfold derivMatrix
  rw [E.D r.1 d]
  by_cases hd : d.val < n + 1
  · rw [dif_pos hd, dif_pos hd, E.cells, List.map_map, List.map_map, ← List.ofFn_eq_map, List.sum_ofFn]
    have e : ∀ e : Fin ne, (∑ i ∈ Finset.range (cell e).e.size, ∑ j ∈ Finset.range (cell e).e.size,
        if (cell e).e.dof i = r ∧ (cell e).e.dof j = s then derivElem (cell e).vol (cell e).e ⟨d.val, hd⟩ i j else 0) =
        if e = r.1 ∧ e = s.1 then derivElem (cell e).vol (cell e).e ⟨d.val, hd⟩ r.2 s.2 else 0 := by
      intro e
      rw [E.size, Finset.sum_range]
      simp only [Finset.sum_range, E.dof, Prod.ext_iff]
      rw [Finset.sum_eq_single r.2, Finset.sum_eq_single s.2]
      · simp
      · intro j _ hj
        rw [if_neg]
        rintro ⟨-, -, h⟩
        exact hj h
      · simp
      · intro i _ hi
        refine Finset.sum_eq_zero fun j _ => ?_
        rw [if_neg]
        rintro ⟨⟨-, h⟩, -⟩
        exact hi h
      · simp
    simp only [Function.comp]
    rw [Finset.sum_congr rfl fun e' _ => e e', Finset.sum_eq_single r.1]
    · simp
    · intro b _ hb
      rw [if_neg]
      rintro ⟨h, -⟩
      exact hb h
    · simp
  · rw [dif_neg hd, dif_neg hd, ite_self]

lemma mat_pos (ms : List (Int × Material ℝ)) (hv : ValidMaterials S ms) : (∀ c ∈ S.cells, 0 < (materialOf ms c).eps) ∧ ∀ c ∈ S.cells, 0 < (materialOf ms c).mu :=
  ⟨fun c hc => by obtain ⟨t, ht⟩ := materialOf_mem hv hc; exact hv.eps _ ht, fun c hc => by obtain ⟨t, ht⟩ := materialOf_mem hv hc; exact hv.mu _ ht⟩

lemma elems_ok (hm : ValidMesh S p 1) (A : Shapes R w p sh pt fc node) (E : Elements R sh fc S cell el) (ms : List (Int × Material ℝ))
    (hv : ValidMaterials S ms) : ElemsOk R (mhat R sh) el (fun e => (materialOf ms (cell e)).eps) (fun e => (materialOf ms (cell e)).mu)
      (femOf S ms).prob := by
  obtain ⟨h1, h2⟩ := mat_pos ms hv
  refine ⟨A.dim.symm, fun e => (el_J hm E e).1.ne', fun e => (h1 _ (cell_mem E e)).ne', fun e => (h2 _ (cell_mem E e)).ne', el_vol hm A E,
    deriv_block E ms, ?_, inv_sum hm A E _ h1, inv_sum hm A E _ h2⟩
  intro f r s hrs
  cases f with
  | E => exact (mass_inverse hm A E _ h1 r s).trans (if_neg hrs)
  | H => exact (mass_inverse hm A E _ h2 r s).trans (if_neg hrs)

/-! ### the faces -/

lemma el_normal (hm : ValidMesh S p 1) (E : Elements R sh fc S cell el) (e : Fin ne) (face : Option (Fin (n + 1))) :
    (el e).sJ (fc face) = len (cell e).e face ∧ ∀ (d : Fin 3) (hd : d.val < n + 1), (el e).nor (fc face) d = nrm (cell e).e face ⟨d.val, hd⟩ := by
  obtain ⟨turn, y, ho, h1, h2⟩ := E.normal e face
  have hg := geom_deg hm E e
  exact ⟨h1.trans (out_len hm.simplicial.dim _ ho hg y), fun d hd => (h2 d hd).trans (out_term hm.simplicial.dim _ ho hg y d hd)⟩

lemma len_pos (hm : ValidMesh S p 1) (E : Elements R sh fc S cell el) (e : Fin ne) (face : Option (Fin (n + 1))) : 0 < len (cell e).e face := by
  obtain ⟨turn, y, ho, -, -⟩ := E.normal e face
  rw [← out_len hm.simplicial.dim _ ho (geom_deg hm E e) 0]
  exact Real.sqrt_pos.2 (normal_pos hm.simplicial.dim _ ho (hm.jacobian _ (cell_mem E e)) 0 ⟨fun i => le_rfl, by simp⟩)

lemma outer_ok (hm : ValidMesh S p 1) (A : Shapes R w p sh pt fc node) (E : Elements R sh fc S cell el)
    (N : Connected R pt fc node S cell c links walls) {l : Wall n ne R.n} (hl : l ∈ walls) : OuterOk R el node c (l.outer fc) := by
  have he := N.side l hl
  have hf := mem_bdr N hl
  have hn := hm.simplicial.dim
  have ho : Outward l.q.2.s1 := hm.simplicial.one _ hf
  have hg : ∀ d, (l.q.2.s1.e.geom d).totalDegree ≤ 1 := by rw [he]; exact geom_deg hm E l.e
  have hs2 : l.q.2.s2 = none := hm.bdr_one_side l.q (by rw [N.bdr]; exact List.mem_map_of_mem hl)
  refine ⟨⟨?_, ?_⟩, ?_, ?_, ?_, ?_, N.conn l hl⟩
  · change l.q.2.s1.e.size = R.n
    rw [he, E.size]
  · simp [Wall.outer, FemFace.toFace, MeshFace.fem, hs2]
  · intro i
    simp only [Wall.outer, FemFace.toFace, MeshFace.fem, hs2]
    rw [he, E.dof]
  · intro q hq
    obtain ⟨x, hx, rfl⟩ := List.mem_map.1 hq
    obtain ⟨n1, n2⟩ := el_normal hm E l.e l.q.2.s1.face
    have hW : l.q.2.fem.W x.2 = len (cell l.e).e l.q.2.s1.face := by
      rw [← he]
      exact out_len hn _ ho hg x.2
    refine ⟨?_, ?_, ?_, ?_⟩
    · change ((normal l.q.2.s1).map _).length = R.dim
      rw [List.length_map, normal_length hn, A.dim]
    · change l.q.2.fem.W x.2 ≠ 0
      rw [hW]
      exact (len_pos hm E _ _).ne'
    · exact hW.trans n1.symm
    · intro d hd
      rw [A.dim] at hd
      refine (out_term hn _ ho hg x.2 d hd).trans ?_
      rw [he]
      exact (n2 d hd).symm
  · intro q hq i hi
    obtain ⟨x, hx, rfl⟩ := List.mem_map.1 hq
    change eval x.2 (l.q.2.s1.restrict (l.q.2.s1.e.shape i)) = 0
    rw [he, E.shape]
    unfold Side.restrict
    rw [restrict_off A _ _ _ hi, map_zero]
  · intro i j
    change _ = faceMass (R.faces (fc l.q.2.s1.face)).pts Pt.sh1 i j
    rw [ref_mass A]
    refine face_mass A l.q.2.s1.face l.q.2.s1.turn Pt.sh1 (surface_rule hm hf) ?_ i j
    simp only [Wall.outer, FemFace.toFace, List.map_map]
    refine List.map_congr_left fun x _ => ?_
    simp only [Function.comp, MeshFace.fem, Side.restrict, he, E.shape]

lemma inner_ok (hm : ValidMesh S p 1) (A : Shapes R w p sh pt fc node) (E : Elements R sh fc S cell el)
    (N : Connected R pt fc node S cell c links walls) {l : Link n ne R.n R.nf} (hl : l ∈ links) : InnerOk R el node c (l.inner fc) := by
  obtain ⟨he, hs2, he2⟩ := N.sides l hl
  have hf := mem_interior N hl
  have hn := hm.simplicial.dim
  have ho : Outward l.q.2.s1 := hm.simplicial.one _ hf
  have hmeet := link_meet hm N hl
  have hg : ∀ d, (l.q.2.s1.e.geom d).totalDegree ≤ 1 := by rw [he]; exact geom_deg hm E l.e1
  have hg2 : ∀ d, (l.s2.e.geom d).totalDegree ≤ 1 := by rw [he2]; exact geom_deg hm E l.e2
  refine ⟨⟨?_, ?_⟩, ?_, ?_, ?_, ?_, ?_, ?_, ?_, ?_, N.conn1 l hl, N.conn2 l hl⟩
  · change l.q.2.s1.e.size = R.n
    rw [he, E.size]
  · simp only [Link.inner, FemFace.toFace, MeshFace.fem, hs2]
    rw [he2, E.size]
  · intro i
    simp only [Link.inner, FemFace.toFace, MeshFace.fem, hs2]
    rw [he, E.size, if_pos i.2, E.dof]
  · intro i
    simp only [Link.inner, FemFace.toFace, MeshFace.fem, hs2]
    rw [he, he2, E.size, if_neg (by omega), Nat.add_sub_cancel_left, E.dof]
  · intro q hq
    obtain ⟨x, hx, rfl⟩ := List.mem_map.1 hq
    obtain ⟨n1, n2⟩ := el_normal hm E l.e1 l.q.2.s1.face
    obtain ⟨m1, m2⟩ := el_normal hm E l.e2 l.s2.face
    have hW : l.q.2.fem.W x.2 = len (cell l.e1).e l.q.2.s1.face := by
      rw [← he]
      exact out_len hn _ ho hg x.2
    have hlen := meet_len hn ho hmeet hg hg2
    rw [he, he2] at hlen
    refine ⟨?_, ?_, ?_, ?_, ?_⟩
    · change ((normal l.q.2.s1).map _).length = R.dim
      rw [List.length_map, normal_length hn, A.dim]
    · change l.q.2.fem.W x.2 ≠ 0
      rw [hW]
      exact (len_pos hm E _ _).ne'
    · exact hW.trans n1.symm
    · exact hW.trans (hlen.trans m1.symm)
    · intro d hd
      rw [A.dim] at hd
      have e := out_term hn _ ho hg x.2 d hd
      have e2 := meet_nrm hn ho hmeet hg hg2 ⟨d.val, hd⟩
      rw [he, he2] at e2
      rw [he] at e
      exact ⟨e.trans (n2 d hd).symm, e.trans (e2.trans (congrArg Neg.neg (m2 d hd).symm))⟩
  · intro q hq i hi
    obtain ⟨x, hx, rfl⟩ := List.mem_map.1 hq
    change eval x.2 (l.q.2.s1.restrict (l.q.2.s1.e.shape i)) = 0
    rw [he, E.shape]
    unfold Side.restrict
    rw [restrict_off A _ _ _ hi, map_zero]
  · intro q hq i hi
    obtain ⟨x, hx, rfl⟩ := List.mem_map.1 hq
    simp only [MeshFace.fem, hs2]
    rw [he2, E.shape]
    unfold Side.restrict
    rw [restrict_off A _ _ _ hi, map_zero]
  · intro q hq k
    obtain ⟨x, hx, rfl⟩ := List.mem_map.1 hq
    simp only [MeshFace.fem, hs2]
    rw [he, he2, E.shape, E.shape]
    exact congrArg (eval x.2) (same_shape hm A E N hl k)
  · intro i j
    change _ = faceMass (R.faces (fc l.q.2.s1.face)).pts Pt.sh1 i j
    rw [ref_mass A]
    refine face_mass A l.q.2.s1.face l.q.2.s1.turn Pt.sh1 (surface_rule hm hf) ?_ i j
    simp only [Link.inner, FemFace.toFace, List.map_map]
    refine List.map_congr_left fun x _ => ?_
    simp only [Function.comp, MeshFace.fem, Side.restrict, he, E.shape]
  · intro i j
    change _ = faceMass (R.faces (fc l.s2.face)).pts Pt.sh1 i j
    rw [ref_mass A]
    refine face_mass A l.s2.face l.s2.turn Pt.sh2 (surface_rule hm hf) ?_ i j
    simp only [Link.inner, FemFace.toFace, List.map_map]
    refine List.map_congr_left fun x _ => ?_
    simp only [Function.comp, MeshFace.fem, hs2, Side.restrict, he2, E.shape]

lemma size_pos (A : Shapes R w p sh pt fc node) : 0 < R.n := by
  rcases Nat.eq_zero_or_pos R.n with h | h
  · obtain ⟨a, ha⟩ := A.complete 1 (by simp)
    haveI : IsEmpty (Fin R.n) := by rw [h]; exact Fin.isEmpty
    simp at ha
  · exact h

lemma faces_perm (fc : Option (Fin (n + 1)) ≃ Fin R.nF) : ((none :: (List.finRange (n + 1)).map some).map fc).Perm (List.finRange R.nF) := by
  refine (List.perm_ext_iff_of_nodup ?_ (List.nodup_finRange _)).2 fun f => ?_
  · refine List.Nodup.map fc.injective (List.nodup_cons.2 ⟨by simp, List.Nodup.map (Option.some_injective _) (List.nodup_finRange _)⟩)
  · simp only [List.mem_finRange, iff_true]
    obtain ⟨face, rfl⟩ := fc.surjective f
    refine List.mem_map_of_mem ?_
    cases face <;> simp

lemma cover (hm : ValidMesh S p 1) (A : Shapes R w p sh pt fc node) (E : Elements R sh fc S cell el)
    (N : Connected R pt fc node S cell c links walls) :
    ((links.map (Link.inner fc)).flatMap (fun q => [(q.e1, q.f1), (q.e2, q.f2)]) ++ (walls.map (Wall.outer fc)).map fun q => (q.e, q.f)).Perm
      ((List.finRange ne).product (List.finRange R.nF)) := by
  have hp := size_pos A
  obtain ⟨φ, hφ⟩ : ∃ φ : Elem n (Fin ne × Fin R.n) ℝ × Option (Fin (n + 1)) → Fin ne × Fin R.nF, φ = fun x => ((x.1.dof 0).1, fc x.2) := ⟨_, rfl⟩
  have hcell : ∀ e face, φ ((cell e).e, face) = (e, fc face) := by
    intro e face
    rw [hφ]
    have := E.dof e ⟨0, hp⟩
    simp only at this ⊢
    rw [this]
  have h := hm.simplicial.cover.map φ
  have e1 : (((Galerkin.Spec.faces S.skeleton).flatMap sides).map φ) =
      (links.map (Link.inner fc)).flatMap (fun q => [(q.e1, q.f1), (q.e2, q.f2)]) ++ (walls.map (Wall.outer fc)).map fun q => (q.e, q.f) := by
    unfold Galerkin.Spec.faces Setup.skeleton
    rw [N.interior, N.bdr]
    simp only [List.map_map, List.flatMap_append, List.map_append]
    congr 1
    · rw [List.map_flatMap, List.flatMap_map, List.flatMap_map]
      refine List.flatMap_congr fun l hl => ?_
      obtain ⟨he, hs2, he2⟩ := N.sides l hl
      simp only [Function.comp, sides, MeshFace.fem, hs2, List.map_cons, List.map_nil, he, he2, hcell, Link.inner]
    · rw [List.map_flatMap, List.flatMap_map]
      rw [List.map_eq_flatMap]
      refine List.flatMap_congr fun l hl => ?_
      have he := N.side l hl
      have hs2 : l.q.2.s2 = none := hm.bdr_one_side l.q (by rw [N.bdr]; exact List.mem_map_of_mem hl)
      simp only [Function.comp, sides, MeshFace.fem, hs2, List.map_cons, List.map_nil, he, hcell, Wall.outer]
  rw [e1] at h
  refine h.trans ?_
  have e2 : (elemFaces S.skeleton).map φ = (List.finRange ne).flatMap fun e => ((none :: (List.finRange (n + 1)).map some).map fc).map (Prod.mk e) := by
    unfold elemFaces Setup.skeleton
    rw [E.cells]
    simp only [List.map_map, List.flatMap_map, List.map_flatMap]
    refine List.flatMap_congr fun e _ => ?_
    refine List.map_congr_left fun face _ => ?_
    exact hcell e face
  rw [e2]
  exact List.Perm.flatMap_left _ fun e _ => (faces_perm fc).map _

end Dgtd.NodalFem
