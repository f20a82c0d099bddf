/-
Rows of the nodal operator and of the global operator on the same mesh.
-/
import Verif.Lemmas.NodalSides
import Verif.Spec.NodalCurved
import Verif.Props.OpSource
import Mathlib.LinearAlgebra.Matrix.NonsingularInverse

set_option linter.unusedSectionVars false

namespace Dgtd.Op

open Spec

variable {ι K : Type} [Fintype ι] [DecidableEq ι] [Field K] [LinearOrder K] [IsStrictOrderedRing K]

/-- A row of the source operator. -/
lemma source_row (C : Case ι K) (fs : List (Face ι K)) (hn : ∀ F ∈ fs, ∀ p ∈ F.pts, p.nor.length = C.dim) (g : State ι K) (f : FieldT)
    (d : Dir) (r : ι) : applyBlocks (sourceBlocks C fs) g f d r =
      ∑ c, C.Minv f r c * (fs.map fun F => faceTerm g f d 1 C.alpha F (Pi.single c 1)).sum := by
  have key : ∀ (s : K) (a b c x y z : Face ι K → K),
      (fs.map fun q => s * (a q - b q) - c q + (x q + y q + z q)).sum =
        s * ((fs.map a).sum - (fs.map b).sum) - (fs.map c).sum + ((fs.map x).sum + (fs.map y).sum + (fs.map z).sum) := by
    intro s a b c x y z
    clear hn
    induction fs with
    | nil => simp
    | cons q l ih =>
      simp only [List.map_cons, List.sum_cons]
      rw [ih]
      ring
  have z1 : ∀ (f : FieldT) (x : Dir), x.val ≥ C.dim → C.Minv f * sourceOne fs x = 0 := by
    intro f x hx
    rw [form_zero_matrix (sourceOne fs x), mul_zero]
    intro v w
    unfold sourceOne
    rw [form_assemble, List.map_map]
    apply sum_map_zero
    intro F hF
    show fbil F (oneNormal x 1 F) v w = 0
    rw [fbil_oneNormal]
    apply sum_map_zero
    intro p hp
    rw [normalTerm_zero (hn F hF p hp) hx]; ring
  have z2 : ∀ (f : FieldT) (x y : Dir), (x.val ≥ C.dim ∨ y.val ≥ C.dim) → C.Minv f * sourceTwo C.alpha fs x y = 0 := by
    intro f x y hx
    rw [form_zero_matrix (sourceTwo C.alpha fs x y), mul_zero]
    intro v w
    unfold sourceTwo
    rw [form_assemble, List.map_map]
    apply sum_map_zero
    intro F hF
    show fbil F (twoNormal x y C.alpha F) v w = 0
    rw [fbil_twoNormal]
    apply sum_map_zero
    intro p hp
    rcases hx with hx | hx <;> (rw [normalTerm_zero (hn F hF p hp) hx]; ring)
  unfold sourceBlocks
  rw [applyBlocks_append, applyBlocks_append, apply_one _ _ z1, apply_zero, apply_two _ _ z2]
  simp only [Pi.add_apply, Pi.sub_apply, Pi.smul_apply, Pi.neg_apply, ← Matrix.mulVec_mulVec, smul_eq_mul]
  have e : ∀ v : ι → K, (C.Minv f).mulVec v r = ∑ c, C.Minv f r c * v c := fun v => rfl
  simp only [e, ← faceTerm_eq, key]
  simp only [mulVec_form, sourceOne, sourceZero, sourceTwo, form_assemble, List.map_map, Function.comp_def]
  simp only [Finset.mul_sum, ← Finset.sum_sub_distrib, ← Finset.sum_add_distrib, ← Finset.sum_neg_distrib]
  exact Finset.sum_congr rfl fun c _ => by ring

end Dgtd.Op

namespace Dgtd.Nodal

open Spec NodalMaps Dgtd.Op
open Dgtd.Op.Spec (tr1 tr2 allFaces)

variable {K : Type} [Field K] [LinearOrder K] [IsStrictOrderedRing K]

variable {ne : Nat} {R : Ref K} {w : K} {Mhat : Fin R.n → Fin R.n → K} {node : Fin R.nF → Fin R.nf → Fin R.n}
  {el : Nat → Elem K} {eps mu : Fin ne → K} {P : Prob (Fin ne × Fin R.n) K} {c : Nat → Nat × Nat} {b : BdrMaps}
  {inner : List (Inner ne R.nF R.nf R.n K)} {outer : List (Outer ne R.nF R.n K)} {lin : Fin ne → Prop}

/-- A mesh of straight elements. -/
lemma Spec.Same.mixed (S : Same R w Mhat node el eps mu P c b inner outer) :
    Mixed (fun _ => True) R w Mhat node el eps mu P c b inner outer where
  ref := S.ref
  dim := S.elems.dim
  local_ := S.elems.local_
  J := fun e _ => S.elems.J e
  epsPos := fun e _ => S.elems.epsPos e
  muPos := fun e _ => S.elems.muPos e
  vol := fun e _ => S.elems.vol e
  deriv := fun d r c _ => S.elems.deriv d r c
  invE := fun e _ => S.elems.invE e
  invH := fun e _ => S.elems.invH e
  faces := S.faces
  cover := S.cover
  inside := fun q hq => ⟨(S.innerOk q hq).size.1, (S.innerOk q hq).size.2, (S.innerOk q hq).dofs1, (S.innerOk q hq).dofs2,
    fun p hp => ((S.innerOk q hq).normal p hp).1⟩
  outside := fun q hq => ⟨(S.outerOk q hq).size.1, (S.outerOk q hq).size.2, (S.outerOk q hq).dofs,
    fun p hp => ((S.outerOk q hq).normal p hp).1⟩
  innerOk := fun q hq _ => S.innerOk q hq
  outerOk := fun q hq _ => S.outerOk q hq
  once := S.conds.once
  free := fun q hq => ⟨(S.conds.inside q hq).1, fun _ => (S.conds.inside q hq).2⟩
  conds := fun q hq _ => S.conds.outside q hq

/-! ### the faces -/

lemma plain_same (S : Mixed lin R w Mhat node el eps mu P c b inner outer) : plainFaces P = inner.map fun q => q.face := by
  unfold plainFaces
  rw [S.faces.1, List.filterMap_map, ← List.filterMap_eq_map]
  apply List.filterMap_congr
  intro q hq
  simp [(S.free q hq).1]

lemma bdr_same (S : Mixed lin R w Mhat node el eps mu P c b inner outer) :
    bdrFaces P = outer.filterMap fun q => q.cond.map fun k => (k, q.face) := by
  unfold bdrFaces
  rw [S.faces.2, List.filterMap_map]
  rfl

lemma noIntBdr (S : Mixed lin R w Mhat node el eps mu P c b inner outer) : hasIntBdr P = false := by
  unfold hasIntBdr
  rw [S.faces.1, List.any_eq_false]
  intro q hq
  obtain ⟨q', hq', rfl⟩ := List.mem_map.1 hq
  simp [(S.free q' hq').1]

lemma lengths (S : Mixed lin R w Mhat node el eps mu P c b inner outer) : ∀ f ∈ allFaces P, ∀ p ∈ f.pts, p.nor.length = P.dim := by
  intro f hf p hp
  unfold allFaces at hf
  rw [S.faces.1, S.faces.2, List.mem_append, List.map_map, List.map_map] at hf
  rw [S.dim]
  rcases hf with hf | hf
  · obtain ⟨q, hq, rfl⟩ := List.mem_map.1 hf
    exact (S.inside q hq).2.2.2.2 p hp
  · obtain ⟨q, hq, rfl⟩ := List.mem_map.1 hf
    exact (S.outside q hq).2.2.2 p hp

lemma faceTerm_sub {ι : Type} [Fintype ι] [DecidableEq ι] (u g : State ι K) (f : FieldT) (d : Fin 3) (bf bp : K) (F : Face ι K) (v : ι → K) :
    faceTerm (fun f d i => u f d i - g f d i) f d bf bp F v = faceTerm u f d bf bp F v - faceTerm g f d bf bp F v := by
  have h1 : ∀ (p : Pt K) (a b : ι → K), tr1 F p (fun i => a i - b i) = tr1 F p a - tr1 F p b := by
    intro p a b
    simp only [tr1, mul_sub, Finset.sum_sub_distrib]
  have h2 : ∀ (p : Pt K) (a b : ι → K), tr2 F p (fun i => a i - b i) = tr2 F p a - tr2 F p b := by
    intro p a b
    simp only [tr2, mul_sub, Finset.sum_sub_distrib]
  unfold faceTerm
  induction F.pts with
  | nil => simp
  | cons p l ih =>
    simp only [List.map_cons, List.sum_cons, h1, h2] at ih ⊢
    rw [ih]
    ring

lemma faceTerm_zero {ι : Type} [Fintype ι] [DecidableEq ι] (f : FieldT) (d : Fin 3) (bf bp : K) (F : Face ι K) (v : ι → K) :
    faceTerm (fun _ _ _ => (0 : K)) f d bf bp F v = 0 := by
  unfold faceTerm
  apply Op.sum_map_zero
  intro p _
  simp [tr1, tr2]

/-- A test function that vanishes on the face. -/
lemma faceTerm_far {ι : Type} [Fintype ι] [DecidableEq ι] (u : State ι K) (f : FieldT) (d : Fin 3) (bf bp : K) (F : Face ι K) (v : ι → K)
    (h : ∀ p ∈ F.pts, tr1 F p v = 0 ∧ tr2 F p v = 0) : faceTerm u f d bf bp F v = 0 := by
  unfold faceTerm
  apply Op.sum_map_zero
  intro p hp
  obtain ⟨a, b⟩ := h p hp
  rw [a, b]
  ring

lemma inner_far {q : Inner ne R.nF R.nf R.n K} (h1 : q.face.ndof1 = R.n) (h2 : q.face.ndof2 = R.n)
    (h3 : ∀ i : Fin R.n, q.face.dofs i = (q.e1, i)) (h4 : ∀ i : Fin R.n, q.face.dofs (R.n + i) = (q.e2, i)) (e : Fin ne) (i : Fin R.n)
    (ha : q.e1 ≠ e) (hb : q.e2 ≠ e) (u : State (Fin ne × Fin R.n) K) (f : FieldT) (d : Fin 3) (bf bp : K) :
    faceTerm u f d bf bp q.face (Pi.single (e, i) 1) = 0 := by
  apply faceTerm_far
  intro p _
  constructor
  · unfold tr1
    rw [h1, Finset.sum_range]
    simp [h3, ha]
  · unfold tr2
    rw [h1, h2, Finset.sum_range]
    simp [h4, hb]

lemma outer_far {q : Outer ne R.nF R.n K} (h1 : q.face.ndof1 = R.n) (h2 : q.face.ndof2 = 0)
    (h3 : ∀ i : Fin R.n, q.face.dofs i = (q.e, i)) (e : Fin ne) (i : Fin R.n)
    (ha : q.e ≠ e) (u : State (Fin ne × Fin R.n) K) (f : FieldT) (d : Fin 3) (bf bp : K) :
    faceTerm u f d bf bp q.face (Pi.single (e, i) 1) = 0 := by
  apply faceTerm_far
  intro p _
  constructor
  · unfold tr1
    rw [h1, Finset.sum_range]
    simp [h3, ha]
  · unfold tr2
    rw [h2]
    simp

/-- The jumps `j` come from `u`, less `g q` on the face `q`; at the outer faces they are those of the conditions.  All at the faces of the
elements `lin`. -/
structure JumpsOf (lin : Fin ne → Prop) (cur : Nat → Bool) (node : Fin R.nF → Fin R.nf → Fin R.n) (alpha : K) (c : Nat → Nat × Nat) (b : BdrMaps)
    (inner : List (Inner ne R.nF R.nf R.n K)) (outer : List (Outer ne R.nF R.n K)) (v : Fields K) (u : State (Fin ne × Fin R.n) K)
    (g : Inner ne R.nF R.nf R.n K → State (Fin ne × Fin R.n) K) (j : Fields K) : Prop where
  side1 : ∀ q ∈ inner, lin q.e1 ∨ lin q.e2 → ∀ (k : Fin R.nf) x, j.e (posOf q.e1 q.f1 k) x =
      (u .E x (q.e2, node q.f2 (q.mate k)) - g q .E x (q.e2, node q.f2 (q.mate k))) - (u .E x (q.e1, node q.f1 k) - g q .E x (q.e1, node q.f1 k)) ∧
    j.h (posOf q.e1 q.f1 k) x =
      (u .H x (q.e2, node q.f2 (q.mate k)) - g q .H x (q.e2, node q.f2 (q.mate k))) - (u .H x (q.e1, node q.f1 k) - g q .H x (q.e1, node q.f1 k))
  side2 : ∀ q ∈ inner, lin q.e1 ∨ lin q.e2 → ∀ (k : Fin R.nf) x, j.e (posOf q.e2 q.f2 (q.mate k)) x =
      (u .E x (q.e1, node q.f1 k) - g q .E x (q.e1, node q.f1 k)) - (u .E x (q.e2, node q.f2 (q.mate k)) - g q .E x (q.e2, node q.f2 (q.mate k))) ∧
    j.h (posOf q.e2 q.f2 (q.mate k)) x =
      (u .H x (q.e1, node q.f1 k) - g q .H x (q.e1, node q.f1 k)) - (u .H x (q.e2, node q.f2 (q.mate k)) - g q .H x (q.e2, node q.f2 (q.mate k)))
  out : ∀ q ∈ outer, lin q.e → ∀ k : Fin R.nf, j.e (posOf q.e q.f k) = (applyBC cur alpha b v (jumps c v)).e (posOf q.e q.f k) ∧
    j.h (posOf q.e q.f k) = (applyBC cur alpha b v (jumps c v)).h (posOf q.e q.f k)

lemma jump_plain (cur : Nat → Bool) (b : BdrMaps) (alpha : K) (v : Fields K) (u : State (Fin ne × Fin R.n) K) (hv : Holds v u)
    (e : Fin ne) (φ : Fin R.nF) (k : Fin R.nf) (r s : Fin ne × Fin R.n) (hl : posOf e φ k ∉ listed b)
    (hc : c (posOf e φ k) = (num r, num s)) (x : Fin 3) :
    (applyBC cur alpha b v (jumps c v)).e (posOf e φ k) x = u .E x s - u .E x r ∧
    (applyBC cur alpha b v (jumps c v)).h (posOf e φ k) x = u .H x s - u .H x r := by
  obtain ⟨a, b'⟩ := C42_others cur alpha b v (jumps c v) _ hl
  rw [a, b']
  simp only [jumps, hc]
  rw [(hv r x).1, (hv s x).1, (hv r x).2, (hv s x).2]
  exact ⟨rfl, rfl⟩

/-- Without sources. -/
lemma jumps_plain (cur : Nat → Bool) (S : Mixed lin R w Mhat node el eps mu P c b inner outer) (v : Fields K) (u : State (Fin ne × Fin R.n) K) (hv : Holds v u) :
    JumpsOf lin cur node P.alpha c b inner outer v u (fun _ _ _ _ => 0) (applyBC cur P.alpha b v (jumps c v)) where
  side1 := by
    intro q hq hl k x
    simp only [sub_zero]
    exact jump_plain cur b _ v u hv _ _ _ _ _ ((S.free q hq).2 hl k).1 ((S.innerOk q hq hl).conn1 k) x
  side2 := by
    intro q hq hl k x
    simp only [sub_zero]
    exact jump_plain cur b _ v u hv _ _ _ _ _ ((S.free q hq).2 hl (q.mate k)).2 ((S.innerOk q hq hl).conn2 k) x
  out := fun _ _ _ _ => ⟨rfl, rfl⟩

/-- The face terms of a row are those of the sides of the element. -/
theorem row_faces (S : Mixed lin R w Mhat node el eps mu P c b inner outer) (v : Fields K) (u : State (Fin ne × Fin R.n) K) (hv : Holds v u) {cur : Nat → Bool}
    (hcur : ∀ r : Fin ne × Fin R.n, lin r.1 → cur (num r) = false)
    (g : Inner ne R.nF R.nf R.n K → State (Fin ne × Fin R.n) K) (j : Fields K) (hjump : JumpsOf lin cur node P.alpha c b inner outer v u g j)
    (f : FieldT) (d : Fin 3) (e : Fin ne) (he : lin e) (i : Fin R.n) :
    faceRow P u f d (Pi.single (e, i) 1) - (inner.map fun q => faceTerm (g q) f d 1 P.alpha q.face (Pi.single (e, i) 1)).sum =
      ∑ φ, sideTerm R el node P.alpha j f d e φ i := by
  set G : Fin ne × Fin R.nF → K := fun a => if a.1 = e then sideTerm R el node P.alpha j f d a.1 a.2 i else 0 with hG
  have hin : ((plainFaces P).map fun F => faceTerm u f d 1 P.alpha F (Pi.single (e, i) 1)).sum -
      (inner.map fun q => faceTerm (g q) f d 1 P.alpha q.face (Pi.single (e, i) 1)).sum =
      ((inner.flatMap (fun q => [(q.e1, q.f1), (q.e2, q.f2)])).map G).sum := by
    rw [plain_same S, List.map_map]
    have : ∀ q ∈ inner, faceTerm u f d 1 P.alpha q.face (Pi.single (e, i) 1) - faceTerm (g q) f d 1 P.alpha q.face (Pi.single (e, i) 1) =
        G (q.e1, q.f1) + G (q.e2, q.f2) := by
      intro q hq
      by_cases hte : q.e1 = e ∨ q.e2 = e
      · have hl : lin q.e1 ∨ lin q.e2 := hte.imp (fun h => by rw [h]; exact he) fun h => by rw [h]; exact he
        rw [← faceTerm_sub]
        apply inner_term (S.innerOk q hq hl) S.ref
        · exact hjump.side1 q hq hl
        · exact hjump.side2 q hq hl
      · rw [not_or] at hte
        obtain ⟨a1, a2, a3, a4, _⟩ := S.inside q hq
        rw [inner_far a1 a2 a3 a4 e i hte.1 hte.2, inner_far a1 a2 a3 a4 e i hte.1 hte.2, hG]
        simp [hte.1, hte.2]
    clear_value G
    clear S hjump hcur
    induction inner with
    | nil => simp
    | cons q l ih =>
      simp only [List.map_cons, List.sum_cons, List.flatMap_cons, List.map_append, List.sum_append, List.map_nil, List.sum_nil, add_zero,
        Function.comp_apply]
      rw [← this q (List.mem_cons_self ..), ← ih fun q' hq' => this q' (List.mem_cons_of_mem _ hq')]
      simp only [Function.comp_def]
      ring
  have hout : ((bdrFaces P).map fun q => faceTerm u f d (fluxCoeff q.1 (altField f)) (penaltyCoeff P q.1 f) q.2 (Pi.single (e, i) 1)).sum =
      ((outer.map fun q => (q.e, q.f)).map G).sum := by
    rw [bdr_same S]
    have : ∀ q ∈ outer, (match q.cond with
        | none => 0
        | some k => faceTerm u f d (fluxCoeff k (altField f)) (penaltyCoeff P k f) q.face (Pi.single (e, i) 1)) = G (q.e, q.f) := by
      intro q hq
      by_cases hqe : q.e = e
      swap
      · obtain ⟨a1, a2, a3, _⟩ := S.outside q hq
        rw [hG]
        cases hk : q.cond with
        | none => simp [hqe]
        | some k => simp only; rw [outer_far a1 a2 a3 e i hqe]; simp [hqe]
      have hl : lin q.e := hqe ▸ he
      have ho := S.outerOk q hq hl
      have hcond := S.conds q hq hl
      cases hk : q.cond with
      | none =>
        rw [hk] at hcond
        simp only at hcond ⊢
        rw [hG]
        simp only
        rw [if_pos hqe]
        unfold sideTerm
        have : ∀ k : Fin R.nf, pflux f P.alpha (unitNormal R el q.e q.f) (j.e (posOf q.e q.f k)) (j.h (posOf q.e q.f k)) d = 0 := by
          intro k
          have := jump_plain cur b P.alpha v u hv q.e q.f k _ _ (hcond k) (ho.conn k)
          rw [(hjump.out q hq hl k).1, (hjump.out q hq hl k).2]
          cases f <;> simp [pflux, fluxE, fluxH, ndot, (this _).1, (this _).2]
        simp [this]
      | some k =>
        rw [hk] at hcond
        simp only
        have h42 := fun k' : Fin R.nf => C42_conditions cur P.alpha b v (jumps c v) S.once (posOf q.e q.f k')
          (num (q.e, node q.f k')) (hcur _ hl)
        cases k with
        | PEC =>
          simp only at hcond
          have := outer_term ho S.ref P.alpha u j (fun g => bdrCoeff .PEC g) (by
            intro k' x
            obtain ⟨a, b'⟩ := (h42 k').1 (hcond k') x
            rw [(hjump.out q hq hl k').1, (hjump.out q hq hl k').2, a, b', (hv _ x).1]
            simp [bdrCoeff]) f d e i
          exact this
        | PMC =>
          simp only at hcond
          have := outer_term ho S.ref P.alpha u j (fun g => bdrCoeff .PMC g) (by
            intro k' x
            obtain ⟨a, b'⟩ := (h42 k').2.1 (hcond k') x
            rw [(hjump.out q hq hl k').1, (hjump.out q hq hl k').2, a, b', (hv _ x).2]
            simp [bdrCoeff]) f d e i
          exact this
        | SMA =>
          simp only at hcond
          have : faceTerm u f d 1 (1 * P.alpha) q.face (Pi.single (e, i) 1) = G (q.e, q.f) :=
            outer_term ho S.ref P.alpha u j (fun _ => 1) (by
            intro k' x
            obtain ⟨a, b'⟩ := (h42 k').2.2 (hcond.2 k') x
            rw [(hjump.out q hq hl k').1, (hjump.out q hq hl k').2, a, b', (hv _ x).1, (hv _ x).2, hcond.1]
            simp) f d e i
          rw [show (1 : K) * P.alpha = penaltyCoeff P .SMA f by rw [hcond.1]; simp [penaltyCoeff],
            show (1 : K) = fluxCoeff .SMA (altField f) by simp [fluxCoeff]] at this
          exact this
        | SGBC => exact absurd hcond (by simp)
    clear_value G
    clear S hjump hcur
    induction outer with
    | nil => simp
    | cons q l ih =>
      have h0 := this q (List.mem_cons_self ..)
      have h1 := ih fun q' hq' => this q' (List.mem_cons_of_mem _ hq')
      simp only [List.map_cons, List.sum_cons]
      rw [← h0, ← h1]
      cases hk : q.cond with
      | none => rw [List.filterMap_cons_none (by simp [hk])]; simp
      | some k => rw [List.filterMap_cons_some (by simp [hk]; rfl), List.map_cons, List.sum_cons]
  unfold faceRow
  rw [add_sub_right_comm, hin, hout, ← List.sum_append, ← List.map_append, (S.cover.map G).sum_eq]
  have : ∀ (l : List (Fin ne)) (l' : List (Fin R.nF)), ((l.product l').map G).sum = (l.map fun a => (l'.map fun a' => G (a, a')).sum).sum := by
    intro l l'
    induction l with
    | nil => rfl
    | cons a l ih =>
      rw [show (a :: l).product l' = l'.map (fun a' => (a, a')) ++ l.product l' from List.product_cons .., List.map_append, List.sum_append, ih, List.map_cons, List.sum_cons, List.map_map]
      rfl
  rw [this]
  have h1 : ∀ {N : Nat} (g : Fin N → K), ((List.finRange N).map g).sum = ∑ a, g a := by
    intro N g
    rw [List.sum_ofFn.symm, List.ofFn_eq_map]
  rw [h1]
  simp only [h1]
  rw [Finset.sum_eq_single e]
  · exact Finset.sum_congr rfl fun φ _ => by simp [hG]
  · intro a _ ha
    simp [hG, ha]
  · simp

/-! ### the elements -/

/-- The inverse of the reference mass matrix is that of the element up to its volume and material. -/
lemma inv_unique (A B M : Fin R.n → Fin R.n → K) (a t : K) (ht : t ≠ 0)
    (hA : ∀ i j, (∑ k, A i k * (a * M k j)) = if i = j then 1 else 0)
    (hB : ∀ i j, (∑ k, B i k * (t * M k j)) = if i = j then 1 else 0) (i j : Fin R.n) : B i j = a / t * A i j := by
  have h1 : (Matrix.of fun i j => a * A i j) * Matrix.of M = 1 := by
    ext i j
    rw [Matrix.mul_apply, Matrix.one_apply, ← hA i j]
    exact Finset.sum_congr rfl fun k _ => by simp only [Matrix.of_apply]; ring
  have h2 : (Matrix.of fun i j => t * B i j) * Matrix.of M = 1 := by
    ext i j
    rw [Matrix.mul_apply, Matrix.one_apply, ← hB i j]
    exact Finset.sum_congr rfl fun k _ => by simp only [Matrix.of_apply]; ring
  have h3 : (Matrix.of fun i j => t * B i j) = Matrix.of fun i j => a * A i j := by
    have hr := mul_eq_one_comm.1 h1
    calc (Matrix.of fun i j => t * B i j) = (Matrix.of fun i j => t * B i j) * (Matrix.of M * Matrix.of fun i j => a * A i j) := by
            rw [hr, Matrix.mul_one]
      _ = _ := by rw [← Matrix.mul_assoc, h2, Matrix.one_mul]
  have h4 : t * B i j = a * A i j := congrFun (congrFun h3 i) j
  field_simp
  linear_combination h4

lemma mesh_ne (h : RefOk R w Mhat node) : w ≠ 0 := by
  have := h.mesh
  unfold refMesh at this
  split_ifs at this
  · cases hg : R.geom <;> rw [hg] at this <;> simp at this <;> rw [← this] <;> norm_num
  · simp at this
    rw [← this.2]; norm_num

/-- Scale of the lift matrix against that of the derivatives. -/
lemma mesh_scale (h : RefOk R w Mhat node) :
    4 * (if R.dim = 3 ∧ R.geom = .tetrahedron then 2 else 1) = (referenceVolume R.geom : K) / unitVolume R.geom := by
  have := h.mesh
  unfold refMesh at this
  split_ifs at this with h2 h3
  · cases hg : R.geom <;> rw [hg] at this <;> simp at this <;> simp [referenceVolume, unitVolume] <;> norm_num
  · simp at this
    rw [← this.1]
    simp [referenceVolume, unitVolume, h3]
    norm_num

lemma unitVolume_ne (g : Geom) : (unitVolume g : K) ≠ 0 := by
  cases g <;> simp [unitVolume]

/-- Row of the nodal operator. -/
theorem nodal_row (h : RefOk R w Mhat node) (E : Nat → Nat → K)
    (hE : ∀ (i : Fin R.n) (f : Fin R.nF) (k : Fin R.nf), E i (f.val * R.nf + k.val) =
      2 * faceMass (R.faces f).pts Pt.sh1 i (node f k) * (if R.dim = 3 ∧ R.geom = .tetrahedron then 2 else 1))
    (alpha : K) (j : Fields K) (f : FieldT) (d : Fin 3) (e : Fin ne) (i : Fin R.n) :
    (ops R E el).lift (fun p => pflux f alpha (normals R el p) (j.e p) (j.h p) d) (num (e, i)) =
      ∑ i' : Fin R.n, R.inv i i' * (referenceVolume R.geom / unitVolume R.geom / (el e).J *
        ∑ φ, sideTerm R el node alpha j f d e φ i') := by
  show ∑ q ∈ Finset.range R.places, refLift R E (num (e, i) % R.n) q *
    (pflux f alpha (normals R el (num (e, i) / R.n * R.places + q)) (j.e (num (e, i) / R.n * R.places + q))
      (j.h (num (e, i) / R.n * R.places + q)) d * (fscale R (el (num (e, i) / R.n)) q / 2)) = _
  rw [num_div, num_mod, sum_places]
  have hp : ∀ (f : Fin R.nF) (k : Fin R.nf), e.val * R.places + (f.val * R.nf + k.val) = posOf e f k := fun _ _ => rfl
  simp only [hp, normals_pos, fscale, place_div, refLift, Finset.sum_range, hE, sideTerm, ← mesh_scale h]
  simp only [Finset.mul_sum, Finset.sum_mul]
  have sw : ∀ g : Fin R.nF → Fin R.nf → Fin R.n → K, ∑ φ, ∑ k, ∑ i', g φ k i' = ∑ i', ∑ φ, ∑ k, g φ k i' := by
    intro g
    rw [Finset.sum_congr rfl fun φ _ => Finset.sum_comm]
    exact Finset.sum_comm
  rw [sw]
  refine Finset.sum_congr rfl fun i' _ => Finset.sum_congr rfl fun φ _ => Finset.sum_congr rfl fun k _ => ?_
  ring

lemma nodal_deriv (E : Nat → Nat → K) (g : Nat → K) (d : Fin 3) (e : Fin ne) (i : Fin R.n) :
    (ops R E el).D d g (num (e, i)) = ∑ i' : Fin R.n, R.inv i i' * (referenceVolume R.geom / (el e).vol *
      ∑ k : Fin R.n, (if d.val ≥ R.dim then 0 else (el e).D d i' k) * g (num (e, k))) := by
  show ∑ k ∈ Finset.range R.n, dirMat R (el (num (e, i) / R.n)) d (num (e, i) % R.n) k * g (num (e, i) / R.n * R.n + k) = _
  rw [num_div, num_mod]
  have hn : ∀ k : Fin R.n, e.val * R.n + k.val = num (e, k) := fun _ => rfl
  simp only [dirMat, Finset.sum_range, hn, Finset.sum_mul, Finset.mul_sum, Finset.sum_div]
  rw [Finset.sum_comm]
  exact Finset.sum_congr rfl fun i' _ => Finset.sum_congr rfl fun k _ => by ring

lemma deriv_same (h : Mixed lin R w Mhat node el eps mu P c b inner outer) (d : Fin 3) (g : Fin ne × Fin R.n → K) (e : Fin ne) (he : lin e)
    (i : Fin R.n) :
    (derivativeSub P d).mulVec g (e, i) = ∑ k : Fin R.n, (if d.val ≥ R.dim then 0 else (el e).D d i k) * g (e, k) := by
  unfold derivativeSub
  rw [h.dim]
  split_ifs with hd
  · simp
  · show ∑ r, P.D d (e, i) r * g r = _
    rw [Fintype.sum_prod_type, Finset.sum_eq_single e]
    · exact Finset.sum_congr rfl fun k _ => by rw [h.deriv d _ _ he]; simp
    · intro e' _ hne
      apply Finset.sum_eq_zero
      intro k _
      rw [h.deriv d _ _ he]
      simp [Ne.symm hne]
    · simp

/-- Material of an element. -/
def material (eps mu : Fin ne → K) : FieldT → Fin ne → K
  | .E => eps
  | .H => mu

/-- A field. -/
def comp (v : Fields K) : FieldT → Nat → V3 K
  | .E => v.e
  | .H => v.h

/-- The nodal operator row by row. -/
theorem nodal_global (S : Mixed lin R w Mhat node el eps mu P c b inner outer) (v : Fields K) (u : State (Fin ne × Fin R.n) K)
    (hv : Holds v u) {cur : Nat → Bool} (hcur : ∀ r : Fin ne × Fin R.n, lin r.1 → cur (num r) = false) (g : Inner ne R.nF R.nf R.n K → State (Fin ne × Fin R.n) K) (j : Fields K)
    (hjump : JumpsOf lin cur node P.alpha c b inner outer v u g j) (E : Nat → Nat → K)
    (hE : ∀ (i : Fin R.n) (f : Fin R.nF) (k : Fin R.nf), E i (f.val * R.nf + k.val) =
      2 * faceMass (R.faces f).pts Pt.sh1 i (node f k) * (if R.dim = 3 ∧ R.geom = .tetrahedron then 2 else 1))
    (f : FieldT) (d : Fin 3) (r : Fin ne × Fin R.n) (hr : lin r.1) :
    sgn f * ((ops R E el).D (d + 1) (fun i => comp v (altField f) i (d + 2)) (num r) -
        (ops R E el).D (d + 2) (fun i => comp v (altField f) i (d + 1)) (num r)) +
      (ops R E el).lift (fun p => pflux f P.alpha (normals R el p) (j.e p) (j.h p) d) (num r) =
    speed R w * material eps mu f r.1 *
      (globalMult P u f d r + (∑ c, P.Minv f r c * (match f with | .E => P.Msig.mulVec (u .E d) c | .H => 0)) -
        ∑ c, P.Minv f r c * (inner.map fun q => faceTerm (g q) f d 1 P.alpha q.face (Pi.single c 1)).sum) := by
  obtain ⟨e, i⟩ := r
  have hw := mesh_ne S.ref
  have hJ := S.J e hr
  have hu := unitVolume_ne (K := K) R.geom
  have hm : material eps mu f e ≠ 0 := by
    cases f
    · exact S.epsPos e hr
    · exact S.muPos e hr
  rw [nodal_row S.ref E hE, nodal_deriv, nodal_deriv]
  conv_rhs => rw [global_row P (lengths S) (noIntBdr S), ← Finset.sum_add_distrib, ← Finset.sum_sub_distrib]
  have hmat : ∀ i' : Fin R.n, R.inv i i' = material eps mu f e * (el e).J / w * P.Minv f (e, i) (e, i') := by
    intro i'
    cases f
    · exact inv_unique (fun i k => P.Minv .E (e, i) (e, k)) (fun i k => R.inv i k) Mhat _ w hw (S.invE e hr) S.ref.inv i i'
    · exact inv_unique (fun i k => P.Minv .H (e, i) (e, k)) (fun i k => R.inv i k) Mhat _ w hw (S.invH e hr) S.ref.inv i i'
  rw [Fintype.sum_prod_type, Finset.sum_eq_single e]
  · rw [mul_sub, Finset.mul_sum, Finset.mul_sum, ← Finset.sum_sub_distrib, ← Finset.sum_add_distrib, Finset.mul_sum]
    refine Finset.sum_congr rfl fun i' _ => ?_
    rw [← row_faces S v u hv hcur g j hjump f d e hr, deriv_same S _ _ _ hr, deriv_same S _ _ _ hr, hmat i', S.vol e hr]
    have h1 : ∀ x k, comp v (altField f) (num (e, k)) x = u (altField f) x (e, k) := by
      intro x k
      cases f
      · exact (hv (e, k) x).2
      · exact (hv (e, k) x).1
    simp only [h1]
    generalize (∑ k : Fin R.n, (if (d + 1).val ≥ R.dim then 0 else (el e).D (d + 1) i' k) * u (altField f) (d + 2) (e, k)) = A
    generalize (∑ k : Fin R.n, (if (d + 2).val ≥ R.dim then 0 else (el e).D (d + 2) i' k) * u (altField f) (d + 1) (e, k)) = B
    generalize (inner.map fun q => faceTerm (g q) f d 1 P.alpha q.face (Pi.single (e, i') 1)).sum = G
    generalize faceRow P u f d (Pi.single (e, i') 1) = G'
    unfold speed
    generalize (referenceVolume R.geom : K) = V
    field_simp
    cases f <;> ring
  · intro e' _ he
    apply Finset.sum_eq_zero
    intro k _
    rw [S.local_ f _ _ (Ne.symm he)]
    ring
  · simp

/-! ### plane waves -/

lemma sub_signs {C : Op.Case (Fin ne × Fin R.n) K} {l : List (Fin ne × Fin R.n)} (h : C.sfSub = some l) (i : Fin ne × Fin R.n) :
    (i ∈ l → tfsfSign C i = -(1 / 2)) ∧ (i ∉ l → tfsfSign C i = 1 / 2) := by
  unfold tfsfSign
  rw [h]
  constructor <;> intro hi <;> simp [hi]

/-- The jumps with the waves. -/
lemma jumps_waves (cur : Nat → Bool) {C : Op.Case (Fin ne × Fin R.n) K} {surf : Inner ne R.nF R.nf R.n K → Option Bool} {tf : List TfNode}
    {sources : List (Option (Fields K))} {waves : List (State (Fin ne × Fin R.n) K)}
    (S : Mixed lin R w Mhat node el eps mu C.prob c b inner outer) (T : SurfaceOk node inner outer surf C tf sources waves) (v : Fields K)
    (u : State (Fin ne × Fin R.n) K) (hv : Holds v u) :
    JumpsOf lin cur node C.alpha c b inner outer v u (fun q => if (surf q).isSome = true then sourceField C waves else fun _ _ _ => 0)
      (evaluateTFSF sources tf (applyBC cur C.alpha b v (jumps c v))) := by
  have J := jumps_plain cur S v u hv
  have hcorr := C90_correction sources tf T.once (applyBC cur C.alpha b v (jumps c v))
  obtain ⟨l, hl, hsides⟩ := T.sides
  have val : ∀ q ∈ inner, ∀ s, surf q = some s → ∀ (k : Fin R.nf) (f : FieldT) (x : Fin 3),
      sourceField C waves f x (q.e1, node q.f1 k) = Op.Spec.total waves f x (q.e1, node q.f1 k) * (if s = true then 1 / 2 else -(1 / 2)) ∧
      sourceField C waves f x (q.e2, node q.f2 k) = Op.Spec.total waves f x (q.e2, node q.f2 k) * (if s = true then -(1 / 2) else 1 / 2) := by
    intro q hq s hs k f x
    obtain ⟨h1, h2, h3, h4⟩ := hsides q hq s hs k
    rw [sourceField_eq C waves f x _ h1, sourceField_eq C waves f x _ h2]
    cases s
    · rw [(sub_signs hl _).1 (h3.2 rfl), (sub_signs hl _).2 fun hh => by simpa using h4.1 hh]
      simp
    · rw [(sub_signs hl _).1 (h4.2 rfl), (sub_signs hl _).2 fun hh => by simpa using h3.1 hh]
      simp
  constructor
  · intro q hq hlin k x
    have j0 := J.side1 q hq hlin k x
    simp only [sub_zero] at j0
    cases hs : surf q with
    | none =>
      simp only [Option.isSome_none, Bool.false_eq_true, if_false, sub_zero]
      obtain ⟨a, a'⟩ := (hcorr x).2 _ (T.off q hq hs k).1
      rw [a, a']
      exact j0
    | some s =>
      simp only [Option.isSome_some, if_true]
      obtain ⟨t, ht, hpos, hinc⟩ := T.on q hq s hs k
      obtain ⟨i1, i2, i3, i4⟩ := hinc x
      obtain ⟨c1, c2, c3, c4⟩ := (hcorr x).1 t ht
      rw [(val q hq s hs k .E x).1, (val q hq s hs k .H x).1, (val q hq s hs (q.mate k) .E x).2, (val q hq s hs (q.mate k) .H x).2,
        ← i1, ← i2, ← i3, ← i4]
      cases s
      · simp only [Bool.false_eq_true, if_false] at hpos ⊢
        rw [← hpos.1, c1, c2, hpos.1]
        exact ⟨by rw [show (applyBC cur C.alpha b v (jumps c v)).e (posOf q.e1 q.f1 k) x = _ from j0.1]; ring,
          by rw [show (applyBC cur C.alpha b v (jumps c v)).h (posOf q.e1 q.f1 k) x = _ from j0.2]; ring⟩
      · simp only [if_true] at hpos ⊢
        rw [← hpos.1, c3, c4, hpos.1]
        exact ⟨by rw [show (applyBC cur C.alpha b v (jumps c v)).e (posOf q.e1 q.f1 k) x = _ from j0.1]; ring,
          by rw [show (applyBC cur C.alpha b v (jumps c v)).h (posOf q.e1 q.f1 k) x = _ from j0.2]; ring⟩
  · intro q hq hlin k x
    have j0 := J.side2 q hq hlin k x
    simp only [sub_zero] at j0
    cases hs : surf q with
    | none =>
      simp only [Option.isSome_none, Bool.false_eq_true, if_false, sub_zero]
      obtain ⟨a, a'⟩ := (hcorr x).2 _ (T.off q hq hs (q.mate k)).2
      rw [a, a']
      exact j0
    | some s =>
      simp only [Option.isSome_some, if_true]
      obtain ⟨t, ht, hpos, hinc⟩ := T.on q hq s hs k
      obtain ⟨i1, i2, i3, i4⟩ := hinc x
      obtain ⟨c1, c2, c3, c4⟩ := (hcorr x).1 t ht
      rw [(val q hq s hs k .E x).1, (val q hq s hs k .H x).1, (val q hq s hs (q.mate k) .E x).2, (val q hq s hs (q.mate k) .H x).2,
        ← i1, ← i2, ← i3, ← i4]
      cases s
      · simp only [Bool.false_eq_true, if_false] at hpos ⊢
        rw [← hpos.2, c3, c4, hpos.2]
        exact ⟨by rw [show (applyBC cur C.alpha b v (jumps c v)).e (posOf q.e2 q.f2 (q.mate k)) x = _ from j0.1]; ring,
          by rw [show (applyBC cur C.alpha b v (jumps c v)).h (posOf q.e2 q.f2 (q.mate k)) x = _ from j0.2]; ring⟩
      · simp only [if_true] at hpos ⊢
        rw [← hpos.2, c1, c2, hpos.2]
        exact ⟨by rw [show (applyBC cur C.alpha b v (jumps c v)).e (posOf q.e2 q.f2 (q.mate k)) x = _ from j0.1]; ring,
          by rw [show (applyBC cur C.alpha b v (jumps c v)).h (posOf q.e2 q.f2 (q.mate k)) x = _ from j0.2]; ring⟩
  · intro q hq _ k
    constructor
    · funext x
      exact ((hcorr x).2 _ (T.outerOff q hq k)).1
    · funext x
      exact ((hcorr x).2 _ (T.outerOff q hq k)).2

/-- The terms of the waves in a row of the global operator. -/
lemma source_same {C : Op.Case (Fin ne × Fin R.n) K} {surf : Inner ne R.nF R.nf R.n K → Option Bool} {tf : List TfNode}
    {sources : List (Option (Fields K))} {waves : List (State (Fin ne × Fin R.n) K)}
    (S : Mixed lin R w Mhat node el eps mu C.prob c b inner outer) (T : SurfaceOk node inner outer surf C tf sources waves)
    (hq : skip2 ≤ sourceNorm2 C (sourceField C waves)) (u : State (Fin ne × Fin R.n) K) (f : FieldT) (d : Fin 3) (r : Fin ne × Fin R.n) :
    sourceRhs C waves u f d r = globalMult C.prob u f d r -
      ∑ s, C.Minv f r s * (inner.map fun q => faceTerm (if (surf q).isSome = true then sourceField C waves else fun _ _ _ => 0) f d 1 C.alpha
        q.face (Pi.single s 1)).sum := by
  have hn : ∀ F ∈ C.tfFaces, ∀ p ∈ F.pts, p.nor.length = C.dim := by
    intro F hF
    apply lengths S F
    unfold Op.Spec.allFaces Case.prob
    unfold Case.tfFaces at hF
    rw [List.mem_filterMap] at hF
    obtain ⟨q, hq, hF⟩ := hF
    rw [List.mem_append, List.map_map]
    left
    rw [List.mem_map]
    refine ⟨q, hq, ?_⟩
    split_ifs at hF
    simpa using hF
  unfold sourceRhs
  rw [if_neg (not_lt.mpr hq), source_row C _ hn]
  congr 1
  refine Finset.sum_congr rfl fun s _ => ?_
  congr 1
  unfold Case.tfFaces
  rw [T.marked, List.filterMap_map]
  have := Op.sum_filterMap inner (fun q => (surf q).isSome) (fun q => q.face) (fun F => faceTerm (sourceField C waves) f d 1 C.alpha F (Pi.single s 1))
  refine Eq.trans this ?_
  congr 1
  apply List.map_congr_left
  intro q _
  split_ifs
  · rfl
  · rw [faceTerm_zero]

end Dgtd.Nodal
