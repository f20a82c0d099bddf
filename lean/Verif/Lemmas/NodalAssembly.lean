/-
The global operator row by row, element by element; the lift matrix of the nodal operator.
-/
import Verif.Props.NodalMaps
import Verif.Props.Nodal
import Verif.Props.Integrators
import Verif.Lemmas.OpSource
import Verif.Spec.NodalAssembly

set_option linter.unusedSectionVars false

namespace Dgtd.Op

open Spec

variable {ι K : Type} [Fintype ι] [DecidableEq ι] [Field K] [LinearOrder K] [IsStrictOrderedRing K]

/-- Contribution of one face to the row of a test function, before the inverse of the mass matrix. -/
def faceTerm (u : State ι K) (f : FieldT) (d : Dir) (bf bp : K) (F : Face ι K) (v : ι → K) : K :=
  (F.pts.map fun p => p.w / 2 * (
    sgn f * bf * (normalTerm p.nor (d + 2) * (tr1 F p (u (altField f) (d + 1)) - tr2 F p (u (altField f) (d + 1))) -
      normalTerm p.nor (d + 1) * (tr1 F p (u (altField f) (d + 2)) - tr2 F p (u (altField f) (d + 2)))) * (tr1 F p v + tr2 F p v)
    - bp * (p.W * (tr1 F p (u f d) - tr2 F p (u f d)) -
      normalTerm p.nor d * (normalTerm p.nor 0 * (tr1 F p (u f 0) - tr2 F p (u f 0)) +
        normalTerm p.nor 1 * (tr1 F p (u f 1) - tr2 F p (u f 1)) + normalTerm p.nor 2 * (tr1 F p (u f 2) - tr2 F p (u f 2))) / p.W) *
      (tr1 F p v - tr2 F p v))).sum

lemma faceTerm_eq (u : State ι K) (f : FieldT) (d : Dir) (bf bp : K) (F : Face ι K) (v : ι → K) :
    (sgn f : K) * (fbil F (oneNormal (d + 2) bf F) v (u (altField f) (d + 1)) -
        fbil F (oneNormal (d + 1) bf F) v (u (altField f) (d + 2))) -
      fbil F (zeroNormal bp F) v (u f d) +
      (fbil F (twoNormal d 0 bp F) v (u f 0) + fbil F (twoNormal d 1 bp F) v (u f 1) + fbil F (twoNormal d 2 bp F) v (u f 2)) =
    faceTerm u f d bf bp F v := by
  rw [fbil_oneNormal, fbil_oneNormal, fbil_zeroNormal, fbil_twoNormal, fbil_twoNormal, fbil_twoNormal]
  unfold faceTerm
  induction F.pts with
  | nil => simp
  | cons p l ih =>
    simp only [List.map_cons, List.sum_cons]
    rw [← ih]
    ring

/-- A row of the face terms. -/
def faceRow (P : Prob ι K) (u : State ι K) (f : FieldT) (d : Dir) (v : ι → K) : K :=
  ((plainFaces P).map fun F => faceTerm u f d 1 P.alpha F v).sum +
  ((bdrFaces P).map fun q => faceTerm u f d (fluxCoeff q.1 (altField f)) (penaltyCoeff P q.1 f) q.2 v).sum

lemma faceRow_eq (P : Prob ι K) (u : State ι K) (f : FieldT) (d : Dir) (v : ι → K) :
    (sgn f : K) * (form (oneNormalSub P (altField f) (d + 2)) v (u (altField f) (d + 1)) -
        form (oneNormalSub P (altField f) (d + 1)) v (u (altField f) (d + 2))) -
      form (zeroNormalSub P f) v (u f d) +
      (form (twoNormalSub P f d 0) v (u f 0) + form (twoNormalSub P f d 1) v (u f 1) + form (twoNormalSub P f d 2) v (u f 2)) =
    faceRow P u f d v := by
  rw [form_oneNormalSub, form_oneNormalSub, form_zeroNormalSub, form_twoNormalSub, form_twoNormalSub, form_twoNormalSub]
  unfold faceRow
  simp only [← faceTerm_eq]
  have key : ∀ {α : Type} (l : List α) (s : K) (a b c x y z : α → K),
      (l.map fun q => s * (a q - b q) - c q + (x q + y q + z q)).sum =
        s * ((l.map a).sum - (l.map b).sum) - (l.map c).sum + ((l.map x).sum + (l.map y).sum + (l.map z).sum) := by
    intro α l s a b c x y z
    induction l with
    | nil => simp
    | cons q l ih => simp only [List.map_cons, List.sum_cons]; rw [ih]; ring
  rw [key, key]
  ring

/-- A row of the global operator without conditions inside. -/
lemma global_row (P : Prob ι K) (hn : ∀ f ∈ allFaces P, ∀ p ∈ f.pts, p.nor.length = P.dim) (hi : hasIntBdr P = false)
    (u : State ι K) (f : FieldT) (d : Dir) (r : ι) :
    globalMult P u f d r = ∑ c, P.Minv f r c * (
      sgn f * ((derivativeSub P (d + 1)).mulVec (u (altField f) (d + 2)) c - (derivativeSub P (d + 2)).mulVec (u (altField f) (d + 1)) c) +
      faceRow P u f d (Pi.single c 1) - (match f with | .E => P.Msig.mulVec (u .E d) c | .H => 0)) := by
  have z1 : ∀ (f : FieldT) (x : Dir), x.val ≥ P.dim → P.Minv f * oneNormalSub P (altField f) x = 0 := by
    intro f x hx
    rw [form_zero_matrix _ (van_oneSub hn (altField f) x hx), mul_zero]
  have z2 : ∀ (f : FieldT) (x y : Dir), (x.val ≥ P.dim ∨ y.val ≥ P.dim) →
      P.Minv f * twoNormalSub P f x y = 0 := by
    intro f x y hx
    rw [form_zero_matrix _ (van_twoSub hn f x y hx), mul_zero]
  have hc : applyBlocks (conductiveBlocks P) u f d r =
      -∑ c, P.Minv f r c * (match f with | .E => P.Msig.mulVec (u .E d) c | .H => 0) := by
    unfold conductiveBlocks dirs
    cases f <;> fin_cases d <;>
      simp [applyBlocks_cons', applyBlocks_nil, ← Matrix.mulVec_mulVec] <;> rfl
  unfold globalMult globalBlocks
  rw [applyBlocks_append, applyBlocks_append, applyBlocks_append, applyBlocks_append, applyBlocks_append,
    apply_dir, apply_one _ _ z1, apply_zero, apply_two _ _ z2, hi]
  simp only [Bool.false_eq_true, if_false, applyBlocks_nil, Pi.add_apply, Pi.sub_apply, Pi.smul_apply, Pi.neg_apply, Pi.zero_apply,
    ← Matrix.mulVec_mulVec, smul_eq_mul, zero_add, hc]
  have e : ∀ v : ι → K, (P.Minv f).mulVec v r = ∑ c, P.Minv f r c * v c := fun v => rfl
  simp only [e]
  simp only [← faceRow_eq, mulVec_form]
  simp only [Finset.mul_sum, ← Finset.sum_sub_distrib, ← Finset.sum_add_distrib, ← Finset.sum_neg_distrib]
  exact Finset.sum_congr rfl fun c _ => by ring

end Dgtd.Op

namespace Dgtd.Nodal

open Spec NodalMaps Dgtd.Op

/-! ### positions -/

section positions
variable {K : Type} [Field K] [LinearOrder K]

lemma pos_lt (R : Ref K) (f : Fin R.nF) (k : Fin R.nf) : f.val * R.nf + k.val < R.places := by
  have h1 : (f.val + 1) * R.nf ≤ R.nF * R.nf := Nat.mul_le_mul_right _ f.isLt
  have h2 := k.isLt
  have h3 : (f.val + 1) * R.nf = f.val * R.nf + R.nf := by ring
  unfold Ref.places
  omega

lemma pos_div {ne : Nat} (R : Ref K) (e : Fin ne) (f : Fin R.nF) (k : Fin R.nf) : posOf e f k / R.places = e := by
  have := pos_lt R f k
  unfold posOf
  have e1 : R.nF * R.nf = R.places := rfl
  rw [e1, Nat.mul_comm, Nat.mul_add_div (by omega), Nat.div_eq_of_lt this, Nat.add_zero]

lemma pos_mod {ne : Nat} (R : Ref K) (e : Fin ne) (f : Fin R.nF) (k : Fin R.nf) :
    posOf e f k % R.places = f.val * R.nf + k.val := by
  have := pos_lt R f k
  unfold posOf
  have e1 : R.nF * R.nf = R.places := rfl
  rw [e1, Nat.mul_comm, Nat.mul_add_mod, Nat.mod_eq_of_lt this]

lemma place_div (R : Ref K) (f : Fin R.nF) (k : Fin R.nf) : (f.val * R.nf + k.val) / R.nf = f := by
  have := k.isLt
  rw [Nat.mul_comm, Nat.mul_add_div (by omega), Nat.div_eq_of_lt k.isLt, Nat.add_zero]

lemma place_mod (R : Ref K) (f : Fin R.nF) (k : Fin R.nf) : (f.val * R.nf + k.val) % R.nf = k := by
  rw [Nat.mul_comm, Nat.mul_add_mod, Nat.mod_eq_of_lt k.isLt]

lemma num_div {ne n : Nat} (r : Fin ne × Fin n) : num r / n = r.1 := by
  have := r.2.isLt
  unfold num
  rw [Nat.mul_comm, Nat.mul_add_div (by omega), Nat.div_eq_of_lt r.2.isLt, Nat.add_zero]

lemma num_mod {ne n : Nat} (r : Fin ne × Fin n) : num r % n = r.2 := by
  unfold num
  rw [Nat.mul_comm, Nat.mul_add_mod, Nat.mod_eq_of_lt r.2.isLt]

/-- Sums over the places of an element. -/
lemma sum_places (R : Ref K) (g : Nat → K) :
    ∑ q ∈ Finset.range R.places, g q = ∑ f : Fin R.nF, ∑ k : Fin R.nf, g (f.val * R.nf + k.val) := by
  have : ∀ m : Nat, ∑ q ∈ Finset.range (m * R.nf), g q =
      ∑ f ∈ Finset.range m, ∑ k ∈ Finset.range R.nf, g (f * R.nf + k) := by
    intro m
    induction m with
    | zero => simp
    | succ m ih => rw [Nat.succ_mul, Finset.sum_range_add, ih, Finset.sum_range_succ]
  unfold Ref.places
  rw [this, Finset.sum_range]
  exact Finset.sum_congr rfl fun f _ => Finset.sum_range _

end positions

variable {K : Type} [Field K] [LinearOrder K] [IsStrictOrderedRing K]

/-! ### the lift matrix -/

lemma rows_removeZero (m : Mat K) : (removeZeroColumns m).rows = m.rows := by
  unfold removeZeroColumns
  induction (List.range m.cols).filter fun c => isZeroColumn m c with
  | nil => rfl
  | cons c l ih => rw [List.foldr_cons]; exact ih

lemma cols_length (m : Mat K) : (NodalMaps.Spec.columns m).length = m.cols := by
  simp [NodalMaps.Spec.columns]

lemma surface_entry (R : Ref K) (f : Fin R.nF) (h : (R.faces f).ndof1 = R.n ∧ (R.faces f).ndof2 = 0) (i j : Fin R.n) :
    (surface R f).val i j = 2 * faceMass (R.faces f).pts Pt.sh1 i j := by
  have hi := i.isLt
  have hj := j.isLt
  have := Op.C61_hesthavenFlux (R.faces f) i j (by omega) (by omega)
  show Op.hesthavenFlux (R.faces f) i j = _
  rw [this]
  unfold Op.Spec.quad faceMass
  have e : ∀ p : Pt K, ∀ a : Fin R.n, Op.Spec.shp (R.faces f) p a = p.sh1 a := by
    intro p a
    have := a.isLt
    unfold Op.Spec.shp
    rw [if_pos (by omega)]
  simp only [e]
  induction (R.faces f).pts with
  | nil => simp
  | cons p l ih => simp only [List.map_cons, List.sum_cons]; rw [ih]; ring

/-- The columns that are kept are those of the nodes of the face. -/
lemma kept (R : Ref K) {w : K} {Mhat : Fin R.n → Fin R.n → K} {node : Fin R.nF → Fin R.nf → Fin R.n} (h : RefOk R w Mhat node)
    (f : Fin R.nF) : NodalMaps.Spec.columns (removeZeroColumns (surface R f)) =
      (List.finRange R.nf).map fun k => (List.range R.n).map fun r => (surface R f).val r (node f k) := by
  rw [C40_columns]
  unfold NodalMaps.Spec.columns
  have e : ∀ (p : List K → Bool) (g : Nat → List K) (l : List Nat), (l.map g).filter p = (l.filter fun c => p (g c)).map g := by
    intro p g l
    rw [List.filter_map]; rfl
  rw [e]
  have hl : (List.range R.n).filter (fun c => ((List.range R.n).map fun r => (surface R f).val r c).any fun x =>
      decide (1 / 1000000 ≤ |x|)) = (List.finRange R.nf).map fun k => (node f k).val := by
    apply List.Perm.eq_of_pairwise (le := (· < ·))
    · intro a b _ _ h1 h2; omega
    · exact List.Pairwise.filter _ List.pairwise_lt_range
    · rw [List.pairwise_map]
      exact (List.pairwise_lt_finRange R.nf).imp fun hab => h.mono f hab
    · rw [List.perm_ext_iff_of_nodup (List.nodup_range.filter _)
        ((List.nodup_finRange _).map fun a b hab => (h.mono f).injective (Fin.ext hab))]
      intro c
      simp only [List.mem_filter, List.mem_range, List.any_map, List.any_eq_true, Function.comp_apply, decide_eq_true_eq, List.mem_map,
        List.mem_finRange, true_and]
      constructor
      · rintro ⟨hc, r, hr, hx⟩
        by_contra hno
        have hz : (surface R f).val r c = 0 := by
          have := surface_entry R f (h.one f) ⟨r, hr⟩ ⟨c, hc⟩
          simp only at this
          rw [this]
          have : faceMass (R.faces f).pts Pt.sh1 r c = 0 := by
            unfold faceMass
            apply Op.sum_map_zero
            intro p hp
            rw [h.off f p hp ⟨c, hc⟩ fun k hk => hno ⟨k, by rw [hk]⟩]
            ring
          rw [this, mul_zero]
        rw [hz, abs_zero] at hx
        have : (0 : K) < 1 / 1000000 := by positivity
        linarith
      · rintro ⟨k, rfl⟩
        refine ⟨(node f k).isLt, ?_⟩
        obtain ⟨i, hi⟩ := h.seen f k
        exact ⟨i, i.isLt, by rw [surface_entry R f (h.one f)]; exact hi⟩
  show List.map _ (List.filter _ (List.range (surface R f).cols)) = _
  have hc : (surface R f).cols = R.n := rfl
  have hr : (surface R f).rows = R.n := rfl
  rw [hc, hr, hl, List.map_map]
  rfl

/-- The lift matrix exists and its entries are twice (four times, for tetrahedra) the face mass matrix. -/
theorem emat_entry (R : Ref K) {w : K} {Mhat : Fin R.n → Fin R.n → K} {node : Fin R.nF → Fin R.nf → Fin R.n} (h : RefOk R w Mhat node) :
    ∃ E, emat R = some E ∧ ∀ (i : Fin R.n) (f : Fin R.nF) (k : Fin R.nf),
      E i (f.val * R.nf + k.val) = 2 * faceMass (R.faces f).pts Pt.sh1 i (node f k) *
        (if R.dim = 3 ∧ R.geom = .tetrahedron then 2 else 1) := by
  have hcols : ∀ f : Fin R.nF, (removeZeroColumns (surface R f)).cols = R.nf := by
    intro f
    rw [← cols_length, kept R h f]
    simp
  unfold emat
  rw [if_pos]
  · refine ⟨_, rfl, ?_⟩
    intro i f k
    rw [place_div, place_mod]
    congr 1
    have hk := congrArg (fun l => (l.getD k []).getD i 0) (kept R h f)
    simp only [NodalMaps.Spec.columns, hcols f, rows_removeZero] at hk
    have hr : (surface R f).rows = R.n := rfl
    rw [hr] at hk
    simp only [List.getD_eq_getElem?_getD, List.getElem?_map, List.getElem?_range k.isLt, Option.map_some, Option.getD_some,
      List.getElem?_range i.isLt] at hk
    rw [hk]
    have : (List.finRange R.nf)[k.val]? = some k := by
      rw [List.getElem?_eq_getElem (by simp)]
      simp
    rw [this]
    simp only [Option.map_some, Option.getD_some, List.getElem?_map, List.getElem?_range i.isLt]
    exact surface_entry R f (h.one f) i (node f k)
  · rw [List.all_eq_true]
    intro f hf
    exact decide_eq_true (hcols ⟨f, List.mem_range.1 hf⟩)

end Dgtd.Nodal
