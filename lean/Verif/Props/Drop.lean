/-
C193: entries dropped from the operator as negligible.
-/
import Verif.Spec.Drop
import Verif.Props.Export
import Verif.Props.Scale

set_option linter.unusedSectionVars false

namespace Dgtd.Drop

open Dgtd.Op Dgtd.Op.Spec Dgtd.Csr Dgtd.Csr.Spec Dgtd.Export Dgtd.Export.Spec

section
variable {K : Type} [Field K] [LinearOrder K] [IsStrictOrderedRing K] {n : Nat}

lemma row_lt (f : FieldT) (d : Dir) (i : Fin n) : (3 * f.idx + d.val) * n + i.val < 6 * n := by
  have : 3 * f.idx + d.val ≤ 5 := by
    have := d.isLt
    cases f <;> simp only [FieldT.idx] <;> omega
  have := i.isLt
  nlinarith

lemma abs_le_magnitude (u : State (Fin n) K) (f : FieldT) (d : Dir) (i : Fin n) : |u f d i| ≤ magnitude u := by
  unfold magnitude
  refine le_trans ?_ (Finset.single_le_sum (f := fun d => ∑ i : Fin n, (|u .E d i| + |u .H d i|))
    (fun d _ => Finset.sum_nonneg fun i _ => by positivity) (Finset.mem_univ d))
  refine le_trans ?_ (Finset.single_le_sum (f := fun i => |u .E d i| + |u .H d i|)
    (fun i _ => by positivity) (Finset.mem_univ i))
  cases f
  · exact le_add_of_nonneg_right (abs_nonneg _)
  · exact le_add_of_nonneg_left (abs_nonneg _)

lemma magnitude_nonneg (u : State (Fin n) K) : 0 ≤ magnitude u :=
  Finset.sum_nonneg fun d _ => Finset.sum_nonneg fun i _ => by positivity

/-- The values of a vector that holds a state. -/
lemma sum_held (x : Int → K) (u : State (Fin n) K) (h : Holds n x u) :
    ∑ c ∈ Finset.range (6 * n), |x (c : Int)| = magnitude u := by
  have e : 6 * n = n + n + n + n + n + n := by ring
  have hE : ∀ d : Dir, ∑ i : Fin n, |x ((d.val * n + i.val : Nat) : Int)| = ∑ i : Fin n, |u .E d i| :=
    fun d => Finset.sum_congr rfl fun i _ => by rw [(h d i).1]
  have hH : ∀ d : Dir, ∑ i : Fin n, |x (((3 + d.val) * n + i.val : Nat) : Int)| = ∑ i : Fin n, |u .H d i| :=
    fun d => Finset.sum_congr rfl fun i _ => by rw [(h d i).2]
  rw [e, Finset.sum_range_add, Finset.sum_range_add, Finset.sum_range_add, Finset.sum_range_add, Finset.sum_range_add]
  unfold magnitude
  rw [Fin.sum_univ_three]
  simp only [Finset.sum_add_distrib, ← hE, ← hH, Finset.sum_range]
  simp only [Fin.val_zero, Fin.val_one, Fin.val_two, zero_mul, zero_add, one_mul, add_zero, show 2 * n = n + n by ring,
    show 3 * n = n + n + n by ring, show (3 + 1) * n = n + n + n + n by ring, show (3 + 2) * n = n + n + n + n + n by ring]
  ring

/-- A row without repetitions touches every value at most once. -/
lemma touched_le_magnitude {m : CSR K} (hw : WellFormed m (6 * n) (6 * n)) {x : Int → K} {u : State (Fin n) K} (h : Holds n x u)
    {r : Nat} (hr : r < 6 * n) : touched m x r ≤ magnitude u := by
  have h1 : touched m x r = (((csrRow m r).map Prod.fst).map fun c => |x c|).sum := by
    unfold touched; rw [List.map_map]; rfl
  have hn := hw.no_dup r hr
  have e1 : (((csrRow m r).map Prod.fst).map fun c => |x c|).sum =
      ∑ c ∈ ((csrRow m r).map Prod.fst).toFinset, |x c| := (List.sum_toFinset _ hn).symm
  have e2 : magnitude u = ∑ c ∈ (Finset.range (6 * n)).map ⟨Int.ofNat, Int.ofNat_injective⟩, |x c| := by
    rw [Finset.sum_map, ← sum_held x u h]; rfl
  rw [h1, e1, e2]
  apply Finset.sum_le_sum_of_subset_of_nonneg
  · intro c hc
    simp only [List.mem_toFinset, List.mem_map, Finset.mem_map, Finset.mem_range, Function.Embedding.coeFn_mk] at hc ⊢
    obtain ⟨e, he, rfl⟩ := hc
    have := rows_nonneg hw r e he
    exact ⟨e.1.toNat, by omega, by simp; omega⟩
  · intro c _ _
    exact abs_nonneg _

/-- What is built, before and after the small entries are dropped. -/
lemma built (P : Prob (Fin n) K) (store : GBlock (Fin n) K → List (List (Int × K)))
    (hst : ∀ b ∈ globalBlocks P, Represents b.mat (store b)) (junkJ : Int) (junkA : K) :
    ∃ m, builtOperator junkJ junkA ((globalBlocks P).map fun b => place n b (store b)) (6 * n) (6 * n) =
        some (threshold m (6 * n)) ∧ WellFormed m (6 * n) (6 * n) ∧
      ∀ (x : Int → K) (u : State (Fin n) K), Holds n x u → ∀ f d (i : Fin n),
        csrMul m x ((3 * f.idx + d.val) * n + i.val) = globalMult P u f d i := by
  have hb := placed_inBounds (globalBlocks P) store hst
  obtain ⟨m, hm, hact⟩ := csr_acts (globalBlocks P) store hst junkJ junkA
  obtain ⟨m', hm', hw, -⟩ := C04_merge_is_sum _ _ _ hb junkJ junkA
  have : m' = m := Option.some.inj (hm'.symm.trans hm)
  subst this
  refine ⟨m', ?_, hw, hact⟩
  unfold builtOperator
  unfold placed at hm'
  rw [hm']
  rfl

/-- **C193**: the operator that the run applies gives every rate up to `1e-20` times the sum of the magnitudes of the
fields. -/
theorem C193_rates (P : Prob (Fin n) K) (store : GBlock (Fin n) K → List (List (Int × K)))
    (hst : ∀ b ∈ globalBlocks P, Represents b.mat (store b)) (junkJ : Int) (junkA : K) :
    ∃ A, builtOperator junkJ junkA ((globalBlocks P).map fun b => place n b (store b)) (6 * n) (6 * n) = some A ∧
      ∀ (x : Int → K) (u : State (Fin n) K), Holds n x u → ∀ f d (i : Fin n),
        |csrMul A x ((3 * f.idx + d.val) * n + i.val) - globalMult P u f d i| ≤ 1 / 10 ^ 20 * magnitude u := by
  obtain ⟨m, hm, hw, hact⟩ := built P store hst junkJ junkA
  refine ⟨_, hm, fun x u hx f d i => ?_⟩
  have h1 := threshold_near m (6 * n) x _ (row_lt f d i)
  rw [hact x u hx f d i] at h1
  exact h1.trans (mul_le_mul_of_nonneg_left (touched_le_magnitude hw hx (row_lt f d i)) (by positivity))

/-! ### a small unit of length -/

/-- The state with a one in place `c` of its vector. -/
def unitAt (c : Nat) : State (Fin n) K := fun f d i => if (3 * f.idx + d.val) * n + i.val = c then 1 else 0

lemma unitAt_holds (c : Nat) : Holds n (fun k : Int => if k = c then (1 : K) else 0) (unitAt c) := by
  intro d i
  unfold unitAt
  constructor
  · simp only [FieldT.idx, mul_zero, zero_add]
    split_ifs <;> first | rfl | omega
  · simp only [FieldT.idx, mul_one]
    split_ifs <;> first | rfl | omega

/-- A stored entry is what its row makes of the unit vector of its column. -/
lemma entry_eq {l : List (Int × K)} (hn : (l.map Prod.fst).Nodup) {e : Int × K} (he : e ∈ l) :
    (l.map fun a => a.2 * if a.1 = e.1 then (1 : K) else 0).sum = e.2 := by
  induction l with
  | nil => simp at he
  | cons a l ih =>
    rw [List.map_cons, List.nodup_cons] at hn
    rw [List.map_cons, List.sum_cons]
    rcases List.mem_cons.1 he with rfl | he
    · have : (l.map fun a => a.2 * if a.1 = e.1 then (1 : K) else 0).sum = 0 := by
        apply List.sum_eq_zero
        intro y hy
        obtain ⟨b, hb, rfl⟩ := List.mem_map.1 hy
        have : b.1 ≠ e.1 := fun h => hn.1 (h ▸ List.mem_map_of_mem hb)
        rw [if_neg this, mul_zero]
      rw [this, if_pos rfl, mul_one, add_zero]
    · have : a.1 ≠ e.1 := fun h => hn.1 (h ▸ List.mem_map_of_mem he)
      rw [if_neg this, mul_zero, zero_add, ih hn.2 he]

lemma row_surj {c : Nat} (hc : c < 6 * n) : ∃ (f : FieldT) (d : Dir) (i : Fin n), (3 * f.idx + d.val) * n + i.val = c := by
  have hn : 0 < n := by omega
  have h1 : c / n < 6 := (Nat.div_lt_iff_lt_mul hn).2 hc
  have h2 := Nat.div_add_mod' c n
  by_cases h : c / n < 3
  · exact ⟨.E, ⟨c / n, h⟩, ⟨c % n, Nat.mod_lt _ hn⟩, by simpa [FieldT.idx] using h2⟩
  · refine ⟨.H, ⟨c / n - 3, by omega⟩, ⟨c % n, Nat.mod_lt _ hn⟩, ?_⟩
    have e : 3 * FieldT.H.idx + (c / n - 3) = c / n := by simp only [FieldT.idx]; omega
    show (3 * FieldT.H.idx + (c / n - 3)) * n + c % n = c
    rw [e, h2]

lemma unitAt_row (g : FieldT) (a : Dir) (j : Fin n) : (unitAt ((3 * g.idx + a.val) * n + j.val) : State (Fin n) K) =
    fun f d i => if f = g ∧ d = a ∧ i = j then 1 else 0 := by
  funext f d i
  unfold unitAt
  by_cases h : f = g ∧ d = a ∧ i = j
  · obtain ⟨rfl, rfl, rfl⟩ := h
    simp
  · rw [if_neg h, if_neg]
    intro he
    have h1 := idx_eq i.isLt j.isLt he
    have h2 := comp_eq h1
    rw [h1] at he
    exact h ⟨h2.1, h2.2, Fin.ext (by omega)⟩

lemma sum_filter_eq {α : Type} (l : List α) (p : α → Bool) (g : α → K) (h : ∀ e ∈ l, p e = false → g e = 0) :
    ((l.filter p).map g).sum = (l.map g).sum := by
  induction l with
  | nil => rfl
  | cons a l ih =>
    have ih := ih fun e he => h e (List.mem_cons_of_mem _ he)
    cases hp : p a with
    | true => rw [List.filter_cons_of_pos hp, List.map_cons, List.sum_cons, ih, List.map_cons, List.sum_cons]
    | false => rw [List.filter_cons_of_neg (by simp [hp]), ih, List.map_cons, List.sum_cons, h a (by simp) hp, zero_add]

/-- **C193**: the rates are those of the problem if no entry of the operator is small without being zero. -/
theorem C193_exact (P : Prob (Fin n) K) (store : GBlock (Fin n) K → List (List (Int × K)))
    (hst : ∀ b ∈ globalBlocks P, Represents b.mat (store b)) (junkJ : Int) (junkA : K)
    (hbig : ∀ (g : FieldT) (e : Dir) (j : Fin n) (f : FieldT) (d : Dir) (i : Fin n),
      let a := globalMult P (fun f' d' i' => if f' = g ∧ d' = e ∧ i' = j then 1 else 0) f d i
      a = 0 ∨ 1 / 10 ^ 20 < |a|) :
    ∃ A, builtOperator junkJ junkA ((globalBlocks P).map fun b => place n b (store b)) (6 * n) (6 * n) = some A ∧
      ∀ (x : Int → K) (u : State (Fin n) K), Holds n x u → ∀ f d (i : Fin n),
        csrMul A x ((3 * f.idx + d.val) * n + i.val) = globalMult P u f d i := by
  obtain ⟨m, hm, hw, hact⟩ := built P store hst junkJ junkA
  refine ⟨_, hm, fun x u hx f d i => ?_⟩
  rw [← hact x u hx f d i]
  unfold csrMul
  rw [threshold_row _ _ _ (row_lt f d i)]
  refine sum_filter_eq _ _ _ fun e he hd => ?_
  have hc := rows_nonneg hw _ e he
  have h1 := entry_eq (hw.no_dup _ (row_lt f d i)) he
  have h2 := hact _ _ (unitAt_holds e.1.toNat) f d i
  rw [Int.toNat_of_nonneg hc.1] at h2
  unfold csrMul at h2
  rw [h1] at h2
  obtain ⟨g, a, j, hj⟩ := row_surj (n := n) (c := e.1.toNat) (by omega)
  rw [← hj, unitAt_row] at h2
  have h3 := hbig g a j f d i
  rw [← h2] at h3
  rw [decide_eq_false_iff_not] at hd
  rw [h3.resolve_right hd, zero_mul]

/-- **C193** is violated: the entries are compared with a fixed number, although they scale with the unit of length (C172).  Every
problem has a size of the unit below which the whole operator is dropped, so that no field ever changes. -/
theorem C193_violated (P : Prob (Fin n) K) (hn : ∀ f ∈ allFaces P, ∀ p ∈ f.pts, p.nor.length = P.dim) :
    ∃ s0, 0 < s0 ∧ ∀ s, s0 ≤ s → ∀ (store : GBlock (Fin n) K → List (List (Int × K))),
      (∀ b ∈ globalBlocks (scaledProb s P), Represents b.mat (store b)) → ∀ (junkJ : Int) (junkA : K),
      ∃ A, builtOperator junkJ junkA ((globalBlocks (scaledProb s P)).map fun b => place n b (store b)) (6 * n) (6 * n) = some A ∧
        (∀ (x : Int → K) (f : FieldT) (d : Dir) (i : Fin n), csrMul A x ((3 * f.idx + d.val) * n + i.val) = 0) ∧
        ∀ u, globalMult (scaledProb s P) u = s⁻¹ • globalMult P u := by
  obtain ⟨B, hB⟩ : ∃ B, B = ∑ c ∈ Finset.range (6 * n), magnitude (globalMult P (unitAt c)) := ⟨_, rfl⟩
  have hB0 : 0 ≤ B := by rw [hB]; exact Finset.sum_nonneg fun c _ => magnitude_nonneg _
  have hle : ∀ c < 6 * n, ∀ f d i, |globalMult P (unitAt c) f d i| ≤ B := by
    intro c hc f d i
    rw [hB]
    exact (abs_le_magnitude _ f d i).trans (Finset.single_le_sum (f := fun c => magnitude (globalMult P (unitAt c)))
      (fun c _ => magnitude_nonneg _) (Finset.mem_range.2 hc))
  refine ⟨10 ^ 20 * (B + 1), by positivity, ?_⟩
  intro s hs store hst junkJ junkA
  have hs0 : 0 < s := lt_of_lt_of_le (by positivity) hs
  have hop := Scale.C172_operator hs0.ne' P hn
  obtain ⟨m, hm, hw, hact⟩ := built (scaledProb s P) store hst junkJ junkA
  refine ⟨_, hm, ?_, hop⟩
  intro x f d i
  unfold csrMul
  rw [threshold_row _ _ _ (row_lt f d i), List.filter_eq_nil_iff.2]
  · rfl
  · intro e he
    have hc := rows_nonneg hw _ e he
    have h1 := entry_eq (hw.no_dup _ (row_lt f d i)) he
    have h2 := hact _ _ (unitAt_holds e.1.toNat) f d i
    rw [Int.toNat_of_nonneg hc.1] at h2
    unfold csrMul at h2
    rw [h1, hop] at h2
    have h3 := hle e.1.toNat (by omega) f d i
    rw [decide_eq_true_eq, not_lt, h2]
    show |s⁻¹ * globalMult P (unitAt e.1.toNat) f d i| ≤ _
    rw [abs_mul, abs_of_pos (inv_pos.2 hs0), inv_mul_eq_div, div_le_div_iff₀ hs0 (by positivity)]
    nlinarith [pow_pos (show (0 : K) < 10 by norm_num) 20]

end

/-- The operator is the one that is exported. -/
theorem built_exported (junkJ : Int) (junkA : ℚ) (blocks : List (Placement ℚ)) (rows cols ranks : Nat) (wanted : Bool) :
    (buildGlobal junkJ junkA blocks rows cols ranks wanted).map Prod.fst = builtOperator junkJ junkA blocks rows cols := by
  unfold buildGlobal builtOperator
  cases merge junkJ junkA blocks rows cols <;> rfl

section witness
open Dgtd.Spectral

/-- The hypotheses hold for the tiny element with absorbing faces, whose entries are zero or large; in the unit `1e27` times smaller the
rate of its fields is less than `1e-20`. -/
example : (∀ b ∈ globalBlocks tiny, Represents b.mat (tinyStore b)) ∧
    (∀ f ∈ allFaces tiny, ∀ p ∈ f.pts, p.nor.length = tiny.dim) ∧
    (∀ (g : FieldT) (e : Dir) (j : Fin 1) (f : FieldT) (d : Dir) (i : Fin 1),
      let a := globalMult tiny (fun f' d' i' => if f' = g ∧ d' = e ∧ i' = j then 1 else 0) f d i
      a = 0 ∨ 1 / 10 ^ 20 < |a|) ∧ globalMult tiny oneU .E 1 0 = -1234567 :=
  ⟨fun b _ => tinyStore_represents b, by decide +kernel, by
    intro g e j f d i
    cases g <;> cases f <;> revert e j d i <;> decide +kernel, by decide +kernel⟩

/-- The operator of the tiny element in a unit of length `1e27` times smaller. -/
def tinyBuilt : Option (CSR ℚ) :=
  builtOperator 0 0 ((globalBlocks (scaledProb (10 ^ 27) tiny)).map fun b => place 1 b (tinyStore b)) 6 6

/-- It has no entries, although the fields change. -/
example : tinyBuilt.map (fun A => A.ca) = some [] ∧ globalMult (scaledProb (10 ^ 27) tiny) oneU .E 1 0 = -1234567 / 10 ^ 27 := by
  decide +kernel

end witness

end Dgtd.Drop
