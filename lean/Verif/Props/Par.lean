/-
Running on several ranks (C124, C125).
-/
import Verif.Lemmas.ParCsr
import Verif.Props.Energy
import Verif.Model.TimeInt

set_option linter.unusedSectionVars false
set_option linter.unusedSimpArgs false

namespace Dgtd.Par

open Dgtd.Op Dgtd.Op.Spec Spec Csr Csr.Spec

variable {ι K : Type} [Fintype ι] [DecidableEq ι] [Field K] [LinearOrder K]
variable {R : Type} [DecidableEq R] {N G : R → Nat} {P : Prob ι K} {Q : (r : R) → RankProb (N r) (G r) K}
  {src : (r : R) → Fin (G r) → (q : R) × Fin (N q)} {num : (r : R) → Fin (N r + G r) → ι} {side1 side2 : Face ι K → R}

/-- C124: with the global operator, exchange and product on the ranks give every rank its part of the product of the
whole problem. -/
theorem C124_global_partial (S : Split P Q src num side1 side2) (u : State ι K) :
    globalPar Q src (scatter num u) = scatter num (globalMult P u) := by
  funext r f d k
  unfold globalPar globalMult
  rw [S.ghosts u r]
  exact apply_agree (S.blocks r) u f d k

/-- C124: with the component-wise operator too. -/
theorem C124_maxwell_partial (S : Split P Q src num side1 side2) (u : State ι K) :
    maxwellPar Q src (scatter num u) = scatter num (maxwellMult P u) := by
  have hw : ∀ r, (fun f d => fluxVector (scatter (G := G) num u r f d) (exchange src (scatter num u) r f d)) =
      fun f d c => u f d (num r c) := fun r => S.ghosts u r
  have hib : ∀ r, (Q r).intBdr = hasIntBdr P := S.intBdr
  have m1 : ∀ r (f : FieldT) d (x : ι → K) k, (MS (Q r).local f d).mulVec (fun c => x (num r (Fin.castAdd _ c))) k =
      (MS P f d).mulVec x (num r (Fin.castAdd _ k)) := by
    intro r f d x k
    have := S.minv_agree r f (S.der_agree r d) x k
    rw [← widen_mul, widen_mulVec] at this
    exact this
  have w0 : ∀ r (f : FieldT) (x : ι → K) k, (MPB (Q r).local f).mulVec (firstPart fun c => x (num r c)) k =
      (MPB P f).mulVec x (num r (Fin.castAdd _ k)) := by
    intro r f x k
    have := S.minv_agree r f (S.zeroW_agree r f) x k
    rw [← widen_mul, widen_mulVec] at this
    exact this
  have w1 : ∀ r (f f2 : FieldT) d (x : ι → K) k, (MFNB (Q r).local f f2 d).mulVec (firstPart fun c => x (num r c)) k =
      (MFNB P f f2 d).mulVec x (num r (Fin.castAdd _ k)) := by
    intro r f f2 d x k
    have := S.minv_agree r f (S.oneW_agree r f2 d) x k
    rw [← widen_mul, widen_mulVec] at this
    exact this
  have w2 : ∀ r (f f2 : FieldT) d d2 (x : ι → K) k,
      (MFNNB (Q r).local f f2 d d2).mulVec (firstPart fun c => x (num r c)) k =
      (MFNNB P f f2 d d2).mulVec x (num r (Fin.castAdd _ k)) := by
    intro r f f2 d d2 x k
    have := S.minv_agree r f (S.twoW_agree r f2 d d2) x k
    rw [← widen_mul, widen_mulVec] at this
    exact this
  have p0 := fun r (f : FieldT) => S.minv_agree r f (S.zero_agree r f)
  have p1 := fun r (f f2 : FieldT) d => S.minv_agree r f (S.one_agree r f2 d)
  have p2 := fun r (f f2 : FieldT) d d2 => S.minv_agree r f (S.two_agree r f2 d d2)
  funext r f d k
  unfold maxwellPar
  simp only [hw r]
  cases f
  · show eNewPar (Q r) _ _ d k = eNew P u d _
    unfold eNewPar eNew
    simp only [hib r]
    split_ifs
    · simp only [addMult, addMultPar, Pi.add_apply, Pi.smul_apply, Pi.zero_apply, p0 r _ _ k, p1 r _ _ _ _ k, p2 r _ _ _ _ _ k,
        w0, w1, w2]
      unfold scatter
      simp only [m1]
      rfl
    · simp only [addMult, addMultPar, Pi.add_apply, Pi.smul_apply, Pi.zero_apply, p0 r _ _ k, p1 r _ _ _ _ k, p2 r _ _ _ _ _ k]
      unfold scatter
      simp only [m1]
      rfl
  · show hNewPar (Q r) _ _ d k = hNew P u d _
    unfold hNewPar hNew
    simp only [hib r]
    split_ifs
    · simp only [addMult, addMultPar, Pi.add_apply, Pi.smul_apply, Pi.zero_apply, p0 r _ _ k, p1 r _ _ _ _ k, p2 r _ _ _ _ _ k,
        w0, w1, w2]
      unfold scatter
      simp only [m1]
      rfl
    · simp only [addMult, addMultPar, Pi.add_apply, Pi.smul_apply, Pi.zero_apply, p0 r _ _ k, p1 r _ _ _ _ k, p2 r _ _ _ _ _ k]
      unfold scatter
      simp only [m1]
      rfl

/-- C124: the stored matrix of a rank, applied to the work vector it fills, whatever that vector held before, gives the
rank's part of the product of the whole problem. -/
theorem C124_stored_partial (S : Split P Q src num side1 side2) (r : R)
    (store : RBlock (Fin (N r)) (Fin (N r + G r)) K → List (List (Int × K)))
    (hst : ∀ b ∈ rankBlocks (Q r), Represents b.mat (store b)) (junkJ : Int) (junkA : K) :
    ∃ m, merge junkJ junkA ((rankBlocks (Q r)).map fun b => placePar (N r) (G r) b (store b)) (6 * N r) (6 * (N r + G r)) =
        some m ∧
      ∀ (u : State ι K) (x w : Int → K) (eNbr hNbr : Dir → Nat → K),
        Holds (N r) x (scatter num u r) →
        (∀ d (j : Fin (G r)), eNbr d j = u .E d (num r (Fin.natAdd _ j)) ∧ hNbr d j = u .H d (num r (Fin.natAdd _ j))) →
        ∀ f d (i : Fin (N r)), csrMul m (workVector (N r) (G r) x eNbr hNbr w) ((3 * f.idx + d.val) * N r + i.val) =
          globalMult P u f d (num r (Fin.castAdd _ i)) := by
  obtain ⟨m, hm, ha⟩ := csrPar_acts (rankBlocks (Q r)) store hst junkJ junkA
  refine ⟨m, hm, ?_⟩
  intro u x w eNbr hNbr hx hn f d i
  have hh := workVector_holds x _ (exchange src (scatter num u) r) hx eNbr hNbr
    (by intro d j; rw [(hn d j).1]; simp [exchange, scatter, S.ghost])
    (by intro d j; rw [(hn d j).2]; simp [exchange, scatter, S.ghost]) w
  rw [S.ghosts u r] at hh
  rw [ha _ _ hh]
  exact apply_agree (S.blocks r) u f d i

/-- C124: whatever the ranks hold are the parts of exactly one state of the whole problem. -/
theorem C124_gather_partial (S : Split P Q src num side1 side2) (v : PState N K) : ∃! u : State ι K, scatter (G := G) num u = v := by
  choose own h1 h2 using S.owned
  refine ⟨fun f d i => v (own i).1 f d (own i).2, ?_, ?_⟩
  · funext r f d k
    unfold scatter
    have := h2 (num r (Fin.castAdd _ k)) ⟨r, k⟩ rfl
    simp only
    rw [← this]
  · rintro u rfl
    funext f d i
    simp only [scatter]
    rw [h1 i]

/-! ### runs -/

open TimeInt

lemma rk4_map {V W T : Type} [AddCommGroup V] [Module ℝ V] [AddCommGroup W] [Module ℝ W] (L : V →ₗ[ℝ] W) {F : Tdo V T}
    {F' : Tdo W T} (h : ∀ t x, F'.mult t (L x) = L (F.mult t x)) (x : V) (t dt : ℝ) :
    rk4 F' (L x) t dt = (L (rk4 F x t dt).1, (rk4 F x t dt).2) := by
  unfold rk4
  simp only [h, map_add, map_smul, ← map_add, ← map_smul]

lemma run_map {V W T : Type} [AddCommGroup V] [Module ℝ V] [AddCommGroup W] [Module ℝ W] (q : Implicit.Sdirk ℝ) (L : V →ₗ[ℝ] W)
    {F : Tdo V T} {F' : Tdo W T} (h : ∀ t x, F'.mult t (L x) = L (F.mult t x)) (dts : List ℝ) (x : V) (t : ℝ) (s : T) :
    run q .rk4 F' dts (L x) t s = (run q .rk4 F dts x t s).map fun y => (L y.1, y.2) := by
  induction dts generalizing x t with
  | nil => rfl
  | cons dt rest ih =>
    simp only [run, step, rk4_map L h, Option.bind_eq_bind, Option.bind_some, ih]

/-- Handing out is linear. -/
def scatterL (num : (r : R) → Fin (N r + G r) → ι) : State ι ℝ →ₗ[ℝ] PState N ℝ where
  toFun := scatter num
  map_add' := fun _ _ => rfl
  map_smul' := fun _ _ => rfl

section
variable {P : Prob ι ℝ} {Q : (r : R) → RankProb (N r) (G r) ℝ} {side1 side2 : Face ι ℝ → R}

/-- C125: a run of any number of explicit steps on the ranks, each adding its part of the source contributions, gives
every rank its part of the fields of the run of the whole problem, at the same times. -/
theorem C125_run_partial (S : Split P Q src num side1 side2) {T : Type} (q : Implicit.Sdirk ℝ) (f : ℝ → State ι ℝ) (dts : List ℝ)
    (u : State ι ℝ) (t : ℝ) (s : T) :
    run q .rk4 (explicitTdo fun t v => globalPar Q src v + scatter num (f t)) dts (scatter num u) t s =
      (run q .rk4 (explicitTdo fun t u => globalMult P u + f t) dts u t s).map fun y => (scatter num y.1, y.2) := by
  refine run_map q (scatterL num) ?_ dts u t s
  intro t x
  show globalPar Q src (scatter num x) + scatter num (f t) = scatter num (globalMult P x + f t)
  rw [C124_global_partial S]
  rfl

/-- C125: the same with the component-wise operator. -/
theorem C125_run_maxwell_partial (S : Split P Q src num side1 side2) {T : Type} (q : Implicit.Sdirk ℝ) (f : ℝ → State ι ℝ)
    (dts : List ℝ) (u : State ι ℝ) (t : ℝ) (s : T) :
    run q .rk4 (explicitTdo fun t v => maxwellPar Q src v + scatter num (f t)) dts (scatter num u) t s =
      (run q .rk4 (explicitTdo fun t u => maxwellMult P u + f t) dts u t s).map fun y => (scatter num y.1, y.2) := by
  refine run_map q (scatterL num) ?_ dts u t s
  intro t x
  show maxwellPar Q src (scatter num x) + scatter num (f t) = scatter num (maxwellMult P x + f t)
  rw [C124_maxwell_partial S]
  rfl

end

/-! ### the two elements of the example, one on each of two ranks -/

section example1

/-- Both ranks have two degrees of freedom of their own and two of the neighbour. -/
def exNum (r : Fin 2) (k : Fin (2 + 2)) : Fin 4 := if r = 0 then k else ![2, 3, 0, 1] k

/-- Neighbour value `j` is the other rank's value `j`. -/
def exSrc (r : Fin 2) (j : Fin 2) : (_ : Fin 2) × Fin 2 := ⟨1 - r, j⟩

def exMinv2 : Matrix (Fin 2) (Fin 2) ℚ := !![4, -2; -2, 4]
def exD2 : Matrix (Fin 2) (Fin 2) ℚ := !![-1/2, 1/2; -1/2, 1/2]

def exRank (alpha : ℚ) (left right : BdrCond) (r : Fin 2) : RankProb 2 2 ℚ :=
  { dim := 1
    alpha := alpha
    intBdr := false
    interior := []
    shared := [{ ndof1 := 2, ndof2 := 2, dofs := fun i => if h : i < 4 then ⟨i, h⟩ else 0,
                 pts := [if r = 0 then exPt 1 0 1 1 0 else exPt (-1) 1 0 0 1] }]
    bdr := if r = 0 then [(some left, { ndof1 := 2, ndof2 := 0, dofs := fun i => if i = 0 then 0 else 1,
                                        pts := [exPt (-1) 1 0 0 0] })]
      else [(some right, { ndof1 := 2, ndof2 := 0, dofs := fun i => if i = 0 then 0 else 1, pts := [exPt 1 0 1 0 0] })]
    Minv := fun _ => exMinv2
    Msig := 0
    D := fun _ => exD2 }

/-- Rank 0 has the left element. -/
def exSide1 (F : Face (Fin 4) ℚ) : Fin 2 := if F.dofs 0 = 0 then 0 else 1
def exSide2 (_ : Face (Fin 4) ℚ) : Fin 2 := 1

lemma exSplit (alpha : ℚ) (left right : BdrCond) :
    Split (exProb alpha left right) (exRank alpha left right) exSrc exNum exSide1 exSide2 where
  owned := by
    intro i
    refine ⟨if i.val < 2 then ⟨0, ⟨i.val % 2, by omega⟩⟩ else ⟨1, ⟨i.val % 2, by omega⟩⟩, ?_, ?_⟩
    · revert i; decide
    · rintro ⟨r, k⟩
      revert i r k
      decide
  ghost := by decide
  ghost_other := by decide
  dim := fun _ => rfl
  alpha := fun _ => rfl
  intBdr := fun _ => rfl
  first := by
    intro q hq i hi
    simp only [exProb, List.cons_append, List.nil_append, List.mem_cons, List.not_mem_nil, or_false] at hq
    rcases hq with rfl | rfl | rfl <;> revert i <;> simp only [exInt, exL, exR] <;> decide
  second := by
    intro q hq i hi
    simp only [exProb, List.mem_cons, List.not_mem_nil, or_false] at hq
    subst hq
    revert i
    simp only [exInt]
    decide
  one_side := by
    intro q hq
    simp only [exProb, List.mem_cons, List.not_mem_nil, or_false] at hq
    rcases hq with rfl | rfl <;> rfl
  uncut := by
    intro q hq
    simp only [exProb, List.mem_cons, List.not_mem_nil, or_false] at hq
    subst hq
    simp
  interior := by
    intro r
    refine ⟨[], .refl _, ?_⟩
    have hr : r = 0 ∨ r = 1 := by omega
    rcases hr with rfl | rfl <;> exact List.Forall₂.nil
  shared1 := by
    intro r
    refine ⟨_, .refl _, ?_⟩
    have hr : r = 0 ∨ r = 1 := by omega
    rcases hr with rfl | rfl
    · refine List.Forall₂.cons ?_ .nil
      exact ⟨rfl, rfl, by simp only [exInt]; decide, .refl _⟩
    · refine List.Forall₂.cons ?_ .nil
      refine ⟨rfl, rfl, by simp only [exInt]; decide, ?_⟩
      refine List.Perm.of_eq ?_
      show [_] = [_]
      simp [exPt, exInt, flipPt]
  bdr := by
    intro r
    refine ⟨_, .refl _, ?_⟩
    have hr : r = 0 ∨ r = 1 := by omega
    rcases hr with rfl | rfl
    · exact List.Forall₂.cons ⟨rfl, rfl, rfl, by simp only [exL]; decide, .refl _⟩ .nil
    · exact List.Forall₂.cons ⟨rfl, rfl, rfl, by simp only [exR]; decide, .refl _⟩ .nil
  Minv := by
    intro r f k k'
    have h : ∀ r k k' : Fin 2, exMinv2 k k' = exMinv (exNum r (Fin.castAdd 2 k)) (exNum r (Fin.castAdd 2 k')) := by
      simp only [Fin.forall_fin_two]
      refine ⟨⟨⟨?_, ?_⟩, ?_, ?_⟩, ⟨?_, ?_⟩, ?_, ?_⟩ <;> rfl
    exact h r k k'
  Msig := by intro r k k'; rfl
  D := by
    intro r d k k'
    have h : ∀ r k k' : Fin 2, exD2 k k' =
        exD (exNum r (Fin.castAdd 2 k)) (exNum r (Fin.castAdd 2 k')) := by
      simp only [Fin.forall_fin_two]
      refine ⟨⟨⟨?_, ?_⟩, ?_, ?_⟩, ⟨?_, ?_⟩, ?_, ?_⟩ <;> rfl
    exact h r k k'
  apart := by
    intro r k i hi f d
    have h : ∀ (r k : Fin 2) (i : Fin 4), (∀ k' : Fin 2, exNum r (Fin.castAdd 2 k') ≠ i) →
        exMinv (exNum r (Fin.castAdd 2 k)) i = 0 ∧ exD (exNum r (Fin.castAdd 2 k)) i = 0 := by
      decide +kernel
    exact ⟨(h r k i hi).1, rfl, (h r k i hi).2⟩

example : globalPar (exRank 1 .PEC .SMA) exSrc (scatter (N := fun _ => 2) (G := fun _ => 2) exNum exU) =
    scatter exNum (globalMult (exProb 1 .PEC .SMA) exU) := C124_global_partial (exSplit 1 .PEC .SMA) exU

example : maxwellPar (exRank 1 .PEC .SMA) exSrc (scatter (N := fun _ => 2) (G := fun _ => 2) exNum exU) =
    scatter exNum (maxwellMult (exProb 1 .PEC .SMA) exU) := C124_maxwell_partial (exSplit 1 .PEC .SMA) exU

/-- The product is not zero, and the rank of the right element needs the value of the left one. -/
example : globalMult (exProb 1 .PEC .SMA) exU .E 1 2 ≠ 0 ∧
    globalMult (exProb 1 .PEC .SMA) exU .E 1 2 ≠
      globalMult (exProb 1 .PEC .SMA) (fun f d i => if i.val < 2 then 0 else exU f d i) .E 1 2 := by decide +kernel

/-- A field on the far side of the right element. -/
def exFar : State (Fin 4) ℚ
  | .E, d => if d = 1 then ![0, 0, 0, 1] else 0
  | .H, _ => 0

/-- C126 is violated: with the fields of `exFar`, whatever the time step, rank 0 leaves the linear solver after one
product while rank 1, which receives values from rank 0 in every product, makes another one. -/
theorem C126_violated (dt : ℚ) :
    let v : PState (fun _ : Fin 2 => 2) ℚ := scatter (G := fun _ => 2) exNum exFar
    ¬ anotherProduct (exRank 1 .PEC .SMA) exSrc dt v 0 0 ∧ anotherProduct (exRank 1 .PEC .SMA) exSrc dt v 0 1 ∧
      ∀ j, (exSrc 1 j).1 = 0 := by
  have S := exSplit 1 .PEC .SMA
  have h0 : globalPar (exRank 1 .PEC .SMA) exSrc (0 : PState (fun _ : Fin 2 => 2) ℚ) = 0 := by
    have e := C124_global_partial S 0
    rw [show globalMult (exProb 1 .PEC .SMA) 0 = 0 by
      have h : ∀ f (d : Dir) (i : Fin 4), globalMult (exProb 1 .PEC .SMA) 0 f d i = 0 := by
        intro f
        cases f <;> decide +kernel
      funext f d i
      exact h f d i] at e
    exact e
  have hx := C124_global_partial S exFar
  have hz : ∀ f d (i : Fin 2), globalMult (exProb 1 .PEC .SMA) exFar f d (exNum 0 (Fin.castAdd 2 i)) = 0 := by
    intro f
    cases f <;> decide +kernel
  have hn : globalMult (exProb 1 .PEC .SMA) exFar .E 1 (exNum 1 (Fin.castAdd 2 1)) ≠ 0 := by decide +kernel
  refine ⟨?_, ⟨.E, 1, 1, ?_⟩, by decide⟩
  · rintro ⟨f, d, i, h⟩
    apply h
    unfold implicitRhs applyJ
    rw [hx, h0]
    simp only [scatter, Pi.zero_apply, mul_zero, sub_zero]
    exact hz f d i
  · unfold implicitRhs applyJ
    rw [hx, h0]
    simp only [scatter, Pi.zero_apply, mul_zero, sub_zero]
    exact hn

end example1

end Dgtd.Par
