/-
C61 for the remaining face integrators.
-/
import Verif.Model.FaceKinds
import Verif.Props.Integrators

namespace Dgtd.Op

open Spec

section
variable {ι K : Type} [Fintype ι] [DecidableEq ι] [Field K] [LinearOrder K]

lemma fbil_decoupled0 (beta : K) (f : Face ι K) (v u : ι → K) :
    fbil f (decoupled0 beta f) v u = (f.pts.map fun p => p.w * beta * (1 / 2) * p.W * (tr1 f p v * tr1 f p u + tr2 f p v * tr2 f p u)).sum := by
  unfold decoupled0
  rw [fbil_fold f v u _ _ _ _ _, fbil_nil, zero_add]
  intro m p
  unfold decoupled0Pt
  simp only
  by_cases hw : p.w * beta * (1 / 2) * p.W = 0
  · rw [if_neg (not_not.mpr hw), hw]; simp
  · rw [if_pos hw]
    by_cases hn : f.ndof2 = 0
    · rw [if_neg (not_not.mpr hn), fbil_TL, tr2_zero f p v hn, tr2_zero f p u hn]; ring
    · rw [if_pos hn, fbil_BR, fbil_TL]; ring

lemma fbil_decoupled1 (d : Dir) (beta : K) (f : Face ι K) (v u : ι → K) :
    fbil f (decoupled1 d beta f) v u =
      (f.pts.map fun p => p.w * (beta * normalTerm p.nor d) * (1 / 2) * (tr1 f p v * tr1 f p u - tr2 f p v * tr2 f p u)).sum := by
  unfold decoupled1
  rw [fbil_fold f v u _ _ _ _ _, fbil_nil, zero_add]
  intro m p
  unfold decoupled1Pt
  simp only
  by_cases hw : p.w * (beta * normalTerm p.nor d) * (1 / 2) = 0
  · rw [if_neg (not_not.mpr hw), hw]; simp
  · rw [if_pos hw]
    by_cases hn : f.ndof2 = 0
    · rw [if_neg (not_not.mpr hn), fbil_TL, tr2_zero f p v hn, tr2_zero f p u hn]; ring
    · rw [if_pos hn, fbil_BR, fbil_TL]; ring

lemma fbil_decoupled2 (d d2 : Dir) (beta : K) (f : Face ι K) (v u : ι → K) :
    fbil f (decoupled2 d d2 beta f) v u = (f.pts.map fun p =>
      p.w * (beta * normalTerm p.nor d * normalTerm p.nor d2) * (1 / 2) / p.W * (tr1 f p v * tr1 f p u + tr2 f p v * tr2 f p u)).sum := by
  unfold decoupled2
  rw [fbil_fold f v u _ _ _ _ _, fbil_nil, zero_add]
  intro m p
  unfold decoupled2Pt
  simp only
  by_cases hw : p.w * (beta * normalTerm p.nor d * normalTerm p.nor d2) * (1 / 2) / p.W = 0
  · rw [if_neg (not_not.mpr hw), hw]; simp
  · rw [if_pos hw]
    by_cases hn : f.ndof2 = 0
    · rw [if_neg (not_not.mpr hn), fbil_TL, tr2_zero f p v hn, tr2_zero f p u hn]; ring
    · rw [if_pos hn, fbil_BR, fbil_TL]; ring

/-- **C61**, decoupled integrators: each side only sees itself, with all quadrature points; the normal is outward on each side. -/
theorem C61_decoupled (d d2 : Dir) (beta : K) (f : Face ι K) (i j : Nat) (hi : i < f.ndof1 + f.ndof2) (hj : j < f.ndof1 + f.ndof2) :
    decoupled0 beta f i j = quad f (fun p => p.w * p.W * (beta / 2) * sameSide f i j * shp f p i * shp f p j) ∧
    decoupled1 d beta f i j = quad f (fun p =>
      p.w * (side f i * normalTerm p.nor d) * (beta / 2) * sameSide f i j * shp f p i * shp f p j) ∧
    decoupled2 d d2 beta f i j = quad f (fun p =>
      p.w * normalTerm p.nor d * normalTerm p.nor d2 / p.W * (beta / 2) * sameSide f i j * shp f p i * shp f p j) := by
  refine ⟨?_, ?_, ?_⟩
  · rw [entry_eq f rfl (decoupled0 beta f) hi hj,
      show decoupled0 beta f = decoupled0 beta (localFace f (f.ndof1 + f.ndof2) (by omega)) from rfl, fbil_decoupled0]
    unfold quad
    congr 1
    apply List.map_congr_left
    intro p _
    have := own_eq f rfl p hi hj 1
    simp only [ite_self, one_mul] at this
    linear_combination (p.w * p.W * (beta / 2)) * this
  · rw [entry_eq f rfl (decoupled1 d beta f) hi hj,
      show decoupled1 d beta f = decoupled1 d beta (localFace f (f.ndof1 + f.ndof2) (by omega)) from rfl, fbil_decoupled1]
    unfold quad
    congr 1
    apply List.map_congr_left
    intro p _
    have := own_eq f rfl p hi hj (-1)
    unfold side
    linear_combination (p.w * normalTerm p.nor d * (beta / 2)) * this
  · rw [entry_eq f rfl (decoupled2 d d2 beta f) hi hj,
      show decoupled2 d d2 beta f = decoupled2 d d2 beta (localFace f (f.ndof1 + f.ndof2) (by omega)) from rfl, fbil_decoupled2]
    unfold quad
    congr 1
    apply List.map_congr_left
    intro p _
    have := own_eq f rfl p hi hj 1
    simp only [ite_self, one_mul] at this
    linear_combination (p.w * normalTerm p.nor d * normalTerm p.nor d2 / p.W * (beta / 2)) * this

lemma fbil_sma (dirs : List Dir) (c : Pt K → K) (beta : K) (f : Face ι K) (v u : ι → K)
    (hc : ∀ p, c p = match dirs with
      | [] => p.w * beta * (1 / 2) * p.W
      | [d] => p.w * (beta * normalTerm p.nor d) * (1 / 2)
      | d :: d2 :: _ => p.w * (beta * normalTerm p.nor d * normalTerm p.nor d2) * (1 / 2) / p.W) :
    fbil f (smaJump dirs beta f) v u = (f.pts.map fun p => c p * (tr1 f p v * tr1 f p u)).sum := by
  unfold smaJump
  rw [fbil_fold f v u _ _ _ _ _, fbil_nil, zero_add]
  intro m p
  rw [hc]
  unfold smaJumpPt
  match dirs with
  | [] =>
    have hb : betaTerm p.nor [] beta = beta := rfl
    dsimp only
    by_cases hw : p.w * betaTerm p.nor [] beta * (1 / 2) = 0
    · rw [if_neg (not_not.mpr hw), ← hb, hw]; simp
    · rw [if_pos hw, fbil_TL, hb]; ring
  | [d] =>
    have hb : betaTerm p.nor [d] beta = beta * normalTerm p.nor d := rfl
    dsimp only
    by_cases hw : p.w * betaTerm p.nor [d] beta * (1 / 2) = 0
    · rw [if_neg (not_not.mpr hw), ← hb, hw]; simp
    · rw [if_pos hw, fbil_TL, hb]; ring
  | d :: d2 :: ds =>
    have hb : betaTerm p.nor (d :: d2 :: ds) beta = beta * normalTerm p.nor d * normalTerm p.nor d2 := rfl
    dsimp only
    by_cases hw : p.w * betaTerm p.nor (d :: d2 :: ds) beta * (1 / 2) = 0
    · rw [if_neg (not_not.mpr hw), ← hb, hw]; simp
    · rw [if_pos hw, fbil_TL, hb]; ring

lemma first_eq (f : Face ι K) {N : Nat} (hN : N = f.ndof1 + f.ndof2) (p : Pt K) {i j : Nat} (hi : i < N) (hj : j < N) :
    tr1 (localFace f N (by omega)) p (Pi.single ⟨i, hi⟩ 1) * tr1 (localFace f N (by omega)) p (Pi.single ⟨j, hj⟩ 1) =
      if i < f.ndof1 ∧ j < f.ndof1 then shp f p i * shp f p j else 0 := by
  rw [tr1_single f hN p hi, tr1_single f hN p hj]
  unfold shp
  by_cases h1 : i < f.ndof1 <;> by_cases h2 : j < f.ndof1 <;> simp [h1, h2]

/-- **C61**, absorbing integrator: all quadrature points, and only the first side. -/
theorem C61_sma (d d2 : Dir) (beta : K) (f : Face ι K) (i j : Nat) (hi : i < f.ndof1 + f.ndof2) (hj : j < f.ndof1 + f.ndof2) :
    smaJump [] beta f i j = quad f (fun p =>
      p.w * p.W * (beta / 2) * if i < f.ndof1 ∧ j < f.ndof1 then shp f p i * shp f p j else 0) ∧
    smaJump [d] beta f i j = quad f (fun p =>
      p.w * normalTerm p.nor d * (beta / 2) * if i < f.ndof1 ∧ j < f.ndof1 then shp f p i * shp f p j else 0) ∧
    smaJump [d, d2] beta f i j = quad f (fun p =>
      p.w * normalTerm p.nor d * normalTerm p.nor d2 / p.W * (beta / 2) *
        if i < f.ndof1 ∧ j < f.ndof1 then shp f p i * shp f p j else 0) := by
  refine ⟨?_, ?_, ?_⟩
  · rw [entry_eq f rfl (smaJump [] beta f) hi hj,
      show smaJump [] beta f = smaJump [] beta (localFace f (f.ndof1 + f.ndof2) (by omega)) from rfl, fbil_sma [] _ _ _ _ _ fun _ => rfl]
    unfold quad
    congr 1
    apply List.map_congr_left
    intro p _
    rw [← first_eq f rfl p hi hj]; ring
  · rw [entry_eq f rfl (smaJump [d] beta f) hi hj,
      show smaJump [d] beta f = smaJump [d] beta (localFace f (f.ndof1 + f.ndof2) (by omega)) from rfl, fbil_sma [d] _ _ _ _ _ fun _ => rfl]
    unfold quad
    congr 1
    apply List.map_congr_left
    intro p _
    rw [← first_eq f rfl p hi hj]; ring
  · rw [entry_eq f rfl (smaJump [d, d2] beta f) hi hj,
      show smaJump [d, d2] beta f = smaJump [d, d2] beta (localFace f (f.ndof1 + f.ndof2) (by omega)) from rfl,
      fbil_sma [d, d2] _ _ _ _ _ fun _ => rfl]
    unfold quad
    congr 1
    apply List.map_congr_left
    intro p _
    rw [← first_eq f rfl p hi hj]; ring

/-- **C61**, total-field integrator with one normal: `½ β ∫ n_d φ_i φ_j` with all quadrature points, the normal being outward on the side of
the test function. -/
theorem C61_totalNormal (d : Dir) (beta : K) (f : Face ι K) (i j : Nat) (hi : i < f.ndof1 + f.ndof2) (hj : j < f.ndof1 + f.ndof2) :
    totalNormal d beta f i j = quad f fun p => p.w * (side f i * normalTerm p.nor d) * (beta / 2) * shp f p i * shp f p j := by
  have key : ∀ (g : Face (Fin (f.ndof1 + f.ndof2)) K) (v u : Fin (f.ndof1 + f.ndof2) → K), fbil g (totalNormal d beta g) v u =
      (g.pts.map fun p => p.w * (beta * normalTerm p.nor d) * (1 / 2) * ((tr1 g p v - tr2 g p v) * (tr1 g p u + tr2 g p u))).sum := by
    intro g v u
    unfold totalNormal
    rw [fbil_fold g v u _ _ _ _ _, fbil_nil, zero_add]
    intro m p
    unfold totalNormalPt
    simp only
    by_cases hw : p.w * (beta * normalTerm p.nor d) * (1 / 2) = 0
    · rw [if_neg (not_not.mpr hw), hw]; simp
    · rw [if_pos hw]
      by_cases hn : g.ndof2 = 0
      · rw [if_neg (not_not.mpr hn), fbil_TL, tr2_zero g p v hn, tr2_zero g p u hn]; ring
      · rw [if_pos hn, fbil_BR, fbil_BL, fbil_TR, fbil_TL]; ring
  rw [entry_eq f rfl (totalNormal d beta f) hi hj,
    show totalNormal d beta f = totalNormal d beta (localFace f (f.ndof1 + f.ndof2) (by omega)) from rfl, key]
  unfold quad
  congr 1
  apply List.map_congr_left
  intro p _
  rw [jmp_eq f rfl p hi, shp_eq f rfl p hj]
  unfold side jmp shp
  by_cases h : i < f.ndof1 <;> simp only [h, if_true, if_false] <;> ring

/-- The total-field flux integrator resets its matrix at every point; with a rule of one point the total-field side couples within the two
elements, the other one across.  (Full claim: with any rule; it fails, see `C61_totalFlux_loses_points`.) -/
theorem C61_totalFlux_partial (coeff : K) (f : Face ι K) (p : Pt K) (hp : f.pts = [p]) (i j : Nat) (hi : i < f.ndof1 + f.ndof2)
    (hj : j < f.ndof1 + f.ndof2) :
    totalFlux coeff f i j = quad f fun p =>
      p.w * (1 / 2) * (if coeff > 0 then sameSide f i j else sameSide f i j - 1) * shp f p i * shp f p j := by
  have key : ∀ (g : Face (Fin (f.ndof1 + f.ndof2)) K) (v u : Fin (f.ndof1 + f.ndof2) → K), g.pts = [p] → fbil g (totalFlux coeff g) v u =
      p.w * (1 / 2) * (if coeff > 0 then tr1 g p v * tr1 g p u + tr2 g p v * tr2 g p u
        else -(tr1 g p v * tr2 g p u + tr2 g p v * tr1 g p u)) := by
    intro g v u hg
    unfold totalFlux
    rw [hg]
    simp only [List.foldl_cons, List.foldl_nil]
    by_cases hw : p.w * (1 / 2) = 0
    · simp only [hw, ne_eq, not_true_eq_false, if_false, ite_self, fbil_nil, zero_mul]
    · by_cases hn : g.ndof2 = 0
      · by_cases hc : coeff > 0
        · simp only [hw, hn, hc, ne_eq, not_true_eq_false, not_false_eq_true, if_true, if_false]
          rw [fbil_TL, fbil_nil, tr2_zero g p v hn, tr2_zero g p u hn]; ring
        · simp only [hw, hn, hc, ne_eq, not_true_eq_false, not_false_eq_true, if_true, if_false]
          rw [fbil_TL, fbil_nil, tr2_zero g p v hn, tr2_zero g p u hn]; ring
      · by_cases hc : coeff > 0
        · simp only [hw, hn, hc, ne_eq, not_false_eq_true, if_true]
          rw [fbil_BR, fbil_BL, fbil_TR, fbil_TL, fbil_nil]; ring
        · simp only [hw, hn, hc, ne_eq, not_false_eq_true, if_true, if_false]
          rw [fbil_BR, fbil_BL, fbil_TR, fbil_TL, fbil_nil]; ring
  rw [entry_eq f rfl (totalFlux coeff f) hi hj,
    show totalFlux coeff f = totalFlux coeff (localFace f (f.ndof1 + f.ndof2) (by omega)) from rfl, key _ _ _ hp]
  unfold quad
  rw [hp, tr1_single f rfl p hi, tr2_single f rfl p hi, tr1_single f rfl p hj, tr2_single f rfl p hj]
  unfold sameSide shp
  by_cases h1 : i < f.ndof1 <;> by_cases h2 : j < f.ndof1 <;> by_cases hc : coeff > 0 <;> simp [h1, h2, hc] <;> ring

/-- The total-field penalty integrator resets its matrix at every point; with a rule of one point it acts on the second side only.  (Full
claim: with any rule; it fails, see `C61_totalPenalty_loses_points`.) -/
theorem C61_totalPenalty_partial (dirs : List Dir) (beta coeff : K) (f : Face ι K) (p : Pt K) (hp : f.pts = [p]) (i j : Nat)
    (hi : i < f.ndof1 + f.ndof2) (hj : j < f.ndof1 + f.ndof2) :
    totalPenalty dirs beta coeff f i j = quad f fun p =>
      p.w * betaTerm p.nor dirs beta * coeff * if j < f.ndof1 then 0 else -(side f i * shp f p i * shp f p j) := by
  have key : ∀ (g : Face (Fin (f.ndof1 + f.ndof2)) K) (v u : Fin (f.ndof1 + f.ndof2) → K), g.pts = [p] →
      fbil g (totalPenalty dirs beta coeff g) v u =
      p.w * betaTerm p.nor dirs beta * coeff * ((tr2 g p v - tr1 g p v) * tr2 g p u) := by
    intro g v u hg
    unfold totalPenalty
    rw [hg]
    simp only [List.foldl_cons, List.foldl_nil]
    by_cases hn : g.ndof2 = 0
    · rw [if_neg (not_not.mpr hn), fbil_nil, tr2_zero g p u hn]; ring
    · rw [if_pos hn]
      by_cases hw : p.w * betaTerm p.nor dirs beta * coeff = 0
      · rw [if_neg (not_not.mpr hw), fbil_nil, hw]; ring
      · rw [if_pos hw, fbil_BR, fbil_TR, fbil_nil]; ring
  rw [entry_eq f rfl (totalPenalty dirs beta coeff f) hi hj,
    show totalPenalty dirs beta coeff f = totalPenalty dirs beta coeff (localFace f (f.ndof1 + f.ndof2) (by omega)) from rfl, key _ _ _ hp]
  unfold quad
  rw [hp, tr1_single f rfl p hi, tr2_single f rfl p hi, tr2_single f rfl p hj]
  unfold side shp
  by_cases h1 : i < f.ndof1 <;> by_cases h2 : j < f.ndof1 <;> simp [h1, h2]

end

/-- A face between two elements of one node each, with a rule of two points. -/
def exTwo : Face (Fin 2) ℚ where
  ndof1 := 1
  ndof2 := 1
  dofs := fun i => if i = 0 then 0 else 1
  pts := [⟨1, 1, [1], fun _ => 1, fun _ => 1⟩, ⟨1, 1, [1], fun _ => 1, fun _ => 1⟩]

/-- The integral over the face is 1, the total-field flux integrator returns 1/2. -/
theorem C61_totalFlux_loses_points :
    totalFlux 1 exTwo 0 0 ≠ quad exTwo fun p =>
      p.w * (1 / 2) * (if (1 : ℚ) > 0 then sameSide exTwo 0 0 else sameSide exTwo 0 0 - 1) * shp exTwo p 0 * shp exTwo p 0 := by
  decide +kernel

/-- The same for the total-field penalty integrator. -/
theorem C61_totalPenalty_loses_points :
    totalPenalty [] 1 1 exTwo 1 1 ≠ quad exTwo fun p =>
      p.w * betaTerm p.nor [] 1 * 1 * if 1 < exTwo.ndof1 then 0 else -(side exTwo 1 * shp exTwo p 1 * shp exTwo p 1) := by
  decide +kernel

/-- The others add up both points. -/
example : decoupled0 1 exTwo 1 1 = 1 ∧ decoupled0 1 exTwo 0 1 = 0 ∧ decoupled1 0 1 exTwo 1 1 = -1 ∧ decoupled2 0 0 1 exTwo 0 0 = 1 ∧
    smaJump [0] 1 exTwo 0 0 = 1 ∧ smaJump [0] 1 exTwo 1 1 = 0 ∧ totalNormal 0 1 exTwo 1 0 = -1 := by decide +kernel

/-- With one point nothing is lost. -/
example : totalFlux 1 ({ exTwo with pts := [⟨1, 1, [1], fun _ => 1, fun _ => 1⟩] } : Face (Fin 2) ℚ) 1 1 = 1 / 2 ∧
    totalPenalty [0] 1 1 ({ exTwo with pts := [⟨1, 1, [1], fun _ => 1, fun _ => 1⟩] } : Face (Fin 2) ℚ) 0 1 = -1 := by decide +kernel

end Dgtd.Op
