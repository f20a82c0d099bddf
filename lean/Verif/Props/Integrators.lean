/-
C61, C62: face integrators.
-/
import Verif.Props.Routes
import Verif.Spec.Integrators

set_option linter.unusedSectionVars false
set_option linter.unusedSimpArgs false

namespace Dgtd.Op

open Spec

section
variable {ι K : Type} [Fintype ι] [DecidableEq ι] [Field K] [LinearOrder K]

/-- The face with its local numbering as global numbering. -/
def localFace (f : Face ι K) (N : Nat) (h : 0 < N) : Face (Fin N) K :=
  { ndof1 := f.ndof1, ndof2 := f.ndof2, dofs := fun i => ⟨i % N, Nat.mod_lt _ h⟩, pts := f.pts }

lemma entry_eq (f : Face ι K) {N : Nat} (hN : N = f.ndof1 + f.ndof2) (m : EMat K) {i j : Nat}
    (hi : i < N) (hj : j < N) :
    m i j = fbil (localFace f N (by omega)) m (Pi.single ⟨i, hi⟩ 1) (Pi.single ⟨j, hj⟩ 1) := by
  unfold fbil bil
  have h1 : (localFace f N (by omega)).ndof1 + (localFace f N (by omega)).ndof2 = N := hN.symm
  rw [h1, Finset.sum_eq_single i, Finset.sum_eq_single j]
  · simp [localFace, Nat.mod_eq_of_lt hi, Nat.mod_eq_of_lt hj]
  · intro k hk hne
    have hk := Finset.mem_range.mp hk
    have : (Pi.single (⟨j, hj⟩ : Fin N) (1 : K) : Fin N → K) ((localFace f N (by omega)).dofs k) = 0 := by
      apply Pi.single_eq_of_ne
      simp [localFace, Nat.mod_eq_of_lt hk, hne]
    simp [this]
  · intro h; simp at h; omega
  · intro k hk hne
    have hk := Finset.mem_range.mp hk
    have : (Pi.single (⟨i, hi⟩ : Fin N) (1 : K) : Fin N → K) ((localFace f N (by omega)).dofs k) = 0 := by
      apply Pi.single_eq_of_ne
      simp [localFace, Nat.mod_eq_of_lt hk, hne]
    simp [this]
  · intro h; simp at h; omega

lemma tr1_single (f : Face ι K) {N : Nat} (hN : N = f.ndof1 + f.ndof2) (p : Pt K) {i : Nat} (hi : i < N) :
    tr1 (localFace f N (by omega)) p (Pi.single ⟨i, hi⟩ 1) = if i < f.ndof1 then p.sh1 i else 0 := by
  unfold tr1
  have key : ∀ k, k < N → (Pi.single (⟨i, hi⟩ : Fin N) (1 : K) : Fin N → K) ((localFace f N (by omega)).dofs k) =
      if k = i then 1 else 0 := by
    intro k hk
    by_cases h : k = i
    · subst h; simp [localFace, Nat.mod_eq_of_lt hk]
    · rw [if_neg h]
      apply Pi.single_eq_of_ne
      simp [localFace, Nat.mod_eq_of_lt hk, h]
  rw [Finset.sum_congr rfl (g := fun k => if k = i then p.sh1 i else 0)]
  · simp [localFace]
  · intro k hk
    have hk := Finset.mem_range.mp hk
    have hk' : k < f.ndof1 := hk
    rw [key k (by omega)]
    by_cases h : k = i <;> simp [h]

lemma tr2_single (f : Face ι K) {N : Nat} (hN : N = f.ndof1 + f.ndof2) (p : Pt K) {i : Nat} (hi : i < N) :
    tr2 (localFace f N (by omega)) p (Pi.single ⟨i, hi⟩ 1) =
      if i < f.ndof1 then 0 else p.sh2 (i - f.ndof1) := by
  unfold tr2
  have key : ∀ k, k < N → (Pi.single (⟨i, hi⟩ : Fin N) (1 : K) : Fin N → K) ((localFace f N (by omega)).dofs k) =
      if k = i then 1 else 0 := by
    intro k hk
    by_cases h : k = i
    · subst h; simp [localFace, Nat.mod_eq_of_lt hk]
    · rw [if_neg h]
      apply Pi.single_eq_of_ne
      simp [localFace, Nat.mod_eq_of_lt hk, h]
  rw [Finset.sum_congr rfl (g := fun k => if k = i - f.ndof1 then (if i < f.ndof1 then 0 else p.sh2 (i - f.ndof1)) else 0)]
  · rw [Finset.sum_ite_eq' (Finset.range _) (i - f.ndof1)]
    by_cases h : i < f.ndof1
    · simp [h]
    · rw [if_neg h, if_pos]
      apply Finset.mem_range.mpr
      change i - f.ndof1 < f.ndof2
      omega
  · intro k hk
    have hk := Finset.mem_range.mp hk
    have hk' : k < f.ndof2 := hk
    have hd : (localFace f N (by omega)).ndof1 = f.ndof1 := rfl
    rw [hd, key (f.ndof1 + k) (by omega)]
    by_cases h : i < f.ndof1
    · rw [if_neg (by omega)]; simp [h]
    · by_cases h2 : k = i - f.ndof1
      · rw [if_pos (by omega), if_pos h2, if_neg h, h2]; ring
      · rw [if_neg (by omega), if_neg h2]; ring

lemma jmp_eq (f : Face ι K) {N : Nat} (hN : N = f.ndof1 + f.ndof2) (p : Pt K) {i : Nat} (hi : i < N) :
    tr1 (localFace f N (by omega)) p (Pi.single ⟨i, hi⟩ 1) - tr2 (localFace f N (by omega)) p (Pi.single ⟨i, hi⟩ 1) =
      jmp f p i := by
  rw [tr1_single f hN p hi, tr2_single f hN p hi]
  unfold jmp
  split_ifs <;> ring

lemma shp_eq (f : Face ι K) {N : Nat} (hN : N = f.ndof1 + f.ndof2) (p : Pt K) {i : Nat} (hi : i < N) :
    tr1 (localFace f N (by omega)) p (Pi.single ⟨i, hi⟩ 1) + tr2 (localFace f N (by omega)) p (Pi.single ⟨i, hi⟩ 1) =
      shp f p i := by
  rw [tr1_single f hN p hi, tr2_single f hN p hi]
  unfold shp
  split_ifs <;> ring

/-- **C61**, penalty without normals: `½ β ∫ [φ_i] [φ_j]`, all quadrature points. -/
theorem C61_zeroNormal (beta : K) (f : Face ι K) (i j : Nat) (hi : i < f.ndof1 + f.ndof2)
    (hj : j < f.ndof1 + f.ndof2) :
    zeroNormal beta f i j = quad f fun p => p.w * p.W * (beta / 2) * jmp f p i * jmp f p j := by
  rw [entry_eq f rfl (zeroNormal beta f) hi hj,
    show zeroNormal beta f = zeroNormal beta (localFace f (f.ndof1 + f.ndof2) (by omega)) from rfl,
    fbil_zeroNormal]
  unfold quad
  congr 1
  apply List.map_congr_left
  intro p _
  rw [← jmp_eq f rfl p hi, ← jmp_eq f rfl p hj]; ring

/-- **C61**, one normal: `½ β ∫ n_d φ_i [φ_j]`. -/
theorem C61_oneNormal (d : Dir) (beta : K) (f : Face ι K) (i j : Nat) (hi : i < f.ndof1 + f.ndof2)
    (hj : j < f.ndof1 + f.ndof2) :
    oneNormal d beta f i j = quad f fun p => p.w * normalTerm p.nor d * (beta / 2) * shp f p i * jmp f p j := by
  rw [entry_eq f rfl (oneNormal d beta f) hi hj,
    show oneNormal d beta f = oneNormal d beta (localFace f (f.ndof1 + f.ndof2) (by omega)) from rfl,
    fbil_oneNormal]
  unfold quad
  congr 1
  apply List.map_congr_left
  intro p _
  rw [← shp_eq f rfl p hi, ← jmp_eq f rfl p hj]; ring

/-- **C61**, two normals: `½ β ∫ n_d n_d2 / |n| [φ_i] [φ_j]`. -/
theorem C61_twoNormal (d d2 : Dir) (beta : K) (f : Face ι K) (i j : Nat) (hi : i < f.ndof1 + f.ndof2)
    (hj : j < f.ndof1 + f.ndof2) :
    twoNormal d d2 beta f i j = quad f fun p =>
      p.w * normalTerm p.nor d * normalTerm p.nor d2 / p.W * (beta / 2) * jmp f p i * jmp f p j := by
  rw [entry_eq f rfl (twoNormal d d2 beta f) hi hj,
    show twoNormal d d2 beta f = twoNormal d d2 beta (localFace f (f.ndof1 + f.ndof2) (by omega)) from rfl,
    fbil_twoNormal]
  unfold quad
  congr 1
  apply List.map_congr_left
  intro p _
  rw [← jmp_eq f rfl p hi, ← jmp_eq f rfl p hj]; ring

lemma own_eq (f : Face ι K) {N : Nat} (hN : N = f.ndof1 + f.ndof2) (p : Pt K) {i j : Nat} (hi : i < N)
    (hj : j < N) (s : K) :
    tr1 (localFace f N (by omega)) p (Pi.single ⟨i, hi⟩ 1) * tr1 (localFace f N (by omega)) p (Pi.single ⟨j, hj⟩ 1) +
      s * (tr2 (localFace f N (by omega)) p (Pi.single ⟨i, hi⟩ 1) *
        tr2 (localFace f N (by omega)) p (Pi.single ⟨j, hj⟩ 1)) =
      (if i < f.ndof1 then 1 else s) * sameSide f i j * shp f p i * shp f p j := by
  rw [tr1_single f hN p hi, tr2_single f hN p hi, tr1_single f hN p hj, tr2_single f hN p hj]
  unfold shp sameSide
  by_cases h1 : i < f.ndof1 <;> by_cases h2 : j < f.ndof1 <;> simp [h1, h2]; ring

/-- **C61**, interior wall, no normals: each side only sees itself. -/
theorem C61_interior0 (beta : K) (f : Face ι K) (i j : Nat) (hi : i < f.ndof1 + f.ndof2)
    (hj : j < f.ndof1 + f.ndof2) :
    interiorJump [] beta f i j = quad f fun p =>
      p.w * p.W * (beta / 2) * sameSide f i j * shp f p i * shp f p j := by
  rw [entry_eq f rfl (interiorJump [] beta f) hi hj,
    show interiorJump [] beta f = interiorJump [] beta (localFace f (f.ndof1 + f.ndof2) (by omega)) from rfl,
    fbil_interior0]
  unfold quad
  congr 1
  apply List.map_congr_left
  intro p _
  have := own_eq f rfl p hi hj 1
  simp only [ite_self, one_mul] at this
  linear_combination (p.w * p.W * (beta / 2)) * this

/-- **C61**, interior wall, one normal: the normal is outward on each side. -/
theorem C61_interior1 (d : Dir) (beta : K) (f : Face ι K) (i j : Nat) (hi : i < f.ndof1 + f.ndof2)
    (hj : j < f.ndof1 + f.ndof2) :
    interiorJump [d] beta f i j = quad f fun p =>
      p.w * (side f i * normalTerm p.nor d) * (beta / 2) * sameSide f i j * shp f p i * shp f p j := by
  rw [entry_eq f rfl (interiorJump [d] beta f) hi hj,
    show interiorJump [d] beta f = interiorJump [d] beta (localFace f (f.ndof1 + f.ndof2) (by omega)) from rfl,
    fbil_interior1]
  unfold quad
  congr 1
  apply List.map_congr_left
  intro p _
  have := own_eq f rfl p hi hj (-1)
  unfold side
  linear_combination (p.w * normalTerm p.nor d * (beta / 2)) * this

/-- **C61**, interior wall, two normals. -/
theorem C61_interior2 (d d2 : Dir) (beta : K) (f : Face ι K) (i j : Nat) (hi : i < f.ndof1 + f.ndof2)
    (hj : j < f.ndof1 + f.ndof2) :
    interiorJump [d, d2] beta f i j = quad f fun p =>
      p.w * normalTerm p.nor d * normalTerm p.nor d2 / p.W * (beta / 2) * sameSide f i j * shp f p i * shp f p j := by
  rw [entry_eq f rfl (interiorJump [d, d2] beta f) hi hj,
    show interiorJump [d, d2] beta f = interiorJump [d, d2] beta (localFace f (f.ndof1 + f.ndof2) (by omega)) from rfl,
    fbil_interior2]
  unfold quad
  congr 1
  apply List.map_congr_left
  intro p _
  have := own_eq f rfl p hi hj 1
  simp only [ite_self, one_mul] at this
  linear_combination (p.w * normalTerm p.nor d * normalTerm p.nor d2 / p.W * (beta / 2)) * this

/-- The Hesthaven flux integrator accumulates `2 ∫ φ_i φ_j` over all points. -/
theorem C61_hesthavenFlux (f : Face ι K) (i j : Nat) (hi : i < f.ndof1 + f.ndof2)
    (hj : j < f.ndof1 + f.ndof2) :
    hesthavenFlux f i j = quad f fun p => p.w * 2 * shp f p i * shp f p j := by
  have key : ∀ (g : Face (Fin (f.ndof1 + f.ndof2)) K) (v u : Fin (f.ndof1 + f.ndof2) → K),
      fbil g (hesthavenFlux g) v u = (g.pts.map fun p => p.w * 2 *
        ((tr1 g p v + tr2 g p v) * (tr1 g p u + tr2 g p u))).sum := by
    intro g v u
    unfold hesthavenFlux
    rw [fbil_fold g v u _ _ _ _ _, fbil_nil, zero_add]
    intro m p
    simp only
    by_cases hw : p.w * 2 = 0
    · rw [if_neg (not_not.mpr hw), hw]; simp
    · rw [if_pos hw]
      by_cases hn : g.ndof2 = 0
      · rw [if_neg (not_not.mpr hn), fbil_TL, tr2_zero g p v hn, tr2_zero g p u hn]; ring
      · rw [if_pos hn, fbil_BR, fbil_BL, fbil_TR, fbil_TL]; ring
  rw [entry_eq f rfl (hesthavenFlux f) hi hj,
    show hesthavenFlux f = hesthavenFlux (localFace f (f.ndof1 + f.ndof2) (by omega)) from rfl, key]
  unfold quad
  congr 1
  apply List.map_congr_left
  intro p _
  rw [← shp_eq f rfl p hi, ← shp_eq f rfl p hj]; ring

lemma fbil_traceJump0 (beta : K) (f : Face ι K) (v u : ι → K) :
    fbil f (traceJump [] beta f) v u = fbil f (zeroNormal beta f) v u := by
  rw [fbil_zeroNormal]
  unfold traceJump
  rw [fbil_fold f v u _ _ _ _ _, fbil_nil, zero_add]
  intro m p
  unfold traceJumpPt betaTerm
  simp only
  by_cases hw : p.w * beta * (1 / 2) = 0
  · rw [if_neg (not_not.mpr hw), hw]; simp
  · rw [if_pos hw]
    by_cases hn : f.ndof2 = 0
    · rw [if_neg (not_not.mpr hn), fbil_TL, tr2_zero f p v hn, tr2_zero f p u hn]; ring
    · rw [if_pos hn, fbil_BR, fbil_BL, fbil_TR, fbil_TL]; ring

lemma fbil_traceJump1 (d : Dir) (beta : K) (f : Face ι K) (v u : ι → K) :
    fbil f (traceJump [d] beta f) v u = fbil f (oneNormal d beta f) v u := by
  rw [fbil_oneNormal]
  unfold traceJump
  rw [fbil_fold f v u _ _ _ _ _, fbil_nil, zero_add]
  intro m p
  unfold traceJumpPt betaTerm
  simp only
  by_cases hw : p.w * (beta * normalTerm p.nor d) * (1 / 2) = 0
  · rw [if_neg (not_not.mpr hw), hw]; simp
  · rw [if_pos hw]
    by_cases hn : f.ndof2 = 0
    · rw [if_neg (not_not.mpr hn), fbil_TL, tr2_zero f p v hn, tr2_zero f p u hn]; ring
    · rw [if_pos hn, fbil_BR, fbil_BL, fbil_TR, fbil_TL]; ring

lemma fbil_traceJump2 (d d2 : Dir) (beta : K) (f : Face ι K) (v u : ι → K) :
    fbil f (traceJump [d, d2] beta f) v u = fbil f (twoNormal d d2 beta f) v u := by
  rw [fbil_twoNormal]
  unfold traceJump
  rw [fbil_fold f v u _ _ _ _ _, fbil_nil, zero_add]
  intro m p
  unfold traceJumpPt betaTerm
  simp only
  by_cases hw : p.w * (beta * normalTerm p.nor d * normalTerm p.nor d2) * (1 / 2) = 0
  · rw [if_neg (not_not.mpr hw), hw]; simp
  · rw [if_pos hw]
    by_cases hn : f.ndof2 = 0
    · rw [if_neg (not_not.mpr hn), fbil_TL, tr2_zero f p v hn, tr2_zero f p u hn]; ring
    · rw [if_pos hn, fbil_BR, fbil_BL, fbil_TR, fbil_TL]; ring

/-- The general trace-jump integrator and the specialised ones assemble the same element matrices. -/
theorem C61_traceJump (d d2 : Dir) (beta : K) (f : Face ι K) (i j : Nat) (hi : i < f.ndof1 + f.ndof2)
    (hj : j < f.ndof1 + f.ndof2) :
    traceJump [] beta f i j = zeroNormal beta f i j ∧
    traceJump [d] beta f i j = oneNormal d beta f i j ∧
    traceJump [d, d2] beta f i j = twoNormal d d2 beta f i j := by
  refine ⟨?_, ?_, ?_⟩
  · rw [entry_eq f rfl (traceJump [] beta f) hi hj, entry_eq f rfl (zeroNormal beta f) hi hj]
    exact fbil_traceJump0 beta (localFace f _ (by omega)) _ _
  · rw [entry_eq f rfl (traceJump [d] beta f) hi hj, entry_eq f rfl (oneNormal d beta f) hi hj]
    exact fbil_traceJump1 d beta (localFace f _ (by omega)) _ _
  · rw [entry_eq f rfl (traceJump [d, d2] beta f) hi hj, entry_eq f rfl (twoNormal d d2 beta f) hi hj]
    exact fbil_traceJump2 d d2 beta (localFace f _ (by omega)) _ _

/-- The total-field integrator resets its matrix at every point: only the last point counts.  (Full claim:
the sum over all points; it fails, see `C61_totalField_loses_points`.) -/
theorem C61_totalField_partial (beta : K) (f : Face ι K) (p : Pt K) (hp : f.pts = [p]) (i j : Nat)
    (hi : i < f.ndof1) (hj : j < f.ndof1) :
    totalFieldScattered beta f i j = quad f fun p => p.w * beta * shp f p i * shp f p j := by
  have h1 : i < f.ndof1 + f.ndof2 := by omega
  have h2 : j < f.ndof1 + f.ndof2 := by omega
  unfold totalFieldScattered quad
  rw [hp, List.foldl_cons, List.foldl_nil]
  rw [entry_eq f rfl (buildFaceMatrix (p.w * beta) f.ndof1 f.ndof1 0 0 p.sh1 p.sh1 (fun _ _ => 0)) h1 h2]
  have := fbil_TL (localFace f (f.ndof1 + f.ndof2) (by omega)) p (fun _ _ => 0)
    (Pi.single ⟨i, h1⟩ 1) (Pi.single ⟨j, h2⟩ 1) (p.w * beta)
  rw [fbil_nil] at this
  change fbil _ (buildFaceMatrix (p.w * beta) f.ndof1 f.ndof1 0 0 p.sh1 p.sh1 _) _ _ = _ at this
  rw [this, tr1_single f rfl p h1, tr1_single f rfl p h2]
  unfold shp
  simp [hi, hj]

end

/-- Two-point rule with unit weights on a face with constant shape functions: the integral is 2, the
total-field integrator returns 1. -/
theorem C61_totalField_loses_points :
    ∃ (f : Face (Fin 1) ℚ), f.ndof1 = 1 ∧
      totalFieldScattered 1 f 0 0 ≠ quad f fun p => p.w * 1 * shp f p 0 * shp f p 0 := by
  refine ⟨{ ndof1 := 1, ndof2 := 0, dofs := fun _ => 0
            pts := [⟨1, 1, [1], fun _ => 1, fun _ => 0⟩, ⟨1, 1, [1], fun _ => 1, fun _ => 0⟩] }, rfl, ?_⟩
  decide +kernel

section
variable {ι K : Type} [Field K] [DecidableEq K]

/-- The jump of a coefficient over an interior face: with a rule of one point the entries of both sides are the
integrals against the shape functions of that side.  (Full claim: with any rule; it fails, see
`C61_boundaryJump_loses_points`.) -/
theorem C61_boundaryJump_partial (beta : K) (f : Face ι K) (un1 un2 : Pt K → K) (p : Pt K) (hp : f.pts = [p]) (i : Nat)
    (hi : i < f.ndof1 + f.ndof2) :
    boundaryJump beta f un1 un2 i = quad f fun p => beta * (if i < f.ndof1 then un1 p else un2 p) * p.w * shp f p i := by
  unfold boundaryJump quad shp
  rw [hp]
  by_cases h : i < f.ndof1 <;> simp [h, hi]

end

/-- A face with one point: the entry of the second side uses its own shape functions. -/
example : boundaryJump (2 : ℚ) (⟨1, 1, fun i => if i = 0 then 0 else 1,
    [⟨3, 1, [1], fun _ => 5, fun i => if i = 0 then 7 else 0⟩]⟩ : Face (Fin 2) ℚ) (fun _ => 11) (fun _ => 13) 1 =
    2 * 13 * 3 * 7 := by decide +kernel

/-- The same for the jump of a coefficient over an interior face. -/
theorem C61_boundaryJump_loses_points :
    ∃ (f : Face (Fin 2) ℚ) (un1 un2 : Pt ℚ → ℚ),
      boundaryJump 1 f un1 un2 0 ≠ quad f fun p => 1 * un1 p * p.w * shp f p 0 := by
  refine ⟨{ ndof1 := 1, ndof2 := 1, dofs := fun i => if i = 0 then 0 else 1
            pts := [⟨1, 1, [1], fun _ => 1, fun _ => 1⟩, ⟨1, 1, [1], fun _ => 1, fun _ => 1⟩] },
    fun _ => 1, fun _ => 1, ?_⟩
  decide +kernel

example : zeroNormal 1 exInt 1 2 = -(1 / 2) ∧ oneNormal 0 1 exInt 2 1 = 1 / 2 ∧
    interiorJump [0] 1 exInt 2 2 = -(1 / 2) := by decide +kernel

section
variable {ι K : Type} [Fintype ι] [DecidableEq ι] [Field K] [LinearOrder K] [IsStrictOrderedRing K]

/-- **C62**, per face: if the traces of a component agree at every quadrature point of a face, no interior
integrator produces anything from it, whatever the test function. -/
theorem C62_no_flux (f : Face ι K) (u : ι → K) (h : ∀ p ∈ f.pts, tr1 f p u = tr2 f p u) (d d2 : Dir)
    (beta : K) (v : ι → K) :
    fbil f (zeroNormal beta f) v u = 0 ∧ fbil f (oneNormal d beta f) v u = 0 ∧
      fbil f (twoNormal d d2 beta f) v u = 0 := by
  refine ⟨?_, ?_, ?_⟩
  · rw [fbil_zeroNormal]; apply sum_eq_zero'; intro p hp; rw [h p hp]; ring
  · rw [fbil_oneNormal]; apply sum_eq_zero'; intro p hp; rw [h p hp]; ring
  · rw [fbil_twoNormal]; apply sum_eq_zero'; intro p hp; rw [h p hp]; ring

lemma mulVec_zero_of_form (A : Matrix ι ι K) (u : ι → K) (h : ∀ v, form A v u = 0) : A.mulVec u = 0 := by
  ext i
  have := h (Pi.single i 1)
  unfold form at this
  simpa [single_dotProduct] using this

/-- **C62**, whole operator: on a mesh whose exterior faces carry no condition and with no interior wall, a
field whose six components are continuous across every interior face is only acted on by the volume curl and
conduction: `∂E_d = M⁻¹(D_{d+1} H_{d+2} - D_{d+2} H_{d+1}) - M⁻¹ M_σ E_d` and
`∂H_d = -M⁻¹(D_{d+1} E_{d+2} - D_{d+2} E_{d+1})`. -/
theorem C62_continuous_fields (P : Prob ι K)
    (hn : ∀ f ∈ allFaces P, ∀ p ∈ f.pts, p.nor.length = P.dim)
    (hb : ∀ q ∈ P.bdr, q.1 = none) (hi : ∀ q ∈ P.interior, q.1 = none) (u : State ι K)
    (hc : ∀ q ∈ P.interior, ∀ p ∈ q.2.pts, ∀ f d, tr1 q.2 p (u f d) = tr2 q.2 p (u f d)) (d : Dir) :
    globalMult P u .E d = (P.Minv .E).mulVec ((partialD P (d + 1)).mulVec (u .H (d + 2)) -
        (partialD P (d + 2)).mulVec (u .H (d + 1)) - P.Msig.mulVec (u .E d)) ∧
    globalMult P u .H d = -(P.Minv .H).mulVec ((partialD P (d + 1)).mulVec (u .E (d + 2)) -
        (partialD P (d + 2)).mulVec (u .E (d + 1))) := by
  have hbdr : bdrFaces P = [] := by
    unfold bdrFaces
    rw [List.filterMap_eq_nil_iff]
    intro q hq; rw [hb q hq]; rfl
  have hint : hasIntBdr P = false := by
    unfold hasIntBdr
    rw [List.any_eq_false]
    intro q hq; rw [hi q hq]; simp
  have hpl : ∀ f ∈ plainFaces P, ∀ p ∈ f.pts, ∀ g d, tr1 f p (u g d) = tr2 f p (u g d) := by
    intro f hf
    unfold plainFaces at hf
    obtain ⟨q, hq, h⟩ := List.mem_filterMap.mp hf
    split_ifs at h
    simp only [Option.some.injEq] at h; subst h
    exact hc q hq
  have k0 : ∀ g g' d', (zeroNormalSub P g).mulVec (u g' d') = 0 := by
    intro g g' d'
    apply mulVec_zero_of_form; intro v
    rw [form_zeroNormalSub, hbdr]
    simp only [List.map_nil, List.sum_nil, add_zero]
    apply sum_eq_zero'; intro f hf
    exact (C62_no_flux f _ (fun p hp => hpl f hf p hp g' d') 0 0 _ v).1
  have k1 : ∀ g x g' d', (oneNormalSub P g x).mulVec (u g' d') = 0 := by
    intro g x g' d'
    apply mulVec_zero_of_form; intro v
    rw [form_oneNormalSub, hbdr]
    simp only [List.map_nil, List.sum_nil, add_zero]
    apply sum_eq_zero'; intro f hf
    exact (C62_no_flux f _ (fun p hp => hpl f hf p hp g' d') x 0 _ v).2.1
  have k2 : ∀ g x y g' d', (twoNormalSub P g x y).mulVec (u g' d') = 0 := by
    intro g x y g' d'
    apply mulVec_zero_of_form; intro v
    rw [form_twoNormalSub, hbdr]
    simp only [List.map_nil, List.sum_nil, add_zero]
    apply sum_eq_zero'; intro f hf
    exact (C62_no_flux f _ (fun p hp => hpl f hf p hp g' d') x y _ v).2.2
  have z1 : ∀ (f : FieldT) (x : Dir), x.val ≥ P.dim → P.Minv f * oneNormalSub P (altField f) x = 0 := by
    intro f x hx
    rw [form_zero_matrix _ (van_oneSub hn (altField f) x hx), mul_zero]
  have z2 : ∀ (f : FieldT) (x y : Dir), (x.val ≥ P.dim ∨ y.val ≥ P.dim) →
      P.Minv f * twoNormalSub P f x y = 0 := by
    intro f x y hx
    rw [form_zero_matrix _ (van_twoSub hn f x y hx), mul_zero]
  have hcond : ∀ f, applyBlocks (conductiveBlocks P) u f d =
      if f = .E then -(P.Minv .E * P.Msig).mulVec (u .E d) else 0 := by
    intro f
    unfold conductiveBlocks dirs
    cases f <;> fin_cases d <;> simp [applyBlocks_cons', applyBlocks_nil]
  have hD : ∀ x : Dir, derivativeSub P x = partialD P x := by
    intro x; unfold derivativeSub partialD
    by_cases h : x.val < P.dim
    · rw [if_neg (by omega), if_pos h]
    · rw [if_pos (by omega), if_neg h]
  have e2 : (1 - 2 : K) = -1 := by norm_num
  constructor
  all_goals
    unfold globalMult globalBlocks
    rw [applyBlocks_append, applyBlocks_append, applyBlocks_append, applyBlocks_append, applyBlocks_append,
      hcond, apply_dir, apply_one _ _ z1, apply_zero, apply_two _ _ z2, hint]
    simp only [← Matrix.mulVec_mulVec, k0, k1, k2, Matrix.mulVec_zero, hD, sgn, FieldT.idx, altField,
      Bool.false_eq_true, if_false, applyBlocks_nil, Matrix.mulVec_sub]
    simp [e2]
    try abel

end

/-- A continuous field on the two-element line without exterior conditions meets the hypotheses of
`C62_continuous_fields`, and its rate of change is not zero. -/
example : ∃ (P : Prob (Fin 4) ℚ) (u : State (Fin 4) ℚ),
    (∀ f ∈ allFaces P, ∀ p ∈ f.pts, p.nor.length = P.dim) ∧ (∀ q ∈ P.bdr, q.1 = none) ∧
    (∀ q ∈ P.interior, q.1 = none) ∧
    (∀ q ∈ P.interior, ∀ p ∈ q.2.pts, ∀ f d, tr1 q.2 p (u f d) = tr2 q.2 p (u f d)) ∧
    globalMult P u .E 1 0 ≠ 0 := by
  refine ⟨{ exProb 1 .PEC .SMA with bdr := [(none, exL), (none, exR)] }, fun _ _ => ![1, 2, 2, 5],
    ?_, ?_, ?_, ?_, ?_⟩
  · exact fun f hf p hp => ((exGood 1 .PEC .SMA).pts f hf p hp).size
  · decide +kernel
  · decide +kernel
  · intro q hq p hp f d
    simp only [exProb, List.mem_singleton] at hq
    subst hq
    simp only [exInt, List.mem_singleton] at hp
    subst hp
    change tr1 exInt (exPt 1 0 1 1 0) ![1, 2, 2, 5] = tr2 exInt (exPt 1 0 1 1 0) ![1, 2, 2, 5]
    decide +kernel
  · decide +kernel

/-- A continuous, non-constant field on the two-element line meets the hypothesis of `C62_no_flux`. -/
example : ∀ p ∈ exInt.pts, tr1 exInt p ![1, 2, 2, 5] = tr2 exInt p ![1, 2, 2, 5] := by decide +kernel

end Dgtd.Op
