/-
C171: duality.
-/
import Verif.Spec.OpDual
import Verif.Props.Frame

set_option linter.unusedSectionVars false

namespace Dgtd.Dual

open Op Op.Spec TimeInt TimeInt.Spec Implicit Frame

variable {ι : Type} [Fintype ι] [DecidableEq ι]

section
variable {K : Type} [Field K] [LinearOrder K]

/-- The block of the other fields. -/
def dualB (b : GBlock ι K) : GBlock ι K :=
  ⟨altField b.rowF, b.rowD, altField b.colF, b.colD, if b.rowF = b.colF then b.sign else -b.sign, b.mat⟩

lemma mulVec_neg' (A : Matrix ι ι K) (x : ι → K) (i : ι) : A.mulVec (fun j => -x j) i = -A.mulVec x i := by
  have : (fun j => -x j) = -x := rfl
  rw [this, Matrix.mulVec_neg, Pi.neg_apply]

lemma apply_dualB (bs : List (GBlock ι K)) (u : State ι K) : applyBlocks (bs.map dualB) (dual u) = dual (applyBlocks bs u) := by
  funext f d i
  induction bs with
  | nil => cases f <;> simp [dual, applyBlocks]
  | cons b bs ih =>
    rw [List.map_cons, applyBlocks_consS, Pi.add_apply, ih]
    have e : dual (applyBlocks (b :: bs) u) f d i = dual (fun f d => if b.rowF = f ∧ b.rowD = d then b.sign • b.mat.mulVec (u b.colF b.colD) else 0) f d i
        + dual (applyBlocks bs u) f d i := by
      cases f
      · show applyBlocks (b :: bs) u .H d i = _
        rw [applyBlocks_consS]
        rfl
      · show -applyBlocks (b :: bs) u .E d i = _
        rw [applyBlocks_consS, Pi.add_apply, neg_add]
        rfl
    rw [e]
    congr 1
    obtain ⟨rf, rd, cf, cd, s, m⟩ := b
    by_cases hd : rd = d
    · cases rf <;> cases cf <;> cases f <;> simp [dualB, altField, dual, hd, mulVec_neg']
    · cases rf <;> cases cf <;> cases f <;> simp [dualB, altField, dual, hd]

lemma apply_perm {as bs : List (GBlock ι K)} (h : as.Perm bs) (u : State ι K) : applyBlocks as u = applyBlocks bs u := by
  funext f d
  unfold applyBlocks
  exact ((h.filter _).map _).sum_eq

lemma fields_perm {g g' : FieldT → List (GBlock ι K)} (h : ∀ f, g' (altField f) = (g f).map dualB) :
    (fields.flatMap g').Perm ((fields.flatMap g).map dualB) := by
  have hE := h .H
  have hH := h .E
  simp only [altField] at hE hH
  simp only [fields, List.flatMap_cons, List.flatMap_nil, List.append_nil, List.map_append, hE, hH]
  exact List.perm_append_comm

lemma zero_perm (op op' : FieldT → Matrix ι ι K) (h : ∀ f, op' (altField f) = op f) :
    (zeroBlocks op').Perm ((zeroBlocks op).map dualB) := by
  apply fields_perm
  intro f
  rw [List.map_map]
  apply List.map_congr_left
  intro d _
  simp [dualB, h]

lemma one_perm (dim : Nat) (op op' : FieldT → Dir → Matrix ι ι K) (h : ∀ f x, op' (altField f) x = op f x) :
    (oneBlocks dim op').Perm ((oneBlocks dim op).map dualB) := by
  apply fields_perm
  intro f
  rw [List.map_flatMap]
  congr 1
  funext x
  cases f <;> simp [dualB, ← h, altField, sgn, FieldT.idx] <;> norm_num

lemma two_perm (dim : Nat) (op op' : FieldT → Dir → Dir → Matrix ι ι K) (h : ∀ f x y, op' (altField f) x y = op f x y) :
    (twoBlocks dim op').Perm ((twoBlocks dim op).map dualB) := by
  apply fields_perm
  intro f
  rw [List.map_flatMap]
  congr 1
  funext x
  rw [List.map_map]
  apply List.map_congr_left
  intro y _
  simp [dualB, h]

lemma directional_perm (P : Prob ι K) : (directionalBlocks (dualProb P)).Perm ((directionalBlocks P).map dualB) := by
  apply fields_perm
  intro f
  rw [List.map_flatMap]
  congr 1
  funext x
  cases f <;> simp [dualB, altField, sgn, FieldT.idx, dualProb, derivativeSub] <;> norm_num

lemma alt_alt (f : FieldT) : altField (altField f) = f := by cases f <;> rfl

lemma penalty_dual (P : Prob ι K) (c : BdrCond) (f : FieldT) : penaltyCoeff (dualProb P) (dualCond c) (altField f) = penaltyCoeff P c f := by
  cases c <;> cases f <;> simp [penaltyCoeff, dualCond, altField, bdrCoeff, dualProb]

lemma flux_dual (c : BdrCond) (f : FieldT) : fluxCoeff (K := K) (dualCond c) (altField f) = fluxCoeff c f := by
  cases c <;> cases f <;> simp [fluxCoeff, dualCond, altField, bdrCoeff]

lemma plain_dual (P : Prob ι K) : plainFaces (dualProb P) = plainFaces P := by
  unfold plainFaces dualProb
  rw [List.filterMap_map]
  congr 1
  funext q
  obtain ⟨c, F⟩ := q
  cases c <;> simp

lemma bdr_dual (P : Prob ι K) : bdrFaces (dualProb P) = (bdrFaces P).map fun q => (dualCond q.1, q.2) := by
  unfold bdrFaces dualProb
  rw [List.filterMap_map, List.map_filterMap]
  congr 1
  funext q
  obtain ⟨c, F⟩ := q
  cases c <;> simp

lemma intBdr_dual (P : Prob ι K) : intBdrFaces (dualProb P) = (intBdrFaces P).map fun q => (dualCond q.1, q.2) := by
  unfold intBdrFaces dualProb
  rw [List.filterMap_map, List.map_filterMap]
  congr 1
  funext q
  obtain ⟨c, F⟩ := q
  cases c with
  | none => rfl
  | some c => cases c <;> rfl

lemma zeroNormal_dual (P : Prob ι K) (f : FieldT) : zeroNormalSub (dualProb P) (altField f) = zeroNormalSub P f := by
  unfold zeroNormalSub
  rw [plain_dual, bdr_dual, List.map_map]
  simp only [Function.comp_def, penalty_dual]
  rfl

lemma oneNormal_dual (P : Prob ι K) (f : FieldT) (d : Dir) : oneNormalSub (dualProb P) (altField f) d = oneNormalSub P f d := by
  unfold oneNormalSub
  rw [plain_dual, bdr_dual, List.map_map]
  simp only [Function.comp_def, flux_dual]

lemma twoNormal_dual (P : Prob ι K) (f : FieldT) (d e : Dir) : twoNormalSub (dualProb P) (altField f) d e = twoNormalSub P f d e := by
  unfold twoNormalSub
  rw [plain_dual, bdr_dual, List.map_map]
  simp only [Function.comp_def, penalty_dual]
  rfl

lemma zeroIBFI_dual (P : Prob ι K) (f : FieldT) : zeroNormalIBFI (dualProb P) (altField f) = zeroNormalIBFI P f := by
  unfold zeroNormalIBFI
  rw [intBdr_dual, List.map_map]
  simp only [Function.comp_def, penalty_dual]

lemma oneIBFI_dual (P : Prob ι K) (f : FieldT) (d : Dir) : oneNormalIBFI (dualProb P) (altField f) d = oneNormalIBFI P f d := by
  unfold oneNormalIBFI
  rw [intBdr_dual, List.map_map]
  simp only [Function.comp_def, flux_dual]

lemma twoIBFI_dual (P : Prob ι K) (f : FieldT) (d e : Dir) : twoNormalIBFI (dualProb P) (altField f) d e = twoNormalIBFI P f d e := by
  unfold twoNormalIBFI
  rw [intBdr_dual, List.map_map]
  simp only [Function.comp_def, penalty_dual]

lemma hasIntBdr_dual (P : Prob ι K) : hasIntBdr (dualProb P) = hasIntBdr P := by
  unfold hasIntBdr dualProb
  rw [List.any_map]
  congr 1
  funext q
  simp

lemma conductive_zero {P : Prob ι K} (hs : P.Msig = 0) (u : State ι K) (f : FieldT) (d : Dir) : applyBlocks (conductiveBlocks P) u f d = 0 := by
  unfold conductiveBlocks dirs
  rw [hs]
  simp [applyBlocks_consS, applyBlocks_nilS]

/-- All the blocks but those of the conductors. -/
def losslessBlocks (P : Prob ι K) : List (GBlock ι K) :=
  (if hasIntBdr P then
    oneBlocks P.dim (fun f x => P.Minv f * oneNormalIBFI P (altField f) x) ++
    zeroBlocks (fun f => P.Minv f * zeroNormalIBFI P f) ++
    twoBlocks P.dim (fun f d d2 => P.Minv f * twoNormalIBFI P f d d2)
  else []) ++
  directionalBlocks P ++
  oneBlocks P.dim (fun f x => P.Minv f * oneNormalSub P (altField f) x) ++
  zeroBlocks (fun f => P.Minv f * zeroNormalSub P f) ++
  twoBlocks P.dim (fun f d d2 => P.Minv f * twoNormalSub P f d d2)

lemma globalMult_lossless {P : Prob ι K} (hs : P.Msig = 0) (u : State ι K) : globalMult P u = applyBlocks (losslessBlocks P) u := by
  funext f d
  have : globalBlocks P = losslessBlocks P ++ conductiveBlocks P := by
    unfold globalBlocks losslessBlocks
    simp only [List.append_assoc]
  rw [globalMult, this, applyBlocks_appendS, conductive_zero hs, add_zero]

lemma lossless_perm (P : Prob ι K) : (losslessBlocks (dualProb P)).Perm ((losslessBlocks P).map dualB) := by
  have hM : ∀ f, (dualProb P).Minv (altField f) = P.Minv f := fun f => by
    show P.Minv (altField (altField f)) = _
    rw [alt_alt]
  unfold losslessBlocks
  rw [hasIntBdr_dual]
  simp only [List.map_append]
  refine ((((?_ : List.Perm _ _).append (directional_perm P)).append ?_).append ?_).append ?_
  · split_ifs
    · rw [List.map_append, List.map_append]
      refine ((one_perm _ _ _ ?_).append (zero_perm _ _ ?_)).append (two_perm _ _ _ ?_)
      · intro f x; rw [hM, oneIBFI_dual]
      · intro f; rw [hM, zeroIBFI_dual]
      · intro f x y; rw [hM, twoIBFI_dual]
    · exact List.Perm.refl _
  · exact one_perm _ _ _ fun f x => by rw [hM, oneNormal_dual]
  · exact zero_perm _ _ fun f => by rw [hM, zeroNormal_dual]
  · exact two_perm _ _ _ fun f x y => by rw [hM, twoNormal_dual]

/-- **C171**: without conductors, the rate of change of the dual fields in the dual problem is the dual of the rate of change. -/
theorem C171_operator (P : Prob ι K) (hs : P.Msig = 0) (u : State ι K) : globalMult (dualProb P) (dual u) = dual (globalMult P u) := by
  rw [globalMult_lossless (P := dualProb P) hs, globalMult_lossless hs, apply_perm (lossless_perm P), apply_dualB]

end

section
variable {K : Type} [Field K] [LinearOrder K] [IsStrictOrderedRing K]

lemma neg_dot (M : Matrix ι ι K) (x : ι → K) : (fun i => -x i) ⬝ᵥ M.mulVec (fun i => -x i) = x ⬝ᵥ M.mulVec x := by
  have : (fun i => -x i) = -x := rfl
  rw [this, Matrix.mulVec_neg, neg_dotProduct, dotProduct_neg, neg_neg]

/-- **C171**: the energy of the dual fields in the dual problem is the energy. -/
theorem C171_energy (M : FieldT → Matrix ι ι K) (u : State ι K) : energy (fun f => M (altField f)) (dual u) = energy M u := by
  unfold energy
  congr 1
  refine Finset.sum_congr rfl fun d _ => ?_
  show u .H d ⬝ᵥ (M .H).mulVec (u .H d) + (fun i => -u .E d i) ⬝ᵥ (M .E).mulVec (fun i => -u .E d i) = _
  rw [neg_dot, add_comm]

/-- **C171**: the dual of a problem that gains no energy gains none. -/
theorem C171_passive {P : Prob ι K} {M : FieldT → Matrix ι ι K} (h : Passive P M) : Passive (dualProb P) fun f => M (altField f) where
  good := by
    have hf : allFaces (dualProb P) = allFaces P := by
      unfold allFaces dualProb
      simp only [List.map_map]
      rfl
    refine ⟨h.good.dim_le, by rw [hf]; exact h.good.pts, ?_, ?_, ?_, ?_, fun f => h.good.inv _, fun f => h.good.symm _⟩
    · intro d hd v u
      rw [hf]
      exact h.good.sbp d hd v u
    · intro q hq
      obtain ⟨q, hm, rfl⟩ := List.mem_map.1 hq
      have := h.good.bdr_cond q hm
      simpa using this
    · intro q hq
      obtain ⟨q, hm, rfl⟩ := List.mem_map.1 hq
      exact h.good.bdr_one_side q hm
    · intro q hq
      obtain ⟨q, hm, rfl⟩ := List.mem_map.1 hq
      have := h.good.no_sgbc q hm
      obtain ⟨c, F⟩ := q
      cases c with
      | none => simp
      | some c => cases c <;> simp_all [dualCond]
  alpha := h.alpha
  sig := h.sig
  pos := fun u hu => by
    have e : u = dual fun f => match f with
        | .E => fun d i => -u .H d i
        | .H => u .E := by
      funext f d i
      cases f
      · rfl
      · exact (neg_neg _).symm
    rw [e, C171_energy]
    apply h.pos
    intro h0
    apply hu
    rw [e, h0]
    funext f d i
    cases f
    · rfl
    · exact neg_zero

end

/-- The duality as a linear map. -/
noncomputable def dualL : (Slot ι → ℝ) →ₗ[ℝ] (Slot ι → ℝ) where
  toFun x := flat (dual (unflat x))
  map_add' x y := by
    funext ⟨f, d, i⟩
    cases f
    · rfl
    · exact neg_add _ _
  map_smul' c x := by
    funext ⟨f, d, i⟩
    cases f
    · rfl
    · exact (mul_neg c _).symm

/-- **C171**: with every integrator, any steps and any sources, the run of the dual problem from the dual fields with the dual sources is
the dual of the run. -/
theorem C171_run (q : Sdirk ℝ) (hq : Ideal33 q) (P : Prob ι ℝ) (M : FieldT → Matrix ι ι ℝ) (hP : Passive P M) (hs : P.Msig = 0)
    (A : Matrix (Slot ι) (Slot ι) ℝ) (hA : ∀ u : State ι ℝ, A.mulVec (flat u) = flat (globalMult P u)) (A' : Matrix (Slot ι) (Slot ι) ℝ)
    (hA' : ∀ u : State ι ℝ, A'.mulVec (flat u) = flat (globalMult (dualProb P) u)) (src : ℝ → State ι ℝ) (o : Ode) (dts : List ℝ)
    (hdts : ∀ dt ∈ dts, 0 ≤ dt) (u : State ι ℝ) (t : ℝ) :
    ∃ y c c', run q o (globalTdo A fun t => flat (src t)) dts (flat u) t fresh = some (flat y, t + dts.sum, c) ∧
      run q o (globalTdo A' fun t => flat (dual (src t))) dts (flat (dual u)) t fresh = some (flat (dual y), t + dts.sum, c') :=
  run_images hq hP (C171_passive hP) hA hA' (L := dualL)
    (by
      intro u
      show flat (dual (globalMult P u)) = flat (globalMult (dualProb P) (dual u))
      rw [C171_operator P hs])
    (fun _ => rfl) o dts hdts u t

/-- The dual of the line between an electric and a magnetic wall is the line between a magnetic and an electric one. -/
example (alpha : ℝ) : dualProb (line ℝ alpha (some .PEC) .PEC .PMC) = line ℝ alpha (some .PMC) .PMC .PEC := rfl

example (q : Sdirk ℝ) (hq : Ideal33 q) (A A' : Matrix (Slot (Fin 4)) (Slot (Fin 4)) ℝ)
    (hA : ∀ u : State (Fin 4) ℝ, A.mulVec (flat u) = flat (globalMult (line ℝ 1 none .PEC .SMA) u))
    (hA' : ∀ u : State (Fin 4) ℝ, A'.mulVec (flat u) = flat (globalMult (line ℝ 1 none .PMC .SMA) u)) (src : ℝ → State (Fin 4) ℝ) (o : Ode)
    (u : State (Fin 4) ℝ) :
    ∃ y c c', run q o (globalTdo A fun t => flat (src t)) [1, 2] (flat u) 0 fresh = some (flat y, 0 + [1, 2].sum, c) ∧
      run q o (globalTdo A' fun t => flat (dual (src t))) [1, 2] (flat (dual u)) 0 fresh = some (flat (dual y), 0 + [1, 2].sum, c') :=
  C171_run q hq _ _ (line_passive 1 (by norm_num) none (by simp) _ _) rfl A hA A' hA' src o [1, 2] (by
    intro dt h
    simp only [List.mem_cons, List.not_mem_nil, or_false] at h
    rcases h with rfl | rfl <;> norm_num) u 0

/-- Conductors have no dual: there is no magnetic conductivity. -/
theorem C171_violated : globalMult (dualProb { line ℚ 0 none .PEC .PEC with Msig := lineMass ℚ }) (dual lineU) ≠
    dual (globalMult { line ℚ 0 none .PEC .PEC with Msig := lineMass ℚ } lineU) := by
  decide +kernel

end Dgtd.Dual
