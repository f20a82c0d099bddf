/-
C103 and C104: the cadence and the surface that a case declares for its probes.
-/
import Verif.Model.ProbeCfg
import Verif.Spec.ProbeFiles
import Verif.Props.ProbeFiles
import Mathlib.Data.Rat.Floor
import Mathlib.Data.List.Nodup

set_option linter.unusedSectionVars false

namespace Dgtd.ProbeCfg
open Dgtd.Config (Err)
open Dgtd.SourceCfg (member)
open Dgtd.TimeLoop (gate)

variable {K : Type} [Field K] [LinearOrder K] [FloorRing K]

/-- **C103** (partial): a probe with `steps` and without `saves` keeps exactly that interval, whatever the time step.
Missing: `steps` together with `saves` (`C103_violated_both`), an interval of zero (`C103_violated_zero`). -/
theorem C103_steps_partial (o : Opts K) (final dt : K) (s : Int) :
    ∃ p, effective o final dt ⟨some s, none⟩ = .ok p ∧ p.steps = s := by
  refine ⟨⟨s, 0, true, []⟩, ?_, rfl⟩
  have e : effective o final dt ⟨some s, none⟩ = .ok (TimeLoop.recalculate final dt ⟨s, 0, true, []⟩) := rfl
  rw [e]
  unfold TimeLoop.recalculate
  split <;> simp

/-- **C103** (partial): a probe with `saves` in a case that gives the final time and the time step records at an interval that
only depends on the number of saves and on the number of steps of the run; also when the time step is automatic (zero in the
file).  Missing: cases without these members (`C103_violated_missing`). -/
theorem C103_saves_partial (final dt t : K) (hdt : 0 < dt) (n : Int) (hn : 0 < n) :
    ∃ p, effective ⟨some final, some t⟩ final dt ⟨none, some n⟩ = .ok p ∧
      p.steps = max 1 (⌈final / dt⌉.tdiv n) := by
  have e : ∃ s, interval (K := K) ⟨some final, some t⟩ ⟨none, some n⟩ = .ok s := by
    unfold interval
    simp only [if_neg (not_le.2 hn)]
    show ∃ s, (if t ≤ 0 then Except.ok 1 else _) = Except.ok s
    split <;> exact ⟨_, rfl⟩
  obtain ⟨s, hs⟩ := e
  have e : effective (K := K) ⟨some final, some t⟩ final dt ⟨none, some n⟩ =
      .ok (TimeLoop.recalculate final dt ⟨s, n, true, []⟩) := by
    unfold effective buildProbe
    rw [hs]
    rfl
  refine ⟨_, e, ?_⟩
  unfold TimeLoop.recalculate
  rw [if_neg (not_le.2 hdt), if_pos hn]
  unfold TimeLoop.stepsFromSaves TimeLoop.totalSteps
  simp only [if_neg (not_le.2 hn)]

/-- **C103** (partial): without `steps` the interval that is read from the case is at least one, whatever the rest of the
entry; the run may start with it. -/
theorem C103_read_partial (o : Opts K) (saves : Option Int) {s : Int} (h : interval o ⟨none, saves⟩ = .ok s) : 1 ≤ s := by
  unfold interval at h
  cases saves with
  | none => cases h; exact le_refl 1
  | some n =>
    simp only at h
    split at h
    · cases h; exact le_refl 1
    · obtain ⟨f, t⟩ := o
      cases f with
      | none => cases h
      | some f =>
        cases t with
        | none => cases h
        | some t =>
          change (if t ≤ 0 then Except.ok 1 else Except.ok (max 1 (Int.tdiv ⌈f / t⌉ n))) = Except.ok s at h
          split at h <;> cases h
          · exact le_refl 1
          · exact le_max_left _ _

/-- More saves asked for than steps: every step. -/
example : interval (K := ℚ) ⟨some 1, some (1 / 2)⟩ ⟨none, some 10⟩ = .ok 1 := by decide +kernel

/-- Without `steps` nor `saves` every step is recorded. -/
theorem C103_default_partial (o : Opts K) (final dt : K) :
    ∃ p, effective o final dt ⟨none, none⟩ = .ok p ∧ p.steps = 1 := by
  refine ⟨⟨1, 0, true, []⟩, ?_, rfl⟩
  have e : effective o final dt ⟨none, none⟩ = .ok (TimeLoop.recalculate final dt ⟨1, 0, true, []⟩) := rfl
  rw [e]
  unfold TimeLoop.recalculate
  split <;> simp

/-- **C103** fails: asking for a number of saves in a case without a time step (an automatic one) or without a final time (the
default) reads a member that is not there. -/
theorem C103_violated_missing (o : Opts K) (h : o.finalTime = none ∨ o.timeStep = none) (n : Int) (hn : 0 < n) :
    interval o ⟨none, some n⟩ = .error .ub := by
  unfold interval
  simp only [if_neg (not_le.2 hn)]
  obtain ⟨f, t⟩ := o
  cases f with
  | none => rfl
  | some f =>
    cases t with
    | none => rfl
    | some t => rcases h with h | h <;> cases h

/-- **C103** fails: an interval of zero is accepted and the first instant of a run that has not reached its end divides by it. -/
theorem C103_violated_zero (o : Opts K) (final dt : K) (h : 1 / 100000000 ≤ |final|) :
    ∃ p, effective o final dt ⟨some 0, none⟩ = .ok p ∧ gate final 0 p.steps 0 = none := by
  obtain ⟨p, hp, hs⟩ := C103_steps_partial o final dt 0
  refine ⟨p, hp, ?_⟩
  rw [hs]
  unfold gate TimeLoop.slack
  rw [if_pos (by simpa using h), if_pos rfl]

/-- **C103** fails: an interval given along with a number of saves is not the one of the run. -/
theorem C103_violated_both :
    ∃ p, effective (K := ℚ) ⟨some 100, some 1⟩ 100 1 ⟨some 7, some 10⟩ = .ok p ∧ p.steps = 10 := by
  refine ⟨⟨10, 10, true, []⟩, ?_, rfl⟩
  have e : effective (K := ℚ) ⟨some 100, some 1⟩ 100 1 ⟨some 7, some 10⟩ =
    .ok (TimeLoop.recalculate 100 1 ⟨7, 10, true, []⟩) := rfl
  rw [e]
  unfold TimeLoop.recalculate TimeLoop.stepsFromSaves TimeLoop.totalSteps
  norm_num
  decide

/-- The probes of a case have different numbers, so `C100_file` applies to them. -/
theorem C100_numbers (points fields : List (Int × (Nat → Int))) : ProbeFiles.Spec.DistinctIds (numbered points fields) := by
  have h : ∀ (k : ProbeFiles.Kind) (es : List (Int × (Nat → Int))),
      ((number k es).map fun p => (p.kind, p.id)) = (List.range es.length).map fun i => (k, i) := by
    intro k es
    unfold number
    apply List.ext_getElem
    · simp
    · intro i h1 h2
      simp
  unfold ProbeFiles.Spec.DistinctIds numbered
  rw [List.map_append, h, h, List.nodup_append]
  refine ⟨?_, ?_, ?_⟩
  · exact List.nodup_range.map fun a b h => by simpa using h
  · exact List.nodup_range.map fun a b h => by simpa using h
  · intro a ha b hb hab
    obtain ⟨i, -, rfl⟩ := List.mem_map.1 ha
    obtain ⟨j, -, rfl⟩ := List.mem_map.1 hb
    cases (Prod.mk.inj hab).1

example : numbered [(1, fun _ => 0), (2, fun _ => 0)] [(3, fun _ => 0)] ≠ [] := by simp [numbered, number]

/-! ### C104 -/

theorem surfaceMarker_fold (maxAttr : Nat) (tags : List Int) (m m' : List Nat)
    (h : tags.foldlM (fun (m : List Nat) (t : Int) =>
      if 1 ≤ t ∧ t ≤ maxAttr then Except.ok (m.set (t - 1).toNat 1) else Except.error Err.ub) m = .ok m') :
    (∀ t ∈ tags, 1 ≤ t ∧ t ≤ maxAttr) ∧ m'.length = m.length ∧
      ∀ i < m.length, m'[i]? = if (i + 1 : Int) ∈ tags then some 1 else m[i]? := by
  induction tags generalizing m with
  | nil =>
    cases h
    simp
  | cons t ts ih =>
    rw [List.foldlM_cons] at h
    by_cases ht : 1 ≤ t ∧ t ≤ maxAttr
    · rw [if_pos ht] at h
      obtain ⟨h1, h2, h3⟩ := ih _ h
      refine ⟨?_, by simpa using h2, ?_⟩
      · intro x hx
        rcases List.mem_cons.1 hx with rfl | hx
        · exact ht
        · exact h1 x hx
      · intro i hi
        rw [h3 i (by simpa using hi), List.getElem?_set]
        by_cases hm : (i + 1 : Int) ∈ ts
        · rw [if_pos hm, if_pos (List.mem_cons_of_mem _ hm)]
        · rw [if_neg hm]
          by_cases hit : (i + 1 : Int) = t
          · have : (t - 1).toNat = i := by omega
            rw [if_pos this, if_pos (by omega), if_pos (by rw [hit]; simp)]
          · have : (t - 1).toNat ≠ i := by omega
            rw [if_neg this, if_neg (by simp [hit, hm])]
    · rw [if_neg ht] at h
      cases h

/-- **C104** (partial): when the marker of a recorded surface is built, it marks exactly the declared tags.  Missing: tags that the
mesh does not have are not reported (`C104_violated_beyond`, `C104_violated_absent`). -/
theorem C104_marker_partial (maxAttr : Nat) (tags : List Int) (m : List Nat) (h : surfaceMarker maxAttr tags = .ok m) :
    m.length = maxAttr ∧ ∀ i < maxAttr, (m[i]? = some 1 ↔ (i + 1 : Int) ∈ tags) ∧ (m[i]? = some 0 ↔ (i + 1 : Int) ∉ tags) := by
  obtain ⟨-, h2, h3⟩ := surfaceMarker_fold maxAttr tags _ m h
  rw [List.length_replicate] at h2 h3
  refine ⟨h2, fun i hi => ?_⟩
  rw [h3 i hi]
  have e : (List.replicate maxAttr 0)[i]? = some 0 := by simp [hi]
  rw [e]
  split <;> simp [*]

/-- Tags of the mesh are always accepted. -/
theorem C104_accepted_partial (maxAttr : Nat) (tags : List Int) (h : ∀ t ∈ tags, 1 ≤ t ∧ t ≤ maxAttr) :
    ∃ m, surfaceMarker maxAttr tags = .ok m := by
  unfold surfaceMarker
  generalize List.replicate maxAttr 0 = m
  induction tags generalizing m with
  | nil => exact ⟨m, rfl⟩
  | cons t ts ih =>
    rw [List.foldlM_cons, if_pos (h t (by simp))]
    exact ih (fun x hx => h x (List.mem_cons_of_mem _ hx)) _

/-- **C104** fails: a tag outside the attributes of the mesh writes outside the array. -/
theorem C104_violated_beyond (maxAttr : Nat) (tags : List Int) (t : Int) (ht : t ∈ tags) (h : t < 1 ∨ maxAttr < t) :
    surfaceMarker maxAttr tags = .error .ub := by
  cases hm : surfaceMarker maxAttr tags with
  | ok m =>
    have := (surfaceMarker_fold maxAttr tags _ m hm).1 t ht
    omega
  | error e =>
    suffices hs : ∀ m : List Nat, ∀ e, tags.foldlM (fun (m : List Nat) (t : Int) =>
        if 1 ≤ t ∧ t ≤ maxAttr then Except.ok (m.set (t - 1).toNat 1) else Except.error Err.ub) m = .error e → e = .ub from
      congrArg _ (hs _ _ hm)
    clear hm ht h e
    induction tags with
    | nil => intro m e h; cases h
    | cons t ts ih =>
      intro m e h
      rw [List.foldlM_cons] at h
      by_cases ht : 1 ≤ t ∧ t ≤ maxAttr
      · rw [if_pos ht] at h
        exact ih _ _ h
      · rw [if_neg ht] at h
        cases h
        rfl

/-- **C104** fails: a tag below the largest attribute that no boundary element has selects nothing, without a message: the attributes
of the mesh are 1 and 3. -/
theorem C104_violated_absent : ∃ m, surfaceMarker 3 [2] = .ok m ∧ ∀ a ∈ [1, 3], m[a - 1]? = some 0 :=
  ⟨[0, 1, 0], by decide +kernel, by decide⟩

example : surfaceMarker 4 [2, 4, 2] = .ok [0, 1, 0, 1] := by decide +kernel

end Dgtd.ProbeCfg
