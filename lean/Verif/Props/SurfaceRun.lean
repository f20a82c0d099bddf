/-
C181: the cross sections of a run do not depend on the number of ranks.
-/
import Verif.Spec.SurfaceRun
import Verif.Props.SurfaceDirs
import Verif.Props.Rcs

set_option linter.unusedSectionVars false

namespace Dgtd.SurfaceRun
open Spec Dgtd.SurfaceDirs Dgtd.SurfaceDirs.Spec
open Dgtd.ProbeFiles (Path FS Op exec execAll)
open Dgtd.Rcs (Face Snapshot Angles PlaneWave)
open Dgtd.Rcs.Spec (samples samplesOf sampleOf WF AwayFromOrigin)

noncomputable section

variable {T : Type}

open Classical in
/-- The recorded moments. -/
def kept (final : ℝ) (steps : Int) (hist : List Moment) : List Moment :=
  hist.filter fun m => (m.cycle : Int) % steps = 0 ∨ |m.time - final| < 1 / 100000000

/-- Their fields, as snapshots of the whole problem. -/
def whole (final : ℝ) (steps : Int) (hist : List Moment) : List Snapshot := (kept final steps hist).map fun m => ⟨m.time, m.u⟩

lemma expected_snaps (A : Parallel) (final : ℝ) (hist : List Moment) (p : Probe Piece) (g : Piece) (r : Nat) :
    (expected (A.run final hist) p g r).snaps = (kept final p.steps hist).map fun m => (m.time, g, fun c v => m.u c (A.glob r v)) := by
  classical
  unfold expected kept Parallel.run
  simp only [List.filter_map, List.map_map]
  congr 1
  exact List.filter_congr fun m _ => decide_eq_decide.2 Iff.rfl

lemma rank_samples (is3D : Bool) (A : Parallel) (final : ℝ) (hist : List Moment) (p : Probe Piece) (g : Piece) (r : Nat) :
    samplesOf is3D (toRank (expected (A.run final hist) p g r)) =
      (g.faces.map (globalFace fun v => A.glob r (g.at' v))).flatMap fun f => f.pts.map (sampleOf is3D (whole final p.steps hist) f) := by
  unfold samplesOf
  rw [List.flatMap_map]
  show g.faces.flatMap _ = _
  refine List.flatMap_congr fun f _ => ?_
  show f.pts.map _ = f.pts.map _
  refine List.map_congr_left fun q _ => ?_
  unfold sampleOf
  simp only [Rcs.Spec.Sample.mk.injEq, true_and]
  unfold toRank whole
  simp only [expected_snaps, List.map_map]
  refine List.map_congr_left fun m _ => ?_
  simp only [Function.comp_apply, Prod.mk.injEq, true_and]
  funext c
  refine congrArg List.sum (List.map_congr_left fun i hi => ?_)
  have hi' : i < f.ndof := List.mem_range.1 hi
  simp only [globalFace, if_pos hi']

/-- What the post-processor gets is equivalent to the whole surface with the fields of the whole problem. -/
lemma all_samples (is3D : Bool) (A : Parallel) (final : ℝ) (hist : List Moment) (p : Probe Piece) (g : Nat → Piece)
    (hg : ∀ r < A.n, p.part r = some (g r)) (σ : List Nat) (hσ : σ.Perm (List.range A.n)) :
    (samples is3D (σ.map fun r => toRank (expected (A.run final hist) p (g r) r))).Perm
      ((surface A p).flatMap fun f => f.pts.map (sampleOf is3D (whole final p.steps hist) f)) := by
  unfold samples
  rw [List.flatMap_map]
  refine (hσ.flatMap_right _).trans ?_
  unfold surface
  rw [List.flatMap_assoc]
  refine List.Perm.of_eq (List.flatMap_congr fun r hr => ?_)
  rw [hg r (List.mem_range.1 hr), rank_samples]

/-- The ranks as the post-processor has them are those of C48. -/
lemma rank_facts (A : Parallel) (final : ℝ) (hist : List Moment) (p : Probe Piece) (hs : Sound A p) (g : Nat → Piece)
    (hg : ∀ r < A.n, p.part r = some (g r)) (σ : List Nat) (hσ : σ.Perm (List.range A.n)) :
    (∀ R ∈ σ.map fun r => toRank (expected (A.run final hist) p (g r) r), WF R) ∧
    ∀ R ∈ σ.map fun r => toRank (expected (A.run final hist) p (g r) r), R.snaps.map Snapshot.time = (kept final p.steps hist).map Moment.time := by
  refine ⟨fun R hR => ?_, fun R hR => ?_⟩
  · obtain ⟨r, hr, rfl⟩ := List.mem_map.1 hR
    have hr' := List.mem_range.1 (hσ.mem_iff.1 hr)
    exact fun f hf i hi => hs r hr' (g r) (hg r hr') f hf i hi
  · obtain ⟨r, hr, rfl⟩ := List.mem_map.1 hR
    unfold toRank
    simp only [expected_snaps, List.map_map]
    rfl

/-- **C181**: two runs of a problem whose ranks have their parts of the same fields — on one rank and on several, say, or on several divided in
different ways — give the same cross sections for a probe with the same surface, whatever was in the directories before, in whatever order the
ranks wrote, and however the folders are listed. -/
theorem C181_ranks (A B : Parallel) (final : ℝ) (hist : List Moment) (hA : 0 < A.n) (hB : 0 < B.n)
    (dA : (A.probes.map Probe.name).Nodup) (dB : (B.probes.map Probe.name).Nodup)
    (p : Probe Piece) (hp : p ∈ A.probes) (q : Probe Piece) (hq : q ∈ B.probes) (hpq : p.steps = q.steps)
    (sA : Sound A p) (sB : Sound B q) (hsurf : (surface A p).Perm (surface B q))
    (hrec : ∃ m ∈ hist, (m.cycle : Int) % p.steps = 0 ∨ |m.time - final| < 1 / 100000000)
    (oA oB : List (Op (Chunk ℝ Piece Fields T))) (eA : ∀ o ∈ oA, Earlier o) (eB : ∀ o ∈ oB, Earlier o)
    (trA trB : List (Nat × Op (Chunk ℝ Piece Fields T))) (fA : Finishes (A.run final hist) trA) (fB : Finishes (B.run final hist) trB)
    (lA lB : List String) (hlA : Listing (after (execAll [] oA) trA) (baseOf A.cuda A.n A.case p.name) lA)
    (hlB : Listing (after (execAll [] oB) trB) (baseOf B.cuda B.n B.case q.name) lB)
    (is3D : Bool) (haway : Away is3D (surface A p)) (maxTime : Option ℝ) (freqsHz : List ℝ) (angles : List Angles) (pw : PlaneWave) :
    crossSections is3D maxTime freqsHz angles pw (after (execAll [] oA) trA) (baseOf A.cuda A.n A.case p.name) lA =
      crossSections is3D maxTime freqsHz angles pw (after (execAll [] oB) trB) (baseOf B.cuda B.n B.case q.name) lB := by
  classical
  obtain ⟨gA, σA, hgA, pA, h0A, iA⟩ := C179_reads oA eA (A.run final hist) hA dA trA fA p hp lA hlA
  obtain ⟨gB, σB, hgB, pB, h0B, iB⟩ := C179_reads oB eB (B.run final hist) hB dB trB fB q hq lB hlB
  have iA' : inputs (after (execAll [] oA) trA) (baseOf A.cuda A.n A.case p.name) lA = _ := iA
  have iB' : inputs (after (execAll [] oB) trB) (baseOf B.cuda B.n B.case q.name) lB = _ := iB
  unfold crossSections
  rw [iA', iB', Option.bind_some, Option.bind_some, List.map_map, List.map_map]
  obtain ⟨w1, t1⟩ := rank_facts A final hist p sA gA hgA σA pA
  obtain ⟨w2, t2⟩ := rank_facts B final hist q sB gB hgB σB pB
  have s1 := all_samples is3D A final hist p gA hgA σA pA
  have s2 := all_samples is3D B final hist q gB hgB σB pB
  rw [← hpq] at t2 s2
  refine Rcs.C48_split is3D maxTime freqsHz angles pw _ _ ?_ ?_ w1 w2 ((kept final p.steps hist).map Moment.time) ?_ t1 t2 ?_ ?_
  · cases σA with
    | nil => cases h0A
    | cons => simp
  · cases σB with
    | nil => cases h0B
    | cons => simp
  · obtain ⟨m, hm, h⟩ := hrec
    have : m ∈ kept final p.steps hist := List.mem_filter.2 ⟨hm, by simpa using h⟩
    intro e
    rw [List.map_eq_nil_iff] at e
    rw [e] at this
    cases this
  · intro s hs
    have := s1.mem_iff.1 hs
    obtain ⟨f, hf, hs⟩ := List.mem_flatMap.1 this
    obtain ⟨x, hx, rfl⟩ := List.mem_map.1 hs
    exact haway f hf x hx
  · exact s1.trans ((hsurf.flatMap_right _).trans s2.symm)

/-! ### a case -/

/-- A face with one integration point, on the element that begins at an unknown. -/
def tile (x : ℝ) (first : Nat) : Face where
  ndof := 2
  dofs := fun i => first + i
  pts := [⟨![x, 1, 0], ![0, 1, 0], 1 / 2, fun _ => 1 / 2⟩]

/-- One rank with two faces; its four unknowns are those of the problem. -/
def alone : Parallel where
  cuda := false
  n := 1
  case := "plate"
  probes := [⟨"top", 1, fun _ => some ⟨4, [tile 0 0, tile 1 2], id⟩⟩]
  glob := fun _ v => v

/-- Two ranks with a face each; the second has its unknowns in another order. -/
def both : Parallel where
  cuda := false
  n := 2
  case := "plate"
  probes := [⟨"top", 1, fun r => some (if r = 0 then ⟨2, [tile 1 0], id⟩ else ⟨2, [tile 0 0], fun v => 1 - v⟩)⟩]
  glob := fun r v => if r = 0 then v + 2 else 1 - v

def story : List Moment := [⟨0, 0, fun _ _ => 0⟩, ⟨1, 1 / 2, fun c v => c.val + v⟩]

lemma tile_eq (x : ℝ) (a b : Nat) (num : Nat → Nat) (h0 : num a = b) (h1 : num (a + 1) = b + 1) :
    globalFace num (tile x a) = globalFace id (tile x b) := by
  simp only [globalFace, tile, Face.mk.injEq, true_and, and_true]
  funext i
  match i with
  | 0 => simpa using h0
  | 1 => simpa using h1
  | i + 2 => simp

lemma alone_surface (p : Probe Piece) (hp : p ∈ alone.probes) : surface alone p = [globalFace id (tile 0 0), globalFace id (tile 1 2)] := by
  simp only [alone, List.mem_cons, List.not_mem_nil, or_false] at hp
  subst hp
  rfl

lemma both_surface (p : Probe Piece) (hp : p ∈ both.probes) : surface both p = [globalFace id (tile 1 2), globalFace id (tile 0 0)] := by
  simp only [both, List.mem_cons, List.not_mem_nil, or_false] at hp
  subst hp
  rw [← tile_eq 1 0 2 (fun v => v + 2) rfl rfl, ← tile_eq 0 0 0 (fun v => 1 - (1 - v)) rfl rfl]
  rfl

lemma ends (A : Parallel) (h : ∀ p ∈ A.probes, p.steps = 1 ∧ ∀ r, p.part r ≠ none) :
    ∃ tr : List (Nat × Op (Chunk ℝ Piece Fields Nat)), Finishes (A.run (1 / 2) story) tr :=
  C180_partial (A.run (1 / 2) story) (fun p hp => by rw [(h p hp).1]; decide) fun p hp r _ => (h p hp).2 r

/-- One rank and two give the same. -/
example (angles : List Angles) (pw : PlaneWave) (oA oB : List (Op (Chunk ℝ Piece Fields Nat))) (eA : ∀ o ∈ oA, Earlier o)
    (eB : ∀ o ∈ oB, Earlier o) : ∃ trA trB lA lB, Finishes (alone.run (1 / 2) story) trA ∧ Finishes (both.run (1 / 2) story) trB ∧
      Listing (after (execAll [] oA) trA) (baseOf false 1 "plate" "top") lA ∧ Listing (after (execAll [] oB) trB) (baseOf false 2 "plate" "top") lB ∧
      crossSections true none [300000000] angles pw (after (execAll [] oA) trA) (baseOf false 1 "plate" "top") lA =
      crossSections true none [300000000] angles pw (after (execAll [] oB) trB) (baseOf false 2 "plate" "top") lB := by
  obtain ⟨trA, fA⟩ := ends alone fun p hp => by
    simp only [alone, List.mem_cons, List.not_mem_nil, or_false] at hp
    subst hp
    exact ⟨rfl, fun r => by simp⟩
  obtain ⟨trB, fB⟩ := ends both fun p hp => by
    simp only [both, List.mem_cons, List.not_mem_nil, or_false] at hp
    subst hp
    exact ⟨rfl, fun r => by simp⟩
  obtain ⟨lA, hA⟩ := listing_exists (after (execAll [] oA) trA) (baseOf false 1 "plate" "top")
  obtain ⟨lB, hB⟩ := listing_exists (after (execAll [] oB) trB) (baseOf false 2 "plate" "top")
  refine ⟨trA, trB, lA, lB, fA, fB, hA, hB, C181_ranks alone both (1 / 2) story (by decide) (by decide) (by decide) (by decide) _ List.mem_cons_self _ List.mem_cons_self
    rfl ?_ ?_ ?_ ⟨_, List.mem_cons_self, Or.inl rfl⟩ oA oB eA eB trA trB fA fB lA lB hA hB true ?_ none _ angles pw⟩
  · intro r _ g hg f hf i hi
    cases hg
    simp only [List.mem_cons, List.not_mem_nil, or_false] at hf
    rcases hf with rfl | rfl <;> simp only [tile] at hi ⊢ <;> omega
  · intro r _ g hg f hf i hi
    simp only [Option.some.injEq] at hg
    subst hg
    split at hf
    · rename_i h
      rw [if_pos h]
      simp only [List.mem_cons, List.not_mem_nil, or_false] at hf
      subst hf
      simp only [tile] at hi ⊢
      omega
    · rename_i h
      rw [if_neg h]
      simp only [List.mem_cons, List.not_mem_nil, or_false] at hf
      subst hf
      simp only [tile] at hi ⊢
      omega
  · rw [alone_surface _ List.mem_cons_self, both_surface _ List.mem_cons_self]
    exact List.Perm.swap _ _ _
  · intro f hf q hq h
    rw [alone_surface _ List.mem_cons_self] at hf
    simp only [List.mem_cons, List.not_mem_nil, or_false] at hf
    have : q.pos 1 = 1 := by
      rcases hf with rfl | rfl <;>
      · simp only [globalFace, tile, List.mem_cons, List.not_mem_nil, or_false] at hq
        subst hq
        simp
    rw [if_pos rfl] at h
    rw [h] at this
    simp at this

end

end Dgtd.SurfaceRun
