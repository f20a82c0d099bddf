/-
C46: surface data files round-trip.  C47: what a crash while exporting leaves behind.
-/
import Verif.Lemmas.SurfaceFile

namespace Dgtd.SurfaceFile

open Spec

lemma readSnaps_exact (ndofs : Nat) (snaps : List Snap) (hs : ∀ s ∈ snaps, Shaped ndofs s) (k : Nat) :
    readSnaps ndofs (ok ((snaps.flatMap snapBytes).take k)) = .ok (survivors ndofs snaps k) := by
  have hnd : ¬ ((ndofs : Int) < 0) := by omega
  have h4 := snapLoop_survivors ndofs snaps hs k (((snaps.flatMap snapBytes).take k).length + 1) (by omega) []
  unfold readSnaps
  rw [if_neg hnd, Int.toNat_natCast, h4, List.nil_append]

lemma readGeo_exact (sdim : Nat) (bs : List Bdr) (hcnt : countPts bs = (surfacePts bs).length) (u : List Byte) :
    readGeo (countPts bs * sdim) (countPts bs * 3) (countPts bs) (ok (geoBytes (collect sdim bs) ++ u)) =
      (ok u, collect sdim bs) := by
  have h1 := fun b => readDbls_exact ((surfacePts bs).flatMap fun q => (List.range sdim).map q.pos)
    (countPts bs * sdim) (by rw [length_positions, hcnt]) b
  have h2 := fun b => readDbls_exact ((surfacePts bs).flatMap fun q => [q.nor 0, q.nor 1, q.nor 2])
    (countPts bs * 3) (by rw [length_normals, hcnt]) b
  have h3 := fun b => readDbls_exact ((surfacePts bs).map QPt.w) (countPts bs) (by rw [List.length_map, hcnt]) b
  simp only [readGeo, geoBytes, collect_eq, List.append_assoc, h1, h2, h3]

lemma readSized_nat (sdim ndofs : Nat) (basis : Int) (bs : List Bdr) (np nn : Nat) (s : Stream) :
    readSized sdim ndofs bs.length (countPts bs) basis np nn s =
      pack sdim ndofs bs.length (countPts bs) basis (readGeo np nn (countPts bs) s).2
        (readSnaps ndofs (readGeo np nn (countPts bs) s).1) := by
  have hneg : ¬ ((np : Int) < 0 ∨ (nn : Int) < 0 ∨ ((countPts bs : Nat) : Int) < 0) := by omega
  rw [readSized, if_neg hneg, Int.toNat_natCast, Int.toNat_natCast, Int.toNat_natCast]

lemma readBody_sized (sdim ndofs nbdr nqp basis : Int) (s : Stream) (x y : Int) (m1 : mulInt nqp sdim = some x)
    (m2 : mulInt nqp 3 = some y) :
    readBody sdim ndofs nbdr nqp basis s = readSized sdim ndofs nbdr nqp basis x y s := by
  unfold readBody
  rw [m1]
  simp only
  rw [m2]

lemma readBody_exact (sdim ndofs : Nat) (basis : Int) (bs : List Bdr) (snaps : List Snap)
    (hs : ∀ s ∈ snaps, Shaped ndofs s) (k : Nat)
    (m1 : mulInt (countPts bs) sdim = some ((countPts bs * sdim : Nat) : Int))
    (m2 : mulInt ((countPts bs : Nat) : Int) 3 = some ((countPts bs * 3 : Nat) : Int))
    (hcnt : countPts bs = (surfacePts bs).length) :
    readBody sdim ndofs bs.length (countPts bs) basis
        (ok (geoBytes (collect sdim bs) ++ (snaps.flatMap snapBytes).take k)) =
      .data { contents sdim ndofs basis bs [] with snaps := survivors ndofs snaps k } := by
  rw [readBody_sized _ _ _ _ _ _ _ _ m1 m2, readSized_nat, readGeo_exact sdim bs hcnt, readSnaps_exact ndofs snaps hs,
    pack, collect_eq, contents, ← hcnt]

/-- What the reader makes of a file cut after the geometry: header and geometry in full, and of the snapshots what
`survivors` says. -/
theorem C47_exact (sdim ndofs : Nat) (basis : Int) (bs : List Bdr) (snaps : List Snap)
    (hfit : Fits sdim ndofs basis bs) (hs : ∀ s ∈ snaps, Shaped ndofs s) (k : Nat) (hk : geoSize sdim bs ≤ k) :
    readFile ((fileBytes sdim ndofs basis bs snaps).take k) =
      .data { contents sdim ndofs basis bs [] with snaps := survivors ndofs snaps (k - geoSize sdim bs) } := by
  have hh := length_header sdim ndofs bs.length (countPts bs) basis
  have hg := length_geo sdim bs
  have hsplit : (fileBytes sdim ndofs basis bs snaps).take k =
      headerBytes sdim ndofs bs.length (countPts bs) basis ++
        (geoBytes (collect sdim bs) ++ (snaps.flatMap snapBytes).take (k - geoSize sdim bs)) := by
    have h2 : (headerBytes sdim ndofs bs.length (countPts bs) basis ++ geoBytes (collect sdim bs)).length =
        geoSize sdim bs := by rw [List.length_append, hh, hg, geoSize]
    rw [fileBytes, List.take_append, h2, List.take_of_length_le (by omega), List.append_assoc]
  rw [hsplit, readFile]
  rw [read_exact _ _ _ (by rw [List.length_replicate, hh])]
  have hcnt := countPts_eq bs
  have hc1 : (surfacePts bs).length < 2 ^ 31 := by have := hfit.normals; omega
  obtain ⟨f0, f1, f2, f3, f4⟩ := header_fields sdim ndofs bs.length (countPts bs) basis
    (by have := hfit.hsdim; omega) (by have := hfit.hndofs; omega) (by have := hfit.hnbdr; omega)
    (by rw [hcnt]; omega) hfit.hbasis
  simp only [Bool.false_eq_true, if_false, f0, f1, f2, f3, f4]
  have m1 := mulInt_nat (countPts bs) sdim (by rw [hcnt]; exact hfit.coords)
  have m2 : mulInt ((countPts bs : Nat) : Int) 3 = some ((countPts bs * 3 : Nat) : Int) :=
    mulInt_nat (countPts bs) 3 (by rw [hcnt]; exact hfit.normals)
  exact readBody_exact sdim ndofs basis bs snaps hs _ m1 m2 hcnt

lemma survivors_all (n : Nat) (snaps : List Snap) (k : Nat) (hk : snaps.length * snapSize n ≤ k) :
    survivors n snaps k = snaps := by
  induction snaps generalizing k with
  | nil => rfl
  | cons s r ih =>
    rw [List.length_cons, Nat.add_mul, Nat.one_mul] at hk
    rw [survivors, if_pos (by omega), ih _ (by omega)]

lemma length_snaps (n : Nat) (snaps : List Snap) (hs : ∀ s ∈ snaps, Shaped n s) :
    (snaps.flatMap snapBytes).length = snaps.length * snapSize n := by
  induction snaps with
  | nil => simp
  | cons s r ih =>
    rw [List.flatMap_cons, List.length_append, length_snapBytes n s (hs s (by simp)),
      ih fun s h => hs s (by simp [h]), List.length_cons, Nat.add_mul]
    omega

lemma length_file (sdim ndofs : Nat) (basis : Int) (bs : List Bdr) (snaps : List Snap)
    (hs : ∀ s ∈ snaps, Shaped ndofs s) :
    (fileBytes sdim ndofs basis bs snaps).length = geoSize sdim bs + snaps.length * snapSize ndofs := by
  rw [fileBytes, List.length_append, List.length_append, length_header, length_geo, length_snaps _ _ hs, geoSize]

/-- **C46**.  Reading a file returns the header, the geometry and the snapshots that were written. -/
theorem C46_round_trip (sdim ndofs : Nat) (basis : Int) (bs : List Bdr) (snaps : List Snap)
    (hfit : Fits sdim ndofs basis bs) (hs : ∀ s ∈ snaps, Shaped ndofs s) :
    readFile (fileBytes sdim ndofs basis bs snaps) = .data (contents sdim ndofs basis bs snaps) := by
  have hl := length_file sdim ndofs basis bs snaps hs
  have h := C47_exact sdim ndofs basis bs snaps hfit hs (fileBytes sdim ndofs basis bs snaps).length (by omega)
  rw [List.take_length, hl, Nat.add_sub_cancel_left, survivors_all _ _ _ (Nat.le_refl _)] at h
  exact h

/-- The number of integration points in the header is the number of points in the arrays. -/
theorem C46_header_count (sdim : Nat) (bs : List Bdr) :
    (collect sdim bs).weights.length = countPts bs ∧ (collect sdim bs).normals.length = 3 * countPts bs ∧
      (collect sdim bs).positions.length = sdim * countPts bs := by
  simp only [collect_eq, countPts_eq, List.length_map, length_normals, length_positions, true_and]
  exact ⟨Nat.mul_comm _ _, Nat.mul_comm _ _⟩

lemma snapLoop_terminates (n : Nat) (fuel : Nat) (s : Stream) (h : s.rest.length < fuel) (acc : List Snap) :
    (snapLoop n fuel s acc).isSome := by
  induction fuel generalizing s acc with
  | zero => omega
  | succ f ih =>
    rw [snapLoop]
    by_cases hg : s.good
    · obtain ⟨rest, fl, ef⟩ := s
      simp only [Stream.good, Bool.and_eq_true, Bool.not_eq_true'] at hg
      obtain ⟨rfl, rfl⟩ := hg
      by_cases hr : rest = []
      · subst hr
        simp [Stream.peek, Stream.good]
      · simp only [peek_ok _ hr, Bool.true_eq_false, if_false]
        by_cases h8 : 8 ≤ rest.length
        · have hrd : (ok rest).read (List.replicate 8 0) = (ok (rest.drop 8), rest.take 8) := by
            conv_lhs => rw [← List.take_append_drop 8 rest]
            exact read_exact _ _ _ (by simp [h8])
          simp only [hrd, Bool.false_eq_true, if_false]
          apply ih
          have hle : ∀ (k : Nat) (s : Stream), (readComps n k s).1.rest.length ≤ s.rest.length := by
            intro k
            induction k with
            | zero => intro s; exact Nat.le_refl _
            | succ k ihk =>
              intro s
              simp only [readComps, readDbls]
              refine Nat.le_trans (ihk _) ?_
              simp only [Stream.read]
              split <;> simp
          have := hle 6 (ok (rest.drop 8))
          simp only [List.length_drop] at this h
          omega
        · rw [read_short rest _ (by simpa using h8)]
          simp
    · have hg' : s.good = false := by simpa using hg
      simp [Stream.peek, hg']

/-- The reader terminates on every file. -/
theorem C46_reader_terminates (bytes : List Byte) : readFile bytes ≠ .stuck := by
  rw [readFile]
  simp only
  split
  · simp
  · rw [readBody]
    split
    · simp
    · split
      · simp
      · rw [readSized]
        split
        · simp
        · generalize (readGeo _ _ _ _).1 = st
          unfold readSnaps
          split
          · split <;> simp [pack]
          · split
            · rename_i h
              have := snapLoop_terminates _ (st.rest.length + 1) st (by omega) _ |>.symm.trans (by rw [h])
              simp at this
            · simp [pack]

/-- **C47** (partial).  Every snapshot written completely before the crash is read back, in order, and at most one
more entry follows.  Missing: that nothing follows, which is false (`C47_violated`). -/
theorem C47_complete_snapshots_survive_partial (sdim ndofs : Nat) (basis : Int) (bs : List Bdr) (snaps : List Snap)
    (hfit : Fits sdim ndofs basis bs) (hs : ∀ s ∈ snaps, Shaped ndofs s) (k : Nat) (hk : geoSize sdim bs ≤ k) :
    ∃ extra : List Snap, extra.length ≤ 1 ∧
      readFile ((fileBytes sdim ndofs basis bs snaps).take k) =
        .data (contents sdim ndofs basis bs
          (snaps.take ((k - geoSize sdim bs) / snapSize ndofs) ++ extra)) ∧
      ((k - geoSize sdim bs) % snapSize ndofs < 8 → extra = []) := by
  have hp : 0 < snapSize ndofs := by simp [snapSize]
  have key : ∀ (snaps : List Snap) (k : Nat), ∃ extra : List Snap, extra.length ≤ 1 ∧
      survivors ndofs snaps k = snaps.take (k / snapSize ndofs) ++ extra ∧
      (k % snapSize ndofs < 8 → extra = []) := by
    intro snaps
    induction snaps with
    | nil => intro k; exact ⟨[], by simp, by simp [survivors], fun _ => rfl⟩
    | cons s r ih =>
      intro k
      by_cases h : snapSize ndofs ≤ k
      · obtain ⟨e, e1, e2, e3⟩ := ih (k - snapSize ndofs)
        refine ⟨e, e1, ?_, ?_⟩
        · rw [survivors, if_pos h, e2]
          obtain ⟨m, hm⟩ : ∃ m, k = m + snapSize ndofs := ⟨k - snapSize ndofs, by omega⟩
          subst hm
          rw [Nat.add_sub_cancel, Nat.add_div_right _ hp, List.take_succ_cons, List.cons_append]
        · intro h8
          apply e3
          rw [← Nat.mod_eq_sub_mod h]
          exact h8
      · have h0 : k / snapSize ndofs = 0 := Nat.div_eq_of_lt (by omega)
        have h1 : k % snapSize ndofs = k := Nat.mod_eq_of_lt (by omega)
        rw [survivors, if_neg h, h0, h1]
        by_cases h8 : 8 ≤ k
        · rw [if_pos h8]
          exact ⟨[cut ndofs s k], by simp, by simp, fun h => by omega⟩
        · rw [if_neg h8]
          exact ⟨[], by simp, by simp, fun _ => rfl⟩
  obtain ⟨e, e1, e2, e3⟩ := key snaps (k - geoSize sdim bs)
  refine ⟨e, e1, ?_, e3⟩
  rw [C47_exact sdim ndofs basis bs snaps hfit hs k hk, e2]
  rfl

/-! ### the failing case -/

/-- A surface with one quadrature point in two dimensions. -/
def wBdr : List Bdr := [⟨true, true, [⟨fun _ => 1, fun _ => 2, 3⟩]⟩, ⟨false, true, [⟨fun _ => 1, fun _ => 2, 3⟩]⟩]

def wSnap (t : Dbl) : Snap := ⟨t, List.replicate 6 [0xABCDEF0123456789]⟩

lemma w_fits : Fits 2 1 0 wBdr := ⟨by norm_num, by norm_num, by simp [wBdr], by norm_num, by simp [wBdr, surfacePts],
  by simp [wBdr, surfacePts]⟩

lemma w_shaped (t : Dbl) : Shaped 1 (wSnap t) := ⟨rfl, by simp [wSnap]⟩

/-- **C47** is false: cut 12 bytes into the first component of the second snapshot, the file reads as two snapshots; the
second has the right time, half a number, and zeros. -/
theorem C47_violated :
    ∃ (sdim ndofs : Nat) (basis : Int) (bs : List Bdr) (snaps : List Snap) (k : Nat) (d : Data),
      Fits sdim ndofs basis bs ∧ (∀ s ∈ snaps, Shaped ndofs s) ∧ geoSize sdim bs ≤ k ∧
      readFile ((fileBytes sdim ndofs basis bs snaps).take k) = .data d ∧ ¬ d.snaps <+: snaps := by
  refine ⟨2, 1, 0, wBdr, [wSnap 7, wSnap 8], geoSize 2 wBdr + snapSize 1 + 12, _, w_fits, ?_, by omega,
    C47_exact 2 1 0 wBdr _ w_fits ?_ _ (by omega), ?_⟩
  · intro s hs
    simp only [List.mem_cons, List.not_mem_nil, or_false] at hs
    rcases hs with rfl | rfl <;> exact w_shaped _
  · intro s hs
    simp only [List.mem_cons, List.not_mem_nil, or_false] at hs
    rcases hs with rfl | rfl <;> exact w_shaped _
  · decide +kernel

/-- The extra entry in the witness. -/
example : survivors 1 [wSnap 7, wSnap 8] (snapSize 1 + 12) =
    [wSnap 7, ⟨8, [[0x23456789], [0], [0], [0], [0], [0]]⟩] := by decide +kernel

/-- The round trip on concrete bytes. -/
example : readFile (fileBytes 2 1 0 wBdr [wSnap 7, wSnap 8]) = .data
    ⟨2, 1, 2, 1, 0, [1, 1], [2, 2, 2], [3], [wSnap 7, wSnap 8]⟩ := by decide +kernel

end Dgtd.SurfaceFile
