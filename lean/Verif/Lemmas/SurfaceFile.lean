import Verif.Spec.SurfaceFile
import Mathlib.Tactic.Ring
import Mathlib.Tactic.NormNum

namespace Dgtd.SurfaceFile

open Spec

lemma length_leBytes (n x : Nat) : (leBytes n x).length = n := by
  induction n generalizing x with
  | zero => rfl
  | succ n ih => simp [leBytes, ih]

lemma leValue_leBytes (n x : Nat) : leValue (leBytes n x) = x % 256 ^ n := by
  induction n generalizing x with
  | zero => simp [leBytes, leValue, Nat.mod_one]
  | succ n ih =>
    simp only [leBytes, leValue, ih]
    have h : (UInt8.ofNat (x % 256)).toNat = x % 256 := by
      simp
    rw [h, pow_succ, Nat.mul_comm (256 ^ n) 256, Nat.mod_mul]

lemma length_dblBytes (d : Dbl) : (dblBytes d).length = 8 := length_leBytes _ _

lemma length_intBytes (d : Int) : (intBytes d).length = 4 := length_leBytes _ _

lemma bytesDbl_dblBytes (d : Dbl) : bytesDbl (dblBytes d) = d := by
  unfold bytesDbl dblBytes
  rw [leValue_leBytes]
  apply BitVec.eq_of_toNat_eq
  have := d.isLt
  rw [BitVec.toNat_ofNat]
  omega

lemma bytesInt_intBytes (i : Int) (h1 : -2 ^ 31 ≤ i) (h2 : i < 2 ^ 31) : bytesInt (intBytes i) = i := by
  unfold bytesInt intBytes
  rw [leValue_leBytes]
  have e : (BitVec.ofNat 32 ((BitVec.ofInt 32 i).toNat % 256 ^ 4)) = BitVec.ofInt 32 i := by
    apply BitVec.eq_of_toNat_eq
    have := (BitVec.ofInt 32 i).isLt
    rw [BitVec.toNat_ofNat]
    omega
  rw [e, BitVec.toInt_ofInt]
  rw [Int.bmod_def]
  omega

lemma length_dblsBytes (ds : List Dbl) : (dblsBytes ds).length = 8 * ds.length := by
  induction ds with
  | nil => rfl
  | cons d r ih =>
    simp only [dblsBytes, List.flatMap_cons, List.length_append, length_dblBytes, List.length_cons] at ih ⊢
    omega

lemma bytesDbls_dblsBytes (ds : List Dbl) (r : List Byte) : bytesDbls ds.length (dblsBytes ds ++ r) = ds := by
  induction ds with
  | nil => rfl
  | cons d l ih =>
    simp only [List.length_cons, bytesDbls, dblsBytes, List.flatMap_cons, List.append_assoc]
    rw [List.take_append_of_le_length (by rw [length_dblBytes]), List.take_of_length_le (by rw [length_dblBytes]),
      bytesDbl_dblBytes, List.drop_append_of_le_length (by rw [length_dblBytes]),
      List.drop_of_length_le (by rw [length_dblBytes]), List.nil_append]
    rw [dblsBytes] at ih
    rw [ih]

/-! ### streams -/

/-- A stream in the normal state. -/
abbrev ok (b : List Byte) : Stream := ⟨b, false, false⟩

lemma read_exact (a b buf : List Byte) (h : buf.length = a.length) : (ok (a ++ b)).read buf = (ok b, a) := by
  simp [Stream.read, Stream.good, h]

lemma read_short (a buf : List Byte) (h : a.length < buf.length) :
    (ok a).read buf = (⟨[], true, true⟩, a ++ buf.drop a.length) := by
  have h1 : a.take buf.length = a := List.take_of_length_le (by omega)
  have h2 : a.drop buf.length = [] := List.drop_of_length_le (by omega)
  simp [Stream.read, Stream.good, h1, h2, h]

lemma read_bad (s : Stream) (buf : List Byte) (h : s.good = false) : s.read buf = ({ s with fail := true }, buf) := by
  simp [Stream.read, h]

lemma readDbls_exact (ds : List Dbl) (n : Nat) (hn : ds.length = n) (b : List Byte) :
    readDbls (ok (dblsBytes ds ++ b)) n = (ok b, ds) := by
  subst hn
  simp only [readDbls]
  rw [read_exact _ _ _ (by simp [length_dblsBytes])]
  have := bytesDbls_dblsBytes ds []
  rw [List.append_nil] at this
  rw [this]

lemma readComps_exact (n : Nat) (cs : List (List Dbl)) (h : ∀ c ∈ cs, c.length = n) (b : List Byte) :
    readComps n cs.length (ok (cs.flatMap dblsBytes ++ b)) = (ok b, cs) := by
  induction cs with
  | nil => rfl
  | cons c r ih =>
    simp only [List.length_cons, readComps, List.flatMap_cons, List.append_assoc]
    rw [readDbls_exact c n (h c (by simp))]
    simp only [ih fun c hc => h c (by simp [hc])]

lemma readComps_bad (n k : Nat) (s : Stream) (h : s.good = false) :
    (readComps n k s).1.good = false ∧ (readComps n k s).1.rest = s.rest ∧
      (readComps n k s).2 = blocks n k (List.replicate (8 * n * k) 0) := by
  induction k generalizing s with
  | zero => exact ⟨h, rfl, rfl⟩
  | succ k ih =>
    simp only [readComps, readDbls, read_bad s _ h]
    obtain ⟨i1, i2, i3⟩ := ih { s with fail := true } (by simp [Stream.good])
    refine ⟨i1, i2, ?_⟩
    have e : 8 * n * (k + 1) - 8 * n = 8 * n * k := by rw [Nat.mul_succ]; omega
    have e' : 8 * n ≤ 8 * n * (k + 1) := by rw [Nat.mul_succ]; omega
    simp only [blocks, List.take_replicate, List.drop_replicate, e, Nat.min_eq_left e', i3]

lemma take_split (n : Nat) (u z : List Byte) (h : n ≤ u.length) :
    (u ++ z).take n = u.take n ∧ (u ++ z).drop n = u.drop n ++ z :=
  ⟨List.take_append_of_le_length h, List.drop_append_of_le_length h⟩

lemma readComps_short (n k : Nat) (u : List Byte) (h : u.length < 8 * n * k) :
    (readComps n k (ok u)).1.good = false ∧
      (readComps n k (ok u)).2 = blocks n k (u ++ List.replicate (8 * n * k - u.length) 0) := by
  induction k generalizing u with
  | zero => simp at h
  | succ k ih =>
    have e : 8 * n * (k + 1) = 8 * n * k + 8 * n := by rw [Nat.mul_succ]
    by_cases hu : 8 * n ≤ u.length
    · have hs : (ok u).read (List.replicate (8 * n) 0) = (ok (u.drop (8 * n)), u.take (8 * n)) := by
        conv_lhs => rw [← List.take_append_drop (8 * n) u]
        exact read_exact _ _ _ (by simp [hu])
      simp only [readComps, readDbls, hs]
      obtain ⟨i1, i2⟩ := ih (u.drop (8 * n)) (by rw [List.length_drop]; omega)
      refine ⟨i1, ?_⟩
      obtain ⟨t1, t2⟩ := take_split (8 * n) u (List.replicate (8 * n * (k + 1) - u.length) 0) hu
      simp only [blocks, t1, t2, i2, List.length_drop]
      rw [show 8 * n * k - (u.length - 8 * n) = 8 * n * (k + 1) - u.length by omega]
    · have hs := read_short u (List.replicate (8 * n) 0) (by simpa using hu)
      simp only [readComps, readDbls, hs]
      obtain ⟨i1, -, i3⟩ := readComps_bad n k ⟨[], true, true⟩ (by simp [Stream.good])
      refine ⟨i1, ?_⟩
      have hz : List.replicate (8 * n * (k + 1) - u.length) (0 : Byte) =
          List.replicate (8 * n - u.length) 0 ++ List.replicate (8 * n * k) 0 := by
        rw [← List.replicate_add]
        congr 1
        omega
      have hl : (u ++ List.replicate (8 * n - u.length) (0 : Byte)).length = 8 * n := by simp; omega
      simp only [blocks, hz, ← List.append_assoc, List.drop_replicate]
      rw [List.take_append_of_le_length (by omega), List.take_of_length_le (by omega),
        List.drop_append_of_le_length (by omega), List.drop_of_length_le (by omega), List.nil_append, i3]

lemma length_flatMap_dbls (n : Nat) (cs : List (List Dbl)) (h : ∀ c ∈ cs, c.length = n) :
    (cs.flatMap dblsBytes).length = 8 * n * cs.length := by
  induction cs with
  | nil => simp
  | cons c r ih =>
    simp only [List.flatMap_cons, List.length_append, length_dblsBytes, h c (by simp),
      ih fun c hc => h c (by simp [hc]), List.length_cons, Nat.mul_succ]
    omega

lemma length_snapBytes (n : Nat) (s : Snap) (h : Shaped n s) : (snapBytes s).length = snapSize n := by
  simp only [snapBytes, List.length_append, length_dblBytes, length_flatMap_dbls n _ h.2, h.1, snapSize]
  omega

lemma peek_ok (b : List Byte) (h : b ≠ []) : (ok b).peek = (ok b, true) := by
  cases b with
  | nil => exact absurd rfl h
  | cons x r => simp [Stream.peek, Stream.good]

lemma snapLoop_bad (n fuel : Nat) (s : Stream) (acc : List Snap) (h : s.good = false) :
    snapLoop n (fuel + 1) s acc = some acc := by
  simp [snapLoop, Stream.peek, h]

lemma snapLoop_nil (n fuel : Nat) (acc : List Snap) : snapLoop n (fuel + 1) (ok []) acc = some acc := by
  simp [snapLoop, Stream.peek, Stream.good]

lemma snapLoop_complete (n fuel : Nat) (s : Snap) (hs : Shaped n s) (b : List Byte) (acc : List Snap) :
    snapLoop n (fuel + 1) (ok (snapBytes s ++ b)) acc = snapLoop n fuel (ok b) (acc ++ [s]) := by
  have hne : snapBytes s ++ b ≠ [] := by
    intro h
    have := congrArg List.length h
    simp [length_snapBytes n s hs, snapSize] at this
  rw [snapLoop]
  simp only [peek_ok _ hne, Bool.true_eq_false, if_false]
  have h8 : (ok (snapBytes s ++ b)).read (List.replicate 8 0) =
      (ok (s.comps.flatMap dblsBytes ++ b), dblBytes s.time) := by
    rw [snapBytes, List.append_assoc]
    exact read_exact _ _ _ (by simp [length_dblBytes])
  simp only [h8, Bool.false_eq_true, if_false]
  have h6 := readComps_exact n s.comps hs.2 b
  rw [hs.1] at h6
  rw [h6, bytesDbl_dblBytes]

lemma snapLoop_tiny (n fuel : Nat) (u : List Byte) (hu : u.length < 8) (acc : List Snap) :
    snapLoop n (fuel + 1) (ok u) acc = some acc := by
  by_cases h : u = []
  · subst h
    exact snapLoop_nil _ _ _
  · rw [snapLoop]
    simp only [peek_ok _ h, Bool.true_eq_false, if_false]
    rw [read_short u _ (by simpa using hu)]
    simp

lemma snapLoop_cut (n fuel : Nat) (s : Snap) (hs : Shaped n s) (k : Nat) (h8 : 8 ≤ k) (hk : k < snapSize n)
    (acc : List Snap) :
    snapLoop n (fuel + 2) (ok ((snapBytes s).take k)) acc = some (acc ++ [cut n s k]) := by
  have hlen := length_snapBytes n s hs
  have hu : (snapBytes s).take k = dblBytes s.time ++ (s.comps.flatMap dblsBytes).take (k - 8) := by
    rw [snapBytes, List.take_append, length_dblBytes, List.take_of_length_le (by rw [length_dblBytes]; exact h8)]
  have hne : (snapBytes s).take k ≠ [] := by
    intro h
    have := congrArg List.length h
    simp [hlen] at this
    omega
  rw [snapLoop]
  simp only [peek_ok _ hne, Bool.true_eq_false, if_false]
  have hr : (ok ((snapBytes s).take k)).read (List.replicate 8 0) =
      (ok ((s.comps.flatMap dblsBytes).take (k - 8)), dblBytes s.time) := by
    rw [hu]
    exact read_exact _ _ _ (by simp [length_dblBytes])
  simp only [hr, Bool.false_eq_true, if_false]
  have hl : ((s.comps.flatMap dblsBytes).take (k - 8)).length = k - 8 := by
    rw [List.length_take, length_flatMap_dbls n _ hs.2, hs.1]
    simp only [snapSize] at hk
    omega
  obtain ⟨g, c⟩ := readComps_short n 6 ((s.comps.flatMap dblsBytes).take (k - 8)) (by
    rw [hl]; simp only [snapSize] at hk; omega)
  rw [snapLoop_bad _ _ _ _ g, c, hl, bytesDbl_dblBytes]
  simp only [cut, Option.some.injEq, List.append_cancel_left_eq, List.cons.injEq, Snap.mk.injEq, true_and, and_true]
  rw [show 8 * n * 6 = 48 * n by ring]

lemma snapLoop_survivors (n : Nat) (snaps : List Snap) (hs : ∀ s ∈ snaps, Shaped n s) (k fuel : Nat)
    (hf : ((snaps.flatMap snapBytes).take k).length < fuel) (acc : List Snap) :
    snapLoop n fuel (ok ((snaps.flatMap snapBytes).take k)) acc = some (acc ++ survivors n snaps k) := by
  induction snaps generalizing k fuel acc with
  | nil =>
    obtain ⟨f, rfl⟩ : ∃ f, fuel = f + 1 := ⟨fuel - 1, by omega⟩
    simp [survivors, snapLoop_nil]
  | cons s r ih =>
    have hlen := length_snapBytes n s (hs s (by simp))
    have h8 : 8 ≤ snapSize n := by simp [snapSize]
    obtain ⟨f, rfl⟩ : ∃ f, fuel = f + 1 := ⟨fuel - 1, by omega⟩
    simp only [List.flatMap_cons] at hf ⊢
    by_cases hk : snapSize n ≤ k
    · have hsplit : (snapBytes s ++ r.flatMap snapBytes).take k =
          snapBytes s ++ (r.flatMap snapBytes).take (k - snapSize n) := by
        rw [List.take_append, hlen, List.take_of_length_le (by omega)]
      rw [hsplit] at hf ⊢
      rw [snapLoop_complete n f s (hs s (by simp))]
      rw [List.length_append, hlen] at hf
      rw [ih (fun s hs' => hs s (by simp [hs'])) _ f (by omega)]
      simp [survivors, hk]
    · have hsplit : (snapBytes s ++ r.flatMap snapBytes).take k = (snapBytes s).take k := by
        rw [List.take_append_of_le_length (by omega)]
      rw [hsplit] at hf ⊢
      have hlt : ((snapBytes s).take k).length = k := by rw [List.length_take]; omega
      by_cases h : 8 ≤ k
      · obtain ⟨g, rfl⟩ : ∃ g, f = g + 1 := ⟨f - 1, by omega⟩
        rw [snapLoop_cut n g s (hs s (by simp)) k h (by omega)]
        simp [survivors, hk, h]
      · rw [snapLoop_tiny n f _ (by omega)]
        simp [survivors, hk, h]

/-! ### geometry -/

lemma countPts_eq (bs : List Bdr) : countPts bs = (surfacePts bs).length := by
  suffices h : ∀ n, bs.foldl (fun n b => if b.marked = false then n else if b.hasTr = false then n
      else n + b.pts.length) n = n + (surfacePts bs).length by
    unfold countPts
    rw [h 0, Nat.zero_add]
  induction bs with
  | nil => intro n; rfl
  | cons b r ih =>
    intro n
    rw [List.foldl_cons, ih]
    cases h1 : b.marked <;> cases h2 : b.hasTr <;> simp [surfacePts, h1, h2]
    omega

lemma pushPts_eq (sdim : Nat) (qs : List QPt) (g : Geo) :
    qs.foldl (pushPt sdim) g =
      ⟨g.positions ++ qs.flatMap (fun q => (List.range sdim).map q.pos),
       g.normals ++ qs.flatMap (fun q => [q.nor 0, q.nor 1, q.nor 2]), g.weights ++ qs.map QPt.w⟩ := by
  induction qs generalizing g with
  | nil => simp
  | cons q r ih =>
    rw [List.foldl_cons, ih]
    simp [pushPt]

lemma collect_eq (sdim : Nat) (bs : List Bdr) :
    collect sdim bs =
      ⟨(surfacePts bs).flatMap (fun q => (List.range sdim).map q.pos),
       (surfacePts bs).flatMap (fun q => [q.nor 0, q.nor 1, q.nor 2]), (surfacePts bs).map QPt.w⟩ := by
  suffices h : ∀ g : Geo, bs.foldl (fun g b => if b.marked = false then g else if b.hasTr = false then g
      else b.pts.foldl (pushPt sdim) g) g = (surfacePts bs).foldl (pushPt sdim) g by
    unfold collect
    rw [h, pushPts_eq]
    simp
  induction bs with
  | nil => intro g; rfl
  | cons b r ih =>
    intro g
    rw [List.foldl_cons, ih]
    cases h1 : b.marked <;> cases h2 : b.hasTr <;> simp [surfacePts, h1, h2, List.foldl_append]

lemma length_positions (sdim : Nat) (qs : List QPt) :
    (qs.flatMap fun q => (List.range sdim).map q.pos).length = qs.length * sdim := by
  induction qs with
  | nil => simp
  | cons q r ih => simp only [List.flatMap_cons, List.length_append, ih, List.length_map, List.length_range,
      List.length_cons, Nat.add_mul]; omega

lemma length_normals (qs : List QPt) : (qs.flatMap fun q => [q.nor 0, q.nor 1, q.nor 2]).length = qs.length * 3 := by
  induction qs with
  | nil => simp
  | cons q r ih => simp only [List.flatMap_cons, List.length_append, ih, List.length_cons, List.length_nil]; omega

lemma mulInt_nat (a b : Nat) (h : a * b < 2 ^ 31) : mulInt (a : Int) (b : Int) = some ((a * b : Nat) : Int) := by
  have h' : ((a : Int) * (b : Int)) = ((a * b : Nat) : Int) := by push_cast; rfl
  unfold mulInt
  rw [h', if_pos]
  omega

lemma length_header (a b c d e : Int) : (headerBytes a b c d e).length = 20 := by
  simp [headerBytes, length_intBytes]

lemma length_geo (sdim : Nat) (bs : List Bdr) :
    (geoBytes (collect sdim bs)).length = 8 * ((surfacePts bs).length * (sdim + 3 + 1)) := by
  simp only [collect_eq, geoBytes, List.length_append, length_dblsBytes, length_positions, length_normals,
    List.length_map]
  ring

/-- Header fields as the reader decodes them. -/
lemma header_fields (a b c d e : Int) (ha : -2 ^ 31 ≤ a ∧ a < 2 ^ 31) (hb : -2 ^ 31 ≤ b ∧ b < 2 ^ 31)
    (hc : -2 ^ 31 ≤ c ∧ c < 2 ^ 31) (hd : -2 ^ 31 ≤ d ∧ d < 2 ^ 31) (he : -2 ^ 31 ≤ e ∧ e < 2 ^ 31) :
    let h := headerBytes a b c d e
    bytesInt ((h.drop (4 * 0)).take 4) = a ∧ bytesInt ((h.drop (4 * 1)).take 4) = b ∧
      bytesInt ((h.drop (4 * 2)).take 4) = c ∧ bytesInt ((h.drop (4 * 3)).take 4) = d ∧
      bytesInt ((h.drop (4 * 4)).take 4) = e := by
  have key : ∀ (p q : List Byte) (x : Int) (n : Nat), p.length = 4 * n → -2 ^ 31 ≤ x → x < 2 ^ 31 →
      bytesInt (((p ++ (intBytes x ++ q)).drop (4 * n)).take 4) = x := by
    intro p q x n hp h1 h2
    rw [← hp, List.drop_left, List.take_append_of_le_length (by rw [length_intBytes]),
      List.take_of_length_le (by rw [length_intBytes])]
    exact bytesInt_intBytes x h1 h2
  refine ⟨?_, ?_, ?_, ?_, ?_⟩
  · have := key [] (intBytes b ++ intBytes c ++ intBytes d ++ intBytes e) a 0 rfl ha.1 ha.2
    simpa [headerBytes, List.append_assoc] using this
  · have := key (intBytes a) (intBytes c ++ intBytes d ++ intBytes e) b 1 (by simp [length_intBytes]) hb.1 hb.2
    simpa [headerBytes, List.append_assoc] using this
  · have := key (intBytes a ++ intBytes b) (intBytes d ++ intBytes e) c 2 (by simp [length_intBytes]) hc.1 hc.2
    simpa [headerBytes, List.append_assoc] using this
  · have := key (intBytes a ++ intBytes b ++ intBytes c) (intBytes e) d 3 (by simp [length_intBytes]) hd.1 hd.2
    simpa [headerBytes, List.append_assoc] using this
  · have := key (intBytes a ++ intBytes b ++ intBytes c ++ intBytes d) [] e 4 (by simp [length_intBytes]) he.1 he.2
    simpa [headerBytes, List.append_assoc] using this

end Dgtd.SurfaceFile
