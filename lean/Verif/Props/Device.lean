/-
C105: the device does not change the right-hand side.
-/
import Verif.Spec.Device
import Verif.Props.SgbcEvol
import Mathlib.Data.List.GetD

set_option linter.unusedSectionVars false
set_option linter.unusedSimpArgs false

namespace Dgtd

/-- Assignments that never give two values to one entry have the same effect in any order and multiplicity. -/
theorem exec_same {K : Type} (size : Nat) {ws vs : List (Int × K)}
    (hc : ∀ a ∈ ws, ∀ b ∈ ws, a.1 = b.1 → a.2 = b.2) (hm : ∀ w, w ∈ ws ↔ w ∈ vs) (a : Nat → K) :
    exec size ws a = exec size vs a := by
  cases h : exec size ws a with
  | none =>
    cases h' : exec size vs a with
    | none => rfl
    | some b =>
      obtain ⟨c, hc⟩ := exec_completes size ws a (fun w hw => exec_inRange h' w ((hm w).1 hw))
      rw [h] at hc; exact absurd hc (by simp)
  | some b =>
    obtain ⟨b', h'⟩ := exec_completes size vs a (fun w hw => exec_inRange h w ((hm w).2 hw))
    rw [h']
    congr 1
    funext k
    by_cases hk : ∃ w ∈ ws, w.1 = (k : Int)
    · obtain ⟨w, hw, e⟩ := hk
      rw [exec_value h k w.2 (fun v hv ev => hc v hv w hw (ev.trans e.symm)) ⟨w, hw, e⟩,
        exec_value h' k w.2 (fun v hv ev => hc v ((hm v).2 hv) w hw (ev.trans e.symm)) ⟨w, (hm w).1 hw, e⟩]
    · rw [exec_other h k (fun w hw e => hk ⟨w, hw, e⟩),
        exec_other h' k (fun w hw e => hk ⟨w, (hm w).2 hw, e⟩)]

end Dgtd

namespace Dgtd.Device

open Sgbc SgbcEvol SgbcEvol.Spec Spec

variable {σ K : Type}

/-! ### memory -/

/-- The vector is coherent and contains `f`. -/
def Holds (gpu : Bool) (m : Mem K) (f : Nat → K) : Prop := Coherent gpu m ∧ value m = f

lemma read_fst {gpu : Bool} {m : Mem K} {f : Nat → K} (h : Holds gpu m f) : (m.read gpu).1 = f := by
  obtain ⟨h1, h2⟩ := h
  unfold Coherent at h1
  unfold value at h2
  unfold Mem.read
  cases gpu <;> cases hd : m.dv <;> simp_all

lemma read_snd {gpu : Bool} {m : Mem K} {f : Nat → K} (h : Holds gpu m f) : Holds gpu (m.read gpu).2 f := by
  obtain ⟨h1, h2⟩ := h
  unfold Coherent at h1
  unfold value at h2
  unfold Holds Coherent value Mem.read
  cases gpu <;> cases hd : m.dv <;> simp_all

lemma hostRead_host {gpu : Bool} {m : Mem K} {f : Nat → K} (h : Holds gpu m f) : m.hostRead.host = f := by
  obtain ⟨h1, h2⟩ := h
  unfold Coherent at h1
  unfold value at h2
  unfold Mem.hostRead
  cases gpu <;> cases hd : m.dv <;> cases hh : m.hv <;> simp_all

lemma hostSet_holds (gpu : Bool) (m : Mem K) (f : Nat → K) : Holds gpu (m.hostSet f) f := by
  unfold Holds Coherent value Mem.hostSet
  cases gpu <;> simp

/-- The buffer a kernel acts on. -/
def buf (gpu : Bool) (m : Mem K) : Nat → K := if gpu then m.dev else m.host

lemma assign_holds (gpu : Bool) (f : (Nat → K) → (Nat → K)) (m : Mem K) :
    Holds gpu (m.assign gpu f) (f (buf gpu m)) := by
  unfold Holds Coherent value Mem.assign buf
  cases gpu <;> simp

lemma buf_read {gpu : Bool} {m : Mem K} {f : Nat → K} (h : Holds gpu m f) : buf gpu (m.read gpu).2 = f := by
  obtain ⟨h1, h2⟩ := h
  unfold Coherent at h1
  unfold value at h2
  unfold Mem.read buf
  cases gpu <;> cases hd : m.dv <;> simp_all

lemma write_some {gpu : Bool} {f : (Nat → K) → Option (Nat → K)} {m : Mem K} {g : Nat → K}
    (h : f (buf gpu m) = some g) : ∃ m', m.write gpu f = some m' ∧ Holds gpu m' g ∧ buf gpu m' = g := by
  unfold buf at h
  unfold Mem.write Holds Coherent value buf
  cases gpu <;> simp_all

/-! ### kernels -/

variable [Field K] [LinearOrder K] [IsStrictOrderedRing K] [FloorRing K]

lemma block_inj {B c c' i i' : Nat} (hi : i < B) (hi' : i' < B) (h : c * B + i = c' * B + i') : c = c' ∧ i = i' := by
  have hB : 0 < B := by omega
  have e1 : (c * B + i) / B = c := by
    rw [Nat.mul_comm, Nat.mul_add_div hB, Nat.div_eq_of_lt hi, Nat.add_zero]
  have e2 : (c' * B + i') / B = c' := by
    rw [Nat.mul_comm, Nat.mul_add_div hB, Nat.div_eq_of_lt hi', Nat.add_zero]
  have : c = c' := by rw [← e1, ← e2, h]
  subst this
  exact ⟨rfl, by omega⟩

lemma mem_eh {ndofs B : Nat} {x : Nat → K} {w : Int × K} :
    w ∈ ehKernel ndofs B x ↔ ∃ (c : Fin 6) (v : Nat), v < ndofs ∧ w = (((c.val * B + v : Nat) : Int), x (c.val * ndofs + v)) := by
  simp only [ehKernel, List.mem_flatMap, List.mem_range, List.mem_map, List.mem_finRange, true_and]
  constructor
  · rintro ⟨v, hv, c, rfl⟩; exact ⟨c, v, hv, rfl⟩
  · rintro ⟨c, v, hv, rfl⟩; exact ⟨v, hv, c, rfl⟩

lemma mem_nbr {ndofs nbr B : Nat} {y : Fin 6 → Nat → K} {w : Int × K} :
    w ∈ nbrKernel ndofs nbr B y ↔
      ∃ (c : Fin 6) (v : Nat), v < nbr ∧ w = (((c.val * B + ndofs + v : Nat) : Int), y c v) := by
  simp only [nbrKernel, List.mem_flatMap, List.mem_range, List.mem_map, List.mem_finRange, true_and]
  constructor
  · rintro ⟨v, hv, c, rfl⟩; exact ⟨c, v, hv, rfl⟩
  · rintro ⟨c, v, hv, rfl⟩; exact ⟨v, hv, c, rfl⟩

lemma mem_scatter {B : Nat} {ids : List Int} {y : Fin 6 → Nat → K} {w : Int × K} :
    w ∈ scatterKernel B ids y ↔
      ∃ (c : Fin 6) (v : Nat), v < ids.length ∧ w = (((c.val * B : Nat) : Int) + ids.getD v 0, y c v) := by
  simp only [scatterKernel, List.mem_flatMap, List.mem_range, List.mem_map, List.mem_finRange, true_and]
  constructor
  · rintro ⟨v, hv, c, rfl⟩; exact ⟨c, v, hv, rfl⟩
  · rintro ⟨c, v, hv, rfl⟩; exact ⟨v, hv, c, rfl⟩

lemma assemble_same (S : Sys σ K) (ord : Order K) (ho : Scheduled ord) (x a : Nat → K) :
    (exec (6 * S.B) (ord .eh (ehKernel S.ndofs S.B x)) a).bind
      (exec (6 * S.B) (ord .nbr (nbrKernel S.ndofs S.nbr S.B (S.nbrData x)))) =
    exec (6 * S.B) (assembleWrites S x) a := by
  rw [← exec_append]
  have hm : ∀ w, w ∈ ord .eh (ehKernel S.ndofs S.B x) ++
      ord .nbr (nbrKernel S.ndofs S.nbr S.B (S.nbrData x)) ↔ w ∈ assembleWrites S x := by
    intro w
    rw [List.mem_append, (ho _ _).mem_iff, (ho _ _).mem_iff, mem_eh, mem_nbr]
    simp only [assembleWrites, List.mem_append, List.mem_flatMap, List.mem_finRange, true_and, List.mem_map,
      List.mem_range]
    constructor
    · rintro (⟨c, v, hv, rfl⟩ | ⟨c, v, hv, rfl⟩)
      · exact Or.inl ⟨c, v, hv, rfl⟩
      · exact Or.inr ⟨c, v, hv, rfl⟩
    · rintro (⟨c, v, hv, rfl⟩ | ⟨c, v, hv, rfl⟩)
      · exact Or.inl ⟨c, v, hv, rfl⟩
      · exact Or.inr ⟨c, v, hv, rfl⟩
  refine exec_same _ ?_ hm a
  have hB : S.B = S.ndofs + S.nbr := rfl
  intro p hp q hq e
  rw [List.mem_append, (ho _ _).mem_iff, (ho _ _).mem_iff, mem_eh, mem_nbr] at hp hq
  rcases hp with ⟨c, v, hv, rfl⟩ | ⟨c, v, hv, rfl⟩ <;> rcases hq with ⟨c', v', hv', rfl⟩ | ⟨c', v', hv', rfl⟩ <;>
    simp only [Nat.cast_inj, Nat.add_assoc] at e <;> obtain ⟨h1, h2⟩ := block_inj (by omega) (by omega) e
  · simp only; rw [h1, h2]
  · omega
  · omega
  · have : c = c' := Fin.ext h1
    have : v = v' := by omega
    subst_vars; rfl

lemma scatter_consistent {B : Nat} {ids : List Int} (hn : ids.Nodup) (hr : ∀ i ∈ ids, 0 ≤ i ∧ i < (B : Int))
    (y : Fin 6 → Nat → K) : ∀ a ∈ scatterKernel B ids y, ∀ b ∈ scatterKernel B ids y, a.1 = b.1 → a.2 = b.2 := by
  intro p hp q hq e
  rw [mem_scatter] at hp hq
  obtain ⟨c, v, hv, rfl⟩ := hp
  obtain ⟨c', v', hv', rfl⟩ := hq
  have g : ∀ w, w < ids.length → 0 ≤ ids.getD w 0 ∧ ids.getD w 0 < (B : Int) := by
    intro w hw
    rw [List.getD_eq_getElem _ _ hw]
    exact hr _ (List.getElem_mem hw)
  have g1 := g v hv
  have g2 := g v' hv'
  obtain ⟨h1, h2⟩ := block_inj (B := B) (c := c.val) (c' := c'.val) (i := (ids.getD v 0).toNat)
    (i' := (ids.getD v' 0).toNat) (by omega) (by omega) (by simp only at e; zify; omega)
  have : c = c' := Fin.ext h1
  subst this
  have h3 : ids.getD v 0 = ids.getD v' 0 := by omega
  rw [List.getD_eq_getElem _ _ hv, List.getD_eq_getElem _ _ hv'] at h3
  have := (hn.getElem_inj_iff).1 h3
  subst this; rfl

/-- The scatter of the CPU branch and the kernel assign the same. -/
lemma mem_scatterWrites (B : Nat) (T : Tfsf K) (t : K) (w : Int × K) :
    w ∈ scatterWrites B T t ↔ w ∈ scatterKernel B T.ids (T.val t) := by
  have key : ∀ d : Fin 3, d = 0 ∨ d = 1 ∨ d = 2 := by decide
  rw [mem_scatter]
  simp only [scatterWrites, sideWrites, List.mem_flatMap, List.mem_range, List.mem_cons, List.not_mem_nil, or_false,
    Nat.lt_one_iff, exists_eq_left]
  constructor
  · rintro ⟨v, hv, d, -, rfl | rfl⟩
    · exact ⟨⟨d.val, by omega⟩, v, hv, rfl⟩
    · exact ⟨⟨3 + d.val, by omega⟩, v, hv, rfl⟩
  · rintro ⟨c, v, hv, rfl⟩
    refine ⟨v, hv, ?_⟩
    by_cases hc : c.val < 3
    · exact ⟨⟨c.val, hc⟩, key _, Or.inl rfl⟩
    · refine ⟨⟨c.val - 3, by omega⟩, key _, Or.inr ?_⟩
      have e : 3 + (c.val - 3) = c.val := by omega
      have : (⟨3 + (c.val - 3), by omega⟩ : Fin 6) = c := Fin.ext e
      simp only [this, e]

lemma kernel_congr {B : Nat} {ids : List Int} {y y' : Fin 6 → Nat → K}
    (h : ∀ c v, v < ids.length → y c v = y' c v) : scatterKernel B ids y = scatterKernel B ids y' := by
  unfold scatterKernel
  apply List.flatMap_congr
  intro v hv
  apply List.map_congr_left
  intro c _
  rw [h c v (List.mem_range.1 hv)]

lemma normSq_congr {n : Nat} {a b : Nat → K} (h : ∀ v, v < n → a v = b v) : normSq n a = normSq n b := by
  unfold normSq
  apply List.foldl_ext
  intro s i hi
  rw [h i (List.mem_range.1 hi)]

lemma normSqOf_congr {n : Nat} {y y' : Fin 6 → Nat → K} (h : ∀ c v, v < n → y c v = y' c v) :
    normSqOf n y = normSqOf n y' := by
  unfold normSqOf
  apply List.foldl_ext
  intro s c _
  rw [normSq_congr (h c)]

/-- **C105**, the kernels that put the source in place and remove it: with a source that is in place, for every order of
the threads, they do what the CPU branch does. -/
lemma inject_eq (gpu : Bool) {ord : Order K} (ho : Scheduled ord) {S : Sys σ K} {T : Tfsf K}
    (hT : S.tfsf = some T) (hn : SourceNodes S) (t : K) (y : Fin 6 → Nat → K)
    (hy : ∀ c v, v < T.ids.length → y c v = T.val t c v) {out w : Mem K} {o z : Nat → K} (hout : Holds gpu out o)
    (hw : Holds gpu w z) (hz : IsZero (6 * S.B) z) :
    ∃ out' w' o' z', inject gpu ord S T y out w = some (out', w') ∧ applyTfsf S t o (some z) = some (o', some z') ∧
      Holds gpu out' o' ∧ ∃ z'', Holds gpu w' z'' ∧ IsZero (6 * S.B) z'' := by
  have hnorm : normSqOf T.ids.length y = sourceNormSq T t := normSqOf_congr hy
  unfold inject applyTfsf
  rw [hT, hnorm]
  simp only [Option.getD_some]
  by_cases hthr : sourceNormSq T t < thr2
  · rw [if_pos hthr, if_pos hthr]
    exact ⟨out, w, o, z, rfl, rfl, hout, z, hw, hz⟩
  · rw [if_neg hthr, if_neg hthr]
    obtain ⟨hn1, hn2⟩ := hn T hT
    have hB : (S.ndofs : Int) ≤ S.B := by simp only [Sys.B]; push_cast; omega
    have hr : ∀ i ∈ T.ids, 0 ≤ i ∧ i < (S.B : Int) := fun i hi => ⟨(hn2 i hi).1, lt_of_lt_of_le (hn2 i hi).2 hB⟩
    have hin : ∀ (y : Fin 6 → Nat → K), ∀ u ∈ scatterKernel S.B T.ids y, 0 ≤ u.1 ∧ u.1 < (6 * S.B : Nat) := by
      intro y u hu
      obtain ⟨c, v, hv, rfl⟩ := mem_scatter.1 hu
      have := hr (T.ids.getD v 0) (by rw [List.getD_eq_getElem _ _ hv]; exact List.getElem_mem hv)
      have h5 : c.val * S.B ≤ 5 * S.B := Nat.mul_le_mul_right _ (by omega)
      simp only; push_cast; zify at h5; constructor
      · have : (0 : Int) ≤ (c.val : Int) * S.B := by positivity
        omega
      · omega
    have e1 : exec (6 * S.B) (ord .scatter (scatterKernel S.B T.ids y)) z = exec (6 * S.B) (scatterWrites S.B T t) z := by
      rw [kernel_congr hy]
      have hc := scatter_consistent hn1 hr (T.val t)
      refine exec_same _ ?_ ?_ z
      · intro a ha b hb
        exact hc a ((ho _ _).mem_iff.1 ha) b ((ho _ _).mem_iff.1 hb)
      · intro u
        rw [(ho _ _).mem_iff, mem_scatterWrites]
    obtain ⟨b, hb⟩ := exec_completes (6 * S.B) (scatterWrites S.B T t) z
      (fun u hu => hin _ u ((mem_scatterWrites _ _ _ _).1 hu))
    have e2 : exec (6 * S.B) (ord .scatter (scatterKernel S.B T.ids y)) (buf gpu (w.read gpu).2) = some b := by
      rw [buf_read hw, e1, hb]
    obtain ⟨w1, hw1, hh1, -⟩ := write_some e2
    have hw1' : w.readWrite gpu (exec (6 * S.B) (ord .scatter (scatterKernel S.B T.ids y))) = some w1 := hw1
    have r1 := read_fst hh1
    have r2 := read_snd hh1
    obtain ⟨c, hc⟩ := exec_completes (6 * S.B) (ord .zero (zeroKernel S.B T.ids)) b
      (fun u hu => hin _ u ((ho _ _).mem_iff.1 hu))
    have e3 : exec (6 * S.B) (ord .zero (zeroKernel S.B T.ids)) (buf gpu (((w1.read gpu).2).read gpu).2) = some c := by
      rw [buf_read r2, hc]
    obtain ⟨w2, hw2, hh2, -⟩ := write_some e3
    have hw2' : (w1.read gpu).2.readWrite gpu (exec (6 * S.B) (ord .zero (zeroKernel S.B T.ids))) = some w2 := hw2
    simp only [hw1', hw2', Option.bind_eq_bind, Option.bind_some, hb, Option.map_some, r1]
    refine ⟨_, _, _, _, rfl, rfl, ?_, c, hh2, ?_⟩
    · have := assign_holds gpu (fun o i => o i - mulRows T.rows b i) (out.read gpu).2
      rw [buf_read hout] at this
      exact this
    · intro k hk
      by_cases hex : ∃ u ∈ ord .zero (zeroKernel (K := K) S.B T.ids), u.1 = (k : Int)
      · refine exec_value hc k 0 ?_ hex
        intro u hu _
        obtain ⟨_, _, _, rfl⟩ := mem_scatter.1 ((ho _ _).mem_iff.1 hu)
        rfl
      · rw [exec_other hc k (fun u hu e => hex ⟨u, hu, e⟩)]
        rw [exec_other hb k, hz k hk]
        intro u hu e
        obtain ⟨c', v, hv, rfl⟩ := mem_scatter.1 ((mem_scatterWrites _ _ _ _).1 hu)
        exact hex ⟨_, (ho _ _).mem_iff.2 (mem_scatter.2 ⟨c', v, hv, rfl⟩), e⟩

lemma evalDirect_host (n : Nat) (val : Nat → K) (m : Mem K) (v : Nat) (hv : v < n) :
    ((evalDirect false n val m).read false).1 v = val v := by
  simp [evalDirect, Mem.assign, Mem.raw, Mem.read, zeroed, hv]

lemma evalDirect_dev (n : Nat) (val : Nat → K) (m : Mem K) (v : Nat) (hv : v < n) :
    ((evalDirect true n val m).read true).1 v = 0 := by
  simp [evalDirect, Mem.assign, Mem.raw, Mem.read, zeroed, hv]

lemma normSqOf_zero (n : Nat) (y : Fin 6 → Nat → K) (h : ∀ c v, v < n → y c v = 0) : normSqOf n y = 0 := by
  rw [normSqOf_congr (y' := fun _ _ => 0) h]
  have : normSq n (fun _ => (0 : K)) = 0 := by
    clear h
    unfold normSq
    induction n with
    | zero => rfl
    | succ n ih => rw [List.range_succ, List.foldl_append, ih]; simp
  unfold normSqOf
  simp only [this, add_zero]
  rfl

/-- The case as a run on the device sees it: without total-field sources. -/
def seenBy (gpu : Bool) (S : Sys σ K) : Sys σ K := if gpu then withoutSources S else S

lemma applySource_eq (gpu : Bool) {ord : Order K} (ho : Scheduled ord) {S : Sys σ K}
    (hn : SourceNodes S) (t : K) (cached : Fin 6 → Mem K) {out w : Mem K} {o z : Nat → K} (hout : Holds gpu out o)
    (hw : Holds gpu w z) (hz : IsZero (6 * S.B) z) :
    ∃ out' w' c' o' z', applySource gpu ord S t out w cached = some (out', w', c') ∧
      applyTfsf (seenBy gpu S) t o (some z) = some (o', some z') ∧
      Holds gpu out' o' ∧ ∃ z'', Holds gpu w' z'' ∧ IsZero (6 * S.B) z'' := by
  unfold applySource
  cases hT : S.tfsf with
  | none =>
    refine ⟨out, w, cached, o, z, rfl, ?_, hout, z, hw, hz⟩
    have : (seenBy gpu S).tfsf = none := by cases gpu <;> simp [seenBy, withoutSources, hT]
    unfold applyTfsf
    rw [this]
  | some T =>
    cases gpu with
    | true =>
      have : normSqOf T.ids.length
          (fun i => ((evalDirect true T.ids.length (T.val t i) (cached i)).read true).1) < (thr2 : K) := by
        rw [normSqOf_zero _ _ fun c v hv => evalDirect_dev _ _ _ v hv]
        unfold thr2; positivity
      refine ⟨out, w, fun i => ((evalDirect true T.ids.length (T.val t i) (cached i)).read true).2, o, z, ?_, rfl,
        hout, z, hw, hz⟩
      simp only [inject, if_pos this, Option.bind_eq_bind, Option.bind_some]
    | false =>
      obtain ⟨out', w', o', z', h1, h2, h3, h4⟩ := inject_eq false ho hT hn t
        (fun i => ((evalDirect false T.ids.length (T.val t i) (cached i)).read false).1)
        (fun c v hv => evalDirect_host _ _ _ v hv) hout hw hz
      refine ⟨out', w', fun i => ((evalDirect false T.ids.length (T.val t i) (cached i)).read false).2, o', z', ?_, h2,
        h3, h4⟩
      simp only [h1, Option.bind_eq_bind, Option.bind_some]

/-- The whole right-hand side of a CUDA build: thin layers from the host copy of the input, everything else from its
content, sources only without device. -/
lemma mult_eq (gpu : Bool) {ord : Order K} (ho : Scheduled ord) {S : Sys σ K} (hS : InBounds S)
    (hn : SourceNodes S) (t : K) {inp : Mem K} {x : Nat → K} (hinp : Holds gpu inp x) (junk out0 : Mem K)
    (junk' : Nat → K) (d : Obj σ K) :
    (mult gpu ord S t inp junk out0 d).map (fun r => value r.1) =
      (subSolve S t inp.host d.ev).bind fun q =>
        (rhs (seenBy gpu S) t x junk' q.1 q.2.states none).map Prod.fst := by
  unfold mult
  cases hsub : subSolve S t inp.host d.ev with
  | none => rfl
  | some q =>
    obtain ⟨quiet, ev⟩ := q
    simp only [Option.bind_eq_bind, Option.bind_some, read_fst hinp]
    -- assembly
    obtain ⟨b, hb⟩ := assemble_completes S x (buf gpu (d.scratch.getD junk))
    rw [← assemble_same S ord ho] at hb
    obtain ⟨b1, hb1, hb2⟩ := Option.bind_eq_some_iff.1 hb
    obtain ⟨w1, hw1, -, hbuf1⟩ := write_some (m := d.scratch.getD junk) hb1
    rw [← hbuf1] at hb2
    obtain ⟨w2, hw2, hh2, -⟩ := write_some hb2
    have hasm : assemble gpu ord S x (d.scratch.getD junk) = some w2 := by
      unfold assemble; rw [hw1]; exact hw2
    rw [hasm]
    simp only [Option.bind_some, read_fst hh2]
    -- operator and clean scratch vector
    have hout := assign_holds gpu (fun _ => mulRows S.globalRows b) out0
    have hw := assign_holds gpu (zeroed (6 * S.B)) (w2.read gpu).2
    rw [buf_read hh2] at hw
    obtain ⟨out', w', c', o', z', h1, h2, h3, z'', h4, h5⟩ :=
      applySource_eq gpu ho hn t d.cached hout hw (isZero_zeroed _ _)
    rw [h1]
    simp only [Option.bind_some]
    -- the right-hand side of the CPU, started from the same assembled vector
    have hbS : InBounds (seenBy gpu S) := by
      cases gpu with
      | true => exact ⟨hS.global, fun T hT => absurd hT (by simp [seenBy, withoutSources]), hS.sgbc⟩
      | false => exact hS
    have hB : (seenBy gpu S).B = S.B := by cases gpu <;> rfl
    have hR : (seenBy gpu S).sgbcRows = S.sgbcRows := by cases gpu <;> rfl
    have hG : (seenBy gpu S).globalRows = S.globalRows := by cases gpu <;> rfl
    have hA : assembleWrites (seenBy gpu S) x = assembleWrites S x := by cases gpu <;> rfl
    have hI : ∀ rows sts o w, SgbcEvol.inject (seenBy gpu S) rows x sts o w = SgbcEvol.inject S rows x sts o w := by
      intro rows sts o w; cases gpu <;> rfl
    rw [(rhs_clean (seenBy gpu S) hbS t x quiet (sts := ev.states) (sts' := ev.states) rfl junk' (fun _ => 0) none
      (some (buf gpu (d.scratch.getD junk)))).1]
    rw [assemble_same S ord ho, ← hA] at hb
    have hrhs : rhs (seenBy gpu S) t x (fun _ => 0) quiet ev.states (some (buf gpu (d.scratch.getD junk))) =
        match S.sgbcRows with
        | none => some (o', some z')
        | some rows => if quiet then some (o', some z') else
            (SgbcEvol.inject S rows x ev.states o' z').bind fun q => some (q.1, some q.2) := by
      unfold rhs
      simp only [Option.getD_some, hB, hb, Option.bind_eq_bind, Option.bind_some, hG, h2, hR, hI]
      cases S.sgbcRows <;> rfl
    rw [hrhs]
    cases hrows : S.sgbcRows with
    | none => simp [h3.2]
    | some rows =>
      cases quiet with
      | true => simp [h3.2]
      | false =>
        have hz' : IsZero (6 * S.B) z' := by
          have hz0 : IsZero (6 * (seenBy gpu S).B) (zeroed (6 * S.B) b) := by rw [hB]; exact isZero_zeroed _ _
          obtain ⟨v, hv, hz⟩ := (applyTfsf_clean (seenBy gpu S) hbS t _ _ hz0).2 _ _ h2
          obtain rfl := Option.some.inj hv
          rw [hB] at hz; exact hz
        have hi := (inject_clean S rows (hS.sgbc rows hrows) x ev.states o' z'' h5).1 z' hz'
        simp only [Bool.false_eq_true, if_false, hostRead_host (read_snd hinp), hostRead_host h3, hostRead_host h4]
        cases e1 : SgbcEvol.inject S rows x ev.states o' z'' with
        | none =>
          cases e2 : SgbcEvol.inject S rows x ev.states o' z' with
          | none => rfl
          | some _ => rw [e1, e2] at hi; simp at hi
        | some a =>
          cases e2 : SgbcEvol.inject S rows x ev.states o' z' with
          | none => rw [e1, e2] at hi; simp at hi
          | some a' =>
            rw [e1, e2] at hi
            simp only [Option.map_some, Option.some.injEq] at hi
            simp only [Option.bind_some, Option.map_some, Option.some.injEq]
            have h8 := assign_holds gpu id ((out'.hostSet a.1).read gpu).2
            rw [buf_read (hostSet_holds gpu out' a.1)] at h8
            rw [h8.2]
            exact hi

lemma mult_cpu {S : Sys σ K} (t : K) (x junk : Nat → K) (ev : Ev σ K) (hS : InBounds S) :
    (SgbcEvol.mult S t x junk ev).map Prod.fst =
      (subSolve S t x ev).bind fun q => (rhs S t x junk q.1 q.2.states none).map Prod.fst := by
  unfold SgbcEvol.mult
  cases subSolve S t x ev with
  | none => rfl
  | some q =>
    obtain ⟨quiet, ev'⟩ := q
    simp only [Option.bind_eq_bind, Option.bind_some]
    rw [(rhs_clean S hS t x quiet (sts := ev'.states) (sts' := ev'.states) rfl junk junk none ev'.scratch).1]
    cases rhs S t x junk quiet ev'.states ev'.scratch <;> rfl

/-! ### the property -/

/-- **C105**, without device: a CUDA build started with `--device cpu` computes the right-hand side of a build without
CUDA, for every case, every order of the assignments of a kernel and every content of the work memory. -/
theorem C105_cpu_device {ord : Order K} (ho : Scheduled ord) {S : Sys σ K} (hS : InBounds S) (hn : SourceNodes S)
    (t : K) (inp : Mem K) (hinp : Coherent false inp) (junk out0 : Mem K) (junk' : Nat → K) (d : Obj σ K) :
    (mult false ord S t inp junk out0 d).map (fun r => value r.1) =
      (SgbcEvol.mult S t (value inp) junk' d.ev).map Prod.fst := by
  have hv : value inp = inp.host := by
    simp only [Coherent, Bool.false_eq_true, if_false] at hinp
    simp [value, hinp.2]
  rw [mult_eq false ho hS hn t ⟨hinp, rfl⟩ junk out0 junk' d, mult_cpu t _ _ _ hS, ← hv]
  rfl

/-- **C105**, on the device: for a case without total-field sources and without thin layers the right-hand side is that
of the CPU, for every order of the threads, wherever the current copy of the input is.  Missing from the full claim:
sources and thin layers, for which it fails (below). -/
theorem C105_fields_partial {ord : Order K} (ho : Scheduled ord) {S : Sys σ K} (hS : InBounds S)
    (hsrc : S.tfsf = none) (hlay : S.sgbcRows = none) (t : K) (inp : Mem K) (hinp : Coherent true inp)
    (junk out0 : Mem K) (junk' : Nat → K) (d : Obj σ K) :
    (mult true ord S t inp junk out0 d).map (fun r => value r.1) =
      (SgbcEvol.mult S t (value inp) junk' d.ev).map Prod.fst := by
  have hn : SourceNodes S := fun T hT => absurd (hsrc ▸ hT) (by simp)
  have hs : seenBy true S = S := by
    cases S; simp only [seenBy, withoutSources, if_true] at *; rw [hsrc]
  rw [mult_eq true ho hS hn t ⟨hinp, rfl⟩ junk out0 junk' d, mult_cpu t _ _ _ hS, hs]
  simp only [subSolve, hlay]

/-- **C105**, thin layers on the device: when the host copy of the input is current the right-hand side is that of the
CPU (for a case without total-field sources). -/
theorem C105_layers_partial {ord : Order K} (ho : Scheduled ord) {S : Sys σ K} (hS : InBounds S)
    (hsrc : S.tfsf = none) (t : K) (inp : Mem K) (hinp : Coherent true inp) (hcur : inp.host = value inp)
    (junk out0 : Mem K) (junk' : Nat → K) (d : Obj σ K) :
    (mult true ord S t inp junk out0 d).map (fun r => value r.1) =
      (SgbcEvol.mult S t (value inp) junk' d.ev).map Prod.fst := by
  have hn : SourceNodes S := fun T hT => absurd (hsrc ▸ hT) (by simp)
  have hs : seenBy true S = S := by
    cases S; simp only [seenBy, withoutSources, if_true] at *; rw [hsrc]
  rw [mult_eq true ho hS hn t ⟨hinp, rfl⟩ junk out0 junk' d, mult_cpu t _ _ _ hS, hs, hcur]

/-- **C105**, the kernels that put an evaluated source in place: given the values of the source on the device, for every
order of the threads, the output is that of the CPU and the work vector is left zero. -/
theorem C105_source_kernels_partial {ord : Order K} (ho : Scheduled ord) {S : Sys σ K} {T : Tfsf K}
    (hT : S.tfsf = some T) (hn : SourceNodes S) (t : K) (out w : Mem K) (hout : Coherent true out)
    (hw : Coherent true w) (hz : ∀ k, k < 6 * (S.ndofs + S.nbr) → value w k = 0) :
    ∃ out' w' o' z', inject true ord S T (T.val t) out w = some (out', w') ∧
      applyTfsf S t (value out) (some (value w)) = some (o', some z') ∧ value out' = o' ∧
      ∀ k, k < 6 * (S.ndofs + S.nbr) → value w' k = 0 := by
  obtain ⟨out', w', o', z', h1, h2, h3, z'', h4, h5⟩ :=
    inject_eq true ho hT hn t (T.val t) (fun _ _ _ => rfl) ⟨hout, rfl⟩ ⟨hw, rfl⟩ hz
  refine ⟨out', w', o', z', h1, h2, h3.2, ?_⟩
  rw [h4.2]; exact h5

/-- **C105** is violated by total-field sources: on the device, whatever the sources, the time, the order of the threads
and the earlier evaluations, the right-hand side is that of the same case without sources.  (The evaluation clears the
device copy and fills the host copy without saying so; the norm and the kernels read the device copy.) -/
theorem C105_violated_sources {ord : Order K} (ho : Scheduled ord) {S : Sys σ K} (hS : InBounds S)
    (hn : SourceNodes S) (hlay : S.sgbcRows = none) (t : K) (inp : Mem K) (hinp : Coherent true inp)
    (junk out0 : Mem K) (junk' : Nat → K) (d : Obj σ K) :
    (mult true ord S t inp junk out0 d).map (fun r => value r.1) =
      (SgbcEvol.mult (withoutSources S) t (value inp) junk' d.ev).map Prod.fst := by
  have hS' : InBounds (withoutSources S) := ⟨hS.global, fun T hT => absurd hT (by simp [withoutSources]), hS.sgbc⟩
  rw [mult_eq true ho hS hn t ⟨hinp, rfl⟩ junk out0 junk' d, mult_cpu t _ _ _ hS']
  simp only [subSolve, hlay, seenBy, if_true, withoutSources]

/-! ### witnesses -/

def noLayer : SgbcEvol.Layer Unit ℚ := ⟨0, 0, 0, .slab, .slab, fun _ x _ _ => some (x, ())⟩

/-- Two nodes, one neighbour value, an operator that adds it, and a source at node 1. -/
def wit : Sys Unit ℚ :=
  { ndofs := 2
    nbr := 1
    layers := fun _ => noLayer
    globalRows := fun r => [(r % 18, 2), (2, 1)]
    tfsf := some ⟨[1], fun t _ _ => t, fun r => if r = 0 then [(1, 5)] else []⟩
    sgbcRows := none
    elem1 := []
    elem2 := []
    nbrData := fun x _ _ => x 0 }

def witEv : Ev Unit ℚ := ⟨[], none, 0, 0, fun _ => ⟨(), fun _ => 0⟩, none⟩

/-- An input that is current on the device only. -/
def witIn : Mem ℚ := ⟨fun _ => 0, fun k => k + 1, false, true⟩

def witMem : Mem ℚ := ⟨fun _ => 7, fun _ => 8, true, false⟩

def witObj : Obj Unit ℚ := ⟨witEv, none, fun _ => witMem⟩

/-- Threads in reverse order. -/
def backwards : Order ℚ := fun _ l => l.reverse

lemma backwards_ok : Scheduled backwards := fun _ l => List.reverse_perm l

lemma wit_in : InBounds wit := by
  refine ⟨?_, ?_, ?_⟩
  · intro r e he
    simp only [wit, List.mem_cons, List.not_mem_nil, or_false] at he
    rcases he with rfl | rfl
    · exact Nat.mod_lt _ (by decide)
    · decide
  · intro T hT r e he
    simp only [wit, Option.some.injEq] at hT
    subst hT
    simp only at he
    split at he
    · simp only [List.mem_singleton] at he
      subst he; decide
    · simp at he
  · intro R hR; simp [wit] at hR

lemma wit_nodes : SourceNodes wit := by
  intro T hT
  simp only [wit, Option.some.injEq] at hT
  subst hT
  decide

/-- A case of `C105_fields_partial`: current on the device only, threads in reverse order. -/
example : Scheduled backwards ∧ Coherent true witIn ∧
    (mult true backwards (withoutSources wit) 3 witIn witMem witMem witObj).map (fun r => (value r.1 0, value r.1 4)) =
      some (3, 9) ∧
    (SgbcEvol.mult (withoutSources wit) 3 (value witIn) (fun _ => 0) witEv).map (fun r => (r.1 0, r.1 4)) =
      some (3, 9) := by
  refine ⟨backwards_ok, by simp [Coherent, witIn], by decide +kernel, by decide +kernel⟩

/-- The difference a source makes: the CPU subtracts its contribution, the device does not. -/
theorem C105_violated_sources_witness :
    InBounds wit ∧ SourceNodes wit ∧ Coherent true witIn ∧ Coherent false (witIn.hostRead.hostSet (value witIn)) ∧
    (mult false backwards wit 3 (witIn.hostSet (value witIn)) witMem witMem witObj).map (fun r => value r.1 0) =
      some (-12) ∧
    (mult true backwards wit 3 witIn witMem witMem witObj).map (fun r => value r.1 0) = some 3 := by
  refine ⟨wit_in, wit_nodes, by simp [Coherent, witIn], by simp [Coherent, Mem.hostSet], by decide +kernel,
    by decide +kernel⟩

/-- One layer face between node 0 and node 1. -/
def witLayer : Sys Unit ℚ :=
  { wit with
    tfsf := none
    layers := fun _ => ⟨1, 0, 0, .PEC, .PEC, fun _ x _ _ => some (x, ())⟩
    sgbcRows := some fun r => if r = 0 then [(0, 1)] else []
    elem1 := [0]
    elem2 := [1] }

def witLayerObj : Obj Unit ℚ :=
  ⟨{ witEv with
      states := [⟨1, (0, 1), fun _ => 0, fun _ => 0, 0, 0⟩]
      cp := some [⟨fun _ => 0, 0⟩] }, none, fun _ => witMem⟩

/-- **C105** is violated by thin layers: with the input current on the device only, the decision whether anything happens
at the layers is taken from the old host copy, and the flux of the layer is missing. -/
theorem C105_violated_layers :
    Coherent true witIn ∧
    (SgbcEvol.mult witLayer 0 (value witIn) (fun _ => 0) witLayerObj.ev).map (fun r => r.1 0) = some 4 ∧
    (mult true backwards witLayer 0 witIn witMem witMem witLayerObj).map (fun r => value r.1 0) = some 3 := by
  refine ⟨by simp [Coherent, witIn], by decide +kernel, by decide +kernel⟩

/-- A case of `C105_layers_partial`: the same, after the host copy was made current. -/
example : Coherent true witIn.hostRead ∧ witIn.hostRead.host = value witIn.hostRead ∧
    (mult true backwards witLayer 0 witIn.hostRead witMem witMem witLayerObj).map (fun r => value r.1 0) = some 4 := by
  refine ⟨by simp [Coherent, witIn, Mem.hostRead], by simp [value, witIn, Mem.hostRead], by decide +kernel⟩

/-- A case of `C105_source_kernels_partial`. -/
example : ∃ T, wit.tfsf = some T ∧
    (inject true backwards wit T (T.val 3) ⟨fun _ => 0, fun _ => 3, false, true⟩
      ⟨fun _ => 5, fun _ => 0, false, true⟩).map (fun r => (value r.1 0, value r.2 1)) = some (-12, 0) :=
  ⟨_, rfl, by decide +kernel⟩

end Dgtd.Device
