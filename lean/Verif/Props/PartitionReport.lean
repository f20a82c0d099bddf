/-
C183: the balance printed is that of the partition.
-/
import Verif.Props.Partition
import Verif.Spec.PartitionReport
import Mathlib.Algebra.Order.Field.Rat
import Mathlib.Tactic.Positivity
import Mathlib.Tactic.FieldSimp
import Mathlib.Tactic.Linarith

namespace Dgtd.Partition
open Spec

variable {m : Mesh} {tfsf sgbc : List Int}

lemma fold_best (lt : Int → Int → Prop) [DecidableRel lt] (hirr : ∀ a b, lt a b → ¬ lt b a) (htr : ∀ a b c, ¬ lt b a → ¬ lt c b → ¬ lt c a)
    (load : Nat → Int) : ∀ (l : List Nat) (b : Int),
    let x := l.foldl (fun best r => if lt best (load r) then load r else best) b
    (x = b ∨ ∃ r ∈ l, x = load r) ∧ ¬ lt x b ∧ ∀ r ∈ l, ¬ lt x (load r) := by
  intro l
  induction l with
  | nil => intro b; exact ⟨.inl rfl, fun h => hirr _ _ h h, by simp⟩
  | cons r l ih =>
    intro b
    simp only [List.foldl_cons]
    by_cases h : lt b (load r)
    · rw [if_pos h]
      obtain ⟨h1, h2, h3⟩ := ih (load r)
      refine ⟨.inr ?_, htr _ _ _ (hirr _ _ h) h2, ?_⟩
      · rcases h1 with h1 | ⟨s, hs, h1⟩
        · exact ⟨r, by simp, h1⟩
        · exact ⟨s, by simp [hs], h1⟩
      · intro s hs
        rcases List.mem_cons.1 hs with rfl | hs
        exacts [h2, h3 s hs]
    · rw [if_neg h]
      obtain ⟨h1, h2, h3⟩ := ih b
      refine ⟨?_, h2, ?_⟩
      · rcases h1 with h1 | ⟨s, hs, h1⟩
        · exact .inl h1
        · exact .inr ⟨s, by simp [hs], h1⟩
      · intro s hs
        rcases List.mem_cons.1 hs with rfl | hs
        · exact htr _ _ _ h h2
        · exact h3 s hs

lemma maxElement_spec {P : Nat} (hP : 0 < P) (load : Nat → Int) : (∃ r < P, maxElement P load = load r) ∧ ∀ r < P, load r ≤ maxElement P load := by
  obtain ⟨h1, h2, h3⟩ := fold_best (fun a b => a < b) (fun a b h => by omega) (fun a b c h h' => by omega) load (List.range' 1 (P - 1)) (load 0)
  constructor
  · rcases h1 with h | ⟨r, hr, h⟩
    · exact ⟨0, hP, h⟩
    · rw [List.mem_range'] at hr
      exact ⟨r, by omega, h⟩
  · intro r hr
    rcases Nat.eq_zero_or_pos r with rfl | h
    · exact not_lt.1 h2
    · exact not_lt.1 (h3 r (by rw [List.mem_range'_1]; omega))

lemma minElement_spec {P : Nat} (hP : 0 < P) (load : Nat → Int) : (∃ r < P, minElement P load = load r) ∧ ∀ r < P, minElement P load ≤ load r := by
  obtain ⟨h1, h2, h3⟩ := fold_best (fun a b => b < a) (fun a b h => by omega) (fun a b c h h' => by omega) load (List.range' 1 (P - 1)) (load 0)
  constructor
  · rcases h1 with h | ⟨r, hr, h⟩
    · exact ⟨0, hP, h⟩
    · rw [List.mem_range'] at hr
      exact ⟨r, by omega, h⟩
  · intro r hr
    rcases Nat.eq_zero_or_pos r with rfl | h
    · exact not_lt.1 h2
    · exact not_lt.1 (h3 r (by rw [List.mem_range'_1]; omega))

lemma accumulate_eq (P : Nat) (load : Nat → Int) : accumulate P load = ∑ r ∈ Finset.range P, load r := by
  unfold accumulate
  induction P with
  | zero => simp
  | succ n ih => rw [List.range_succ, List.foldl_append, ih, Finset.sum_range_succ]; rfl

lemma sum_rankCost {P : Nat} {part : Nat → Int} (hv : ∀ e < m.NE, 0 ≤ part e ∧ part e < P) :
    ∑ r ∈ Finset.range P, rankCost m tfsf sgbc part r = ∑ e ∈ Finset.range m.NE, elemCost m tfsf sgbc e := by
  classical
  unfold rankCost
  simp only [Finset.sum_filter]
  rw [Finset.sum_comm]
  refine Finset.sum_congr rfl fun e he => ?_
  have h := hv e (Finset.mem_range.1 he)
  rw [Finset.sum_eq_single (part e).toNat]
  · rw [if_pos (by omega)]
  · intro r _ hr
    rw [if_neg (by omega)]
  · intro hr
    exact absurd (Finset.mem_range.2 (by omega)) hr

lemma count_eq (P NE : Nat) (part : Nat → Int) (pairs : List (Int × Int)) (h : ∀ pr ∈ pairs, 0 ≤ pr.1 ∧ pr.1 < (NE : Int)) (c0 : Nat → Nat) :
    ∃ c, pairs.foldlM (fun cnt pr => do
        let r ← if 0 ≤ pr.1 then rd NE part pr.1.toNat else none
        pure (if 0 ≤ r ∧ r < P then Function.update cnt r.toNat (cnt r.toNat + 1) else cnt)) c0 = some c ∧
      ∀ r < P, c r = c0 r + pairs.countP fun pr => decide (part pr.1.toNat = r) := by
  induction pairs generalizing c0 with
  | nil => exact ⟨c0, rfl, by simp⟩
  | cons pr rest ih =>
    obtain ⟨h0, h1⟩ := h pr (by simp)
    rw [List.foldlM_cons]
    simp only [if_pos h0, rd_lt part (show pr.1.toNat < NE by omega), Option.bind_eq_bind, Option.bind_some, Option.pure_def]
    obtain ⟨c, hc, hr⟩ := ih (fun p hp => h p (by simp [hp]))
      (if 0 ≤ part pr.1.toNat ∧ part pr.1.toNat < P then Function.update c0 (part pr.1.toNat).toNat (c0 (part pr.1.toNat).toNat + 1) else c0)
    refine ⟨c, hc, fun r hrP => ?_⟩
    rw [hr r hrP, List.countP_cons]
    by_cases hq : part pr.1.toNat = r
    · rw [if_pos (by omega), hq]
      simp
      omega
    · by_cases hin : 0 ≤ part pr.1.toNat ∧ part pr.1.toNat < P
      · rw [if_pos hin, Function.update_of_ne (by omega)]
        simp [hq]
      · rw [if_neg hin]
        simp [hq]

lemma countP_tag (q : Int × Int → Bool) (t : Int) (l : List BdrElem) :
    (l.filterMap fun b => if b.attr = t then b.inner else none).countP q =
      (l.map fun be => match be.inner with
        | none => 0
        | some p => if q p then (if be.attr = t then 1 else 0) else 0).sum := by
  induction l with
  | nil => rfl
  | cons b l ih =>
    rw [List.filterMap_cons, List.map_cons, List.sum_cons, ← ih]
    rcases hb : b.inner with _ | p
    · simp
    · by_cases ht : b.attr = t
      · simp only [ht, if_true, List.countP_cons]
        omega
      · simp [ht]

lemma countP_tags (q : Int × Int → Bool) (tags : List Int) :
    (pairsByTag m tags).countP q = (m.bdr.map fun be => match be.inner with
        | none => 0
        | some p => if q p then tags.count be.attr else 0).sum := by
  unfold pairsByTag
  induction tags with
  | nil =>
    simp only [List.flatMap_nil, List.countP_nil, List.count_nil, ite_self]
    induction m.bdr with
    | nil => rfl
    | cons b l ih => rw [List.map_cons, List.sum_cons, ← ih]; split <;> rfl
  | cons t tags ih =>
    rw [List.flatMap_cons, List.countP_append, ih, countP_tag, ← List.sum_map_add]
    congr 1
    apply List.map_congr_left
    intro b _
    rcases b.inner with _ | p
    · rfl
    · simp only [List.count_cons]
      by_cases h1 : b.attr = t
      · simp only [h1, if_true, beq_self_eq_true]; split <;> omega
      · have h2 : ¬ t = b.attr := fun h => h1 h.symm
        simp only [h1, if_false, beq_iff_eq, h2]; split <;> omega

lemma countP_pairs (q : Int × Int → Bool) : (gatherConstraintPairs m tfsf sgbc).countP q = faces m tfsf sgbc q := by
  have h1 : ∀ tags : List Int, (if tags.length > 0 then pairsByTag m tags else []) = pairsByTag m tags := by
    intro tags; cases tags <;> simp [pairsByTag]
  unfold gatherConstraintPairs faces
  rw [h1, h1, List.countP_append, countP_tags, countP_tags, ← List.sum_map_add]
  congr 1
  apply List.map_congr_left
  intro b _
  rcases b.inner with _ | p
  · rfl
  · simp only
    split <;> rfl

lemma ncard_groups (hm : WellFormed m) {comps : List (List Nat)} (hg : GoodComps m.NE (gatherConstraintPairs m tfsf sgbc) comps) :
    (groups m tfsf sgbc).ncard = comps.length := by
  classical
  have hset : ∀ c ∈ comps, ∀ a ∈ c, {e | e ∈ c} = {e | Linked m tfsf sgbc a e} := by
    intro c hc a ha
    ext e
    have hcl := hg.class_ c hc a ha
    rw [inPairs_eq hm] at hcl
    constructor
    · intro he; exact (hcl e (hg.lt c hc e he)).1 he
    · intro he
      rcases linked_touched he with h | h
      · subst h; exact ha
      · exact (hcl e ((mem_visited_iff hm).2 h.2)).2 he
  have hnd : (comps.map fun c => {e | e ∈ c}).Nodup := by
    rw [List.nodup_iff_pairwise_ne, List.pairwise_map]
    refine hg.disj.imp_of_mem ?_
    intro a b ha _ h heq
    obtain ⟨x, hx⟩ := List.exists_mem_of_ne_nil _ (hg.filled a ha)
    have : x ∈ {e | e ∈ b} := heq ▸ hx
    exact h x hx this
  have : groups m tfsf sgbc = ((comps.map fun c => {e | e ∈ c}).toFinset : Set (Set Nat)) := by
    ext g
    simp only [groups, Set.mem_ofPred_eq, List.coe_toFinset, List.mem_map]
    constructor
    · rintro ⟨a, ha, rfl⟩
      obtain ⟨c, hc, hac⟩ := hg.cover a ((mem_visited_iff hm).2 ha)
      exact ⟨c, hc, hset c hc a hac⟩
    · rintro ⟨c, hc, rfl⟩
      obtain ⟨a, ha⟩ := List.exists_mem_of_ne_nil _ (hg.filled c hc)
      exact ⟨a, (mem_visited_iff hm).1 (hg.lt c hc a ha), hset c hc a ha⟩
  rw [this, Set.ncard_coe_finset, List.toFinset_card_of_nodup hnd, List.length_map]

/-- **C183**: what is printed is true of the partition that is used: the least and greatest cost of a rank, the average cost, how far the
greatest is above the average, the number of groups of linked elements, and the number of marked faces inside every rank, which are all. -/
theorem C183_report {arrange : (Nat → Int) → List (List Nat) → List (List Nat)} (ha : Arranges arrange) (hm : WellFormed m) (P : Nat)
    (part part' : Nat → Int) (l : Option (Nat → Int)) (hv : ∀ e < m.NE, 0 ≤ part e ∧ part e < P)
    (hrun : run arrange m P part tfsf sgbc = some (part', l)) (hP : 2 ≤ P) (h0 : ∃ a, Touched m tfsf sgbc a) :
    ∃ rep, printed arrange m P part tfsf sgbc = some (some rep) ∧
      rep.ranks = P ∧ rep.tfsfTags = tfsf.length ∧ rep.sgbcTags = sgbc.length ∧
      IsLeast (costs m tfsf sgbc P part') rep.minLoad ∧ IsGreatest (costs m tfsf sgbc P part') rep.maxLoad ∧
      rep.ideal * P = ((∑ e ∈ Finset.range m.NE, elemCost m tfsf sgbc e : Int) : ℚ) ∧
      0 ≤ rep.imbalance ∧ rep.maxLoad = rep.ideal * (1 + rep.imbalance / 100) ∧
      rep.comps = (groups m tfsf sgbc).ncard ∧
      rep.pairs = faces m tfsf sgbc (fun _ => true) ∧
      rep.perRank = (List.range P).map (fun r => faces m tfsf sgbc (onRank part' r)) ∧ rep.perRank.sum = rep.pairs := by
  obtain ⟨a0, h0⟩ := h0
  have hvalid := (C14_only_moves_what_it_must ha hm P part part' l tfsf sgbc hrun).2.1 hv
  have hsame := C13_linked_same_rank ha hm P part part' l tfsf sgbc hv hrun
  obtain ⟨p1, load', _, hrun', hload, _⟩ := run_spec ha hm hP part h0
  rw [hrun] at hrun'
  simp only [Option.some.injEq, Prod.mk.injEq] at hrun'
  obtain ⟨rfl, rfl⟩ := hrun'
  have hNE : 0 < m.NE := by have := touched_lt hm h0; omega
  have hne : gatherConstraintPairs m tfsf sgbc ≠ [] := by
    have := (mem_visited_iff hm).2 h0
    intro h
    rw [h] at this
    simp [visited] at this
  obtain ⟨d, comps0, e1, e2, hg⟩ := components_spec m.NE (gatherConstraintPairs m tfsf sgbc)
  have hlen : (arrange (buildElementWeights m.NE (gatherConstraintPairs m tfsf sgbc)) comps0).length = comps0.length :=
    (ha _ comps0).1.length_eq
  have hwf : ∀ pr ∈ gatherConstraintPairs m tfsf sgbc, (0 ≤ pr.1 ∧ pr.1 < (m.NE : Int)) ∧ 0 ≤ pr.2 ∧ pr.2 < (m.NE : Int) ∧
      Tied m tfsf sgbc pr.1.toNat pr.2.toNat := by
    rintro ⟨a, b⟩ hpr
    rw [mem_pairs] at hpr
    obtain ⟨be, hbe, ht, hi⟩ := hpr
    obtain ⟨w1, w2, w3, w4⟩ := hm be hbe _ hi
    simp only at w1 w2 w3 w4
    refine ⟨⟨w1, w2⟩, w3, w4, be, hbe, ht, ?_⟩
    rw [hi, Int.toNat_of_nonneg w1, Int.toNat_of_nonneg w3]
  obtain ⟨cnt, e4, hcnt⟩ := count_eq P m.NE part' (gatherConstraintPairs m tfsf sgbc) (fun pr h => (hwf pr h).1) (fun _ => 0)
  have hassign : assignAll m.NE P (buildElementWeights m.NE (gatherConstraintPairs m tfsf sgbc))
      (arrange (buildElementWeights m.NE (gatherConstraintPairs m tfsf sgbc)) comps0)
      (part, computeWeightedLoad P m.NE part (buildElementWeights m.NE (gatherConstraintPairs m tfsf sgbc))) = some (part', load') := by
    unfold run at hrun
    rw [if_neg (by omega)] at hrun
    simp only at hrun
    rw [if_neg hne] at hrun
    simp only [e1, e2, Option.bind_eq_bind, Option.bind_some, Option.pure_def, Option.bind_eq_some_iff] at hrun
    obtain ⟨st, hst, c, _, h⟩ := hrun
    simp only [Option.some.injEq, Prod.mk.injEq] at h
    rw [hst, ← h.1, ← h.2]
  have hper : ∀ r < P, cnt r = faces m tfsf sgbc (onRank part' r) := by
    intro r hr
    rw [hcnt r hr, zero_add, ← countP_pairs]
    apply List.countP_congr
    intro pr hpr
    have := hsame _ _ (.rel _ _ (hwf pr hpr).2.2.2)
    simp only [onRank, decide_eq_true_eq]
    constructor
    · intro h; exact ⟨h, this ▸ h⟩
    · exact fun h => h.1
  have htot : (accumulate P load' : Int) = ∑ e ∈ Finset.range m.NE, elemCost m tfsf sgbc e := by
    rw [accumulate_eq, ← sum_rankCost hvalid]
    exact Finset.sum_congr rfl fun r hr => hload r (Finset.mem_range.1 hr)
  have hcost : ∀ e, 1 ≤ elemCost m tfsf sgbc e := by intro e; unfold elemCost; split <;> omega
  have htotpos : 0 < ∑ e ∈ Finset.range m.NE, elemCost m tfsf sgbc e :=
    Finset.sum_pos (fun e _ => by have := hcost e; omega) ⟨0, Finset.mem_range.2 hNE⟩
  obtain ⟨⟨rM, hrM, hM⟩, hM'⟩ := maxElement_spec (by omega : 0 < P) load'
  obtain ⟨⟨rm, hrm, hmn⟩, hm'⟩ := minElement_spec (by omega : 0 < P) load'
  have hPq : (0 : ℚ) < P := by exact_mod_cast (by omega : 0 < P)
  have hidealpos : (0 : ℚ) < (accumulate P load' : ℚ) / P := by
    apply div_pos _ hPq
    rw [htot]; exact_mod_cast htotpos
  have hmaxge : (accumulate P load' : ℚ) / P ≤ (maxElement P load' : ℚ) := by
    rw [div_le_iff₀ hPq]
    have : accumulate P load' ≤ maxElement P load' * P := by
      rw [accumulate_eq]
      calc ∑ r ∈ Finset.range P, load' r ≤ ∑ _r ∈ Finset.range P, maxElement P load' :=
            Finset.sum_le_sum fun r hr => hM' r (Finset.mem_range.1 hr)
        _ = maxElement P load' * P := by rw [Finset.sum_const, Finset.card_range, nsmul_eq_mul, mul_comm]
    exact_mod_cast this
  have hprint : printed arrange m P part tfsf sgbc = some (some {
      pairs := (gatherConstraintPairs m tfsf sgbc).length
      comps := (arrange (buildElementWeights m.NE (gatherConstraintPairs m tfsf sgbc)) comps0).length
      ranks := P, tfsfTags := tfsf.length, sgbcTags := sgbc.length
      minLoad := minElement P load', maxLoad := maxElement P load', ideal := (accumulate P load' : ℚ) / P
      imbalance := if 0 < (accumulate P load' : ℚ) / P then
        (maxElement P load' - (accumulate P load' : ℚ) / P) / ((accumulate P load' : ℚ) / P) * 100 else 0
      perRank := (List.range P).map cnt }) := by
    unfold printed
    rw [if_neg (by omega)]
    simp only
    rw [if_neg hne]
    have e5 : countBoundaryPairsPerRank P m.NE part' (gatherConstraintPairs m tfsf sgbc) = some cnt := e4
    simp only [e1, e2, hassign, report, e5, Option.bind_eq_bind, Option.bind_some, Option.pure_def]
  have hpairs : (gatherConstraintPairs m tfsf sgbc).length = faces m tfsf sgbc (fun _ => true) := by
    rw [← countP_pairs, List.countP_true]
  have hlist : (List.range P).map cnt = (List.range P).map (fun r => faces m tfsf sgbc (onRank part' r)) :=
    List.map_congr_left fun r hr => hper r (List.mem_range.1 hr)
  refine ⟨_, hprint, rfl, rfl, rfl, ⟨⟨rm, hrm, ?_⟩, ?_⟩, ⟨⟨rM, hrM, ?_⟩, ?_⟩, ?_, ?_, ?_, ?_, hpairs, hlist, ?_⟩
  · rw [← hload rm hrm]; exact hmn
  · rintro c ⟨r, hr, rfl⟩
    rw [← hload r hr]; exact hm' r hr
  · rw [← hload rM hrM]; exact hM
  · rintro c ⟨r, hr, rfl⟩
    rw [← hload r hr]; exact hM' r hr
  · simp only
    rw [div_mul_cancel₀ _ hPq.ne', htot]
  · simp only [if_pos hidealpos]
    exact mul_nonneg (div_nonneg (by linarith) hidealpos.le) (by norm_num)
  · simp only [if_pos hidealpos]
    generalize (accumulate P load' : ℚ) / P = y at hidealpos
    field_simp
    ring
  · rw [ncard_groups hm hg]; exact hlen
  · simp only
    have hsum : ∀ n, (∀ pr ∈ gatherConstraintPairs m tfsf sgbc, True) →
        ((List.range n).map fun r : Nat => (gatherConstraintPairs m tfsf sgbc).countP fun pr => decide (part' pr.1.toNat = (r : Int))).sum =
          (gatherConstraintPairs m tfsf sgbc).countP fun pr => decide (0 ≤ part' pr.1.toNat ∧ part' pr.1.toNat < n) := by
      intro n _
      induction n with
      | zero =>
        simp only [List.range_zero, List.map_nil, List.sum_nil]
        rw [eq_comm, List.countP_eq_zero]
        intro pr _
        simp only [decide_eq_true_eq]
        omega
      | succ n ih =>
        rw [List.range_succ, List.map_append, List.sum_append, ih]
        simp only [List.map_cons, List.map_nil, List.sum_cons, List.sum_nil, add_zero]
        induction gatherConstraintPairs m tfsf sgbc with
        | nil => rfl
        | cons pr rest ih2 =>
          simp only [List.countP_cons, decide_eq_true_eq]
          split_ifs <;> omega
    have : (List.range P).map cnt = (List.range P).map fun r : Nat =>
        (gatherConstraintPairs m tfsf sgbc).countP fun pr => decide (part' pr.1.toNat = (r : Int)) :=
      List.map_congr_left fun r hr => by rw [hcnt r (List.mem_range.1 hr), zero_add]
    rw [this, hsum P (fun _ _ => trivial), List.countP_eq_length]
    intro pr hpr
    have := hwf pr hpr
    simpa using hvalid pr.1.toNat (by omega)

/-- Without a marked face, or on one rank, nothing is printed. -/
theorem C183_silent (arrange : (Nat → Int) → List (List Nat) → List (List Nat)) (hm : WellFormed m) (P : Nat) (part : Nat → Int)
    (h : P ≤ 1 ∨ ∀ a, ¬ Touched m tfsf sgbc a) : printed arrange m P part tfsf sgbc = some none := by
  unfold printed
  by_cases hc : m.NE = 0 ∨ P ≤ 1
  · rw [if_pos hc]
  · rw [if_neg hc]
    have hne : gatherConstraintPairs m tfsf sgbc = [] := by
      rw [List.eq_nil_iff_forall_not_mem]
      rintro ⟨a, b⟩ hab
      have hab' := hab
      rw [mem_pairs] at hab'
      obtain ⟨be, hbe, _, hi⟩ := hab'
      have hw := hm be hbe _ hi
      simp only at hw
      rcases h with h | h
      · exact hc (Or.inr h)
      · refine h a.toNat ((mem_visited_iff hm).1 ?_)
        rw [mem_visited]
        exact ⟨by omega, (a, b), hab, Or.inl (by simp only; omega)⟩
    simp only [hne]
    rfl

/-- The mesh of `exMesh` on three ranks: the costs are 17, 10 and 0, so that the greatest is 89 % above the average of 9. -/
example : printed exArrange exMesh 3 exPart [301] [401] = some (some ⟨3, 2, 3, 1, 1, 0, 17, 9, 800 / 9, [2, 1, 0]⟩) := by decide +kernel

end Dgtd.Partition
