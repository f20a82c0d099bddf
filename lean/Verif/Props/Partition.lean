/-
C13, C14, C15: partition post-processing.
-/
import Verif.Lemmas.PartitionLoad

set_option linter.unusedSectionVars false
set_option linter.unusedSimpArgs false

namespace Dgtd.Partition

open Spec

variable {m : Mesh} {tfsf sgbc : List Int}

lemma mem_pairs (a b : Int) : (a, b) ∈ gatherConstraintPairs m tfsf sgbc ↔
    ∃ be ∈ m.bdr, (be.attr ∈ tfsf ∨ be.attr ∈ sgbc) ∧ be.inner = some (a, b) := by
  have h1 : ∀ tags : List Int, (a, b) ∈ (if tags.length > 0 then pairsByTag m tags else []) ↔
      ∃ be ∈ m.bdr, be.attr ∈ tags ∧ be.inner = some (a, b) := by
    intro tags
    have : (if tags.length > 0 then pairsByTag m tags else []) = pairsByTag m tags := by
      cases tags <;> simp [pairsByTag]
    rw [this]
    simp only [pairsByTag, List.mem_flatMap, List.mem_filterMap]
    constructor
    · rintro ⟨t, ht, be, hbe, h⟩
      by_cases hat : be.attr = t
      · rw [if_pos hat] at h; exact ⟨be, hbe, by rw [hat]; exact ht, h⟩
      · rw [if_neg hat] at h; simp at h
    · rintro ⟨be, hbe, hat, h⟩
      exact ⟨be.attr, hat, be, hbe, by simpa using h⟩
  unfold gatherConstraintPairs
  rw [List.mem_append, h1, h1]
  constructor
  · rintro (⟨be, h1, h2, h3⟩ | ⟨be, h1, h2, h3⟩)
    · exact ⟨be, h1, Or.inl h2, h3⟩
    · exact ⟨be, h1, Or.inr h2, h3⟩
  · rintro ⟨be, h1, h2 | h2, h3⟩
    · exact Or.inl ⟨be, h1, h2, h3⟩
    · exact Or.inr ⟨be, h1, h2, h3⟩

lemma tied_lt (hm : WellFormed m) {a b : Nat} (h : Tied m tfsf sgbc a b) : a < m.NE ∧ b < m.NE := by
  obtain ⟨be, hbe, _, hi⟩ := h
  have := hm be hbe _ hi
  simp only at this
  omega

lemma inPairs_eq (hm : WellFormed m) : InPairs m.NE (gatherConstraintPairs m tfsf sgbc) = Tied m tfsf sgbc := by
  funext a b
  apply propext
  unfold InPairs
  rw [mem_pairs]
  constructor
  · exact fun h => h.2.2
  · intro h; have := tied_lt hm h; exact ⟨this.1, this.2, h⟩

lemma touched_lt (hm : WellFormed m) {a : Nat} (h : Touched m tfsf sgbc a) : a < m.NE := by
  obtain ⟨b, h | h⟩ := h
  · exact (tied_lt hm h).1
  · exact (tied_lt hm h).2

lemma mem_visited_iff (hm : WellFormed m) {e : Nat} :
    e ∈ visited m.NE (gatherConstraintPairs m tfsf sgbc) ↔ Touched m tfsf sgbc e := by
  rw [mem_visited]
  constructor
  · rintro ⟨he, ⟨a, b⟩, hp, h⟩
    have hp' := hp
    rw [mem_pairs] at hp
    obtain ⟨be, hbe, hat, hi⟩ := hp
    obtain ⟨w1, w2, w3, w4⟩ := hm be hbe _ hi
    simp only at w1 w2 w3 w4 h
    rcases h with h | h
    · refine ⟨b.toNat, Or.inl ⟨be, hbe, hat, ?_⟩⟩
      rw [hi, h, Int.toNat_of_nonneg w3]
    · refine ⟨a.toNat, Or.inr ⟨be, hbe, hat, ?_⟩⟩
      rw [hi, h, Int.toNat_of_nonneg w1]
  · intro h
    refine ⟨touched_lt hm h, ?_⟩
    obtain ⟨b, h | h⟩ := h
    · exact ⟨(e, b), (mem_pairs _ _).2 h, Or.inl rfl⟩
    · exact ⟨(b, e), (mem_pairs _ _).2 h, Or.inr rfl⟩

lemma linked_touched {a b : Nat} (h : Linked m tfsf sgbc a b) :
    a = b ∨ (Touched m tfsf sgbc a ∧ Touched m tfsf sgbc b) := by
  unfold Linked at h
  induction h with
  | rel a b h => exact Or.inr ⟨⟨b, Or.inl h⟩, ⟨a, Or.inr h⟩⟩
  | refl => exact Or.inl rfl
  | symm _ _ _ ih => rcases ih with h | h; exacts [Or.inl h.symm, Or.inr ⟨h.2, h.1⟩]
  | trans _ _ _ _ _ ih1 ih2 =>
    rcases ih1 with h | h
    · subst h; exact ih2
    · rcases ih2 with h' | h'
      · subst h'; exact Or.inr h
      · exact Or.inr ⟨h.1, h'.2⟩

lemma weights_eq (hm : WellFormed m) (e : Nat) :
    buildElementWeights m.NE (gatherConstraintPairs m tfsf sgbc) e = elemCost m tfsf sgbc e := by
  rw [buildElementWeights_eq]
  unfold elemCost
  by_cases h : e ∈ visited m.NE (gatherConstraintPairs m tfsf sgbc)
  · rw [if_pos h, if_pos ((mem_visited_iff hm).1 h)]
  · rw [if_neg h, if_neg (fun h' => h ((mem_visited_iff hm).2 h'))]

lemma rankCost_eq (hm : WellFormed m) (part : Nat → Int) (r : Nat) :
    L m.NE (buildElementWeights m.NE (gatherConstraintPairs m tfsf sgbc)) part r = rankCost m tfsf sgbc part r := by
  classical
  unfold L rankCost
  rw [Finset.sum_filter]
  refine Finset.sum_congr rfl ?_
  intro e _
  rw [weights_eq hm]

lemma assignAll_greedy (hm : WellFormed m) {P : Nat} (hP : 0 < P) :
    ∀ (comps : List (List Nat)), (∀ c ∈ comps, ∀ e ∈ c, e < m.NE) → ∀ st st',
    Acc m.NE P (buildElementWeights m.NE (gatherConstraintPairs m tfsf sgbc)) st →
    assignAll m.NE P (buildElementWeights m.NE (gatherConstraintPairs m tfsf sgbc)) comps st = some st' →
    Greedy m tfsf sgbc P comps st.1 st'.1 := by
  have hw : ∀ e, 0 ≤ buildElementWeights m.NE (gatherConstraintPairs m tfsf sgbc) e := by
    intro e; rw [buildElementWeights_eq]; split_ifs <;> omega
  intro comps
  induction comps with
  | nil =>
    intro _ st st' _ h
    have : st = st' := by simpa [assignAll] using h
    subst this
    exact .nil _
  | cons c comps ih =>
    intro hlt st st' hacc h
    obtain ⟨hm1, hm2⟩ := leastLoadedRank_spec hP st.2
    obtain ⟨s1, e1, h1, h2, _⟩ := assignComponent_spec hw hm1 c (hlt c (by simp)) st hacc
    have h' : assignAll m.NE P (buildElementWeights m.NE (gatherConstraintPairs m tfsf sgbc)) comps s1 = some st' := by
      unfold assignAll at h ⊢
      rw [List.foldlM_cons, e1] at h
      exact h
    refine .cons (leastLoadedRank P st.2) hm1 ?_ ?_
    · intro r' hr'
      rw [← rankCost_eq hm, ← rankCost_eq hm, ← hacc _ hm1, ← hacc _ hr']
      exact hm2 r' hr'
    · have : move st.1 c (leastLoadedRank P st.2) = s1.1 := by
        funext x; rw [h2 x]; unfold move; split_ifs <;> rfl
      rw [this]
      exact ih (fun c' hc' => hlt c' (by simp [hc'])) s1 st' h1 h'

/-- Everything the run does when there is something to do. -/
lemma run_spec {arrange : (Nat → Int) → List (List Nat) → List (List Nat)} (ha : Arranges arrange)
    (hm : WellFormed m) {P : Nat} (hP : 2 ≤ P) (part : Nat → Int) {a0 : Nat} (h0 : Touched m tfsf sgbc a0) :
    ∃ part' load' comps, run arrange m P part tfsf sgbc = some (part', some load') ∧
      (∀ r, r < P → load' r = rankCost m tfsf sgbc part' r) ∧
      (∀ x, ¬ Touched m tfsf sgbc x → part' x = part x) ∧
      Greedy m tfsf sgbc P comps part part' ∧
      (∀ c ∈ comps, c.Nodup ∧ ∀ e ∈ c, Touched m tfsf sgbc e ∧ ∀ e', e' ∈ c ↔ Linked m tfsf sgbc e e') ∧
      (∀ e, Touched m tfsf sgbc e → ∃ c ∈ comps, e ∈ c) ∧
      (comps.Pairwise fun a b => ∀ e ∈ a, e ∉ b) ∧
      (comps.Pairwise fun a b => (b.map (elemCost m tfsf sgbc)).sum ≤ (a.map (elemCost m tfsf sgbc)).sum) ∧
      (∀ c ∈ comps, ∃ r, r < P ∧ ∀ e ∈ c, part' e = (r : Int)) ∧
      (∀ B, (∀ c ∈ comps, (c.map (elemCost m tfsf sgbc)).sum ≤ B) → ∀ r, r < P →
        rankCost m tfsf sgbc part' r ≤ rankCost m tfsf sgbc part r ∨
        P * rankCost m tfsf sgbc part' r ≤ (∑ e ∈ Finset.range m.NE, elemCost m tfsf sgbc e) + P * B) := by
  set pairs := gatherConstraintPairs m tfsf sgbc with hpairs
  have hNE : m.NE ≠ 0 := by have := touched_lt hm h0; omega
  have hne : pairs ≠ [] := by
    have := (mem_visited_iff hm).2 h0
    intro h
    rw [← hpairs, h] at this
    simp [visited] at this
  have hwf : buildElementWeights m.NE pairs = elemCost m tfsf sgbc := by funext e; exact weights_eq hm e
  have hw : ∀ e, 0 ≤ buildElementWeights m.NE pairs e := by
    intro e; rw [buildElementWeights_eq]; split_ifs <;> omega
  obtain ⟨d, comps0, e1, e2, hg⟩ := components_spec m.NE pairs
  obtain ⟨hperm, hsort⟩ := ha (buildElementWeights m.NE pairs) comps0
  generalize hcomps : arrange (buildElementWeights m.NE pairs) comps0 = comps at hperm hsort
  have hlt : ∀ c ∈ comps, ∀ e ∈ c, e < m.NE := fun c hc e he =>
    (mem_visited.1 (hg.lt c (hperm.mem_iff.1 hc) e he)).1
  have hdisj : comps.Pairwise fun a b => ∀ e ∈ a, e ∉ b :=
    hperm.symm.pairwise hg.disj (by intro a b h e he he'; exact h e he' he)
  have hacc : Acc m.NE P (buildElementWeights m.NE pairs)
      (part, computeWeightedLoad P m.NE part (buildElementWeights m.NE pairs)) :=
    fun r hr => computeWeightedLoad_eq P m.NE part _ r hr
  obtain ⟨B0, hB0⟩ : ∃ B0, ∀ c ∈ comps, cost (buildElementWeights m.NE pairs) c ≤ B0 := by
    refine ⟨(comps.map (cost (buildElementWeights m.NE pairs))).sum, ?_⟩
    intro c hc
    have hnn : ∀ x ∈ comps.map (cost (buildElementWeights m.NE pairs)), 0 ≤ x := by
      intro x hx
      obtain ⟨c', _, rfl⟩ := List.mem_map.1 hx
      unfold cost
      apply List.sum_nonneg
      intro y hy
      obtain ⟨e, _, rfl⟩ := List.mem_map.1 hy
      exact hw e
    exact List.single_le_sum hnn _ (List.mem_map.2 ⟨c, hc, rfl⟩)
  obtain ⟨st', e3, g1, g2, g3, _⟩ := assignAll_spec (by omega : 0 < P) hw B0 comps hlt hdisj hB0 _ hacc
  obtain ⟨cnt, e4⟩ := count_some P m.NE st'.1 pairs (by
    rintro ⟨a, b⟩ hpr
    rw [hpairs, mem_pairs] at hpr
    obtain ⟨be, hbe, _, hi⟩ := hpr
    have := hm be hbe _ hi
    exact ⟨this.1, this.2.1⟩)
  have htouch : ∀ {e}, e ∈ visited m.NE pairs ↔ Touched m tfsf sgbc e := fun {e} => mem_visited_iff hm
  refine ⟨st'.1, st'.2, comps, ?_, ?_, ?_, ?_, ?_, ?_, hdisj, ?_, ?_, ?_⟩
  · unfold run
    rw [if_neg (by omega)]
    simp only [← hpairs]
    rw [if_neg hne]
    simp only [e1, e2, hcomps, e3, e4, Option.bind_eq_bind, Option.bind_some, Option.pure_def]
  · intro r hr
    rw [g1 r hr, rankCost_eq hm]
  · intro x hx
    apply g2
    intro c hc hxc
    exact hx (htouch.1 (hg.lt c (hperm.mem_iff.1 hc) x hxc))
  · exact assignAll_greedy hm (by omega) comps hlt _ _ hacc e3
  · intro c hc
    have hc' := hperm.mem_iff.1 hc
    refine ⟨hg.nodup c hc', ?_⟩
    intro e he
    have hv := hg.lt c hc' e he
    refine ⟨htouch.1 hv, ?_⟩
    intro e'
    have hcl := hg.class_ c hc' e he
    rw [hpairs, inPairs_eq hm] at hcl
    constructor
    · intro he'
      exact (hcl e' (hg.lt c hc' e' he')).1 he'
    · intro h
      rcases linked_touched h with h1 | h1
      · subst h1; exact he
      · exact (hcl e' (htouch.2 h1.2)).2 h
  · intro e he
    obtain ⟨c, hc, hec⟩ := hg.cover e (htouch.2 he)
    exact ⟨c, hperm.mem_iff.2 hc, hec⟩
  · rw [← hwf]; exact hsort
  · intro c hc
    obtain ⟨pre, post, hpp⟩ := List.append_of_mem hc
    obtain ⟨s, _, _, r, hr, _, h⟩ := g3 pre c post hpp
    exact ⟨r, hr, h⟩
  · intro B hB r hr
    obtain ⟨st2, e3', _, _, _, g4⟩ := assignAll_spec (by omega : 0 < P) hw B comps hlt hdisj
      (by rw [hwf]; exact hB) _ hacc
    rw [e3] at e3'
    have : st' = st2 := by simpa using e3'
    subst this
    have := g4 r hr
    rw [g1 r hr, hacc r hr, rankCost_eq hm, rankCost_eq hm, hwf] at this
    exact this

lemma run_trivial (arrange : (Nat → Int) → List (List Nat) → List (List Nat)) (hm : WellFormed m) (P : Nat)
    (part : Nat → Int) (h : P ≤ 1 ∨ ∀ a, ¬ Touched m tfsf sgbc a) :
    run arrange m P part tfsf sgbc = some (part, none) := by
  unfold run
  by_cases hc : m.NE = 0 ∨ P ≤ 1
  · rw [if_pos hc]
  · rw [if_neg hc]
    have hne : gatherConstraintPairs m tfsf sgbc = [] := by
      rw [List.eq_nil_iff_forall_not_mem]
      rintro ⟨a, b⟩ hab
      have hab' := hab
      rw [mem_pairs] at hab'
      obtain ⟨be, hbe, _, hi⟩ := hab'
      have hw := hm be hbe _ hi
      simp only at hw
      rcases h with h | h
      · exact hc (Or.inr h)
      · refine h a.toNat ((mem_visited_iff hm).1 ?_)
        rw [mem_visited]
        exact ⟨by omega, (a, b), hab, Or.inl (by simp only; omega)⟩
    simp only [hne]
    rfl

/-- The post-processing always completes: no out-of-range access, the root searches terminate. -/
theorem C13_completes {arrange : (Nat → Int) → List (List Nat) → List (List Nat)} (ha : Arranges arrange)
    (hm : WellFormed m) (P : Nat) (part : Nat → Int) (tfsf sgbc : List Int) :
    ∃ out, run arrange m P part tfsf sgbc = some out := by
  by_cases h : P ≤ 1 ∨ ∀ a, ¬ Touched m tfsf sgbc a
  · exact ⟨_, run_trivial arrange hm P part h⟩
  · push Not at h
    obtain ⟨hP, a, ha'⟩ := h
    obtain ⟨p, l, _, h, _⟩ := run_spec ha hm (by omega : 2 ≤ P) part ha'
    exact ⟨_, h⟩

/-- **C13**: elements joined by a TFSF or SGBC face, directly or through a chain, end on one rank. -/
theorem C13_linked_same_rank {arrange : (Nat → Int) → List (List Nat) → List (List Nat)} (ha : Arranges arrange)
    (hm : WellFormed m) (P : Nat) (part part' : Nat → Int) (l : Option (Nat → Int)) (tfsf sgbc : List Int)
    (hv : ∀ e, e < m.NE → 0 ≤ part e ∧ part e < P)
    (hrun : run arrange m P part tfsf sgbc = some (part', l)) (a b : Nat) (hab : Linked m tfsf sgbc a b) :
    part' a = part' b := by
  rcases linked_touched hab with h | ⟨h1, h2⟩
  · rw [h]
  · by_cases hP : P ≤ 1
    · rw [run_trivial arrange hm P part (Or.inl hP)] at hrun
      simp only [Option.some.injEq, Prod.mk.injEq] at hrun
      rw [← hrun.1]
      have := hv a (touched_lt hm h1)
      have := hv b (touched_lt hm h2)
      omega
    · obtain ⟨p, l', comps, e, _, _, _, hcl, hcov, _, _, hr, _⟩ := run_spec ha hm (by omega : 2 ≤ P) part h1
      rw [e] at hrun
      simp only [Option.some.injEq, Prod.mk.injEq] at hrun
      rw [← hrun.1]
      obtain ⟨c, hc, hac⟩ := hcov a h1
      have hbc := ((hcl c hc).2 a hac).2 b |>.2 hab
      obtain ⟨r, _, hr⟩ := hr c hc
      rw [hr a hac, hr b hbc]

/-- **C14**: untouched elements keep their rank, ranks stay valid, and nothing happens with a single rank or
no tied face. -/
theorem C14_only_moves_what_it_must {arrange : (Nat → Int) → List (List Nat) → List (List Nat)}
    (ha : Arranges arrange) (hm : WellFormed m) (P : Nat) (part part' : Nat → Int) (l : Option (Nat → Int))
    (tfsf sgbc : List Int) (hrun : run arrange m P part tfsf sgbc = some (part', l)) :
    (∀ e, ¬ Touched m tfsf sgbc e → part' e = part e) ∧
    ((∀ e, e < m.NE → 0 ≤ part e ∧ part e < P) → ∀ e, e < m.NE → 0 ≤ part' e ∧ part' e < P) ∧
    ((P ≤ 1 ∨ ∀ e, ¬ Touched m tfsf sgbc e) → part' = part) := by
  by_cases h : P ≤ 1 ∨ ∀ a, ¬ Touched m tfsf sgbc a
  · rw [run_trivial arrange hm P part h] at hrun
    simp only [Option.some.injEq, Prod.mk.injEq] at hrun
    rw [← hrun.1]
    exact ⟨fun _ _ => rfl, fun h => h, fun _ => rfl⟩
  · have h' := h
    push Not at h
    obtain ⟨hP, a, hta⟩ := h
    obtain ⟨p, l', comps, e, _, hkeep, _, _, hcov, _, _, hr, _⟩ := run_spec ha hm (by omega : 2 ≤ P) part hta
    rw [e] at hrun
    simp only [Option.some.injEq, Prod.mk.injEq] at hrun
    rw [← hrun.1]
    refine ⟨hkeep, ?_, fun h => absurd h h'⟩
    intro hv x hx
    by_cases ht : Touched m tfsf sgbc x
    · obtain ⟨c, hc, hxc⟩ := hcov x ht
      obtain ⟨r, hrP, hr⟩ := hr c hc
      rw [hr x hxc]; omega
    · rw [hkeep x ht]; exact hv x hx

/-- **C15**, accounting: the load vector equals the cost of the elements of each rank. -/
theorem C15_accounting {arrange : (Nat → Int) → List (List Nat) → List (List Nat)}
    (ha : Arranges arrange) (hm : WellFormed m) (P : Nat) (part part' load : Nat → Int)
    (tfsf sgbc : List Int) (hrun : run arrange m P part tfsf sgbc = some (part', some load)) (r : Nat) (hr : r < P) :
    load r = rankCost m tfsf sgbc part' r := by
  by_cases h : P ≤ 1 ∨ ∀ a, ¬ Touched m tfsf sgbc a
  · rw [run_trivial arrange hm P part h] at hrun
    simp at hrun
  · push Not at h
    obtain ⟨hP, a, hta⟩ := h
    obtain ⟨p, l', comps, e, hl, _⟩ := run_spec ha hm (by omega : 2 ≤ P) part hta
    rw [e] at hrun
    simp only [Option.some.injEq, Prod.mk.injEq] at hrun
    rw [← hrun.1, ← hrun.2]
    exact hl r hr

/-- **C15**, greedy rule: the groups of linked elements are moved one at a time, most expensive first, each
to a rank of least cost at that moment. -/
theorem C15_greedy {arrange : (Nat → Int) → List (List Nat) → List (List Nat)}
    (ha : Arranges arrange) (hm : WellFormed m) (P : Nat) (hP : 2 ≤ P) (part part' : Nat → Int)
    (l : Option (Nat → Int)) (tfsf sgbc : List Int) (hrun : run arrange m P part tfsf sgbc = some (part', l)) :
    ∃ groups : List (List Nat), Greedy m tfsf sgbc P groups part part' ∧
      (∀ g ∈ groups, ∀ a ∈ g, Touched m tfsf sgbc a ∧ ∀ e, e ∈ g ↔ Linked m tfsf sgbc a e) ∧
      (∀ g ∈ groups, g.Nodup) ∧
      (∀ a, Touched m tfsf sgbc a → ∃ g ∈ groups, a ∈ g) ∧
      (groups.Pairwise fun a b => ∀ e ∈ a, e ∉ b) ∧
      (groups.Pairwise fun a b => (b.map (elemCost m tfsf sgbc)).sum ≤ (a.map (elemCost m tfsf sgbc)).sum) := by
  by_cases h : ∀ a, ¬ Touched m tfsf sgbc a
  · rw [run_trivial arrange hm P part (Or.inr h)] at hrun
    simp only [Option.some.injEq, Prod.mk.injEq] at hrun
    rw [← hrun.1]
    exact ⟨[], .nil _, by simp, by simp, fun a ha => absurd ha (h a), by simp, by simp⟩
  · push Not at h
    obtain ⟨a, hta⟩ := h
    obtain ⟨p, l', comps, e, _, _, hgr, hcl, hcov, hdis, hsort, _⟩ := run_spec ha hm hP part hta
    rw [e] at hrun
    simp only [Option.some.injEq, Prod.mk.injEq] at hrun
    rw [← hrun.1]
    exact ⟨comps, hgr, fun g hg => (hcl g hg).2, fun g hg => (hcl g hg).1, hcov, hdis, hsort⟩

/-- **C15**, balance: a rank ends no more expensive than it started, or at most one group above the average. -/
theorem C15_balance {arrange : (Nat → Int) → List (List Nat) → List (List Nat)}
    (ha : Arranges arrange) (hm : WellFormed m) (P : Nat) (part part' : Nat → Int)
    (l : Option (Nat → Int)) (tfsf sgbc : List Int) (hrun : run arrange m P part tfsf sgbc = some (part', l))
    (B : Int) (hB : ∀ a, Touched m tfsf sgbc a → groupCost m tfsf sgbc a ≤ B) (hB0 : 0 ≤ B) (r : Nat) (hr : r < P) :
    rankCost m tfsf sgbc part' r ≤ rankCost m tfsf sgbc part r ∨
    P * rankCost m tfsf sgbc part' r ≤ (∑ e ∈ Finset.range m.NE, elemCost m tfsf sgbc e) + P * B := by
  classical
  by_cases h : P ≤ 1 ∨ ∀ a, ¬ Touched m tfsf sgbc a
  · rw [run_trivial arrange hm P part h] at hrun
    simp only [Option.some.injEq, Prod.mk.injEq] at hrun
    rw [← hrun.1]
    exact Or.inl le_rfl
  · push Not at h
    obtain ⟨hP, a, hta⟩ := h
    obtain ⟨p, l', comps, e, _, _, _, hcl, _, _, _, _, hb⟩ := run_spec ha hm (by omega : 2 ≤ P) part hta
    rw [e] at hrun
    simp only [Option.some.injEq, Prod.mk.injEq] at hrun
    rw [← hrun.1]
    refine hb B ?_ r hr
    intro c hc
    obtain ⟨hnd, hc'⟩ := hcl c hc
    cases hcc : c with
    | nil => simpa [cost] using hB0
    | cons x xs =>
      rw [← hcc]
      obtain ⟨htx, hx⟩ := hc' x (by rw [hcc]; simp)
      refine le_trans (le_of_eq ?_) (hB x htx)
      unfold groupCost
      rw [← List.sum_toFinset _ hnd]
      refine Finset.sum_congr ?_ (fun _ _ => rfl)
      ext y
      simp only [List.mem_toFinset, Finset.mem_filter, Finset.mem_range]
      rw [hx y]
      constructor
      · intro hy
        refine ⟨?_, hy⟩
        rcases linked_touched hy with h | h
        · rw [← h]; exact touched_lt hm htx
        · exact touched_lt hm h.2
      · exact fun h => h.2

/-! Non-vacuity: seven elements, three ranks, a chain 0-1-2 and a pair 4-5; element 3 and 6 are free. -/

def exMesh : Mesh := ⟨7, [⟨301, some (0, 1)⟩, ⟨1, none⟩, ⟨301, some (1, 2)⟩, ⟨401, some (5, 4)⟩, ⟨2, some (3, 6)⟩]⟩

def exPart : Nat → Int := fun e => (e % 3 : Nat)

/-- One of the arrangements allowed. -/
def exArrange (w : Nat → Int) (l : List (List Nat)) : List (List Nat) :=
  l.insertionSort (fun a b => cost w b ≤ cost w a)

example : WellFormed exMesh := by
  intro be hbe p hp
  simp only [exMesh, List.mem_cons, List.not_mem_nil, or_false] at hbe
  rcases hbe with rfl | rfl | rfl | rfl | rfl <;> simp at hp <;> subst hp <;> decide

example : Arranges exArrange := by
  intro w l
  have h1 : Std.Total (fun a b : List Nat => cost w b ≤ cost w a) := ⟨fun a b => le_total _ _⟩
  have h2 : IsTrans (List Nat) (fun a b : List Nat => cost w b ≤ cost w a) := ⟨fun a b c h1 h2 => h2.trans h1⟩
  exact ⟨List.perm_insertionSort _ _, List.pairwise_insertionSort _ _⟩

example : (run exArrange exMesh 3 exPart [301] [401]).map (fun o => (List.range 7).map o.1) =
    some [0, 0, 0, 0, 1, 1, 0] := by decide +kernel

example : Linked exMesh [301] [401] 0 2 := by
  refine .trans _ 1 _ (.rel _ _ ?_) (.rel _ _ ?_)
  · exact ⟨⟨301, some (0, 1)⟩, by simp [exMesh], Or.inl (by simp), rfl⟩
  · exact ⟨⟨301, some (1, 2)⟩, by simp [exMesh], Or.inl (by simp), rfl⟩

end Dgtd.Partition
