/-
The disjoint-set forest of the partition post-processing refines an equivalence relation.
-/
import Verif.Model.Partition
import Mathlib.Data.Finset.Card
import Mathlib.Data.Finset.Range
import Mathlib.Logic.Relation
import Mathlib.Tactic.Push

set_option linter.unusedSectionVars false
set_option linter.unusedSimpArgs false

namespace Dgtd.Partition

lemma rd_lt {α : Type} {n : Nat} (a : Nat → α) {i : Nat} (h : i < n) : rd n a i = some (a i) := if_pos h

lemma wr_lt {α : Type} {n : Nat} (a : Nat → α) {i : Nat} (h : i < n) (x : α) :
    wr n a i x = some (Function.update a i x) := if_pos h

/-- `r` is the root reached from `x`. -/
inductive Rep (par : Nat → Nat) : Nat → Nat → Prop
  | root {x} : par x = x → Rep par x x
  | step {x r} : par x ≠ x → Rep par (par x) r → Rep par x r

lemma Rep.fix {par : Nat → Nat} {x r : Nat} (h : Rep par x r) : par r = r := by
  induction h with
  | root h => exact h
  | step _ _ ih => exact ih

lemma Rep.det {par : Nat → Nat} {x r s : Nat} (h : Rep par x r) (h' : Rep par x s) : r = s := by
  induction h with
  | root h0 => cases h' with
    | root => rfl
    | step h1 _ => exact absurd h0 h1
  | step h0 _ ih => cases h' with
    | root h1 => exact absurd h1 h0
    | step _ h2 => exact ih h2

/-- Forest invariant: parents are elements and ranks grow towards the root. -/
structure Inv (NE : Nat) (par rk : Nat → Nat) : Prop where
  lt : ∀ x, x < NE → par x < NE
  up : ∀ x, x < NE → par x ≠ x → rk x < rk (par x)

lemma Rep.lt {NE : Nat} {par rk : Nat → Nat} (hi : Inv NE par rk) {x r : Nat} (h : Rep par x r) (hx : x < NE) :
    r < NE := by
  induction h with
  | root => exact hx
  | step _ _ ih => exact ih (hi.lt _ hx)

/-- Number of elements of larger rank. -/
def above (NE : Nat) (rk : Nat → Nat) (x : Nat) : Nat := ((Finset.range NE).filter fun y => rk x < rk y).card

lemma above_le (NE : Nat) (rk : Nat → Nat) (x : Nat) : above NE rk x ≤ NE := by
  unfold above
  exact (Finset.card_filter_le _ _).trans (by simp)

lemma above_lt {NE : Nat} {rk : Nat → Nat} {x y : Nat} (hy : y < NE) (h : rk x < rk y) :
    above NE rk y < above NE rk x := by
  unfold above
  apply Finset.card_lt_card
  rw [Finset.ssubset_iff_of_subset]
  · exact ⟨y, by simp [hy, h], by simp⟩
  · intro z hz
    simp only [Finset.mem_filter] at hz ⊢
    exact ⟨hz.1, h.trans hz.2⟩

lemma Inv.total {NE : Nat} {par rk : Nat → Nat} (hi : Inv NE par rk) :
    ∀ x, x < NE → ∃ r, Rep par x r := by
  suffices h : ∀ k x, x < NE → above NE rk x ≤ k → ∃ r, Rep par x r from fun x hx => h _ x hx le_rfl
  intro k
  induction k with
  | zero =>
    intro x hx hk
    by_cases hp : par x = x
    · exact ⟨x, .root hp⟩
    · have := above_lt (hi.lt x hx) (hi.up x hx hp); omega
  | succ k ih =>
    intro x hx hk
    by_cases hp : par x = x
    · exact ⟨x, .root hp⟩
    · have := above_lt (hi.lt x hx) (hi.up x hx hp)
      obtain ⟨r, hr⟩ := ih (par x) (hi.lt x hx) (by omega)
      exact ⟨r, .step hp hr⟩

lemma halve {NE : Nat} {par rk : Nat → Nat} (hi : Inv NE par rk) {x : Nat} (hx : x < NE) (hp : par x ≠ x) :
    Inv NE (Function.update par x (par (par x))) rk ∧
    par (par x) ≠ x ∧ rk x < rk (par (par x)) ∧
    ∀ y q, Rep par y q → Rep (Function.update par x (par (par x))) y q := by
  have h1 := hi.up x hx hp
  have h2 : rk x < rk (par (par x)) := by
    by_cases h : par (par x) = par x
    · rw [h]; exact h1
    · exact h1.trans (hi.up _ (hi.lt x hx) h)
  have h3 : par (par x) ≠ x := by intro h; rw [h] at h2; omega
  refine ⟨⟨?_, ?_⟩, h3, h2, ?_⟩
  · intro y hy
    by_cases hyx : y = x
    · subst hyx; simp only [Function.update_self]; exact hi.lt _ (hi.lt _ hx)
    · rw [Function.update_of_ne hyx]; exact hi.lt y hy
  · intro y hy
    by_cases hyx : y = x
    · subst hyx; simp only [Function.update_self]; intro _; exact h2
    · rw [Function.update_of_ne hyx]; exact hi.up y hy
  · intro y q h
    induction h with
    | @root y hy =>
      refine .root ?_
      by_cases hyx : y = x
      · subst hyx; exact absurd hy hp
      · rw [Function.update_of_ne hyx]; exact hy
    | @step y r hy hr ih =>
      by_cases hyx : y = x
      · subst hyx
        refine .step (by simp only [Function.update_self]; exact h3) ?_
        simp only [Function.update_self]
        by_cases hr2 : par (par y) = par y
        · rw [hr2]; rwa [hr2] at ih
        · cases ih with
          | root h => rw [Function.update_of_ne hp] at h; exact absurd h hr2
          | step _ h => rwa [Function.update_of_ne hp] at h
      · refine .step (by rw [Function.update_of_ne hyx]; exact hy) ?_
        rw [Function.update_of_ne hyx]; exact ih

lemma findLoop_spec {NE : Nat} {rk : Nat → Nat} : ∀ (k : Nat) (par : Nat → Nat), Inv NE par rk →
    ∀ x, x < NE → above NE rk x < k →
    ∃ r par', findLoop NE k par x = some (r, par') ∧ Inv NE par' rk ∧ Rep par x r ∧
      ∀ y q, Rep par y q → Rep par' y q := by
  intro k
  induction k with
  | zero => intro par hi x hx hk; omega
  | succ k ih =>
    intro par hi x hx hk
    unfold findLoop
    rw [rd_lt _ hx]
    by_cases hp : par x = x
    · exact ⟨x, par, by simp [hp], hi, .root hp, fun _ _ h => h⟩
    · obtain ⟨hi', h3, h2, hrep⟩ := halve hi hx hp
      have hg : par (par x) < NE := hi.lt _ (hi.lt x hx)
      obtain ⟨r, par', he, hi'', hr, hrep'⟩ := ih _ hi' (par (par x)) hg (by
        have := above_lt hg h2; omega)
      refine ⟨r, par', ?_, hi'', ?_, fun y q h => hrep' y q (hrep y q h)⟩
      · simp only [Option.bind_eq_bind, Option.bind_some, if_neg hp, rd_lt _ (hi.lt x hx), wr_lt _ hx, rd_lt _ hx,
          Function.update_self]
        exact he
      · obtain ⟨q, hq⟩ := hi.total x hx
        have h4 := hrep x q hq
        have h5 : Rep (Function.update par x (par (par x))) x r :=
          .step (by simp only [Function.update_self]; exact h3) (by simp only [Function.update_self]; exact hr)
        rwa [h5.det h4]

lemma find_spec {NE : Nat} {d : Dsu} (hi : Inv NE d.parent d.rank) {x : Nat} (hx : x < NE) :
    ∃ r d', find NE d x = some (r, d') ∧ Inv NE d'.parent d'.rank ∧ Rep d.parent x r ∧
      ∀ y q, Rep d.parent y q → Rep d'.parent y q := by
  obtain ⟨r, par', he, hi', hr, hrep⟩ := findLoop_spec (NE + 1) d.parent hi x hx
    (by have := above_le NE d.rank x; omega)
  exact ⟨r, ⟨par', d.rank⟩, by simp [find, he], hi', hr, hrep⟩

/-- Root `b` is hung below root `a`. -/
lemma hang {par : Nat → Nat} {a b : Nat} (ha : par a = a) (hb : par b = b) (hab : a ≠ b) :
    ∀ y q, Rep par y q → Rep (Function.update par b a) y (if q = b then a else q) := by
  have hroot : Rep (Function.update par b a) a a := .root (by rw [Function.update_of_ne hab]; exact ha)
  intro y q h
  induction h with
  | @root y hy =>
    by_cases hyb : y = b
    · subst hyb
      rw [if_pos rfl]
      exact .step (by simp only [Function.update_self]; exact hab) (by simp only [Function.update_self]; exact hroot)
    · rw [if_neg hyb]
      exact .root (by rw [Function.update_of_ne hyb]; exact hy)
  | @step y r hy hr ih =>
    by_cases hyb : y = b
    · subst hyb; exact absurd hb hy
    · exact .step (by rw [Function.update_of_ne hyb]; exact hy) (by rw [Function.update_of_ne hyb]; exact ih)

/-- `x` and `y` have the same root. -/
def Same (par : Nat → Nat) (x y : Nat) : Prop := ∃ r, Rep par x r ∧ Rep par y r

lemma same_of_pres {NE : Nat} {par par' rk : Nat → Nat} (hi : Inv NE par rk)
    (h : ∀ y q, Rep par y q → Rep par' y q) {x y : Nat} (hx : x < NE) (hy : y < NE) :
    Same par' x y ↔ Same par x y := by
  constructor
  · rintro ⟨r, h1, h2⟩
    obtain ⟨q1, hq1⟩ := hi.total x hx
    obtain ⟨q2, hq2⟩ := hi.total y hy
    have e1 := h1.det (h _ _ hq1)
    have e2 := h2.det (h _ _ hq2)
    subst e1; subst e2
    exact ⟨r, hq1, hq2⟩
  · rintro ⟨r, h1, h2⟩
    exact ⟨r, h _ _ h1, h _ _ h2⟩

lemma link_spec {NE : Nat} {d : Dsu} (hi : Inv NE d.parent d.rank) {a0 b0 : Nat} (ha : a0 < NE) (hb : b0 < NE)
    (hra : d.parent a0 = a0) (hrb : d.parent b0 = b0) :
    ∃ d', link NE d a0 b0 = some d' ∧ Inv NE d'.parent d'.rank ∧
      ∀ x y, x < NE → y < NE → (Same d'.parent x y ↔
        (Same d.parent x y ∨ (Rep d.parent x a0 ∧ Rep d.parent y b0) ∨ (Rep d.parent x b0 ∧ Rep d.parent y a0))) := by
  by_cases hab : a0 = b0
  · subst hab
    refine ⟨d, by simp [link], hi, ?_⟩
    intro x y hx hy
    constructor
    · exact Or.inl
    · rintro (h | ⟨h1, h2⟩ | ⟨h1, h2⟩)
      · exact h
      · exact ⟨a0, h1, h2⟩
      · exact ⟨a0, h1, h2⟩
  -- the general statement for an ordered pair of distinct roots
  have core : ∀ a b, a < NE → b < NE → d.parent a = a → d.parent b = b → a ≠ b → d.rank b ≤ d.rank a →
      Inv NE (Function.update d.parent b a)
        (if d.rank a = d.rank b then Function.update d.rank a (d.rank a + 1) else d.rank) ∧
      ∀ x y, x < NE → y < NE → (Same (Function.update d.parent b a) x y ↔
        (Same d.parent x y ∨ (Rep d.parent x a ∧ Rep d.parent y b) ∨ (Rep d.parent x b ∧ Rep d.parent y a))) := by
    intro a b ha hb hra hrb hab hrk
    have hh := hang hra hrb hab
    have hinv : Inv NE (Function.update d.parent b a)
        (if d.rank a = d.rank b then Function.update d.rank a (d.rank a + 1) else d.rank) := by
      refine ⟨?_, ?_⟩
      · intro x hx
        by_cases hxb : x = b
        · subst hxb; simp only [Function.update_self]; exact ha
        · rw [Function.update_of_ne hxb]; exact hi.lt x hx
      · intro x hx
        by_cases hxb : x = b
        · subst hxb
          simp only [Function.update_self]
          intro _
          by_cases he : d.rank a = d.rank x
          · rw [if_pos he, Function.update_self, Function.update_of_ne (fun h => hab h.symm)]; omega
          · rw [if_neg he]; omega
        · rw [Function.update_of_ne hxb]
          intro hp
          have hup := hi.up x hx hp
          have hxa : x ≠ a := by rintro rfl; exact hp hra
          by_cases he : d.rank a = d.rank b
          · rw [if_pos he, Function.update_of_ne hxa]
            by_cases hpa : d.parent x = a
            · rw [hpa, Function.update_self]; rw [hpa] at hup; omega
            · rw [Function.update_of_ne hpa]; exact hup
          · rw [if_neg he]; exact hup
    refine ⟨hinv, ?_⟩
    intro x y hx hy
    obtain ⟨p, hp⟩ := hi.total x hx
    obtain ⟨q, hq⟩ := hi.total y hy
    have hp' := hh _ _ hp
    have hq' := hh _ _ hq
    constructor
    · rintro ⟨r, h1, h2⟩
      have e1 := h1.det hp'
      have e2 := h2.det hq'
      rw [e1] at e2
      by_cases hpb : p = b
      · by_cases hqb : q = b
        · subst hpb; subst hqb; exact Or.inl ⟨_, hp, hq⟩
        · rw [if_pos hpb, if_neg hqb] at e2
          subst hpb; subst e2; exact Or.inr (Or.inr ⟨hp, hq⟩)
      · by_cases hqb : q = b
        · rw [if_neg hpb, if_pos hqb] at e2
          subst hqb; subst e2; exact Or.inr (Or.inl ⟨hp, hq⟩)
        · rw [if_neg hpb, if_neg hqb] at e2
          subst e2; exact Or.inl ⟨_, hp, hq⟩
    · rintro (⟨r, h1, h2⟩ | ⟨h1, h2⟩ | ⟨h1, h2⟩)
      · exact ⟨_, hh _ _ h1, hh _ _ h2⟩
      · exact ⟨a, by simpa [hab] using hh _ _ h1, by simpa using hh _ _ h2⟩
      · exact ⟨a, by simpa using hh _ _ h1, by simpa [hab] using hh _ _ h2⟩
  by_cases hlt : d.rank a0 < d.rank b0
  · obtain ⟨h1, h2⟩ := core b0 a0 hb ha hrb hra (fun h => hab h.symm) hlt.le
    refine ⟨⟨Function.update d.parent a0 b0, if d.rank b0 = d.rank a0 then Function.update d.rank b0 (d.rank b0 + 1)
      else d.rank⟩, ?_, h1, ?_⟩
    · unfold link
      rw [if_neg hab]
      simp only [Option.bind_eq_bind, Option.bind_some, Option.pure_def, rd_lt _ ha, rd_lt _ hb, if_pos hlt,
        wr_lt _ ha, wr_lt _ hb]
      split_ifs <;> rfl
    · intro x y hx hy
      rw [h2 x y hx hy]
      tauto
  · obtain ⟨h1, h2⟩ := core a0 b0 ha hb hra hrb hab (by omega)
    refine ⟨⟨Function.update d.parent b0 a0, if d.rank a0 = d.rank b0 then Function.update d.rank a0 (d.rank a0 + 1)
      else d.rank⟩, ?_, h1, h2⟩
    unfold link
    rw [if_neg hab]
    simp only [Option.bind_eq_bind, Option.bind_some, Option.pure_def, rd_lt _ ha, rd_lt _ hb, if_neg hlt,
      wr_lt _ ha, wr_lt _ hb]
    split_ifs <;> rfl

lemma unite_spec {NE : Nat} {d : Dsu} (hi : Inv NE d.parent d.rank) {a b : Nat} (ha : a < NE) (hb : b < NE) :
    ∃ d', unite NE d a b = some d' ∧ Inv NE d'.parent d'.rank ∧
      ∀ x y, x < NE → y < NE → (Same d'.parent x y ↔
        (Same d.parent x y ∨ (Same d.parent x a ∧ Same d.parent y b) ∨ (Same d.parent x b ∧ Same d.parent y a))) := by
  obtain ⟨ra, d1, e1, hi1, hr1, hp1⟩ := find_spec hi ha
  obtain ⟨rb, d2, e2, hi2, hr2, hp2⟩ := find_spec hi1 hb
  have hra2 : Rep d2.parent a ra := hp2 _ _ (hp1 _ _ hr1)
  have hrb2 : Rep d2.parent b rb := hp2 _ _ hr2
  obtain ⟨d', e3, hi3, hs⟩ := link_spec hi2 (hra2.lt hi2 ha) (hrb2.lt hi2 hb) hra2.fix hrb2.fix
  refine ⟨d', by simp [unite, e1, e2, e3], hi3, ?_⟩
  intro x y hx hy
  rw [hs x y hx hy]
  have hpres : ∀ y q, Rep d.parent y q → Rep d2.parent y q := fun y q h => hp2 _ _ (hp1 _ _ h)
  have tr : ∀ z, z < NE → ∀ c r, c < NE → Rep d2.parent c r → (Rep d2.parent z r ↔ Same d.parent z c) := by
    intro z hz c r hc hcr
    rw [← same_of_pres hi hpres hz hc]
    constructor
    · intro h; exact ⟨r, h, hcr⟩
    · rintro ⟨q, h1, h2⟩
      rwa [hcr.det h2]
  rw [same_of_pres hi hpres hx hy, tr x hx a ra ha hra2, tr y hy a ra ha hra2, tr x hx b rb hb hrb2,
    tr y hy b rb hb hrb2]

lemma same_refl {NE : Nat} {par rk : Nat → Nat} (hi : Inv NE par rk) {x : Nat} (hx : x < NE) : Same par x x := by
  obtain ⟨r, h⟩ := hi.total x hx; exact ⟨r, h, h⟩

lemma Same.symm {par : Nat → Nat} {x y : Nat} (h : Same par x y) : Same par y x := by
  obtain ⟨r, a, b⟩ := h; exact ⟨r, b, a⟩

lemma Same.trans {par : Nat → Nat} {x y z : Nat} (h : Same par x y) (h' : Same par y z) : Same par x z := by
  obtain ⟨r, a, b⟩ := h
  obtain ⟨s, c, d⟩ := h'
  have := b.det c
  subst this
  exact ⟨r, a, d⟩

/-- In-range pairs of the list, as a relation. -/
def InPairs (NE : Nat) (pairs : List (Int × Int)) (a b : Nat) : Prop :=
  a < NE ∧ b < NE ∧ ((a : Int), (b : Int)) ∈ pairs

lemma eqvGen_range {NE : Nat} {pairs : List (Int × Int)} {x y : Nat}
    (h : Relation.EqvGen (InPairs NE pairs) x y) : x = y ∨ (x < NE ∧ y < NE) := by
  induction h with
  | rel _ _ h => exact Or.inr ⟨h.1, h.2.1⟩
  | refl => exact Or.inl rfl
  | symm _ _ _ ih => rcases ih with h | h; exacts [Or.inl h.symm, Or.inr ⟨h.2, h.1⟩]
  | trans _ _ _ _ _ ih1 ih2 =>
    rcases ih1 with h | h
    · subst h; exact ih2
    · rcases ih2 with h' | h'
      · subst h'; exact Or.inr h
      · exact Or.inr ⟨h.1, h'.2⟩

/-- After the loop over the pairs, two elements share a root exactly when a chain of pairs joins them. -/
lemma uniteAll_spec {NE : Nat} (pairs : List (Int × Int)) :
    ∃ d, uniteAll NE pairs Dsu.init = some d ∧ Inv NE d.parent d.rank ∧
      ∀ x y, x < NE → y < NE → (Same d.parent x y ↔ Relation.EqvGen (InPairs NE pairs) x y) := by
  suffices h : ∀ (rest done : List (Int × Int)) (d : Dsu), Inv NE d.parent d.rank →
      (∀ x y, x < NE → y < NE → (Same d.parent x y ↔ Relation.EqvGen (InPairs NE done) x y)) →
      ∃ d', uniteAll NE rest d = some d' ∧ Inv NE d'.parent d'.rank ∧
        ∀ x y, x < NE → y < NE → (Same d'.parent x y ↔ Relation.EqvGen (InPairs NE (done ++ rest)) x y) by
    have h0 : Inv NE Dsu.init.parent Dsu.init.rank := ⟨fun x hx => hx, fun x _ h => absurd rfl h⟩
    refine h pairs [] Dsu.init h0 ?_
    intro x y hx hy
    constructor
    · rintro ⟨r, h1, h2⟩
      have e1 := (Rep.root (par := Dsu.init.parent) (x := x) rfl).det h1
      have e2 := (Rep.root (par := Dsu.init.parent) (x := y) rfl).det h2
      rw [e1, e2]
      exact .refl _
    · intro h
      suffices hxy : x = y by subst hxy; exact same_refl h0 hx
      clear hx hy
      induction h with
      | rel _ _ h => simp [InPairs] at h
      | refl => rfl
      | symm _ _ _ ih => exact ih.symm
      | trans _ _ _ _ _ h1 h2 => exact h1.trans h2
  intro rest
  induction rest with
  | nil => intro done d hi hs; exact ⟨d, rfl, hi, by simpa using hs⟩
  | cons pr rest ih =>
    intro done d hi hs
    have happ : done ++ pr :: rest = (done ++ [pr]) ++ rest := by simp
    rw [happ]
    by_cases hr : pr.1 < 0 ∨ pr.1 ≥ (NE : Int) ∨ pr.2 < 0 ∨ pr.2 ≥ (NE : Int)
    · obtain ⟨d', e, hi', hs'⟩ := ih (done ++ [pr]) d hi (by
        intro x y hx hy
        rw [hs x y hx hy]
        have : InPairs NE done = InPairs NE (done ++ [pr]) := by
          funext a b
          simp only [InPairs, List.mem_append, List.mem_singleton, eq_iff_iff]
          constructor
          · rintro ⟨h1, h2, h3⟩; exact ⟨h1, h2, Or.inl h3⟩
          · rintro ⟨h1, h2, h3 | h3⟩
            · exact ⟨h1, h2, h3⟩
            · subst h3
              simp only at hr
              omega
        rw [this])
      refine ⟨d', ?_, hi', hs'⟩
      unfold uniteAll at e ⊢
      rw [List.foldlM_cons, if_pos hr]
      simpa using e
    · have hr' := hr
      push Not at hr
      obtain ⟨h1, h2, h3, h4⟩ := hr
      obtain ⟨a, ha⟩ := Int.eq_ofNat_of_zero_le h1
      obtain ⟨b, hb⟩ := Int.eq_ofNat_of_zero_le h3
      have hpr : pr = ((a : Int), (b : Int)) := Prod.ext ha hb
      have haN : a < NE := by omega
      have hbN : b < NE := by omega
      obtain ⟨d1, e1, hi1, hs1⟩ := unite_spec hi haN hbN
      obtain ⟨d', e, hi', hs'⟩ := ih (done ++ [pr]) d1 hi1 (by
        intro x y hx hy
        rw [hs1 x y hx hy]
        have mono : ∀ {u v}, Relation.EqvGen (InPairs NE done) u v →
            Relation.EqvGen (InPairs NE (done ++ [pr])) u v := by
          intro u v h
          refine Relation.EqvGen.mono ?_ _ _ h
          rintro s t ⟨q1, q2, q3⟩
          exact ⟨q1, q2, by simp [q3]⟩
        have hnew : Relation.EqvGen (InPairs NE (done ++ [pr])) a b :=
          .rel _ _ ⟨haN, hbN, by simp [hpr]⟩
        constructor
        · rintro (h | ⟨p1, p2⟩ | ⟨p1, p2⟩)
          · exact mono ((hs x y hx hy).1 h)
          · exact .trans _ _ _ (mono ((hs x a hx haN).1 p1))
              (.trans _ _ _ hnew (.symm _ _ (mono ((hs y b hy hbN).1 p2))))
          · exact .trans _ _ _ (mono ((hs x b hx hbN).1 p1))
              (.trans _ _ _ (.symm _ _ hnew) (.symm _ _ (mono ((hs y a hy haN).1 p2))))
        · intro h
          rw [← hs1 x y hx hy]
          have key : ∀ u v, Relation.EqvGen (InPairs NE (done ++ [pr])) u v → u < NE → v < NE →
              Same d1.parent u v := by
            intro u v h
            induction h with
            | rel u v h =>
              intro hu hv
              rw [hs1 u v hu hv]
              obtain ⟨_, _, h⟩ := h
              simp only [List.mem_append, List.mem_singleton] at h
              rcases h with h | h
              · exact Or.inl ((hs u v hu hv).2 (.rel _ _ ⟨hu, hv, h⟩))
              · rw [hpr] at h
                have hua : u = a := by have := congrArg Prod.fst h; simp only at this; omega
                have hvb : v = b := by have := congrArg Prod.snd h; simp only at this; omega
                subst hua; subst hvb
                exact Or.inr (Or.inl ⟨same_refl hi hu, same_refl hi hv⟩)
            | refl u => intro hu _; exact same_refl hi1 hu
            | symm u v _ ih => intro hu hv; exact (ih hv hu).symm
            | trans u v w h1 h2 ih1 ih2 =>
              intro hu hw
              have hv : v < NE := by
                rcases eqvGen_range h1 with q | q
                · subst q; exact hu
                · exact q.2
              exact (ih1 hu hv).trans (ih2 hv hw)
          exact key x y h hx hy)
      refine ⟨d', ?_, hi', hs'⟩
      unfold uniteAll at e ⊢
      rw [List.foldlM_cons, if_neg hr', hpr]
      simp only [Int.toNat_natCast, e1, Option.bind_eq_bind, Option.bind_some]
      exact e

end Dgtd.Partition
