/-
C154: a run on several ranks ends, however the ranks are scheduled.
-/
import Verif.Lemmas.Collective
import Verif.Lemmas.TimeLoop
import Mathlib.Algebra.BigOperators.Intervals
import Mathlib.Data.Rat.Floor
import Mathlib.Tactic.FinCases

namespace Dgtd.Coll

open Spec Dgtd.TimeLoop Dgtd.TimeLoop.Spec

/-! ### The programs of the ranks make the same calls -/

theorem Alike.mono {n m : ℕ} {p q : Proc} (h : Alike n p q) (hm : n ≤ m) : Alike m p q := by
  induction h generalizing m with
  | done n => exact .done m
  | shared n o v w k l ho _ ih =>
    obtain ⟨j, rfl⟩ : ∃ j, m = j + 1 := ⟨m - 1, by omega⟩
    exact .shared j o v w k l ho fun x => ih x (by omega)
  | own n o v w k l ho _ ih =>
    obtain ⟨j, rfl⟩ : ∃ j, m = j + 1 := ⟨m - 1, by omega⟩
    exact .own j o v w k l ho fun x y => ih x y (by omega)

theorem Alike.call {n : ℕ} (o : Op) (v w : ℚ) {k l : Proc} (h : Alike n k l) :
    Alike (n + 1) (.call o v fun _ => k) (.call o w fun _ => l) := by
  cases ho : o.shared
  · exact .own n o v w _ _ ho fun _ _ => h
  · exact .shared n o v w _ _ ho fun _ => h

/-- Two programs make the same calls, a bounded number. -/
def Agree (p q : Proc) : Prop := ∃ n, Alike n p q

theorem agree_seq : ∀ {a b : List (Op × ℚ)} {p q : Proc}, a.map Prod.fst = b.map Prod.fst → Agree p q →
    Agree (seq a p) (seq b q)
  | [], [], _, _, _, h => h
  | [], _ :: _, _, _, e, _ => by simp at e
  | _ :: _, [], _, _, e, _ => by simp at e
  | (o, v) :: a, (o', w) :: b, p, q, e, h => by
    simp only [List.map_cons, List.cons.injEq] at e
    obtain ⟨rfl, e⟩ := e
    obtain ⟨n, hn⟩ := agree_seq e h
    exact ⟨n + 1, hn.call o v w⟩

theorem agree_report (P : ℕ) (t : ℚ) (a : Timing) {k l : Timing → Proc} (h : ∀ a, Agree (k a) (l a)) :
    Agree (report P t a k) (report P t a l) := by
  unfold report
  split
  · obtain ⟨n, hn⟩ := h ⟨0, t⟩
    obtain ⟨m, hm⟩ := h ⟨a.count + 1, a.last⟩
    refine ⟨n + 1 + m + 1, .shared _ _ _ _ _ _ rfl fun g => ?_⟩
    split
    · exact (hn.call .gather 0 0).mono (by omega)
    · exact hm.mono (by omega)
  · by_cases hw : 50 ≤ a.count + 1 ∧ (a.last < 0 ∨ a.last + 1 / 20 ≤ t)
    · simp only [hw, decide_true, if_true]
      exact h _
    · simp only [hw, decide_false, Bool.false_eq_true, if_false]
      exact h _

theorem agree_product (P : ℕ) (c : Case) (t : ℚ) (a : Timing) {k l : Timing → Proc}
    (h : ∀ a, Agree (k a) (l a)) : Agree (product P c t a k) (product P c t a l) := by
  unfold product
  split
  · refine agree_seq rfl ?_
    split
    · exact agree_report P t a h
    · exact h a
  · exact agree_seq rfl (h a)
  · exact h a

theorem seq_append : ∀ (a b : List (Op × ℚ)) (k : Proc), seq (a ++ b) k = seq a (seq b k)
  | [], _, _ => rfl
  | (o, v) :: a, b, k => by simp only [List.cons_append, seq, seq_append a b k]

theorem solves_eq {c : Case} (hc : c.op = .global) (m : ℕ → ℕ) (k : Proc) : ∀ n s,
    solves c m s n k = seq (swaps (6 * n + 6 * ∑ j ∈ Finset.range n, m (s + j))) k
  | 0, s => by simp [solves, swaps, seq]
  | n + 1, s => by
    rw [solves, solve, hc]
    simp only
    rw [solves_eq hc m k n (s + 1), ← seq_append, Finset.sum_range_succ']
    congr 1
    unfold swaps
    rw [List.replicate_append_replicate]
    congr 1
    have : ∑ j ∈ Finset.range n, m (s + 1 + j) = ∑ j ∈ Finset.range n, m (s + (j + 1)) :=
      Finset.sum_congr rfl fun j _ => by congr 1; omega
    rw [this, add_zero]
    omega

/-- The number of products the linear solvers of a rank make in a step of an integrator with `n`
implicit stages. -/
def work (l : Local) (n i : ℕ) : ℕ := ∑ j ∈ Finset.range n, l.products i j

/-- The implicit stages of the integrator. -/
def stagesOf : Integrator → ℕ
  | .rk4 => 0
  | .trapezoidal => 1
  | .stages n => n

theorem agree_advance (P : ℕ) {c : Case} (hc : Offers c) {l l' : Local} (i : ℕ)
    (hl : work l (stagesOf c.integrator) i = work l' (stagesOf c.integrator) i) (t h : ℚ)
    (a : Timing) {k k' : Timing → Proc} (hk : ∀ a, Agree (k a) (k' a)) :
    Agree (advance P c l i t h a k) (advance P c l' i t h a k') := by
  have op : c.integrator ≠ .rk4 → c.op = .global := fun h => hc.resolve_left h
  unfold advance work at *
  cases hi : c.integrator with
  | rk4 =>
    exact agree_product _ _ _ _ fun a => agree_product _ _ _ _ fun a => agree_product _ _ _ _ fun a =>
      agree_product _ _ _ _ hk
  | trapezoidal =>
    refine agree_product _ _ _ _ fun a => ?_
    simp only [hi, stagesOf] at hl
    simp only [solves_eq (op (by rw [hi]; simp)), zero_add, hl]
    exact agree_seq rfl (hk a)
  | stages n =>
    simp only [hi, stagesOf] at hl
    simp only [solves_eq (op (by rw [hi]; simp)), zero_add, hl]
    exact agree_seq rfl (hk a)

theorem gates_some {final : ℚ} {cycle : ℕ} {t : ℚ} : ∀ {l : List Int}, (∀ n ∈ l, n ≠ 0) →
    ∃ r, l.mapM (gate final cycle · t) = some r
  | [], _ => ⟨[], rfl⟩
  | n :: l, h => by
    obtain ⟨r, hr⟩ := gates_some (final := final) (cycle := cycle) (t := t) (l := l)
      fun m hm => h m (List.mem_cons_of_mem _ hm)
    have hg : ∃ b, gate final cycle n t = some b := by
      unfold gate
      split
      · rw [if_neg (h n List.mem_cons_self)]; exact ⟨_, rfl⟩
      · exact ⟨_, rfl⟩
    obtain ⟨b, hb⟩ := hg
    exact ⟨b :: r, by simp [List.mapM_cons, hb, hr]⟩

theorem updateProbes_eq {c : Case} (hc : Usable c) (cycle : ℕ) (t : ℚ) (f : List Bool) :
    ∃ a : List (Op × ℚ), (∀ e ∈ a, e.1 ≠ .exchange) ∧
      ∀ k, updateProbes c cycle t f k = seq a (k (morCalls t c.mors f).2) := by
  obtain ⟨r1, h1⟩ := gates_some (final := c.final) (cycle := cycle) (t := t) (l := c.exporters)
    fun n hn => hc n (by simp [hn])
  obtain ⟨r2, h2⟩ := gates_some (final := c.final) (cycle := cycle) (t := t) (l := c.snapshots)
    fun n hn => hc n (by simp [hn])
  obtain ⟨r3, h3⟩ := gates_some (final := c.final) (cycle := cycle) (t := t) (l := c.others)
    fun n hn => hc n (by simp [hn])
  refine ⟨_, ?_, fun k => by unfold updateProbes; rw [h1, h2, h3]⟩
  have mor : ∀ (ps : List MorProbe) (f : List Bool), ∀ e ∈ (morCalls t ps f).1, e.1 ≠ .exchange := by
    intro ps
    induction ps with
    | nil => intro f e he; simp [morCalls] at he
    | cons p ps ih =>
      intro f e he
      cases f with
      | nil => simp [morCalls] at he
      | cons b bs =>
        unfold morCalls at he
        split at he
        · exact ih bs e he
        · simp only [List.mem_cons] at he
          rcases he with rfl | rfl | he
          · decide
          · decide
          · exact ih bs e he
  intro e he
  simp only [List.mem_append, List.mem_flatMap] at he
  rcases he with (⟨b, _, he⟩ | ⟨b, _, he⟩) | he
  · split at he
    · simp only [List.mem_cons, List.not_mem_nil, or_false] at he
      rcases he with rfl | rfl | rfl <;> decide
    · simp at he
  · split at he
    · simp only [List.mem_cons, List.not_mem_nil, or_false] at he
      rcases he with rfl | rfl <;> decide
    · simp at he
  · exact mor _ _ e he

theorem agree_loop (P : ℕ) {c : Case} (hc : Usable c) (ho : Offers c) (hdt : 0 < c.dt) {l l' : Local}
    (hl : ∀ i, work l (stagesOf c.integrator) i = work l' (stagesOf c.integrator) i) :
    ∀ fuel i f a, stepCount c.dt c.final ≤ i + fuel →
      Agree (loop P c l fuel i (instant c.dt c.final i) f a) (loop P c l' fuel i (instant c.dt c.final i) f a) := by
  intro fuel
  induction fuel with
  | zero =>
    intro i f a hi
    have hk : keepGoing c.dt c.final (instant c.dt c.final i) = false := by
      rw [← Bool.not_eq_true, keepGoing_iff hdt]; omega
    unfold loop
    rw [hk]
    exact agree_seq rfl ⟨0, .done 0⟩
  | succ fuel ih =>
    intro i f a hi
    unfold loop
    split
    · rename_i hk
      refine agree_advance P ho i (hl i) _ _ _ fun a => ?_
      obtain ⟨u, -, hu⟩ := updateProbes_eq hc (i + 1)
        (instant c.dt c.final i + trueDt c.dt c.final (instant c.dt c.final i)) f
      rw [hu, hu]
      refine agree_seq rfl ?_
      rw [instant_succ hdt hk]
      obtain ⟨n, hn⟩ := ih (i + 1) (morCalls (instant c.dt c.final (i + 1)) c.mors f).2 a (by omega)
      exact ⟨n + 1, hn.call _ _ _⟩
    · exact agree_seq rfl ⟨0, .done 0⟩

theorem instant_zero {c : Case} (hc : c.valid = true) : instant c.dt c.final 0 = 0 := by
  unfold Case.valid at hc
  have := (of_decide_eq_true hc).2.1
  unfold instant
  simp [this]

theorem agree_program (P r s : ℕ) {c : Case} (hv : c.valid = true) (hc : Usable c) (ho : Offers c)
    (hdt : 0 < c.dt) {l l' : Local}
    (hl : ∀ i, work l (stagesOf c.integrator) i = work l' (stagesOf c.integrator) i) {fuel : ℕ}
    (hf : stepCount c.dt c.final ≤ fuel) : Agree (program P r c l fuel) (program P s c l' fuel) := by
  unfold program
  refine agree_seq ?_ (agree_seq rfl ?_)
  · unfold buildCalls
    simp only [List.map_append, List.map_cons, List.map_map, Function.comp_def]
  · rw [hv]
    simp only [Bool.true_eq_false, and_false, if_false]
    refine agree_seq rfl (agree_seq rfl ?_)
    obtain ⟨u, -, hu⟩ := updateProbes_eq hc 0 0 (c.mors.map fun _ => false)
    rw [hu, hu]
    refine agree_seq rfl ?_
    have := agree_loop P hc ho hdt hl fuel 0 (morCalls 0 c.mors (c.mors.map fun _ => false)).2 ⟨0, -1⟩ (by omega)
    rw [instant_zero hv] at this
    exact this

theorem agree_all {P : ℕ} {p : Fin P → Proc} (h : ∀ r s, Agree (p r) (p s)) : ∃ N, ∀ r s, Alike N (p r) (p s) := by
  choose f hf using h
  exact ⟨∑ r, ∑ s, f r s, fun r s => (hf r s).mono
    (le_trans (Finset.single_le_sum (f := fun s => f r s) (fun _ _ => Nat.zero_le _) (Finset.mem_univ s))
      (Finset.single_le_sum (f := fun r => ∑ s, f r s) (fun _ _ => Nat.zero_le _) (Finset.mem_univ r)))⟩

/-! ### C154 -/

variable {P : ℕ}

/-- **C154** (explicit integrator).  For every case with valid options, usable probe cadences and a
positive step, every number of ranks, every neighbourhood relation and whatever the ranks compute —
which part of the injection surface they own, whether and when their fields look unstable — the run
comes to its end on every rank, in whatever order the ranks move. -/
theorem C154_explicit (hP : 0 < P) (G : Fin P → Fin P → Prop) {c : Case} (hv : c.valid = true) (hc : Usable c)
    (hdt : 0 < c.dt) (hi : c.integrator = .rk4) (l : Fin P → Local) {fuel : ℕ}
    (hf : stepCount c.dt c.final ≤ fuel) :
    Completes G (start fun r => program P r c (l r) fuel) := by
  have : Nonempty (Fin P) := ⟨⟨0, hP⟩⟩
  obtain ⟨N, hN⟩ := agree_all (p := fun r => program P r c (l r) fuel) fun r s =>
    agree_program P r s hv hc (Or.inl hi) hdt (l := l r) (l' := l s) (fun i => by rw [hi]; rfl) hf
  exact completes hN

/-- **C154** (implicit integrators, `_partial`: only if the linear solvers of all ranks make the same
number of products in every step; see `C154_implicit_fails`). -/
theorem C154_implicit_partial (hP : 0 < P) (G : Fin P → Fin P → Prop) {c : Case} (hv : c.valid = true)
    (hc : Usable c) (hdt : 0 < c.dt) (hi : c.op = .global) (l : Fin P → Local)
    (hl : ∀ r s i, work (l r) (stagesOf c.integrator) i = work (l s) (stagesOf c.integrator) i) {fuel : ℕ}
    (hf : stepCount c.dt c.final ≤ fuel) :
    Completes G (start fun r => program P r c (l r) fuel) := by
  have : Nonempty (Fin P) := ⟨⟨0, hP⟩⟩
  obtain ⟨N, hN⟩ := agree_all (p := fun r => program P r c (l r) fuel) fun r s =>
    agree_program P r s hv hc (Or.inr hi) hdt (hl r s) hf
  exact completes hN

theorem finished_match {p : Fin P → Proc} {N : ℕ} (hp : ∀ r s, Alike N (p r) (p s)) {σ : Fin P → Rank}
    (h : Inv p σ) (hf : Finished σ) (r s : Fin P) : List.Forall₂ Match (σ r).log (σ s).log := by
  have key : ∀ r s : Fin P, (σ r).log.length ≤ (σ s).log.length → List.Forall₂ Match (σ r).log (σ s).log := by
    intro r s hl
    obtain ⟨b, hb⟩ : ∃ b, b = (σ s).log.take (σ r).log.length := ⟨_, rfl⟩
    obtain ⟨b', hb'⟩ : ∃ b', b' = (σ s).log.drop (σ r).log.length := ⟨_, rfl⟩
    have hs : (σ s).log = b ++ b' := by rw [hb, hb', List.take_append_drop]
    obtain ⟨hm, n, q, q', -, f1, f2, hq⟩ := aligned h (hp r s) (σ r).log b [] b' (by simp) hs
      (by rw [hb, List.length_take]; omega)
    cases f1
    rw [hf r] at hq
    cases hq
    rw [hf s] at f2
    cases f2
    rw [hs, List.append_nil]
    exact hm
  rcases le_total (σ r).log.length (σ s).log.length with hl | hl
  · exact key r s hl
  · have hm := key s r hl
    exact key r s hm.length_eq.ge

/-- **C154** (what the ranks learn).  When the run has ended all ranks have made the same calls, and
the result of every reduction is, on every rank, the largest (smallest) of the numbers the ranks
contributed to that call — so all ranks delay a source equally, by the nearest point of the
whole injection surface, and agree on whether the run looks unstable. -/
theorem C154_results (G : Fin P → Fin P → Prop) {c : Case} (hv : c.valid = true)
    (hc : Usable c) (ho : Offers c) (hdt : 0 < c.dt) (l : Fin P → Local)
    (hl : ∀ r s i, work (l r) (stagesOf c.integrator) i = work (l s) (stagesOf c.integrator) i) {fuel : ℕ}
    (hf : stepCount c.dt c.final ≤ fuel) {n : ℕ} {τ : Fin P → Rank}
    (h : Path G n (start fun r => program P r c (l r) fuel) τ) (hfin : Finished τ) :
    (∀ r s, calls (τ r) = calls (τ s)) ∧
      ∀ r j e, (τ r).log[j]? = some e →
        (e.1 = .maxReduce → IsGreatest (Set.range fun s => gave (τ s) j) e.2.2) ∧
          (e.1 = .minReduce → IsLeast (Set.range fun s => gave (τ s) j) e.2.2) := by
  obtain ⟨N, hN⟩ := agree_all (p := fun r => program P r c (l r) fuel) fun r s =>
    agree_program P r s hv hc ho hdt (hl r s) hf
  have inv := inv_path h
  refine ⟨fun r s => match_fst (finished_match hN inv hfin r s), fun r j e he => ?_⟩
  obtain ⟨hj, hje⟩ := List.getElem?_eq_some_iff.mp he
  obtain ⟨a, ha⟩ : ∃ a, a = (τ r).log.take j := ⟨_, rfl⟩
  obtain ⟨b, hb⟩ : ∃ b, b = (τ r).log.drop (j + 1) := ⟨_, rfl⟩
  have hlog : (τ r).log = a ++ e :: b := by
    rw [ha, hb, ← hje, List.cons_getElem_drop_succ, List.take_append_drop]
  have haj : a.length = j := by rw [ha, List.length_take]; omega
  have contr : e.1 ≠ .exchange → contrib τ (colls (a.map bare)).length = fun s => gave (τ s) j := by
    intro hx
    funext s
    have hm := finished_match hN inv hfin r s
    obtain ⟨a', b', h1, h2, hs⟩ : ∃ a' b', List.Forall₂ Match a a' ∧ List.Forall₂ Match (e :: b) b' ∧
        (τ s).log = a' ++ b' := by
      refine ⟨(τ s).log.take a.length, (τ s).log.drop a.length, ?_, ?_, (List.take_append_drop _ _).symm⟩
      · have := List.forall₂_take a.length hm
        rwa [hlog, List.take_left'] at this
        rfl
      · have := List.forall₂_drop a.length hm
        rwa [hlog, List.drop_left'] at this
        rfl
    obtain ⟨e', b'', he', rfl⟩ : ∃ e' b'', Match e e' ∧ b' = e' :: b'' := by
      cases h2 with
      | cons he' _ => exact ⟨_, _, he', rfl⟩
    have hpost : (τ s).posted = (τ s).log.map bare := by
      unfold Rank.posted
      rw [hfin s]
      cases (τ s).waiting <;> simp [bare]
    have hx' : e'.1 ≠ .exchange := by rw [← he'.1]; exact hx
    have e1 : colls ((a' ++ e' :: b'').map bare) = colls (a'.map bare) ++ bare e' :: colls (b''.map bare) := by
      simp only [colls, List.map_append, List.map_cons, List.filter_append, List.filter_cons]
      rw [if_pos (show decide ((bare e').1 ≠ .exchange) = true from decide_eq_true hx')]
    unfold contrib gave
    rw [hpost, hs, e1, match_colls h1, List.getElem?_append_right (le_refl _), Nat.sub_self,
      List.getElem?_append_right (by rw [← h1.length_eq, haj]), ← h1.length_eq, haj, Nat.sub_self]
    rfl
  constructor
  · intro hm
    have := (inv.results r a e b hlog (by rw [hm]; rfl)).2
    rw [hm] at this
    unfold Gives at this
    rw [contr (by rw [hm]; decide)] at this
    exact this
  · intro hm
    have := (inv.results r a e b hlog (by rw [hm]; rfl)).2
    rw [hm] at this
    unfold Gives at this
    rw [contr (by rw [hm]; decide)] at this
    exact this

theorem follows_bare : ∀ {a : List (Op × ℚ)} {k : Proc} {l : List (Op × ℚ × ℚ)}, Follows (seq a k) l .done →
    a <+: l.map bare
  | [], _, _, _ => List.nil_prefix
  | (o, v) :: a, k, l, h => by
    generalize hq : Proc.done = q at h
    unfold seq at h
    cases h with
    | nil => cases hq
    | cons _ _ x _ l' _ h =>
      subst hq
      rw [List.map_cons]
      exact List.cons_prefix_cons.mpr ⟨rfl, follows_bare h⟩

/-- **C154** (the delay of a source).  In a run that has ended, the delay of every source was settled in
one call of all ranks, and every rank got from it the smallest distance over the parts of the
injection surface of all ranks. -/
theorem C154_delay (G : Fin P → Fin P → Prop) {c : Case} (hv : c.valid = true)
    (hc : Usable c) (ho : Offers c) (hdt : 0 < c.dt) (l : Fin P → Local)
    (hl : ∀ r s i, work (l r) (stagesOf c.integrator) i = work (l s) (stagesOf c.integrator) i) {fuel : ℕ}
    (hf : stepCount c.dt c.final ≤ fuel) {n : ℕ} {τ : Fin P → Rank}
    (h : Path G n (start fun r => program P r c (l r) fuel) τ) (hfin : Finished τ) :
    ∀ s < c.delays, ∃ j : ℕ, ∀ r, ∃ o x, (τ r).log[j]? = some (o, (l r).reach s, x) ∧
      IsLeast (Set.range fun r' => (l r').reach s) x := by
  intro s hs
  have inv := inv_path h
  have entry : ∀ r, ∃ x, (τ r).log[(if c.reload then 2 else 1) + s]? = some (.minReduce, (l r).reach s, x) := by
    intro r
    have f := inv.follows r
    rw [hfin r] at f
    obtain ⟨t, ht⟩ := follows_bare f
    have e : ((τ r).log.map bare)[(if c.reload then 2 else 1) + s]? = some (.minReduce, (l r).reach s) := by
      rw [← ht]
      unfold buildCalls
      cases c.reload <;> simp [List.getElem?_append, hs, add_comm]
    rw [List.getElem?_map] at e
    cases he : (τ r).log[(if c.reload then 2 else 1) + s]? with
    | none => rw [he] at e; simp at e
    | some y =>
      rw [he] at e
      obtain ⟨o, v, x⟩ := y
      simp only [Option.map_some, bare, Option.some.injEq, Prod.mk.injEq] at e
      exact ⟨x, by rw [e.1, e.2]⟩
  refine ⟨(if c.reload then 2 else 1) + s, fun r => ?_⟩
  obtain ⟨x, hx⟩ := entry r
  refine ⟨_, x, hx, ?_⟩
  have := ((C154_results G hv hc ho hdt l hl hf h hfin).2 r _ _ hx).2 rfl
  have e : (fun r' => gave (τ r') ((if c.reload then 2 else 1) + s)) = fun r' => (l r').reach s := by
    funext r'
    obtain ⟨y, hy⟩ := entry r'
    unfold gave
    rw [hy]
    rfl
  rwa [e] at this

/-! ### Implicit integrators: different numbers of products -/

theorem follows_seq : ∀ {a : List (Op × ℚ)} {k : Proc} {l : List (Op × ℚ × ℚ)}, Follows (seq a k) l .done →
    ∃ m, l.map Prod.fst = a.map Prod.fst ++ m.map Prod.fst ∧ Follows k m .done
  | [], _, l, h => ⟨l, rfl, h⟩
  | (o, v) :: a, k, l, h => by
    generalize hq : Proc.done = q at h
    unfold seq at h
    cases h with
    | nil => cases hq
    | cons _ _ x _ l' _ h =>
      subst hq
      obtain ⟨m, hm, hk⟩ := follows_seq h
      exact ⟨m, by rw [List.map_cons, hm]; rfl, hk⟩

theorem follows_call {o : Op} {v : ℚ} {k : ℚ → Proc} {l : List (Op × ℚ × ℚ)} (h : Follows (.call o v k) l .done) :
    ∃ x m, l.map Prod.fst = o :: m.map Prod.fst ∧ Follows (k x) m .done := by
  generalize hq : Proc.done = q at h
  cases h with
  | nil => cases hq
  | cons _ _ x _ l' _ h => exact ⟨x, l', rfl, hq ▸ h⟩

theorem not_follows_abort {l : List (Op × ℚ × ℚ)} : ¬ Follows .abort l .done := by
  intro h
  generalize hq : Proc.done = q at h
  cases h
  cases hq

theorem replicate_inj {x : Op} : ∀ {m n : ℕ} {a b : List Op}, (∀ y ∈ a.head?, y ≠ x) → (∀ y ∈ b.head?, y ≠ x) →
    List.replicate m x ++ a = List.replicate n x ++ b → m = n ∧ a = b
  | 0, 0, _, _, _, _, h => ⟨rfl, h⟩
  | 0, n + 1, a, b, ha, _, h => by
    simp only [List.replicate_zero, List.nil_append, List.replicate_succ, List.cons_append] at h
    subst h
    exact absurd rfl (ha x (by simp))
  | m + 1, 0, a, b, _, hb, h => by
    simp only [List.replicate_zero, List.nil_append, List.replicate_succ, List.cons_append] at h
    subst h
    exact absurd rfl (hb x (by simp))
  | m + 1, n + 1, a, b, ha, hb, h => by
    simp only [List.replicate_succ, List.cons_append, List.cons.injEq, true_and] at h
    obtain ⟨h1, h2⟩ := replicate_inj ha hb h
    exact ⟨by rw [h1], h2⟩

theorem loop_work (P : ℕ) {c : Case} (hc : Usable c) (ho : c.op = .global) {st : ℕ}
    (hi : c.integrator = .stages st) (hdt : 0 < c.dt) {l l' : Local} :
    ∀ fuel i f a a' m m', Follows (loop P c l fuel i (instant c.dt c.final i) f a) m .done →
      Follows (loop P c l' fuel i (instant c.dt c.final i) f a') m' .done →
      m.map Prod.fst = m'.map Prod.fst → ∀ j, i ≤ j → j < stepCount c.dt c.final → work l st j = work l' st j := by
  intro fuel
  induction fuel with
  | zero =>
    intro i f a a' m m' h _ _ j hj hj'
    unfold loop at h
    rw [if_pos ((keepGoing_iff hdt i).mpr (by omega))] at h
    exact absurd h not_follows_abort
  | succ fuel ih =>
    intro i f a a' m m' h h' e j hj hj'
    have hk := (keepGoing_iff (final := c.final) hdt i).mpr (by omega)
    unfold loop at h h'
    rw [if_pos hk] at h h'
    simp only [advance, hi, solves_eq ho, zero_add] at h h'
    obtain ⟨u, hu0, hu⟩ := updateProbes_eq hc (i + 1)
      (instant c.dt c.final i + trueDt c.dt c.final (instant c.dt c.final i)) f
    rw [hu] at h h'
    obtain ⟨m1, e1, h⟩ := follows_seq h
    obtain ⟨m2, e2, h⟩ := follows_seq h
    obtain ⟨x, m3, e3, h⟩ := follows_call h
    obtain ⟨m1', e1', h'⟩ := follows_seq h'
    obtain ⟨m2', e2', h'⟩ := follows_seq h'
    obtain ⟨x', m3', e3', h'⟩ := follows_call h'
    rw [e1, e2, e3, e1', e2', e3'] at e
    simp only [swaps, List.map_replicate] at e
    have hd : ∀ t : List Op, ∀ y ∈ (u.map Prod.fst ++ .maxReduce :: t).head?, y ≠ Op.exchange := by
      intro t y hy
      cases u with
      | nil => simp at hy; subst hy; decide
      | cons v u => simp at hy; subst hy; exact hu0 v List.mem_cons_self
    obtain ⟨hw, e⟩ := replicate_inj (hd _) (hd _) e
    rcases Nat.lt_or_ge i j with hlt | hge
    · have e := List.append_cancel_left e
      simp only [List.cons.injEq, true_and] at e
      rw [instant_succ hdt hk] at h h'
      exact ih (i + 1) _ _ _ m3 m3' h h' e j hlt hj'
    · obtain rfl : i = j := by omega
      unfold work
      omega

/-- **C154** (violated).  With an integrator of implicit stages on several ranks, two neighbouring
ranks whose linear solvers make different numbers of products in some step never finish together: in
no order of the ranks does the run come to its end.  That such ranks exist is `C126_violated`. -/
theorem C154_implicit_fails (G : Fin P → Fin P → Prop) (hG : ∀ r s, G r s → G s r) {c : Case}
    (hv : c.valid = true) (hc : Usable c) (hdt : 0 < c.dt) (ho : c.op = .global) {st : ℕ}
    (hi : c.integrator = .stages st) (l : Fin P → Local) {r s : Fin P} (hrs : G r s) {j : ℕ}
    (hj : j < stepCount c.dt c.final) (hl : work (l r) st j ≠ work (l s) st j) (fuel : ℕ) :
    NeverEnds G (start fun r => program P r c (l r) fuel) := by
  intro n τ h hf
  have e := same_calls hG h hf hrs
  have inv := inv_path h
  apply hl
  have strip : ∀ r, ∃ m, calls (τ r) = ((buildCalls c (l r)).map Prod.fst ++ (memberCalls c).map Prod.fst ++
      (operatorCalls c).map Prod.fst ++ (fileCalls c).map Prod.fst ++
      (Classical.choose (updateProbes_eq hc 0 0 (c.mors.map fun _ => false))).map Prod.fst) ++ m.map Prod.fst ∧
      Follows (loop P c (l r) fuel 0 0 (morCalls 0 c.mors (c.mors.map fun _ => false)).2 ⟨0, -1⟩) m .done := by
    intro r
    have h0 := inv.follows r
    rw [hf r] at h0
    unfold program at h0
    rw [hv] at h0
    simp only [Bool.true_eq_false, and_false, if_false] at h0
    rw [(Classical.choose_spec (updateProbes_eq hc 0 0 (c.mors.map fun _ => false))).2] at h0
    obtain ⟨m1, e1, h0⟩ := follows_seq h0
    obtain ⟨m2, e2, h0⟩ := follows_seq h0
    obtain ⟨m3, e3, h0⟩ := follows_seq h0
    obtain ⟨m4, e4, h0⟩ := follows_seq h0
    obtain ⟨m5, e5, h0⟩ := follows_seq h0
    refine ⟨m5, ?_, h0⟩
    unfold calls
    rw [e1, e2, e3, e4, e5]
    simp only [List.append_assoc]
  obtain ⟨m, e1, h1⟩ := strip r
  obtain ⟨m', e2, h2⟩ := strip s
  have hb : (buildCalls c (l r)).map Prod.fst = (buildCalls c (l s)).map Prod.fst := by
    unfold buildCalls
    simp only [List.map_append, List.map_cons, List.map_map, Function.comp_def]
  rw [e1, e2, hb] at e
  rw [← instant_zero hv] at h1 h2
  exact loop_work P hc ho hi hdt fuel 0 _ _ _ m m' h1 h2 (List.append_cancel_left e) j (Nat.zero_le j) hj

/-- **C154** (rejected options).  With invalid options rank zero stops before the operator is built and
the run does not come to its end. -/
theorem C154_rejected (G : Fin P → Fin P → Prop) (hP : 0 < P) {c : Case} (hv : c.valid = false)
    (l : Fin P → Local) (fuel : ℕ) : NeverEnds G (start fun r => program P r c (l r) fuel) := by
  intro n τ h hf
  have h0 := (inv_path h).follows ⟨0, hP⟩
  rw [hf] at h0
  unfold program at h0
  rw [hv] at h0
  simp only [and_self, if_true] at h0
  obtain ⟨m1, -, h0⟩ := follows_seq h0
  obtain ⟨m2, -, h0⟩ := follows_seq h0
  exact not_follows_abort h0

/-! ### Cases -/

/-- A run that completes does come to its end in some order of the ranks. -/
theorem ends {ι : Type*} [DecidableEq ι] {G : ι → ι → Prop} {σ : ι → Rank} (h : Completes G σ) :
    ∃ n τ, Path G n σ τ ∧ Finished τ := by
  obtain ⟨N, hN⟩ := h
  suffices H : ∀ d n τ, Path G n σ τ → N ≤ n + d → ∃ n τ, Path G n σ τ ∧ Finished τ from
    H N 0 σ (.nil σ) (by omega)
  intro d
  induction d with
  | zero =>
    intro n τ h hd
    rcases (hN n τ h).2 with hf | ⟨τ', hs⟩
    · exact ⟨n, τ, h, hf⟩
    · have := (hN _ _ (h.snoc hs)).1
      omega
  | succ d ih =>
    intro n τ h hd
    rcases (hN n τ h).2 with hf | ⟨τ', hs⟩
    · exact ⟨n, τ, h, hf⟩
    · exact ih (n + 1) τ' (h.snoc hs) (by omega)

/-- A case with everything that talks: a mesh with boundaries and materials, two sources with
automatic delays, probes of all kinds, timing reports; sixty steps. -/
def demo : Case where
  reload := true
  delays := 2
  exporters := [10, 7]
  snapshots := [20]
  others := [1, 5]
  points := 3
  fields := 1
  nears := 1
  mors := [⟨1, 2, 5⟩]
  op := .global
  integrator := .rk4
  timers := true
  order := 3
  cfl := 1
  dt := 1 / 10
  final := 6

/-- Two ranks that differ in everything they may differ in. -/
def demoLocal (n : ℕ) (r : Fin 2) : Local where
  reach s := if r = 0 then 3 else s + 1
  unstable i := r = 1 ∧ 30 ≤ i
  products i _ := if r = 0 then 4 else if i = 3 then 4 + n else 4

/-- Each of two ranks is a neighbour of the other. -/
def facing (r s : Fin 2) : Prop := r ≠ s

theorem demo_ok : demo.valid = true ∧ Usable demo ∧ 0 < demo.dt ∧ stepCount demo.dt demo.final ≤ 60 := by
  refine ⟨by decide +kernel, by unfold Usable; decide +kernel, by decide +kernel, by decide +kernel⟩

example : Completes facing (start fun r => program 2 r demo (demoLocal 1 r) 60) :=
  C154_explicit (by norm_num) _ demo_ok.1 demo_ok.2.1 demo_ok.2.2.1 rfl _ demo_ok.2.2.2

/-- There is an end, and what `C154_results` says of it. -/
example : ∃ n τ, Path facing n (start fun r => program 2 r demo (demoLocal 1 r) 60) τ ∧ Finished τ ∧
    ∀ r s, calls (τ r) = calls (τ s) := by
  obtain ⟨n, τ, h, hf⟩ := ends (C154_explicit (P := 2) (by norm_num) facing demo_ok.1 demo_ok.2.1 demo_ok.2.2.1 rfl
    (demoLocal 1) demo_ok.2.2.2)
  exact ⟨n, τ, h, hf, (C154_results facing demo_ok.1 demo_ok.2.1 (Or.inl rfl) demo_ok.2.2.1 (demoLocal 1)
    (fun _ _ _ => rfl) demo_ok.2.2.2 h hf).1⟩

/-- The same with backward Euler. -/
def demoImplicit : Case := { demo with integrator := .stages 1 }

theorem demoImplicit_ok : demoImplicit.valid = true ∧ Usable demoImplicit ∧ 0 < demoImplicit.dt ∧
    3 < stepCount demoImplicit.dt demoImplicit.final ∧ stepCount demoImplicit.dt demoImplicit.final ≤ 60 := by
  refine ⟨by decide +kernel, by unfold Usable; decide +kernel, by decide +kernel, by decide +kernel, by decide +kernel⟩

example : Completes facing (start fun r => program 2 r demoImplicit (demoLocal 0 r) 60) :=
  C154_implicit_partial (P := 2) (by norm_num) _ demoImplicit_ok.1 demoImplicit_ok.2.1 demoImplicit_ok.2.2.1 rfl _
    (by intro r s i; fin_cases r <;> fin_cases s <;> simp [work, demoLocal]) demoImplicit_ok.2.2.2.2

/-- One product more on the second rank in the fourth step, and the run never ends. -/
example : NeverEnds facing (start fun r => program 2 r demoImplicit (demoLocal 1 r) 60) :=
  C154_implicit_fails facing (fun _ _ h => h.symm) demoImplicit_ok.1 demoImplicit_ok.2.1 demoImplicit_ok.2.2.1 rfl
    (st := 1) rfl _ (r := 0) (s := 1) (by unfold facing; decide) (j := 3) demoImplicit_ok.2.2.2.1
    (by simp [work, demoLocal]) 60

example : NeverEnds facing (start fun r => program 2 r { demo with cfl := 0 } (demoLocal 1 r) 60) :=
  C154_rejected facing (by norm_num) (by decide +kernel) _ 60

end Dgtd.Coll
