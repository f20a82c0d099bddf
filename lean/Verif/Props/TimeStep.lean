/-
C11, C12, C77, C78: validation of the options and automatic time step.
-/
import Verif.Spec.TimeStep
import Verif.Props.TimeLoop

set_option linter.unusedSectionVars false

namespace Dgtd.TimeStep
open Spec
open Dgtd.Config (EvolOp Err assignEvolOp)

noncomputable section

/-! ### Options -/

theorem check_iff (o : Options) : checkOptions o = .ok () ↔ Valid o := by
  unfold checkOptions Valid
  by_cases h1 : o.order < 0 ∨ o.finalTime < 0
  · rw [if_pos h1]
    constructor
    · intro h; cases h
    · rintro ⟨a, b, -⟩; rcases h1 with h1 | h1
      · omega
      · linarith
  · rw [if_neg h1]
    push Not at h1
    by_cases h2 : o.cfl ≤ 0
    · rw [if_pos h2]
      constructor
      · intro h; cases h
      · rintro ⟨-, -, c⟩; linarith
    · rw [if_neg h2]
      push Not at h2
      simp [h1.1, h1.2, h2]

theorem check_error (o : Options) (h : ¬ Valid o) : checkOptions o = .error .throw := by
  unfold checkOptions
  unfold Valid at h
  by_cases h1 : o.order < 0 ∨ o.finalTime < 0
  · rw [if_pos h1]
  · rw [if_neg h1]
    push Not at h1
    by_cases h2 : o.cfl ≤ 0
    · rw [if_pos h2]
    · exact absurd ⟨h1.1, h1.2, not_le.1 h2⟩ h

theorem mapM_ok {α β : Type} {f : α → Except Err β} : ∀ {l : List α} {r : List β}, l.mapM f = .ok r →
    ∀ a ∈ l, ∃ b, f a = .ok b
  | [], _, _, a, ha => by simp at ha
  | x :: xs, r, h, a, ha => by
    rw [List.mapM_cons] at h
    cases hx : f x with
    | error e => rw [hx] at h; cases h
    | ok b =>
      rw [hx] at h
      rcases List.mem_cons.1 ha with rfl | ha
      · exact ⟨b, hx⟩
      · cases hr : xs.mapM f with
        | error e =>
          simp only [bind, Except.bind, hr] at h
          cases h
        | ok rs => exact mapM_ok hr a ha

theorem mapM_first_error {α β : Type} {f : α → Except Err β} {x : α} {xs : List α} {e : Err} (h : f x = .error e) :
    (x :: xs).mapM f = .error e := by
  rw [List.mapM_cons, h]; rfl

/-- **C11**: with a negative order, a negative final time or a CFL that is not positive, constructing the solver
raises an error, whatever the number of ranks, the mesh, and even with an explicit time step. -/
theorem C11_rejects (estimate : Options → Except Err ℝ) (o : Options) (ranks : Nat) (hr : 0 < ranks) (h : ¬ Valid o) :
    constructAll estimate o ranks = .error .throw := by
  obtain ⟨n, rfl⟩ : ∃ n, ranks = n + 1 := ⟨ranks - 1, by omega⟩
  unfold constructAll
  rw [List.range_succ_eq_map]
  refine mapM_first_error ?_
  unfold construct
  rw [if_pos rfl, check_error o h]
  rfl

/-- **C11**: a constructed solver has valid options, a known integrator, and the time step that was given or, if none
was, the automatic one. -/
theorem C11_accepts (estimate : Options → Except Err ℝ) (o : Options) (ranks : Nat) (hr : 0 < ranks)
    (res : List (ℝ × Nat)) (h : constructAll estimate o ranks = .ok res) :
    Valid o ∧ o.odeType ≤ 6 ∧ ∃ dt, construct estimate o 0 = .ok (dt, o.odeType) ∧
      (o.timeStep ≠ 0 → dt = o.timeStep) ∧ (o.timeStep = 0 → estimate o = .ok dt) := by
  have hv : Valid o := by
    by_contra hn
    rw [C11_rejects estimate o ranks hr hn] at h; cases h
  obtain ⟨⟨dt, ode⟩, hb⟩ := mapM_ok h 0 (List.mem_range.2 hr)
  have hb' := hb
  unfold construct at hb'
  rw [if_pos rfl, (check_iff o).2 hv] at hb'
  simp only [bind, Except.bind] at hb'
  by_cases ht : o.timeStep = 0
  · rw [if_pos ht] at hb'
    cases he : estimate o with
    | error e => rw [he] at hb'; cases hb'
    | ok d =>
      rw [he] at hb'
      unfold assignOde at hb'
      by_cases h6 : o.odeType ≤ 6
      · rw [if_pos h6] at hb'
        simp only [pure, Except.pure, Except.ok.injEq, Prod.mk.injEq] at hb'
        obtain ⟨rfl, rfl⟩ := hb'
        exact ⟨hv, h6, d, hb, fun h => absurd ht h, fun _ => rfl⟩
      · rw [if_neg h6] at hb'; cases hb'
  · rw [if_neg ht] at hb'
    unfold assignOde at hb'
    by_cases h6 : o.odeType ≤ 6
    · rw [if_pos h6] at hb'
      simp only [pure, Except.pure, Except.ok.injEq, Prod.mk.injEq] at hb'
      obtain ⟨rfl, rfl⟩ := hb'
      exact ⟨hv, h6, _, hb, fun _ => rfl, fun h => absurd h ht⟩
    · rw [if_neg h6] at hb'; cases hb'

/-- **C11**: valid options with an explicit time step and a known integrator are accepted. -/
theorem C11_complete (estimate : Options → Except Err ℝ) (o : Options) (ranks : Nat) (hv : Valid o)
    (h6 : o.odeType ≤ 6) (ht : o.timeStep ≠ 0) :
    constructAll estimate o ranks = .ok (List.replicate ranks (o.timeStep, o.odeType)) := by
  have key : ∀ r, construct estimate o r = .ok (o.timeStep, o.odeType) := by
    intro r
    unfold construct assignOde
    rw [if_neg ht, if_pos h6]
    split
    · rw [(check_iff o).2 hv]; rfl
    · rfl
  unfold constructAll
  have : ∀ l : List Nat, l.mapM (construct estimate o) = .ok (List.replicate l.length (o.timeStep, o.odeType)) := by
    intro l
    induction l with
    | nil => rfl
    | cons a l ih => rw [List.mapM_cons, key, ih]; rfl
  rw [this, List.length_range]

/-- **C11**, from the case file: an absent member has its default value, and a bad value of any of the three is
refused. -/
theorem C11_end_to_end (estimate : Options → Except Err ℝ) (j : Json) (ranks : Nat) (hr : 0 < ranks)
    (res : List (ℝ × Nat)) (h : (do let o ← buildOptions j; constructAll estimate o ranks) = .ok res) :
    0 ≤ j.order.getD 2 ∧ 0 ≤ j.finalTime.getD 2 ∧ 0 < j.cfl.getD 1 ∧
    (j.operator = none ∨ j.operator = some "maxwell" ∨ j.operator = some "global" ∨ j.operator = some "hesthaven") ∧
    (∀ n, j.odeType = some n → n % 18446744073709551616 ≤ 6) := by
  cases ho : buildOptions j with
  | error e => rw [ho] at h; cases h
  | ok o =>
    rw [ho] at h
    change constructAll estimate o ranks = .ok res at h
    obtain ⟨hv, h6, -⟩ := C11_accepts estimate o ranks hr res h
    unfold buildOptions at ho
    cases hop : assignEvolOp j.operator with
    | error e => rw [hop] at ho; cases ho
    | ok op =>
      rw [hop] at ho
      simp only [bind, Except.bind, pure, Except.pure, Except.ok.injEq] at ho
      subst ho
      refine ⟨hv.1, hv.2.1, hv.2.2, ?_, ?_⟩
      · unfold assignEvolOp at hop
        cases hs : j.operator with
        | none => left; rfl
        | some s =>
          right
          rw [hs] at hop
          simp only at hop
          by_cases h1 : s = "maxwell"
          · left; rw [h1]
          · rw [if_neg h1] at hop
            by_cases h2 : s = "global"
            · right; left; rw [h2]
            · rw [if_neg h2] at hop
              by_cases h3 : s = "hesthaven"
              · right; right; rw [h3]
              · rw [if_neg h3] at hop; cases hop
      · intro n hn
        simp only [hn, Option.getD_some] at h6
        have : 0 ≤ n % 18446744073709551616 := Int.emod_nonneg _ (by norm_num)
        omega

/-- Only the first rank looks at the options: another one goes on with options that are not valid.  (The run is taken
down by the error of the first rank.) -/
theorem C11_other_ranks (estimate : Options → Except Err ℝ) (o : Options) (r : Nat) (hr : r ≠ 0)
    (h6 : o.odeType ≤ 6) (ht : o.timeStep ≠ 0) : construct estimate o r = .ok (o.timeStep, o.odeType) := by
  unfold construct assignOde
  rw [if_neg ht, if_pos h6, if_neg hr]; rfl

/-- Options meeting the hypotheses of `C11_complete`, and some that do not. -/
example : Valid ⟨1 / 10, 2, 1, 0, .global, 2⟩ ∧ ¬ Valid ⟨1 / 10, 2, 0, 0, .global, 2⟩ ∧
    ¬ Valid ⟨1 / 10, -2, 1, 0, .global, 2⟩ ∧ ¬ Valid ⟨1 / 10, 2, 1, 0, .global, -1⟩ := by
  unfold Valid; norm_num

/-- **C77** (partial): if the solver is constructed with a time step that is not negative and the automatic step, when
it is used, is positive, the run without probes comes to its end.  Missing: negative time steps, which are accepted
although the run never ends (`C77_violated`). -/
theorem C77_ends_partial {σ : Type} (estimate : Options → Except Err ℝ) (o : Options) (dt : ℝ) (ode : Nat)
    (h : construct estimate o 0 = .ok (dt, ode)) (hts : 0 ≤ o.timeStep)
    (hest : ∀ d, estimate o = .ok d → 0 < d) (step : ℝ → ℝ → σ → σ) (f0 : σ) :
    ∃ s0 s n, TimeLoop.construct dt o.finalTime f0 [] = some s0 ∧
      TimeLoop.run step dt o.finalTime n s0 = .done s := by
  have hall : constructAll estimate o 1 = .ok [(dt, ode)] := by
    unfold constructAll
    have : List.range 1 = [0] := rfl
    rw [this, List.mapM_cons, h]; rfl
  obtain ⟨hv, -, dt', h1, h2, h3⟩ := C11_accepts estimate o 1 one_pos _ hall
  rw [h] at h1
  simp only [Except.ok.injEq, Prod.mk.injEq] at h1
  obtain ⟨rfl, -⟩ := h1
  have hdt : 0 < dt := by
    by_cases ht : o.timeStep = 0
    · exact hest _ (h3 ht)
    · rw [h2 ht]; exact lt_of_le_of_ne hts (Ne.symm ht)
  obtain ⟨s0, s, e1, e2, -⟩ := TimeLoop.C07_run_reaches_final_time step dt o.finalTime f0 [] hdt hv.2.1 (by simp)
  exact ⟨s0, s, _, e1, e2 _ (le_refl _)⟩

/-- A negative time step is accepted, and the run never ends. -/
theorem C77_violated : ∃ o : Options, Valid o ∧
    (∀ estimate, construct estimate o 0 = .ok (o.timeStep, o.odeType)) ∧
    ∀ (σ : Type) (step : ℝ → ℝ → σ → σ) (f0 : σ) (fuel : Nat), ∃ s0,
      TimeLoop.construct o.timeStep o.finalTime f0 [] = some s0 ∧
      TimeLoop.run step o.timeStep o.finalTime fuel s0 = .outOfFuel := by
  refine ⟨⟨-1, 2, 1, 0, .global, 2⟩, by unfold Valid; norm_num, ?_, ?_⟩
  · intro estimate
    have hv : Valid ⟨-1, 2, 1, 0, .global, 2⟩ := by unfold Valid; norm_num
    unfold construct assignOde
    rw [if_pos rfl, (check_iff _).2 hv, if_neg (by norm_num), if_pos (by norm_num)]; rfl
  · intro σ step f0 fuel
    exact TimeLoop.C07_negative_step_never_returns step (-1) 2 f0 (by norm_num) (by norm_num) fuel

/-! ### Minima -/

theorem minOf_le (l : List ℝ) : ∀ a, minOf a l ≤ a ∧ ∀ x ∈ l, minOf a l ≤ x := by
  induction l with
  | nil => intro a; exact ⟨le_refl _, fun x hx => by simp at hx⟩
  | cons b l ih =>
    intro a
    obtain ⟨h1, h2⟩ := ih (min a b)
    refine ⟨h1.trans (min_le_left _ _), fun x hx => ?_⟩
    rcases List.mem_cons.1 hx with rfl | hx
    · exact h1.trans (min_le_right _ _)
    · exact h2 x hx

theorem minOf_mem (l : List ℝ) : ∀ a, minOf a l = a ∨ minOf a l ∈ l := by
  induction l with
  | nil => intro a; left; rfl
  | cons b l ih =>
    intro a
    change minOf (min a b) l = a ∨ minOf (min a b) l ∈ b :: l
    rcases ih (min a b) with h | h
    · rcases min_choice a b with hm | hm
      · left; rw [h, hm]
      · right; rw [h, hm]; exact List.mem_cons_self
    · right; exact List.mem_cons_of_mem _ h

/-! ### Geometry -/

theorem edgeLength_eq (p : Pt × Pt) : edgeLength p = span p.1 p.2 := by
  unfold edgeLength span
  congr 1; ring

theorem faceArea_eq (f : Face) : faceArea f = triangle f.a f.b f.c := by
  unfold faceArea triangle
  simp only [sq]
  ring

theorem triangle_nonneg (a b c : Pt) : 0 ≤ triangle a b c := div_nonneg (Real.sqrt_nonneg _) (by norm_num)

theorem area_tri (f : Face) (h : f.d = none) : area f = faceArea f := by
  rw [faceArea_eq]; unfold area; rw [h]

theorem area_par (f : Face) (h : Parallelogram f) : area f = 2 * faceArea f := by
  obtain ⟨d, h1, hx, hy, hz⟩ := h
  rw [faceArea_eq]; unfold area; rw [h1]
  have : triangle f.a f.c d = triangle f.a f.b f.c := by
    unfold triangle
    rw [hx, hy, hz]
    congr 2
    ring
  simp only [this]; ring

theorem border_plane (e : Elem) : border 2 e = faceAreaSum 2 e := by
  unfold border faceAreaSum
  rw [if_pos rfl, if_pos rfl]
  congr 1
  exact List.map_congr_left fun p _ => (edgeLength_eq p).symm

theorem border_tri (e : Elem) (h : ∀ f ∈ e.faces, f.d = none) : border 3 e = faceAreaSum 3 e := by
  unfold border faceAreaSum
  rw [if_neg (by norm_num), if_neg (by norm_num)]
  congr 1
  exact List.map_congr_left fun f hf => area_tri f (h f hf)

theorem border_par (e : Elem) (h : ∀ f ∈ e.faces, Parallelogram f) : border 3 e = 2 * faceAreaSum 3 e := by
  unfold border faceAreaSum
  rw [if_neg (by norm_num), if_neg (by norm_num)]
  rw [List.map_congr_left fun f hf => area_par f (h f hf), List.sum_map_mul_left]

/-- Half the border seen by the code is at most that of the element and at least half of it. -/
theorem codeBorder (m : Setup) (hd : m.dim = 2 ∨ m.dim = 3) (hk : Known m) (e : Elem) (he : e ∈ m.elems) :
    border m.dim e = faceAreaSum m.dim e ∨
    (border m.dim e = 2 * faceAreaSum m.dim e ∧ m.dim = 3 ∧ ∀ x ∈ m.elems, x.shape = .hexahedron) := by
  rcases hd with hd | hd
  · left; rw [hd]; exact border_plane e
  · rcases hk hd with h | h
    · left; rw [hd]; exact border_tri e (h e he)
    · right; rw [hd]; exact ⟨border_par e (h e he).2, rfl, fun x hx => (h x hx).1⟩

theorem dtScale_pos (m : Setup) (hd : m.dim = 2 ∨ m.dim = 3) (hk : Known m) (hu : Usable m) (e : Elem)
    (he : e ∈ m.elems) : 0 < dtScale m.dim e := by
  obtain ⟨hv, hb⟩ := hu.2 e he
  unfold dtScale
  refine div_pos hv (div_pos ?_ (by norm_num))
  rcases codeBorder m hd hk e he with h | ⟨h, -⟩
  · rw [← h]; exact hb
  · rw [h] at hb; linarith

/-- What `calcMeshTimeStep` returns: a fixed multiple of the smallest scale. -/
theorem calc_ok (lobatto : Nat → List ℝ) (p dim : Nat) (elems : List Elem) (div : ℝ) (sp : Shape) (r : ℝ)
    (hr : FirstGap lobatto p r) (hne : elems ≠ []) :
    ∃ s, (∃ e ∈ elems, s = dtScale dim e) ∧ (∀ e ∈ elems, s ≤ dtScale dim e) ∧
      calcMeshTimeStep lobatto p dim elems div sp =
        .ok (if elems.any (fun e => decide (e.shape = sp)) then s * r / 2 / div else s * r / 2) := by
  obtain ⟨-, a, b, rest, hl, hab⟩ := hr
  cases elems with
  | nil => exact absurd rfl hne
  | cons e0 es =>
    refine ⟨minOf (dtScale dim e0) (es.map (dtScale dim)), ?_, ?_, ?_⟩
    · rcases minOf_mem (es.map (dtScale dim)) (dtScale dim e0) with h | h
      · exact ⟨e0, List.mem_cons_self, h⟩
      · obtain ⟨e, he, h'⟩ := List.mem_map.1 h
        exact ⟨e, List.mem_cons_of_mem _ he, h'.symm⟩
    · obtain ⟨h1, h2⟩ := minOf_le (es.map (dtScale dim)) (dtScale dim e0)
      intro e he
      rcases List.mem_cons.1 he with rfl | he
      · exact h1
      · exact h2 _ (List.mem_map_of_mem he)
    · unfold calcMeshTimeStep rMin
      rw [hl]
      simp only [List.map_cons, hab, bind, Except.bind, pure, Except.pure]
      congr 1
      split <;> ring

/-- The automatic step in the plane and in space, except for the nodal operator in space: a multiple between 1/24 and
5/8 of the smallest scale times the CFL and the first gap. -/
theorem estimate_ok (lobatto : Nat → List ℝ) (m : Setup) (hd : m.dim = 2 ∨ m.dim = 3) (o : Options) (r : ℝ)
    (hr : FirstGap lobatto o.order.toNat r) (hne : m.elems ≠ []) (hop : ¬ (o.op = .hesthaven ∧ m.dim = 3)) :
    ∃ s k, (∃ e ∈ m.elems, s = dtScale m.dim e) ∧ (∀ e ∈ m.elems, s ≤ dtScale m.dim e) ∧ 0 < k ∧ k ≤ 5 / 8 ∧
      ((m.dim = 3 ∧ ∃ x ∈ m.elems, x.shape = .hexahedron) → k ≤ 5 / 48) ∧
      estimateTimeStep lobatto m o = .ok (s * r * k * o.cfl) := by
  have h1 : ¬ m.dim = 1 := by omega
  unfold estimateTimeStep baseStep
  rw [if_neg h1]
  have hfin : ∀ b, operatorStep m o b = if o.op = .global ∧ m.dim = 3 then .ok (b / (4 / 5)) else .ok b := by
    intro b; unfold operatorStep; rw [if_neg hop]
  have quot : ∀ x : ℝ, x / (4 / 5) = x * (5 / 4) := fun x => by ring
  rcases hd with hd | hd
  · rw [if_pos hd, hd]
    obtain ⟨s, e1, e2, e3⟩ := calc_ok lobatto o.order.toNat 2 m.elems 2 .quadrilateral r hr hne
    have hg : ¬ (o.op = .global ∧ (2 : Nat) = 3) := by rintro ⟨-, h⟩; omega
    rw [e3]
    by_cases hq : m.elems.any (fun e => decide (e.shape = .quadrilateral)) = true
    · refine ⟨s, 1 / 4, e1, e2, by norm_num, by norm_num, fun h => absurd h.1 (by norm_num), ?_⟩
      rw [if_pos hq]
      simp only [Except.map, Except.bind, hfin, hd]
      rw [if_neg hg]
      congr 1; ring
    · refine ⟨s, 1 / 2, e1, e2, by norm_num, by norm_num, fun h => absurd h.1 (by norm_num), ?_⟩
      rw [if_neg hq]
      simp only [Except.map, Except.bind, hfin, hd]
      rw [if_neg hg]
      congr 1; ring
  · rw [if_neg (by omega), if_pos hd, hd]
    obtain ⟨s, e1, e2, e3⟩ := calc_ok lobatto o.order.toNat 3 m.elems 6 .hexahedron r hr hne
    rw [e3]
    by_cases hq : m.elems.any (fun e => decide (e.shape = .hexahedron)) = true
    · rw [if_pos hq]
      by_cases hg : o.op = .global ∧ True
      · refine ⟨s, 5 / 48, e1, e2, by norm_num, by norm_num, fun _ => le_refl _, ?_⟩
        simp only [Except.map, Except.bind, hfin, hd]
        rw [if_pos hg]
        congr 1; ring
      · refine ⟨s, 1 / 12, e1, e2, by norm_num, by norm_num, fun _ => by norm_num, ?_⟩
        simp only [Except.map, Except.bind, hfin, hd]
        rw [if_neg hg]
        congr 1; ring
    · have hnone : ¬ ∃ x ∈ m.elems, x.shape = .hexahedron := by
        rintro ⟨x, hx, hs⟩
        exact hq (List.any_eq_true.2 ⟨x, hx, by simp [hs]⟩)
      rw [if_neg hq]
      by_cases hg : o.op = .global ∧ True
      · refine ⟨s, 5 / 8, e1, e2, by norm_num, by norm_num, fun h => absurd h.2 hnone, ?_⟩
        simp only [Except.map, Except.bind, hfin, hd]
        rw [if_pos hg]
        congr 1; ring
      · refine ⟨s, 1 / 2, e1, e2, by norm_num, by norm_num, fun h => absurd h.2 hnone, ?_⟩
        simp only [Except.map, Except.bind, hfin, hd]
        rw [if_neg hg]
        congr 1; ring

/-- **C12**: in two and three dimensions (maxwell and global operators, and the nodal one in the plane) the automatic
time step exists, is positive, and no larger than CFL times the first gap of the nodes times the thickness of any
element. -/
theorem C12_elements (lobatto : Nat → List ℝ) (m : Setup) (hd : m.dim = 2 ∨ m.dim = 3) (hk : Known m) (hu : Usable m)
    (o : Options) (ho : 0 < o.cfl) (r : ℝ) (hr : FirstGap lobatto o.order.toNat r)
    (hop : ¬ (o.op = .hesthaven ∧ m.dim = 3)) :
    ∃ dt, estimateTimeStep lobatto m o = .ok dt ∧ 0 < dt ∧ ∀ e ∈ m.elems, dt ≤ o.cfl * r * thickness m.dim e := by
  obtain ⟨s, k, ⟨e0, he0, hs0⟩, hle, hk0, hk1, hk2, heq⟩ := estimate_ok lobatto m hd o r hr hu.1 hop
  have hspos : 0 < s := by rw [hs0]; exact dtScale_pos m hd hk hu e0 he0
  have hrp := hr.1
  refine ⟨_, heq, by positivity, fun e he => ?_⟩
  obtain ⟨hv, hb⟩ := hu.2 e he
  have hs := hle e he
  unfold dtScale at hs
  unfold thickness
  rcases codeBorder m hd hk e he with h | ⟨h, h3, hall⟩
  · rw [h] at hb ⊢
    have e1 : e.volume / (faceAreaSum m.dim e / 2) = 2 * e.volume / faceAreaSum m.dim e := by field_simp
    rw [e1] at hs
    have : s * k ≤ 2 * e.volume / faceAreaSum m.dim e := by nlinarith
    calc s * r * k * o.cfl = (o.cfl * r) * (s * k) := by ring
      _ ≤ (o.cfl * r) * (2 * e.volume / faceAreaSum m.dim e) := by
        exact mul_le_mul_of_nonneg_left this (by positivity)
  · have hb' : 0 < faceAreaSum m.dim e := by rw [h] at hb; linarith
    rw [h]
    have hk3 := hk2 ⟨h3, e, he, hall e he⟩
    have e1 : e.volume / (faceAreaSum m.dim e / 2) = 2 * (2 * e.volume / (2 * faceAreaSum m.dim e)) := by field_simp
    rw [e1] at hs
    have hpos : 0 < 2 * e.volume / (2 * faceAreaSum m.dim e) := by positivity
    have : s * k ≤ 2 * e.volume / (2 * faceAreaSum m.dim e) := by nlinarith
    calc s * r * k * o.cfl = (o.cfl * r) * (s * k) := by ring
      _ ≤ (o.cfl * r) * (2 * e.volume / (2 * faceAreaSum m.dim e)) := by
        exact mul_le_mul_of_nonneg_left this (by positivity)

/-! ### One dimension -/

theorem pair_pos : ∀ (l : List ℝ), l.Nodup → ∀ x ∈ pairDistances l, 0 < x
  | [], _, x, hx => by simp [pairDistances] at hx
  | a :: l, hn, x, hx => by
    rw [List.nodup_cons] at hn
    rcases List.mem_append.1 hx with hx | hx
    · obtain ⟨y, hy, rfl⟩ := List.mem_map.1 hx
      refine abs_pos.2 (sub_ne_zero.2 ?_)
      rintro rfl; exact hn.1 hy
    · exact pair_pos l hn.2 x hx

theorem pair_mem : ∀ (l : List ℝ) (i j : Nat) (x y : ℝ), i < j → l[i]? = some x → l[j]? = some y →
    |x - y| ∈ pairDistances l
  | [], i, j, x, y, _, hx, _ => by simp at hx
  | a :: l, 0, j + 1, x, y, _, hx, hy => by
    simp only [List.getElem?_cons_zero, Option.some.injEq] at hx
    subst hx
    simp only [List.getElem?_cons_succ] at hy
    exact List.mem_append_left _ (List.mem_map.2 ⟨y, List.mem_of_getElem? hy, rfl⟩)
  | a :: l, i + 1, j + 1, x, y, h, hx, hy =>
    List.mem_append_right _ (pair_mem l i j x y (by omega) (by simpa using hx) (by simpa using hy))
  | _ :: _, i, 0, _, _, h, _, _ => by omega

theorem minDistance_pos (m : Setup) (hu : Usable1 m) : 0 < minDistance m.elems := by
  unfold minDistance
  rcases minOf_mem (m.elems.flatMap elemDistances) dblMax with h | h
  · rw [h]; unfold dblMax; norm_num
  · obtain ⟨e, he, hx⟩ := List.mem_flatMap.1 h
    generalize minOf dblMax (m.elems.flatMap elemDistances) = y at hx ⊢
    unfold elemDistances at hx
    rcases hu e he with ⟨h1, h2⟩ | ⟨h1, hn⟩
    · rw [if_pos h1] at hx
      rw [List.mem_singleton.1 hx]; exact h2
    · rw [if_neg h1] at hx; exact pair_pos _ hn _ hx

/-- **C12**: in one dimension the automatic time step is positive and no larger than CFL times the distance between any
two nodes of an element. -/
theorem C12_line (lobatto : Nat → List ℝ) (m : Setup) (hd : m.dim = 1) (hu : Usable1 m) (o : Options)
    (hv : Valid o) :
    ∃ dt, estimateTimeStep lobatto m o = .ok dt ∧ 0 < dt ∧
      ∀ e ∈ m.elems, (∀ (i j : Nat) (x y : ℝ), i < j → e.nodes[i]? = some x → e.nodes[j]? = some y → dt ≤ o.cfl * |x - y|) ∧
        (e.nodes.length = 1 → dt ≤ o.cfl * e.size) := by
  have hpos := minDistance_pos m hu
  have bound : ∀ e ∈ m.elems, (∀ (i j : Nat) (x y : ℝ), i < j → e.nodes[i]? = some x → e.nodes[j]? = some y →
      minDistance m.elems ≤ |x - y|) ∧ (e.nodes.length = 1 → minDistance m.elems ≤ e.size) := by
    intro e he
    constructor
    · intro i j x y hij hx hy
      refine (minOf_le _ dblMax).2 _ (List.mem_flatMap.2 ⟨e, he, ?_⟩)
      unfold elemDistances
      have hl : e.nodes.length ≠ 1 := by
        have := (List.getElem?_eq_some_iff.1 hy).1
        omega
      rw [if_neg hl]
      exact pair_mem _ i j x y hij hx hy
    · intro h1
      refine (minOf_le _ dblMax).2 _ (List.mem_flatMap.2 ⟨e, he, ?_⟩)
      unfold elemDistances
      rw [if_pos h1]; exact List.mem_singleton.2 rfl
  have fin : ∀ q : ℝ, 0 < q → q ≤ minDistance m.elems → 0 < o.cfl * q ∧
      ∀ e ∈ m.elems, (∀ (i j : Nat) (x y : ℝ), i < j → e.nodes[i]? = some x → e.nodes[j]? = some y → o.cfl * q ≤ o.cfl * |x - y|) ∧
        (e.nodes.length = 1 → o.cfl * q ≤ o.cfl * e.size) := by
    intro q hq hle
    refine ⟨mul_pos hv.2.2 hq, fun e he => ⟨fun i j x y hij hx hy => ?_, fun h1 => ?_⟩⟩
    · exact mul_le_mul_of_nonneg_left (hle.trans ((bound e he).1 i j x y hij hx hy)) hv.2.2.le
    · exact mul_le_mul_of_nonneg_left (hle.trans ((bound e he).2 h1)) hv.2.2.le
  unfold estimateTimeStep
  rw [if_pos hd]
  by_cases h0 : o.order = 0
  · rw [if_pos h0]
    exact ⟨_, rfl, fin _ (by rw [div_one]; exact hpos) (by rw [div_one])⟩
  · rw [if_neg h0]
    have h1 : (1 : ℝ) ≤ (o.order : ℝ) := by
      have : 1 ≤ o.order := by have := hv.1; omega
      exact_mod_cast this
    have hp : (1 : ℝ) ≤ (o.order : ℝ) ^ (3 / 2 : ℝ) := Real.one_le_rpow h1 (by norm_num)
    refine ⟨_, rfl, fin _ ?_ ?_⟩
    · rw [div_one]; exact div_pos hpos (by linarith)
    · rw [div_one]; exact div_le_self hpos.le hp

/-! ### The nodal operator in space -/

theorem fold_storage (st : List ℝ) : ∀ (l : List Nat) (m0 : ℝ), (∀ e ∈ l, e < st.length) → ∃ f,
    l.foldlM (fun m e => (st[e]?).map fun x => max m x) m0 = some f ∧ m0 ≤ f ∧
      (∀ e ∈ l, ∀ x, st[e]? = some x → x ≤ f) ∧ (f = m0 ∨ f ∈ st)
  | [], m0, _ => ⟨m0, rfl, le_refl _, fun e he => by simp at he, Or.inl rfl⟩
  | a :: l, m0, h => by
    obtain ⟨y, hy⟩ : ∃ y, st[a]? = some y := ⟨_, List.getElem?_eq_getElem (h a List.mem_cons_self)⟩
    obtain ⟨f, h1, h2, h3, h4⟩ := fold_storage st l (max m0 y) fun e he => h e (List.mem_cons_of_mem _ he)
    refine ⟨f, ?_, (le_max_left _ _).trans h2, ?_, ?_⟩
    · rw [List.foldlM_cons, hy]; exact h1
    · intro e he x hx
      rcases List.mem_cons.1 he with rfl | he
      · rw [hy] at hx; cases hx; exact (le_max_right _ _).trans h2
      · exact h3 e he x hx
    · rcases h4 with h4 | h4
      · rcases max_choice m0 y with hm | hm
        · left; rw [h4, hm]
        · right; rw [h4, hm]; exact List.mem_of_getElem? hy
      · exact Or.inr h4

/-- **C12**: for the nodal operator in three dimensions, when this rank stores every element of the mesh (no partition,
no curved element), the automatic step is positive and no larger than CFL over the face scale of any element times the
square of the order. -/
theorem C12_nodal (lobatto : Nat → List ℝ) (m : Setup) (hd : m.dim = 3) (o : Options) (hv : Valid o) (h1 : 1 ≤ o.order)
    (r : ℝ) (hr : FirstGap lobatto o.order.toNat r) (hop : o.op = .hesthaven) (hne : m.elems ≠ [])
    (hst : m.storage.length = m.elems.length) (hpos : ∀ x ∈ m.storage, 0 < x) :
    ∃ dt, estimateTimeStep lobatto m o = .ok dt ∧ 0 < dt ∧
      ∀ x ∈ m.storage, dt ≤ o.cfl / (x * (o.order : ℝ) ^ 2) := by
  obtain ⟨s, -, -, e3⟩ := calc_ok lobatto o.order.toNat 3 m.elems 6 .hexahedron r hr hne
  obtain ⟨f, f1, f2, f3, f4⟩ := fold_storage m.storage (List.range m.elems.length) 0
    (fun e he => by rw [hst]; exact List.mem_range.1 he)
  have hfs : maxFscale m.storage m.elems.length = some f := f1
  have hall : ∀ x ∈ m.storage, x ≤ f := by
    intro x hx
    obtain ⟨i, hi, hxi⟩ := List.mem_iff_getElem.1 hx
    exact f3 i (List.mem_range.2 (hst ▸ hi)) x (by rw [List.getElem?_eq_getElem hi, hxi])
  have hf : 0 < f := by
    obtain ⟨x, hx⟩ : ∃ x, x ∈ m.storage := by
      cases hs : m.storage with
      | nil =>
        rw [hs] at hst
        exact absurd (List.length_eq_zero_iff.1 hst.symm) hne
      | cons y ys => exact ⟨y, List.mem_cons_self⟩
    exact lt_of_lt_of_le (hpos x hx) (hall x hx)
  have ho : (0 : ℝ) < (o.order : ℝ) := by
    have : (0 : Int) < o.order := by omega
    exact_mod_cast this
  refine ⟨1 * o.cfl / (f * (o.order : ℝ) * (o.order : ℝ)), ?_, ?_, fun x hx => ?_⟩
  · unfold estimateTimeStep baseStep operatorStep
    rw [if_neg (by omega), if_neg (by omega), if_pos hd, e3, hop, hd]
    simp only [Except.map, Except.bind, hfs, and_self, if_true]
  · have := hv.2.2
    positivity
  · have hx0 := hpos x hx
    have := hall x hx
    rw [one_mul, mul_assoc, ← sq]
    exact div_le_div_of_nonneg_left hv.2.2.le (by positivity) (mul_le_mul_of_nonneg_right this (by positivity))

/-- **C12**: the automatic time step is proportional to the CFL. -/
theorem C12_linear (lobatto : Nat → List ℝ) (m : Setup) (o : Options) (a : ℝ) :
    estimateTimeStep lobatto m { o with cfl := a * o.cfl } = (estimateTimeStep lobatto m o).map (a * ·) := by
  unfold estimateTimeStep baseStep operatorStep
  simp only
  by_cases h1 : m.dim = 1
  · rw [if_pos h1, if_pos h1]
    by_cases h0 : o.order = 0
    · rw [if_pos h0, if_pos h0]; simp only [Except.map]; congr 1; ring
    · rw [if_neg h0, if_neg h0]; simp only [Except.map]; congr 1; ring
  · rw [if_neg h1, if_neg h1]
    have tail : ∀ c : Except Err ℝ, ((c.map (· * (a * o.cfl))).bind fun base =>
          if o.op = .hesthaven ∧ m.dim = 3 then
            match maxFscale m.storage m.elems.length with
            | none => .error .ub
            | some f => .ok (1 * (a * o.cfl) / (f * (o.order : ℝ) * (o.order : ℝ)))
          else if o.op = .global ∧ m.dim = 3 then .ok (base / (4 / 5))
          else .ok base) =
        ((c.map (· * o.cfl)).bind fun base =>
          if o.op = .hesthaven ∧ m.dim = 3 then
            match maxFscale m.storage m.elems.length with
            | none => (.error .ub : Except Err ℝ)
            | some f => .ok (1 * o.cfl / (f * (o.order : ℝ) * (o.order : ℝ)))
          else if o.op = .global ∧ m.dim = 3 then .ok (base / (4 / 5))
          else .ok base).map (a * ·) := by
      intro c
      cases c with
      | error e => rfl
      | ok x =>
        simp only [Except.map, Except.bind]
        by_cases hh : o.op = .hesthaven ∧ m.dim = 3
        · rw [if_pos hh, if_pos hh]
          cases maxFscale m.storage m.elems.length with
          | none => rfl
          | some f => simp only; congr 1; ring
        · rw [if_neg hh, if_neg hh]
          split
          · simp only; congr 1; ring
          · simp only; congr 1; ring
    by_cases h2 : m.dim = 2
    · rw [if_pos h2, if_pos h2]; exact tail _
    · rw [if_neg h2, if_neg h2]
      by_cases h3 : m.dim = 3
      · rw [if_pos h3, if_pos h3]; exact tail _
      · rw [if_neg h3, if_neg h3]; rfl

/-- **C12**: other dimensions are refused. -/
theorem C12_other_dimensions (lobatto : Nat → List ℝ) (m : Setup) (o : Options)
    (hd : m.dim ≠ 1 ∧ m.dim ≠ 2 ∧ m.dim ≠ 3) : estimateTimeStep lobatto m o = .error .throw := by
  unfold estimateTimeStep baseStep
  rw [if_neg hd.1, if_neg hd.2.1, if_neg hd.2.2]; rfl

/-! ### C78: when the automatic step is undefined -/

/-- **C78** is false: order zero is accepted, but in two or three dimensions its automatic time step reads the second of
a list of one node. -/
theorem C78_violated_order_zero (lobatto : Nat → List ℝ) (h0 : (lobatto 0).length = 1) (m : Setup)
    (hd : m.dim = 2 ∨ m.dim = 3) (o : Options) (ho : o.order = 0) :
    estimateTimeStep lobatto m o = .error .ub := by
  have hr : rMin lobatto o.order.toNat = .error .ub := by
    unfold rMin
    rw [ho]
    cases hl : lobatto (Int.toNat 0) with
    | nil => rfl
    | cons a l =>
      cases l with
      | nil => rfl
      | cons b l =>
        have : (lobatto 0) = a :: b :: l := hl
        rw [this] at h0; simp at h0
  unfold estimateTimeStep baseStep calcMeshTimeStep
  rw [hr, if_neg (by omega)]
  rcases hd with hd | hd
  · rw [if_pos hd]; rfl
  · rw [if_neg (by omega), if_pos hd]; rfl

/-- **C78** is false: with the nodal operator in three dimensions, a rank that stores fewer elements than the whole mesh
has - because of a partition or of a curved element - reads beyond its storage. -/
theorem C78_violated_partition (lobatto : Nat → List ℝ) (m : Setup) (hd : m.dim = 3) (o : Options)
    (hop : o.op = .hesthaven) (r : ℝ) (hr : FirstGap lobatto o.order.toNat r)
    (hst : m.storage.length < m.elems.length) : estimateTimeStep lobatto m o = .error .ub := by
  have hne : m.elems ≠ [] := by rintro h; rw [h] at hst; simp at hst
  obtain ⟨s, -, -, e3⟩ := calc_ok lobatto o.order.toNat 3 m.elems 6 .hexahedron r hr hne
  have hnone : maxFscale m.storage m.elems.length = none := by
    unfold maxFscale
    have key : ∀ (l : List Nat) (m0 : ℝ), m.storage.length ∈ l →
        l.foldlM (fun m' e => (m.storage[e]?).map fun x => max m' x) m0 = none := by
      intro l
      induction l with
      | nil => intro m0 h; simp at h
      | cons a l ih =>
        intro m0 h
        rw [List.foldlM_cons]
        cases hs : m.storage[a]? with
        | none => rfl
        | some y =>
          rcases List.mem_cons.1 h with h | h
          · rw [← h, List.getElem?_eq_none (le_refl _)] at hs; cases hs
          · exact ih _ h
    exact key _ _ (List.mem_range.2 hst)
  unfold estimateTimeStep baseStep operatorStep
  rw [if_neg (by omega), if_neg (by omega), if_pos hd, e3, hop, hd]
  simp only [Except.map, Except.bind, hnone, and_self, if_true]

/-- **C78** (partial): the automatic step is defined for every valid set of options of order at least one on a usable
mesh that this rank stores whole.  Missing: order zero outside one dimension, and partitions or curved elements with the
nodal operator, see `C78_violated_order_zero` and `C78_violated_partition`. -/
theorem C78_defined_partial (lobatto : Nat → List ℝ) (m : Setup) (hd : m.dim = 1 ∨ m.dim = 2 ∨ m.dim = 3) (o : Options)
    (h1 : 1 ≤ o.order) (r : ℝ) (hr : FirstGap lobatto o.order.toNat r) (hne : m.elems ≠ [])
    (hst : m.elems.length ≤ m.storage.length) : ∃ dt, estimateTimeStep lobatto m o = .ok dt := by
  rcases hd with hd | hd
  · unfold estimateTimeStep
    rw [if_pos hd, if_neg (by omega)]; exact ⟨_, rfl⟩
  · by_cases hop : o.op = .hesthaven ∧ m.dim = 3
    · obtain ⟨s, -, -, e3⟩ := calc_ok lobatto o.order.toNat 3 m.elems 6 .hexahedron r hr hne
      obtain ⟨f, f1, -⟩ := fold_storage m.storage (List.range m.elems.length) 0
        (fun e he => lt_of_lt_of_le (List.mem_range.1 he) hst)
      have hfs : maxFscale m.storage m.elems.length = some f := f1
      refine ⟨1 * o.cfl / (f * (o.order : ℝ) * (o.order : ℝ)), ?_⟩
      unfold estimateTimeStep baseStep operatorStep
      rw [if_neg (by omega), if_neg (by omega), if_pos hop.2, e3, hop.1, hop.2]
      simp only [Except.map, Except.bind, hfs, and_self, if_true]
    · obtain ⟨s, k, -, -, -, -, -, h⟩ := estimate_ok lobatto m hd o r hr hne hop
      exact ⟨_, h⟩

/-! ### Concrete meshes -/

/-- Nodes of the first orders on a segment of length two. -/
def demoLobatto : Nat → List ℝ
  | 0 => [1]
  | 1 => [0, 2]
  | _ => [0, 1, 2]

/-- A right triangle with sides 3, 4, 5. -/
def demoTriangle : Elem :=
  { shape := .triangle, volume := 6, size := 1
    edges := [(⟨0, 0, 0⟩, ⟨3, 0, 0⟩), (⟨3, 0, 0⟩, ⟨0, 4, 0⟩), (⟨0, 4, 0⟩, ⟨0, 0, 0⟩)], faces := [], nodes := [] }

theorem demo_border : border 2 demoTriangle = 12 := by
  have h3 : Real.sqrt 9 = 3 := by rw [show (9 : ℝ) = 3 ^ 2 by norm_num]; exact Real.sqrt_sq (by norm_num)
  have h4 : Real.sqrt 16 = 4 := by rw [show (16 : ℝ) = 4 ^ 2 by norm_num]; exact Real.sqrt_sq (by norm_num)
  have h5 : Real.sqrt 25 = 5 := by rw [show (25 : ℝ) = 5 ^ 2 by norm_num]; exact Real.sqrt_sq (by norm_num)
  unfold border
  simp only [demoTriangle, if_true, List.map_cons, List.map_nil, List.sum_cons, List.sum_nil, span]
  norm_num [h3, h4, h5]

/-- The hypotheses of `C12_elements` are met by that triangle at order one; its thickness is the radius of the inscribed
circle. -/
example : Known ⟨2, [demoTriangle], []⟩ ∧ Usable ⟨2, [demoTriangle], []⟩ ∧ FirstGap demoLobatto 1 2 ∧
    thickness 2 demoTriangle = 1 := by
  refine ⟨fun h => absurd h (by norm_num), ⟨by simp, ?_⟩, ⟨by norm_num, 0, 2, [], rfl, by norm_num⟩, ?_⟩
  · intro e he
    rw [List.mem_singleton.1 he]
    exact ⟨by norm_num [demoTriangle], by rw [demo_border]; norm_num⟩
  · unfold thickness; rw [demo_border]; norm_num [demoTriangle]

/-- The hypotheses of `C12_line` are met by an element with three nodes. -/
example : Usable1 ⟨1, [⟨.segment, 1, 1, [], [], [0, 1 / 2, 1]⟩], []⟩ ∧ Valid ⟨0, 2, 1, 0, .global, 2⟩ := by
  refine ⟨fun e he => ?_, by unfold Valid; norm_num⟩
  rw [List.mem_singleton.1 he]
  right; norm_num

/-- A unit cube seen by its faces satisfies the condition on the faces of hexahedra. -/
example : Parallelogram ⟨⟨0, 0, 0⟩, ⟨1, 0, 0⟩, ⟨1, 1, 0⟩, some ⟨0, 1, 0⟩⟩ ∧
    area ⟨⟨0, 0, 0⟩, ⟨1, 0, 0⟩, ⟨1, 1, 0⟩, some ⟨0, 1, 0⟩⟩ = 1 := by
  constructor
  · exact ⟨_, rfl, by norm_num, by norm_num, by norm_num⟩
  · unfold area triangle; norm_num

end

end Dgtd.TimeStep
