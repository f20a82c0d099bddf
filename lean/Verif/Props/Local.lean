/-
C133, C134: how far a signal gets in one step; walls.
-/
import Verif.Lemmas.OpLocal
import Verif.Props.Frame

set_option linter.unusedSectionVars false

namespace Dgtd.Local

open Op Op.Spec TimeInt TimeInt.Spec Implicit Frame

variable {ι : Type} {ε : Type} [Fintype ι] [DecidableEq ι]

/-! ### C133 -/

section
variable {K : Type} [Field K] [LinearOrder K] [IsStrictOrderedRing K]

/-- **C133**: the rate in an element depends only on the fields of that element and of the elements it touches through a face that
is not a wall. -/
theorem C133_operator (P : Prob ι K) (hn : ∀ f ∈ allFaces P, ∀ p ∈ f.pts, p.nor.length = P.dim) (el : ι → ε) (h : Elementwise P el)
    (a : ε) (u u' : State ι K) (hu : ∀ i, Within P el 1 a (el i) → ∀ f d, u f d i = u' f d i) (i : ι) (hi : el i = a) (f : FieldT)
    (d : Dir) : globalMult P u f d i = globalMult P u' f d i :=
  global_near hn h (fun j hj => hu j (by
    rcases hj with hj | hj
    · rw [hj]; exact Within.self 1 a
    · exact Or.inr ⟨_, hj, rfl⟩)) hi f d

end

/-- Vectors that agree on all the elements within `k` faces of `a`. -/
def AgreeIn (P : Prob ι ℝ) (el : ι → ε) (a : ε) (k : Nat) (x x' : Slot ι → ℝ) : Prop :=
  ∀ f d i, Within P el k a (el i) → x (f, d, i) = x' (f, d, i)

lemma AgreeIn.mono {P : Prob ι ℝ} {el : ι → ε} {a : ε} {k : Nat} {x x' : Slot ι → ℝ} (h : AgreeIn P el a (k + 1) x x') :
    AgreeIn P el a k x x' := fun f d i hi => h f d i (Within.mono hi)

lemma AgreeIn.add {P : Prob ι ℝ} {el : ι → ε} {a : ε} {k : Nat} {x x' y y' : Slot ι → ℝ} (h : AgreeIn P el a k x x')
    (g : AgreeIn P el a k y y') : AgreeIn P el a k (x + y) (x' + y') := fun f d i hi => by
  rw [Pi.add_apply, Pi.add_apply, h f d i hi, g f d i hi]

lemma AgreeIn.smul {P : Prob ι ℝ} {el : ι → ε} {a : ε} {k : Nat} {x x' : Slot ι → ℝ} (c : ℝ) (h : AgreeIn P el a k x x') :
    AgreeIn P el a k (c • x) (c • x') := fun f d i hi => by
  rw [Pi.smul_apply, Pi.smul_apply, h f d i hi]

lemma AgreeIn.apply {P : Prob ι ℝ} (hn : ∀ f ∈ allFaces P, ∀ p ∈ f.pts, p.nor.length = P.dim) {el : ι → ε} (h : Elementwise P el) {a : ε}
    {A : Matrix (Slot ι) (Slot ι) ℝ} (hA : ∀ u : State ι ℝ, A.mulVec (flat u) = flat (globalMult P u)) {k : Nat} {x x' : Slot ι → ℝ}
    (hx : AgreeIn P el a (k + 1) x x') : AgreeIn P el a k (A.mulVec x) (A.mulVec x') := by
  intro f d i hi
  have e : ∀ z : Slot ι → ℝ, A.mulVec z = flat (globalMult P (unflat z)) := fun z => by rw [← hA, flat_unflat]
  rw [e, e]
  refine global_near hn h (a := el i) (fun j hj => ?_) rfl f d
  intro g b
  refine hx g b j ?_
  rcases hj with hj | hj
  · rw [hj]; exact Within.mono hi
  · exact Within.step hi hj

lemma rk4_agree {P : Prob ι ℝ} (hn : ∀ f ∈ allFaces P, ∀ p ∈ f.pts, p.nor.length = P.dim) {el : ι → ε} (h : Elementwise P el) {a : ε}
    {A : Matrix (Slot ι) (Slot ι) ℝ} (hA : ∀ u : State ι ℝ, A.mulVec (flat u) = flat (globalMult P u)) {src src' : ℝ → Slot ι → ℝ}
    {k : Nat} (hs : ∀ t, AgreeIn P el a (k + 3) (src t) (src' t)) {x x' : Slot ι → ℝ} (hx : AgreeIn P el a (k + 4) x x') (t dt : ℝ) :
    AgreeIn P el a k (rk4 (globalTdo A src) x t dt).1 (rk4 (globalTdo A src') x' t dt).1 := by
  have m : ∀ {l : Nat} {z z' : Slot ι → ℝ} (τ : ℝ), AgreeIn P el a (l + 1) z z' → AgreeIn P el a l (src τ) (src' τ) →
      AgreeIn P el a l ((globalTdo A src).mult τ z) ((globalTdo A src').mult τ z') := fun τ hz hs => (hz.apply hn h hA).add hs
  have k1 := m (l := k + 3) t hx (hs t)
  have k2 := m (l := k + 2) (t + dt / 2) (hx.mono.add (k1.smul (dt / 2))) (hs _).mono
  have k3 := m (l := k + 1) (t + dt / 2) (hx.mono.mono.add (k2.smul (dt / 2))) (hs _).mono.mono
  have k4 := m (l := k) (t + dt) (hx.mono.mono.mono.add (k3.smul dt)) (hs _).mono.mono.mono
  exact (((hx.mono.mono.mono.mono.add (k1.mono.mono.mono.smul (dt / 6))).add (k2.mono.mono.smul (dt / 3))).add
    (k3.mono.smul (dt / 3))).add (k4.smul (dt / 6))

/-- **C133**: with the explicit integrator a signal crosses at most four faces per step: after any steps, the fields of an element
depend only on the initial fields and on the sources within four faces per step of it. -/
theorem C133_run (q : Sdirk ℝ) (P : Prob ι ℝ) (hn : ∀ f ∈ allFaces P, ∀ p ∈ f.pts, p.nor.length = P.dim) (el : ι → ε)
    (h : Elementwise P el) (A : Matrix (Slot ι) (Slot ι) ℝ) (hA : ∀ u : State ι ℝ, A.mulVec (flat u) = flat (globalMult P u))
    (src src' : ℝ → State ι ℝ) (dts : List ℝ) (a : ε)
    (hs : ∀ t f d i, Within P el (4 * dts.length) a (el i) → src t f d i = src' t f d i)
    (u u' : State ι ℝ) (hu : ∀ f d i, Within P el (4 * dts.length) a (el i) → u f d i = u' f d i) (t : ℝ) :
    ∃ y y' c c', run q .rk4 (globalTdo A fun t => flat (src t)) dts (flat u) t fresh = some (flat y, t + dts.sum, c) ∧
      run q .rk4 (globalTdo A fun t => flat (src' t)) dts (flat u') t fresh = some (flat y', t + dts.sum, c') ∧
      ∀ f d i, el i = a → y f d i = y' f d i := by
  have gen : ∀ (dts : List ℝ) (x x' : Slot ι → ℝ) (t : ℝ) (c c' : Cache ℝ (Slot ι)),
      (∀ t, AgreeIn P el a (4 * dts.length) (flat (src t)) (flat (src' t))) → AgreeIn P el a (4 * dts.length) x x' →
      ∃ y y', run q .rk4 (globalTdo A fun t => flat (src t)) dts x t c = some (y, t + dts.sum, c) ∧
        run q .rk4 (globalTdo A fun t => flat (src' t)) dts x' t c' = some (y', t + dts.sum, c') ∧ AgreeIn P el a 0 y y' := by
    intro dts
    induction dts with
    | nil => intro x x' t c c' _ hx; exact ⟨x, x', by simp [run], by simp [run], hx⟩
    | cons dt rest ih =>
      intro x x' t c c' hs hx
      rw [List.length_cons, show 4 * (rest.length + 1) = 4 * rest.length + 4 by ring] at hs hx
      have k := rk4_agree hn h hA (fun t => (hs t).mono) hx t dt
      obtain ⟨y, y', e, e', hy⟩ := ih _ _ (t + dt) c c' (fun t => (hs t).mono.mono.mono.mono) k
      refine ⟨y, y', ?_, ?_, hy⟩
      · simp only [run, step, Option.bind_eq_bind, Option.bind_some, List.sum_cons, ← add_assoc]
        exact e
      · simp only [run, step, Option.bind_eq_bind, Option.bind_some, List.sum_cons, ← add_assoc]
        exact e'
  obtain ⟨y, y', e, e', hy⟩ := gen dts (flat u) (flat u') t fresh fresh (fun t f d i hi => hs t f d i hi) (fun f d i hi => hu f d i hi)
  exact ⟨unflat y, unflat y', fresh, fresh, e, e', fun f d i hi => hy f d i hi.symm⟩

/-! ### C134 -/

section
variable {K : Type} [Field K] [LinearOrder K] [IsStrictOrderedRing K]

/-- **C134**: walls separate: the rate in one part of the mesh is that of this part alone. -/
theorem C134_operator (P : Prob ι K) (hn : ∀ f ∈ allFaces P, ∀ p ∈ f.pts, p.nor.length = P.dim) (el : ι → ε) (h : Elementwise P el)
    (col : ε → Bool) (hw : Walled P el col) (b : Bool) (u : State ι K) :
    globalMult P (part el col b u) = part el col b (globalMult P u) := by
  funext f d i
  have hnear : ∀ j, (el j = el i ∨ Touch P el (el i) (el j)) → col (el j) = col (el i) := by
    intro j hj
    rcases hj with hj | hj
    · rw [hj]
    · exact (hw _ _ hj).symm
  show _ = if col (el i) = b then globalMult P u f d i else 0
  split_ifs with hb
  · refine global_near hn h (a := el i) (fun j hj => ?_) rfl f d
    intro g k
    show (if col (el j) = b then u g k j else 0) = _
    rw [if_pos (by rw [hnear j hj, hb])]
  · have h0 : globalMult P (0 : State ι K) f d i = 0 := by
      have := globalMult_lin P 0 0 (0 : State ι K) 0
      simp only [zero_smul, add_zero] at this
      rw [this]
      rfl
    rw [← h0]
    refine global_near hn h (a := el i) (fun j hj => ?_) rfl f d
    intro g k
    show (if col (el j) = b then u g k j else 0) = 0
    rw [if_neg (by rw [hnear j hj]; exact hb)]

end

/-- Restriction to a part as a linear map. -/
noncomputable def partL (el : ι → ε) (col : ε → Bool) (b : Bool) : (Slot ι → ℝ) →ₗ[ℝ] (Slot ι → ℝ) where
  toFun x := flat (part el col b (unflat x))
  map_add' x y := by
    funext ⟨f, d, i⟩
    show (if col (el i) = b then x (f, d, i) + y (f, d, i) else 0) =
      (if col (el i) = b then x (f, d, i) else 0) + (if col (el i) = b then y (f, d, i) else 0)
    split_ifs <;> simp
  map_smul' c x := by
    funext ⟨f, d, i⟩
    show (if col (el i) = b then c * x (f, d, i) else 0) = c * (if col (el i) = b then x (f, d, i) else 0)
    split_ifs <;> simp

/-- **C134**: with every integrator, any steps and any sources, what happens on one side of closed walls has no effect on the other
side: the fields of a part are those of a run with nothing in the other part. -/
theorem C134_run (q : Sdirk ℝ) (hq : Ideal33 q) (P : Prob ι ℝ) (M : FieldT → Matrix ι ι ℝ) (hP : Passive P M)
    (A : Matrix (Slot ι) (Slot ι) ℝ) (hA : ∀ u : State ι ℝ, A.mulVec (flat u) = flat (globalMult P u)) (el : ι → ε)
    (h : Elementwise P el) (col : ε → Bool) (hw : Walled P el col) (b : Bool) (src : ℝ → State ι ℝ) (o : Ode) (dts : List ℝ)
    (hdts : ∀ dt ∈ dts, 0 ≤ dt) (u : State ι ℝ) (t : ℝ) :
    ∃ y c c', run q o (globalTdo A fun t => flat (src t)) dts (flat u) t fresh = some (flat y, t + dts.sum, c) ∧
      run q o (globalTdo A fun t => flat (part el col b (src t))) dts (flat (part el col b u)) t fresh =
        some (flat (part el col b y), t + dts.sum, c') :=
  run_images hq hP hP hA hA (L := partL el col b)
    (by
      intro u
      show flat (part el col b (globalMult P u)) = flat (globalMult P (part el col b u))
      rw [C134_operator P (fun f hf p hp => (hP.good.pts f hf p hp).size) el h col hw])
    (fun _ => rfl) o dts hdts u t

/-- **C134**: two runs that differ only behind the walls are equal on this side. -/
theorem C134_shielded (q : Sdirk ℝ) (hq : Ideal33 q) (P : Prob ι ℝ) (M : FieldT → Matrix ι ι ℝ) (hP : Passive P M)
    (A : Matrix (Slot ι) (Slot ι) ℝ) (hA : ∀ u : State ι ℝ, A.mulVec (flat u) = flat (globalMult P u)) (el : ι → ε)
    (h : Elementwise P el) (col : ε → Bool) (hw : Walled P el col) (b : Bool) (src src' : ℝ → State ι ℝ)
    (hs : ∀ t f d i, col (el i) = b → src t f d i = src' t f d i) (o : Ode) (dts : List ℝ) (hdts : ∀ dt ∈ dts, 0 ≤ dt)
    (u u' : State ι ℝ) (hu : ∀ f d i, col (el i) = b → u f d i = u' f d i) (t : ℝ) :
    ∃ y y' c c', run q o (globalTdo A fun t => flat (src t)) dts (flat u) t fresh = some (flat y, t + dts.sum, c) ∧
      run q o (globalTdo A fun t => flat (src' t)) dts (flat u') t fresh = some (flat y', t + dts.sum, c') ∧
      ∀ f d i, col (el i) = b → y f d i = y' f d i := by
  obtain ⟨y, c, c1, e, e1⟩ := C134_run q hq P M hP A hA el h col hw b src o dts hdts u t
  obtain ⟨y', c', c2, e', e2⟩ := C134_run q hq P M hP A hA el h col hw b src' o dts hdts u' t
  refine ⟨y, y', c, c', e, e', ?_⟩
  have p : ∀ v v' : State ι ℝ, (∀ f d i, col (el i) = b → v f d i = v' f d i) → part el col b v = part el col b v' := by
    intro v v' hv
    funext f d i
    unfold part
    split_ifs with hb
    · exact hv f d i hb
    · rfl
  rw [p u u' hu, show (fun t => flat (part el col b (src t))) = fun t => flat (part el col b (src' t)) from
    funext fun t => by rw [p _ _ (hs t)], e2] at e1
  have := congrArg Prod.fst (Option.some.inj e1)
  intro f d i hb
  have := congrFun this (f, d, i)
  simp only [flat, part, hb, if_true] at this
  exact this.symm

/-! ### the line -/

/-- The two elements of the line. -/
def lineEl (i : Fin 4) : Bool := decide (2 ≤ i.val)

lemma line_elementwise {K : Type} [Field K] [LinearOrder K] [IsStrictOrderedRing K] (alpha : K) (mid : Option BdrCond)
    (left right : BdrCond) : Elementwise (line K alpha mid left right) lineEl := by
  refine ⟨?_, fun _ _ _ => rfl, ?_, ?_, ?_, ?_⟩
  · intro f r c
    fin_cases r <;> fin_cases c <;> simp [lineEl, line, lineMinv]
  · intro d r c
    fin_cases r <;> fin_cases c <;> simp [lineEl, line, lineD]
  · intro F hF i j hi hj
    simp only [allFaces, line, List.map_cons, List.map_nil, List.cons_append, List.nil_append, List.mem_cons, List.not_mem_nil,
      or_false] at hF
    rcases hF with rfl | rfl | rfl <;> simp only [lineInt, lineL, lineR] at hi hj ⊢ <;> interval_cases i <;> interval_cases j <;> rfl
  · intro F hF i j hi hj
    simp only [allFaces, line, List.map_cons, List.map_nil, List.cons_append, List.nil_append, List.mem_cons, List.not_mem_nil,
      or_false] at hF
    rcases hF with rfl | rfl | rfl <;> simp only [lineInt, lineL, lineR] at hi hj ⊢ <;>
      first | omega | (interval_cases i <;> interval_cases j <;> rfl)
  · intro q hq
    simp only [line, List.mem_cons, List.not_mem_nil, or_false] at hq
    rcases hq with rfl | rfl <;> rfl

/-- With a wall between its elements the line falls into two parts. -/
lemma line_walled {K : Type} [Field K] [LinearOrder K] [IsStrictOrderedRing K] (alpha : K) (c left right : BdrCond) :
    Walled (line K alpha (some c) left right) lineEl id := by
  rintro a b ⟨q, hq, hn, -⟩
  simp only [line, List.mem_cons, List.not_mem_nil, or_false] at hq
  subst hq
  simp at hn

/-- Without the wall the elements touch, and the second acts on the first. -/
example : Touch (line ℚ 1 none .PEC .SMA) lineEl false true ∧ globalMult (line ℚ 1 none .PEC .SMA) (part lineEl id true lineU) .H 2 1 ≠ 0 :=
  ⟨⟨_, List.mem_cons_self, rfl, 0, 2, by decide, by decide, by decide, by decide⟩, by decide +kernel⟩

/-- With it the first element is shielded, though its own fields change. -/
example : globalMult (line ℚ 1 (some .PEC) .PEC .SMA) (part lineEl id true lineU) .H 2 1 = 0 ∧
    globalMult (line ℚ 1 (some .PEC) .PEC .SMA) (part lineEl id false lineU) .H 2 1 ≠ 0 := by
  constructor <;> decide +kernel

example (q : Sdirk ℝ) (hq : Ideal33 q) (A : Matrix (Slot (Fin 4)) (Slot (Fin 4)) ℝ)
    (hA : ∀ u : State (Fin 4) ℝ, A.mulVec (flat u) = flat (globalMult (line ℝ 1 (some .PEC) .PEC .SMA) u))
    (src : ℝ → State (Fin 4) ℝ) (u : State (Fin 4) ℝ) (o : Ode) :
    ∃ y c c', run q o (globalTdo A fun t => flat (src t)) [1, 2] (flat u) 0 fresh = some (flat y, 0 + [1, 2].sum, c) ∧
      run q o (globalTdo A fun t => flat (part lineEl id false (src t))) [1, 2] (flat (part lineEl id false u)) 0 fresh =
        some (flat (part lineEl id false y), 0 + [1, 2].sum, c') :=
  C134_run q hq _ _ (line_passive 1 (by norm_num) (some .PEC) (by simp) _ _) A hA lineEl (line_elementwise _ _ _ _) id
    (line_walled 1 .PEC .PEC .SMA) false src o _ (by
      intro dt h
      simp only [List.mem_cons, List.not_mem_nil, or_false] at h
      rcases h with rfl | rfl <;> norm_num) u 0

/-! ### a long line of constant elements -/

/-- The face between the elements `k` and `k + 1`. -/
noncomputable def chainFace (n k : Nat) : Face (Fin (n + 1)) ℝ :=
  { ndof1 := 1, ndof2 := 1, dofs := fun i => Fin.ofNat (n + 1) (k + i), pts := [linePt ℝ 1 1 0 1 0] }

/-- `n + 1` elements with one unknown each. -/
noncomputable def chain (n : Nat) : Prob (Fin (n + 1)) ℝ :=
  { dim := 1, alpha := 1, interior := (List.range n).map fun k => (none, chainFace n k), bdr := [], Minv := fun _ => 1, Msig := 0, D := fun _ => 0 }

lemma chain_elementwise (n : Nat) : Elementwise (chain n) id := by
  refine ⟨fun f r c h => Matrix.one_apply_ne h, fun _ _ _ => rfl, fun _ _ _ _ => rfl, ?_, ?_, by simp [chain]⟩
  · intro F hF i j hi hj
    simp only [allFaces, chain, List.map_map, List.map_nil, List.append_nil, List.mem_map] at hF
    obtain ⟨k, -, rfl⟩ := hF
    simp only [chainFace, Function.comp, Nat.lt_one_iff] at hi hj ⊢
    rw [hi, hj]
  · intro F hF i j hi hj
    simp only [allFaces, chain, List.map_map, List.map_nil, List.append_nil, List.mem_map] at hF
    obtain ⟨k, -, rfl⟩ := hF
    simp only [chainFace, Function.comp, Nat.lt_one_iff] at hi hj ⊢
    rw [hi, hj]

lemma chain_touch {n : Nat} {a b : Fin (n + 1)} (h : Touch (chain n) id a b) : b.val ≤ a.val + 1 := by
  obtain ⟨q, hq, -, i, j, hi, hj, ha, hb⟩ := h
  simp only [chain, List.mem_map, List.mem_range] at hq
  obtain ⟨k, hk, rfl⟩ := hq
  simp only [chainFace, id] at hi hj ha hb
  rw [← ha, ← hb]
  simp only [Fin.ofNat]
  rw [Nat.mod_eq_of_lt (by omega), Nat.mod_eq_of_lt (by omega)]
  omega

lemma chain_within {n : Nat} : ∀ (k : Nat) {a b : Fin (n + 1)}, Within (chain n) id k a b → b.val ≤ a.val + k := by
  intro k
  induction k with
  | zero =>
    intro a b h
    cases h
    omega
  | succ k ih =>
    intro a b h
    rcases h with h | ⟨c, hc, h⟩
    · have := ih h
      omega
    · have := ih h
      have := chain_touch hc
      omega

/-- After `m` steps the first element knows nothing of what was beyond element `4 m` of the line. -/
example (q : Sdirk ℝ) (n : Nat) (A : Matrix (Slot (Fin (n + 1))) (Slot (Fin (n + 1))) ℝ)
    (hA : ∀ u, A.mulVec (flat u) = flat (globalMult (chain n) u)) (dts : List ℝ) (u u' : State (Fin (n + 1)) ℝ)
    (hu : ∀ f d i, i.val ≤ 4 * dts.length → u f d i = u' f d i) :
    ∃ y y' c c', run q .rk4 (globalTdo A fun _ => flat 0) dts (flat u) 0 fresh = some (flat y, 0 + dts.sum, c) ∧
      run q .rk4 (globalTdo A fun _ => flat 0) dts (flat u') 0 fresh = some (flat y', 0 + dts.sum, c') ∧
      ∀ f d i, id i = (0 : Fin (n + 1)) → y f d i = y' f d i :=
  C133_run q (chain n) (by
      intro F hF p hp
      simp only [allFaces, chain, List.map_map, List.map_nil, List.append_nil, List.mem_map] at hF
      obtain ⟨k, -, rfl⟩ := hF
      simp only [chainFace, Function.comp, List.mem_singleton] at hp
      subst hp
      rfl) id (chain_elementwise n) A hA (fun _ => 0) (fun _ => 0) dts 0 (fun _ _ _ _ _ => rfl) u u'
    (fun f d i hi => hu f d i (by have := chain_within _ hi; simpa using this)) 0

end Dgtd.Local
