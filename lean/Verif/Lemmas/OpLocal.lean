/-
Which values a row of the global operator reads.
-/
import Verif.Lemmas.OpFrame
import Verif.Spec.OpLocal

set_option linter.unusedSectionVars false

namespace Dgtd.Op

open Spec

variable {ι K ε : Type} [Fintype ι] [DecidableEq ι] [Field K] [LinearOrder K] [IsStrictOrderedRing K]

lemma first_congr {F : Face ι K} {p : Pt K} {x y : ι → K} (h : ∀ i, i < F.ndof1 → x (F.dofs i) = y (F.dofs i)) : tr1 F p x = tr1 F p y :=
  Finset.sum_congr rfl fun i hi => by rw [h i (Finset.mem_range.1 hi)]

lemma second_congr {F : Face ι K} {p : Pt K} {x y : ι → K} (h : ∀ i, i < F.ndof2 → x (F.dofs (F.ndof1 + i)) = y (F.dofs (F.ndof1 + i))) :
    tr2 F p x = tr2 F p y :=
  Finset.sum_congr rfl fun i hi => by rw [h i (Finset.mem_range.1 hi)]

lemma first_zero {F : Face ι K} {p : Pt K} {x : ι → K} (h : ∀ i, i < F.ndof1 → x (F.dofs i) = 0) : tr1 F p x = 0 :=
  Finset.sum_eq_zero fun i hi => by rw [h i (Finset.mem_range.1 hi), mul_zero]

lemma second_zero {F : Face ι K} {p : Pt K} {x : ι → K} (h : ∀ i, i < F.ndof2 → x (F.dofs (F.ndof1 + i)) = 0) : tr2 F p x = 0 :=
  Finset.sum_eq_zero fun i hi => by rw [h i (Finset.mem_range.1 hi), mul_zero]

/-- Fields that agree at an unknown. -/
def AgreeAt (u u' : State ι K) (i : ι) : Prop := ∀ f d, u f d i = u' f d i

lemma plainTerm_agree {u u' : State ι K} {F : Face ι K} {v : ι → K}
    (h : (∀ i, i < F.ndof1 + F.ndof2 → v (F.dofs i) = 0) ∨ (∀ i, i < F.ndof1 + F.ndof2 → AgreeAt u u' (F.dofs i)))
    (f : FieldT) (d : Dir) (bf bp : K) : plainTerm u f d bf bp F v = plainTerm u' f d bf bp F v := by
  unfold plainTerm
  congr 1
  refine List.map_congr_left fun p _ => ?_
  rcases h with h | h
  · rw [first_zero fun i hi => h i (by omega), second_zero fun i hi => h _ (by omega)]
    simp [plainPt]
  · have h1 : ∀ g k, tr1 F p (u g k) = tr1 F p (u' g k) := fun g k => first_congr fun i hi => h i (by omega) g k
    have h2 : ∀ g k, tr2 F p (u g k) = tr2 F p (u' g k) := fun g k => second_congr fun i hi => h _ (by omega) g k
    simp only [h1, h2]

lemma wallTerm_agree {u u' : State ι K} {F : Face ι K} {v : ι → K}
    (h1 : (∀ i, i < F.ndof1 → v (F.dofs i) = 0) ∨ (∀ i, i < F.ndof1 → AgreeAt u u' (F.dofs i)))
    (h2 : (∀ i, i < F.ndof2 → v (F.dofs (F.ndof1 + i)) = 0) ∨ (∀ i, i < F.ndof2 → AgreeAt u u' (F.dofs (F.ndof1 + i))))
    (f : FieldT) (d : Dir) (bf bp : K) : wallTerm u f d bf bp F v = wallTerm u' f d bf bp F v := by
  unfold wallTerm
  congr 1
  refine List.map_congr_left fun p _ => ?_
  have e : ∀ (a1 a2 b1 b2 : Dir → K) (v1 v2 : K), wallPt (sgn f) bf bp p a1 a2 b1 b2 v1 v2 d =
      p.w / 2 * ((sgn f * bf * crossT (normalTerm p.nor) a1 d - bp * pen (normalTerm p.nor) p.W b1 d) * v1) +
      p.w / 2 * ((-(sgn f * bf * crossT (normalTerm p.nor) a2 d) - bp * pen (normalTerm p.nor) p.W b2 d) * v2) := by
    intro a1 a2 b1 b2 v1 v2
    unfold wallPt
    ring
  rw [e, e]
  congr 1
  · rcases h1 with h | h
    · rw [first_zero h]
      simp
    · have h1 : ∀ g k, tr1 F p (u g k) = tr1 F p (u' g k) := fun g k => first_congr fun i hi => h i hi g k
      simp only [h1]
  · rcases h2 with h | h
    · rw [second_zero h]
      simp
    · have h2 : ∀ g k, tr2 F p (u g k) = tr2 F p (u' g k) := fun g k => second_congr fun i hi => h i hi g k
      simp only [h2]

lemma form_agree {A : Matrix ι ι K} {v x y : ι → K} (h : ∀ r c, v r ≠ 0 → A r c ≠ 0 → x c = y c) : form A v x = form A v y := by
  rw [form_eq, form_eq]
  refine Finset.sum_congr rfl fun r _ => Finset.sum_congr rfl fun c _ => ?_
  by_cases hv : v r = 0
  · rw [hv, zero_mul, zero_mul, zero_mul]
  · by_cases hA : A r c = 0
    · rw [hA, mul_zero, zero_mul, zero_mul]
    · rw [h r c hv hA]

lemma weak_agree {P : Prob ι K} {u u' : State ι K} {v : ι → K}
    (hD : ∀ d r c, v r ≠ 0 → P.D d r c ≠ 0 → AgreeAt u u' c) (hS : ∀ r c, v r ≠ 0 → P.Msig r c ≠ 0 → AgreeAt u u' c)
    (hplain : ∀ q ∈ P.interior, q.1 = none → (∀ i, i < q.2.ndof1 + q.2.ndof2 → v (q.2.dofs i) = 0) ∨
      (∀ i, i < q.2.ndof1 + q.2.ndof2 → AgreeAt u u' (q.2.dofs i)))
    (hwall1 : ∀ q ∈ P.interior, (∀ i, i < q.2.ndof1 → v (q.2.dofs i) = 0) ∨ (∀ i, i < q.2.ndof1 → AgreeAt u u' (q.2.dofs i)))
    (hwall2 : ∀ q ∈ P.interior, (∀ i, i < q.2.ndof2 → v (q.2.dofs (q.2.ndof1 + i)) = 0) ∨
      (∀ i, i < q.2.ndof2 → AgreeAt u u' (q.2.dofs (q.2.ndof1 + i))))
    (hbdr : ∀ q ∈ P.bdr, (∀ i, i < q.2.ndof1 + q.2.ndof2 → v (q.2.dofs i) = 0) ∨
      (∀ i, i < q.2.ndof1 + q.2.ndof2 → AgreeAt u u' (q.2.dofs i))) (f : FieldT) (d : Dir) : weak P u f d v = weak P u' f d v := by
  rw [weak_faces, weak_faces]
  have hDD : ∀ a b g, form (derivativeSub P a) v (u g b) = form (derivativeSub P a) v (u' g b) := by
    intro a b g
    unfold derivativeSub
    split_ifs with ha
    · simp [form]
    · exact form_agree fun r c hv hA => hD a r c hv hA g b
  congr 1
  · congr 1
    · congr 1
      · unfold curlTerm
        rw [hDD, hDD]
      · congr 1
        refine List.map_congr_left fun q hq => ?_
        obtain ⟨o, F⟩ := q
        cases o with
        | none => exact plainTerm_agree (hplain _ hq rfl) f d _ _
        | some c =>
          cases c with
          | SGBC => rfl
          | PEC => exact wallTerm_agree (hwall1 _ hq) (hwall2 _ hq) f d _ _
          | PMC => exact wallTerm_agree (hwall1 _ hq) (hwall2 _ hq) f d _ _
          | SMA => exact wallTerm_agree (hwall1 _ hq) (hwall2 _ hq) f d _ _
    · congr 1
      refine List.map_congr_left fun q hq => ?_
      obtain ⟨o, F⟩ := q
      cases o with
      | none => rfl
      | some c => exact plainTerm_agree (hbdr _ hq) f d _ _
  · cases f with
    | E => exact form_agree fun r c hv hA => hS r c hv hA .E d
    | H => rfl

/-- A row of an element reads the values of that element and of those it touches. -/
lemma weak_near {P : Prob ι K} {el : ι → ε} (h : Elementwise P el) {a : ε} {u u' : State ι K}
    (hu : ∀ i, (el i = a ∨ Touch P el a (el i)) → AgreeAt u u' i) {c : ι} (hc : el c = a) (f : FieldT) (d : Dir) :
    weak P u f d (Pi.single c 1) = weak P u' f d (Pi.single c 1) := by
  have hv : ∀ r : ι, (Pi.single c 1 : ι → K) r ≠ 0 → r = c := by
    intro r hr
    by_contra hne
    exact hr (Pi.single_eq_of_ne hne _)
  have hz : ∀ r : ι, r ≠ c → (Pi.single c 1 : ι → K) r = 0 := fun r hr => Pi.single_eq_of_ne hr _
  have int : ∀ q ∈ P.interior, q.2 ∈ allFaces P := fun q hq => List.mem_append_left _ (List.mem_map_of_mem hq)
  have ext : ∀ q ∈ P.bdr, q.2 ∈ allFaces P := fun q hq => List.mem_append_right _ (List.mem_map_of_mem hq)
  refine weak_agree ?_ ?_ ?_ ?_ ?_ ?_ f d
  · intro d r k hr hk
    obtain rfl := hv r hr
    refine hu k (Or.inl ?_)
    by_contra hne
    exact hk (h.deriv d r k fun e => hne (e ▸ hc))
  · intro r k hr hk
    obtain rfl := hv r hr
    refine hu k (Or.inl ?_)
    by_contra hne
    exact hk (h.msig r k fun e => hne (e ▸ hc))
  · intro q hq hn
    by_cases hx : ∃ i, i < q.2.ndof1 + q.2.ndof2 ∧ q.2.dofs i = c
    · obtain ⟨i, hi, hi'⟩ := hx
      refine Or.inr fun j hj => hu _ (Or.inr ⟨q, hq, hn, i, j, hi, hj, ?_, rfl⟩)
      rw [hi', hc]
    · push Not at hx
      exact Or.inl fun i hi => hz _ (hx i hi)
  · intro q hq
    by_cases hx : ∃ i, i < q.2.ndof1 ∧ q.2.dofs i = c
    · obtain ⟨i, hi, hi'⟩ := hx
      refine Or.inr fun j hj => hu _ (Or.inl ?_)
      rw [h.side1 _ (int q hq) j i hj hi, hi', hc]
    · push Not at hx
      exact Or.inl fun i hi => hz _ (hx i hi)
  · intro q hq
    by_cases hx : ∃ i, i < q.2.ndof2 ∧ q.2.dofs (q.2.ndof1 + i) = c
    · obtain ⟨i, hi, hi'⟩ := hx
      refine Or.inr fun j hj => hu _ (Or.inl ?_)
      rw [h.side2 _ (int q hq) j i hj hi, hi', hc]
    · push Not at hx
      exact Or.inl fun i hi => hz _ (hx i hi)
  · intro q hq
    have h0 := h.bdr q hq
    by_cases hx : ∃ i, i < q.2.ndof1 ∧ q.2.dofs i = c
    · obtain ⟨i, hi, hi'⟩ := hx
      refine Or.inr fun j hj => hu _ (Or.inl ?_)
      rw [h.side1 _ (ext q hq) j i (by omega) hi, hi', hc]
    · push Not at hx
      exact Or.inl fun i hi => hz _ (hx i (by omega))

lemma global_near {P : Prob ι K} (hn : ∀ f ∈ allFaces P, ∀ p ∈ f.pts, p.nor.length = P.dim) {el : ι → ε} (h : Elementwise P el)
    {a : ε} {u u' : State ι K} (hu : ∀ i, (el i = a ∨ Touch P el a (el i)) → AgreeAt u u' i) {i : ι} (hi : el i = a) :
    AgreeAt (globalMult P u) (globalMult P u') i := by
  intro f d
  rw [global_weak P hn, global_weak P hn]
  refine Finset.sum_congr rfl fun c _ => ?_
  by_cases hc : el c = a
  · rw [weak_near h hu hc]
  · rw [h.minv f i c fun e => hc (e ▸ hi), zero_mul, zero_mul]

lemma Within.mono {P : Prob ι K} {el : ι → ε} {k : Nat} {a b : ε} (h : Within P el k a b) : Within P el (k + 1) a b := Or.inl h

lemma Within.self {P : Prob ι K} {el : ι → ε} (k : Nat) (a : ε) : Within P el k a a := by
  induction k with
  | zero => rfl
  | succ k ih => exact Or.inl ih

/-- One more face at the far end. -/
lemma Within.step {P : Prob ι K} {el : ι → ε} {k : Nat} : ∀ {a b c : ε}, Within P el k a b → Touch P el b c → Within P el (k + 1) a c := by
  induction k with
  | zero =>
    intro a b c h t
    cases h
    exact Or.inr ⟨c, t, rfl⟩
  | succ k ih =>
    intro a b c h t
    rcases h with h | ⟨x, hx, h⟩
    · exact Or.inl (ih h t)
    · exact Or.inr ⟨x, hx, ih h t⟩

end Dgtd.Op
