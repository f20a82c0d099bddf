/-
C162: a case that meets the hypotheses: the fundamental mode of a square cavity with perfectly conducting walls, on two triangles.
-/
import Verif.Props.NodalFemMesh

set_option linter.unusedSimpArgs false

namespace Dgtd.NodalFem.Case
open MvPolynomial Dgtd.NodalFem.Spec Dgtd.Galerkin Dgtd.Galerkin.Spec
open Dgtd.Galerkin.Case (linear linear_degree linear_span eight eight_exact midpoints midpoints_exact bary1 finRange2 vacuum)
open Dgtd.Op (BdrCond FieldT Pt State globalMult)
open Dgtd.Nodal (Ref BdrMaps emat values Vec)
open Dgtd.Nodal.Spec (Inner Outer posOf num CondsOk faceMass listed)
open Dgtd.Implicit Dgtd.TimeInt

/-! ### the reference triangle -/

def side : Option (Fin 2) ≃ Fin 3 := (finSuccEquiv 2).symm

def around : Option (Fin 2) → Equiv.Perm (Fin 2)
  | none => 1
  | some _ => Equiv.swap 0 1

noncomputable abbrev tri : Ref ℝ where
  geom := .triangle
  dim := 2
  n := 3
  nF := 3
  nf := 2
  inv := fun i j => if i = j then 9 / 2 else -(3 / 2)
  faces := fun f => ⟨3, 0, fun _ => (), eight.map fun q =>
    ⟨q.1, 1, [], fun i => eval q.2 (bind₁ (loc (side.symm (Fin.ofNat 3 f)) (around (side.symm (Fin.ofNat 3 f)))) (linear 1 i)), fun _ => 0⟩⟩

def ends : Fin 3 → Fin 2 → Fin 3 := ![![1, 2], ![0, 2], ![0, 1]]

noncomputable def corner (i : Fin 3) : Fin 2 → ℝ := corner3 lower i

lemma side_none : side none = 0 := rfl
lemma side_0 : side (some 0) = 1 := rfl
lemma side_1 : side (some 1) = 2 := rfl

lemma face_cases (f : Option (Fin 2)) : f = none ∨ f = some 0 ∨ f = some 1 := by
  rcases f with _ | k
  · simp
  · fin_cases k <;> simp

lemma masses (i j : Nat) : integral (1 + 1) (linear 1 i * linear 1 j) = (midpoints.map fun q => q.1 * eval q.2 (linear 1 i * linear 1 j)).sum :=
  (midpoints_exact _ ((totalDegree_mul _ _).trans (Nat.add_le_add (linear_degree 1 i) (linear_degree 1 j)))).symm

lemma tri_faces (f : Fin 3) : tri.faces f = ⟨3, 0, fun _ => (), eight.map fun q =>
    ⟨q.1, 1, [], fun i => eval q.2 (bind₁ (loc (side.symm f) (around (side.symm f))) (linear 1 i)), fun _ => 0⟩⟩ := by
  have : Fin.ofNat 3 f.val = f := by fin_cases f <;> rfl
  simp only [tri, this]

lemma tri_shapes : Shapes tri 4 1 (linear 1) corner side ends := by
  obtain ⟨b0, b1⟩ := bary1
  refine ⟨rfl, Or.inl ⟨rfl, rfl⟩, rfl, ?_, linear_degree 1, ?_, ?_, ?_, ?_, ?_, ?_, ?_⟩
  · intro i j
    simp only [masses]
    fin_cases i <;> fin_cases j <;>
      simp [Fin.sum_univ_three, midpoints, linear, Fin.sum_univ_two] <;> norm_num
  · intro i j
    fin_cases i <;> fin_cases j <;> simp [corner, corner3, linear, Fin.sum_univ_two]
  · intro q hq
    obtain ⟨a, ha⟩ := linear_span q hq
    exact ⟨fun i => a i, by rw [ha, ← Fin.sum_univ_eq_sum_range (fun i => C (a i) * linear 1 i)]⟩
  · intro f
    fin_cases f <;> exact Fin.strictMono_iff_lt_succ.2 (by decide)
  · intro face k
    rcases face_cases face with rfl | rfl | rfl <;> fin_cases k <;>
      simp [OnFace, side_none, side_0, side_1, ends, corner, corner3, Fin.sum_univ_two]
  · intro face i hi x hx
    rcases face_cases face with rfl | rfl | rfl
    · have : i = 0 := by
        have h0 := hi 0; have h1 := hi 1
        fin_cases i <;> simp_all [side_none, ends]
      subst this
      have hx : x 0 + x 1 = 1 := by simpa [OnFace, Fin.sum_univ_two] using hx
      simp [linear, Fin.sum_univ_two]; linarith
    · have : i = 1 := by
        have h0 := hi 0; have h1 := hi 1
        fin_cases i <;> simp_all [side_0, ends]
      subst this
      simpa [linear, OnFace] using hx
    · have : i = 2 := by
        have h0 := hi 0; have h1 := hi 1
        fin_cases i <;> simp_all [side_1, ends]
      subst this
      simpa [linear, OnFace] using hx
  · intro face
    rw [tri_faces]
    refine ⟨rfl, rfl, around face, eight, fun q hq => eight_exact q (hq.trans (by norm_num)), ?_⟩
    simp [List.map_map, Function.comp_def]
  · intro f k
    refine ⟨ends f k, ?_⟩
    rw [tri_faces]
    have e0 : side.symm 0 = none := rfl
    have e1 : side.symm 1 = some 0 := rfl
    have e2 : side.symm 2 = some 1 := rfl
    fin_cases f <;> fin_cases k <;>
      simp [e0, e1, e2, faceMass, eight, ends, linear, loc, around, b0, b1, Fin.sum_univ_two] <;> norm_num

/-! ### the two triangles -/

noncomputable def cell : Fin 2 → Cell 1 (Fin 2 × Fin 3) := ![⟨lower, 1, midpoints, midpoints⟩, ⟨upper, 3, midpoints, midpoints⟩]

noncomputable def edge (e : Fin 2) (f : Fin 3) : Side 1 (Fin 2 × Fin 3) ℝ := ⟨(cell e).e, side.symm f, around (side.symm f)⟩

noncomputable def elem (e : Nat) : Dgtd.Nodal.Elem ℝ where
  vol := integral 2 (cell (Fin.ofNat 2 e)).e.jac.det
  J := eval 0 (cell (Fin.ofNat 2 e)).e.jac.det
  D := fun d i j => if h : d.val < 2 then derivElem midpoints (cell (Fin.ofNat 2 e)).e ⟨d.val, h⟩ i j else 0
  sJ := fun f => √(((normal (edge (Fin.ofNat 2 e) (Fin.ofNat 3 f))).map fun c => eval 0 c ^ 2).sum)
  nor := fun f d => Dgtd.Op.normalTerm ((normal (edge (Fin.ofNat 2 e) (Fin.ofNat 3 f))).map fun c => eval 0 c) d

lemma elements : Elements tri (linear 1) side cavity cell elem := by
  obtain ⟨b0, b1⟩ := bary1
  have two : ∀ e : Fin 2, Fin.ofNat 2 e.val = e := fun e => by fin_cases e <;> rfl
  have three : ∀ e : Fin 3, Fin.ofNat 3 e.val = e := fun e => by fin_cases e <;> rfl
  refine ⟨rfl, ?_, ?_, ?_, ?_, ?_, ?_, ?_⟩
  · intro e; fin_cases e <;> rfl
  · intro e; fin_cases e <;> rfl
  · intro e i; fin_cases e <;> fin_cases i <;> rfl
  · intro e; exact ⟨0, by simp only [elem, two]⟩
  · intro e; simp only [elem, two]
  · intro e d i j
    have : (cell e).vol = midpoints := by fin_cases e <;> rfl
    simp only [elem, two, this]
  · intro e face
    refine ⟨around face, 0, ?_, ?_, ?_⟩
    · rcases face_cases face with rfl | rfl | rfl <;>
        simp [Outward, normal, refSide_jac, around, loc, refNormal, finRange2, b0, b1]
    · simp only [elem, two, three, edge, Equiv.symm_apply_apply]
    · intro d _
      simp only [elem, two, three, edge, Equiv.symm_apply_apply]

noncomputable def links : List (Link 1 2 3 2) :=
  [⟨(none, { s1 := ⟨lower, none, 1⟩, s2 := some ⟨upper, none, Equiv.swap 0 1⟩, rule := eight }), ⟨upper, none, Equiv.swap 0 1⟩, 0, 1, Equiv.swap 0 1⟩]

noncomputable def walls : List (Wall 1 2 3) :=
  [⟨(some .PEC, outer lower 0), 0⟩, ⟨(some .PEC, outer lower 1), 0⟩, ⟨(some .PEC, outer upper 0), 1⟩, ⟨(some .PEC, outer upper 1), 1⟩]

/-- The node of each position and the node it is connected to. -/
def conn (p : Nat) : Nat × Nat :=
  [(1, 5), (2, 4), (0, 0), (2, 2), (0, 0), (1, 1), (4, 2), (5, 1), (3, 3), (5, 5), (3, 3), (4, 4)].getD p (0, 0)

def maps : BdrMaps := ⟨[(2, 0), (3, 2), (4, 0), (5, 1), (8, 3), (9, 5), (10, 3), (11, 4)], [], [], [], [], []⟩

lemma connected : Connected tri corner side ends cavity cell conn links walls := by
  refine ⟨rfl, rfl, ?_, ?_, ?_, ?_, ?_, ?_⟩
  · intro l hl
    obtain rfl := List.mem_singleton.1 hl
    exact ⟨rfl, rfl, rfl⟩
  · intro l hl
    simp only [walls, List.mem_cons, List.not_mem_nil, or_false] at hl
    rcases hl with rfl | rfl | rfl | rfl <;> rfl
  · intro l hl k d
    obtain rfl := List.mem_singleton.1 hl
    fin_cases k <;> fin_cases d <;> simp [cell, lower, upper, ends, side_none, corner, corner3]
  · intro l hl k
    obtain rfl := List.mem_singleton.1 hl
    fin_cases k <;> rfl
  · intro l hl k
    obtain rfl := List.mem_singleton.1 hl
    fin_cases k <;> rfl
  · intro l hl k
    simp only [walls, List.mem_cons, List.not_mem_nil, or_false] at hl
    rcases hl with rfl | rfl | rfl | rfl <;> fin_cases k <;> rfl

lemma conds : CondsOk tri ends cavity.alpha maps (links.map (Link.inner side)) (walls.map (Wall.outer side)) := by
  refine ⟨by decide, ?_, ?_⟩
  · intro q hq
    obtain ⟨l, hl, rfl⟩ := List.mem_map.1 hq
    obtain rfl := List.mem_singleton.1 hl
    refine ⟨rfl, fun k => ?_⟩
    fin_cases k <;> exact ⟨by decide, by decide⟩
  · intro q hq
    obtain ⟨l, hl, rfl⟩ := List.mem_map.1 hq
    simp only [walls, List.mem_cons, List.not_mem_nil, or_false] at hl
    rcases hl with rfl | rfl | rfl | rfl
    all_goals
      intro k
      fin_cases k <;> decide

/-! ### the theorems on it -/

example := C162_same cavity_valid cavity_materials tri_shapes elements connected conds

example : ∃ K cfl B, 0 ≤ K ∧ 0 < cfl ∧ ∃ M, emat tri = some M ∧ ∀ (q : Sdirk ℝ) (x : Vec), Sampled cavity corner3 mode 0 (values x) →
    ∀ (dt last : ℝ) (k : Nat), 0 ≤ last → last ≤ dt → dt ≤ cfl * 1 → k * dt + last ≤ 10 →
      ∃ y s, run q .rk4 (nodalTdo tri M elem conn maps cavity.alpha _) (List.replicate k dt ++ [last]) x 0
          (fresh (K := ℝ) (ι := Slot (Fin 2 × Fin 3))) = some (y, k * dt + last, s) ∧
        ∀ u, Sampled cavity corner3 mode (k * dt + last) u →
          √(fieldEnergy cavity vacuum (values y - u)) ≤ K * (1 + (k * dt + last)) * √(volume cavity) * (B * (1 ^ 1 + dt ^ 4)) := by
  obtain ⟨K, cfl, hK, hc, h⟩ := C162_error 1 1 2 1 1 1 1 one_pos le_rfl zero_le_one zero_le_one
  obtain ⟨B, r, b⟩ := cavity_all 10 5
  exact ⟨K, cfl, B, hK, hc, h 2 tri cavity vacuum 1 B 10 mode corner3 rfl r (by norm_num) b (fun c hc => cavity_vacuum hc) 4 _ _ _ _ _ _ _ _ _ _
    tri_shapes elements connected conds⟩

end Dgtd.NodalFem.Case
