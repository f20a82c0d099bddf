/-
C162: runs with the nodal operator on meshes of straight triangles and tetrahedra approach smooth solutions of Maxwell's equations in vacuum.
-/
import Verif.Lemmas.NodalFemSame
import Verif.Props.NodalRun
import Verif.Props.Uniform

set_option linter.unusedSectionVars false

namespace Dgtd.NodalFem
open MvPolynomial Spec Dgtd.Galerkin Dgtd.Galerkin.Spec
open Dgtd.Op (BdrCond normalTerm Pt FieldT State globalMult)
open Dgtd.Nodal (Ref refMesh BdrMaps emat nodalMult values ofFields toFields Vec)
open Dgtd.Nodal.Spec (Inner Outer posOf num CondsOk Same)
open Dgtd.Config (Material)
open Dgtd.Implicit Dgtd.TimeInt

variable {n ne : Nat} {R : Ref ℝ} {w : ℝ} {p : Nat} {sh : Nat → Poly (n + 1) ℝ} {pt : Fin R.n → Fin (n + 1) → ℝ}
  {fc : Option (Fin (n + 1)) ≃ Fin R.nF} {node : Fin R.nF → Fin R.nf → Fin R.n} {S : Setup n (Fin ne × Fin R.n)}
  {cell : Fin ne → Cell n (Fin ne × Fin R.n)} {el : Nat → Dgtd.Nodal.Elem ℝ} {c : Nat → Nat × Nat} {links : List (Link n ne R.n R.nf)}
  {walls : List (Wall n ne R.n)} {b : BdrMaps} {ms : List (Int × Material ℝ)}

/-- **C162**: the data of the nodal operator read off a mesh of straight triangles or tetrahedra and the problem the global operator is
assembled from on the same mesh describe the same mesh, whatever its size, its order and its materials. -/
theorem C162_same (hm : ValidMesh S p 1) (hv : ValidMaterials S ms) (A : Shapes R w p sh pt fc node) (E : Elements R sh fc S cell el)
    (N : Connected R pt fc node S cell c links walls) (hb : CondsOk R node S.alpha b (links.map (Link.inner fc)) (walls.map (Wall.outer fc))) :
    ∃ P, S.fem ms = .ok P ∧ Same R w (mhat R sh) node el (fun e => (materialOf ms (cell e)).eps) (fun e => (materialOf ms (cell e)).mu) P.prob c b
      (links.map (Link.inner fc)) (walls.map (Wall.outer fc)) := by
  refine ⟨femOf S ms, fem_ok S ms hv, ref_ok A, elems_ok hm A E ms hv, ⟨?_, ?_⟩, ?_, ?_, cover hm A E N, hb⟩
  · change (S.interior.map _).map _ = _
    rw [N.interior]
    simp only [List.map_map]
    rfl
  · change (S.bdr.map _).map _ = _
    rw [N.bdr]
    simp only [List.map_map]
    rfl
  · intro q hq
    obtain ⟨l, hl, rfl⟩ := List.mem_map.1 hq
    exact inner_ok hm A E N hl
  · intro q hq
    obtain ⟨l, hl, rfl⟩ := List.mem_map.1 hq
    exact outer_ok hm A E N hl

lemma no_losses (hm : ValidMesh S p 1) (E : Elements R sh fc S cell el) (h : ∀ c ∈ S.cells, materialOf ms c = ⟨1, 1, 0⟩) : (femOf S ms).prob.Msig = 0 := by
  change massMatrix (S.cells.map fun c => (c, (materialOf ms c).sigma)) = 0
  funext r s
  rw [mass_block hm E, h _ (cell_mem E r.1)]
  simp

/-- The nodal operator as right-hand side of the integrator. -/
noncomputable def nodalTdo (R : Ref ℝ) (E : Nat → Nat → ℝ) (el : Nat → Dgtd.Nodal.Elem ℝ) (c : Nat → Nat × Nat) (b : BdrMaps) (alpha : ℝ)
    (T : Type) : Tdo Vec T := explicitTdo fun _ y => ofFields (nodalMult R E el c b alpha [] [] (toFields y))

/-- The unknowns in the order of the global operator. -/
def flatValues {ne N : Nat} : Vec →ₗ[ℝ] (Slot (Fin ne × Fin N) → ℝ) where
  toFun := fun x => flat (values x)
  map_add' := fun _ _ => rfl
  map_smul' := fun _ _ => rfl

/-- **C162**: in vacuum a run of any number of explicit steps of any sizes with the nodal operator gives the same fields at the same times as
with the matrix of the global operator assembled on the same mesh. -/
theorem C162_run (hm : ValidMesh S p 1) (hv : ValidMaterials S ms) (h1 : ∀ c ∈ S.cells, materialOf ms c = ⟨1, 1, 0⟩)
    (A : Shapes R w p sh pt fc node) (E : Elements R sh fc S cell el) (N : Connected R pt fc node S cell c links walls)
    (hb : CondsOk R node S.alpha b (links.map (Link.inner fc)) (walls.map (Wall.outer fc)))
    {P : Fem n (Fin ne × Fin R.n) ℝ} (hP : S.fem ms = .ok P) {G : Matrix (Slot (Fin ne × Fin R.n)) (Slot (Fin ne × Fin R.n)) ℝ}
    (hG : ∀ u : State (Fin ne × Fin R.n) ℝ, G.mulVec (flat u) = flat (globalMult P.prob u)) :
    ∃ M, emat R = some M ∧ ∀ (q : Sdirk ℝ) (dts : List ℝ) (x : Vec) (t : ℝ) (k : Cache ℝ (Slot (Fin ne × Fin R.n))),
      run q .rk4 (globalTdo G fun _ => 0) dts (flat (values x)) t k =
        (run q .rk4 (nodalTdo R M el c b S.alpha _) dts x t k).map fun y => (flat (values y.1), y.2) := by
  obtain ⟨P', hP', hs⟩ := C162_same hm hv A E N hb
  obtain rfl : P' = femOf S ms := by
    rw [fem_ok S ms hv] at hP'
    exact (Except.ok.inj hP').symm
  obtain rfl : P = femOf S ms := by
    rw [fem_ok S ms hv] at hP
    exact (Except.ok.inj hP).symm
  obtain ⟨M, hM, -⟩ := Dgtd.Nodal.emat_entry R hs.ref
  refine ⟨M, hM, fun q dts x t k => Par.run_map q flatValues ?_ dts x t k⟩
  intro _ y
  have hh : Dgtd.Nodal.Spec.Holds (toFields y) (values (ne := ne) (n := R.n) y) := fun r d => ⟨rfl, rfl⟩
  have hg : R.geom = .triangle ∨ R.geom = .tetrahedron := A.geom.imp (fun h => h.2) fun h => h.2
  obtain ⟨M', hM', h2⟩ := Dgtd.Nodal.C129_vacuum_partial hs hg (fun e => by rw [h1 _ (cell_mem E e)]) (fun e => by rw [h1 _ (cell_mem E e)])
    (no_losses hm E h1) [] (toFields y) _ hh
  obtain rfl : M' = M := by rw [hM] at hM'; exact (Option.some.inj hM').symm
  change G.mulVec (flat (values y)) + 0 = flat (values (ofFields (nodalMult R M' el c b S.alpha [] [] (toFields y))))
  rw [hG, add_zero]
  congr 1
  funext f d r
  cases f
  · exact ((h2 r d).1).symm
  · exact ((h2 r d).2).symm

/-- **C162**: on any mesh of straight triangles or tetrahedra no larger than `h`, the fields of an explicit run with the nodal operator differ
from a smooth solution of Maxwell's equations in vacuum by at most a constant times `h ^ p + dt ^ 4`, if the step is at most another constant
times `h`; neither depends on the mesh, on the solution or on the number of steps. -/
theorem C162_error (n p : Nat) (ρ m0 m1 Λ α : ℝ) (hm0 : 0 < m0) (hm1 : m0 ≤ m1) (hΛ : 0 ≤ Λ) (hα : 0 ≤ α) :
    ∃ K cfl, 0 ≤ K ∧ 0 < cfl ∧ ∀ (ne : Nat) (R : Ref ℝ) (S : Setup n (Fin ne × Fin R.n)) (ms : List (Int × Material ℝ)) (h B T : ℝ)
      (F : Solution n (Fin ne × Fin R.n)) (nodes : Elem n (Fin ne × Fin R.n) ℝ → Nat → Fin (n + 1) → ℝ), S.alpha = α →
      Resolves S ms p ρ m0 m1 Λ h B T F nodes → 0 < T → Galerkin.Spec.Regular S T F p 5 B → (∀ c ∈ S.cells, materialOf ms c = ⟨1, 1, 0⟩) →
      ∀ (w : ℝ) (sh : Nat → Poly (n + 1) ℝ) (pt : Fin R.n → Fin (n + 1) → ℝ) (fc : Option (Fin (n + 1)) ≃ Fin R.nF)
        (node : Fin R.nF → Fin R.nf → Fin R.n) (cell : Fin ne → Cell n (Fin ne × Fin R.n)) (el : Nat → Dgtd.Nodal.Elem ℝ) (c : Nat → Nat × Nat)
        (links : List (Link n ne R.n R.nf)) (walls : List (Wall n ne R.n)) (b : BdrMaps), Shapes R w p sh pt fc node →
      Elements R sh fc S cell el → Connected R pt fc node S cell c links walls →
      CondsOk R node S.alpha b (links.map (Link.inner fc)) (walls.map (Wall.outer fc)) →
      ∃ M, emat R = some M ∧ ∀ (q : Sdirk ℝ) (x : Vec), Sampled S nodes F 0 (values x) →
        ∀ (dt last : ℝ) (k : Nat), 0 ≤ last → last ≤ dt → dt ≤ cfl * h → k * dt + last ≤ T →
          ∃ y s, run q .rk4 (nodalTdo R M el c b S.alpha _) (List.replicate k dt ++ [last]) x 0 (fresh (K := ℝ) (ι := Slot (Fin ne × Fin R.n))) = some (y, k * dt + last, s) ∧
            ∀ u, Sampled S nodes F (k * dt + last) u →
              √(fieldEnergy S ms (values y - u)) ≤ K * (1 + (k * dt + last)) * √(volume S) * (B * (h ^ p + dt ^ 4)) := by
  obtain ⟨K, cfl, hK, hc, H⟩ := C150_explicit n p ρ m0 m1 Λ α hm0 hm1 hΛ hα
  refine ⟨K, cfl, hK, hc, ?_⟩
  intro ne R S ms h B T F nodes ha r hT hreg h1 w sh pt fc node cell el c links walls b A E N hb
  obtain ⟨P, G, hP, hG, hrun⟩ := H _ S ms h B T F nodes ha r hT hreg
  obtain ⟨M, hM, hmap⟩ := C162_run r.mesh r.materials h1 A E N hb hP hG
  refine ⟨M, hM, fun q x hx dt last k h2 h3 h4 h5 => ?_⟩
  obtain ⟨y, s, e, hy⟩ := hrun q (values x) hx dt last k h2 h3 h4 h5
  rw [hmap] at e
  obtain ⟨⟨z, t', s'⟩, hz, e2⟩ := Option.map_eq_some_iff.1 e
  simp only [Prod.mk.injEq] at e2
  obtain ⟨e3, rfl, rfl⟩ := e2
  have e4 : values z = y := by
    have := congrArg unflat e3
    exact this
  refine ⟨z, s', hz, fun u hu => ?_⟩
  rw [e4]
  exact hy u hu

/-- **C162**: so runs on finer and finer meshes, with steps in proportion, get as near to the solution as wanted. -/
theorem C162_converges (n p : Nat) (ρ m0 m1 Λ α : ℝ) (hm0 : 0 < m0) (hm1 : m0 ≤ m1) (hΛ : 0 ≤ Λ) (hα : 0 ≤ α) (B T V : ℝ) (hT : 0 < T) (ε : ℝ)
    (hε : 0 < ε) :
    ∃ hmax cfl, 0 < hmax ∧ 0 < cfl ∧ ∀ (ne : Nat) (R : Ref ℝ) (S : Setup n (Fin ne × Fin R.n)) (ms : List (Int × Material ℝ)) (h : ℝ)
      (F : Solution n (Fin ne × Fin R.n)) (nodes : Elem n (Fin ne × Fin R.n) ℝ → Nat → Fin (n + 1) → ℝ), S.alpha = α →
      Resolves S ms p ρ m0 m1 Λ h B T F nodes → Galerkin.Spec.Regular S T F p 5 B → h ≤ hmax → volume S ≤ V →
      (∀ c ∈ S.cells, materialOf ms c = ⟨1, 1, 0⟩) →
      ∀ (w : ℝ) (sh : Nat → Poly (n + 1) ℝ) (pt : Fin R.n → Fin (n + 1) → ℝ) (fc : Option (Fin (n + 1)) ≃ Fin R.nF)
        (node : Fin R.nF → Fin R.nf → Fin R.n) (cell : Fin ne → Cell n (Fin ne × Fin R.n)) (el : Nat → Dgtd.Nodal.Elem ℝ) (c : Nat → Nat × Nat)
        (links : List (Link n ne R.n R.nf)) (walls : List (Wall n ne R.n)) (b : BdrMaps), Shapes R w p sh pt fc node →
      Elements R sh fc S cell el → Connected R pt fc node S cell c links walls →
      CondsOk R node S.alpha b (links.map (Link.inner fc)) (walls.map (Wall.outer fc)) →
      ∃ M, emat R = some M ∧ ∀ (q : Sdirk ℝ) (x : Vec), Sampled S nodes F 0 (values x) →
        ∀ (dt last : ℝ) (k : Nat), 0 ≤ last → last ≤ dt → dt ≤ cfl * h → k * dt + last ≤ T →
          ∃ y s, run q .rk4 (nodalTdo R M el c b S.alpha _) (List.replicate k dt ++ [last]) x 0 (fresh (K := ℝ) (ι := Slot (Fin ne × Fin R.n))) = some (y, k * dt + last, s) ∧
            ∀ u, Sampled S nodes F (k * dt + last) u → √(fieldEnergy S ms (values y - u)) ≤ ε := by
  obtain ⟨hmax, cfl, hh, hc, H⟩ := C150_converges_explicit n p ρ m0 m1 Λ α hm0 hm1 hΛ hα B T V hT ε hε
  refine ⟨hmax, cfl, hh, hc, ?_⟩
  intro ne R S ms h F nodes ha r hreg hle hV h1 w sh pt fc node cell el c links walls b A E N hb
  obtain ⟨P, G, hP, hG, hrun⟩ := H _ S ms h F nodes ha r hreg hle hV
  obtain ⟨M, hM, hmap⟩ := C162_run r.mesh r.materials h1 A E N hb hP hG
  refine ⟨M, hM, fun q x hx dt last k h2 h3 h4 h5 => ?_⟩
  obtain ⟨y, s, e, hy⟩ := hrun q (values x) hx dt last k h2 h3 h4 h5
  rw [hmap] at e
  obtain ⟨⟨z, t', s'⟩, hz, e2⟩ := Option.map_eq_some_iff.1 e
  simp only [Prod.mk.injEq] at e2
  obtain ⟨e3, rfl, rfl⟩ := e2
  have e4 : values z = y := by
    have := congrArg unflat e3
    exact this
  refine ⟨z, s', hz, fun u hu => ?_⟩
  rw [e4]
  exact hy u hu

end Dgtd.NodalFem
