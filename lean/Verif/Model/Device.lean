/-
Model of the explicit evolution operator in a build with CUDA (src/evolution/GlobalEvolution.cu and the branches
`SEMBA_DGTD_ENABLE_CUDA` of src/evolution/GlobalEvolution.cpp), run with `--device cpu` or `--device cuda`
(src/launcher/launcher.cpp:39-61).

MFEM's two-sided memory is taken as MFEM documents it: a vector has a host buffer and a device buffer and a validity
flag for each.  `Read`, `Write`, `ReadWrite`, `HostRead`, `HostReadWrite` copy and set flags; `operator[]` is a plain
access to the host buffer that neither copies nor changes flags.  Vectors on which `UseDevice(true)` was called carry
out `v = 0.0`, `Norml2`, `SparseMatrix::Mult` and `AddMult` on the device.

Simplifications.  The threads of a kernel perform their assignments in an arbitrary order (a permutation of all the
assignments, which includes every interleaving).  The inner solvers of thin layers are the same as in
`Model/SgbcEvol.lean`: their own memory is not modelled.
-/
import Verif.Model.SgbcEvol

namespace Dgtd.Device

open Sgbc SgbcEvol

/-- A vector with its two buffers and its two flags. (src/evolution/GlobalEvolution.cu:8-135) -/
structure Mem (K : Type) where
  host : Nat → K
  dev : Nat → K
  hv : Bool
  dv : Bool

variable {σ K : Type}

/-- `Read()`: the buffer a kernel reads, and the vector afterwards. (src/evolution/GlobalEvolution.cu:12, 37, 58-63, 90-96) -/
def Mem.read (gpu : Bool) (m : Mem K) : (Nat → K) × Mem K :=
  if gpu then
    if m.dv then (m.dev, m) else (m.host, { m with dev := m.host, dv := true })
  else (m.host, m)

/-- `Write()`: a kernel acts on the buffer; nothing is copied before. (src/evolution/GlobalEvolution.cu:13-18, 38, 65) -/
def Mem.write (gpu : Bool) (f : (Nat → K) → Option (Nat → K)) (m : Mem K) : Option (Mem K) :=
  if gpu then (f m.dev).map fun d => { m with dev := d, dv := true, hv := false }
  else (f m.host).map fun h => { m with host := h, hv := true, dv := false }

/-- A kernel that assigns without reading, like `v = 0.0`. (src/evolution/GlobalEvolution.cpp:817) -/
def Mem.assign (gpu : Bool) (f : (Nat → K) → (Nat → K)) (m : Mem K) : Mem K :=
  if gpu then { m with dev := f m.dev, dv := true, hv := false } else { m with host := f m.host, hv := true, dv := false }

/-- `ReadWrite()`: like `Write()` after making the buffer current. (src/evolution/GlobalEvolution.cu:97, 120) -/
def Mem.readWrite (gpu : Bool) (f : (Nat → K) → Option (Nat → K)) (m : Mem K) : Option (Mem K) :=
  (m.read gpu).2.write gpu f

/-- `HostRead()`. (src/evolution/GlobalEvolution.cpp:837, 906, 964) -/
def Mem.hostRead (m : Mem K) : Mem K :=
  if m.hv then m else { m with host := m.dev, hv := true }

/-- What the host holds after `HostReadWrite()` and an assignment of the whole buffer. (src/evolution/GlobalEvolution.cpp:838, 907, 965) -/
def Mem.hostSet (h : Nat → K) (m : Mem K) : Mem K := { m with host := h, hv := true, dv := false }

/-- Assignments through `operator[]`. (src/evolution/GlobalEvolution.cpp:843-902) -/
def Mem.raw (f : (Nat → K) → (Nat → K)) (m : Mem K) : Mem K := { m with host := f m.host }

/-- The kernels of src/evolution/GlobalEvolution.cu whose effect is used. (lines 8-135) -/
inductive Kern
  | eh
  | nbr
  | scatter
  | zero

/-- The order in which the assignments of a launch happen. (src/evolution/GlobalEvolution.cu:20, 42, 69, 99, 122) -/
abbrev Order (K : Type) := Kern → List (Int × K) → List (Int × K)

/-- src/evolution/GlobalEvolution.cu:42-49, kernel of `load_eh_to_innew_gpu`. -/
def ehKernel (ndofs B : Nat) (x : Nat → K) : List (Int × K) :=
  (List.range ndofs).flatMap fun (v : Nat) => (List.finRange 6).map fun c =>
    (((c.val * B + v : Nat) : Int), x (c.val * ndofs + v))

/-- src/evolution/GlobalEvolution.cu:69-76, kernel of `load_nbr_to_innew_gpu`. -/
def nbrKernel (ndofs nbr B : Nat) (y : Fin 6 → Nat → K) : List (Int × K) :=
  (List.range nbr).flatMap fun (v : Nat) => (List.finRange 6).map fun c =>
    (((c.val * B + ndofs + v : Nat) : Int), y c v)

/-- src/evolution/GlobalEvolution.cu:99-107, kernel of `scatter_tfsf_to_assembled_gpu`. -/
def scatterKernel (B : Nat) (ids : List Int) (y : Fin 6 → Nat → K) : List (Int × K) :=
  (List.range ids.length).flatMap fun (v : Nat) => (List.finRange 6).map fun c =>
    (((c.val * B : Nat) : Int) + ids.getD v 0, y c v)

/-- src/evolution/GlobalEvolution.cu:122-130, kernel of `zero_tfsf_assembled_gpu`. -/
def zeroKernel [Zero K] (B : Nat) (ids : List Int) : List (Int × K) :=
  scatterKernel B ids fun _ _ => 0

variable [Field K] [LinearOrder K] [IsStrictOrderedRing K] [FloorRing K]

/-- Mutable data: the thin layers (the scratch vector of `ev` is not used), the scratch vector `multWorkVec_`, and the
evaluated source `cached_tfsf_fields_` (src/solver/SourcesManager.h). (line 46; src/evolution/GlobalEvolution.cpp:565, 782) -/
structure Obj (σ K : Type) where
  ev : Ev σ K
  scratch : Option (Mem K)
  cached : Fin 6 → Mem K

/-- src/solver/SourcesManager.cpp:204-232 `evalTimeVarFieldDirect` for one component: `= 0.0`, then `operator[] +=`
for every node.  `val` is the sum over the sources. -/
def evalDirect (gpu : Bool) (n : Nat) (val : Nat → K) (m : Mem K) : Mem K :=
  (m.assign gpu (zeroed n)).raw fun a v => if v < n then a v + val v else a v

/-- src/evolution/GlobalEvolution.cpp:785-787. -/
def assemble (gpu : Bool) (ord : Order K) (S : Sys σ K) (x : Nat → K) (w : Mem K) : Option (Mem K) :=
  (w.write gpu (exec (6 * S.B) (ord .eh (ehKernel S.ndofs S.B x)))).bind fun w =>
    w.write gpu (exec (6 * S.B) (ord .nbr (nbrKernel S.ndofs S.nbr S.B (S.nbrData x))))

/-- src/evolution/GlobalEvolution.cpp:587-598: squared norm of the evaluated source. -/
def normSqOf (n : Nat) (y : Fin 6 → Nat → K) : K :=
  (List.finRange 6).foldl (fun s c => s + normSq n (y c)) 0

/-- src/evolution/GlobalEvolution.cpp:587-619: from the evaluated source to the output. -/
def inject (gpu : Bool) (ord : Order K) (S : Sys σ K) (T : Tfsf K) (y : Fin 6 → Nat → K) (out w : Mem K) :
    Option (Mem K × Mem K) :=
  if normSqOf T.ids.length y < thr2 then some (out, w)
  else do
    let w ← w.readWrite gpu (exec (6 * S.B) (ord .scatter (scatterKernel S.B T.ids y)))
    let r := w.read gpu
    let out := (out.read gpu).2.assign gpu fun o i => o i - mulRows T.rows r.1 i
    let w ← r.2.readWrite gpu (exec (6 * S.B) (ord .zero (zeroKernel S.B T.ids)))
    some (out, w)

/-- src/evolution/GlobalEvolution.cpp:551-626 `applyTFSFSourceToVector`, CUDA branches. -/
def applySource (gpu : Bool) (ord : Order K) (S : Sys σ K) (t : K) (out w : Mem K) (cached : Fin 6 → Mem K) :
    Option (Mem K × Mem K × (Fin 6 → Mem K)) :=
  match S.tfsf with
  | none => some (out, w, cached)
  | some T => do
    let c : Fin 6 → Mem K := fun i => evalDirect gpu T.ids.length (T.val t i) (cached i)
    let (out, w) ← inject gpu ord S T (fun i => ((c i).read gpu).1) out w
    some (out, w, fun i => ((c i).read gpu).2)

/-- src/evolution/GlobalEvolution.cpp:628-1001 `Mult` at time `t`, CUDA branches.  The sub-solves of thin layers read
the input through `operator[]` (lines 664-672 and src/solver/SolverExtension.cpp:263-281), before any synchronisation. -/
def mult (gpu : Bool) (ord : Order K) (S : Sys σ K) (t : K) (inp junk out0 : Mem K) (d : Obj σ K) :
    Option (Mem K × Obj σ K) := do
  let (quiet, ev) ← subSolve S t inp.host d.ev
  let x := inp.read gpu
  let w ← assemble gpu ord S x.1 (d.scratch.getD junk)
  let r := w.read gpu
  let out := out0.assign gpu fun _ => mulRows S.globalRows r.1
  let w := r.2.assign gpu (zeroed (6 * S.B))
  let (out, w, cached) ← applySource gpu ord S t out w d.cached
  match S.sgbcRows with
  | none => some (out, ⟨ev, some w, cached⟩)
  | some rows =>
    if quiet then some (out, ⟨ev, some w, cached⟩)
    else do
      let (o, v) ← SgbcEvol.inject S rows x.2.hostRead.host ev.states out.hostRead.host w.hostRead.host
      some (((out.hostSet o).read gpu).2.assign gpu id, ⟨ev, some (w.hostSet v), cached⟩)

end Dgtd.Device
