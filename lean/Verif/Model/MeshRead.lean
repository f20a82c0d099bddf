/-
Model of how the ranks of a run read the mesh file: rank zero rewrites the file in place, then all
ranks read it, and the whole is done again when the case has boundaries and materials.  The file is
its text; writing and reading take time, and the ranks move in any order.
-/
import Verif.Model.Gmsh
import Mathlib.Logic.Function.Basic

namespace Dgtd.MeshRead

open Dgtd.Gmsh

/-- Does `fixGmshMesh` open the file for writing?  (src/driver/driver.cpp:1086-1168) -/
def touches (path content : List Char) : Bool :=
  isMsh path &&
    let s := scan false false ⟨[], [], []⟩ (lines content)
    decide (s.elems ≠ []) && (fixElems (detect 1 s.elems) 1 s.elems).isSome

/-- Where a rank is, in the call number `k` of `assembleMesh`
(src/driver/driver.cpp:1176-1183):
* `fix k`: rank zero is about to read the file in `fixGmshMesh`;
* `cut k out`: it has the new text `out` and is about to open the file for writing, which empties it
  (src/driver/driver.cpp:1168-1169);
* `write k rest`: `rest` is not yet written (src/driver/driver.cpp:1170-1172);
* `wait k`: in the barrier (src/driver/driver.cpp:1181);
* `read k acc`: in `LoadFromFile`, `acc` read so far (src/driver/driver.cpp:1182);
* `loaded`: past the last call;
* `failed`: an element type that is not a number (src/driver/driver.cpp:1147). -/
inductive Phase where
  | fix (k : ℕ)
  | cut (k : ℕ) (out : List Char)
  | write (k : ℕ) (rest : List Char)
  | wait (k : ℕ)
  | read (k : ℕ) (acc : List Char)
  | loaded
  | failed

/-- The file, where every rank is, and the texts it has read, oldest first.
(src/driver/driver.cpp:1242-1260) -/
structure St (ι : Type*) where
  file : List Char
  phase : ι → Phase
  texts : ι → List (List Char)

/-- The barriers a rank has entered; `R` is the number of calls of `assembleMesh`.
(src/driver/driver.cpp:1181) -/
def entered (R : ℕ) : Phase → ℕ
  | .fix k | .cut k _ | .write k _ => k
  | .wait k | .read k _ => k + 1
  | .loaded => R
  | .failed => 0

variable {ι : Type*} [DecidableEq ι]

/-- How a rank starts call number `k`: rank zero with `fixGmshMesh`, the others at the barrier.
(src/driver/driver.cpp:1178-1181) -/
def begins (root s : ι) (k : ℕ) : Phase := if s = root then .fix k else .wait k

/-- Where a rank goes after call number `k`. (src/driver/driver.cpp:1242-1260) -/
def next (R : ℕ) (root s : ι) (k : ℕ) : Phase := if k + 1 < R then begins root s (k + 1) else .loaded

/-- One thing happens.  Reading the file in `fixGmshMesh` is a single event: only rank zero writes.
(src/driver/driver.cpp:1083-1183) -/
inductive Step (path : List Char) (R : ℕ) (root : ι) (σ : St ι) : St ι → Prop
  | same (k : ℕ) (h : σ.phase root = .fix k) (ht : touches path σ.file = false)
      (hf : (fixFile path σ.file).isSome) :
      Step path R root σ { σ with phase := Function.update σ.phase root (.wait k) }
  | fails (k : ℕ) (h : σ.phase root = .fix k) (hf : fixFile path σ.file = none) :
      Step path R root σ { σ with phase := Function.update σ.phase root .failed }
  | plan (k : ℕ) (out : List Char) (h : σ.phase root = .fix k) (ht : touches path σ.file = true)
      (hf : fixFile path σ.file = some out) :
      Step path R root σ { σ with phase := Function.update σ.phase root (.cut k out) }
  | empty (k : ℕ) (out : List Char) (h : σ.phase root = .cut k out) :
      Step path R root σ { σ with file := [], phase := Function.update σ.phase root (.write k out) }
  | put (k : ℕ) (a b : List Char) (h : σ.phase root = .write k (a ++ b)) :
      Step path R root σ { σ with file := σ.file ++ a, phase := Function.update σ.phase root (.write k b) }
  | close (k : ℕ) (h : σ.phase root = .write k []) :
      Step path R root σ { σ with phase := Function.update σ.phase root (.wait k) }
  | go (s : ι) (k : ℕ) (h : σ.phase s = .wait k) (hall : ∀ t, k + 1 ≤ entered R (σ.phase t)) :
      Step path R root σ { σ with phase := Function.update σ.phase s (.read k []) }
  | get (s : ι) (k n : ℕ) (acc : List Char) (h : σ.phase s = .read k acc) :
      Step path R root σ
        { σ with phase := Function.update σ.phase s (.read k (acc ++ (σ.file.drop acc.length).take n)) }
  | eof (s : ι) (k : ℕ) (acc : List Char) (h : σ.phase s = .read k acc) (he : σ.file.length ≤ acc.length) :
      Step path R root σ
        { σ with phase := Function.update σ.phase s (next R root s k)
                 texts := Function.update σ.texts s (σ.texts s ++ [acc]) }

/-- Before the first call, with the text `c` in the file. (src/driver/driver.cpp:1242-1248) -/
def start (root : ι) (c : List Char) : St ι := ⟨c, fun s => begins root s 0, fun _ => []⟩

end Dgtd.MeshRead
