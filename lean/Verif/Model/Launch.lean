import Mathlib.Data.List.Infix
import Mathlib.Data.List.TakeDrop

/-
Model of command lines, case naming and mesh file names.

/repo/src/launcher/launcher.cpp 24-91; /repo/src/launcher/rcs_launcher.cpp 24-58;
/repo/src/driver/driver.cpp 906-924, 1278-1291, 1487-1543.

Strings are lists of characters.  `std::filesystem::path` is modelled for POSIX paths; the file system is a
predicate on path strings.
-/
namespace Dgtd.Launch

/-- `std::string`. (src/launcher/launcher.cpp:37-79) -/
abbrev Str := List Char

/-! ### Command lines -/

/-- How a launcher ends, or starts a run. (src/launcher/launcher.cpp:25-90, src/launcher/rcs_launcher.cpp:22-58) -/
inductive Outcome where
  | exit (code : Nat)
  | throw
  | run (path : Str) (device : Str)
deriving DecidableEq

/-- `-i`. (src/launcher/launcher.cpp:41) -/
def flagI : Str := ['-', 'i']
/-- `-h`. (src/launcher/launcher.cpp:44) -/
def flagH : Str := ['-', 'h']
/-- `-d`. (src/launcher/launcher.cpp:48) -/
def flagD : Str := ['-', 'd']
/-- `--device`. (src/launcher/launcher.cpp:48) -/
def flagDevice : Str := ['-', '-', 'd', 'e', 'v', 'i', 'c', 'e']
/-- `cpu`. (src/launcher/launcher.cpp:38, 51) -/
def cpu : Str := ['c', 'p', 'u']
/-- `omp`. (src/launcher/launcher.cpp:51) -/
def omp : Str := ['o', 'm', 'p']
/-- `cuda`. (src/launcher/launcher.cpp:51) -/
def cuda : Str := ['c', 'u', 'd', 'a']
/-- `.json`. (src/launcher/launcher.cpp:71, src/driver/driver.cpp:909) -/
def dotJson : Str := ['.', 'j', 's', 'o', 'n']
/-- `.msh`. (src/driver/driver.cpp:892, 910, 1285) -/
def dotMsh : Str := ['.', 'm', 's', 'h']
/-- `.mesh`. (src/driver/driver.cpp:893, 911, 1287) -/
def dotMesh : Str := ['.', 'm', 'e', 's', 'h']

/-- The loop over the arguments and what follows it (launcher.cpp 37-79); the arguments do not include the
program name.  The run itself (79-90) is the outcome `run`. -/
def launcherLoop : List Str → Str → Str → Outcome
  | [], path, device => if dotJson <:+: path then .run path device else .exit 3
  | [a], path, device =>
    if a = flagH then .exit 2 else launcherLoop [] path device
  | a :: b :: rest, path, device =>
    if a = flagI then launcherLoop rest b device
    else if a = flagH then .exit 2
    else if a = flagDevice ∨ a = flagD then
      if b = cpu ∨ b = omp ∨ b = cuda then launcherLoop rest path b else .throw
    else launcherLoop (b :: rest) path device

/-- `main` of the solver (launcher.cpp 24-91). -/
def launcher (args : List Str) : Outcome :=
  if args = [] then .exit 1 else launcherLoop args [] cpu

/-- The loop of the post-processor (rcs_launcher.cpp 29-45). -/
def rcsLoop : List Str → Str → Outcome
  | [], path => if path = [] then .exit 1 else .run path []
  | [a], path => if a = flagH then .exit 0 else rcsLoop [] path
  | a :: b :: rest, path =>
    if a = flagI then rcsLoop rest b
    else if a = flagH then .exit 0
    else rcsLoop (b :: rest) path

/-- `main` of the post-processor (rcs_launcher.cpp 22-58). -/
def rcsLauncher (args : List Str) : Outcome :=
  if args = [] then .exit 1 else rcsLoop args []

/-! ### Paths -/

/-- The separator of path components. (src/driver/driver.cpp:1490-1543) -/
def isSlash (c : Char) : Bool := c == '/'
/-- Any other character. (src/driver/driver.cpp:1490-1543) -/
def notSlash (c : Char) : Bool := c != '/'
/-- A character that does not start an extension. (src/driver/driver.cpp:1490-1515) -/
def notDot (c : Char) : Bool := c != '.'

/-- `path::filename`. (src/driver/driver.cpp:1510, 1515) -/
def filename (p : Str) : Str := (p.reverse.takeWhile notSlash).reverse

/-- `path::parent_path`: without the last component and the separators before it. (src/driver/driver.cpp:1496, 1535) -/
def parentPath (p : Str) : Str :=
  let d := p.reverse.dropWhile notSlash
  if d = [] then []
  else
    let r := (d.dropWhile isSlash).reverse
    if r = [] then ['/'] else r

/-- `path::stem` and `path::extension` of a file name. (src/driver/driver.cpp:1490, 1511) -/
def splitExt (f : Str) : Str × Str :=
  if f = ['.'] ∨ f = ['.', '.'] then (f, [])
  else
    let suf := (f.reverse.takeWhile notDot).reverse
    let pre := f.reverse.dropWhile notDot
    if pre = [] then (f, [])
    else if pre.drop 1 = [] then (f, [])
    else ((pre.drop 1).reverse, '.' :: suf)

/-- `validateCaseNamingStyle` (driver.cpp 1487-1543); `mesh` is `model.filename` when it exists and is a
string.  `true` means no exception. -/
def validate (fileExists : Str → Bool) (p : Str) (mesh : Option Str) : Bool :=
  let f := filename p
  if (splitExt f).2 ≠ dotJson then false
  else
    let dir := parentPath p
    if dir = [] then false
    else
      match mesh with
      | none => false
      | some m =>
        let folder := filename dir
        let stem := (splitExt f).1
        if folder ≠ stem then false
        else if filename m ≠ stem ++ dotMsh then false
        else if parentPath m ≠ [] then false
        else fileExists (if dir.getLast? = some '/' then dir ++ (stem ++ dotMsh) else dir ++ '/' :: (stem ++ dotMsh))

/-- `std::string::find` followed by `erase`: removes the first occurrence, `none` if there is none
(`erase` throws then). (src/driver/driver.cpp:895-901, 913-917) -/
def eraseFirst (pat : Str) : Str → Option Str
  | [] => if pat = [] then some [] else none
  | c :: cs =>
    if pat <+: (c :: cs) then some ((c :: cs).drop pat.length)
    else (eraseFirst pat cs).map (c :: ·)

/-- `assembleLauncherMeshString` (driver.cpp 906-924). -/
def launcherMesh (mesh p : Str) : Option Str :=
  (eraseFirst dotJson p).map fun q =>
    let q1 := if dotMsh <:+: mesh then q ++ dotMsh else q
    if dotMesh <:+: mesh then q1 ++ dotMesh else q1

/-- `Model::meshName_` (driver.cpp 1278-1291); `none` is an exception. -/
def meshName (mesh : Str) : Option Str :=
  if dotMsh <:+ mesh then some (mesh.take (mesh.length - 4))
  else if dotMesh <:+ mesh then some (mesh.take (mesh.length - 5))
  else none

end Dgtd.Launch
