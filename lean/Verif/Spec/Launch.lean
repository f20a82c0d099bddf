import Verif.Model.Launch

/-
Specification side of command lines and case naming.
-/
namespace Dgtd.Launch.Spec

/-- The meaningful pieces of a command line. -/
inductive Item where
  | input (path : Str)
  | help
  | device (long : Bool) (name : Str)
  | other (word : Str)

/-- How a piece is written. -/
def Item.words : Item → List Str
  | .input p => [['-', 'i'], p]
  | .help => [['-', 'h']]
  | .device true d => [['-', '-', 'd', 'e', 'v', 'i', 'c', 'e'], d]
  | .device false d => [['-', 'd'], d]
  | .other w => [w]

/-- A command line. -/
def render (items : List Item) : List Str := items.flatMap Item.words

/-- The devices there are. -/
def known (d : Str) : Bool := decide (d = ['c', 'p', 'u'] ∨ d = ['o', 'm', 'p'] ∨ d = ['c', 'u', 'd', 'a'])

/-- Pieces that end the reading of a line. -/
def Item.stops : Item → Bool
  | .help => true
  | .device _ d => !known d
  | _ => false

def Item.path? : Item → Option Str
  | .input p => some p
  | _ => none

def Item.device? : Item → Option Str
  | .device _ d => some d
  | _ => none

/-- Meaning of a command line: help or an unknown device, whichever comes first, decides; otherwise the last
input and the last device count, and the input must contain `.json`. -/
def meaning (items : List Item) : Outcome :=
  match items.find? Item.stops with
  | some .help => .exit 2
  | some _ => .throw
  | none =>
    let path := ((items.filterMap Item.path?).getLast?).getD []
    let dev := ((items.filterMap Item.device?).getLast?).getD ['c', 'p', 'u']
    if ['.', 'j', 's', 'o', 'n'] <:+: path then .run path dev else .exit 3

/-- Words without a meaning of their own. -/
def plain (w : Str) : Prop := w ≠ ['-', 'i'] ∧ w ≠ ['-', 'h'] ∧ w ≠ ['-', 'd'] ∧ w ≠ ['-', '-', 'd', 'e', 'v', 'i', 'c', 'e']

/-- The pieces are unambiguous: other words are no flags, except that the last word of the line may be a flag
whose argument is missing. -/
def WellFormed : List Item → Prop
  | [] => True
  | [.other w] => w ≠ ['-', 'h']
  | .other w :: rest => plain w ∧ WellFormed rest
  | _ :: rest => WellFormed rest

/-- The pieces a post-processor's command line can have. -/
inductive RcsItem where
  | input (path : Str)
  | help
  | other (word : Str)

/-- How such a piece is written. -/
def RcsItem.words : RcsItem → List Str
  | .input p => [['-', 'i'], p]
  | .help => [['-', 'h']]
  | .other w => [w]

/-- Other words are no flags, except that the input flag may end the line. -/
def RcsWellFormed : List RcsItem → Prop
  | [] => True
  | [.other w] => w ≠ ['-', 'h']
  | .other w :: rest => (w ≠ ['-', 'i'] ∧ w ≠ ['-', 'h']) ∧ RcsWellFormed rest
  | _ :: rest => RcsWellFormed rest

def RcsItem.isHelp : RcsItem → Bool
  | .help => true
  | _ => false

def RcsItem.path? : RcsItem → Option Str
  | .input p => some p
  | _ => none

/-- Meaning of such a line: help ends with code 0; otherwise the last input counts, and without one, or with an
empty one, the code is 1.  The post-processor has no device. -/
def rcsMeaning (items : List RcsItem) : Outcome :=
  if items.any RcsItem.isHelp then .exit 0
  else
    match (items.filterMap RcsItem.path?).getLast? with
    | none => .exit 1
    | some p => if p = [] then .exit 1 else .run p []

/-- A consistently named case: `dir` ends with a folder called like the case, the file is
`dir/<case>.json` and names the mesh `<case>.msh`, which exists next to it. -/
structure Consistent (fileExists : Str → Bool) (p : Str) (mesh : Option Str) (before : Str) (slashes : Nat)
    (case : Str) : Prop where
  nonempty : case ≠ []
  oneName : '/' ∉ case
  separator : slashes ≠ 0
  folder : before = [] ∨ before.getLast? = some '/'
  file : p = before ++ case ++ List.replicate slashes '/' ++ case ++ ['.', 'j', 's', 'o', 'n']
  names : mesh = some (case ++ ['.', 'm', 's', 'h'])
  present : fileExists (before ++ case ++ '/' :: (case ++ ['.', 'm', 's', 'h'])) = true

end Dgtd.Launch.Spec
