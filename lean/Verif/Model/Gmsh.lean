import Mathlib.Data.List.Infix

/-
Model of the Gmsh file normalisation performed before a mesh is loaded.

/repo/src/driver/driver.cpp 1055-1174 (`kPointTypes` … `fixGmshMesh`).

Text is a list of characters.  `std::stoi` throwing is the outcome `none`; it happens before the file is
opened for writing, so the file is then unchanged.  Not modelled: failure to open the file (the function
returns), encodings other than one character per byte, and overflow of the `int` counter `new_id`.
-/
namespace Dgtd.Gmsh

/-- One line of text, without its line feed. (src/driver/driver.cpp:1100-1128) -/
abbrev Line := List Char

/-- `std::isspace` in the C locale, as used by `operator>>` (driver.cpp 1067-1069, 1142-1144). -/
def isSpace (c : Char) : Bool :=
  c == ' ' || c == '\t' || c == '\n' || c == '\r' || c == Char.ofNat 11 || c == Char.ofNat 12

/-- The lines returned by successive calls of `std::getline` (driver.cpp 1105, 1110): a last line without
line feed is returned when it is not empty. -/
def lines : List Char → List Line
  | [] => []
  | c :: r =>
    if c = '\n' then [] :: lines r
    else
      match lines r with
      | [] => [[c]]
      | l :: ls => (c :: l) :: ls

/-- Writing `l << '\n'` for every line (driver.cpp 1170-1172). -/
def unlines (ls : List Line) : List Char :=
  ls.flatMap fun l => l ++ ['\n']

/-- The tokens returned by `while (iss >> tok)` (driver.cpp 1141-1144). -/
def tokens : Line → List Line
  | [] => []
  | c :: r =>
    if isSpace c then tokens r
    else
      match r with
      | [] => [[c]]
      | d :: r' =>
        if isSpace d then [c] :: tokens (d :: r')
        else
          match tokens (d :: r') with
          | [] => [[c]]
          | t :: ts => (c :: t) :: ts

/-- Writing tokens separated by single blanks (driver.cpp 1154-1159). -/
def join : List Line → Line
  | [] => []
  | [t] => t
  | t :: ts => t ++ ' ' :: join ts

/-- `line.find(s) != npos` (driver.cpp 1106, 1116). -/
def has (s : String) (l : Line) : Bool := decide (s.toList <:+: l)

/-- The optional sign in front of a number: (is negative, rest). (src/driver/driver.cpp:1147 through `std::stoi`) -/
def sign : Line → Bool × Line
  | [] => (false, [])
  | c :: r => if c = '-' then (true, r) else if c = '+' then (false, r) else (false, c :: r)

/-- `is >> i` for an `int` (driver.cpp 1069) and, on a token, `std::stoi` (driver.cpp 1147): blanks are
skipped, then a sign and digits are read; `none` when there is no digit or the value is not an `int`.
The second component is what remains to be read. -/
def readInt (l : Line) : Option (Int × Line) :=
  let s := sign (l.dropWhile isSpace)
  let ds := s.2.takeWhile Char.isDigit
  let v : Int := if s.1 then -(Nat.ofDigitChars 10 ds 0 : Int) else (Nat.ofDigitChars 10 ds 0 : Int)
  if ds = [] then none
  else if -2147483648 ≤ v ∧ v ≤ 2147483647 then some (v, s.2.dropWhile Char.isDigit)
  else none

/-- `std::stoi` (driver.cpp 1147). -/
def stoi (t : Line) : Option Int := (readInt t).map Prod.fst

/-- `std::to_string` of a non-negative number (driver.cpp 1152, 1165). -/
def natStr (n : Nat) : Line := Nat.toDigits 10 n

/-- driver.cpp 1057. -/
def kPointTypes : List Int := [15]
/-- driver.cpp 1058. -/
def kLineTypes : List Int := [1, 8, 26, 27, 28]
/-- driver.cpp 1060. -/
def kTetTypes : List Int := [4, 11, 29]
/-- driver.cpp 1061. -/
def kTriTypes : List Int := [2, 9, 20, 21]

/-- The element type read from a line by `iss >> id >> etype` (driver.cpp 1067-1069). -/
def lineType (l : Line) : Option Int :=
  match readInt l with
  | none => none
  | some (_, r) => stoi r

/-- `detectMeshDimension` (driver.cpp 1063-1074); `dim` is the running value, 1 at the start. -/
def detect (dim : Nat) : List Line → Nat
  | [] => dim
  | l :: r =>
    match lineType l with
    | none => detect dim r
    | some t =>
      if t ∈ kTetTypes then 3
      else if t ∈ kTriTypes then detect (max dim 2) r
      else detect dim r

/-- `shouldDeleteElement` (driver.cpp 1076-1081). -/
def shouldDelete (t : Int) (dim : Nat) : Bool :=
  if dim = 3 then decide (t ∈ kPointTypes) || decide (t ∈ kLineTypes)
  else if dim = 2 then decide (t ∈ kPointTypes)
  else false

/-- The three line lists filled while reading. (src/driver/driver.cpp:1096-1129) -/
structure Scan where
  header : List Line
  elems : List Line
  footer : List Line
deriving DecidableEq

/-- The reading loop (driver.cpp 1105-1128). -/
def scan (inEl reading : Bool) (s : Scan) : List Line → Scan
  | [] => s
  | l :: r =>
    if has "$Elements" l && !inEl then
      match r with
      | [] => { s with header := s.header ++ [l] }
      | c :: r' => scan true true { s with header := s.header ++ [l, c] } r'
    else if has "$EndElements" l then
      scan inEl false { s with footer := s.footer ++ [l] } r
    else if reading then
      scan inEl reading { s with elems := s.elems ++ [l] } r
    else if s.footer = [] then
      scan inEl reading { s with header := s.header ++ [l] } r
    else
      scan inEl reading { s with footer := s.footer ++ [l] } r

/-- New text of an element line with the given tokens (driver.cpp 1151-1159). -/
def rewrite (ts : List Line) (id : Nat) : Line :=
  join ((ts.set 3 (ts.getD 4 [])).set 0 (natStr id))

/-- The loop over the element lines (driver.cpp 1140-1160); `id` is `new_id`. -/
def fixElems (dim : Nat) (id : Nat) : List Line → Option (List Line)
  | [] => some []
  | raw :: r =>
    if (tokens raw).length < 5 then fixElems dim id r
    else
      match stoi ((tokens raw).getD 1 []) with
      | none => none
      | some t =>
        if shouldDelete t dim then fixElems dim id r
        else
          match fixElems dim (id + 1) r with
          | none => none
          | some out => some (rewrite (tokens raw) id :: out)

/-- `filepath.substr(filepath.rfind('.')) == ".msh"` (driver.cpp 1087-1089): the part after the last dot is
`msh`. -/
def isMsh (path : List Char) : Bool :=
  decide ('.' ∈ path) && decide ((path.reverse.takeWhile (· ≠ '.')).reverse = "msh".toList)

/-- `fixGmshMesh` (driver.cpp 1083-1174): the content of the file afterwards, `none` when the call
throws. -/
def fixFile (path content : List Char) : Option (List Char) :=
  if isMsh path then
    let s := scan false false ⟨[], [], []⟩ (lines content)
    if s.elems = [] then some content
    else
      match fixElems (detect 1 s.elems) 1 s.elems with
      | none => none
      | some out =>
        some (unlines (s.header.dropLast ++ natStr out.length :: (out ++ s.footer)))
  else some content

end Dgtd.Gmsh
