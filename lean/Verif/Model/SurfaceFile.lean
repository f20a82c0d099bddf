/-
Model of the surface data file written during a run and read by the radar-cross-section post-processing
(src/components/RCSSurfaceExporter.cpp, src/components/RCSSurfacePostProcessor.cpp), byte by byte.

A `double` is its 64-bit pattern, stored little-endian; `int32_t` likewise.  The file is the list of bytes written.
-/
import Mathlib.Data.List.Basic
import Mathlib.Data.Nat.Basic

namespace Dgtd.SurfaceFile

/-- A byte of the file. (src/components/RCSSurfaceExporter.cpp:81-153) -/
abbrev Byte := UInt8
/-- A `double`: its bits. (src/components/RCSSurfaceExporter.cpp:81-153) -/
abbrev Dbl := BitVec 64

/-- Little-endian bytes of a number. (src/components/RCSSurfaceExporter.cpp:130-149) -/
def leBytes : Nat → Nat → List Byte
  | 0, _ => []
  | n + 1, x => UInt8.ofNat (x % 256) :: leBytes n (x / 256)

/-- The number with given little-endian bytes. (src/components/RCSSurfacePostProcessor.cpp:76-118) -/
def leValue : List Byte → Nat
  | [] => 0
  | b :: r => b.toNat + 256 * leValue r

/-- The object representation of a `double` and of an `int32_t`. (src/components/RCSSurfaceExporter.cpp:130-149) -/
def dblBytes (d : Dbl) : List Byte := leBytes 8 d.toNat
/-- The same for an `int32_t`. (src/components/RCSSurfaceExporter.cpp:59-69) -/
def intBytes (i : Int) : List Byte := leBytes 4 (BitVec.ofInt 32 i).toNat

/-- The values held by memory with given bytes. (src/components/RCSSurfacePostProcessor.cpp:76-118) -/
def bytesDbl (bs : List Byte) : Dbl := BitVec.ofNat 64 (leValue bs)
/-- The same for an `int32_t`. (src/components/RCSSurfacePostProcessor.cpp:82-88) -/
def bytesInt (bs : List Byte) : Int := (BitVec.ofNat 32 (leValue bs)).toInt

/-- An array of `n` doubles in memory. (src/components/RCSSurfacePostProcessor.cpp:76-118) -/
def bytesDbls : Nat → List Byte → List Dbl
  | 0, _ => []
  | n + 1, bs => bytesDbl (bs.take 8) :: bytesDbls n (bs.drop 8)

/-- An array of doubles as bytes. (src/components/RCSSurfaceExporter.cpp:130-149) -/
def dblsBytes (ds : List Dbl) : List Byte := ds.flatMap dblBytes

/-! ### writer -/

/-- One quadrature point of a boundary face: position, outward normal and weight, as computed by MFEM
(src/components/RCSSurfaceExporter.cpp:99-127). -/
structure QPt where
  pos : Nat → Dbl
  nor : Fin 3 → Dbl
  w : Dbl

/-- A boundary element of the surface mesh: whether its attribute is marked (lines 49, 91), whether MFEM returns a
transformation for it (lines 51, 94), and the points of its integration rule. (src/components/RCSSurfaceExporter.cpp) -/
structure Bdr where
  marked : Bool
  hasTr : Bool
  pts : List QPt

/-- src/components/RCSSurfaceExporter.cpp:47-55: the count of quadrature points for the header. -/
def countPts (bs : List Bdr) : Nat :=
  bs.foldl (fun n b => if b.marked = false then n else if b.hasTr = false then n else n + b.pts.length) 0

/-- The three vectors of `writeGeometry`. (src/components/RCSSurfaceExporter.cpp:81-138) -/
structure Geo where
  positions : List Dbl
  normals : List Dbl
  weights : List Dbl
  deriving DecidableEq, Repr

/-- src/components/RCSSurfaceExporter.cpp:99-127: one quadrature point. -/
def pushPt (sdim : Nat) (g : Geo) (q : QPt) : Geo :=
  { positions := g.positions ++ (List.range sdim).map q.pos
    normals := g.normals ++ [q.nor 0, q.nor 1, q.nor 2]
    weights := g.weights ++ [q.w] }

/-- src/components/RCSSurfaceExporter.cpp:90-128. -/
def collect (sdim : Nat) (bs : List Bdr) : Geo :=
  bs.foldl (fun g b => if b.marked = false then g else if b.hasTr = false then g else b.pts.foldl (pushPt sdim) g)
    ⟨[], [], []⟩

/-- src/components/RCSSurfaceExporter.cpp:81-138 `writeGeometry`. -/
def geoBytes (g : Geo) : List Byte := dblsBytes g.positions ++ dblsBytes g.normals ++ dblsBytes g.weights

/-- src/components/RCSSurfaceExporter.cpp:57-65. -/
def headerBytes (sdim ndofs nbdr nqp basis : Int) : List Byte :=
  intBytes sdim ++ intBytes ndofs ++ intBytes nbdr ++ intBytes nqp ++ intBytes basis

/-- The fields at one instant: time and the six components in the order of the file. (src/components/RCSSurfaceExporter.cpp:140-153) -/
structure Snap where
  time : Dbl
  comps : List (List Dbl)
  deriving DecidableEq, Repr

/-- src/components/RCSSurfaceExporter.cpp:140-153 `writeSnapshot`. -/
def snapBytes (s : Snap) : List Byte := dblBytes s.time ++ s.comps.flatMap dblsBytes

/-- The file after the constructor (lines 10-69) and the calls of `writeSnapshot`. (src/components/RCSSurfaceExporter.cpp) -/
def fileBytes (sdim ndofs : Nat) (basis : Int) (bs : List Bdr) (snaps : List Snap) : List Byte :=
  headerBytes sdim ndofs bs.length (countPts bs) basis ++ geoBytes (collect sdim bs) ++ snaps.flatMap snapBytes

/-! ### reader -/

/-- An input file stream: unread bytes and the two state bits. (src/components/RCSSurfacePostProcessor.cpp:76-118) -/
structure Stream where
  rest : List Byte
  fail : Bool
  eof : Bool
  deriving DecidableEq, Repr

/-- Neither bit is set. (src/components/RCSSurfacePostProcessor.cpp:105-108) -/
def Stream.good (s : Stream) : Bool := !s.fail && !s.eof

/-- `istream::read` into a buffer: on a short read the bytes present are stored and both bits are set; on a stream
that is not good nothing is stored. (src/components/RCSSurfacePostProcessor.cpp:83, 97-102, 107, 113) -/
def Stream.read (s : Stream) (buf : List Byte) : Stream × List Byte :=
  if s.good then
    let got := s.rest.take buf.length
    let short := decide (got.length < buf.length)
    (⟨s.rest.drop buf.length, short, short⟩, got ++ buf.drop got.length)
  else ({ s with fail := true }, buf)

/-- `istream::peek() != EOF`, with the state afterwards. (src/components/RCSSurfacePostProcessor.cpp:105) -/
def Stream.peek (s : Stream) : Stream × Bool :=
  if s.good then
    match s.rest with
    | [] => ({ s with eof := true }, false)
    | _ :: _ => (s, true)
  else ({ s with fail := true }, false)

/-- Reading an array of `n` doubles into a value-initialised `std::vector<double>`.
(src/components/RCSSurfacePostProcessor.cpp:93-102, 112-113) -/
def readDbls (s : Stream) (n : Nat) : Stream × List Dbl :=
  let r := s.read (List.replicate (8 * n) 0)
  (r.1, bytesDbls n r.2)

/-- Lines 110-114: the six vectors. (src/components/RCSSurfacePostProcessor.cpp) -/
def readComps (ndofs : Nat) : Nat → Stream → Stream × List (List Dbl)
  | 0, s => (s, [])
  | k + 1, s =>
    let r := readDbls s ndofs
    let q := readComps ndofs k r.1
    (q.1, r.2 :: q.2)

/-- What the reader returns. (src/components/RCSSurfacePostProcessor.h:11-27, 61-64) -/
structure Data where
  sdim : Int
  ndofs : Int
  nbdr : Int
  nqp : Int
  basis : Int
  positions : List Dbl
  normals : List Dbl
  weights : List Dbl
  snaps : List Snap
  deriving DecidableEq, Repr

/-- How the reader ends. (src/components/RCSSurfacePostProcessor.cpp:76-118) -/
inductive Result
  | data (d : Data)
  /-- a `std::length_error` from `resize` -/
  | error
  /-- undefined behaviour: header read short, or `int` overflow in a size -/
  | undefined
  /-- never reached: `SurfaceFile.snapLoop` ran out of fuel -/
  | stuck
  deriving DecidableEq, Repr

/-- src/components/RCSSurfacePostProcessor.cpp:105-116.  `fuel` bounds the iterations; every iteration that goes on
consumes eight bytes. -/
def snapLoop (ndofs : Nat) : Nat → Stream → List Snap → Option (List Snap)
  | 0, _, _ => none
  | fuel + 1, s, acc =>
    let p := s.peek
    if p.2 = false then some acc
    else
      let r := p.1.read (List.replicate 8 0)
      if r.1.fail then some acc
      else
        let c := readComps ndofs 6 r.1
        snapLoop ndofs fuel c.1 (acc ++ [⟨bytesDbl r.2, c.2⟩])

/-- Result of `int * int`. (src/components/RCSSurfacePostProcessor.cpp:93-102) -/
def mulInt (a b : Int) : Option Int := if -2 ^ 31 ≤ a * b ∧ a * b < 2 ^ 31 then some (a * b) else none

/-- src/components/RCSSurfacePostProcessor.cpp:97-102: positions, normals and weights. -/
def readGeo (np nn nq : Nat) (s : Stream) : Stream × Geo :=
  let p := readDbls s np
  let n := readDbls p.1 nn
  let w := readDbls n.1 nq
  (w.1, ⟨p.2, n.2, w.2⟩)

/-- src/components/RCSSurfacePostProcessor.cpp:104-116, all snapshots.  A negative `numDofs` makes `resize` throw in the
first iteration that gets that far. -/
def readSnaps (ndofs : Int) (s : Stream) : Except Result (List Snap) :=
  if ndofs < 0 then
    if s.peek.2 = true ∧ (s.peek.1.read (List.replicate 8 0)).1.fail = false then .error .error else .ok []
  else
    match snapLoop ndofs.toNat (s.rest.length + 1) s [] with
    | none => .error .stuck
    | some snaps => .ok snaps

/-- The returned structure. (src/components/RCSSurfacePostProcessor.cpp:115-117) -/
def pack (sdim ndofs nbdr nqp basis : Int) (g : Geo) : Except Result (List Snap) → Result
  | .error r => r
  | .ok snaps => .data ⟨sdim, ndofs, nbdr, nqp, basis, g.positions, g.normals, g.weights, snaps⟩

/-- src/components/RCSSurfacePostProcessor.cpp:93-117, once the sizes `np = nqp * sdim`, `nn = nqp * 3` are computed.
Negative sizes make `resize` throw. -/
def readSized (sdim ndofs nbdr nqp basis np nn : Int) (s : Stream) : Result :=
  if np < 0 ∨ nn < 0 ∨ nqp < 0 then .error
  else
    pack sdim ndofs nbdr nqp basis (readGeo np.toNat nn.toNat nqp.toNat s).2
      (readSnaps ndofs (readGeo np.toNat nn.toNat nqp.toNat s).1)

/-- src/components/RCSSurfacePostProcessor.cpp:93-117, after the header. -/
def readBody (sdim ndofs nbdr nqp basis : Int) (s : Stream) : Result :=
  match mulInt nqp sdim with
  | none => .undefined
  | some np =>
    match mulInt nqp 3 with
    | none => .undefined
    | some nn => readSized sdim ndofs nbdr nqp basis np nn s

/-- src/components/RCSSurfacePostProcessor.cpp:75-118 `readRankData` on the contents of the file. -/
def readFile (bytes : List Byte) : Result :=
  let h := (Stream.mk bytes false false).read (List.replicate 20 0)
  if h.1.fail then .undefined
  else
    let f (i : Nat) : Int := bytesInt ((h.2.drop (4 * i)).take 4)
    readBody (f 0) (f 1) (f 2) (f 3) (f 4) h.1

end Dgtd.SurfaceFile
