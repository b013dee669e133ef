import Verif.Model.Boundary
/-
BoundaryWriter and BoundaryReader of the Java library (java/core/src/main/java/se/lth/cs/docria/io/).

Simplifications: `long` counters do not overflow; `(byte[] b, int off, int len)` is the list of the bytes
concerned, `off` and `len` being within the array; the output stream takes every write in full. Exceptions:
IllegalArgumentException is `value`, IOException and EOFException are `io`, IndexOutOfBoundsException is
`index`. A Java loop whose end depends on an invariant is given fuel; running out of it is `unmodelled`.
-/
namespace Verif

/-- a BoundaryWriter (BoundaryWriter.java:25-31) -/
structure JWriter where
  out : Bytes
  boundary : Nat
  written : Nat
  lastsplit : Nat
  seg : Nat
  deriving DecidableEq

namespace JWriter

/-- `new BoundaryWriter(outputStream, boundary)` on an empty stream (BoundaryWriter.java:33-43) -/
def new (boundary : Nat) : Except PyErr JWriter :=
  if boundary < 12 ∨ boundary > 30 then .error .value else .ok ⟨[.ofNat boundary], boundary, 1, 1, 0⟩

/-- `split()` (BoundaryWriter.java:49-51) -/
def split (s : JWriter) : JWriter := { s with lastsplit := s.written }

/-- `writeBoundary()` (BoundaryWriter.java:53-64); `writeInt` writes the low 32 bits, high byte first -/
def writeBoundary (s : JWriter) : JWriter :=
  let delta : Int := (s.lastsplit : Int) - s.written
  let deltapos : Int := if delta < -0x80000000 then -0x80000000 else delta
  { s with out := s.out ++ be 4 (deltapos % 0x100000000).toNat, written := s.written + 4, seg := s.seg + 1 }

/-- `write(int b)` (BoundaryWriter.java:67-74) -/
def writeByte (s : JWriter) (c : UInt8) : JWriter :=
  let s := if (s.written + 1) >>> s.boundary > s.seg then s.writeBoundary else s
  { s with out := s.out ++ [c], written := s.written + 1 }

/-- `Math.min(((seg + 1) << boundary) - written, left)` (BoundaryWriter.java:87, 96) -/
def maxWrite (s : JWriter) (left : Nat) : Int := min (((s.seg + 1) <<< s.boundary : Nat) - (s.written : Int)) left

/-- the loop of `write(byte[], int, int)` (BoundaryWriter.java:88-98); `data` is what is left -/
def writeLoop : Nat → JWriter → Bytes → Int → Except PyErr JWriter
  | 0, _, _, _ => .error .unmodelled
  | fuel + 1, s, data, m =>
    if data.length > 0 then
      if m < 0 then .error .index
      else
        let s := { s with out := s.out ++ data.take m.toNat, written := s.written + m.toNat }
        let data := data.drop m.toNat
        if data.length > 0 then writeLoop fuel s.writeBoundary data (s.writeBoundary.maxWrite data.length)
        else writeLoop fuel s data m
    else .ok s

/-- `write(byte[] b)` and `write(byte[] b, int off, int len)` (BoundaryWriter.java:77-99) -/
def write (s : JWriter) (data : Bytes) : Except PyErr JWriter :=
  writeLoop (data.length + 3) s data (s.maxWrite data.length)

/-- array writes and splits in order -/
def run (s : JWriter) : List BWriter.Op → Except PyErr JWriter
  | [] => .ok s
  | .split :: ops => run s.split ops
  | .write d :: ops =>
    match s.write d with
    | .error e => .error e
    | .ok s => run s ops

end JWriter

/-- an InputStream over a byte string. A read of several bytes returns at least one and at most as many as
the next number of `chunks` says; all there are once `chunks` is used up. `endFirst`: a read of no bytes at
the end answers -1 (ByteArrayInputStream) instead of 0 (the contract of InputStream; FileInputStream,
BufferedInputStream). -/
structure JStream where
  raw : Bytes
  pos : Nat
  chunks : List Nat
  endFirst : Bool

namespace JStream

/-- `read()`; -1 is `none` -/
def read1 (s : JStream) : JStream × Option UInt8 :=
  match s.raw[s.pos]? with
  | none => (s, none)
  | some c => ({ s with pos := s.pos + 1 }, some c)

/-- the most that the next read returns when asked for `n` -/
def limit (s : JStream) (n : Nat) : Nat :=
  match s.chunks with
  | [] => n
  | c :: _ => min n (c + 1)

/-- `read(b, off, n)`; -1 is `none` -/
def readN (s : JStream) (n : Nat) : JStream × Option Bytes :=
  if s.raw.length ≤ s.pos then (s, if n = 0 ∧ s.endFirst = false then some [] else none)
  else if n = 0 then (s, some [])
  else
    let got := (s.raw.drop s.pos).take (s.limit n)
    ({ s with pos := s.pos + got.length, chunks := s.chunks.tail }, some got)

end JStream

/-- a BoundaryReader (BoundaryReader.java:21-24) -/
structure JReader where
  inp : JStream
  seg : Nat
  boundary : Nat
  read : Nat

namespace JReader

/-- `new BoundaryReader(inputStream)` (BoundaryReader.java:26-34) -/
def new (inp : JStream) : Except PyErr JReader :=
  match inp.read1 with
  | (_, none) => .error .io
  | (inp, some c) => if c.toNat < 12 ∨ c.toNat > 30 then .error .io else .ok ⟨inp, 0, c.toNat, 1⟩

/-- the loop of `skipBoundaryValue()` (BoundaryReader.java:79-88): the stream, and whether four bytes were
there; `k` bytes have been read -/
def skipLoop : Nat → Nat → JStream → JStream × Except PyErr Bool
  | 0, _, s => (s, .ok true)
  | left + 1, k, s =>
    match s.read1 with
    | (s, none) => (s, if k = 0 then .ok false else .error .io)
    | (s, some _) => skipLoop left (k + 1) s

/-- `skipBoundaryValue()` (BoundaryReader.java:77-92) -/
def skipBoundaryValue (r : JReader) : JReader × Option PyErr :=
  match skipLoop 4 0 r.inp with
  | (s, .error e) => ({ r with inp := s }, some e)
  | (s, .ok false) => ({ r with inp := s }, none)
  | (s, .ok true) => ({ r with inp := s, read := r.read + 4, seg := r.seg + 1 }, none)

/-- `if(this.read == (seg+1)<<boundary) skipBoundaryValue()` (BoundaryReader.java:66-68, 100-102, 123-125) -/
def atBoundary (r : JReader) : JReader × Option PyErr :=
  if r.read = (r.seg + 1) <<< r.boundary then r.skipBoundaryValue else (r, none)

/-- `read()` (BoundaryReader.java:65-75); -1 is `none` -/
def readOne (r : JReader) : JReader × Except PyErr (Option UInt8) :=
  match r.atBoundary with
  | (r, some e) => (r, .error e)
  | (r, none) =>
    match r.inp.read1 with
    | (s, none) => ({ r with inp := s }, .ok none)
    | (s, some c) => ({ r with inp := s, read := r.read + 1 }, .ok (some c))

/-- the loop of `read(byte[], int, int)` (BoundaryReader.java:99-118): `got` has been read, `left` is still
wanted; -1 is `none`. A negative `maxread` makes `inputStream.read` throw IndexOutOfBoundsException. -/
def readLoop : Nat → JReader → (got : Bytes) → (left : Nat) → JReader × Except PyErr (Option Bytes)
  | 0, r, _, _ => (r, .error .unmodelled)
  | fuel + 1, r, got, left =>
    if left > 0 then
      match r.atBoundary with
      | (r, some e) => (r, .error e)
      | (r, none) =>
        let m : Int := min (left : Int) (((r.seg + 1) <<< r.boundary : Nat) - (r.read : Int))
        if m < 0 then (r, .error .index)
        else
          match r.inp.readN m.toNat with
          | (s, some x) => readLoop fuel { r with inp := s, read := r.read + x.length } (got ++ x) (left - x.length)
          | (s, none) => ({ r with inp := s }, .ok (if got ≠ [] then some got else none))
    else (r, .ok (some got))

/-- `read(byte[] b, int off, int len)` (BoundaryReader.java:95-119) -/
def readArr (r : JReader) (len : Nat) : JReader × Except PyErr (Option Bytes) := readLoop (len + 1) r [] len

/-- `skip(n)` (BoundaryReader.java:122-129) over a stream that skips as much as it can -/
def skip (r : JReader) (n : Nat) : JReader × Except PyErr Nat :=
  match r.atBoundary with
  | (r, some e) => (r, .error e)
  | (r, none) =>
    let m := min n ((r.seg + 1) <<< r.boundary - r.read)
    let k := min m (r.inp.raw.length - r.inp.pos)
    ({ r with inp := { r.inp with pos := r.inp.pos + k } }, .ok k)

/-- `available()` (BoundaryReader.java:132-137) when the stream says that all its bytes are available -/
def available (r : JReader) : Nat :=
  let a := r.inp.raw.length - r.inp.pos
  if r.read = (r.seg + 1) <<< r.boundary then a - 4
  else min (r.read + a) ((r.seg + 1) <<< r.boundary) - r.read

/-- one call that reads -/
inductive Call
  | one
  | arr (len : Nat)

/-- what a call returns: -1 or the bytes -/
def call (r : JReader) : Call → JReader × Except PyErr (Option Bytes)
  | .one =>
    match r.readOne with
    | (r, .error e) => (r, .error e)
    | (r, .ok none) => (r, .ok none)
    | (r, .ok (some c)) => (r, .ok (some [c]))
  | .arr n => r.readArr n

/-- what the calls return, in order -/
def calls (r : JReader) : List Call → List (Except PyErr (Option Bytes))
  | [] => []
  | c :: cs => (r.call c).2 :: (r.call c).1.calls cs

/-- the reader after the calls -/
def after (r : JReader) : List Call → JReader
  | [] => r
  | c :: cs => (r.call c).1.after cs

end JReader

/-- `BoundaryReader.computeLength(boundary, rawStartOffset, rawStopOffset)` (BoundaryReader.java:49-62) -/
def computeLength (boundary start stop : Nat) : Int :=
  let startseg := start >>> boundary
  let endseg := stop >>> boundary
  let delta : Int := (if start = (start >>> boundary) <<< boundary then -4 else 0) +
    (if stop = (stop >>> boundary) <<< boundary then 4 else 0)
  (stop : Int) - start - ((endseg : Int) - startseg) * 4 + delta

end Verif
