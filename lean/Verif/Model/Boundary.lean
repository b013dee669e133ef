import Verif.Py.Msgpack
/-
_BoundaryReader and _BoundaryWriter (collection.py:41-185).

The underlying stream is a byte string with a position; it takes every write in full and returns what is
asked for as long as there is any (BytesIO, buffered files). A Python loop whose end depends on an
invariant is given fuel; running out of it is `unmodelled`.
-/
namespace Verif

/-- `struct.pack(">i", i)`; struct.error is not modelled -/
def packI32 (i : Int) : Except PyErr Bytes :=
  if -0x80000000 ≤ i ∧ i < 0x80000000 then .ok (be 4 (i % 0x100000000).toNat) else .error .unmodelled

/-- a _BoundaryWriter (collection.py:128-142) -/
structure BWriter where
  out : Bytes
  boundary : Nat
  written : Nat
  lastsplit : Nat
  seg : Nat

namespace BWriter

/-- `_BoundaryWriter(outputio, boundary)` on an empty stream (collection.py:129-142) -/
def new (boundary : Nat) : Except PyErr BWriter :=
  if 12 ≤ boundary ∧ boundary ≤ 30 then .ok ⟨[.ofNat boundary], boundary, 1, 1, 0⟩ else .error .value

/-- `split()` (collection.py:153-154) -/
def split (s : BWriter) : BWriter := { s with lastsplit := s.written }

/-- `_write_boundary()` (collection.py:156-167) -/
def writeBoundary (s : BWriter) : Except PyErr BWriter :=
  if (s.written >>> s.boundary) <<< s.boundary ≠ s.written then .error .assertion
  else
    let delta : Int := (s.lastsplit : Int) - s.written
    match packI32 (if delta ≤ -0x80000000 then -0x80000000 else delta) with
    | .error e => .error e
    | .ok b => .ok { s with out := s.out ++ b, written := s.written + 4, seg := s.seg + 1 }

/-- `min(((self.seg + 1) << self.boundary) - self.written, left)` -/
def maxWrite (s : BWriter) (left : Nat) : Int := min (((s.seg + 1) <<< s.boundary : Nat) - (s.written : Int)) left

/-- the loop of `write` (collection.py:174-182); `data` is what is left. A negative `maxwrite` does not occur
and is not modelled. -/
def writeLoop : Nat → BWriter → Bytes → Int → Except PyErr BWriter
  | 0, _, _, _ => .error .unmodelled
  | fuel + 1, s, data, m =>
    if data.length = 0 then .ok s
    else if m < 0 then .error .unmodelled
    else
      let s := { s with out := s.out ++ data.take m.toNat, written := s.written + m.toNat }
      let data := data.drop m.toNat
      if data.length = 0 then .ok s
      else
        match s.writeBoundary with
        | .error e => .error e
        | .ok s => writeLoop fuel s data (s.maxWrite data.length)

/-- `write(data)` (collection.py:169-182) -/
def write (s : BWriter) (data : Bytes) : Except PyErr BWriter :=
  writeLoop (data.length + 2) s data (s.maxWrite data.length)

/-- one call on the writer -/
inductive Op
  | write (data : Bytes)
  | split

/-- calls in order -/
def run (s : BWriter) : List Op → Except PyErr BWriter
  | [] => .ok s
  | .split :: ops => run s.split ops
  | .write d :: ops =>
    match s.write d with
    | .error e => .error e
    | .ok s => run s ops

end BWriter

/-- a _BoundaryReader over a byte string: `pos` is the position of the underlying stream -/
structure BReader where
  raw : Bytes
  pos : Nat
  boundary : Nat
  offset : Nat
  deriving DecidableEq

namespace BReader

/-- `_BoundaryReader(inputio)` at the start of the stream (collection.py:43-51) -/
def new (raw : Bytes) : Except PyErr BReader :=
  match raw with
  | [] => .error .index
  | b :: _ => if b.toNat < 12 ∨ b.toNat > 30 then .error .io else .ok ⟨raw, 1, b.toNat, 0⟩

/-- `_to_absolute(offset)` for an offset ≥ 0 (collection.py:59-65) -/
def toAbsolute (b offset : Nat) : Nat :=
  if offset < 1 <<< b - 1 then offset + 1
  else
    let upper := offset + 1 - 1 <<< b
    (upper / (1 <<< b - 4)) * 4 + 1 <<< b + 4 + upper

/-- `seek(offset)` for an offset ≥ 0 (collection.py:67-75) -/
def seek (s : BReader) (offset : Nat) : BReader := { s with offset := offset, pos := toAbsolute s.boundary offset }

/-- `((offset + 1) >> boundary)*4 + (offset + 1)` (collection.py:78, 83) -/
def guess (b offset : Nat) : Nat := ((offset + 1) >>> b) * 4 + (offset + 1)

/-- the loop of `read` (collection.py:104-110): copied bytes and how many were counted. `cur` is
`current_position`, `rel` is `rel_position`; the slice assignment appends, as `output_position` bytes have
been assigned before and the rest of `output` keeps its zeros. -/
def copyLoop (b : Nat) (all : Bytes) (stop : Nat) : Nat → (output : Bytes) → (outPos rel cur : Nat) → Except PyErr (Bytes × Nat)
  | 0, _, _, _, _ => .error .unmodelled
  | fuel + 1, output, outPos, rel, cur =>
    if cur < stop then
      let m := min (((cur >>> b) + 1) <<< b) stop - cur
      copyLoop b all stop fuel (output.take outPos ++ (all.drop rel).take m ++ output.drop (outPos + m))
        (outPos + m) (rel + 4 + m) (cur + m + 4)
    else .ok (output, outPos)

/-- what `read` takes from the underlying stream (collection.py:79-86) -/
def rawPart (s : BReader) (n : Option Nat) : Bytes :=
  match n with
  | none => s.raw.drop s.pos
  | some n => (s.raw.drop s.pos).take (guess s.boundary (s.offset + n) - guess s.boundary s.offset)

/-- `read(n)` (collection.py:77-115); `none` is -1. The stream's position moves before anything can raise. -/
def read (s : BReader) (n : Option Nat) : BReader × Except PyErr Bytes :=
  let start := guess s.boundary s.offset
  let all := s.rawPart n
  let stop := start + all.length
  let s := { s with pos := s.pos + all.length }
  if all.length = 0 then (s, .ok all)
  else
    let start := if (start >>> s.boundary) <<< s.boundary = start then start + 4 else start
    let num : Int := (stop >>> s.boundary : Nat) - ((start >>> s.boundary : Nat) : Int)
    let real : Int := (stop : Int) - start - num * 4
    let real := if (stop >>> s.boundary) <<< s.boundary = stop then real - 4 else real
    if real < 0 then (s, .error .value)
    else
      match copyLoop s.boundary all stop (stop + 1) (List.replicate real.toNat 0) 0 0 start with
      | .error e => (s, .error e)
      | .ok (output, outPos) =>
        if (outPos : Int) ≠ real then (s, .error .assertion)
        else ({ s with offset := s.offset + real.toNat }, .ok output)

/-- `tell()` (collection.py:117-118) -/
def tell (s : BReader) : Int := (s.pos : Int) - (s.pos >>> s.boundary : Nat) * 4 - 1

end BReader
end Verif
