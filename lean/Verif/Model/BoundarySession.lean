import Verif.Model.Boundary
import Verif.Model.PySession
/-
_BoundaryWriter (py/docria/collection.py:128-185) on a file object that may raise, or write less than it is given and say so
in its return value, which the writer does not look at. Verif.Model.Boundary has the writer on a stream that takes every write in full.
-/
namespace Verif

/-- a _BoundaryWriter (collection.py:129-142) -/
structure BFile where
  sink : PSink
  boundary : Nat
  written : Nat
  lastsplit : Nat
  seg : Nat

namespace BFile

/-- the constructor (collection.py:129-142), and the file object after it -/
def new (sink : PSink) (boundary : Nat) : PSink × Except PyErr BFile :=
  if 12 ≤ boundary ∧ boundary ≤ 30 then
    match sink.write [.ofNat boundary] with
    | (k, some e) => (k, .error e)
    | (k, none) => (k, .ok ⟨k, boundary, 1, 1, 0⟩)
  else (sink, .error .value)

/-- `split()` (collection.py:153-154) -/
def split (s : BFile) : BFile := { s with lastsplit := s.written }

/-- `_write_boundary()` (collection.py:156-167) -/
def writeBoundary (s : BFile) : BFile × Option PyErr :=
  if (s.written >>> s.boundary) <<< s.boundary ≠ s.written then (s, some .assertion)
  else
    let delta : Int := (s.lastsplit : Int) - s.written
    match packI32 (if delta ≤ -0x80000000 then -0x80000000 else delta) with
    | .error e => (s, some e)
    | .ok b =>
      match s.sink.write b with
      | (k, some e) => ({ s with sink := k }, some e)
      | (k, none) => ({ s with sink := k, written := s.written + 4, seg := s.seg + 1 }, none)

/-- `min(((self.seg + 1) << self.boundary) - self.written, left)` -/
def maxWrite (s : BFile) (left : Nat) : Int := min (((s.seg + 1) <<< s.boundary : Nat) - (s.written : Int)) left

/-- the loop of `write` (collection.py:174-182); `data` is what is left -/
def writeLoop : Nat → BFile → Bytes → Int → BFile × Option PyErr
  | 0, s, _, _ => (s, some .unmodelled)
  | fuel + 1, s, data, m =>
    if data.length = 0 then (s, none)
    else if m < 0 then (s, some .unmodelled)
    else
      match s.sink.write (data.take m.toNat) with
      | (k, some e) => ({ s with sink := k }, some e)
      | (k, none) =>
        let s := { s with sink := k, written := s.written + m.toNat }
        let data := data.drop m.toNat
        if data.length = 0 then (s, none)
        else
          match s.writeBoundary with
          | (s, some e) => (s, some e)
          | (s, none) => writeLoop fuel s data (s.maxWrite data.length)

/-- `write(data)` (collection.py:169-182) -/
def write (s : BFile) (data : Bytes) : BFile × Option PyErr :=
  writeLoop (data.length + 2) s data (s.maxWrite data.length)

/-- one call; a call of `close` (collection.py:184-185) ends the session here -/
def call (s : BFile) : BWriter.Op → BFile × Option PyErr
  | .split => (s.split, none)
  | .write d => s.write d

/-- calls in order, whatever they raise -/
def run (s : BFile) : List BWriter.Op → BFile × List (Option PyErr)
  | [] => (s, [])
  | c :: cs => (((s.call c).1.run cs).1, (s.call c).2 :: ((s.call c).1.run cs).2)

end BFile

end Verif
