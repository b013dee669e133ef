import Verif.Model.Boundary
/-
_BoundaryReader (py/docria/collection.py:41-127) on a file object whose `read` may return less than it is asked for, as a `RawIOBase` may
(collection.py:46). Verif.Model.Boundary has the reader on a file that returns all it is asked for.
Not modelled: `read(-1)`, which on a `RawIOBase` reads to the end of the file whatever its `read` returns.
-/
namespace Verif

/-- the part of `read` behind the call of the file object's `read`, which has returned `all` (collection.py:77-115) -/
def BReader.use (s : BReader) (all : Bytes) : BReader × Except PyErr Bytes :=
  let start := BReader.guess s.boundary s.offset
  let stop := start + all.length
  let s := { s with pos := s.pos + all.length }
  if all.length = 0 then (s, .ok all)
  else
    let start := if (start >>> s.boundary) <<< s.boundary = start then start + 4 else start
    let num : Int := (stop >>> s.boundary : Nat) - ((start >>> s.boundary : Nat) : Int)
    let real : Int := (stop : Int) - start - num * 4
    let real := if (stop >>> s.boundary) <<< s.boundary = stop then real - 4 else real
    if real < 0 then (s, .error .value)
    else
      match BReader.copyLoop s.boundary all stop (stop + 1) (List.replicate real.toNat 0) 0 0 start with
      | .error e => (s, .error e)
      | .ok (output, outPos) =>
        if (outPos : Int) ≠ real then (s, .error .assertion)
        else ({ s with offset := s.offset + real.toNat }, .ok output)

/-- a _BoundaryReader, and the most that the next reads of its file object return; later ones return all they are asked for -/
structure BInput where
  r : BReader
  plan : List Nat
  deriving DecidableEq

namespace BInput

/-- what a read that could return `b` does return -/
def cut (plan : List Nat) (b : Bytes) : Bytes :=
  match plan with
  | [] => b
  | k :: _ => b.take k

/-- `_BoundaryReader(inputio)` at the start of the file (collection.py:43-51) -/
def new (raw : Bytes) (plan : List Nat) : Except PyErr BInput :=
  match cut plan (raw.take 1) with
  | [] => .error .index
  | b :: _ => if b.toNat < 12 ∨ b.toNat > 30 then .error .io else .ok ⟨⟨raw, 1, b.toNat, 0⟩, plan.tail⟩

/-- `read(n)` for n ≥ 0 (collection.py:77-115) -/
def read (s : BInput) (n : Nat) : BInput × Except PyErr Bytes :=
  match s.r.use (cut s.plan (s.r.rawPart (some n))) with
  | (r, x) => (⟨r, s.plan.tail⟩, x)

/-- `seek(offset)` for an offset ≥ 0 (collection.py:67-75) -/
def seek (s : BInput) (offset : Nat) : BInput := { s with r := s.r.seek offset }

/-- a call of the reader -/
inductive Call
  | read (n : Nat)
  | seek (offset : Nat)

/-- one call; `seek` returns its argument, which is left out -/
def call (s : BInput) : Call → BInput × Except PyErr Bytes
  | .read n => s.read n
  | .seek o => (s.seek o, .ok [])

/-- the reader after the calls, whatever they raise -/
def after (s : BInput) : List Call → BInput
  | [] => s
  | c :: cs => (s.call c).1.after cs

/-- calls of `read`: what they return -/
def reads (s : BInput) : List Nat → List (Except PyErr Bytes)
  | [] => []
  | n :: ns => (s.read n).2 :: (s.read n).1.reads ns

end BInput

end Verif
