import Verif.Model.Boundary
import Verif.Model.PyInput
/-
MsgpackDocumentReader (py/docria/collection.py:303-417) on a _BoundaryReader (collection.py:41-127), as in py/tests/test_io.py:49. The unpacker
is that of Verif.Model.PyInput; what it reads from is the boundary reader, on a file that returns all it is asked for.
-/
namespace Verif

/-- how much of the payload a boundary reader has before it; bounds the loops below -/
def BReader.left (r : BReader) : Nat := r.raw.length - 4 * (r.raw.length / 2 ^ r.boundary) - 1 - r.offset

/-- `msgpack.Unpacker(file, raw=False)` on a boundary reader: what it has read and not used, the file object, whether that has come to its end,
`tell()`, and `max_buffer_size` -/
structure BUnpacker where
  buf : Bytes
  inp : BReader
  eof : Bool
  used : Nat
  max : Nat

namespace BUnpacker

/-- the loop of the unpacker's `__next__`: `none` is StopIteration; BufferFull is `.overflow`. The buffer is full when it has `max`
bytes besides the type and length of what is being read, which are at most five. -/
def pull : Nat → BUnpacker → BUnpacker × Except PyErr (Option Obj)
  | 0, u => (u, .error .unmodelled)
  | fuel + 1, u =>
    match unpack u.buf with
    | .ok (o, r) => ({ u with buf := r, used := u.used + (u.buf.length - r.length) }, .ok (some o))
    | .error .outOfData =>
      if u.eof then (u, .ok none)
      else if u.buf.length ≥ u.max + 5 then (u, .error .overflow)
      else
        match u.inp.read (some (min (min u.max (2 ^ 20)) (u.max + 5 - u.buf.length))) with
        | (f, .error e) => ({ u with inp := f }, .error e)
        | (f, .ok b) => pull fuel (if b = [] then { u with inp := f, eof := true } else { u with inp := f, buf := u.buf ++ b })
    | .error e => (u, .error e)

/-- `next(unpacker)`; each turn takes at least one byte of the file, or is the last but one -/
def next (u : BUnpacker) : BUnpacker × Except PyErr (Option Obj) := u.pull (u.inp.left + 2)

/-- `next(unpacker)` in the constructor -/
def must (u : BUnpacker) : Except PyErr (Obj × BUnpacker) :=
  match u.next with
  | (_, .error e) => .error e
  | (_, .ok none) => .error .stopIteration
  | (u, .ok (some o)) => .ok (o, u)

end BUnpacker

/-- `MsgpackDocumentReader` (collection.py:303-331) on a boundary reader; `len` bounds the loop of `__next__` -/
structure BDocs where
  len : Nat
  unp : BUnpacker
  codec : Bytes → Except PyErr Bytes
  num : Obj
  block : Option Block
  lastpos : Nat

namespace BDocs

/-- `MsgpackDocumentReader(inputio)` (collection.py:305-331) -/
def new (reg : Codecs) (max : Nat) (f : BReader) : Except PyErr BDocs :=
  match f.read (some 4) with
  | (_, .error e) => .error e
  | (g, .ok h) =>
    if h ≠ fileMagic then .error .io
    else
      match BUnpacker.must ⟨[], g, false, 0, max⟩ with
      | .error e => .error e
      | .ok (name, u) =>
        match getCodecObj reg name with
        | .error e => .error e
        | .ok c =>
          match u.must with
          | .error e => .error e
          | .ok (num, u) =>
            match u.must with
            | .error e => .error e
            | .ok (adv, u) =>
              match truthy adv with
              | .error e => .error e
              | .ok true => .error .notImplemented
              | .ok false => .ok ⟨f.left, u, c.decompress, num, none, 0⟩

/-- `readblock()` (collection.py:383-392) -/
def readblock (r : BDocs) : BDocs × Except PyErr (Option Block) :=
  let r := { r with lastpos := r.unp.used + 4 }
  match r.unp.next with
  | (u, .error e) => ({ r with unp := u }, .error e)
  | (u, .ok none) => ({ r with unp := u }, .ok none)
  | (u, .ok (some .nil)) => ({ r with unp := u }, .ok none)
  | (u, .ok (some (.bin z))) =>
    match r.codec z with
    | .error e => ({ r with unp := u }, .error e)
    | .ok buf => ({ r with unp := u }, .ok (some (Block.new r.lastpos buf)))
  | (u, .ok (some _)) => ({ r with unp := u }, .error .type)

/-- the part of `__next__` that reads from the current block (collection.py:395-401, 408-414) -/
def fromBlock (r : BDocs) (b : Block) : BDocs × Except PyErr (Option MDoc) :=
  if b.unp.full r.unp.max then ({ r with block := some b }, .error .overflow)
  else
    match b.unp.next with
    | (u, .error e) => ({ r with block := some { b with unp := u } }, .error e)
    | (_, .ok .nil) => ({ r with block := none }, .ok none)
    | (u, .ok o) =>
      match MDoc.ofObj o (r.lastpos, b.tell) with
      | .error e => ({ r with block := some { b with unp := u } }, .error e)
      | .ok d => ({ r with block := some { b with unp := u } }, .ok (some d))

/-- `while self.block is None` (collection.py:403-414) -/
def nextLoop : Nat → BDocs → BDocs × Except PyErr MDoc
  | 0, r => (r, .error .unmodelled)
  | fuel + 1, r =>
    match r.readblock with
    | (r, .error e) => (r, .error e)
    | (r, .ok none) => (r, .error .stopIteration)
    | (r, .ok (some b)) =>
      match ({ r with block := some b }).fromBlock b with
      | (r, .error e) => (r, .error e)
      | (r, .ok none) => nextLoop fuel r
      | (r, .ok (some d)) => (r, .ok d)

/-- `__next__` (collection.py:394-414) -/
def next (r : BDocs) : BDocs × Except PyErr MDoc :=
  match r.block with
  | none => nextLoop (r.len + 1) r
  | some b =>
    match r.fromBlock b with
    | (r, .error e) => (r, .error e)
    | (r, .ok none) => nextLoop (r.len + 1) r
    | (r, .ok (some d)) => (r, .ok d)

/-- what the next `n` calls of `__next__` return -/
def nexts (r : BDocs) : Nat → List (Except PyErr MDoc)
  | 0 => []
  | n + 1 => r.next.2 :: r.next.1.nexts n

end BDocs

end Verif
