import Verif.Model.BlockFile
/-
MsgpackDocumentReader (py/docria/collection.py:303-417) on a file object given by the caller: a `RawIOBase` by its annotation
(collection.py:305), whose `read` may return less than it is asked for, and which may not know its position. Verif.Model.BlockFile has
the reader on a file that returns all it is asked for.

msgpack's Unpacker (1.x, the C implementation) reads from the file object as it needs data, at most 1 MiB at a time, and
holds at most `max_buffer_size` bytes, 100 MiB by default; these are the numbers here called `max`. It reads an object from the
beginning whenever it has more data; the library goes on where it stopped, with the same result.
Not modelled: `get` and `seek` on such a file object, exceptions of its `read`.
-/
namespace Verif

/-- a file object: what is left of the file, the most that the next reads return (later ones return all they are
asked for; 0 is a read that returns nothing although the file goes on, as of a pipe that does not wait), and whether it has `tell` -/
structure RawIn where
  rest : Bytes
  plan : List Nat
  tells : Bool

/-- `read(n)` -/
def RawIn.read (f : RawIn) (n : Nat) : RawIn × Bytes :=
  ({ f with rest := f.rest.drop (min n (f.plan.headD n)), plan := f.plan.tail }, f.rest.take (min n (f.plan.headD n)))

/-- `msgpack.Unpacker(file, raw=False)`: what it has read and not used, the file object, whether that has come to its end,
`tell()`, and `max_buffer_size` -/
structure FUnpacker where
  buf : Bytes
  inp : RawIn
  eof : Bool
  used : Nat
  max : Nat

namespace FUnpacker

/-- the loop of the unpacker's `__next__`: `none` is StopIteration; BufferFull is `.overflow`. The buffer is full when it has `max`
bytes besides the type and length of what is being read, which are at most five. -/
def pull : Nat → FUnpacker → FUnpacker × Except PyErr (Option Obj)
  | 0, u => (u, .error .unmodelled)
  | fuel + 1, u =>
    match unpack u.buf with
    | .ok (o, r) => ({ u with buf := r, used := u.used + (u.buf.length - r.length) }, .ok (some o))
    | .error .outOfData =>
      if u.eof then (u, .ok none)
      else if u.buf.length ≥ u.max + 5 then (u, .error .overflow)
      else
        match u.inp.read (min (min u.max (2 ^ 20)) (u.max + 5 - u.buf.length)) with
        | (f, b) => pull fuel (if b = [] then { u with inp := f, eof := true } else { u with inp := f, buf := u.buf ++ b })
    | .error e => (u, .error e)

/-- `next(unpacker)`; each turn takes at least one byte of the file, or is the last but one -/
def next (u : FUnpacker) : FUnpacker × Except PyErr (Option Obj) := u.pull (u.inp.rest.length + 2)

/-- `next(unpacker)` in the constructor -/
def must (u : FUnpacker) : Except PyErr (Obj × FUnpacker) :=
  match u.next with
  | (_, .error e) => .error e
  | (_, .ok none) => .error .stopIteration
  | (u, .ok (some o)) => .ok (o, u)

end FUnpacker

/-- whether an Unpacker on a BytesIO raises BufferFull for its next object: the bytes of it that have to be in the buffer are more
than it holds -/
def Unpacker.full (max : Nat) (u : Unpacker) : Bool :=
  match unpack (u.src.drop u.used) with
  | .ok (_, r) => decide ((u.src.drop u.used).length - r.length > max + 5)
  | .error .outOfData => decide ((u.src.drop u.used).length ≥ max + 5)
  | .error _ => false

/-- `MsgpackDocumentReader` (collection.py:303-331) on such a file object; `len` bounds the loop of `__next__` -/
structure FReader where
  len : Nat
  unp : FUnpacker
  codec : Bytes → Except PyErr Bytes
  num : Obj
  block : Option Block
  lastpos : Nat

namespace FReader

/-- `MsgpackDocumentReader(inputio)` (collection.py:305-331) -/
def new (reg : Codecs) (max : Nat) (f : RawIn) : Except PyErr FReader :=
  match f.read 4 with
  | (g, h) =>
    if h ≠ fileMagic then .error .io
    else
      match FUnpacker.must ⟨[], g, false, 0, max⟩ with
      | .error e => .error e
      | .ok (name, u) =>
        match getCodecObj reg name with
        | .error e => .error e
        | .ok c =>
          match u.must with
          | .error e => .error e
          | .ok (num, u) =>
            match u.must with
            | .error e => .error e
            | .ok (adv, u) =>
              match truthy adv with
              | .error e => .error e
              | .ok true => .error .notImplemented
              | .ok false => if u.inp.tells then .ok ⟨f.rest.length, u, c.decompress, num, none, 0⟩ else .error .io

/-- `readblock()` (collection.py:383-392) -/
def readblock (r : FReader) : FReader × Except PyErr (Option Block) :=
  let r := { r with lastpos := r.unp.used + 4 }
  match r.unp.next with
  | (u, .error e) => ({ r with unp := u }, .error e)
  | (u, .ok none) => ({ r with unp := u }, .ok none)
  | (u, .ok (some .nil)) => ({ r with unp := u }, .ok none)
  | (u, .ok (some (.bin z))) =>
    match r.codec z with
    | .error e => ({ r with unp := u }, .error e)
    | .ok buf => ({ r with unp := u }, .ok (some (Block.new r.lastpos buf)))
  | (u, .ok (some _)) => ({ r with unp := u }, .error .type)

/-- the part of `__next__` that reads from the current block (collection.py:395-401, 408-414) -/
def fromBlock (r : FReader) (b : Block) : FReader × Except PyErr (Option MDoc) :=
  if b.unp.full r.unp.max then ({ r with block := some b }, .error .overflow)
  else
    match b.unp.next with
    | (u, .error e) => ({ r with block := some { b with unp := u } }, .error e)
    | (_, .ok .nil) => ({ r with block := none }, .ok none)
    | (u, .ok o) =>
      match MDoc.ofObj o (r.lastpos, b.tell) with
      | .error e => ({ r with block := some { b with unp := u } }, .error e)
      | .ok d => ({ r with block := some { b with unp := u } }, .ok (some d))

/-- `while self.block is None` (collection.py:403-414) -/
def nextLoop : Nat → FReader → FReader × Except PyErr MDoc
  | 0, r => (r, .error .unmodelled)
  | fuel + 1, r =>
    match r.readblock with
    | (r, .error e) => (r, .error e)
    | (r, .ok none) => (r, .error .stopIteration)
    | (r, .ok (some b)) =>
      match ({ r with block := some b }).fromBlock b with
      | (r, .error e) => (r, .error e)
      | (r, .ok none) => nextLoop fuel r
      | (r, .ok (some d)) => (r, .ok d)

/-- `__next__` (collection.py:394-414) -/
def next (r : FReader) : FReader × Except PyErr MDoc :=
  match r.block with
  | none => nextLoop (r.len + 1) r
  | some b =>
    match r.fromBlock b with
    | (r, .error e) => (r, .error e)
    | (r, .ok none) => nextLoop (r.len + 1) r
    | (r, .ok (some d)) => (r, .ok d)

/-- what the next `n` calls of `__next__` return -/
def nexts (r : FReader) : Nat → List (Except PyErr MDoc)
  | 0 => []
  | n + 1 => r.next.2 :: r.next.1.nexts n

end FReader

end Verif
