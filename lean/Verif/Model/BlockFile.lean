import Verif.Model.Boundary
import Verif.Model.MsgpackCodec
/-
Collections of documents in a block file (py/docria/collection.py:188-529).

Files are byte strings. What is written goes to a log of calls on `outputio`, so that the same writer
serves a plain file and a `_BoundaryWriter`. Readers are modelled on plain files. Not modelled: errors of
the operating system, and closing the file (see Verif.Model.FileSession).
-/
namespace Verif

/-! ### compression codecs (collection.py:244-300) -/

/-- `CompressionCodec` (collection.py:244-248). The functions are parameters of the model. -/
structure CCodec where
  name : Str
  compress : Bytes → Except PyErr Bytes
  decompress : Bytes → Except PyErr Bytes

/-- `_Name2Codec` (collection.py:251) -/
abbrev Codecs := Dict Str CCodec

/-- `register_codec(name, compress, decompress, codec_name)` (collection.py:254-258) -/
def registerCodec (r : Codecs) (name : Str) (compress decompress : Bytes → Except PyErr Bytes)
    (codecName : Option Str) : Except PyErr Codecs :=
  if (dget r name).isSome then .error .value
  else .ok (dset r name ⟨codecName.getD name, compress, decompress⟩)

/-- `get_codec(name)` (collection.py:265-270) -/
def getCodec (r : Codecs) (name : Str) : Except PyErr CCodec :=
  match dget r name with
  | none => .error .notImplemented
  | some c => .ok c

/-- `get_codec` of what was read from a file: a key that is no str is not registered, or not hashable -/
def getCodecObj (r : Codecs) : Obj → Except PyErr CCodec
  | .str s => getCodec r s
  | .arr _ => .error .type
  | .map _ => .error .type
  | _ => .error .notImplemented

/-! ### the writer (collection.py:442-529) -/

/-- what `write` is given (collection.py:487-501): a Document with the options, a MsgpackDocument, or
something else -/
inductive DocArg
  | doc (w : World) (extraOk typeVal : Bool)
  | packed (m : MDoc)
  | other

/-- the bytes of what `write` is given (collection.py:496-501) -/
def DocArg.data : DocArg → Except PyErr Bytes
  | .doc w x t => (w.encodeMsgpack x t).2
  | .packed m => .ok m.raw
  | .other => .error .value

/-- `MsgpackDocumentWriter` (collection.py:444-479): `log` are the calls on outputio, `boundary` says whether
outputio is a `_BoundaryWriter` -/
structure DocWriter where
  boundary : Bool
  log : List BWriter.Op
  block : Bytes
  count : Nat
  codec : CCodec
  num : Int

/-- the magic bytes of a block file, `Dmf1` (collection.py:317, 467) -/
def fileMagic : Bytes := [0x44, 0x6d, 0x66, 0x31]

namespace DocWriter

/-- `outputio.split()` if it is a `_BoundaryWriter` (collection.py:472-473, 520-521) -/
def splits (boundary : Bool) : List BWriter.Op := if boundary then [.split] else []

/-- `MsgpackDocumentWriter(outputio, num_docs_per_block, codec)` (collection.py:444-479) -/
def new (boundary : Bool) (num : Int) (codec : CCodec) : Except PyErr DocWriter :=
  match pack (.str codec.name) with
  | .error e => .error e
  | .ok a =>
    match pack (.int num) with
    | .error e => .error e
    | .ok b =>
      match pack (.bool false) with
      | .error e => .error e
      | .ok c => .ok ⟨boundary, [.write fileMagic, .write a, .write b, .write c] ++ splits boundary, [], 0, codec, num⟩

/-- `flush()` (collection.py:509-524) -/
def flush (s : DocWriter) : DocWriter × Option PyErr :=
  if s.count > 0 then
    match s.codec.compress s.block with
    | .error e => (s, some e)
    | .ok z =>
      match pack (.bin z) with
      | .error e => (s, some e)
      | .ok b => ({ s with log := s.log ++ [.write b] ++ splits s.boundary, block := [], count := 0 }, none)
  else (s, none)

/-- `write(doc)` (collection.py:487-507) -/
def write (s : DocWriter) (a : DocArg) : DocWriter × Option PyErr :=
  match a.data with
  | .error e => (s, some e)
  | .ok d =>
    match pack (.bin d) with
    | .error e => (s, some e)
    | .ok b =>
      let s := { s with block := s.block ++ b, count := s.count + 1 }
      if (s.count : Int) = s.num then s.flush else (s, none)

/-- a call on a writer -/
inductive Call
  | write (a : DocArg)
  | flush

/-- the writer after the call, whether or not it raised -/
def after (s : DocWriter) : Call → DocWriter
  | .write a => (s.write a).1
  | .flush => s.flush.1

/-- the writer after a sequence of calls -/
def run (s : DocWriter) (cs : List Call) : DocWriter := cs.foldl after s

end DocWriter

/-! ### blocks (collection.py:188-241) -/

/-- `msgpack.Unpacker(stream, raw=False)` made when the stream stood at the beginning of `src`; `used` is
`tell()`. After OutOfData the library's `tell()` may differ; nothing reads it then. -/
structure Unpacker where
  src : Bytes
  used : Nat

/-- `next(unpacker, None)` -/
def Unpacker.next (u : Unpacker) : Unpacker × Except PyErr Obj :=
  match unpack (u.src.drop u.used) with
  | .ok (o, rest) => (⟨u.src, u.used + ((u.src.drop u.used).length - rest.length)⟩, .ok o)
  | .error .outOfData => (u, .ok .nil)
  | .error e => (u, .error e)

/-- a reference: a pair of positions -/
def refVal (p : Nat × Nat) : Value := .data (.arr [.int p.1, .int p.2])

/-- `MsgpackDocument(data, ref)` for what an Unpacker returned (codec.py:379-391) -/
def MDoc.ofObj (o : Obj) (ref : Nat × Nat) : Except PyErr MDoc :=
  match o with
  | .bin b => MDoc.ofBytes b (refVal ref)
  | _ => .error .value

/-- `MsgpackDocumentBlock` (collection.py:188-200) -/
structure Block where
  position : Nat
  data : Bytes
  dataread : Nat
  unp : Unpacker

namespace Block

/-- `MsgpackDocumentBlock(position, rawbuffer)` (collection.py:195-199) -/
def new (position : Nat) (data : Bytes) : Block := ⟨position, data, 0, ⟨data, 0⟩⟩

/-- `tell()` (collection.py:206-208) -/
def tell (b : Block) : Nat := b.unp.used + b.dataread

/-- `seek(position)` (collection.py:210-214) for a position ≥ 0 -/
def seek (b : Block) (p : Nat) : Block := { b with dataread := p, unp := ⟨b.data.drop p, 0⟩ }

/-- `__next__` (collection.py:232-241) -/
def next (b : Block) : Block × Except PyErr MDoc :=
  match b.unp.next with
  | (u, .error e) => ({ b with unp := u }, .error e)
  | (u, .ok .nil) => ({ b with unp := u }, .error .stopIteration)
  | (u, .ok o) => ({ b with unp := u }, MDoc.ofObj o (b.position, b.tell))

/-- the loop of `documents()` (collection.py:220-226); each turn takes at least one byte -/
def docsLoop : Nat → (last : Nat) → Block → Block × Except PyErr (List (Nat × MDoc))
  | 0, _, b => (b, .error .unmodelled)
  | fuel + 1, last, b =>
    match b.next with
    | (b, .error .stopIteration) => (b, .ok [])
    | (b, .error e) => (b, .error e)
    | (b, .ok d) =>
      match docsLoop fuel b.tell b with
      | (b, .error e) => (b, .error e)
      | (b, .ok ds) => (b, .ok ((last, d) :: ds))

/-- `documents()` (collection.py:216-226) -/
def documents (b : Block) : Block × Except PyErr (List (Nat × MDoc)) := docsLoop (b.data.length + 1) 0 (b.seek 0)

end Block

/-! ### the reader (collection.py:303-417) -/

/-- `MsgpackDocumentReader` (collection.py:303-331): `base` is `dataread`, the stream's position when the
unpacker was made -/
structure DocReader where
  raw : Bytes
  base : Nat
  unp : Unpacker
  codec : Bytes → Except PyErr Bytes
  num : Obj
  block : Option Block
  lastpos : Nat

namespace DocReader

/-- `next(unpacker)` in the constructor: no default, so StopIteration at the end of the data -/
def must (u : Unpacker) : Except PyErr (Obj × Unpacker) :=
  match unpack (u.src.drop u.used) with
  | .ok (o, rest) => .ok (o, ⟨u.src, u.used + ((u.src.drop u.used).length - rest.length)⟩)
  | .error .outOfData => .error .stopIteration
  | .error e => .error e

/-- `MsgpackDocumentReader(inputio)` at the start of a file (collection.py:305-331). `_lastblockpos` becomes
the position the unpacker has read ahead to, and is assigned again before it is used; here it is 0. -/
def new (reg : Codecs) (raw : Bytes) : Except PyErr DocReader :=
  if raw.take 4 ≠ fileMagic then .error .io
  else
    match must ⟨raw.drop 4, 0⟩ with
    | .error e => .error e
    | .ok (name, u) =>
      match getCodecObj reg name with
      | .error e => .error e
      | .ok c =>
        match must u with
        | .error e => .error e
        | .ok (num, u) =>
          match must u with
          | .error e => .error e
          | .ok (adv, u) =>
            match truthy adv with
            | .error e => .error e
            | .ok true => .error .notImplemented
            | .ok false => .ok ⟨raw, 4, u, c.decompress, num, none, 0⟩

/-- `seek(position)` (collection.py:360-372) -/
def seek (r : DocReader) (p : Nat) : DocReader := { r with block := none, unp := ⟨r.raw.drop p, 0⟩, base := p }

/-- `readblock()` (collection.py:383-392); None is `none`. The codecs take bytes only. -/
def readblock (r : DocReader) : DocReader × Except PyErr (Option Block) :=
  let r := { r with lastpos := r.unp.used + r.base }
  match r.unp.next with
  | (u, .error e) => ({ r with unp := u }, .error e)
  | (u, .ok .nil) => ({ r with unp := u }, .ok none)
  | (u, .ok (.bin z)) =>
    match r.codec z with
    | .error e => ({ r with unp := u }, .error e)
    | .ok buf => ({ r with unp := u }, .ok (some (Block.new r.lastpos buf)))
  | (u, .ok _) => ({ r with unp := u }, .error .type)

/-- the part of `__next__` that reads from the current block (collection.py:395-401, 408-414): `none` if the
block is exhausted, and then the current block is given up -/
def fromBlock (r : DocReader) (b : Block) : DocReader × Except PyErr (Option MDoc) :=
  match b.unp.next with
  | (u, .error e) => ({ r with block := some { b with unp := u } }, .error e)
  | (_, .ok .nil) => ({ r with block := none }, .ok none)
  | (u, .ok o) =>
    match MDoc.ofObj o (r.lastpos, b.tell) with
    | .error e => ({ r with block := some { b with unp := u } }, .error e)
    | .ok d => ({ r with block := some { b with unp := u } }, .ok (some d))

/-- `while self.block is None` (collection.py:403-414); each turn takes at least one byte of the file -/
def nextLoop : Nat → DocReader → DocReader × Except PyErr MDoc
  | 0, r => (r, .error .unmodelled)
  | fuel + 1, r =>
    match r.readblock with
    | (r, .error e) => (r, .error e)
    | (r, .ok none) => (r, .error .stopIteration)
    | (r, .ok (some b)) =>
      match ({ r with block := some b }).fromBlock b with
      | (r, .error e) => (r, .error e)
      | (r, .ok none) => nextLoop fuel r
      | (r, .ok (some d)) => (r, .ok d)

/-- `__next__` (collection.py:394-414) -/
def next (r : DocReader) : DocReader × Except PyErr MDoc :=
  match r.block with
  | none => nextLoop (r.raw.length + 1) r
  | some b =>
    match r.fromBlock b with
    | (r, .error e) => (r, .error e)
    | (r, .ok none) => nextLoop (r.raw.length + 1) r
    | (r, .ok (some d)) => (r, .ok d)

/-- the second part of `get`: `self.block.seek(ref[1]); return next(self.block)` (collection.py:357-358) -/
def getIn (r : DocReader) (b : Block) (off : Nat) : DocReader × Except PyErr MDoc :=
  match (b.seek off).next with
  | (b, x) => ({ r with block := some b }, x)

/-- `self.seek(ref[0]); self.block = self.readblock()` and the second part (collection.py:353-358) -/
def getRead (r : DocReader) (ref : Nat × Nat) : DocReader × Except PyErr MDoc :=
  match (r.seek ref.1).readblock with
  | (r, .error e) => (r, .error e)
  | (r, .ok none) => (r, .error .attribute)
  | (r, .ok (some b)) => r.getIn b ref.2

/-- `get(ref)` (collection.py:342-358) -/
def get (r : DocReader) (ref : Nat × Nat) : DocReader × Except PyErr MDoc :=
  match r.block with
  | none => r.getRead ref
  | some b => if b.position ≠ ref.1 then r.getRead ref else r.getIn b ref.2

/-- the blocks that `blocks()` (collection.py:374-381) yields; each turn takes at least one byte -/
def blocksLoop : Nat → DocReader → DocReader × Except PyErr (List Block)
  | 0, r => (r, .error .unmodelled)
  | fuel + 1, r =>
    match r.readblock with
    | (r, .error e) => (r, .error e)
    | (r, .ok none) => (r, .ok [])
    | (r, .ok (some b)) =>
      match blocksLoop fuel r with
      | (r, .error e) => (r, .error e)
      | (r, .ok bs) => (r, .ok (b :: bs))

/-- all of `blocks()`, read before any other call on the reader -/
def blocks (r : DocReader) : DocReader × Except PyErr (List Block) := blocksLoop (r.raw.length + 1) r

end DocReader

/-- `DocumentReader.__next__` (collection.py:434-439) -/
def DocReader.nextDocument (r : DocReader) : DocReader × Except PyErr World :=
  match r.next with
  | (r, .error e) => (r, .error e)
  | (r, .ok d) => (r, (d.document []).2)

end Verif
