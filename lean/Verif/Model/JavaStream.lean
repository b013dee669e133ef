import Verif.Model.BlockFile
import Verif.Model.JavaBoundary
/-
Block files of the Java library (java/core/src/main/java/se/lth/cs/docria/io/): ByteOutputBuffer,
DeflateCodec, DocumentStreamWriter, DocumentStreamBoundaryWriter, DocumentStreamReader and
MsgpackDocumentStreamReader, which is the same code with another kind of document at the end.

msgpack-core 0.8.18 is modelled by what its calls do to the bytes. Exceptions: IllegalArgumentException is
`value`, IOError and IOException are `io`, MessageInsufficientBufferException is `outOfData`,
MessageTypeException is `type`, MessageIntegerOverflowException and MessageSizeException are `overflow`,
UnsupportedOperationException is `notImplemented`, IndexOutOfBoundsException is `index`. After an exception the
library may stand in the middle of a value; here it stays before it.
-/
namespace Verif

/-! ### MessageUnpacker -/

/-- a length of four bytes; lengths are of type int -/
def jLen32 : P Nat := do
  let n ← takeNat 4
  if n < 0x80000000 then return n else P.fail .overflow

/-- what `unpackBinaryHeader()` and the header part of `unpackString()` do after the type byte: both accept
str and bin -/
def jRawLen (b : Nat) : P Nat := do
  if 0xa0 ≤ b ∧ b < 0xc0 then return b - 0xa0
  else if b = 0xc4 ∨ b = 0xd9 then takeNat 1
  else if b = 0xc5 ∨ b = 0xda then takeNat 2
  else if b = 0xc6 ∨ b = 0xdb then jLen32
  else P.fail .type

/-- `unpackBinaryHeader()` -/
def jBinHeader : P Nat := do jRawLen (ofBe (← P.take 1))

/-- `unpackBinaryHeader()` and `readPayload` of that length; also the bytes of `unpackString()` -/
def jBin : P Bytes := do P.take (← jBinHeader)

/-- an integer after its type byte -/
def jIntOf (b : Nat) : P Int := do
  if b < 0x80 then return (b : Int)
  else if b = 0xcc then return (← takeNat 1)
  else if b = 0xcd then return (← takeNat 2)
  else if b = 0xce then return (← takeNat 4)
  else if b = 0xcf then return (← takeNat 8)
  else if b = 0xd0 then takeInt 1
  else if b = 0xd1 then takeInt 2
  else if b = 0xd2 then takeInt 4
  else if b = 0xd3 then takeInt 8
  else if 0xe0 ≤ b then return (b : Int) - 0x100
  else P.fail .type

/-- an integer of any size -/
def jInteger : P Int := do jIntOf (ofBe (← P.take 1))

/-- an int -/
def jInRange (i : Int) : Except PyErr Int := if -0x80000000 ≤ i ∧ i < 0x80000000 then .ok i else .error .overflow

/-- `unpackInt()` -/
def jInt : P Int := do P.lift (jInRange (← jInteger))

/-- a boolean by its type byte -/
def jBoolOf (b : Nat) : Except PyErr Bool := if b = 0xc2 then .ok false else if b = 0xc3 then .ok true else .error .type

/-- `unpackBoolean()` -/
def jBool : P Bool := do P.lift (jBoolOf (ofBe (← P.take 1)))

/-- skip `n` bytes and say how many values belong to the value -/
def jDrop (n nested : Nat) : P Nat := do
  let _ ← P.take n
  return nested

/-- the part of a value after its type byte: how many values are nested in it -/
def jSkipOf (b : Nat) : P Nat := do
  if b < 0x80 then return 0
  else if b < 0x90 then return 2 * (b - 0x80)
  else if b < 0xa0 then return b - 0x90
  else if b < 0xc0 then jDrop (b - 0xa0) 0
  else if b = 0xc0 then return 0
  else if b = 0xc1 then P.fail .type
  else if b < 0xc4 then return 0
  else if b = 0xc4 ∨ b = 0xd9 then jDrop (← takeNat 1) 0
  else if b = 0xc5 ∨ b = 0xda then jDrop (← takeNat 2) 0
  else if b = 0xc6 ∨ b = 0xdb then jDrop (← jLen32) 0
  else if b = 0xc7 then jDrop ((← takeNat 1) + 1) 0
  else if b = 0xc8 then jDrop ((← takeNat 2) + 1) 0
  else if b = 0xc9 then jDrop ((← jLen32) + 1) 0
  else if b = 0xca then jDrop 4 0
  else if b = 0xcb then jDrop 8 0
  else if b < 0xd0 then jDrop (2 ^ (b - 0xcc)) 0
  else if b < 0xd4 then jDrop (2 ^ (b - 0xd0)) 0
  else if b < 0xd9 then jDrop (2 ^ (b - 0xd4) + 1) 0
  else if b = 0xdc then return (← takeNat 2)
  else if b = 0xdd then return (← jLen32)
  else if b = 0xde then return 2 * (← takeNat 2)
  else if b = 0xdf then return 2 * (← jLen32)
  else return 0

/-- the loop of `skipValue()`: `count` values are still to be skipped; each turn takes at least one byte -/
def jSkipLoop : Nat → Nat → P Unit
  | _, 0 => pure ()
  | 0, _ + 1 => P.fail .unmodelled
  | fuel + 1, count + 1 => do
    let k ← jSkipOf (ofBe (← P.take 1))
    jSkipLoop fuel (count + k)

/-- `skipValue()` -/
def jSkip : P Unit := fun bs => jSkipLoop (bs.length + 1) 1 bs

/-! ### ByteOutputBuffer -/

/-- a ByteOutputBuffer (ByteOutputBuffer.java:23-28): `full` are the arrays of `buffers` before the last one,
which is `current` -/
structure JBuffer where
  buffersize : Nat
  full : List Bytes
  current : Bytes
  pos : Nat
  written : Nat
  deriving DecidableEq

namespace JBuffer

/-- `new ByteOutputBuffer(buffersize)` (ByteOutputBuffer.java:36-40) -/
def new (size : Nat) : JBuffer := ⟨size, [], List.replicate size 0, 0, 0⟩

/-- a new current array (ByteOutputBuffer.java:55-57, 70-72, 85-87) -/
def grow (s : JBuffer) : JBuffer :=
  { s with full := s.full ++ [s.current], current := List.replicate s.buffersize 0, pos := 0 }

/-- `write(int b)` (ByteOutputBuffer.java:53-62) -/
def writeByte (s : JBuffer) (c : UInt8) : Except PyErr JBuffer :=
  let s := if s.pos = s.current.length then s.grow else s
  if s.pos < s.current.length then .ok { s with current := s.current.set s.pos c, pos := s.pos + 1, written := s.written + 1 }
  else .error .index

/-- `System.arraycopy(data, _, current, pos, data.length)` -/
def blit (current : Bytes) (pos : Nat) (data : Bytes) : Bytes := current.take pos ++ data ++ current.drop (pos + data.length)

/-- the loop of `write(byte[], int, int)` (ByteOutputBuffer.java:76-89); `data` is what is left -/
def writeLoop : Nat → JBuffer → Bytes → Except PyErr JBuffer
  | 0, _, _ => .error .unmodelled
  | fuel + 1, s, data =>
    if data.length > 0 then
      let m := min (s.current.length - s.pos) data.length
      let s := { s with current := blit s.current s.pos (data.take m), pos := s.pos + m, written := s.written + m }
      let data := data.drop m
      writeLoop fuel (if s.pos = s.current.length ∧ data.length > 0 then s.grow else s) data
    else .ok s

/-- `write(byte[] data, int offset, int length)` (ByteOutputBuffer.java:68-90) -/
def write (s : JBuffer) (data : Bytes) : Except PyErr JBuffer :=
  writeLoop (data.length + 2) (if s.pos = s.current.length then s.grow else s) data

/-- the loop of `toByteArray()` (ByteOutputBuffer.java:102-108) -/
def collect : List Bytes → Nat → Except PyErr Bytes
  | [], left => if left > 0 then .error .stopIteration else .ok []
  | b :: bs, left =>
    if left > 0 then
      match collect bs (left - min b.length left) with
      | .error e => .error e
      | .ok out => .ok (b.take (min b.length left) ++ out)
    else .ok []

/-- `toByteArray()` (ByteOutputBuffer.java:96-111) -/
def toByteArray (s : JBuffer) : Except PyErr Bytes := collect (s.full ++ [s.current]) s.written

/-- a write -/
inductive Op
  | byte (c : UInt8)
  | arr (d : Bytes)

/-- the writes in order -/
def run (s : JBuffer) : List Op → Except PyErr JBuffer
  | [] => .ok s
  | .byte c :: ops =>
    match s.writeByte c with
    | .error e => .error e
    | .ok s => s.run ops
  | .arr d :: ops =>
    match s.write d with
    | .error e => .error e
    | .ok s => s.run ops

end JBuffer

/-! ### DeflateCodec -/

/-- a Deflater or Inflater that has its input: `out` is what it will give, each call at least one byte of it and
at most as the next number of `chunks` says. `whole`: the input is complete; otherwise, having given all it can,
it answers 0 and is not finished (java.util.zip.Inflater.needsInput, needsDictionary). -/
structure JFlater where
  out : Bytes
  chunks : List Nat
  whole : Bool

namespace JFlater

/-- `deflate(output)` and `inflate(buffer)` for an array of `n` bytes -/
def take (f : JFlater) (n : Nat) : JFlater × Bytes :=
  let k := match f.chunks with
    | [] => n
    | c :: _ => min n (c + 1)
  ({ f with out := f.out.drop k, chunks := f.chunks.tail }, f.out.take k)

/-- `finished()` -/
def finished (f : JFlater) : Bool := f.whole && f.out.isEmpty

/-- the loops of `compress` and `decompress` (DeflateCodec.java:53-56, 79-82) and `toByteArray()` -/
def drain : Nat → JFlater → JBuffer → Except PyErr Bytes
  | 0, _, _ => .error .unmodelled
  | fuel + 1, f, b =>
    match b.write (f.take 1024).2 with
    | .error e => .error e
    | .ok b => if (f.take 1024).1.finished then b.toByteArray else drain fuel (f.take 1024).1 b

/-- `DeflateCodec.compress(data)` and `decompress(data)` (DeflateCodec.java:32-90), given what the library makes
of `data` -/
def codec (fuel : Nat) (f : JFlater) : Except PyErr Bytes := drain fuel f (JBuffer.new 1024)

end JFlater

/-! ### DocumentStreamWriter -/

/-- a DocumentStreamWriter (DocumentStreamWriter.java:29-36). `log` are the calls on the output stream, `held` is
what `packer` has not handed over yet, `boundary` says that it is a DocumentStreamBoundaryWriter. -/
structure JDocWriter where
  boundary : Bool
  log : List BWriter.Op
  held : Bytes
  block : Bytes
  count : Nat
  compress : Bytes → Bytes
  num : Int

namespace JDocWriter

/-- the names of `Codec` (DocumentStreamWriter.java:38-41) -/
def codecNames : List Str := ["none".toList, "zip".toList, "zipsq".toList]

/-- the constructor (DocumentStreamWriter.java:64-80; DocumentStreamBoundaryWriter.java:24-54). How many bytes of
the header the packer hands over at once is up to the library: `early` (it writes the magic bytes at once if it
has no buffer yet). What it hands over later goes in one write here; the library may cut it. -/
def new (boundary : Bool) (early : Nat) (num : Int) (name : Str) (compress : Bytes → Bytes) : Except PyErr JDocWriter :=
  if num < 1 then .error .value
  else
    match cat (pack (.str name)) (pack (.int num)) with
    | .error e => .error e
    | .ok h =>
      let hd := fileMagic ++ h ++ [0xc2]
      .ok ⟨boundary, [.write (hd.take early)], hd.drop early, [], 0, compress, num⟩

/-- `flushblock()` (DocumentStreamWriter.java:82-94, DocumentStreamBoundaryWriter.java:57-60) -/
def flushblock (s : JDocWriter) : Except PyErr JDocWriter :=
  match pack (.bin (s.compress s.block)) with
  | .error e => .error e
  | .ok b => .ok { s with log := s.log ++ DocWriter.splits s.boundary ++ [.write (s.held ++ b)], held := [], block := [], count := 0 }

/-- `write(byte[] msgpackBlob)` (DocumentStreamWriter.java:96-106) -/
def write (s : JDocWriter) (d : Bytes) : Except PyErr JDocWriter :=
  match pack (.bin d) with
  | .error e => .error e
  | .ok b =>
    let s := { s with block := s.block ++ b, count := s.count + 1 }
    if (s.count : Int) = s.num then s.flushblock else .ok s

/-- `flush()`, and what `close()` does to the bytes (DocumentStreamWriter.java:116-134) -/
def flush (s : JDocWriter) : Except PyErr JDocWriter := if s.count > 0 then s.flushblock else .ok s

/-- a call -/
inductive Call
  | write (d : Bytes)
  | flush

/-- the calls in order -/
def run (s : JDocWriter) : List Call → Except PyErr JDocWriter
  | [] => .ok s
  | .write d :: cs =>
    match s.write d with
    | .error e => .error e
    | .ok s => s.run cs
  | .flush :: cs =>
    match s.flush with
    | .error e => .error e
    | .ok s => s.run cs

end JDocWriter

/-! ### DocumentStreamReader -/

/-- a DocumentStreamReader (DocumentStreamReader.java:31-34, 79): `rest` is what `unpacker` has not read, `blks`
are the unpackers made for blocks, by what they have not read, `block` is the field -/
structure JDocReader where
  rest : Bytes
  codec : Bytes → Except PyErr Bytes
  num : Int
  blks : List Bytes
  block : Option Nat

namespace JDocReader

/-- the switch on the name of the codec (DocumentStreamReader.java:52-65). The name is compared as bytes: the
three names are ASCII. -/
def codecOf (unzip : Bytes → Except PyErr Bytes) (name : Bytes) : Except PyErr (Bytes → Except PyErr Bytes) :=
  if name = utf8Encode "none".toList then .ok .ok
  else if name = utf8Encode "zip".toList then .ok unzip
  else if name = utf8Encode "zipsq".toList then .ok fun x => do unzip (← unzip x)
  else .error .notImplemented

/-- the choice of the codec (DocumentStreamReader.java:49-66) -/
def pickCodec (unzip : Bytes → Except PyErr Bytes) (codecfn : Option (Bytes → Except PyErr Bytes)) : P (Bytes → Except PyErr Bytes) :=
  match codecfn with
  | some f => pure f
  | none => do P.lift (codecOf unzip (← jBin))

/-- `new DocumentStreamReader(inputStream, codecfn)` (DocumentStreamReader.java:36-77) on a stream that gives the
bytes `raw` -/
def new (unzip : Bytes → Except PyErr Bytes) (codecfn : Option (Bytes → Except PyErr Bytes)) (raw : Bytes) : Except PyErr JDocReader :=
  match P.take 4 raw with
  | .error e => .error e
  | .ok (m, rest) =>
    if m ≠ fileMagic then .error .io
    else
      match pickCodec unzip codecfn rest with
      | .error e => .error e
      | .ok (codec, rest) =>
        match jInt rest with
        | .error e => .error e
        | .ok (num, rest) =>
          match jBool rest with
          | .error e => .error e
          | .ok (true, _) => .error .notImplemented
          | .ok (false, rest) => .ok ⟨rest, codec, num, [], none⟩

/-- the loop of `readNextBlock()` (DocumentStreamReader.java:83-98); each turn takes at least one byte -/
def readLoop : Nat → JDocReader → JDocReader × Except PyErr (Option Nat)
  | 0, r => (r, .error .unmodelled)
  | fuel + 1, r =>
    if r.rest = [] then (r, .ok none)
    else
      match jBin r.rest with
      | .error e => (r, .error e)
      | .ok (z, rest) =>
        match r.codec z with
        | .error e => ({ r with rest := rest }, .error e)
        | .ok d =>
          let r := { r with rest := rest, blks := r.blks ++ [d], block := some r.blks.length }
          if d ≠ [] then (r, .ok r.block) else readLoop fuel r

/-- `readNextBlock()` (DocumentStreamReader.java:81-104): the unpacker, by its number; it is also the field -/
def readNextBlock (r : JDocReader) : JDocReader × Except PyErr (Option Nat) := readLoop (r.rest.length + 1) r

/-- `block = readNextBlock()` -/
def refill (r : JDocReader) : JDocReader × Except PyErr (Option Nat) :=
  match r.readNextBlock with
  | (r, .error e) => (r, .error e)
  | (r, .ok b) => ({ r with block := b }, .ok b)

/-- `if(block == null) block = readNextBlock()` (DocumentStreamReader.java:128-132, 200-204, 218-222, 249-253) -/
def current (r : JDocReader) : JDocReader × Except PyErr (Option Nat) :=
  match r.block with
  | none => r.refill
  | some i => (r, .ok (some i))

/-- what unpacker `i` has not read -/
def left (r : JDocReader) (i : Nat) : Bytes := r.blks[i]?.getD []

/-- unpacker `i` has gone on to `rest` -/
def moved (r : JDocReader) (i : Nat) (rest : Bytes) : JDocReader := { r with blks := r.blks.set i rest }

/-- `if(!block.hasNext()) block = null` (DocumentStreamReader.java:137-138, 207-208) -/
def giveUp (r : JDocReader) (i : Nat) : JDocReader := if r.left i = [] then { r with block := none } else r

/-- `nextRaw()` (DocumentStreamReader.java:126-144); null is `none` -/
def nextRaw (r : JDocReader) : JDocReader × Except PyErr (Option Bytes) :=
  match r.current with
  | (r, .error e) => (r, .error e)
  | (r, .ok none) => (r, .ok none)
  | (r, .ok (some i)) =>
    match jBin (r.left i) with
    | .error e => (r, .error e)
    | .ok (d, rest) => ((r.moved i rest).giveUp i, .ok (some d))

/-- `skip()` (DocumentStreamReader.java:198-214) -/
def skip (r : JDocReader) : JDocReader × Except PyErr Bool :=
  match r.current with
  | (r, .error e) => (r, .error e)
  | (r, .ok none) => (r, .ok false)
  | (r, .ok (some i)) =>
    match jSkip (r.left i) with
    | .error e => (r, .error e)
    | .ok (_, rest) => ((r.moved i rest).giveUp i, .ok true)

/-- the loops of `skip(n)` and `count()` (DocumentStreamReader.java:224-239, 255-268): `n` is none for `count()`,
`k` is the number so far, `i` is the current block -/
def skipLoop (n : Option Int) : Nat → JDocReader → (i : Nat) → (k : Nat) → JDocReader × Except PyErr Nat
  | 0, r, _, _ => (r, .error .unmodelled)
  | fuel + 1, r, i, k =>
    if n.all (fun n => decide ((k : Int) < n)) then
      match jSkip (r.left i) with
      | .error e => (r, .error e)
      | .ok (_, rest) =>
        if rest = [] then
          match (r.moved i rest).refill with
          | (r, .error e) => (r, .error e)
          | (r, .ok none) => (r, .ok (k + 1))
          | (r, .ok (some j)) => skipLoop n fuel r j (k + 1)
        else skipLoop n fuel (r.moved i rest) i (k + 1)
    else (r, .ok k)

/-- what `skip(n)` and `count()` have in common. `bound` is the number of turns the loop is given. -/
def skips (n : Option Int) (bound : Nat) (r : JDocReader) : JDocReader × Except PyErr Nat :=
  match r.current with
  | (r, .error e) => (r, .error e)
  | (r, .ok none) => (r, .ok 0)
  | (r, .ok (some i)) => skipLoop n bound r i 0

/-- `skip(n)` (DocumentStreamReader.java:216-240) -/
def skipN (bound : Nat) (r : JDocReader) (n : Int) : JDocReader × Except PyErr Nat := r.skips (some n) bound

/-- `count()` (DocumentStreamReader.java:247-269) -/
def count (bound : Nat) (r : JDocReader) : JDocReader × Except PyErr Nat := r.skips none bound

/-- `skipBlock()` (DocumentStreamReader.java:183-196) -/
def skipBlock (r : JDocReader) : JDocReader × Except PyErr Bool :=
  if r.rest = [] then (r, .ok false)
  else
    match jSkip r.rest with
    | .error e => (r, .error e)
    | .ok (_, rest) => ({ r with rest := rest }, .ok true)

/-- `nextBlock()` (DocumentStreamReader.java:153-181): the unpacker that the stream reads; null is `none` -/
def nextBlock (r : JDocReader) : JDocReader × Except PyErr (Option Nat) := r.readNextBlock

/-- the next document of the stream over unpacker `i` (DocumentStreamReader.java:158-178), raw; `none` at its end -/
def streamNext (r : JDocReader) (i : Nat) : JDocReader × Except PyErr (Option Bytes) :=
  if r.left i = [] then (r, .ok none)
  else
    match jBin (r.left i) with
    | .error e => (r, .error e)
    | .ok (d, rest) => (r.moved i rest, .ok (some d))

/-- a call that reads or skips documents -/
inductive Call
  | next
  | skip
  | skipN (n : Int)
  | count

/-- what a call returns -/
inductive Ans
  | doc (d : Option Bytes)
  | flag (b : Bool)
  | num (n : Nat)
  deriving DecidableEq

/-- a call; the loops of `skip(n)` and `count()` are given `bound` turns -/
def call (bound : Nat) (r : JDocReader) : Call → JDocReader × Except PyErr Ans
  | .next => (r.nextRaw.1, r.nextRaw.2.map .doc)
  | .skip => (r.skip.1, r.skip.2.map .flag)
  | .skipN n => ((r.skipN bound n).1, (r.skipN bound n).2.map .num)
  | .count => ((r.count bound).1, (r.count bound).2.map .num)

/-- what some calls return -/
def calls (bound : Nat) (r : JDocReader) : List Call → List (Except PyErr Ans)
  | [] => []
  | c :: cs => (r.call bound c).2 :: (r.call bound c).1.calls bound cs

end JDocReader

end Verif
