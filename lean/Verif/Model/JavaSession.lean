import Verif.Model.JavaStream
/-
DocumentStreamWriter (java/core/src/main/java/se/lth/cs/docria/io/DocumentStreamWriter.java) on an output stream that
may raise: every call with what it leaves behind. Verif.Model.JavaStream has the same class on a stream that
never raises. Exceptions as there; IOError and IOException are both `io`.
-/
namespace Verif

/-- a java.io.OutputStream: what has arrived, whether it is closed, and what becomes of the next calls on it: `none`
works, `some k` raises IOException after `k` bytes. Calls beyond the list work. -/
structure JSink where
  out : Bytes
  closed : Bool
  rule : List (Option Nat)

namespace JSink

/-- `write(byte[])`. A closed stream raises, as FileOutputStream does. -/
def write (s : JSink) (b : Bytes) : JSink × Option PyErr :=
  if s.closed then (s, some .io)
  else
    match s.rule.headD none with
    | none => ({ s with out := s.out ++ b, rule := s.rule.tail }, none)
    | some k => ({ s with out := s.out ++ b.take k, rule := s.rule.tail }, some .io)

/-- `flush()`. On a closed stream nothing happens. -/
def flush (s : JSink) : JSink × Option PyErr :=
  if s.closed then (s, none) else ({ s with rule := s.rule.tail }, (s.rule.headD none).map (fun _ => .io))

/-- `close()`. The stream is closed also if it raises; closing it again does nothing. -/
def close (s : JSink) : JSink × Option PyErr :=
  if s.closed then (s, none) else ({ s with closed := true, rule := s.rule.tail }, (s.rule.headD none).map (fun _ => .io))

end JSink

/-- an org.msgpack.core.MessagePacker on a stream, with a buffer of `size` bytes (8192 by default), which is null at
first and after it was handed over -/
structure JPacker where
  sink : JSink
  buf : Option Bytes
  size : Nat

namespace JPacker

/-- a call on the packer: what it leaves behind, and the exception -/
abbrev Act := JPacker → JPacker × Option PyErr

/-- calls in order, up to the first exception -/
def seq : List Act → Act
  | [], p => (p, none)
  | a :: as, p =>
    match a p with
    | (p, some e) => (p, some e)
    | (p, none) => seq as p

/-- `flushBuffer()`: if the stream raises, the buffer stays as it is -/
def flushBuffer : Act := fun p =>
  match p.sink.write (p.buf.getD []) with
  | (k, some e) => ({ p with sink := k }, some e)
  | (k, none) => ({ p with sink := k, buf := none }, none)

/-- `out.flush()` -/
def flushSink : Act := fun p => ({ p with sink := p.sink.flush.1 }, p.sink.flush.2)

/-- `out.add(src, off, len)`: to the stream directly -/
def add (b : Bytes) : Act := fun p => ({ p with sink := (p.sink.write b).1 }, (p.sink.write b).2)

/-- `flush()` -/
def flush : Act := fun p => if (p.buf.getD []).isEmpty then flushSink p else seq [flushBuffer, flushSink] p

/-- bytes into the buffer -/
def append (b : Bytes) : Act := fun p => ({ p with buf := some (p.buf.getD [] ++ b) }, none)

/-- `ensureCapacity(n)`, then the bytes of a number or a header -/
def put (b : Bytes) : Act := fun p =>
  match p.buf with
  | none => append b p
  | some x => if x.length + b.length ≥ p.size then seq [flushBuffer, append b] p else append b p

/-- `addPayload(src)`; the threshold (8192) is the size of the buffer -/
def payload (b : Bytes) : Act := fun p =>
  match p.buf with
  | none => seq [flush, add b] p
  | some x => if p.size - x.length < b.length ∨ b.length > p.size then seq [flush, add b] p else append b p

end JPacker

/-- no array of Java is longer; OutOfMemoryError is `overflow` here -/
def jArray (b : Bytes) : Except PyErr Bytes := if b.length < 2 ^ 31 then .ok b else .error .overflow

/-- a DocumentStreamWriter (DocumentStreamWriter.java:29-36) -/
structure JSession where
  packer : JPacker
  block : Bytes
  count : Nat
  compress : Bytes → Bytes
  num : Int

namespace JSession

/-- the constructor (DocumentStreamWriter.java:64-80), and the stream after it. The names of `Codec` are short: their
header is one byte. -/
def new (sink : JSink) (size : Nat) (num : Int) (name : Str) (compress : Bytes → Bytes) : JSink × Except PyErr JSession :=
  if num < 1 then (sink, .error .value)
  else
    match pack (.str name), pack (.int num) with
    | .ok a, .ok b =>
      match JPacker.seq [JPacker.payload fileMagic, JPacker.put (a.take 1), JPacker.payload (a.drop 1), JPacker.put b, JPacker.put [0xc2]] ⟨sink, none, size⟩ with
      | (p, some e) => (p.sink, .error e)
      | (p, none) => (p.sink, .ok ⟨p, [], 0, compress, num⟩)
    | .error e, _ => (sink, .error e)
    | _, .error e => (sink, .error e)

/-- `flushblock()` (DocumentStreamWriter.java:82-94): the block is given up only after everything went well -/
def flushblock (s : JSession) : JSession × Option PyErr :=
  match jArray (s.compress s.block) with
  | .error e => (s, some e)
  | .ok z =>
    match packBinHead z.length with
    | .error e => (s, some e)
    | .ok h =>
      match JPacker.seq [JPacker.put h, JPacker.payload z, JPacker.flush] s.packer with
      | (p, some e) => ({ s with packer := p }, some e)
      | (p, none) => ({ s with packer := p, block := [], count := 0 }, none)

/-- `write(byte[] msgpackBlob)` and `write(Document doc)` (DocumentStreamWriter.java:96-114); `.error` is a document that
cannot be encoded -/
def write (s : JSession) (a : Except PyErr Bytes) : JSession × Option PyErr :=
  match a with
  | .error e => (s, some e)
  | .ok d =>
    match jArray d with
    | .error e => (s, some e)
    | .ok d =>
      match pack (.bin d) with
      | .error e => (s, some e)
      | .ok b =>
        let s := { s with block := s.block ++ b, count := s.count + 1 }
        if (s.count : Int) = s.num then s.flushblock else (s, none)

/-- `flush()` (DocumentStreamWriter.java:116-125) -/
def flush (s : JSession) : JSession × Option PyErr :=
  match if s.count > 0 then s.flushblock else (s, none) with
  | (s, some e) => (s, some e)
  | (s, none) => ({ s with packer := (JPacker.flushSink s.packer).1 }, (JPacker.flushSink s.packer).2)

/-- `close()` (DocumentStreamWriter.java:127-134) -/
def close (s : JSession) : JSession × Option PyErr :=
  match s.flush with
  | (s, some e) => (s, some e)
  | (s, none) => ({ s with packer := { s.packer with sink := s.packer.sink.close.1 } }, s.packer.sink.close.2)

/-- a call -/
inductive Call
  | write (a : Except PyErr Bytes)
  | flush
  | close

/-- a call, its exception caught -/
def call (s : JSession) : Call → JSession × Option PyErr
  | .write a => s.write a
  | .flush => s.flush
  | .close => s.close

/-- calls in order, exceptions being caught: what is left, and what each of them raised -/
def run (s : JSession) : List Call → JSession × List (Option PyErr)
  | [] => (s, [])
  | c :: cs => (((s.call c).1.run cs).1, (s.call c).2 :: ((s.call c).1.run cs).2)

/-- what has arrived at the stream -/
def out (s : JSession) : Bytes := s.packer.sink.out

end JSession

end Verif
