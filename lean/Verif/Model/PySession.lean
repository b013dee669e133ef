import Verif.Model.BlockFile
/-
MsgpackDocumentWriter (py/docria/collection.py:442-529) on a file object given by the caller: a `RawIOBase` by its annotation
(collection.py:445), whose `write` may raise, and may write less than it is given and say so in its return value, which
the writer does not look at. The file object is not a `_BoundaryWriter`. Verif.Model.FileSession has the writer on a
file by name, Verif.Model.BlockFile on a file that never raises.
-/
namespace Verif

/-- what becomes of a call on a file object: it works, it writes `k` bytes only and returns, it raises OSError after `k` bytes -/
inductive Fate
  | ok
  | short (k : Nat)
  | raise (k : Nat)
deriving DecidableEq

/-- a file object: what has arrived, whether it is closed, and what becomes of the next calls; calls beyond the list work -/
structure PSink where
  out : Bytes
  closed : Bool
  rule : List Fate

namespace PSink

/-- `write(b)`; a closed file raises ValueError -/
def write (s : PSink) (b : Bytes) : PSink × Option PyErr :=
  if s.closed then (s, some .value)
  else
    match s.rule.headD .ok with
    | .ok => ({ s with out := s.out ++ b, rule := s.rule.tail }, none)
    | .short k => ({ s with out := s.out ++ b.take k, rule := s.rule.tail }, none)
    | .raise k => ({ s with out := s.out ++ b.take k, rule := s.rule.tail }, some .io)

/-- `close()`: closed also if it raises, and closing again does nothing -/
def close (s : PSink) : PSink × Option PyErr :=
  if s.closed then (s, none)
  else
    ({ s with closed := true, rule := s.rule.tail },
      match s.rule.headD .ok with
      | .raise _ => some .io
      | _ => none)

/-- writes one after the other, until one raises; an error is an argument that cannot be packed -/
def writeParts (s : PSink) : List (Except PyErr Bytes) → PSink × Option PyErr
  | [] => (s, none)
  | .error e :: _ => (s, some e)
  | .ok b :: ps =>
    match s.write b with
    | (s, some e) => (s, some e)
    | (s, none) => s.writeParts ps

end PSink

/-- a MsgpackDocumentWriter (collection.py:464-479); `compress` is `self.codec`, which does not raise here -/
structure PSession where
  sink : PSink
  block : Bytes
  count : Nat
  compress : Bytes → Bytes
  num : Int

namespace PSession

/-- the constructor (collection.py:444-479), and the file object after it -/
def new (sink : PSink) (num : Int) (name : Str) (compress : Bytes → Bytes) : PSink × Except PyErr PSession :=
  match sink.writeParts [.ok fileMagic, pack (.str name), pack (.int num), pack (.bool false)] with
  | (k, some e) => (k, .error e)
  | (k, none) => (k, .ok ⟨k, [], 0, compress, num⟩)

/-- `flush()` (collection.py:509-524) -/
def flush (s : PSession) : PSession × Option PyErr :=
  if s.count > 0 then
    match pack (.bin (s.compress s.block)) with
    | .error e => (s, some e)
    | .ok b =>
      match s.sink.write b with
      | (k, some e) => ({ s with sink := k }, some e)
      | (k, none) => ({ s with sink := k, block := [], count := 0 }, none)
  else (s, none)

/-- `write(doc)` (collection.py:487-507); `.error` is a document that cannot be encoded, or not a document -/
def write (s : PSession) (a : Except PyErr Bytes) : PSession × Option PyErr :=
  match a with
  | .error e => (s, some e)
  | .ok d =>
    match pack (.bin d) with
    | .error e => (s, some e)
    | .ok b =>
      let s := { s with block := s.block ++ b, count := s.count + 1 }
      if (s.count : Int) = s.num then s.flush else (s, none)

/-- `close()` (collection.py:526-529) -/
def close (s : PSession) : PSession × Option PyErr :=
  match s.flush with
  | (s, some e) => (s, some e)
  | (s, none) => ({ s with sink := s.sink.close.1 }, s.sink.close.2)

/-- a call -/
inductive Call
  | write (a : Except PyErr Bytes)
  | flush
  | close

/-- a call, its exception caught -/
def call (s : PSession) : Call → PSession × Option PyErr
  | .write a => s.write a
  | .flush => s.flush
  | .close => s.close

/-- calls in order, exceptions being caught: what is left, and what each of them raised -/
def run (s : PSession) : List Call → PSession × List (Option PyErr)
  | [] => (s, [])
  | c :: cs => (((s.call c).1.run cs).1, (s.call c).2 :: ((s.call c).1.run cs).2)

end PSession

end Verif
