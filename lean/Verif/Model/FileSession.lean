import Verif.Model.BlockFile
/-
Writing a document file by name (py/docria/collection.py:442-529, 633-635): opening modes, Python's buffered file,
close(), calls after close(), and the `with` statement.

The writer of Verif.Model.BlockFile is the same without the file object. Here the output is a file that `open` made, so
never a `_BoundaryWriter`. The disk has room and permits everything; only the existence of a file matters. `+`, `t` and
`r` in the mode are not modelled.
-/
namespace Verif

/-- the files by name -/
abbrev Disk := Str → Option Bytes

/-- what `open(path, "…b")` returns (CPython, Modules/_io/bufferedio.c, BufferedWriter): what has reached the disk since
the file was opened, and the bytes not yet there -/
structure OutFile where
  disk : Bytes
  buf : Bytes
  closed : Bool

namespace OutFile

/-- everything written -/
def all (f : OutFile) : Bytes := f.disk ++ f.buf

/-- `f.write(b)` with a buffer of `size` bytes (_io_BufferedWriter_write_impl): ValueError if the file is closed; what
fits stays in the buffer, otherwise the buffer goes to the disk, and so does `b` if it is longer than the buffer -/
def write (size : Nat) (f : OutFile) (b : Bytes) : Except PyErr OutFile :=
  if f.closed then .error .value
  else if f.buf.length + b.length ≤ size ∧ b.length < size then .ok { f with buf := f.buf ++ b }
  else if size < b.length then .ok { f with disk := f.disk ++ f.buf ++ b, buf := [] }
  else .ok { f with disk := f.disk ++ f.buf, buf := b }

/-- `f.close()`: a second time it does nothing -/
def close (f : OutFile) : OutFile := ⟨f.disk ++ f.buf, [], true⟩

end OutFile

/-- `mode` (collection.py:448, 635) -/
inductive OpenMode
  | x
  | w
  | a

/-- `MsgpackDocumentWriter` on a file (collection.py:464-479). The files are there to say what is at `path`. -/
structure FileWriter where
  path : Str
  file : OutFile
  block : Bytes
  count : Nat
  codec : CCodec
  num : Int

namespace FileWriter

/-- what the other programs see: the file as far as it has reached the disk -/
def onDisk (s : FileWriter) (fs : Disk) : Disk := upd fs s.path (some s.file.disk)

/-- the writes of the constructor (collection.py:467-470), in order; an error is an argument that cannot be packed -/
def headerParts (num : Int) (codec : CCodec) : List (Except PyErr Bytes) :=
  [.ok fileMagic, pack (.str codec.name), pack (.int num), pack (.bool false)]

/-- the writes one after the other, until one raises -/
def writeParts (size : Nat) (f : OutFile) : List (Except PyErr Bytes) → OutFile × Option PyErr
  | [] => (f, none)
  | .error e :: _ => (f, some e)
  | .ok b :: ps =>
    match f.write size b with
    | .error e => (f, some e)
    | .ok f => writeParts size f ps

/-- the file that `open(path, mode)` makes available (collection.py:461-462): in mode `x` there must be none, in mode `w`
it is emptied, in mode `a` writing continues at its end -/
def openFile (fs : Disk) (path : Str) : OpenMode → Except PyErr OutFile
  | .x => if (fs path).isSome then .error .io else .ok ⟨[], [], false⟩
  | .w => .ok ⟨[], [], false⟩
  | .a => .ok ⟨(fs path).getD [], [], false⟩

/-- `MsgpackDocumentWriter(path, num_docs_per_block, codec, mode)` (collection.py:444-479); `DocumentIO.write(path)`
(collection.py:633-635) is mode `w`. If the constructor raises, the file object has no more references and Python
closes it. -/
def new (size : Nat) (fs : Disk) (path : Str) (mode : OpenMode) (num : Int) (codec : CCodec) : Disk × Except PyErr FileWriter :=
  match openFile fs path mode with
  | .error e => (fs, .error e)
  | .ok f =>
    match writeParts size f (headerParts num codec) with
    | (f, some e) => (upd fs path (some f.close.disk), .error e)
    | (f, none) =>
      let s : FileWriter := ⟨path, f, [], 0, codec, num⟩
      (s.onDisk fs, .ok s)

/-- `flush()` (collection.py:509-524) -/
def flush (size : Nat) (s : FileWriter) : FileWriter × Option PyErr :=
  if s.count > 0 then
    match s.codec.compress s.block with
    | .error e => (s, some e)
    | .ok z =>
      match pack (.bin z) with
      | .error e => (s, some e)
      | .ok b =>
        match s.file.write size b with
        | .error e => (s, some e)
        | .ok f => ({ s with file := f, block := [], count := 0 }, none)
  else (s, none)

/-- `write(doc)` (collection.py:487-507) -/
def write (size : Nat) (s : FileWriter) (a : DocArg) : FileWriter × Option PyErr :=
  match a.data with
  | .error e => (s, some e)
  | .ok d =>
    match pack (.bin d) with
    | .error e => (s, some e)
    | .ok b =>
      let s := { s with block := s.block ++ b, count := s.count + 1 }
      if (s.count : Int) = s.num then s.flush size else (s, none)

/-- `close()` (collection.py:526-529) -/
def close (size : Nat) (s : FileWriter) : FileWriter × Option PyErr :=
  match s.flush size with
  | (s, some e) => (s, some e)
  | (s, none) => ({ s with file := s.file.close }, none)

/-- a call on a writer -/
inductive Call
  | write (a : DocArg)
  | flush
  | close

/-- a call -/
def call (size : Nat) (s : FileWriter) : Call → FileWriter × Option PyErr
  | .write a => s.write size a
  | .flush => s.flush size
  | .close => s.close size

/-- the writer after a sequence of calls, exceptions being caught -/
def run (size : Nat) (s : FileWriter) (cs : List Call) : FileWriter := cs.foldl (fun s c => (s.call size c).1) s

/-- what each of the calls raised -/
def results (size : Nat) (s : FileWriter) : List Call → List (Option PyErr)
  | [] => []
  | c :: cs => (s.call size c).2 :: results size (s.call size c).1 cs

/-- a step of the body of a `with` statement: a call whose exception is caught or not, or an exception of its own -/
inductive Step
  | call (c : Call) (caught : Bool)
  | raise (e : PyErr)

/-- the body: it ends with the first exception that is not caught -/
def body (size : Nat) (s : FileWriter) : List Step → FileWriter × Option PyErr
  | [] => (s, none)
  | .raise e :: _ => (s, some e)
  | .call c caught :: l =>
    match s.call size c with
    | (s, none) => body size s l
    | (s, some e) => if caught then body size s l else (s, some e)

/-- `with writer: body` (collection.py:481-485): `__exit__` closes and does not suppress the exception; an exception of
close() takes its place -/
def withBlock (size : Nat) (s : FileWriter) (l : List Step) : FileWriter × Option PyErr :=
  match s.body size l with
  | (s, e) =>
    match s.close size with
    | (s, some e') => (s, some e')
    | (s, none) => (s, e)

end FileWriter
end Verif
