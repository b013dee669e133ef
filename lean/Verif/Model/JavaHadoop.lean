import Verif.Model.JavaMdoc
/-
The Hadoop formats of the Java library: java/hadoop/src/main/java/se/lth/cs/docria/hadoop/.

A DocumentWritable and its user share the document: a change of it is a change of the writable (`JWritable.edit`). A Java
array has fewer than 2^31 elements. IllegalStateException and NegativeArraySizeException are `value`, EOFException is
`outOfData`. `getProgress` (a float) is not modelled, nor is the file system: an output file is the bytes that were written.
-/
namespace Verif

/-- a DocumentWritable (DocumentWritable.java:11-13) -/
structure JWritable where
  doc : Option JDoc
  blob : Option Bytes

namespace JWritable

/-- `new DocumentWritable()` (DocumentWritable.java:15-17) -/
def new : JWritable := ⟨none, none⟩

/-- `new DocumentWritable(document)` (DocumentWritable.java:19-21) -/
def ofDoc (d : JDoc) : JWritable := ⟨some d, none⟩

/-- `new DocumentWritable(msgpackBlob)` (DocumentWritable.java:23-25) -/
def ofBlob (b : Bytes) : JWritable := ⟨none, some b⟩

/-- `getDocument()` (DocumentWritable.java:27-32): null is `none` -/
def getDocument (w : JWritable) : JWritable × Except PyErr (Option JDoc) :=
  match w.doc, w.blob with
  | none, some b =>
    match jDecode b with
    | .error e => (w, .error e)
    | .ok d => (⟨some d, w.blob⟩, .ok (some d))
  | d, _ => (w, .ok d)

/-- `setDocument(document)` (DocumentWritable.java:38-41) -/
def setDocument (_ : JWritable) (d : JDoc) : JWritable := ⟨some d, none⟩

/-- `getMsgpackBlob()` (DocumentWritable.java:43-53). An exception of the encoder leaves the document as the encoder left it. -/
def getBlob (w : JWritable) : JWritable × Except PyErr (Option Bytes) :=
  match w.doc, w.blob with
  | some d, none =>
    match d.encode with
    | (d, .error e) => (⟨some d, none⟩, .error e)
    | (_, .ok b) => (⟨none, some b⟩, .ok (some b))
  | _, b => (w, .ok b)

/-- `setMsgpackBlob(blob)` (DocumentWritable.java:55-58) -/
def setBlob (_ : JWritable) (b : Bytes) : JWritable := ⟨none, some b⟩

/-- `getMsgpackDocument()` (DocumentWritable.java:34-36): NullPointerException without a document -/
def getMsgpackDocument (w : JWritable) : JWritable × Except PyErr JMsg :=
  match w.getBlob with
  | (w, .error e) => (w, .error e)
  | (w, .ok none) => (w, .error .attribute)
  | (w, .ok (some b)) => (w, JMsg.ofBytes b)

/-- `write(dataOutput)` (DocumentWritable.java:60-69, 81-84): what is written -/
def write (w : JWritable) : JWritable × Except PyErr Bytes :=
  match w.getBlob with
  | (w, .error e) => (w, .error e)
  | (w, .ok none) => (w, .error .value)
  | (w, .ok (some b)) => (w, .ok (be 4 b.length ++ b))

/-- `readInt()` and `readFully` (DocumentWritable.java:73-75) -/
def readBlob : P Bytes := do
  let n ← takeInt 4
  if n < 0 then P.fail .value else P.take n.toNat

/-- `readFields(dataInput)` (DocumentWritable.java:71-79, 86-89) -/
def readFields (w : JWritable) (input : Bytes) : JWritable × Except PyErr Bytes :=
  match readBlob input with
  | .error e => (w, .error e)
  | .ok (b, rest) => (⟨none, some b⟩, .ok rest)

/-- a call of a getter, or `write` and `readFields` of another writable, which has some state before -/
inductive Call
  | document
  | blob
  | msgpack
  | send (target : JWritable)

/-- what a call returns -/
inductive Ans
  | document (d : Option JDoc)
  | blob (b : Option Bytes)
  | msgpack (m : JMsg)
  | sent

/-- a call; after `send` the other writable takes the place of this one -/
def call (w : JWritable) : Call → JWritable × Except PyErr Ans
  | .document => (w.getDocument.1, w.getDocument.2.map .document)
  | .blob => (w.getBlob.1, w.getBlob.2.map .blob)
  | .msgpack => (w.getMsgpackDocument.1, w.getMsgpackDocument.2.map .msgpack)
  | .send t =>
    match w.write with
    | (w, .error e) => (w, .error e)
    | (_, .ok bs) => ((t.readFields bs).1, (t.readFields bs).2.map fun _ => .sent)

/-- the calls in order -/
def calls (w : JWritable) : List Call → JWritable × List (Except PyErr Ans)
  | [] => (w, [])
  | c :: cs => (((w.call c).1.calls cs).1, (w.call c).2 :: ((w.call c).1.calls cs).2)

/-- the user changes the document that they have set or that they got from `getDocument()` -/
def edit (w : JWritable) (f : JDoc → JDoc) : JWritable := ⟨w.doc.map f, w.blob⟩

end JWritable

/-- a DocriaWriter (DocriaWriter.java:10-16): null after `close` -/
structure JRecWriter where
  writer : Option JDocWriter

namespace JRecWriter

/-- `DocriaOutputFormat.getRecordWriter` (DocriaOutputFormat.java:16-26): `num` is the setting docria.block.size -/
def new (early : Nat) (num : Int) (deflate : Bytes → Bytes) : Except PyErr JRecWriter :=
  match JDocWriter.new false early num "zip".toList deflate with
  | .error e => .error e
  | .ok w => .ok ⟨some w⟩

/-- `write(key, value)` (DocriaWriter.java:18-25): the key is changed, too. NullPointerException for a key without document and
after `close`. -/
def write (s : JRecWriter) (key : JWritable) : JRecWriter × JWritable × Except PyErr Unit :=
  match key.getBlob with
  | (key, .error e) => (s, key, .error e)
  | (key, .ok none) => (s, key, .error .attribute)
  | (key, .ok (some b)) =>
    match s.writer with
    | none => (s, key, .error .attribute)
    | some w =>
      match w.write b with
      | .error e => (s, key, .error e)
      | .ok w => (⟨some w⟩, key, .ok ())

/-- `close(context)` (DocriaWriter.java:27-34): also what is in the file then -/
def close (s : JRecWriter) : JRecWriter × Except PyErr (Option (List BWriter.Op)) :=
  match s.writer with
  | none => (s, .ok none)
  | some w =>
    match w.flush with
    | .error e => (s, .error e)
    | .ok w => (⟨none⟩, .ok (some w.log))

/-- several keys; the first exception ends it -/
def writeAll (s : JRecWriter) : List JWritable → Except PyErr JRecWriter
  | [] => .ok s
  | k :: ks =>
    match s.write k with
    | (_, _, .error e) => .error e
    | (s, _, .ok ()) => s.writeAll ks

end JRecWriter

/-- the RecordReader of DocriaInputFormat (DocriaInputFormat.java:22-27); the key is one object for all records -/
structure JRecReader where
  reader : Option JDocReader
  current : JWritable

namespace JRecReader

/-- `initialize` (DocriaInputFormat.java:29-39) -/
def new (unzip : Bytes → Except PyErr Bytes) (raw : Bytes) : Except PyErr JRecReader :=
  match JDocReader.new unzip none raw with
  | .error e => .error e
  | .ok r => .ok ⟨some r, .new⟩

/-- `nextKeyValue()` (DocriaInputFormat.java:41-56) -/
def next (s : JRecReader) : JRecReader × Except PyErr Bool :=
  match s.reader with
  | none => (s, .ok false)
  | some r =>
    match r.nextRaw with
    | (r, .error e) => (⟨some r, s.current⟩, .error e)
    | (_, .ok none) => (⟨none, s.current⟩, .ok false)
    | (r, .ok (some b)) => (⟨some r, s.current.setBlob b⟩, .ok true)

/-- `close()` (DocriaInputFormat.java:78-85) -/
def close (s : JRecReader) : JRecReader := ⟨none, s.current⟩

/-- what calls of `nextKeyValue()` return, and the key after each of them. Before each call the user may do something to the key,
which they got by `getCurrentKey()` (DocriaInputFormat.java:58-61). -/
def calls (s : JRecReader) : List (JWritable → JWritable) → List (Except PyErr Bool × JWritable)
  | [] => []
  | u :: us =>
    let s := (⟨s.reader, u s.current⟩ : JRecReader).next
    (s.2, s.1.current) :: s.1.calls us

end JRecReader
end Verif
