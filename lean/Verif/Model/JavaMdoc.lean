import Verif.Model.JavaCodec
/-
MsgpackDocument of the Java library: java/core/src/main/java/se/lth/cs/docria/MsgpackDocument.java.

Positions are Java ints; the bytes are a Java array, so they fit. A length that is negative moves the unpacker back:
`unmodelled`. So is an unpacker of more bytes than the array has (MsgpackDocument.java:115), of which msgpack-core does not
say what it does.
-/
namespace Verif

/-- `positions` (MsgpackDocument.java:16-28): a new int array has zeros -/
structure JPos where
  propStart : Nat := 0
  propEnd : Nat := 0
  schemaStart : Nat := 0
  schemaEnd : Nat := 0
  textStart : Nat := 0
  textEnd : Nat := 0
  layersStart : Nat := 0
  layersEnd : Nat := 0
deriving DecidableEq

/-- a Schema: the fields of the layers, both by name (Schema.java:22-125) -/
abbrev JSchema := Dict Str (Dict Str JType)

/-- a Schema of what `decodeSchema` reads -/
def jSchemaOf (s : List (Str × List (Str × JType))) : JSchema := tmap (s.map (fun e => (e.1, tmap e.2)))

/-- a MsgpackDocument (MsgpackDocument.java:13-28) -/
structure JMsg where
  data : Bytes
  schema : Option JSchema := none
  pos : Option JPos := none
deriving DecidableEq

namespace JMsg

/-- `Arrays.copyOf(data, 4)`: with zeros if there are fewer -/
def first4 (data : Bytes) : Bytes := data.take 4 ++ List.replicate (4 - data.length) 0

/-- `new MsgpackDocument(data)` (MsgpackDocument.java:30-38) -/
def ofBytes (data : Bytes) : Except PyErr JMsg := if first4 data ≠ magic then .error .io else .ok ⟨data, none, none⟩

/-- `new MsgpackDocument(properties, schema, text, layers)` (MsgpackDocument.java:40-52) -/
def ofParts (props schema text layers : Bytes) : JMsg := ⟨props ++ (schema ++ (text ++ layers)), none, none⟩

/-- `parsePropertyCompartment` (MsgpackDocument.java:54-60) -/
def parseProps (b : Bytes) : Except PyErr (Dict Str JVal) :=
  match jProps b with
  | .error e => .error e
  | .ok (v, _) => .ok v

/-- `parseSchemaCompartment` (MsgpackDocument.java:62-68) -/
def parseSchema (b : Bytes) : Except PyErr JSchema :=
  match jSchema b with
  | .error e => .error e
  | .ok (s, _) => .ok (jSchemaOf s)

/-- `unpackInt()` and `readPayloadAsReference` of that many bytes -/
def skipSized : P Unit := do
  let n ← jInt
  if n < 0 then P.fail .unmodelled
  else
    let _ ← P.take n.toNat
    return ()

/-- read at a position; the next is `getTotalReadBytes()` -/
def readAt {α : Type} (m : JMsg) (p : P α) (i : Nat) : Except PyErr (α × Nat) :=
  match p (m.data.drop i) with
  | .error e => .error e
  | .ok (a, rest) => .ok (a, m.data.length - rest.length)

/-- `determineCompartments` (MsgpackDocument.java:74-111): the positions found so far stay after an exception, and there is
no second attempt -/
def determine (m : JMsg) : JMsg × Except PyErr JPos :=
  match m.pos with
  | some q => (m, .ok q)
  | none =>
    if m.data.length < 4 then (m, .error .outOfData)
    else
      match m.readAt skipSized 4 with
      | .error e => ({ m with pos := some { propStart := 4 } }, .error e)
      | .ok (_, a) =>
        match m.readAt jSchema a with
        | .error e => ({ m with pos := some { propStart := 4, propEnd := a, schemaStart := a } }, .error e)
        | .ok (s, b) =>
          match m.readAt skipSized b with
          | .error e => (⟨m.data, some (jSchemaOf s), some { propStart := 4, propEnd := a, schemaStart := a, schemaEnd := b, textStart := b }⟩, .error e)
          | .ok (_, c) =>
            match m.readAt skipSized c with
            | .error e => (⟨m.data, some (jSchemaOf s), some { propStart := 4, propEnd := a, schemaStart := a, schemaEnd := b, textStart := b, textEnd := c, layersStart := c }⟩,
                .error e)
            | .ok (_, d) =>
              (⟨m.data, some (jSchemaOf s), some ⟨4, a, a, b, b, c, c, d⟩⟩, .ok ⟨4, a, a, b, b, c, c, d⟩)

/-- `Arrays.copyOfRange`: IllegalArgumentException for a range that ends before it starts; zeros behind the end of the array -/
def copyOfRange (data : Bytes) (i j : Nat) : Except PyErr Bytes :=
  if data.length < i then .error .index
  else if j < i then .error .value
  else .ok ((data.drop i).take (j - i) ++ List.replicate (j - data.length) 0)

/-- a getter that needs the positions -/
def withPos {α : Type} (m : JMsg) (f : Bytes → JPos → Except PyErr α) : JMsg × Except PyErr α :=
  match m.determine with
  | (m, .error e) => (m, .error e)
  | (m, .ok q) => (m, f m.data q)

/-- `properties()` (MsgpackDocument.java:113-121): the end of the properties is passed as their length -/
def properties (m : JMsg) : JMsg × Except PyErr (Dict Str JVal) :=
  m.withPos (fun data q => if data.length < q.propStart + q.propEnd then .error .unmodelled else parseProps ((data.drop q.propStart).take q.propEnd))

/-- `propertyCompartment()` (MsgpackDocument.java:123-126) -/
def propPart (m : JMsg) : JMsg × Except PyErr Bytes := m.withPos (fun data q => copyOfRange data q.propStart q.propEnd)

/-- `schemaCompartment()` (MsgpackDocument.java:128-131) -/
def schemaPart (m : JMsg) : JMsg × Except PyErr Bytes := m.withPos (fun data q => copyOfRange data q.schemaStart q.schemaEnd)

/-- `layersCompartment()` (MsgpackDocument.java:133-136) -/
def layersPart (m : JMsg) : JMsg × Except PyErr Bytes := m.withPos (fun data q => copyOfRange data q.layersStart q.layersEnd)

/-- `textCompartment()` (MsgpackDocument.java:138-141) -/
def textPart (m : JMsg) : JMsg × Except PyErr Bytes := m.withPos (fun data q => copyOfRange data q.textStart q.textEnd)

/-- `document()` (MsgpackDocument.java:147-149) -/
def document (m : JMsg) : Except PyErr JDoc := jDecode m.data

end JMsg
end Verif
