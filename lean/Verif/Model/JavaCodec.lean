import Verif.Model.JavaDoc
import Verif.Model.JavaStream
import Verif.Model.MsgpackCodec
/-
MsgpackCodec of the Java library: java/core/src/main/java/se/lth/cs/docria/MsgpackCodec.java.

msgpack-core's MessagePacker writes each value in the shortest format, as msgpack-python does: `pack`. Java strings that are
not Unicode are written with `?` for each unit that is no character (String.getBytes). Reading: strings that are not UTF-8 and
32-bit floats are `unmodelled`, as are float arguments of types (they are rounded to 32 bits, MsgpackCodec.java:531) and
schemas that name a layer twice. The decoder reads everything before it resolves references and checks types by their
names when it reads the schema; with several faults in one input, the exception that comes first can differ.
-/
namespace Verif

/-- a surrogate pair, as one character -/
def pairChar (a b : Nat) : Char := .ofNat (0x10000 + (a - 0xD800) * 0x400 + (b - 0xDC00))

/-- the characters of a Java string; `?` for a surrogate that is alone -/
def ofUtf16 : JStr → Str
  | [] => []
  | [a] => [if 0xD800 ≤ a ∧ a < 0xE000 then '?' else .ofNat a]
  | a :: b :: r =>
    if 0xD800 ≤ a ∧ a < 0xDC00 ∧ 0xDC00 ≤ b ∧ b < 0xE000 then pairChar a b :: ofUtf16 r
    else (if 0xD800 ≤ a ∧ a < 0xE000 then '?' else .ofNat a) :: ofUtf16 (b :: r)

/-! ### writing -/

/-- `packArrayHeader(n)`: IllegalArgumentException for a negative number -/
def jArrHead (n : Int) : Except PyErr Bytes := if n < 0 then .error .value else packArrHead n.toNat

/-- an int -/
def jPackInt (i : Int) : Except PyErr Bytes := pack (.int i)

/-- the Offset ids of a span -/
def JDoc.spanIds (d : JDoc) (c : Str) (s : JSpan) : Except PyErr (Int × Int) :=
  match dget d.texts c with
  | none => .error .unmodelled
  | some t => .ok ((t.off s.1).id, (t.off s.2).id)

/-- two ints -/
def jPackTwo (p : Except PyErr (Int × Int)) : Except PyErr Bytes :=
  match p with
  | .error e => .error e
  | .ok (a, b) => cat (jPackInt a) (jPackInt b)

/-- ValueWriter with `schemaless` false (MsgpackCodec.java:33-179) -/
def JDoc.writeVal (d : JDoc) : JVal → Except PyErr Bytes
  | .null => pack .nil
  | .bool b => pack (.bool b)
  | .int i => jPackInt i
  | .long i => jPackInt i
  | .double f => pack (.float f)
  | .str s => pack (.str s)
  | .bin b => pack (.bin b)
  | .ext _ b => pack (.bin b)
  | .span c s => jPackTwo (d.spanIds c s)
  | .node n => jPackInt (d.ids n)
  | .nodes ns => cat (jArrHead ns.length) (catL (ns.map (fun n => jPackInt (d.ids n))))
  | .nodespan l r => cat (jArrHead 2) (cat (jPackInt (d.ids l)) (jPackInt (d.ids r - d.ids l)))
  | .idArray _ => .error .notImplemented
  | .idSpan _ _ => .error .notImplemented

/-- the header of an extension value of type 0: `packExtensionTypeHeader((byte) 0, n)` -/
def jExtHead (n : Nat) : Bytes :=
  if n = 1 then [0xd4, 0] else if n = 2 then [0xd5, 0] else if n = 4 then [0xd6, 0] else if n = 8 then [0xd7, 0]
  else if n = 16 then [0xd8, 0] else if n < 0x100 then 0xc7 :: be 1 n ++ [0] else if n < 0x10000 then 0xc8 :: be 2 n ++ [0]
  else 0xc9 :: be 4 n ++ [0]

/-- ValueWriter with `schemaless` true: an extension value is written with the type "doc", whatever its type is
(MsgpackCodec.java:123-144) -/
def JDoc.writeProp (d : JDoc) : JVal → Except PyErr Bytes
  | .ext _ b =>
    match cat (pack (.str "doc".toList)) (pack (.bin b)) with
    | .error e => .error e
    | .ok x => .ok (jExtHead x.length ++ x)
  | v => d.writeVal v

/-- `encodeProperties` (MsgpackCodec.java:250-269) -/
def JDoc.propBytes (d : JDoc) : Except PyErr Bytes :=
  sized (cat (packMapHead d.props.length) (catL (d.props.map (fun e => cat (pack (.str e.1)) (d.writeProp e.2)))))

/-- SchemaArgWriter (MsgpackCodec.java:181-248) -/
def jArgBytes : JVal → Except PyErr Bytes
  | .bool b => pack (.bool b)
  | .int i => jPackInt i
  | .long i => jPackInt i
  | .double f => pack (.float f)
  | .str s => pack (.str s)
  | .bin b => pack (.bin b)
  | _ => .error .notImplemented

/-- a field of the schema (MsgpackCodec.java:289-309) -/
def jFieldBytes (e : Str × JType) : Except PyErr Bytes :=
  cat (pack (.str e.1)) (if e.2.args = [] then cat (pack (.bool false)) (pack (.str e.2.name.getName))
    else cat (pack (.bool true)) (cat (pack (.str e.2.name.getName)) (cat (packMapHead e.2.args.length)
      (catL (e.2.args.map (fun a => cat (pack (.str a.1)) (jArgBytes a.2)))))))

/-- the schema of one layer (MsgpackCodec.java:284-310) -/
def jSchemaBytes (L : JLay) : Except PyErr Bytes := cat (jPackInt L.fields.length) (catL (L.fields.map jFieldBytes))

/-- `encodeSchema` (MsgpackCodec.java:271-314) -/
def JDoc.schemaBytes (d : JDoc) : Except PyErr Bytes :=
  cat (cat (packArrHead d.layers.length) (catL ((dkeys d.layers).map (fun k => pack (.str k))))) (catL (d.layers.map (fun e => jSchemaBytes e.2)))

/-- `encodeTexts` (MsgpackCodec.java:316-336) -/
def jTextBytes (parts : Dict Str (List JStr)) : Except PyErr Bytes :=
  sized (cat (packMapHead parts.length) (catL (parts.map (fun e => cat (pack (.str e.1))
    (cat (packArrHead e.2.length) (catL (e.2.map (fun s => pack (.str (ofUtf16 s))))))))))

/-- a value of a span column (MsgpackCodec.java:353-363) -/
def JDoc.writeSpan (d : JDoc) : JVal → Except PyErr Bytes
  | .null => cat (pack .nil) (pack .nil)
  | .span c s => jPackTwo (d.spanIds c s)
  | _ => .error .notImplemented

/-- `node.get(field)` (Node.java:271-273) -/
def JDoc.getField (d : JDoc) (n : Nat) (f : Str) : JVal := (dget (d.data n) f).getD .null

/-- a column (MsgpackCodec.java:347-376) -/
def JDoc.colBytes (d : JDoc) (L : JLay) (e : Str × JType) : Except PyErr Bytes :=
  cat (pack (.bool false)) (if e.2.name = .span then cat (jArrHead (L.size * 2)) (catL (L.nodes.map (fun n => d.writeSpan (d.getField n e.1))))
    else cat (jArrHead L.size) (catL (L.nodes.map (fun n => d.writeVal (d.getField n e.1)))))

/-- `encodeLayerData` (MsgpackCodec.java:338-383) -/
def JDoc.layerBytes (d : JDoc) (L : JLay) : Except PyErr Bytes :=
  sized (cat (jPackInt L.size) (catL (L.fields.map (d.colBytes L))))

/-- `encode(document)` (MsgpackCodec.java:385-416) -/
def JDoc.encode (d : JDoc) : JDoc × Except PyErr Bytes :=
  match d.validateSchema with
  | .error e => (d, .error e)
  | .ok _ =>
    match d.compile with
    | (d, .error e) => (d, .error e)
    | (d, .ok parts) =>
      (d, cat (.ok magic) (cat d.propBytes (cat d.schemaBytes (cat (jTextBytes parts) (catL (d.layers.map (fun e => d.layerBytes e.2)))))))

/-! ### reading -/

/-- the bytes of a string -/
def asUtf8 (b : Bytes) : Except PyErr Str :=
  match utf8Decode b with
  | some s => .ok s
  | none => .error .unmodelled

/-- `unpackString()` -/
def jStr : P Str := do P.lift (asUtf8 (← jBin))

/-- the number of elements of an array, by its type byte -/
def jArrLen (b : Nat) : P Nat := do
  if 0x90 ≤ b ∧ b < 0xa0 then return b - 0x90
  else if b = 0xdc then takeNat 2
  else if b = 0xdd then jLen32
  else P.fail .type

/-- `unpackArrayHeader()` -/
def jArr : P Nat := do jArrLen (ofBe (← P.take 1))

/-- the number of entries of a map, by its type byte -/
def jMapLen (b : Nat) : P Nat := do
  if 0x80 ≤ b ∧ b < 0x90 then return b - 0x80
  else if b = 0xde then takeNat 2
  else if b = 0xdf then jLen32
  else P.fail .type

/-- `unpackMapHeader()` -/
def jMap : P Nat := do jMapLen (ofBe (← P.take 1))

/-- a long -/
def jLongRange (i : Int) : Except PyErr Int := if -0x8000000000000000 ≤ i ∧ i < 0x8000000000000000 then .ok i else .error .overflow

/-- `unpackLong()` -/
def jLong : P Int := do P.lift (jLongRange (← jInteger))

/-- a double by its type byte -/
def jDoubleOf (b : Nat) : P UInt64 := do
  if b = 0xcb then return .ofNat (← takeNat 8)
  else if b = 0xca then P.fail .unmodelled
  else P.fail .type

/-- `unpackDouble()` -/
def jDouble : P UInt64 := do jDoubleOf (ofBe (← P.take 1))

/-- the next byte, which stays -/
def jPeek : P Nat := fun bs =>
  match bs with
  | [] => .error .outOfData
  | b :: _ => .ok (b.toNat, bs)

/-- `tryUnpackNil()`: whether there was a nil -/
def jTryNil : P Bool := do
  if (← jPeek) = 0xc0 then
    let _ ← P.take 1
    return true
  else return false

/-- an int or long (MsgpackCodec.java:445-449): integers above the longs lose their first bit -/
def jIntVal (i : Int) : JVal :=
  if -0x80000000 ≤ i ∧ i < 0x80000000 then .int i else if i < 0x8000000000000000 then .long i else .long (i - 0x10000000000000000)

/-- the bytes of a float or double -/
def jFloatVal (prop : Bool) : P JVal := do
  if prop then return .double (← jDouble) else P.fail .unmodelled

/-- `unpackValue()` and the cases for properties (MsgpackCodec.java:436-477) and, without `prop`, for arguments of types
(MsgpackCodec.java:514-539). nil, arrays and maps are UnsupportedOperationException; so are extension types: the case
has no `break` (MsgpackCodec.java:458-476). -/
def jValue (prop : Bool) : P JVal := do
  let b ← jPeek
  if b < 0x80 ∨ (0xcc ≤ b ∧ b < 0xd4) ∨ 0xe0 ≤ b then return jIntVal (← jInteger)
  else if b = 0xc2 ∨ b = 0xc3 then return .bool (← jBool)
  else if b = 0xca ∨ b = 0xcb then jFloatVal prop
  else if (0xa0 ≤ b ∧ b < 0xc0) ∨ (0xd9 ≤ b ∧ b < 0xdc) then return .str (← jStr)
  else if 0xc4 ≤ b ∧ b < 0xc7 then return .bin (← jBin)
  else if b = 0xc1 then P.fail .type
  else P.fail .notImplemented

/-- one entry of a map -/
def jEntry (prop : Bool) : P (Str × JVal) := do
  let k ← jStr
  let v ← jValue prop
  return (k, v)

/-- a TreeMap of entries -/
def tmap {ν : Type} (l : List (Str × ν)) : Dict Str ν := l.foldl (fun d e => tput d e.1 e.2) []

/-- `decodeProperties` (MsgpackCodec.java:428-481) -/
def jProps : P (Dict Str JVal) := do
  let _ ← jInt
  return tmap (← P.times (jEntry true) (← jMap))

/-- the type of a field with arguments (MsgpackCodec.java:542); a name that is no type becomes null and raises later -/
def jTypeWith (name : Str) (args : Dict Str JVal) : Except PyErr JType :=
  match JTName.ofName name with
  | none => .error .attribute
  | some n => .ok ⟨n, args⟩

/-- the type of a field without arguments (MsgpackCodec.java:544-565) -/
def jTypeBare (name : Str) : Except PyErr JType :=
  match JTName.ofName name with
  | none => .error .attribute
  | some n =>
    if n = .binary ∨ n = .string ∨ n = .bool ∨ n = .double ∨ n = .int ∨ n = .long then .ok ⟨n, []⟩ else .error .notImplemented

/-- one field (MsgpackCodec.java:503-569) -/
def jField : P (Str × JType) := do
  let f ← jStr
  let ext ← jBool
  let name ← jStr
  if ext then
    let args ← P.times (jEntry false) (← jMap)
    return (f, ← P.lift (jTypeWith name (tmap args)))
  else return (f, ← P.lift (jTypeBare name))

/-- IllegalArgumentException for a repeated field (Schema.java:85-92) -/
def jNoRepeat (l : List (Str × JType)) : Except PyErr (List (Str × JType)) := if (l.map (·.1)).Nodup then .ok l else .error .value

/-- one layer (MsgpackCodec.java:495-578): its fields in the order of the columns -/
def jLayerSchema (k : Str) : P (Str × List (Str × JType)) := do
  let n ← jInt
  return (k, ← P.lift (jNoRepeat (← P.times jField n.toNat)))

/-- `decodeSchema` (MsgpackCodec.java:483-581) -/
def jSchema : P (List (Str × List (Str × JType))) := do
  let names ← P.times jStr (← jArr)
  if names.Nodup then P.each jLayerSchema names else P.fail .unmodelled

/-- one text (MsgpackCodec.java:589-602) -/
def jText : P (Str × List Str) := do
  let c ← jStr
  return (c, ← P.times jStr (← jArr))

/-- IllegalArgumentException for a repeated text (Document.java:75-76) -/
def jNoRepeatText (l : List (Str × List Str)) : Except PyErr (List (Str × List Str)) := if (l.map (·.1)).Nodup then .ok l else .error .value

/-- `decodeTexts` (MsgpackCodec.java:583-613) -/
def jTexts : P (List (Str × List Str)) := do
  let _ ← jInt
  P.lift (jNoRepeatText (← P.times jText (← jMap)))

/-- the Offsets that `decodeTexts` makes (MsgpackCodec.java:593-602) -/
def unitOffsets (pos : Nat) : List Str → List Int
  | [] => [(pos : Int)]
  | s :: r => (pos : Int) :: unitOffsets (pos + (utf16 s).length) r

/-- the text that `decodeTexts` makes (MsgpackCodec.java:604-605): Offset `k` of the list is number `k` of its heap -/
def textOf (parts : List Str) : JText := (JText.new (utf16 parts.flatten)).initializeOffsets (unitOffsets 0 parts)

/-- a value unless there is a nil -/
def jOpt (p : P JVal) : P (Option JVal) := do
  if ← jTryNil then return none else return some (← p)

/-- `contextOffsets.get(i)`: NullPointerException if the text is missing -/
def offAt (offs : Option Nat) (i : Int) : Except PyErr Nat :=
  match offs with
  | none => .error .attribute
  | some len => if 0 ≤ i ∧ i < len then .ok i.toNat else .error .index

/-- `unpackNil()` -/
def jNil : P Unit := do
  if ofBe (← P.take 1) = 0xc0 then return () else P.fail .type

/-- a value of a span column (MsgpackCodec.java:721-733); `offs` is the number of Offsets of the text -/
def jSpanCell (c : Str) (offs : Option Nat) : P (Option JVal) := do
  if ← jTryNil then
    jNil
    return none
  else
    let a ← jInt
    let b ← jInt
    let x ← P.lift (offAt offs a)
    let y ← P.lift (offAt offs b)
    return some (.span c (x, y))

/-- a value of an ext column (MsgpackCodec.java:735-749): `asBinaryValue()` of another value is MessageTypeCastException -/
def jExtCell (type : Str) : P JVal := do
  let b ← jPeek
  if 0xc4 ≤ b ∧ b < 0xc7 then return .ext type (← jBin) else P.fail .type

/-- the reader of a value of a column by its type (MsgpackCodec.java:671-778) -/
def jCell (texts : List (Str × List Str)) (t : JType) : P (Option JVal) :=
  match t.name with
  | .int | .node => jOpt do return .int (← jInt)
  | .double => jOpt do return .double (← jDouble)
  | .string => jOpt do return .str (← jStr)
  | .long => jOpt do return .long (← jLong)
  | .bool => jOpt do return .bool (← jBool)
  | .binary => jOpt do return .bin (← P.take (← jArr))
  | .span => do
    let c ← P.lift (t.arg "context".toList)
    jSpanCell c ((dget texts c).map (fun parts => parts.length + 1))
  | .ext => do
    let type ← P.lift (t.arg "type".toList)
    jOpt (jExtCell type)
  | .nodeArray => jOpt do return .idArray (← P.times jInt (← jArr))
  | .nodeSpan => jOpt do
    let _ ← jArr
    let l ← jInt
    let r ← jInt
    return .idSpan l (r + l)
  | .null => P.fail .notImplemented

/-- put the values of a column into the nodes -/
def putCol (f : Str) : List (Dict Str JVal) → List (Option JVal) → List (Dict Str JVal)
  | r :: rs, v :: vs => (match v with | none => r | some v => tput r f v) :: putCol f rs vs
  | rs, _ => rs

/-- the argument that a column needs before its first value (MsgpackCodec.java:717, 736) -/
def needArg (t : JType) : Except PyErr Unit :=
  if t.name = .span then (match t.arg "context".toList with | .ok _ => .ok () | .error e => .error e)
  else if t.name = .ext then (match t.arg "type".toList with | .ok _ => .ok () | .error e => .error e)
  else if t.name = .null then .error .notImplemented
  else .ok ()

/-- the columns (MsgpackCodec.java:663-779); the number of elements of the array is not used -/
def jCols (texts : List (Str × List Str)) (n : Nat) : List (Str × JType) → List (Dict Str JVal) → P (List (Dict Str JVal))
  | [], rs => pure rs
  | (f, t) :: fs, rs => do
    if ← jBool then P.fail .notImplemented
    else
      let _ ← jArr
      P.lift (needArg t)
      let vs ← P.times (jCell texts t) n
      jCols texts n fs (putCol f rs vs)

/-- `new ArrayList<>(numNodes)`: IllegalArgumentException for a negative number (MsgpackCodec.java:658) -/
def jCount (n : Int) : Except PyErr Nat := if n < 0 then .error .value else .ok n.toNat

/-- `decodeLayer` (MsgpackCodec.java:653-780) -/
def jLayer (texts : List (Str × List Str)) (l : Str × List (Str × JType)) : P (Str × List (Str × JType) × List (Dict Str JVal)) := do
  let _ ← jInt
  let n ← P.lift (jCount (← jInt))
  return (l.1, l.2, ← jCols texts n l.2 (List.replicate n []))

/-- what is read after the header (MsgpackCodec.java:838-856) -/
structure JRaw where
  props : Dict Str JVal
  texts : List (Str × List Str)
  layers : List (Str × List (Str × JType) × List (Dict Str JVal))

/-- all of it -/
def jRead : P JRaw := do
  let props ← jProps
  let schema ← jSchema
  let texts ← jTexts
  let layers ← P.each (jLayer texts) schema
  return ⟨props, texts, layers⟩

/-- the nodes of the layers: numbered in the order of the layers -/
def jPlaces (base : Nat) : List (Str × List (Str × JType) × List (Dict Str JVal)) → Dict Str (Nat × Nat)
  | [] => []
  | l :: ls => (l.1, base, l.2.2.length) :: jPlaces (base + l.2.2.length) ls

/-- `targetLayer.get(i)`: NullPointerException if the layer is missing -/
def nodeAt (target : Option (Nat × Nat)) (i : Int) : Except PyErr Nat :=
  match target with
  | none => .error .attribute
  | some (base, len) => if 0 ≤ i ∧ i < len then .ok (base + i.toNat) else .error .index

/-- `new NodeArrayValue(nodes)`: IllegalArgumentException without nodes (NodeArrayValue.java:28-42) -/
def jNodeArray (ns : List Nat) : Except PyErr JVal := if ns = [] then .error .value else .ok (.nodes ns)

/-- one value (MsgpackCodec.java:791-827). `left.id > right.id` is DataInconsistencyException (NodeSpan.java:26-30):
nodes of one layer are numbered in the order of their ids. -/
def jResolveVal (target : Option (Nat × Nat)) : JTName → JVal → Except PyErr JVal
  | .node, .int i =>
    match nodeAt target i with
    | .error e => .error e
    | .ok n => .ok (.node n)
  | .nodeArray, .idArray is =>
    match mapE (nodeAt target) is with
    | .error e => .error e
    | .ok ns => jNodeArray ns
  | .nodeSpan, .idSpan l r =>
    match nodeAt target l with
    | .error e => .error e
    | .ok a =>
      match nodeAt target r with
      | .error e => .error e
      | .ok b => if a > b then .error .data else .ok (.nodespan a b)
  | _, v => .ok v

/-- one node -/
def jResolveRec (target : Option (Nat × Nat)) (f : Str) (n : JTName) (r : Dict Str JVal) : Except PyErr (Dict Str JVal) :=
  match dget r f with
  | none => .ok r
  | some v =>
    match jResolveVal target n v with
    | .error e => .error e
    | .ok v => .ok (tput r f v)

/-- the fields of a layer (MsgpackCodec.java:784-831) -/
def jResolve (places : Dict Str (Nat × Nat)) : List (Str × JType) → List (Dict Str JVal) → Except PyErr (List (Dict Str JVal))
  | [], rs => .ok rs
  | (f, t) :: fs, rs =>
    if t.name = .node ∨ t.name = .nodeArray ∨ t.name = .nodeSpan then
      match t.arg "layer".toList with
      | .error e => .error e
      | .ok s =>
        match mapE (jResolveRec (dget places s) f t.name) rs with
        | .error e => .error e
        | .ok rs => jResolve places fs rs
    else jResolve places fs rs

/-- `resolveReferences` (MsgpackCodec.java:782-832) -/
def jResolveLayer (places : Dict Str (Nat × Nat)) (l : Str × List (Str × JType) × List (Dict Str JVal)) :
    Except PyErr (Str × List (Str × JType) × List (Dict Str JVal)) :=
  match jResolve places (tmap l.2.1) l.2.2 with
  | .error e => .error e
  | .ok rs => .ok (l.1, l.2.1, rs)

/-- the layer objects: `n` times `create().insert()` on an empty layer (MsgpackCodec.java:659-661) -/
def jLayObjs (base : Nat) : List (Str × List (Str × JType) × List (Dict Str JVal)) → List (Str × JLay)
  | [] => []
  | l :: ls => (l.1, ⟨tmap l.2.1, (List.range' base l.2.2.length).map some, l.2.2.length⟩) :: jLayObjs (base + l.2.2.length) ls

/-- the document: its nodes are numbered in the order of the layers -/
def jBuild (props : Dict Str JVal) (texts : List (Str × List Str)) (ls : List (Str × List (Str × JType) × List (Dict Str JVal))) : JDoc where
  props := props
  texts := tmap (texts.map (fun e => (e.1, textOf e.2)))
  layers := tmap (jLayObjs 0 ls)
  ids n := ((ls.flatMap (fun l => List.range l.2.2.length))[n]?.getD 0 : Nat)
  data n := (ls.flatMap (fun l => l.2.2))[n]?.getD []

/-- `decode(unpacker, nodeFactories)` (MsgpackCodec.java:834-870) with nodes of the class Node -/
def jDecode (data : Bytes) : Except PyErr JDoc :=
  if data.length < 4 then .error .outOfData
  else if data.take 4 ≠ magic then .error .io
  else
    match jRead (data.drop 4) with
    | .error e => .error e
    | .ok (x, _) =>
      match mapE (jResolveLayer (jPlaces 0 x.layers)) x.layers with
      | .error e => .error e
      | .ok ls => .ok (jBuild x.props x.texts ls)

end Verif
