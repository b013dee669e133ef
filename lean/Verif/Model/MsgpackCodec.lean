import Verif.Model.Codec
import Verif.Py.Msgpack
/-
MsgpackCodec (codec.py:523-885) and MsgpackDocument (codec.py:350-501) on bytes.

Simplifications: input that no encoder writes can make Python iterate over values of an unexpected type
(a str or dict where a list is expected, ...): `unmodelled`. The content of a part (types, columns) is
interpreted after the part has been read, so with several faults in one input the exception that comes
first can differ. `rawdata` is a BytesIO.
-/
namespace Verif

/-- one after the other -/
def cat (a b : Except PyErr Bytes) : Except PyErr Bytes :=
  match a with
  | .error e => .error e
  | .ok x =>
    match b with
    | .error e => .error e
    | .ok y => .ok (x ++ y)

/-- all, in order -/
def catL : List (Except PyErr Bytes) → Except PyErr Bytes
  | [] => .ok []
  | a :: l => cat a (catL l)

/-- a part written to a buffer of its own, preceded by its length (codec.py:612-617, 646-651, 663-664) -/
def sized (body : Except PyErr Bytes) : Except PyErr Bytes :=
  match body with
  | .error e => .error e
  | .ok b => cat (pack (.int b.length)) (.ok b)

/-- `b"DM_1"` -/
def magic : Bytes := [0x44, 0x4d, 0x5f, 0x31]

/-- a field of the schema (codec.py:630-641) -/
def fieldBytes (f : Str) (t : TypeWire) : Except PyErr Bytes :=
  cat (pack (.str f)) (match t.args with
    | none => cat (pack (.bool false)) (pack (.str t.name))
    | some d => cat (pack (.bool true)) (cat (pack (.str t.name)) (pack (.map d))))

/-- the schema of one layer (codec.py:625-641) -/
def schemaBytes (l : WireLayer) : Except PyErr Bytes :=
  cat (pack (.int l.cols.length)) (catL (l.cols.map (fun c => fieldBytes c.1 c.2.1)))

/-- the data of one layer (codec.py:656-664) -/
def layerBytes (l : WireLayer) : Except PyErr Bytes :=
  sized (cat (pack (.int l.num)) (catL (l.cols.map (fun c => cat (pack (.bool false)) (pack (.arr c.2.2))))))

/-- the texts as one object (codec.py:646) -/
def textsObj (t : Dict Str (List Str)) : Obj := .map (t.map (fun e => (e.1, .arr (e.2.map .str))))

/-- what MsgpackCodec.encode writes (codec.py:603-666) -/
def encodeBytes (x : Wire) : Except PyErr Bytes :=
  cat (.ok magic) (cat (sized (pack (.map x.props))) (cat (pack (.arr ((dkeys x.layers).map .str)))
    (cat (catL (x.layers.map (fun e => schemaBytes e.2))) (cat (sized (pack (textsObj x.texts)))
      (catL (x.layers.map (fun e => layerBytes e.2)))))))

/-- `MsgpackCodec.encode(doc, extra_fields_ok, type_validation)` (codec.py:592-666) -/
def World.encodeMsgpack (w : World) (extraOk typeVal : Bool) : World × Except PyErr Bytes :=
  match w.toWire extraOk typeVal with
  | (w, .error e) => (w, .error e)
  | (w, .ok x) => (w, encodeBytes x)

/-! ### reading -/

/-- `next(unpacker)`: the iterator protocol turns OutOfData into StopIteration -/
def pnext : P Obj := fun bs =>
  match unpack bs with
  | .error .outOfData => .error .stopIteration
  | r => r

/-- `unpacker.skip()`. It does not build the object, so it accepts some that `next` refuses with a
ValueError: `unmodelled`. -/
def pskip : P Unit := fun bs =>
  match unpack bs with
  | .error .value => .error .unmodelled
  | .error e => .error e
  | .ok (_, r) => .ok ((), r)

/-- `f` for each element -/
def P.each {α β : Type} (f : α → P β) : List α → P (List β)
  | [] => pure []
  | x :: xs => do
    let y ← f x
    let ys ← P.each f xs
    return y :: ys

/-- an element that should be a str -/
def asStr : Obj → Except PyErr Str
  | .str s => .ok s
  | _ => .error .unmodelled

/-- the argument of `range` -/
def asCount : Obj → Except PyErr Int
  | .int i => .ok i
  | .bool _ => .error .unmodelled
  | _ => .error .type

/-- truth value of an object; floats are `unmodelled` -/
def truthy : Obj → Except PyErr Bool
  | .nil => .ok false
  | .bool b => .ok b
  | .int i => .ok (decide (i ≠ 0))
  | .float _ => .error .unmodelled
  | .str s => .ok (decide (s ≠ []))
  | .bin s => .ok (decide (s ≠ []))
  | .arr l => .ok (decide (l.length ≠ 0))
  | .map l => .ok (decide (l.length ≠ 0))

/-- `String2DataType[fieldtype]` needs a hashable key; no type has a name that is not a str -/
def asTypeName : Obj → Except PyErr Str
  | .str s => .ok s
  | .arr _ => .error .type
  | .map _ => .error .type
  | _ => .error .key

/-- one field of the schema (codec.py:699-712) -/
def pField : P (Str × TypeWire) := do
  let name ← pnext
  let has ← pnext
  let ty ← pnext
  let name ← P.lift (asStr name)
  let ty ← P.lift (asTypeName ty)
  if ← P.lift (truthy has) then
    match ← pnext with
    | .map d => return (name, ⟨ty, some d⟩)
    | _ => P.fail .type
  else return (name, ⟨ty, none⟩)

/-- a layer's schema as read, before its types are interpreted -/
abbrev RawSchema := List (Str × List (Str × TypeWire))

/-- the names of the layers (codec.py:689) -/
def pTypes : P (List Str) := do
  match ← pnext with
  | .arr l => P.lift (mapE asStr l)
  | .str _ => P.fail .unmodelled
  | .bin _ => P.fail .unmodelled
  | .map _ => P.fail .unmodelled
  | _ => P.fail .type

/-- the schema of one layer -/
def pLayerSchema (name : Str) : P (Str × List (Str × TypeWire)) := do
  let n ← P.lift (asCount (← pnext))
  return (name, ← P.times pField n.toNat)

/-- `decode_schema` (codec.py:688-716) -/
def pSchema : P RawSchema := do P.each pLayerSchema (← pTypes)

/-- the type of one field (codec.py:703-712) -/
def schemaField (c : Str × TypeWire) : Except PyErr (Str × DataType) :=
  match c.2.decode with
  | .ok t => .ok (c.1, t)
  | .error e => .error e

/-- the types of one layer; a repeated field is refused (model.py:1228) -/
def schemaLayer (l : Str × List (Str × TypeWire)) : Except PyErr (Str × List (Str × DataType)) :=
  match mapE schemaField l.2 with
  | .error e => .error e
  | .ok cols => if (cols.map (·.1)).Nodup then .ok (l.1, cols) else .error .value

/-- the types of the schema (codec.py:703-714) -/
def schemaTypes (s : RawSchema) : Except PyErr (List (Str × List (Str × DataType))) := mapE schemaLayer s

/-- a text in its segments -/
def asSegs : Obj → Except PyErr (List Str)
  | .arr l => mapE asStr l
  | _ => .error .unmodelled

/-- the texts (codec.py:718-720, 742-748) -/
def asTexts : Obj → Except PyErr (Dict Str (List Str))
  | .map d => mapE (fun (e : Str × Obj) => match asSegs e.2 with
    | .ok l => .ok (e.1, l)
    | .error x => .error x) d
  | _ => .error .attribute

/-- one column (codec.py:816-825) -/
def pCol : P (List Obj) := do
  if ← P.lift (truthy (← pnext)) then P.fail .notImplemented
  else
    match ← pnext with
    | .arr l => return l
    | .str _ => P.fail .unmodelled
    | .bin _ => P.fail .unmodelled
    | .map _ => P.fail .unmodelled
    | _ => P.fail .type

/-- the data of one layer (codec.py:758-833), after its length -/
def pLayer (l : Str × List (Str × TypeWire)) : P (Str × WireLayer) := do
  let n ← P.lift (asCount (← pnext))
  let cols ← P.each (fun (c : Str × TypeWire) => do
    let data ← pCol
    return (c.1, c.2, data)) l.2
  return (l.1, ⟨n, cols⟩)

/-- the property dict -/
def asProps : Obj → Except PyErr (Dict Str Obj)
  | .map d => .ok d
  | _ => .error .unmodelled

/-- what MsgpackCodec.decode reads after the magic bytes (codec.py:855-881) -/
def readWire : P Wire := do
  pskip
  let props ← P.lift (asProps (← pnext))
  let schema ← pSchema
  pskip
  let texts ← P.lift (asTexts (← pnext))
  let layers ← P.each (fun l => do
    pskip
    pLayer l) schema
  return ⟨props, texts, layers⟩

/-- `MsgpackCodec.decode(data)` (codec.py:835-885). `read_bytes(4)` of shorter data returns what there is. -/
def decodeMsgpack (data : Bytes) : Except PyErr World :=
  if data.take 4 ≠ magic then .error .value
  else
    match readWire (data.drop 4) with
    | .error e => .error e
    | .ok (x, _) => fromWire x

/-! ### MsgpackDocument -/

/-- a MsgpackDocument (codec.py:370-398). `ref` is the attribute: `none` when it is not set at all. -/
structure MDoc where
  raw : Bytes
  ref : Option Value
  readState : Nat := 0
  prop : Option (Nat × Obj) := none
  schema : Option RawSchema := none
  texts : Option (Nat × Obj) := none
  layers : Option (Dict Str (Nat × Obj)) := none

namespace MDoc

/-- `MsgpackDocument(data, ref)` (codec.py:370-398) -/
def ofBytes (data : Bytes) (ref : Value) : Except PyErr MDoc :=
  if data.take 4 ≠ magic then .error .value else .ok { raw := data, ref := some ref }

/-- `MsgpackDocument(doc, ref)` for a Document -/
def ofDoc (w : World) (ref : Value) : World × Except PyErr MDoc :=
  match w.encodeMsgpack false true with
  | (w, .error e) => (w, .error e)
  | (w, .ok b) => (w, ofBytes b ref)

/-- seek, make a new Unpacker, read: the result and the Unpacker's position -/
def readAt {α : Type} (raw : Bytes) (pos : Int) (p : P α) : Except PyErr (α × Nat) :=
  if pos < 0 then .error .value
  else
    match p (raw.drop pos.toNat) with
    | .error e => .error e
    | .ok (a, r) => .ok (a, (raw.drop pos.toNat).length - r.length)

/-- `a + b` where `b` was read from the data -/
def addObj (a : Nat) : Obj → Except PyErr Int
  | .int i => .ok (a + i)
  | .bool _ => .error .unmodelled
  | .float _ => .error .unmodelled
  | _ => .error .type

/-- the first part of `_parse_state` (codec.py:412-419) -/
def parse1 (s : MDoc) : MDoc × Except PyErr Unit :=
  match readAt s.raw 4 pnext with
  | .error e => (s, .error e)
  | .ok (sz, n) => ({ s with prop := some (n + 4, sz) }, .ok ())

/-- the second part (codec.py:421-431): schema and place of the texts. `self._prop` being None is a TypeError. -/
def parse2 (s : MDoc) : MDoc × Except PyErr Unit :=
  match s.prop with
  | none => (s, .error .type)
  | some (a, b) =>
    match addObj a b with
    | .error e => (s, .error e)
    | .ok start =>
      match readAt s.raw start pSchema with
      | .error e => (s, .error e)
      | .ok (sch, n) =>
        match schemaTypes sch with
        | .error e => (s, .error e)
        | .ok _ =>
          match readAt s.raw (start + n) pnext with
          | .error e => ({ s with schema := some sch }, .error e)
          | .ok (len, m) => ({ s with schema := some sch, texts := some ((start + n + m).toNat, len) }, .ok ())

/-- the loop over the layers (codec.py:438-447): start and length of each (the last one if a name repeats) -/
def layerPlaces (raw : Bytes) (start : Int) : List Str → Except PyErr (Dict Str (Nat × Obj))
  | [] => .ok []
  | t :: ts =>
    match readAt raw start pnext with
    | .error e => .error e
    | .ok (len, n) =>
      match addObj (start + n).toNat len with
      | .error e => .error e
      | .ok next =>
        if next < 0 then .error .value else
        match layerPlaces raw next ts with
        | .error e => .error e
        | .ok d => .ok (if (dget d t).isSome then d else dset d t ((start + n).toNat, len))

/-- the third part (codec.py:433-447) -/
def parse3 (s : MDoc) : MDoc × Except PyErr Unit :=
  match s.texts, s.schema with
  | some (a, b), some sch =>
    match addObj a b with
    | .error e => (s, .error e)
    | .ok start =>
      match layerPlaces s.raw start (sch.map (·.1)) with
      | .error e => (s, .error e)
      | .ok d => ({ s with layers := some d }, .ok ())
  | _, _ => (s, .error .type)

/-- `_parse_state(k)` (codec.py:411-447). `_read_state` is never advanced. -/
def parseState (s : MDoc) (k : Nat) : MDoc × Except PyErr Unit :=
  match (if s.readState < 1 ∧ k > 0 then s.parse1 else (s, .ok ())) with
  | (s, .error e) => (s, .error e)
  | (s, .ok ()) =>
    match (if s.readState < 2 ∧ k > 1 then s.parse2 else (s, .ok ())) with
    | (s, .error e) => (s, .error e)
    | (s, .ok ()) => if s.readState < 3 ∧ k > 2 then s.parse3 else (s, .ok ())

/-- `unpacker.read_map_header()` -/
def pMapHeader : P Nat := do
  match ← unpackHead with
  | .map n => return n
  | _ => P.fail .value

/-- the loop of `decode_property` (codec.py:676-682) -/
def pSelect (names : List Str) : Nat → Dict Str Obj → P (Dict Str Obj)
  | 0, out => pure out
  | n + 1, out => do
    match ← pnext with
    | .str k =>
      if k ∈ names then
        let v ← pnext
        pSelect names n (dset out k v)
      else
        pskip
        pSelect names n out
    | .arr _ => P.fail .type
    | .map _ => P.fail .type
    | _ =>
      pskip
      pSelect names n out

/-- `decode_property(unpacker, *props)` (codec.py:668-685) -/
def decodeProperty (names : List Str) : P Obj :=
  if names = [] then pnext
  else do
    let n ← pMapHeader
    return .map (← pSelect names n [])

/-- `properties(*props)` (codec.py:453-458) -/
def properties (s : MDoc) (names : List Str) : MDoc × Except PyErr Obj :=
  match s.parseState 1 with
  | (s, .error e) => (s, .error e)
  | (s, .ok ()) =>
    match s.prop with
    | none => (s, .error .type)
    | some (a, _) =>
      match readAt s.raw a (decodeProperty names) with
      | .error e => (s, .error e)
      | .ok (o, _) => (s, .ok o)

/-- `schema()` (codec.py:460-463): the layer names and their fields -/
def getSchema (s : MDoc) : MDoc × Except PyErr (List (Str × List (Str × DataType))) :=
  match s.parseState 2 with
  | (s, .error e) => (s, .error e)
  | (s, .ok ()) =>
    match s.schema with
    | none => (s, .error .type)
    | some sch => (s, schemaTypes sch)

/-- `decode_texts(unpacker, *texts)` (codec.py:718-735). With names, the parameter is overwritten by the
result dict before the set of names is made from it, so no name is ever selected. -/
def decodeTexts (names : List Str) : P Obj :=
  if names = [] then pnext
  else do
    let n ← pMapHeader
    return .map (← pSelect [] n [])

/-- `texts(*texts)` (codec.py:465-470) -/
def getTexts (s : MDoc) (names : List Str) : MDoc × Except PyErr Obj :=
  match s.parseState 2 with
  | (s, .error e) => (s, .error e)
  | (s, .ok ()) =>
    match s.texts with
    | none => (s, .error .type)
    | some (a, _) =>
      match readAt s.raw a (decodeTexts names) with
      | .error e => (s, .error e)
      | .ok (o, _) => (s, .ok o)

/-- the data of the chosen layers (codec.py:491-498) -/
def readLayers (raw : Bytes) (places : Dict Str (Nat × Obj)) (sch : RawSchema) :
    List Str → Except PyErr (Dict Str WireLayer)
  | [] => .ok []
  | t :: ts =>
    match dget places t, dget sch t with
    | some (a, _), some fs =>
      match readAt raw a (pLayer (t, fs)) with
      | .error e => .error e
      | .ok (l, _) =>
        match readLayers raw places sch ts with
        | .error e => .error e
        | .ok d => .ok (dset d t l.2)
    | _, _ => .error .key

/-- the nodes of a layer (codec.py:137) -/
def nodesFor (d : Dict Str WireLayer) (l : Str × List (Str × TypeWire)) : Except PyErr (Str × WireLayer) :=
  match dget d l.1 with
  | some wl => .ok (l.1, wl)
  | none => .error .key

/-- what `document` does once everything has been looked up (codec.py:486-501): commit_layers looks up the
nodes of every layer of the schema (codec.py:137), KeyError if one was not chosen. -/
def assemble (s : MDoc) (chosen : List Str) (props texts : Obj) (sch : RawSchema)
    (places : Dict Str (Nat × Obj)) : Except PyErr World :=
  match asProps props with
  | .error e => .error e
  | .ok props =>
    match asTexts texts with
    | .error e => .error e
    | .ok texts =>
      match readLayers s.raw places sch (if chosen = [] then sch.map (·.1) else chosen) with
      | .error e => .error e
      | .ok d =>
        match mapE (nodesFor d) sch with
        | .error e => .error e
        | .ok layers => fromWire ⟨props, texts, layers⟩

/-- `document(*layers)` (codec.py:472-501) -/
def document (s : MDoc) (chosen : List Str) : MDoc × Except PyErr World :=
  match s.parseState 3 with
  | (s, .error e) => (s, .error e)
  | (s, .ok ()) =>
    match s.properties [] with
    | (s, .error e) => (s, .error e)
    | (s, .ok props) =>
      match s.getSchema with
      | (s, .error e) => (s, .error e)
      | (s, .ok _) =>
        match s.getTexts [] with
        | (s, .error e) => (s, .error e)
        | (s, .ok texts) =>
          match s.schema, s.layers with
          | some sch, some places => (s, s.assemble chosen props texts sch places)
          | _, _ => (s, .error .type)

/-- `binary()` (codec.py:449-451) -/
def binary (s : MDoc) : Bytes := s.raw

/-- `__getstate__` (codec.py:400-401): the bytes and the reference; without a `ref` attribute,
AttributeError -/
def getState (s : MDoc) : Except PyErr (Bytes × Value) :=
  match s.ref with
  | some r => .ok (s.raw, r)
  | none => .error .attribute

/-- `__setstate__` (codec.py:403-409): the reference is not restored. -/
def setState (st : Bytes × Value) : Except PyErr MDoc :=
  if st.1.take 4 ≠ magic then .error .value else .ok { raw := st.1, ref := none }

end MDoc
end Verif
