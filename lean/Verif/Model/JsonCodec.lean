import Verif.Model.MsgpackCodec
import Verif.Py.Json
/-
JsonCodec (codec.py:176-347).

Simplifications: as in Model/MsgpackCodec, input that no encoder writes can make Python iterate over values
of an unexpected type: `unmodelled`; the parts are interpreted in another order than in the code, so with
several faults in one input the exception that comes first can differ.
-/
namespace Verif

/-- the type of a field as `DataType.encode` returns it (model.py:905-914) -/
def typeObj (t : TypeWire) : Obj :=
  match t.args with
  | none => .str t.name
  | some d => .map [("type".toList, .str t.name), ("args".toList, .map d)]

/-- the content of the document (codec.py:187-192) -/
def jsonBody (x : Wire) : Obj :=
  .map [
    ("props".toList, .map x.props),
    ("texts".toList, textsObj x.texts),
    ("num_nodes".toList, .map (x.layers.map (fun e => (e.1, .int e.2.num)))),
    ("types".toList, .map (x.layers.map (fun e => (e.1, .map (e.2.cols.map (fun c => (c.1, .arr c.2.2))))))),
    ("schema".toList, .map (x.layers.map (fun e => (e.1, .map (e.2.cols.map (fun c => (c.1, typeObj c.2.1)))))))]

/-- what `JsonCodec.encode_object` returns (codec.py:183-193) -/
def jsonObj (x : Wire) : Obj := .map [("DM10".toList, jsonBody x)]

/-- `JsonCodec.encode(doc)` (codec.py:178-193): compiled with the default options -/
def World.encodeJson (ft : FloatText) (w : World) : World × Except PyErr Str :=
  match w.toWire false true with
  | (w, .error e) => (w, .error e)
  | (w, .ok x) => (w, dumps ft (jsonObj x))

/-! ### reading -/

/-- `o[k]` for a str key -/
def Obj.idx (o : Obj) (k : Str) : Except PyErr Obj :=
  match o with
  | .map d =>
    match dget d k with
    | some v => .ok v
    | none => .error .key
  | _ => .error .type

/-- `o.items()` -/
def Obj.items : Obj → Except PyErr (Dict Str Obj)
  | .map d => .ok d
  | _ => .error .attribute

/-- the type of one field (codec.py:221-230) -/
def jsonType (o : Obj) : Except PyErr TypeWire :=
  match o with
  | .map d => do
    let name ← asTypeName (← (Obj.map d).idx "type".toList)
    match ← (Obj.map d).idx "args".toList with
    | .map a => return ⟨name, some a⟩
    | _ => .error .type
  | .str s => .ok ⟨s, none⟩
  | _ => .error .data

/-- the value of a column -/
def jsonCol : Obj → Except PyErr (List Obj)
  | .arr l => .ok l
  | .str _ => .error .unmodelled
  | .map _ => .error .unmodelled
  | .bin _ => .error .unmodelled
  | _ => .error .type

/-- one field: its type, and its column `docobj["types"][typename][col]` (codec.py:220-232, 298) -/
def jsonField (types : Obj) (layer : Str) (f : Str × Obj) : Except PyErr (Str × TypeWire × List Obj) := do
  let t ← jsonType f.2
  let col ← jsonCol (← (← types.idx layer).idx f.1)
  return (f.1, t, col)

/-- one layer (codec.py:216-234, 254-299) -/
def jsonLayer (num types : Obj) (l : Str × Obj) : Except PyErr (Str × WireLayer) := do
  let cols ← mapE (jsonField types l.1) (← l.2.items)
  let n ← asCount (← num.idx l.1)
  return (l.1, ⟨n, cols⟩)

/-- the data of `decode_object` as a `Wire` -/
def jsonWire (o : Obj) : Except PyErr Wire := do
  let props ← asProps (← o.idx "props".toList)
  let schema ← (← o.idx "schema".toList).items
  let texts ← asTexts (← o.idx "texts".toList)
  let num ← o.idx "num_nodes".toList
  let types ← o.idx "types".toList
  let layers ← mapE (jsonLayer num types) schema
  return ⟨props, texts, layers⟩

/-- `doc.texts[typedef.options["context"]]` of a span field (codec.py:293): unlike in MsgpackCodec a text
that is missing is a KeyError. A column of type ext cannot be read: `standard_b64decode` gets the whole
column (codec.py:289). -/
def jsonColOk (texts : Dict Str (List Str)) (c : Str × TypeWire × List Obj) : Except PyErr Unit :=
  match c.2.1.decode with
  | .error e => .error e
  | .ok t =>
    match t.tname with
    | .span =>
      match dget t.options "context".toList with
      | some (.str s) => if s ∈ dkeys texts then .ok () else .error .key
      | some (.data _) => .error .type
      | _ => .error .key
    | .ext =>
      if (dget t.options "type".toList).isNone then .error .key
      else if c.2.2.all (fun o => decide (o = .nil)) then .ok () else .error .type
    | _ => .ok ()

/-- the fields of all layers -/
def jsonCheck (x : Wire) : Except PyErr Unit :=
  match mapE (fun (l : Str × WireLayer) => mapE (jsonColOk x.texts) l.2.cols) x.layers with
  | .error e => .error e
  | .ok _ => .ok ()

/-- `JsonCodec.decode_object(docobj)` (codec.py:206-347) after `docobj["DM10"]`. The post-processing is the
same as that of the MessagePack codec (codec.py:318-345). -/
def decodeObject (o : Obj) : Except PyErr World := do
  let x ← jsonWire o
  jsonCheck x
  fromWire x

/-- `JsonCodec.decode(docstr)` (codec.py:195-204) -/
def decodeJson (ft : FloatText) (s : Str) : Except PyErr World :=
  match loads ft s with
  | .error e => .error e
  | .ok (.map d) =>
    match dget d "DM10".toList with
    | none => .error .data
    | some o => decodeObject o
  | .ok _ => .error .data

end Verif
