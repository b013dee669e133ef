import Verif.Model.Doc
import Verif.Model.Convert
/-
Encoding a document to plain data and back, as shared by the MessagePack and JSON codecs:
Codec.encode and Codec.commit_layers (codec.py:35-173), MsgpackCodec.decode_schema, decode_texts,
compute_text_offsets and decode_layer (688-833). Bytes come in Model/MsgpackCodec.

`Wire` is the data the codec hands to the serializer. Simplifications: of the conversions that the encoders
perform on values of another Python type some are `unmodelled` (Model/Convert.lean); option values
are turned into plain data here, while the code leaves that to the serializer (which exception comes
first can differ); a schema naming the same layer twice is `unmodelled` (a Python dict has no repeated
keys, so the other cases of that check never occur).
-/
namespace Verif

namespace Value

/-- a property or option value as plain data. Spans and ExtData are refused by the serializers
(TypeError); a Node is a dict and would be written as one: `unmodelled`. -/
def toObj : Value → Except PyErr Obj
  | .none => .ok .nil
  | .bool b => .ok (.bool b)
  | .int i => .ok (.int i)
  | .float f => .ok (.float f)
  | .str s => .ok (.str s)
  | .bytes b => .ok (.bin b)
  | .data o => .ok o
  | .nodespan _ _ => .error .type
  | .span _ _ _ => .error .type
  | .ext _ _ => .error .type
  | _ => .error .unmodelled

/-- plain data as a Python value -/
def ofObj : Obj → Value
  | .nil => .none
  | .bool b => .bool b
  | .int i => .int i
  | .float f => .float f
  | .str s => .str s
  | .bin b => .bytes b
  | .arr l => .data (.arr l)
  | .map l => .data (.map l)

end Value

/-- a dict of values as plain data -/
def dictToObj (d : Dict Str Value) : Except PyErr (Dict Str Obj) :=
  mapE (fun e => match e.2.toObj with | .ok o => .ok (e.1, o) | .error x => .error x) d

/-- `DataType2String[t]` (model.py:862-874): UNKNOWN has no string. -/
def TName.wire : TName → Except PyErr Str
  | .unknown => .error .key
  | .i32 => .ok "i32".toList
  | .i64 => .ok "i64".toList
  | .f64 => .ok "f64".toList
  | .bool => .ok "i1".toList
  | .string => .ok "str".toList
  | .binary => .ok "bin".toList
  | .noderef => .ok "noderef".toList
  | .noderefMany => .ok "noderef_array".toList
  | .span => .ok "span".toList
  | .ext => .ok "ext".toList
  | .nodespan => .ok "nodespan".toList

/-- all entries of `DataType2String`, in order (model.py:862-874) -/
def TName.all : List TName :=
  [.i32, .i64, .f64, .bool, .string, .binary, .noderef, .noderefMany, .span, .ext, .nodespan]

/-- `String2DataType[s]` (model.py:889): the inverted dict. -/
def TName.ofWire (s : Str) : Except PyErr TName :=
  match TName.all.find? (fun t => decide (t.wire = .ok s)) with
  | some t => .ok t
  | none => .error .key

/-- wire form of a type (model.py:905-914): the name, or the name with the options as arguments -/
structure TypeWire where
  name : Str
  args : Option (Dict Str Obj)
  deriving DecidableEq

/-- `DataType.encode` (model.py:905-914). -/
def DataType.encode (t : DataType) : Except PyErr TypeWire :=
  match t.tname.wire with
  | .error e => .error e
  | .ok s =>
    match t.options with
    | [] => .ok ⟨s, none⟩
    | _ =>
      match dictToObj t.options with
      | .ok d => .ok ⟨s, some d⟩
      | .error e => .error e

/-- `DataType(String2DataType[name], **args)` (codec.py:705-711, model.py:897-900): always the base
class. An argument named like a parameter of the constructor is a TypeError. -/
def TypeWire.decode (t : TypeWire) : Except PyErr DataType :=
  match TName.ofWire t.name with
  | .error e => .error e
  | .ok n =>
    match t.args with
    | none => .ok ⟨n, false, []⟩
    | some d =>
      if "self".toList ∈ dkeys d ∨ "typename".toList ∈ dkeys d then .error .type
      else .ok ⟨n, false, d.map (fun e => (e.1, Value.ofObj e.2))⟩

/-- one layer on the wire: number of nodes, and per field its name, type and column -/
structure WireLayer where
  num : Int
  cols : List (Str × TypeWire × List Obj)
  deriving DecidableEq

/-- what Codec.encode returns (codec.py:113), with the properties the serializers add -/
structure Wire where
  props : Dict Str Obj
  texts : Dict Str (List Str)
  layers : Dict Str WireLayer
  deriving DecidableEq

namespace World

/-! ### encoding -/

/-- `n.i` for each node -/
def nodeIs (w : World) (ns : List NodeId) : Except PyErr (List Obj) :=
  mapE (fun n => match w.nodeI n with | .ok i => .ok (Obj.int i) | .error e => .error e) ns

/-- the encoders (codec.py:48-59) applied to a value other than None that is not of the declared type. A Node has
attributes `left` and `right` (model.py:154-162) as a NodeSpan has, and a NodeSpan is a collection of nodes as a list of nodes
is. A TextSpan is read as in `World.asBytes`. -/
def encodeOther (w : World) : TName → Value → Except PyErr (List Obj)
  | .i32, v | .i64, v =>
    match asInt v with
    | .ok i => .ok [.int i]
    | .error e => .error e
  | .f64, v =>
    match asFloat v with
    | .ok x => .ok [.float x]
    | .error e => .error e
  | .bool, v =>
    match w.asTruth v with
    | .ok b => .ok [.bool b]
    | .error e => .error e
  | .string, v =>
    match w.asText v with
    | .ok s => .ok [.str s]
    | .error e => .error e
  | .binary, v =>
    match w.asBytes v with
    | .ok b => .ok [.bin b]
    | .error e => .error e
  | .noderefMany, .nodespan l r =>
    match w.nodeSpanIter l r with
    | .ok [] => .ok [.nil]
    | .ok ns =>
      match w.nodeIs ns with
      | .ok is => .ok [.arr is]
      | .error e => .error e
    | .error e => .error e
  | .noderefMany, .span t a b =>
    match w.lenZero (.span t a b) with
    | .ok true => .ok [.nil]
    | .ok false =>
      match pyIndex (w.texts t).text a with
      | .ok _ => .error .attribute
      | .error _ => .ok [.arr []]
    | .error e => .error e
  | .noderefMany, v =>
    match w.lenZero v with
    | .ok true => .ok [.nil]
    | .ok false => .error .attribute
    | .error e => .error e
  | .nodespan, .node n =>
    match w.neighbourI (w.nodeLeft n), w.neighbourI (w.nodeRight n) with
    | .ok i, .ok j => .ok [.arr [.int i, .int (j - i)]]
    | .error e, _ => .error e
    | _, .error e => .error e
  | _, .other => .error .unmodelled
  | _, _ => .error .attribute

/-- the encoders (codec.py:35-59) applied to one value; `idx` is the offset dict of a span field's text.
What they append to the column. -/
def encodeCell (w : World) (idx : Dict Int Nat) : TName → Value → Except PyErr (List Obj)
  | .i32, .none | .i64, .none | .f64, .none | .bool, .none | .string, .none | .binary, .none
  | .noderef, .none | .noderefMany, .none | .nodespan, .none => .ok [.nil]
  | .span, .none => .ok [.nil, .nil]
  | .i32, .int i | .i64, .int i => .ok [.int i]
  | .i32, .bool b | .i64, .bool b => .ok [.int (if b then 1 else 0)]
  | .f64, .float f => .ok [.float f]
  | .bool, .bool b => .ok [.bool b]
  | .string, .str s => .ok [.str s]
  | .binary, .bytes b => .ok [.bin b]
  | .noderef, .node n =>
    match w.nodeI n with
    | .ok i => .ok [.int i]
    | .error e => .error e
  | .noderefMany, .nodes [] => .ok [.nil]
  | .noderefMany, .nodes ns =>
    match w.nodeIs ns with
    | .ok l => .ok [.arr l]
    | .error e => .error e
  | .nodespan, .nodespan l r =>
    match w.nodeI l, w.nodeI r with
    | .ok i, .ok j => .ok [.arr [.int i, .int (j - i)]]
    | .error e, _ => .error e
    | _, .error e => .error e
  | .span, .span _ a b =>
    match dget idx a, dget idx b with
    | some i, some j => .ok [.int i, .int j]
    | _, _ => .error .key
  | t, v => w.encodeOther t v

/-- `offset_mapping[fieldtype.options["context"]][0]` (codec.py:99) -/
def spanIndex (offs : Dict Str (List Int)) (t : DataType) : Except PyErr (Dict Int Nat) :=
  match dget t.options "context".toList with
  | some (.str c) =>
    match dget offs c with
    | some l => .ok (offsetIndex l)
    | none => .error .key
  | _ => .error .key

/-- one iteration of the loop over the fields (codec.py:79-105): the column of field `f` over the given
nodes. There is no encoder for EXT (or UNKNOWN): KeyError at line 83. -/
def encodeCol (w : World) (offs : Dict Str (List Int)) (ns : List (Option NodeId)) (f : Str) (t : DataType) :
    Except PyErr (List Obj) :=
  if t.tname = .ext ∨ t.tname = .unknown then .error .key
  else
    match (if t.tname = .span then spanIndex offs t else .ok []) with
    | .error e => .error e
    | .ok idx =>
      match mapE (fun n => match n with
        | none => .error .type
        | some n => w.encodeCell idx t.tname ((dget (w.nodes n).fields f).getD .none)) ns with
      | .error e => .error e
      | .ok l => .ok l.flatten

/-- one field: its name, type and column -/
def encodeField (w : World) (offs : Dict Str (List Int)) (L : LayerId) (e : Str × DataType) :
    Except PyErr (Str × TypeWire × List Obj) :=
  match e.2.encode with
  | .error x => .error x
  | .ok tw =>
    match w.encodeCol offs (w.iter L) e.1 e.2 with
    | .error x => .error x
    | .ok col => .ok (e.1, tw, col)

/-- the loop body over the layers (codec.py:76-111) -/
def encodeLayer (w : World) (offs : Dict Str (List Int)) (L : LayerId) : Except PyErr WireLayer :=
  match mapE (w.encodeField offs L) (w.layers L).fields with
  | .error e => .error e
  | .ok cols => .ok ⟨(w.layers L).num, cols⟩

/-- the texts cut at their offsets (codec.py:70-71): keyed by the name of the Text object -/
def encodeTexts (w : World) (offs : Dict Str (List Int)) : Except PyErr (Dict Str (List Str)) :=
  match mapE (fun (e : Str × TextId) =>
      match dget offs (w.texts e.2).name with
      | some l => .ok ((w.texts e.2).name, (w.texts e.2).compile l)
      | none => .error .key) w.dt with
  | .error e => .error e
  | .ok l => .ok (dupdate [] l)

/-- one layer under its name -/
def encodeEntry (w : World) (offs : Dict Str (List Int)) (e : Str × LayerId) : Except PyErr (Str × WireLayer) :=
  match w.encodeLayer offs e.2 with
  | .error x => .error x
  | .ok wl => .ok (e.1, wl)

/-- what Codec.encode does after compiling (codec.py:70-113), together with `doc.props` -/
def wireOf (w : World) (offs : Dict Str (List Int)) : Except PyErr Wire :=
  match w.encodeTexts offs with
  | .error e => .error e
  | .ok texts =>
    match mapE (w.encodeEntry offs) w.dl with
    | .error e => .error e
    | .ok layers =>
      match dictToObj w.props with
      | .error e => .error e
      | .ok props => .ok ⟨props, texts, layers⟩

/-- `Codec.encode(doc, extra_fields_ok, type_validation)` (codec.py:61-113) together with `doc.props`. -/
def toWire (w : World) (extraOk typeVal : Bool) : World × Except PyErr Wire :=
  match w.compile extraOk typeVal with
  | (w, .error e) => (w, .error e)
  | (w, .ok offs) => (w, w.wireOf offs)

end World

/-! ### decoding -/

/-- a text being decoded: its place among the document's texts and its offsets -/
abbrev TextTab := Dict Str (TextId × List Nat)

/-- offsets of the segments of a text (codec.py:743-750) -/
def segOffsets (pos : Nat) : List Str → List Nat
  | [] => [pos]
  | s :: rest => pos :: segOffsets (pos + s.length) rest

/-- `compute_text_offsets` (codec.py:737-756): place and offsets of each text. -/
def textTab (texts : Dict Str (List Str)) : TextTab :=
  texts.zipIdx.map (fun e => (e.1.1, e.2, segOffsets 0 e.1.2))

/-- `offsets[x]` of the dict `{0: o0, 1: o1, ...}`; bools and floats equal to an int would be found too:
`unmodelled` -/
def offsetAt (offs : List Nat) : Obj → Except PyErr Int
  | .int i =>
    if 0 ≤ i then
      match offs[i.toNat]? with
      | some x => .ok x
      | none => .error .key
    else .error .key
  | .bool _ | .float _ => .error .unmodelled
  | .arr _ | .map _ => .error .type
  | _ => .error .key

/-- consecutive pairs; an odd last element is dropped (`int(len(data)/2)`, codec.py:803) -/
def pairsOf : List Obj → List (Obj × Obj)
  | a :: b :: rest => (a, b) :: pairsOf rest
  | _ => []

/-- `for n, v in zip(nodes, data): if ...: n[f] = g(v)` on the dicts of fresh nodes -/
def zipSet {α : Type} (f : Str) (g : α → Except PyErr (Option Value)) :
    List (Dict Str Value) → List α → Except PyErr (List (Dict Str Value))
  | d :: ds, c :: cs =>
    match g c with
    | .error e => .error e
    | .ok v =>
      match zipSet f g ds cs with
      | .error e => .error e
      | .ok rest => .ok ((match v with | none => d | some v => dset d f v) :: rest)
  | ds, _ => .ok ds

/-- `simple_field` on one entry (codec.py:769-775) -/
def simpleCell : Obj → Except PyErr (Option Value)
  | .nil => .ok none
  | o => .ok (some (Value.ofObj o))

/-- `span_field` on one pair (codec.py:803-805) -/
def spanCell (T : TextId) (offs : List Nat) : Obj × Obj → Except PyErr (Option Value)
  | (.nil, _) => .ok none
  | (a, b) =>
    match offsetAt offs a with
    | .error e => .error e
    | .ok x =>
      match offsetAt offs b with
      | .error e => .error e
      | .ok y => if x ≤ y then .ok (some (.span T x y)) else .error .assertion

/-- a cell of an ext column (codec.py:777-795). With the type "doc" the bytes are decoded: `nested` says whether that works. The
Document that becomes the value of the field is not put into the node's dict but kept apart (Model/Nested.lean). With any other
type the code asks the bytes for an attribute `data`: AttributeError. A cell of type "doc" that is no bytes is `unmodelled`. -/
def extCell (nested : Bytes → Except PyErr Unit) (ty : Value) : Obj → Except PyErr (Option Value)
  | .nil => .ok none
  | .bin b =>
    if ty = .str "doc".toList then
      match nested b with
      | .error e => .error e
      | .ok _ => .ok none
    else .error .attribute
  | _ => if ty = .str "doc".toList then .error .unmodelled else .error .attribute

/-- decoding of one column (codec.py:766-825). A span field whose text is missing is skipped with a
warning. -/
def decodeCol (nested : Bytes → Except PyErr Unit) (tab : TextTab) (f : Str) (t : DataType) (data : List Obj) (nodes : List (Dict Str Value)) :
    Except PyErr (List (Dict Str Value)) :=
  match t.tname with
  | .span =>
    match dget t.options "context".toList with
    | none => .error .key
    | some (.data _) => .error .type
    | some (.str c) =>
      match dget tab c with
      | none => .ok nodes
      | some (T, offs) => zipSet f (spanCell T offs) nodes (pairsOf data)
    | some _ => .ok nodes
  | .ext =>
    match dget t.options "type".toList with
    | none => .error .key
    | some ty => zipSet f (extCell nested ty) nodes data
  | _ => zipSet f simpleCell nodes data

/-- the loop over the columns of one layer (codec.py:766-831) -/
def decodeCols (nested : Bytes → Except PyErr Unit) (tab : TextTab) : List (Str × DataType × List Obj) → List (Dict Str Value) →
    Except PyErr (List (Dict Str Value))
  | [], nodes => .ok nodes
  | (f, t, data) :: rest, nodes =>
    match decodeCol nested tab f t data nodes with
    | .error e => .error e
    | .ok nodes => decodeCols nested tab rest nodes

/-- a decoded layer: name, schema, columns and the dicts of its nodes (whose `_id`s are 0, 1, ...) -/
structure DLayer where
  name : Str
  fields : Dict Str DataType
  recs : List (Dict Str Value)

/-- the nodes of each decoded layer as they lie in the new heap -/
def nodesOf (base : Nat) : List DLayer → Dict Str (List NodeId)
  | [] => []
  | l :: ls => (l.name, List.range' base l.recs.length) :: nodesOf (base + l.recs.length) ls

/-- `target_nodes[i]` -/
def targetAt (target : List NodeId) : Obj → Except PyErr NodeId
  | .int i => pyIndex target i
  | .bool _ => .error .unmodelled
  | _ => .error .type

/-- replace one placeholder (codec.py:146-173) -/
def resolveCell (target : List NodeId) : TName → Value → Except PyErr Value
  | .noderef, .int i =>
    match pyIndex target i with
    | .ok n => .ok (.node n)
    | .error e => .error e
  | .noderef, .bool _ => .error .unmodelled
  | .noderef, _ => .error .type
  | .noderefMany, .data (.arr l) =>
    match mapE (targetAt target) l with
    | .ok ns => .ok (.nodes ns)
    | .error e => .error e
  | .nodespan, .data (.arr (.int i :: .int k :: _)) =>
    match pyIndex target i, pyIndex target (i + k) with
    | .ok l, .ok r => if l ≤ r then .ok (.nodespan l r) else .error .assertion
    | .error e, _ => .error e
    | _, .error e => .error e
  | .nodespan, .data (.arr []) => .error .index
  | .nodespan, .data (.arr [_]) => .error .index
  | _, _ => .error .unmodelled

/-- post-processing of one column (codec.py:143-173). Nodes of one layer lie in the heap in list order,
so comparing `i`s is comparing heap places. -/
def resolveCol (all : Dict Str (List NodeId)) (f : Str) (t : DataType) (nodes : List (Dict Str Value)) :
    Except PyErr (List (Dict Str Value)) :=
  match t.tname with
  | .noderef | .noderefMany | .nodespan =>
    match dget t.options "layer".toList with
    | none => .error .key
    | some (.data _) => .error .type
    | some (.str s) =>
      match dget all s with
      | none => .error .key
      | some target =>
        mapE (fun d => match dget d f with
          | none => .ok d
          | some v =>
            match resolveCell target t.tname v with
            | .ok v' => .ok (dset d f v')
            | .error e => .error e) nodes
    | some _ => .error .key
  | _ => .ok nodes

/-- post-processing of one layer (codec.py:141-173) -/
def resolveCols (all : Dict Str (List NodeId)) : Dict Str DataType → List (Dict Str Value) →
    Except PyErr (List (Dict Str Value))
  | [], nodes => .ok nodes
  | (f, t) :: rest, nodes =>
    match resolveCol all f t nodes with
    | .error e => .error e
    | .ok nodes => resolveCols all rest nodes

/-- node objects of the decoded layers, in heap order; `k` is the first layer's place -/
def nodeObjs (k : LayerId) : List DLayer → List NodeRec
  | [] => []
  | l :: ls => l.recs.zipIdx.map (fun e => { id := (e.2 : Int), coll := some k, fields := e.1 }) ++ nodeObjs (k + 1) ls

/-- layer objects of the decoded layers (codec.py:126-139 with add_layer and unsafe_initialize) -/
def layerObjs (base : Nat) : List DLayer → List LayerObj
  | [] => []
  | l :: ls =>
    { name := l.name, fields := l.fields, slots := (List.range' base l.recs.length).map some,
      num := l.recs.length, defaults := World.computeDefaults l.fields } :: layerObjs (base + l.recs.length) ls

/-- the decoded document in a heap of its own -/
def buildDoc (props : Dict Str Value) (texts : Dict Str (List Str)) (ls : List DLayer) : World where
  nodes n := (nodeObjs 0 ls)[n]?.getD {}
  layers L := (layerObjs 0 ls)[L]?.getD {}
  texts T := match texts[T]? with
    | some (name, segs) => ⟨T, name, segs.flatten⟩
    | none => ⟨T, [], []⟩
  dl := (ls.map (·.name)).zipIdx
  dt := (dkeys texts).zipIdx
  props := props
  nextN := (nodeObjs 0 ls).length
  nextL := ls.length
  nextT := texts.length

/-- the schema of one layer (codec.py:692-714): a repeated field is refused by NodeLayerSchema.add -/
def decodeSchema (l : Str × WireLayer) : Except PyErr (Str × List (Str × DataType × List Obj) × Int) :=
  match mapE (fun (c : Str × TypeWire × List Obj) =>
      match c.2.1.decode with
      | .ok t => .ok (c.1, t, c.2.2)
      | .error e => .error e) l.2.cols with
  | .error e => .error e
  | .ok cols => if (cols.map (·.1)).Nodup then .ok (l.1, cols, l.2.num) else .error .value

/-- `decode_layer` (codec.py:758-833) -/
def decodeLayer (nested : Bytes → Except PyErr Unit) (tab : TextTab) (l : Str × List (Str × DataType × List Obj) × Int) : Except PyErr DLayer :=
  match decodeCols nested tab l.2.1 (List.replicate l.2.2.toNat []) with
  | .error e => .error e
  | .ok recs => .ok ⟨l.1, l.2.1.map (fun c => (c.1, c.2.1)), recs⟩

/-- post-processing of one layer, keeping its name and schema -/
def resolveLayer (all : Dict Str (List NodeId)) (l : DLayer) : Except PyErr DLayer :=
  match resolveCols all l.fields l.recs with
  | .error e => .error e
  | .ok recs => .ok { l with recs := recs }

/-- decoding (codec.py:850-885): properties, schema, texts, layers, post-processing. -/
def fromWireN (nested : Bytes → Except PyErr Unit) (x : Wire) : Except PyErr World :=
  if ¬ (dkeys x.layers).Nodup ∨ ¬ (dkeys x.texts).Nodup ∨ ¬ (dkeys x.props).Nodup then .error .unmodelled
  else
    match mapE decodeSchema x.layers with
    | .error e => .error e
    | .ok schema =>
      match mapE (decodeLayer nested (textTab x.texts)) schema with
      | .error e => .error e
      | .ok ls =>
        match mapE (resolveLayer (nodesOf 0 ls)) ls with
        | .error e => .error e
        | .ok ls => .ok (buildDoc (x.props.map (fun e => (e.1, Value.ofObj e.2))) x.texts ls)

/-- documents in fields are `unmodelled` here; see Model/Nested.lean -/
def noNest : Bytes → Except PyErr Unit := fun _ => .error .unmodelled

/-- decoding of a document without documents in its fields -/
def fromWire (x : Wire) : Except PyErr World := fromWireN noNest x

end Verif
