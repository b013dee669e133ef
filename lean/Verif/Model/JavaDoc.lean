import Verif.Model.JavaText
import Verif.Model.JavaLayer
/-
Documents of the Java library: java/core/src/main/java/se/lth/cs/docria/Document.java, Schema.java, DataType.java,
DataTypeName.java, Node.java and values/.

A node is a number; `ids` and `data` are the fields `id` and `data` of all nodes (Node.java:27-28). The names of texts,
layers, fields and arguments, and the strings in values, are Unicode strings here; texts are Java strings (Model/JavaText).
The maps are TreeMaps: `Dict`s in the order of the keys. A DocumentValue is an ExtensionValue of type "doc" with the
bytes of the document; ExtensionValues are their type and bytes. Exceptions: NullPointerException is `attribute`,
DataInconsistencyException is `data`, the others as in Model/JavaStream. After an exception the document is given as before
the call.
-/
namespace Verif

/-- `a.compareTo(b) < 0` of Java strings -/
def unitsLt : JStr → JStr → Bool
  | [], [] => false
  | [], _ :: _ => true
  | _ :: _, [] => false
  | a :: as, b :: bs => decide (a < b) || (decide (a = b) && unitsLt as bs)

/-- `put` of a TreeMap -/
def tput {ν : Type} : Dict Str ν → Str → ν → Dict Str ν
  | [], k, v => [(k, v)]
  | (k', v') :: d, k, v =>
    if k = k' then (k, v) :: d
    else if unitsLt (utf16 k) (utf16 k') then (k, v) :: (k', v') :: d
    else (k', v') :: tput d k v

/-- DataTypeName (DataTypeName.java:20-32) -/
inductive JTName
  | null | int | long | double | bool | string | binary | span | ext | node | nodeArray | nodeSpan
  deriving DecidableEq

namespace JTName

/-- `getName()` (DataTypeName.java:20-42) -/
def getName : JTName → Str
  | .null => "nil".toList
  | .int => "i32".toList
  | .long => "i64".toList
  | .double => "f64".toList
  | .bool => "i1".toList
  | .string => "str".toList
  | .binary => "bin".toList
  | .span => "span".toList
  | .ext => "ext".toList
  | .node => "noderef".toList
  | .nodeArray => "noderef_array".toList
  | .nodeSpan => "nodespan".toList

/-- `values()` -/
def all : List JTName := [.null, .int, .long, .double, .bool, .string, .binary, .span, .ext, .node, .nodeArray, .nodeSpan]

/-- `from(typeName)` (DataTypeName.java:44-53): null for other names -/
def ofName (s : Str) : Option JTName := all.find? (fun t => decide (t.getName = s))

end JTName

/-- a Value (values/, Span.java, Node.java, NodeSpan.java) and the placeholders of the decoder
(MsgpackCodec.java:615-651). A span is of a text of the document, given by its name. -/
inductive JVal
  | null
  | bool (b : Bool)
  | int (i : Int)
  | long (i : Int)
  | double (f : UInt64)
  | str (s : Str)
  | bin (b : Bytes)
  | ext (type : Str) (b : Bytes)
  | span (text : Str) (s : JSpan)
  | node (n : Nat)
  | nodes (ns : List Nat)
  | nodespan (l r : Nat)
  | idArray (is : List Int)
  | idSpan (l r : Int)
  deriving DecidableEq

/-- a DataType (DataType.java:87-93) -/
structure JType where
  name : JTName
  args : Dict Str JVal
  deriving DecidableEq

/-- `args().get(k).stringValue()`: NullPointerException if there is no such argument; arguments that are no strings are
`unmodelled` -/
def JType.arg (t : JType) (k : Str) : Except PyErr Str :=
  match dget t.args k with
  | none => .error .attribute
  | some (.str s) => .ok s
  | some _ => .error .unmodelled

/-- a layer (Layer.java:26-30) with the fields of its schema (Schema.java:25-38) -/
structure JLay where
  fields : Dict Str JType
  storage : List (Option Nat)
  size : Int
  deriving DecidableEq

/-- the nodes of a layer in order: its iterator -/
def JLay.nodes (L : JLay) : List Nat := L.storage.filterMap id

/-- a document (Document.java:25-29) and its nodes -/
structure JDoc where
  props : Dict Str JVal
  texts : Dict Str JText
  layers : Dict Str JLay
  ids : Nat → Int
  data : Nat → Dict Str JVal

namespace JDoc

/-- `new Document()` (Document.java:31-33) -/
def new : JDoc := ⟨[], [], [], fun _ => 0, fun _ => []⟩

/-- `add(text)` (Document.java:74-80) -/
def addText (d : JDoc) (name : Str) (t : JText) : JDoc × Except PyErr Unit :=
  if (dget d.texts name).isSome then (d, .error .value) else ({ d with texts := tput d.texts name t }, .ok ())

/-- `add(schema)` (Document.java:89-94): a new layer, in place of one with that name -/
def addSchema (d : JDoc) (name : Str) (fields : Dict Str JType) : JDoc := { d with layers := tput d.layers name ⟨fields, [], 0⟩ }

/-- `add(layer)` (Document.java:65-72) -/
def addLayer (d : JDoc) (name : Str) (L : JLay) : JDoc × Except PyErr Unit :=
  if (dget d.layers name).isSome then (d, .error .value) else ({ d with layers := tput d.layers name L }, .ok ())

/-- whether a field is a span of this text (Document.java:123, 134-137, 154, 193) -/
def spanOf (name : Str) (t : JType) : Except PyErr Bool :=
  if t.name = .span then
    match t.arg "context".toList with
    | .error e => .error e
    | .ok c => .ok (decide (c = name))
  else .ok false

/-- whether a field refers to nodes of this layer (Document.java:204-208, 225-229) -/
def nodeOf (name : Str) (t : JType) : Except PyErr Bool :=
  if t.name = .node ∨ t.name = .nodeArray then
    match t.arg "layer".toList with
    | .error e => .error e
    | .ok c => .ok (decide (c = name))
  else .ok false

/-- the entries with a property that can raise -/
def filterE {α : Type} (f : α → Except PyErr Bool) : List α → Except PyErr (List α)
  | [] => .ok []
  | a :: l =>
    match f a with
    | .error e => .error e
    | .ok b =>
      match filterE f l with
      | .error e => .error e
      | .ok r => .ok (if b then a :: r else r)

/-- whether some field is a span of this text (Document.java:119-123, 189-193) -/
def anySpanOf (name : Str) (L : JLay) : Except PyErr Bool :=
  match filterE (fun e => spanOf name e.2) L.fields with
  | .error e => .error e
  | .ok l => .ok (decide (l ≠ []))

/-- `removeField(name)` (Layer.java:113-127) -/
def removeField (d : JDoc) (layer field : Str) : JDoc :=
  match dget d.layers layer with
  | none => d
  | some L =>
    if (dget L.fields field).isSome then
      { d with
        layers := dset d.layers layer { L with fields := ddel L.fields field }
        data := fun n => if n ∈ L.nodes then ddel (d.data n) field else d.data n }
    else d

/-- the fields that are removed with a text or layer (Document.java:148-159, 219-234) -/
def removeFields (d : JDoc) (sel : JType → Except PyErr Bool) : List (Str × JLay) → JDoc × Except PyErr Unit
  | [] => (d, .ok ())
  | (k, L) :: r =>
    match filterE (fun e => sel e.2) L.fields with
    | .error e => (d, .error e)
    | .ok fs => (fs.foldl (fun d e => d.removeField k e.1) d).removeFields sel r

/-- `remove(text, fieldcascade)` (Document.java:111-163): the text stays -/
def removeText (d : JDoc) (name : Str) (cascade : Bool) : JDoc × Except PyErr Unit :=
  match filterE (fun e => anySpanOf name e.2) d.layers with
  | .error e => (d, .error e)
  | .ok ls =>
    if cascade = false ∧ ls ≠ [] then (d, .error .data)
    else if cascade then d.removeFields (spanOf name) ls
    else (d, .ok ())

/-- `remove(layer, fieldcascade)` (Document.java:181-238): the layers it looks for are those with spans of a text of the
layer's name, and the layer stays -/
def removeLayer (d : JDoc) (name : Str) (cascade : Bool) : JDoc × Except PyErr Unit :=
  match filterE (fun e => anySpanOf name e.2) d.layers with
  | .error e => (d, .error e)
  | .ok ls =>
    if cascade = false ∧ ls ≠ [] then (d, .error .data)
    else if cascade then d.removeFields (nodeOf name) ls
    else (d, .ok ())

/-- the check of one field in `validateSchema()` (Document.java:297-321) -/
def validateField (d : JDoc) (t : JType) : Except PyErr Unit :=
  if t.name = .span then
    match t.arg "context".toList with
    | .error e => .error e
    | .ok c => if (dget d.texts c).isSome then .ok () else .error .data
  else if t.name = .node ∨ t.name = .nodeArray then
    match t.arg "layer".toList with
    | .error e => .error e
    | .ok c => if (dget d.layers c).isSome then .ok () else .error .data
  else .ok ()

/-- the check of one layer -/
def validateLayer (d : JDoc) (L : JLay) : Except PyErr (List Unit) := mapE (fun e => d.validateField e.2) L.fields

/-- `validateSchema()` (Document.java:294-324) -/
def validateSchema (d : JDoc) : Except PyErr (List (List Unit)) := mapE (fun e => d.validateLayer e.2) d.layers

/-! ### compile -/

/-- `compact()` of all layers (Document.java:330) -/
def compactAll : Dict Str JLay → (Nat → Int) → Except PyErr (Dict Str JLay × (Nat → Int))
  | [], ids => .ok ([], ids)
  | (k, L) :: r, ids =>
    match (⟨L.storage, L.size, ids, fun _ => none⟩ : JLayer).compact with
    | (_, .error e) => .error e
    | (s, .ok ()) =>
      match compactAll r s.ids with
      | .error e => .error e
      | .ok (r, ids) => .ok ((k, { L with storage := s.storage, size := s.size }) :: r, ids)

/-- the span in a field, if there is a value (Document.java:345-346): `spanValue()` of a NullValue is
NullPointerException, of other values UnsupportedOperationException -/
def fieldSpan : Option JVal → Except PyErr (List (Str × JSpan))
  | none => .ok []
  | some (.span c s) => .ok [(c, s)]
  | some .null => .error .attribute
  | some _ => .error .notImplemented

/-- the spans of one node (Document.java:344-347) -/
def nodeSpans (fs : List Str) (r : Dict Str JVal) : Except PyErr (List (Str × JSpan)) :=
  match mapE (fun f => fieldSpan (dget r f)) fs with
  | .error e => .error e
  | .ok l => .ok l.flatten

/-- the names of the span fields (Document.java:334-340); NullPointerException without a context -/
def spanFields (L : JLay) : Except PyErr (List Str) :=
  mapE (fun (e : Str × JType) => match e.2.arg "context".toList with
    | .error x => .error x
    | .ok _ => .ok e.1) (L.fields.filter (fun e => decide (e.2.name = .span)))

/-- the spans of one layer (Document.java:333-350) -/
def layerSpans (data : Nat → Dict Str JVal) (L : JLay) : Except PyErr (List (Str × JSpan)) :=
  match spanFields L with
  | .error e => .error e
  | .ok fs =>
    match mapE (fun n => nodeSpans fs (data n)) L.nodes with
    | .error e => .error e
    | .ok l => .ok l.flatten

/-- the spans of all layers; one whose text is not in the document is `unmodelled` -/
def allSpans (d : JDoc) : Except PyErr (List (Str × JSpan)) :=
  match mapE (fun e => layerSpans d.data e.2) d.layers with
  | .error e => .error e
  | .ok l => if l.flatten.all (fun e => (dget d.texts e.1).isSome) then .ok l.flatten else .error .unmodelled

/-- the spans of the text with this name -/
def spansFor (c : Str) (l : List (Str × JSpan)) : List JSpan := (l.filter (fun e => decide (e.1 = c))).map (·.2)

/-- one text (Document.java:331, 353) -/
def compileText (spans : List (Str × JSpan)) (e : Str × JText) : Except PyErr (Str × JText × List JStr) :=
  match e.2.compileWith (spansFor e.1 spans) with
  | (_, .error x) => .error x
  | (t, .ok parts) => .ok (e.1, t, parts)

/-- `compile()` (Document.java:329-356) -/
def compile (d : JDoc) : JDoc × Except PyErr (Dict Str (List JStr)) :=
  match compactAll d.layers d.ids with
  | .error e => (d, .error e)
  | .ok (layers, ids) =>
    match ({ d with layers := layers, ids := ids } : JDoc).allSpans with
    | .error e => (d, .error e)
    | .ok spans =>
      match mapE (compileText spans) d.texts with
      | .error e => (d, .error e)
      | .ok l => ({ d with layers := layers, ids := ids, texts := l.map (fun e => (e.1, e.2.1)) }, .ok (l.map (fun e => (e.1, e.2.2))))

end JDoc
end Verif
