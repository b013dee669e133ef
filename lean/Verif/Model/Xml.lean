import Verif.Model.Codec
import Verif.Model.Printout
/-
The XML codec (py/docria/codec.py:886-1104).

The result is the tree of `xml.etree.ElementTree` elements; its text is in Model/XmlText.lean.
Simplifications:
`str` of a float, and of the values of properties and type options that are not None, bool, int, float or
str, are parameters.
-/
namespace Verif

/-- `xml.etree.ElementTree.Element`: tag, attributes in insertion order, children -/
inductive Xml
  | el (tag : Str) (attrs : Dict Str Str) (children : List Xml)
  deriving Inhabited

namespace Xml

/-- `e.tag` -/
def tag : Xml → Str
  | .el t _ _ => t

/-- `e.attrib` -/
def attrs : Xml → Dict Str Str
  | .el _ a _ => a

/-- `list(e)` -/
def children : Xml → List Xml
  | .el _ _ c => c

end Xml

/-- what the standard library prints: `float` for `str` of a float, `other` for `str` of any other value
that is not None, bool, int or str -/
structure PyStr where
  float : UInt64 → Str
  other : Value → Str

/-- `str(b)` of a bool -/
def boolStr (b : Bool) : Str := if b then "True".toList else "False".toList

/-- `str(v)` (codec.py:1025, 1034) -/
def PyStr.str (p : PyStr) : Value → Str
  | .none => "None".toList
  | .bool b => boolStr b
  | .int i => intStr i
  | .float f => p.float f
  | .str s => s
  | v => p.other v

/-- Does the character survive the pattern `_string_pattern` (codec.py:888)? The raw string goes to `re`,
which reads backslash-u followed by exactly four hexadecimal digits. The last part of the class, written
as a range from 10000 to 10FFFF with five and six digits, is therefore U+1000, the
range '0' to U+10FF, and the characters 'F', 'F'. -/
def xmlKept (c : Char) : Bool :=
  c.val = 0x9 || c.val = 0xA || c.val = 0xD || (0x20 ≤ c.val && c.val ≤ 0xD7FF) || (0xE000 ≤ c.val && c.val ≤ 0xFFFD) ||
    c.val = 0x1000 || ('0'.val ≤ c.val && c.val ≤ 0x10FF) || c.val = 'F'.val

/-- `XmlCodec._string_encoder(s)` (codec.py:890-892): each character not kept is replaced by a space -/
def xmlClean (s : Str) : Str := s.map (fun c => if xmlKept c then c else ' ')

/-- the values in the dict of one node in the intermediate form -/
inductive XVal
  | str (s : Str)
  | list (l : List Str)
  | bytes (b : List UInt8)
  | span (idx : Dict Int Nat) (v : Value)
  | nodespan (l r : NodeId)

namespace World

/-- the encoders (codec.py:897-930) applied to a value that is not None. `idx` is the offset dict of the
text of a span field. Conversions between types (`int("3")`, truth values, `bytes(3)`) are `unmodelled`.
UNKNOWN has no encoder: KeyError. -/
def xmlCell (w : World) (p : PyStr) (idx : Dict Int Nat) : TName → Value → Except PyErr XVal
  | .i32, .int i | .i64, .int i => .ok (.str (intStr i))
  | .i32, .bool b | .i64, .bool b => .ok (.str (intStr (if b then 1 else 0)))
  | .f64, .float f => .ok (.str (p.float f))
  | .bool, .bool b => .ok (.str (boolStr b))
  | .string, .str s => .ok (.str (xmlClean s))
  | .string, .other => .error .unmodelled
  | .string, _ => .error .type
  | .binary, .bytes b => .ok (.bytes b)
  | .noderef, .node n => .ok (.str (intStr (w.nodes n).id))
  | .noderefMany, .nodes ns => .ok (.list (ns.map (fun n => intStr (w.nodes n).id)))
  | .nodespan, .nodespan l r => .ok (.nodespan l r)
  | .span, v => .ok (.span idx v)
  | .ext, .bytes b => .ok (.bytes b)
  | .ext, .ext _ d => .ok (.bytes d)
  | .ext, _ => .error .value
  | .unknown, _ => .error .key
  | _, _ => .error .unmodelled

/-- a field of the schema: its type name, its options (model.py:905-914), and, for a span field, the offset
dict its encoder closes over (codec.py:957-965) -/
structure XField where
  type : Str
  args : Dict Str Value
  tname : TName
  idx : Dict Int Nat

/-- the loop body over the fields of a layer (codec.py:956-965) -/
def xmlField (offs : Dict Str (List Int)) (e : Str × DataType) : Except PyErr (Str × XField) :=
  match e.2.tname.wire with
  | .error x => .error x
  | .ok s =>
    if e.2.tname = .unknown then .error .key
    else
      match (if e.2.tname = .span then spanIndex offs e.2 else .ok []) with
      | .error x => .error x
      | .ok idx => .ok (e.1, ⟨s, e.2.options, e.2.tname, idx⟩)

/-- the values of one node (codec.py:971-977): fields that are not set or None are left out. `None` in the
place of a node (a gap) has no dict: TypeError. -/
def xmlNode (w : World) (p : PyStr) (fs : List (Str × XField)) : Option NodeId → Except PyErr (List (Str × XVal))
  | none => .error .type
  | some n =>
    match mapE (fun (e : Str × XField) =>
        match (dget (w.nodes n).fields e.1).getD .none with
        | .none => .ok []
        | v =>
          match w.xmlCell p e.2.idx e.2.tname v with
          | .ok x => .ok [(e.1, x)]
          | .error x => .error x) fs with
    | .error e => .error e
    | .ok l => .ok l.flatten

/-- one layer of the intermediate form: name, schema, nodes (codec.py:952-981) -/
def xmlLayer (w : World) (p : PyStr) (offs : Dict Str (List Int)) (e : Str × LayerId) :
    Except PyErr (Str × List (Str × XField) × List (List (Str × XVal))) :=
  match mapE (xmlField offs) (w.layers e.2).fields with
  | .error x => .error x
  | .ok fs =>
    match mapE (w.xmlNode p fs) (w.iter e.2) with
    | .error x => .error x
    | .ok ns => .ok (e.1, fs, ns)

/-- the intermediate form after compiling (codec.py:943-983): texts, and layers with their schema -/
def xmlInter (w : World) (p : PyStr) (offs : Dict Str (List Int)) :
    Except PyErr (Dict Str (List Str) × List (Str × List (Str × XField) × List (List (Str × XVal)))) :=
  match w.encodeTexts offs with
  | .error e => .error e
  | .ok texts =>
    match mapE (w.xmlLayer p offs) w.dl with
    | .error e => .error e
    | .ok ls => .ok (texts, ls)

end World

/-- the attribute name `xml:id` as ElementTree writes it (codec.py:1015, 1091) -/
def xmlId : Str := "{http://www.w3.org/XML/1998/namespace}id".toList

/-- a field in the schema section (codec.py:1030-1037). The wire form of a type is a dict exactly when
there are options. -/
def xmlFieldEl (p : PyStr) (e : Str × World.XField) : Xml :=
  .el "field".toList [("name".toList, e.1), ("type".toList, e.2.type)]
    (e.2.args.map (fun a => .el "arg".toList [("key".toList, a.1), ("value".toList, p.str a.2)] []))

/-- the segments of a text (codec.py:1043-1055): position and number are counted along when verbose -/
def xmlSegs (verbose : Bool) : Nat → Nat → List Str → List Xml
  | _, _, [] => []
  | i, pos, s :: rest =>
    .el "s".toList (if verbose then [("v".toList, s), ("id".toList, natStr i), ("start".toList, natStr pos),
      ("stop".toList, natStr (pos + s.length))] else [("v".toList, s)]) [] ::
      xmlSegs verbose (i + 1) (pos + s.length) rest

/-- a text (codec.py:1040-1055) -/
def xmlTextEl (verbose : Bool) (e : Str × List Str) : Xml :=
  .el "text".toList [("name".toList, e.1)]
    (.el "sep".toList [] (xmlSegs verbose 0 0 e.2) ::
      if verbose then [.el "raw".toList [("value".toList, e.2.flatten)] []] else [])

/-- what one node's values are sorted into (codec.py:1061-1064) -/
structure XEntries where
  arrays : Dict Str (List Str) := []
  simple : Dict Str Str := []
  embedded : List Xml := []

namespace World

/-- one iteration of the loop over a node's values (codec.py:1065-1089). `span.start` of something that is
not a span: AttributeError. With `verbose_node_spans` the string pattern is applied to a tuple: TypeError. -/
def xmlEntry (w : World) (verboseSpans : Bool) (x : XEntries) : Str × XVal → Except PyErr XEntries
  | (f, .span idx (.span _ a b)) =>
    match dget idx a, dget idx b with
    | some i, some j =>
      if verboseSpans then .error .type
      else .ok { x with embedded := x.embedded ++
        [.el "d".toList [("name".toList, f), ("from".toList, natStr i), ("until".toList, natStr j)] []] }
    | _, _ => .error .key
  | (_, .span _ _) => .error .attribute
  | (f, .nodespan l r) =>
    match w.collName l with
    | none => .error .attribute
    | some k =>
      match w.nodeI l, w.nodeI r with
      | .ok i, .ok j => .ok { x with embedded := x.embedded ++
          [.el "d".toList [("name".toList, f), ("from".toList, k ++ ".".toList ++ intStr i),
            ("to".toList, k ++ ".".toList ++ intStr j)] []] }
      | .error e, _ => .error e
      | _, .error e => .error e
  | (f, .list l) => .ok { x with arrays := dset x.arrays f l }
  | (f, .str s) => .ok { x with simple := dset x.simple f s }
  | (_, .bytes _) => .error .value

/-- the loop over a node's values -/
def xmlEntries (w : World) (verboseSpans : Bool) (x : XEntries) : List (Str × XVal) → Except PyErr XEntries
  | [] => .ok x
  | e :: rest =>
    match w.xmlEntry verboseSpans x e with
    | .error r => .error r
    | .ok x => w.xmlEntries verboseSpans x rest

/-- a node (codec.py:1060-1102): the attributes, then `d` elements, then arrays. (`t` elements are never
reached, see `xmlEntry`.) -/
def xmlNodeEl (w : World) (verboseSpans : Bool) (ident : Str) (vs : List (Str × XVal)) : Except PyErr Xml :=
  match w.xmlEntries verboseSpans {} vs with
  | .error e => .error e
  | .ok x => .ok (.el "n".toList (dset x.simple xmlId ident) (x.embedded ++
      x.arrays.map (fun a => .el "a".toList [("name".toList, a.1)]
        (a.2.map (fun v => .el "e".toList [("v".toList, v)] [])))))

/-- the nodes of a layer, numbered from `i` (codec.py:1060) -/
def xmlNodeEls (w : World) (verboseSpans : Bool) (pre : Str) : Nat → List (List (Str × XVal)) → Except PyErr (List Xml)
  | _, [] => .ok []
  | i, vs :: rest =>
    match w.xmlNodeEl verboseSpans (pre ++ ".".toList ++ natStr i) vs with
    | .error e => .error e
    | .ok x =>
      match w.xmlNodeEls verboseSpans pre (i + 1) rest with
      | .error e => .error e
      | .ok xs => .ok (x :: xs)

/-- a layer (codec.py:1058-1060) -/
def xmlLayerEl (w : World) (verboseSpans : Bool) (pre : Str) (e : Str × List (Str × XField) × List (List (Str × XVal))) :
    Except PyErr Xml :=
  match w.xmlNodeEls verboseSpans (pre ++ e.1) 0 e.2.2 with
  | .error x => .error x
  | .ok ns => .ok (.el "layer".toList [("name".toList, e.1)] ns)

/-- the tree from the intermediate form (codec.py:1014-1104) -/
def xmlBuild (w : World) (p : PyStr) (verbose verboseSpans : Bool) (docId : Str) (texts : Dict Str (List Str))
    (ls : List (Str × List (Str × XField) × List (List (Str × XVal)))) : Except PyErr Xml :=
  match mapE (w.xmlLayerEl verboseSpans (if docId = [] then [] else docId ++ ".".toList)) ls with
  | .error e => .error e
  | .ok lels => .ok (.el "document".toList (if docId = [] then [] else [(xmlId, docId)]) [
      .el "props".toList [] (w.props.map (fun e =>
        .el "prop".toList [("key".toList, e.1), ("value".toList, p.str e.2)] [])),
      .el "schema".toList [] (ls.map (fun e => .el "define".toList [("layer".toList, e.1)] (e.2.1.map (xmlFieldEl p)))),
      .el "texts".toList [] (texts.map (xmlTextEl verbose)),
      .el "layers".toList [] lels])

/-- `XmlCodec.encode_tree(doc, verbose, verbose_node_spans, document_id, extra_fields_ok, type_validation)`
(codec.py:999-1104) -/
def xmlTree (w : World) (p : PyStr) (verbose verboseSpans : Bool) (docId : Str) (extraOk typeVal : Bool) :
    World × Except PyErr Xml :=
  match w.compile extraOk typeVal with
  | (w, .error e) => (w, .error e)
  | (w, .ok offs) =>
    match w.xmlInter p offs with
    | .error e => (w, .error e)
    | .ok (texts, ls) => (w, w.xmlBuild p verbose verboseSpans docId texts ls)

end World
end Verif
