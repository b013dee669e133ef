import Verif.Model.Printout
import Verif.Model.Collections
/-
What nodes, layers, queries, node lists and node spans look like when printed: printout.py:366-395 and
model.py:150-152, 179-222, 249-250, 441-461, 540-549, 1279-1283, 1665-1669.
-/
namespace Verif

/-! ### `repr` of a str -/

/-- a hexadecimal digit -/
def viewHex (k : Nat) : Char := Char.ofNat (if k < 10 then 48 + k else 87 + k)

/-- `"%0nx" % k` -/
def viewHexN : Nat → Nat → Str
  | 0, _ => []
  | n + 1, k => viewHexN n (k / 16) ++ [viewHex (k % 16)]

/-- one character inside quotes `q` as CPython's `repr` writes it. `printable` is `str.isprintable` of one
character: a table of Unicode, left open. -/
def reprChar (printable : Char → Bool) (q c : Char) : Str :=
  if c = q ∨ c = '\\' then ['\\', c]
  else if c = '\t' then "\\t".toList
  else if c = '\n' then "\\n".toList
  else if c = '\r' then "\\r".toList
  else if printable c then [c]
  else if c.toNat < 256 then "\\x".toList ++ viewHexN 2 c.toNat
  else if c.toNat < 65536 then "\\u".toList ++ viewHexN 4 c.toNat
  else "\\U".toList ++ viewHexN 8 c.toNat

/-- `repr(s)`: in single quotes, unless the text has single quotes and no double quotes -/
def strRepr (printable : Char → Bool) (s : Str) : Str :=
  let q := if '\'' ∈ s ∧ '"' ∉ s then '"' else '\''
  q :: s.flatMap (reprChar printable q) ++ [q]

/-! ### `title % n` -/

/-- `fmt % arg` for one int: `%%`, and the conversions that print an int in decimal. Conversions with flags or
widths and those to other bases are `unmodelled`; any other character after `%` raises ValueError. -/
def fmtInt : Str → Option Int → Except PyErr Str
  | [], none => .ok []
  | [], some _ => .error .type
  | ['%'], _ => .error .value
  | '%' :: c :: rest, arg =>
    if c = '%' then
      match fmtInt rest arg with
      | .error e => .error e
      | .ok s => .ok ('%' :: s)
    else if c ∈ "diusra".toList then
      match arg with
      | none => .error .type
      | some i =>
        match fmtInt rest none with
        | .error e => .error e
        | .ok s => .ok (intStr i ++ s)
    else if c ∈ "oxXeEfFgGc#0- +123456789*.hlL(".toList then .error .unmodelled
    else .error .value
  | c :: rest, arg =>
    match fmtInt rest arg with
    | .error e => .error e
    | .ok s => .ok (c :: s)

/-! ### sorted field names -/

/-- `a < b` of two str, by code points -/
def strLt (a b : Str) : Bool := seqLt Char.toNat a b

/-- put a name before the first one that is greater -/
def insertName (x : Str) : List Str → List Str
  | [] => [x]
  | y :: l => if strLt y x then y :: insertName x l else x :: y :: l

/-- `sorted(names)` -/
def sortNames : List Str → List Str
  | [] => []
  | x :: l => insertName x (sortNames l)

/-! ### representations -/

/-- The parts of `repr` that are not modelled: which characters are printable, floats, bytes, ExtData objects,
nested lists and dicts, and objects of other types. `order` is the order in which Python iterates a set of layer
names. -/
structure Reprs where
  printable : Char → Bool
  float : UInt64 → Str
  bytes : List UInt8 → Str
  ext : Str → List UInt8 → Str
  data : Obj → Str
  other : Str
  order : List Str → List Str

namespace World

/-- `repr(node)` (model.py:195-196): empty for a node without fields; AttributeError for one of no layer -/
def nodeRepr (w : World) (n : NodeId) : Except PyErr Str :=
  if (w.nodes n).fields = [] then .ok []
  else match (w.nodes n).coll with
    | none => .error .attribute
    | some L => .ok ("Node<".toList ++ (w.layers L).name ++ "#".toList ++ intStr (w.nodes n).id ++ ">".toList)

/-- `repr(span)` of a text span (model.py:732-738) -/
def spanRepr (R : Reprs) (w : World) (t : TextId) (a b : Int) : Str :=
  "span(".toList ++ (w.texts t).name ++ "[".toList ++ intStr a ++ ":".toList ++ intStr b ++ "]) = ".toList ++
    strRepr R.printable (w.spanStr t a b)

/-- `repr(nodespan)` (model.py:450-457) -/
def nodespanRepr (R : Reprs) (w : World) (l r : NodeId) : Except PyErr Str :=
  match (w.nodes l).coll with
  | none => .error .attribute
  | some L =>
    match w.nodeI l with
    | .error e => .error e
    | .ok i =>
      match w.nodeI r with
      | .error e => .error e
      | .ok j =>
        let s := "NodeSpan[".toList ++ (w.layers L).name ++ ": ".toList ++ intStr i ++ " to incl. ".toList ++
          intStr j ++ "]".toList
        match dget (w.layers L).fields "text".toList with
        | none => .ok s
        | some dt =>
          if dt.tname = .span then
            match w.nodeSpanText l r "text".toList with
            | .error e => .error e
            | .ok t => .ok (s ++ " = ".toList ++ strRepr R.printable t)
          else .ok s

/-- `repr(value)` of a value that is not a list -/
def valueRepr (R : Reprs) (w : World) : Value → Except PyErr Str
  | .none => .ok "None".toList
  | .bool b => .ok (if b then "True".toList else "False".toList)
  | .int i => .ok (intStr i)
  | .float x => .ok (R.float x)
  | .str s => .ok (strRepr R.printable s)
  | .bytes b => .ok (R.bytes b)
  | .node n => w.nodeRepr n
  | .nodes _ => .error .unmodelled
  | .nodespan l r => w.nodespanRepr R l r
  | .span t a b => .ok (w.spanRepr R t a b)
  | .ext t d => .ok (R.ext t d)
  | .data o => .ok (R.data o)
  | .other => .ok R.other

/-- the set of layer names of some nodes (printout.py:379-385): AttributeError for a node of no layer. The members in
the order of their first occurrence. -/
def namesOf (w : World) : List NodeId → Except PyErr (List Str)
  | [] => .ok []
  | n :: ns =>
    match w.collName n with
    | none => .error .attribute
    | some s =>
      match namesOf w ns with
      | .error e => .error e
      | .ok l => .ok (s :: l.filter (· ≠ s))

/-- `get_representation(value)` (printout.py:369-395) -/
def getRepr (R : Reprs) (w : World) : Value → Except PyErr Printout.Elem
  | .none => .ok Printout.nilValue
  | .nodes [] => .ok (.str "[]".toList)
  | .nodes [n] =>
    match w.nodeRepr n with
    | .error e => .error e
    | .ok s => .ok (.str ("[".toList ++ s ++ "]".toList))
  | .nodes ns =>
    match w.namesOf ns with
    | .error e => .error e
    | .ok l => .ok (.str ("[".toList ++ natStr ns.length ++ " nodes from layer: ".toList ++
        Verif.pyJoin ", ".toList (R.order l) ++ "]".toList))
  | .data (.arr []) => .ok (.str "[]".toList)
  | .data (.arr [x]) => .ok (.str ("[".toList ++ R.data x ++ "]".toList))
  | .data (.arr l) => .ok (.str ("[".toList ++ natStr l.length ++ " nodes from 0 layers]".toList))
  | v =>
    match w.valueRepr R v with
    | .error e => .error e
    | .ok s => .ok (.str s)

/-! ### tables -/

/-- the values of one node under the given fields (model.py:215, 219): `n.get(k, None)` -/
def rowCells (R : Reprs) (w : World) (fs : List Str) (n : NodeId) : Except PyErr (List Printout.Elem) :=
  mapE (fun k => w.getRepr R (w.getField n k)) fs

/-- the rows (model.py:213-220); a gap in the place of a node has no `get`: AttributeError. `offset` counts up along
the nodes. -/
def bodyRows (R : Reprs) (w : World) (fs : List Str) : Option Int → List (Option NodeId) → Except PyErr (List Printout.Row)
  | _, [] => .ok []
  | _, none :: _ => .error .attribute
  | off, some n :: ns =>
    match w.rowCells R fs n with
    | .error e => .error e
    | .ok cs =>
      match bodyRows R w fs (off.map (· + 1)) ns with
      | .error e => .error e
      | .ok rs => .ok (⟨cs, off.map intStr⟩ :: rs)

/-- `NodeCollection._table_repr_(title, offset)` (model.py:205-222) for a collection of the given length, field
names and nodes -/
def collTable (R : Reprs) (w : World) (title : Str) (off : Option Int) (len : Int) (names : List Str)
    (ns : List (Option NodeId)) : Except PyErr Printout.Table :=
  match fmtInt title (some len) with
  | .error e => .error e
  | .ok cap =>
    match w.bodyRows R (sortNames names) off ns with
    | .error e => .error e
    | .ok rows => .ok { caption := some cap, header := some ⟨(sortNames names).map .str, some "#".toList⟩, body := rows, hideIndex := true }

/-- the table of a layer, in `__str__` and `_repr_html_` (model.py:1665-1669) -/
def layerTable (R : Reprs) (w : World) (L : LayerId) : Except PyErr Printout.Table :=
  w.collTable R ("Layer '".toList ++ (w.layers L).name ++ "' with %d nodes.".toList) none (w.len L)
    (dkeys (w.layers L).fields) (w.iter L)

/-- the table of a query (model.py:1279-1283), with the field types of the collection it queries (1252) -/
def queryTable (R : Reprs) (w : World) (names : List Str) (result : List NodeId) : Except PyErr Printout.Table :=
  w.collTable R "Query with %d nodes.".toList none result.length names (result.map some)

/-- the table of a NodeList (model.py:543-549) -/
def listTable (R : Reprs) (w : World) (l : NList) : Except PyErr Printout.Table :=
  w.collTable R "Node collection with N=%d elements".toList none l.elems.length (dkeys l.types) (l.elems.map some)

/-- the table of a NodeSpan as HTML (model.py:441-442): the rows are numbered by the nodes' index. The field types are
those of the left node's layer (405). -/
def nodespanTable (R : Reprs) (w : World) (L : LayerId) (l r : NodeId) : Except PyErr Printout.Table :=
  match w.nodeI l with
  | .error e => .error e
  | .ok i =>
    match w.nodeSpanIter l r with
    | .error e => .error e
    | .ok ns => w.collTable R "Node span with N=%d elements".toList (some i) ns.length
        (dkeys (w.layers L).fields) (ns.map some)

/-- the rows of a node's table (model.py:186-187) -/
def nodeRows (R : Reprs) (w : World) : Dict Str Value → Except PyErr (List Printout.Row)
  | [] => .ok []
  | (k, v) :: rest =>
    match w.getRepr R v with
    | .error e => .error e
    | .ok e =>
      match nodeRows R w rest with
      | .error e => .error e
      | .ok rs => .ok (⟨[.str k, e], none⟩ :: rs)

/-- `Node._table_repr_()` (model.py:179-189) -/
def nodeTable (R : Reprs) (w : World) (n : NodeId) : Except PyErr Printout.Table :=
  let cap : Except PyErr Str :=
    if (w.nodes n).fields = [] then .ok []
    else match (w.nodes n).coll with
      | none => .error .attribute
      | some L => .ok ("Node ".toList ++ (w.layers L).name ++ "#".toList ++ intStr (w.nodes n).id)
  match cap with
  | .error e => .error e
  | .ok c =>
    match w.nodeRows R (w.nodes n).fields with
    | .error e => .error e
    | .ok rows => .ok { caption := some c, header := some ⟨[.str "field".toList, .str "value".toList], some "#".toList⟩,
                        body := rows, hideIndex := true }

end World
end Verif
