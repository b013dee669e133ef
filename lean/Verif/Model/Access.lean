import Verif.Model.View
import Verif.Model.Codec
/-
Small accessors: functions on nodes (algorithm.py:24-39), node.fld (model.py:46-60, 109-112), node.is_valid
(122-139), layer[node] (1691-1695), query[field] (1266-1271), layer.to_pandas (1713-1746), and printing a document:
__repr__, __str__ and printschema (1868-1908).

Simplifications: a pandas.DataFrame is the dict of columns it is given. Attributes that every Python object has
(`__class__`, `__dict__`, ...) and `__data__` itself are never looked up in the node by `fld`: the predicate `builtin`
says which names these are. What is printed on stdout is the list of lines.
-/
namespace Verif

namespace World

/-! ### functions on nodes -/

/-- `get_prop(prop, default)(n)` (algorithm.py:24-29) -/
def getProp (w : World) (prop : Str) (dflt : Value) (n : NodeId) : Value :=
  match dget (w.nodes n).fields prop with
  | none => dflt
  | some v => v

/-- `chain(*fns)(x)` (algorithm.py:32-39): the functions may raise -/
def chainFns {α : Type} : List (α → Except PyErr α) → α → Except PyErr α
  | [], x => .ok x
  | f :: fs, x =>
    match f x with
    | .error e => .error e
    | .ok y => chainFns fs y

/-! ### node.fld -/

/-- `node.fld.name` (model.py:50-51): `__getattr__` is asked for names that are not attributes already -/
def fldGet (builtin : Str → Bool) (w : World) (n : NodeId) (name : Str) : Except PyErr Value :=
  if builtin name then .error .unmodelled else .ok (w.getField n name)

/-- `node.fld.name = v` (model.py:53-57): `__setattr__` gets every name; `__data__` is the wrapper's own -/
def fldSet (w : World) (n : NodeId) (name : Str) (v : Value) : World :=
  if name = "__data__".toList then w else w.setField n name v

/-- `del node.fld.name` (model.py:59-60) -/
def fldDel (w : World) (n : NodeId) (name : Str) : World × Option PyErr :=
  if (dget (w.nodes n).fields name).isSome then (w.delField n name, none) else (w, some .key)

/-! ### validity -/

/-- `node.is_valid(noexcept)` (model.py:122-139). A node of no layer has the collection None: AttributeError, which is
not among the exceptions that are caught. -/
def nodeIsValid (w : World) (n : NodeId) (noexcept : Bool) : Except PyErr Bool :=
  match (w.nodes n).coll with
  | none => .error .attribute
  | some L =>
    match w.validate L n with
    | .ok () => .ok true
    | .error e => if noexcept && (decide (e = .assertion) || decide (e = .schemaValidation)) then .ok false else .error e

/-! ### indexing -/

/-- `layer[node]` (model.py:1691-1695) -/
def layerGetNode (w : World) (L : LayerId) (n : NodeId) : Except PyErr NodeId :=
  if (w.nodes n).coll = some L then .ok n else .error .dataValidation

/-- `query[field]` (model.py:1266-1271) for a str, of a query of the collection `c`: the field collection of `field`, or
None where the name is not declared. Only layers have the attribute `schema`. -/
def queryField (w : World) (c : Coll) (field : Str) : Except PyErr (Option Str) :=
  match c with
  | .layer L => .ok (if field ∈ dkeys (w.layers L).fields then some field else none)
  | _ => .error .attribute

/-! ### to_pandas -/

/-- `str(v)`, as `%s` prints it. Nodes print as tables; lists and node spans are not modelled either. -/
def valueStr (R : Reprs) (w : World) : Value → Except PyErr Str
  | .str s => .ok s
  | .span t a b => .ok (w.spanStr t a b)
  | .node _ => .error .unmodelled
  | .nodes _ => .error .unmodelled
  | .nodespan _ _ => .error .unmodelled
  | v => w.valueRepr R v

/-- one value of a materialised span column (model.py:1737) -/
def spanCell (R : Reprs) (w : World) (f : Str) (n : NodeId) : Except PyErr Value :=
  match dget (w.nodes n).fields f with
  | none => .ok .none
  | some v =>
    match w.valueStr R v with
    | .error e => .error e
    | .ok s => .ok (.str s)

/-- one column (model.py:1733-1741) -/
def pandasColumn (R : Reprs) (w : World) (L : LayerId) (mat : Bool) (e : Str × DataType) : Except PyErr (Str × List Value) :=
  let ns := (w.layers L).slots.filterMap id
  if mat && decide (e.2.tname = .span) then
    match mapE (w.spanCell R e.1) ns with
    | .error x => .error x
    | .ok l => .ok (e.1, l)
  else .ok (e.1, ns.map (fun n => w.getField n e.1))

/-- the fields and types asked for (model.py:1728-1731) -/
def pandasFields (w : World) (L : LayerId) : Option (List Str) → Except PyErr (List (Str × DataType))
  | none => .ok (w.layers L).fields
  | some fs => mapE (fun f => match dget (w.layers L).fields f with
      | none => .error .key
      | some t => .ok (f, t)) fs

/-- `layer.to_pandas(fields, materialize_spans, include_ref_field)` (model.py:1713-1746) -/
def toPandas (R : Reprs) (w : World) (L : LayerId) (fields : Option (List Str)) (mat ref : Bool) :
    Except PyErr (Dict Str (List Value)) :=
  match w.pandasFields L fields with
  | .error e => .error e
  | .ok fs =>
    match mapE (w.pandasColumn R L mat) fs with
    | .error e => .error e
    | .ok cols =>
      let data := dupdate [] cols
      .ok (if ref then dset data "__ref".toList (((w.layers L).slots.filterMap id).map .node) else data)

/-! ### printing a document -/

/-- `"%s=%s" % (k, v)` for each -/
def keyVals (R : Reprs) (w : World) (d : Dict Str Value) : Except PyErr (List Str) :=
  mapE (fun e => match w.valueStr R e.2 with
    | .error x => .error x
    | .ok s => .ok (e.1 ++ "=".toList ++ s)) d

/-- `repr(doc)` (model.py:1868-1873) -/
def docRepr (R : Reprs) (w : World) : Except PyErr Str :=
  match w.keyVals R w.props with
  | .error e => .error e
  | .ok kv => .ok ("Document(".toList ++ natStr w.dl.length ++ " layers, ".toList ++ natStr w.dt.length ++ " texts".toList ++
      (if w.props.length > 0 then ", ".toList ++ Verif.pyJoin ", ".toList kv else []) ++ ")".toList)

/-- the table of the texts (model.py:1878-1882) -/
def textsTable (R : Reprs) (w : World) : Printout.Table :=
  { caption := some "Texts".toList, header := some ⟨[.str "key".toList, .str "value".toList], some "#".toList⟩,
    body := w.dt.map (fun e => ⟨[.str e.1, .str (strRepr R.printable (w.texts e.2).text)], none⟩),
    hideHeader := true, hideIndex := true }

/-- the table of the layers (model.py:1886-1889) -/
def layersTable (w : World) : Printout.Table :=
  { caption := some "Layers".toList, header := some ⟨[.str "key".toList, .str "value".toList], some "#".toList⟩,
    body := w.dl.map (fun e => ⟨[.str e.1, .str ("N=".toList ++ intStr (w.len e.2))], none⟩),
    hideHeader := true, hideIndex := true }

/-- `str(doc)` (model.py:1875-1893) -/
def docStr (R : Reprs) (o : Printout.Options) (w : World) : Except PyErr Str :=
  match Printout.renderText o (w.textsTable R) with
  | .error e => .error e
  | .ok a =>
    match Printout.renderText o w.layersTable with
    | .error e => .error e
    | .ok b => .ok (Verif.pyJoin ['\n'] ["== Document ==".toList, a, b])

/-- one line of printschema (model.py:1902-1907) -/
def schemaLine (R : Reprs) (w : World) (width : Nat) (e : Str × DataType) : Except PyErr Str :=
  match e.2.tname.wire with
  | .error x => .error x
  | .ok t =>
    match w.keyVals R e.2.options with
    | .error x => .error x
    | .ok kv => .ok (" * ".toList ++ Verif.ljust width e.1 ++ " : ".toList ++ t ++
        (if e.2.options.length = 0 then [] else "[".toList ++ Verif.pyJoin ", ".toList kv ++ "]".toList))

/-- the lines of one layer (model.py:1898-1908) -/
def schemaLines (R : Reprs) (w : World) (e : Str × LayerId) : Except PyErr (List Str) :=
  let fs := (w.layers e.2).fields
  match mapE (w.schemaLine R (Printout.maxNat (fs.map (fun f => f.1.length)))) fs with
  | .error x => .error x
  | .ok ls => .ok (("[".toList ++ e.1 ++ "]".toList) :: ls ++ [[]])

/-- the entries of a dict sorted by key -/
def sortEntries {α : Type} (d : Dict Str α) : Dict Str α :=
  (sortNames (dkeys d)).filterMap (fun k => (dget d k).map (fun v => (k, v)))

/-- what `printschema()` prints (model.py:1895-1908) -/
def printschema (R : Reprs) (w : World) : Except PyErr (List Str) :=
  match mapE (w.schemaLines R) (sortEntries w.dl) with
  | .error e => .error e
  | .ok ls => .ok ls.flatten

end World
end Verif
