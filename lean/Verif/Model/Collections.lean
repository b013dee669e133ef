import Verif.Model.Query
import Verif.Model.Types
import Verif.Model.Doc
/-
What a NodeSpan and a NodeList offer besides iteration: model.py:391-549, and the container side of Document:
model.py:1752-1835, 1925-1935.
-/
namespace Verif
namespace World

/-! ### NodeSpan -/

/-- `node[field]` used as a TextSpan: KeyError when unset, AttributeError for a value of another type -/
def fieldSpan (w : World) (n : NodeId) (field : Str) : Except PyErr TextSpan :=
  match dget (w.nodes n).fields field with
  | none => .error .key
  | some (.span t a b) => .ok ⟨w.texts t, a, b⟩
  | some _ => .error .attribute

/-- `NodeSpan.text(field)` (model.py:415-423). With two values of wrong types the first exception is the one of
the missing key: both fields are looked up before either is used. -/
def nodeSpanText (w : World) (l r : NodeId) (field : Str) : Except PyErr Str :=
  if (dget (w.nodes l).fields field).isNone ∨ (dget (w.nodes r).fields field).isNone then .error .key
  else do
    let a ← w.fieldSpan l field
    let b ← w.fieldSpan r field
    return a.textTo b

/-- `NodeSpan.textspan(field)` (model.py:425-433) -/
def nodeSpanTextspan (w : World) (l r : NodeId) (field : Str) : Except PyErr TextSpan :=
  if (dget (w.nodes l).fields field).isNone ∨ (dget (w.nodes r).fields field).isNone then .error .key
  else do
    let a ← w.fieldSpan l field
    let b ← w.fieldSpan r field
    a.spanTo b

/-- `NodeSpan.__len__` (model.py:444-448) -/
def nodeSpanLen (w : World) (l r : NodeId) : Except PyErr Nat :=
  match w.nodeSpanIter l r with
  | .error e => .error e
  | .ok ns => .ok ns.length

end World

/-! ### NodeList -/

/-- `DataType.__eq__` (model.py:955-956): type name and options; the class does not count. Options are compared as the
objects they are here: values that are equal in Python without being the same (0 and 0.0) count as different,
which can only make the set of a field larger, with the same type names. -/
def DataType.sameType (a b : DataType) : Bool := decide (a.tname = b.tname) && decide (a.options = b.options)

/-- `s.add(t)` on a set of types (model.py:481, 487): an equal type already there stays -/
def setAdd (s : List DataType) (t : DataType) : List DataType :=
  if s.any (fun u => u.sameType t) then s else s ++ [t]

/-- `hash(t)` succeeds (model.py:952-953): no option is a list or dict -/
def DataType.hashable (t : DataType) : Bool := t.options.all (fun e => World.hashable e.2)

/-- `fields.setdefault(fld, set()).add(t)` (model.py:481, 487) -/
def fieldsAdd (d : Dict Str (List DataType)) (f : Str) (t : DataType) : Except PyErr (Dict Str (List DataType)) :=
  if t.hashable then .ok (dset d f (setAdd ((dget d f).getD []) t)) else .error .type

/-- several types -/
def fieldsAddAll (d : Dict Str (List DataType)) : List (Str × DataType) → Except PyErr (Dict Str (List DataType))
  | [] => .ok d
  | (f, t) :: rest =>
    match fieldsAdd d f t with
    | .error e => .error e
    | .ok d => fieldsAddAll d rest

namespace World

/-- the field types of a dangling node's values (model.py:480-481) -/
def addTypesOf (w : World) (d : Dict Str (List DataType)) : Dict Str Value → Except PyErr (Dict Str (List DataType))
  | [] => .ok d
  | (f, v) :: rest =>
    match DataTypes.typeOf w v with
    | .error e => .error e
    | .ok t =>
      match fieldsAdd d f t with
      | .error e => .error e
      | .ok d => addTypesOf w d rest

/-- the loop over the nodes (model.py:477-483): the types seen on dangling nodes, and the layers of the others -/
def listScan (w : World) : List NodeId → Dict Str (List DataType) → List LayerId →
    Except PyErr (Dict Str (List DataType) × List LayerId)
  | [], d, ls => .ok (d, ls)
  | n :: ns, d, ls =>
    match (w.nodes n).coll with
    | none =>
      match w.addTypesOf d (w.nodes n).fields with
      | .error e => .error e
      | .ok d => listScan w ns d ls
    | some L => listScan w ns d (if L ∈ ls then ls else ls ++ [L])

/-- the loop over the layers (model.py:485-487) -/
def addLayerTypes (w : World) (d : Dict Str (List DataType)) : List LayerId → Except PyErr (Dict Str (List DataType))
  | [] => .ok d
  | L :: ls =>
    match fieldsAddAll d (w.layers L).fields with
    | .error e => .error e
    | .ok d => addLayerTypes w d ls

/-- the loop over the fields (model.py:489-507) -/
def outputTypes (d : Dict Str (List DataType)) : Except PyErr (Dict Str DataType) :=
  match d with
  | [] => .ok []
  | (f, ts) :: rest =>
    match DataType.outputType ts with
    | .error e => .error e
    | .ok o =>
      match outputTypes rest with
      | .error e => .error e
      | .ok out => .ok (match o with | some t => (f, t) :: out | none => out)

/-- `NodeList(nodes).fieldtypes` (model.py:474-509). `lord` and `tord` are the orders in which Python iterates the set of
layers and the set of types of a field. -/
def listTypes (lord : List LayerId → List LayerId) (tord : Str → List DataType → List DataType) (w : World) (ns : List NodeId) :
    Except PyErr (Dict Str DataType) :=
  match w.listScan ns [] [] with
  | .error e => .error e
  | .ok (d, ls) =>
    match w.addLayerTypes d (lord ls) with
    | .error e => .error e
    | .ok d => outputTypes (d.map (fun e => (e.1, tord e.1 e.2)))

end World

/-- A NodeList (model.py:464-511): the list and its `fieldtypes` -/
structure NList where
  elems : List NodeId
  types : Dict Str DataType
  deriving DecidableEq

namespace NList

/-- `nodes[i]` (model.py:518-519) -/
def item (l : NList) (i : Int) : Except PyErr NodeId := pyIndex l.elems i

/-- `nodes[a:b]` (model.py:520-521) -/
def slice (l : NList) (a b : Option Int) : NList := ⟨pySlice l.elems a b, l.types⟩

/-- `nodes[[i, j, ...]]` (model.py:522-524) -/
def pick (l : NList) (is : List Int) : Except PyErr NList :=
  match mapE (fun i => pyIndex l.elems i) is with
  | .error e => .error e
  | .ok ns => .ok ⟨ns, l.types⟩

/-- `nodes.first()` (model.py:528-532) -/
def first (l : NList) : Option NodeId := l.elems.head?

/-- `nodes.last()` (model.py:534-538) -/
def last (l : NList) : Option NodeId := l.elems.getLast?

/-- `list(nodes[field])` (model.py:261-264, 270-293): the column of a declared field -/
def column (w : World) (l : NList) (f : Str) : Except PyErr (List Value) :=
  if f ∈ dkeys l.types then .ok (l.elems.map (fun n => w.getField n f)) else .error .assertion

end NList

namespace World

/-- `layer.to_list()` (model.py:224-230): raises when iteration yields a gap -/
def toList (w : World) (L : LayerId) : Except PyErr NList :=
  if (w.iter L).all Option.isSome then .ok ⟨(w.iter L).filterMap id, (w.layers L).fields⟩ else .error .assertion

/-- `list(layer[field])` (model.py:261-264, 287-288, 1698-1699): None has no `get` -/
def layerColumn (w : World) (L : LayerId) (f : Str) : Except PyErr (List Value) :=
  if f ∉ dkeys (w.layers L).fields then .error .assertion
  else
    match w.toList L with
    | .error _ => .error .attribute
    | .ok l => .ok (l.elems.map (fun n => w.getField n f))

/-! ### Document as a container -/

/-- `doc.maintext` (model.py:1790-1792) -/
def maintext (w : World) : Except PyErr TextId :=
  match dget w.dt "main".toList with
  | some t => .ok t
  | none => .error .key

/-- `doc.maintext = text` for a str (model.py:1794-1800) -/
def setMaintext (w : World) (text : Str) : World × Except PyErr TextId :=
  if (dget w.dt "main".toList).isSome then (w, .error .assertion)
  else
    let (w', t) := w.addText "main".toList text
    (w', .ok t)

/-- `doc[name]` (model.py:1925-1926) -/
def getLayer (w : World) (name : Str) : Except PyErr LayerId :=
  match dget w.dl name with
  | some L => .ok L
  | none => .error .key

/-- `name in doc` (model.py:1934-1935) -/
def hasLayer (w : World) (name : Str) : Bool := (dget w.dl name).isSome

/-- `del doc[name]` (model.py:1931-1932) -/
def delLayer (w : World) (name : Str) : World × Except PyErr (Option Bool) := w.removeLayer name false

end World

/-! ### NodeLayerSchema -/

/-- `schema.add(name, type)` (model.py:1228-1236) -/
def schemaAdd (fields : Dict Str DataType) (name : Str) (t : DataType) : Except PyErr (Dict Str DataType) :=
  if (dget fields name).isSome then .error .value else .ok (dset fields name t)

/-- `schema.set(**types)` (model.py:1238-1248): the fields set before the one that is refused stay -/
def schemaSet (fields : Dict Str DataType) : Dict Str DataType → Dict Str DataType × Option PyErr
  | [] => (fields, none)
  | (k, t) :: rest =>
    if (dget fields k).isSome then (fields, some .value) else schemaSet (dset fields k t) rest

end Verif
