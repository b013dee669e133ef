import Verif.Py.Basic
import Verif.Py.Dict
import Verif.Py.Obj
import Verif.Model.Text
/-
The heap: nodes, layers, texts and one document. Values and field types.
model.py:63-86 (Node), 845-1066 (types), 1217-1299 (schema, layer), 1752-1768 (Document).
-/
namespace Verif

/-- Object identities (Python's `is`) are natural numbers. Macros rather than abbreviations so that
arithmetic tactics see plain `Nat`. -/
macro "NodeId" : term => `(Nat)
@[inherit_doc termNodeId] macro "LayerId" : term => `(Nat)
@[inherit_doc termNodeId] macro "TextId" : term => `(Nat)

/-- `DataTypeEnum` (model.py:845-858). -/
inductive TName
  | unknown | i32 | i64 | f64 | bool | string | binary | noderef | noderefMany | span | ext | nodespan
  deriving DecidableEq, Repr

/-- Python values a field, a property or a type option can hold. Floats are 64-bit patterns. `nodes` is
a list (or NodeList) of nodes; `data` is a plain list or dict (of a property or a type option); `other` is
any object of no supported type. -/
inductive Value
  | none
  | bool (b : Bool)
  | int (i : Int)
  | float (bits : UInt64)
  | str (s : Str)
  | bytes (b : List UInt8)
  | node (n : NodeId)
  | nodes (ns : List NodeId)
  | nodespan (l r : NodeId)
  | span (t : TextId) (a b : Int)
  | ext (typ : Str) (data : List UInt8)
  | data (o : Obj)
  | other
  deriving DecidableEq, Repr

/-- `DataType` (model.py:892-900). `checked = true` for the subclasses overriding `is_valid`
(959-1066), `false` for the base class. The subclass is the one belonging to `tname`, as the factory
(1069-1170) guarantees. -/
structure DataType where
  tname : TName
  checked : Bool
  options : Dict Str Value
  deriving DecidableEq, Repr

/-- A `Node` (model.py:63-86): `_id`, `collection`, and the dict contents. -/
structure NodeRec where
  id : Int := -1
  coll : Option LayerId := none
  fields : Dict Str Value := []

/-- A `NodeLayerCollection` (model.py:1286-1313) with its schema (1217-1226) inlined: `fields` is
`_schema.fields` (the same dict object as `fieldtypes`), `slots` is `_nodes`, `defaults` is
`_default_values`. Sharing of one schema object between layers is not modelled. -/
structure LayerObj where
  name : Str := []
  fields : Dict Str DataType := []
  slots : List (Option NodeId) := []
  num : Int := 0
  defaults : Dict Str Value := []

/-- The heap with one distinguished document (model.py:1760-1768): `dl` is `_layers`, `dt` is `_texts`.
Objects not yet allocated are at or above `nextN`/`nextL`/`nextT`. -/
structure World where
  nodes : NodeId → NodeRec
  layers : LayerId → LayerObj
  texts : TextId → TextObj
  dl : Dict Str LayerId
  dt : Dict Str TextId
  props : Dict Str Value
  nextN : NodeId
  nextL : LayerId
  nextT : TextId

/-- An empty heap with an empty document: `Document()` (model.py:1760-1768). -/
def World.empty : World where
  nodes _ := {}
  layers _ := {}
  texts i := ⟨i, [], []⟩
  dl := []
  dt := []
  props := []
  nextN := 0
  nextL := 0
  nextT := 0

namespace World

/-- write one node object -/
def modNode (w : World) (n : NodeId) (f : NodeRec → NodeRec) : World :=
  { w with nodes := upd w.nodes n (f (w.nodes n)) }

/-- write one layer object -/
def modLayer (w : World) (L : LayerId) (f : LayerObj → LayerObj) : World :=
  { w with layers := upd w.layers L (f (w.layers L)) }

/-- `n._id = i` -/
def setId (w : World) (n : NodeId) (i : Int) : World := w.modNode n (fun r => { r with id := i })

/-- `n.collection = c` -/
def setColl (w : World) (n : NodeId) (c : Option LayerId) : World :=
  w.modNode n (fun r => { r with coll := c })

/-- `layer._nodes = s` -/
def setSlots (w : World) (L : LayerId) (s : List (Option NodeId)) : World :=
  w.modLayer L (fun l => { l with slots := s })

/-- `layer.num = k` -/
def setNum (w : World) (L : LayerId) (k : Int) : World :=
  w.modLayer L (fun l => { l with num := k })

/-- `Node.i` (model.py:88-96). -/
def nodeI (w : World) (n : NodeId) : Except PyErr Int :=
  if (w.nodes n).id ≠ -1 then .ok (w.nodes n).id else .error .assertion

/-- `n.collection.name` when bound. -/
def collName (w : World) (n : NodeId) : Option Str := (w.nodes n).coll.map (fun L => (w.layers L).name)

/-- `Node(**fields)` (model.py:83-86): a new dangling node. -/
def newNode (w : World) (fields : Dict Str Value) : World × NodeId :=
  ({ w with nodes := upd w.nodes w.nextN { fields := fields }, nextN := w.nextN + 1 }, w.nextN)

end World

namespace DataType

/-- `DataType.default` (model.py:902-903), Python `None` as `Option.none`. -/
def default? (t : DataType) : Option Value :=
  match dget t.options "default".toList with
  | some .none => none
  | x => x

/-- `self.options[k]` compared with a layer or text name: KeyError when missing. -/
def opt (t : DataType) (k : String) : Except PyErr Value :=
  match dget t.options k.toList with
  | some v => .ok v
  | none => .error .key

/-- integer value of ints and bools (`isinstance(value, int)` holds for both) -/
def asInt : Value → Option Int
  | .int i => some i
  | .bool b => some (if b then 1 else 0)
  | _ => none

/-- is node `n` bound to a layer of the given name (`n.collection is not None and
n.collection.name == name`) -/
def boundTo (w : World) (n : NodeId) (name : Value) : Bool :=
  match w.collName n with
  | none => false
  | some nm => decide (Value.str nm = name)

/-- the `is_valid` methods (model.py:943-944 base class, 965-966, 975-976, 985-986, 995-996,
1005-1006, 1015-1016, 1025-1031, 1040-1042, 1051-1054, 1063-1066). For NODEREF_MANY a NodeSpan value
(also a NodeCollection) is `unmodelled`. -/
def isValid (w : World) (t : DataType) (v : Value) : Except PyErr Bool :=
  if !t.checked then .ok true
  else match t.tname with
  | .bool => .ok (match v with | .bool _ => true | _ => false)
  | .i32 => .ok (match asInt v with
      | some i => decide (-0x80000000 ≤ i) && decide (i ≤ 0x7FFFFFFF)
      | none => false)
  | .i64 => .ok (match asInt v with
      | some i => decide (-0x8000000000000000 ≤ i) && decide (i ≤ 0x7FFFFFFFFFFFFFFF)
      | none => false)
  | .f64 => .ok (match v with | .float _ => true | _ => false)
  | .string => .ok (match v with | .str s => decide (s.length < 2 ^ 31) | _ => false)
  | .binary => .ok (match v with | .bytes s => decide (s.length < 2 ^ 31) | _ => false)
  | .nodespan =>
    match v with
    | .nodespan l r =>
      if (w.nodes l).coll.isNone || (w.nodes r).coll.isNone then .ok false
      else do
        let layer ← t.opt "layer"
        if !boundTo w l layer || !boundTo w r layer then pure false
        else do
          let i ← w.nodeI l
          let j ← w.nodeI r
          pure (decide (i ≤ j))
    | _ => .ok false
  | .span =>
    match v with
    | .span tx _ _ => do
      let c ← t.opt "context"
      pure (decide (Value.str (w.texts tx).name = c))
    | _ => .ok false
  | .noderef =>
    match v with
    | .node n =>
      if (w.nodes n).coll.isNone then .ok false
      else do
        let layer ← t.opt "layer"
        pure (boundTo w n layer)
    | _ => .ok false
  | .noderefMany => do
    let layer ← t.opt "layer"
    match v with
    | .nodes ns => pure (ns.all (fun n => boundTo w n layer))
    | .nodespan _ _ => .error .unmodelled
    | _ => pure false
  | _ => .ok true

end DataType

namespace World

/-- What `validate` (model.py:1379-1439) does with a value that `is_valid` refused: which exception it
raises. Asserts give AssertionError; attribute access on a value of the wrong Python type gives
AttributeError. (No refused value passes all of the asserts, so `return False` at 1441 is never
reached.) -/
def refusal (t : DataType) (v : Value) : PyErr :=
  match t.tname, v with
  | .nodespan, .nodespan _ _ => .assertion
  | .nodespan, _ => .attribute
  | .noderef, .node _ => .assertion
  | .noderef, _ => .attribute
  | _, _ => .assertion

/-- `NodeLayerCollection.validate` (model.py:1373-1443) for a node whose `collection` is this layer:
`ok ()` for True, otherwise the exception raised. -/
def validateFields (w : World) (d : Dict Str Value) : Dict Str DataType → Except PyErr Unit
  | [] => .ok ()
  | (f, t) :: rest =>
    match dget d f with
    | none => validateFields w d rest
    | some v =>
      match t.isValid w v with
      | .error e => .error e
      | .ok true => validateFields w d rest
      | .ok false => .error (refusal t v)

/-- `layer.validate(node)` (model.py:1373-1443). -/
def validate (w : World) (L : LayerId) (n : NodeId) : Except PyErr Unit :=
  validateFields w (w.nodes n).fields (w.layers L).fields

/-- `_update_default_values` (model.py:1311-1313). -/
def computeDefaults (fields : Dict Str DataType) : Dict Str Value :=
  fields.filterMap (fun e => e.2.default?.map (fun v => (e.1, v)))

end World
end Verif
