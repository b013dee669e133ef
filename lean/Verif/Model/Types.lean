import Verif.Model.Layer
/-
The type factory `DataTypes` (model.py:1069-1214), type merging (919-941) and the field types a NodeList
derives from its nodes (464-512).
-/
namespace Verif
namespace DataTypes

/-- option dict with one entry -/
def opts (k : String) (v : Value) : Dict Str Value := [(k.toList, v)]

/-- `DataTypes.int32(default)` (model.py:1084-1091). -/
def int32 (default : Option Int) : DataType :=
  match default with
  | none => ⟨.i32, true, []⟩
  | some i => ⟨.i32, true, opts "default" (.int i)⟩

/-- `DataTypes.int64(default)` (model.py:1093-1100). -/
def int64 (default : Option Int) : DataType :=
  match default with
  | none => ⟨.i64, true, []⟩
  | some i => ⟨.i64, true, opts "default" (.int i)⟩

/-- `x == 0.0` on 64-bit patterns: positive and negative zero -/
def isZero (bits : UInt64) : Bool := bits == 0 || bits == 0x8000000000000000

/-- `DataTypes.float64(default)` (model.py:1102-1109): for a zero default the shared object of line 1071,
whose default is the *int* 0; for any other default the value is replaced by `0.0`. -/
def float64 (default : Option UInt64) : DataType :=
  match default with
  | none => ⟨.f64, true, []⟩
  | some b => if isZero b then ⟨.f64, true, opts "default" (.int 0)⟩
    else ⟨.f64, true, opts "default" (.float 0)⟩

/-- `DataTypes.string(default)` (model.py:1111-1118): a non-empty default gives a base `DataType`. -/
def string (default : Option Str) : DataType :=
  match default with
  | none => ⟨.string, true, []⟩
  | some [] => ⟨.string, true, opts "default" (.str [])⟩
  | some s => ⟨.string, false, opts "default" (.str s)⟩

/-- `DataTypes.bool(default)` (model.py:1120-1127): any non-None default, also the implicit `False`, gives
a base `DataType`. -/
def bool (default : Option Bool) : DataType :=
  match default with
  | none => ⟨.bool, true, []⟩
  | some b => ⟨.bool, false, opts "default" (.bool b)⟩

/-- `DataTypes.binary` (model.py:1081). -/
def binary : DataType := ⟨.binary, true, []⟩

/-- `DataTypes.textspan(context)` (model.py:1131-1138) and `Text.spantype`. -/
def textspan (context : Str) : DataType := ⟨.span, true, opts "context" (.str context)⟩

/-- `DataTypes.noderef(layer)` (model.py:1142-1149). -/
def noderef (layer : Str) : DataType := ⟨.noderef, true, opts "layer" (.str layer)⟩

/-- `DataTypes.noderef_many(layer)` (model.py:1151-1158). -/
def noderefMany (layer : Str) : DataType := ⟨.noderefMany, true, opts "layer" (.str layer)⟩

/-- `DataTypes.nodespan(layer)` (model.py:1160-1167). -/
def nodespan (layer : Str) : DataType := ⟨.nodespan, true, opts "layer" (.str layer)⟩

/-- `DataTypes.ext(typename)` (model.py:1169-1171). -/
def ext (typ : Str) : DataType := ⟨.ext, false, opts "type" (.str typ)⟩

/-- `DataTypes.typeof(o)` without comparetype (model.py:1177-1214). `isinstance(True, int)` holds, so
booleans give int64. `nodetype` of a layer is `noderef(layer.name)` (1294). -/
def typeOf (w : World) : Value → Except PyErr DataType
  | .str _ => .ok (string (some []))
  | .int _ => .ok (int64 (some 0))
  | .bool _ => .ok (int64 (some 0))
  | .float _ => .ok (float64 (some 0))
  | .bytes _ => .ok binary
  | .span t _ _ => .ok (textspan (w.texts t).name)
  | .nodespan l _ => match w.collName l with
    | some nm => .ok (nodespan nm)
    | none => .error .attribute
  | .node n => match w.collName n with
    | some nm => .ok (noderef nm)
    | none => .error .attribute
  | .nodes [] => .ok ⟨.noderefMany, false, []⟩
  | .nodes (n :: ns) =>
    if (n :: ns).all (fun m => decide ((w.nodes m).coll = (w.nodes n).coll)) then
      match w.collName n with
      | some nm => .ok (noderefMany nm)
      | none => .error .attribute
    else .error .value
  | _ => .error .value

end DataTypes

namespace DataType

/-- `_type2priority` (model.py:894). -/
def priority : TName → Option Nat
  | .bool => some 0
  | .i32 => some 1
  | .i64 => some 2
  | .f64 => some 3
  | _ => none

/-- `a.cast_up_possible(b)` (model.py:916-925). -/
def castUpPossible (a b : DataType) : Bool :=
  if a.tname = b.tname then true
  else if (priority a.tname).isSome then (priority b.tname).isSome
  else false

/-- `a.cast_up(b)` (model.py:927-944). -/
def castUp (a b : DataType) : Except PyErr DataType :=
  match priority a.tname, priority b.tname with
  | some p, some q => .ok (if p ≥ q then a else b)
  | _, _ => .error .assertion

/-- the merging loop (model.py:496-505) -/
def resolve : Option DataType → List DataType → Except PyErr (Option DataType)
  | r, [] => .ok r
  | none, t :: ts => resolve (some t) ts
  | some r, t :: ts =>
    if castUpPossible r t then
      match castUp r t with
      | .ok r' => resolve (some r') ts
      | .error e => .error e
    else .error .value

/-- one iteration of the loop at model.py:489-507: the type recorded for a field whose distinct types are
`ts` (a set in Python; its iteration order is arbitrary). In the mixed case the merged type is computed
but not recorded: `none`. -/
def outputType (ts : List DataType) : Except PyErr (Option DataType) :=
  match ts with
  | [] => .error .stopIteration
  | [t] => .ok (some t)
  | t :: rest =>
    if rest.all (fun u => decide (u.tname = t.tname)) then .ok (some t)
    else match resolve none ts with
      | .error e => .error e
      | .ok _ => .ok none

end DataType

namespace World

/-- `add_many` given a one-shot iterator: the validation loop (model.py:1502-1504) iterates the exhausted
iterator and validates nothing. -/
def addManyOneShot (w : World) (L : LayerId) (ns : List NodeId) (fill _validate : Bool) : Res :=
  w.addMany L ns fill false

end World
end Verif
