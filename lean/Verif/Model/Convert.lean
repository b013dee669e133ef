import Verif.Model.Query
import Verif.Py.Double
/-
What the encoders of the codecs make of a value that is not of the field's declared type (codec.py:48-59). They call
`int(v)`, `float(v)`, `bool(v)`, `str(v)`, `bytes(v)`, or ask for the attributes of nodes. Not modelled: text as a float, the
text of floats, nodes, lists, dicts and ExtData, non-ASCII text as an int, and objects of no supported type.
-/
namespace Verif
namespace World

/-- `int(v)`: codec.py:49-50 -/
def asInt : Value → Except PyErr Int
  | .int i => .ok i
  | .bool b => .ok (if b then 1 else 0)
  | .float x => floatInt x
  | .str s => if s.all (fun c => decide (c.toNat < 128)) then textInt s else .error .unmodelled
  | .bytes b => textInt (b.map (fun x => Char.ofNat x.toNat))
  | .none | .node _ | .nodes _ | .nodespan _ _ | .span _ _ _ | .ext _ _ | .data _ => .error .type
  | .other => .error .unmodelled

/-- `float(v)`: codec.py:51 -/
def asFloat : Value → Except PyErr UInt64
  | .float x => .ok x
  | .int i => intDouble i
  | .bool b => intDouble (if b then 1 else 0)
  | .str _ | .bytes _ | .other => .error .unmodelled
  | .none | .node _ | .nodes _ | .nodespan _ _ | .span _ _ _ | .ext _ _ | .data _ => .error .type

/-- `bool(v)`: codec.py:52 -/
def asTruth (w : World) : Value → Except PyErr Bool
  | .other => .error .unmodelled
  | v => w.truth v

/-- `str(v)`: codec.py:53 -/
def asText (w : World) : Value → Except PyErr Str
  | .str s => .ok s
  | .int i => .ok (intStr i)
  | .bool b => .ok (if b then "True".toList else "False".toList)
  | .span t a b => .ok (w.spanStr t a b)
  | .bytes b => .ok (bytesText b)
  | .none => .ok "None".toList
  | _ => .error .unmodelled

/-- `bytes(v)`: codec.py:54. An int gives that many zeros; a list or dict of anything but ints is a TypeError unless it is
empty. A TextSpan has no `__iter__` and is read by `span[0]`, `span[1]`, ... until an IndexError (model.py:612-625); `span[0]` is
the character of the text at the start of the span, whatever the length of the span. That there may not be enough memory is left
out. -/
def asBytes (w : World) : Value → Except PyErr Bytes
  | .bytes b => .ok b
  | .int i => if i < 0 then .error .value else .ok (List.replicate i.toNat 0)
  | .bool b => .ok (if b then [0] else [])
  | .node n => if (w.nodes n).fields = [] then .ok [] else .error .type
  | .nodes ns => if ns = [] then .ok [] else .error .type
  | .nodespan l r =>
    match w.nodeSpanIter l r with
    | .ok ns => if ns = [] then .ok [] else .error .type
    | .error e => .error e
  | .span t a _ =>
    match pyIndex (w.texts t).text a with
    | .ok _ => .error .type
    | .error _ => .ok []
  | .data (.arr l) => mapE byteOf l
  | .data (.map l) => if l = [] then .ok [] else .error .type
  | .none | .float _ | .str _ | .ext _ _ | .data _ => .error .type
  | .other => .error .unmodelled

/-- the objects that have a length: whether it is 0 (`len(v) == 0`, codec.py:56). TypeError for the others. -/
def lenZero (w : World) : Value → Except PyErr Bool
  | .none | .bool _ | .int _ | .float _ | .ext _ _ => .error .type
  | .other => .error .unmodelled
  | v =>
    match w.truth v with
    | .ok b => .ok !b
    | .error e => .error e

/-- `v.i` of the neighbour that `v.left` or `v.right` gives: AttributeError for None -/
def neighbourI (w : World) : Except PyErr (Option NodeId) → Except PyErr Int
  | .ok (some n) => w.nodeI n
  | .ok none => .error .attribute
  | .error e => .error e

end World
end Verif
