import Verif.Model.MsgpackCodec
/-
Model of documents inside documents: fields of type "ext" when a msgpack document is decoded (py/docria/codec.py:777-795,
813-816). A field whose type has the option type "doc" gets as its value the Document that MsgpackCodec.decode makes of the
bytes in the column, and that one can have such fields too.

Simplifications. The Documents in fields are not put into the dicts of the nodes (a `Value` is no Document) but are kept beside
the decoded document, by the name of the layer, the place of the node, and the field; the code decodes each of them once, here
it is decoded once to see whether that works, in the order of the code, and once to keep it. Python's limit on recursion is not
modelled. The recursion here ends because the bytes of a document in a field are shorter than those of the document around it
(the `if` in `decodeN` is true for all files that either library writes: C101).
-/
namespace Verif
open World

/-- the decoded columns of the layers: name, columns and number of nodes of each -/
abbrev DSchema := List (Str × List (Str × DataType × List Obj) × Int)

/-- bytes in a column -/
def binAt (k f : Str) (ty : Value) : Obj × Nat → Option ((Str × Nat × Str) × Value × Bytes)
  | (.bin b, i) => some ((k, i, f), ty, b)
  | _ => none

/-- the bytes in a column of an ext field, each with the node it belongs to and the option "type" of the field: `zip(nodes, data)`
(codec.py:780, 791) stops with the shorter of the two -/
def extCol (k : Str) (n : Nat) (c : Str × DataType × List Obj) : List ((Str × Nat × Str) × Value × Bytes) :=
  if c.2.1.tname = .ext then
    match dget c.2.1.options "type".toList with
    | none => []
    | some ty => (c.2.2.take n).zipIdx.filterMap (binAt k c.1 ty)
  else []

/-- so for all columns of all layers -/
def extCells (x : Wire) : List ((Str × Nat × Str) × Value × Bytes) :=
  match mapE decodeSchema x.layers with
  | .error _ => []
  | .ok sch => sch.flatMap (fun l => l.2.1.flatMap (extCol l.1 l.2.2.toNat))

/-- a decoded document, with the Documents in its fields by layer, place of the node, and field -/
inductive Deep where
  | mk (w : World) (docs : List ((Str × Nat × Str) × Deep))

/-- whether that worked -/
def forget : Except PyErr Deep → Except PyErr Unit
  | .ok _ => .ok ()
  | .error e => .error e

/-- a decoded document in its place -/
def inPlace (p : Str × Nat × Str) : Except PyErr Deep → Except PyErr ((Str × Nat × Str) × Deep)
  | .ok t => .ok (p, t)
  | .error e => .error e

/-- `MsgpackCodec.decode(data)` (codec.py:835-885), where `nested` is what this does for bytes in fields -/
def decodeStep (nested : Bytes → Except PyErr Deep) (data : Bytes) : Except PyErr Deep :=
  if data.take 4 ≠ magic then .error .value
  else
    match readWire (data.drop 4) with
    | .error e => .error e
    | .ok (x, _) =>
      match fromWireN (fun b => forget (nested b)) x with
      | .error e => .error e
      | .ok w =>
        match mapE (fun c => inPlace c.1 (nested c.2.2)) (extCells x) with
        | .error e => .error e
        | .ok docs => .ok (.mk w docs)

/-- documents inside bytes of less length than `data` -/
def shorter (data : Bytes) (f : Bytes → Except PyErr Deep) (b : Bytes) : Except PyErr Deep :=
  if b.length < data.length then f b else .error .unmodelled

/-- with at most `n` documents around each other -/
def decodeN : Nat → Bytes → Except PyErr Deep
  | 0, _ => .error .unmodelled
  | n + 1, data => decodeStep (shorter data (decodeN n)) data

/-- `MsgpackCodec.decode(data)` with the documents in fields -/
def decodeDeep (data : Bytes) : Except PyErr Deep := decodeN (data.length + 1) data

end Verif
