import Verif.Model.MsgpackCodec
import Verif.Model.JsonCodec
/-
Extended data: ExtData (model.py:828-842) and embedded documents, MsgpackDocumentExt (codec.py:504-520).

Simplifications: the data of an ExtData is plain data; an object with a `__bytes__` of its own is not modelled.
-/
namespace Verif

/-- `bytes(x)`: an int is a number of zero bytes, a str needs an encoding (TypeError), a list (or the keys of a
dict) is taken byte by byte -/
def pyBytes : Obj → Except PyErr Bytes
  | .bin b => .ok b
  | .int i => if 0 ≤ i then .ok (List.replicate i.toNat 0) else .error .value
  | .bool b => .ok (if b then [0] else [])
  | .arr l => mapE byteOf l
  | .map [] => .ok []
  | _ => .error .type

/-- `ExtData(type, data)` (model.py:828-833) -/
structure ExtData where
  type : Str
  data : Obj

namespace ExtData

/-- `encode()` (model.py:835-839) -/
def encode (e : ExtData) : Except PyErr Bytes :=
  match e.data with
  | .bin b => .ok b
  | d => pyBytes d

/-- `decode()` (model.py:841-842) -/
def decode (e : ExtData) : Obj := e.data

end ExtData

/-- `MsgpackDocumentExt(doc)` (codec.py:504-507): its data are bytes or a Document. The type is "doc". -/
inductive DocExt
  | raw (b : Bytes)
  | doc (w : World)

namespace DocExt

/-- `encode()` (codec.py:509-513): encoding a Document compiles it -/
def encode : DocExt → DocExt × Except PyErr Bytes
  | .raw b => (.raw b, .ok b)
  | .doc w =>
    match w.encodeMsgpack false true with
    | (w, r) => (.doc w, r)

/-- `decode()` (codec.py:515-520): the Document replaces the bytes -/
def decode : DocExt → DocExt × Except PyErr World
  | .doc w => (.doc w, .ok w)
  | .raw b =>
    match decodeMsgpack b with
    | .error e => (.raw b, .error e)
    | .ok w => (.doc w, .ok w)

end DocExt
end Verif
