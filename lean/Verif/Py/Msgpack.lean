import Verif.Py.Dict
import Verif.Py.Utf8
/-
The part of the `msgpack` library that docria uses (version 1.x with its default settings):
`msgpack.pack(o, out)` and `msgpack.Unpacker(data, raw=False)`.

Written from the MessagePack format and from the library's documented limits: the packer refuses
nesting deeper than 511, integers outside 64 bits (OverflowError) and sizes of 2^32 or more; the
unpacker refuses nesting deeper than its stack of 1024. Not modelled: extension types, 32-bit
floats and `bytes` map keys when reading (`unmodelled`); the 100 MiB buffer limit (it is in Verif.Model.PyInput).
-/
set_option linter.unusedSimpArgs false
namespace Verif

/-- `k` bytes of `n`, most significant first -/
def be : Nat → Nat → Bytes
  | 0, _ => []
  | k + 1, n => .ofNat (n / 256 ^ k % 256) :: be k n

/-- value of a big-endian byte string -/
def ofBe (bs : Bytes) : Nat := bs.foldl (fun acc b => acc * 256 + b.toNat) 0

/-- integers: the smallest format that fits -/
def packInt (i : Int) : Except PyErr Bytes :=
  if 0 ≤ i then
    let n := i.toNat
    if n < 0x80 then .ok [.ofNat n]
    else if n < 0x100 then .ok (0xcc :: be 1 n)
    else if n < 0x10000 then .ok (0xcd :: be 2 n)
    else if n < 0x100000000 then .ok (0xce :: be 4 n)
    else if n < 0x10000000000000000 then .ok (0xcf :: be 8 n)
    else .error .overflow
  else
    let m := (-i).toNat
    if m ≤ 0x20 then .ok [.ofNat (0x100 - m)]
    else if m ≤ 0x80 then .ok (0xd0 :: be 1 (0x100 - m))
    else if m ≤ 0x8000 then .ok (0xd1 :: be 2 (0x10000 - m))
    else if m ≤ 0x80000000 then .ok (0xd2 :: be 4 (0x100000000 - m))
    else if m ≤ 0x8000000000000000 then .ok (0xd3 :: be 8 (0x10000000000000000 - m))
    else .error .overflow

/-- header of a str of `n` bytes -/
def packStrHead (n : Nat) : Except PyErr Bytes :=
  if n < 0x20 then .ok [.ofNat (0xa0 + n)]
  else if n < 0x100 then .ok (0xd9 :: be 1 n)
  else if n < 0x10000 then .ok (0xda :: be 2 n)
  else if n < 0x100000000 then .ok (0xdb :: be 4 n)
  else .error .value

/-- header of a bin of `n` bytes (`use_bin_type=True`) -/
def packBinHead (n : Nat) : Except PyErr Bytes :=
  if n < 0x100 then .ok (0xc4 :: be 1 n)
  else if n < 0x10000 then .ok (0xc5 :: be 2 n)
  else if n < 0x100000000 then .ok (0xc6 :: be 4 n)
  else .error .value

/-- header of an array of `n` elements -/
def packArrHead (n : Nat) : Except PyErr Bytes :=
  if n < 0x10 then .ok [.ofNat (0x90 + n)]
  else if n < 0x10000 then .ok (0xdc :: be 2 n)
  else if n < 0x100000000 then .ok (0xdd :: be 4 n)
  else .error .value

/-- header of a map of `n` entries -/
def packMapHead (n : Nat) : Except PyErr Bytes :=
  if n < 0x10 then .ok [.ofNat (0x80 + n)]
  else if n < 0x10000 then .ok (0xde :: be 2 n)
  else if n < 0x100000000 then .ok (0xdf :: be 4 n)
  else .error .value

/-- a str value -/
def packStr (s : Str) : Except PyErr Bytes := do
  let b := utf8Encode s
  return (← packStrHead b.length) ++ b

/-- a str at a given nesting limit -/
def packKey : Nat → Str → Except PyErr Bytes
  | 0, _ => .error .value
  | _ + 1, s => packStr s

mutual
/-- `Packer._pack(o, nest_limit)`: `lim` is `nest_limit + 1` -/
def packAt : Nat → Obj → Except PyErr Bytes
  | 0, _ => .error .value
  | _ + 1, .nil => .ok [0xc0]
  | _ + 1, .bool false => .ok [0xc2]
  | _ + 1, .bool true => .ok [0xc3]
  | _ + 1, .int i => packInt i
  | _ + 1, .float f => .ok (0xcb :: be 8 f.toNat)
  | _ + 1, .str s => packStr s
  | _ + 1, .bin b => do return (← packBinHead b.length) ++ b
  | lim + 1, .arr l => do return (← packArrHead l.length) ++ (← packList lim l)
  | lim + 1, .map l => do return (← packMapHead l.length) ++ (← packPairs lim l)
def packList : Nat → List Obj → Except PyErr Bytes
  | _, [] => .ok []
  | lim, x :: xs => do return (← packAt lim x) ++ (← packList lim xs)
def packPairs : Nat → List (Str × Obj) → Except PyErr Bytes
  | _, [] => .ok []
  | lim, (k, x) :: xs => do return (← packKey lim k) ++ (← packAt lim x) ++ (← packPairs lim xs)
end

/-- `msgpack.pack(o, out, use_bin_type=True)`: the bytes written -/
def pack (o : Obj) : Except PyErr Bytes := packAt 512 o

/-- a reader: takes bytes from the front of what is left -/
def P (α : Type) := Bytes → Except PyErr (α × Bytes)

namespace P
variable {α β : Type}

protected def pure (a : α) : P α := fun bs => .ok (a, bs)

protected def bind (p : P α) (f : α → P β) : P β := fun bs =>
  match p bs with
  | .error e => .error e
  | .ok (a, r) => f a r

instance : Monad P where
  pure := P.pure
  bind := P.bind

/-- raise -/
def fail (e : PyErr) : P α := fun _ => .error e

/-- the next `n` bytes, or OutOfData -/
def take (n : Nat) : P Bytes := fun bs =>
  if n ≤ bs.length then .ok (bs.take n, bs.drop n) else .error .outOfData

/-- lift a computation that reads nothing -/
def lift (x : Except PyErr α) : P α := fun bs =>
  match x with
  | .error e => .error e
  | .ok a => .ok (a, bs)

/-- `n` times -/
def times (p : P α) : Nat → P (List α)
  | 0 => pure []
  | n + 1 => do
    let x ← p
    let xs ← times p n
    return x :: xs
end P

/-- an unsigned number of `k` bytes -/
def takeNat (k : Nat) : P Nat := do return ofBe (← P.take k)

/-- a two's complement number of `k` bytes -/
def takeInt (k : Nat) : P Int := do
  let n ← takeNat k
  return if n < 256 ^ k / 2 then (n : Int) else (n : Int) - (256 ^ k : Nat)

/-- `n` bytes read as UTF-8 (`raw=False`); UnicodeDecodeError is a ValueError -/
def takeStr (n : Nat) : P Obj := do
  match utf8Decode (← P.take n) with
  | some s => return .str s
  | none => P.fail .value

/-- what a type byte announces -/
inductive Head
  | val (o : Obj)
  | arr (n : Nat)
  | map (n : Nat)
  deriving DecidableEq

/-- what follows the type byte `b`: for scalars, the value -/
def headOf (b : Nat) : P Head := do
  if b < 0x80 then return .val (.int b)
  else if b < 0x90 then return .map (b - 0x80)
  else if b < 0xa0 then return .arr (b - 0x90)
  else if b < 0xc0 then return .val (← takeStr (b - 0xa0))
  else if b = 0xc0 then return .val .nil
  else if b = 0xc1 then P.fail .value
  else if b = 0xc2 then return .val (.bool false)
  else if b = 0xc3 then return .val (.bool true)
  else if b = 0xc4 then return .val (.bin (← P.take (← takeNat 1)))
  else if b = 0xc5 then return .val (.bin (← P.take (← takeNat 2)))
  else if b = 0xc6 then return .val (.bin (← P.take (← takeNat 4)))
  else if b < 0xcb then P.fail .unmodelled       -- extension types, 32-bit floats
  else if b = 0xcb then return .val (.float (.ofNat (← takeNat 8)))
  else if b = 0xcc then return .val (.int (← takeNat 1))
  else if b = 0xcd then return .val (.int (← takeNat 2))
  else if b = 0xce then return .val (.int (← takeNat 4))
  else if b = 0xcf then return .val (.int (← takeNat 8))
  else if b = 0xd0 then return .val (.int (← takeInt 1))
  else if b = 0xd1 then return .val (.int (← takeInt 2))
  else if b = 0xd2 then return .val (.int (← takeInt 4))
  else if b = 0xd3 then return .val (.int (← takeInt 8))
  else if b < 0xd9 then P.fail .unmodelled       -- extension types
  else if b = 0xd9 then return .val (← takeStr (← takeNat 1))
  else if b = 0xda then return .val (← takeStr (← takeNat 2))
  else if b = 0xdb then return .val (← takeStr (← takeNat 4))
  else if b = 0xdc then return .arr (← takeNat 2)
  else if b = 0xdd then return .arr (← takeNat 4)
  else if b = 0xde then return .map (← takeNat 2)
  else if b = 0xdf then return .map (← takeNat 4)
  else return .val (.int ((b : Int) - 0x100))

/-- read a type byte and what it announces -/
def unpackHead : P Head := do headOf (ofBe (← P.take 1))

/-- a map key: `strict_map_key` refuses everything but str and bytes -/
def mapKey : Obj → Except PyErr Str
  | .str s => .ok s
  | .bin _ => .error .unmodelled
  | _ => .error .value

/-- one map entry -/
def unpackPair (p : P Obj) : P (Str × Obj) := do
  let k ← P.lift (mapKey (← p))
  let v ← p
  return (k, v)

/-- build the dict: a repeated key keeps its first position and its last value -/
def dictOf {ν : Type} (l : List (Str × ν)) : Dict Str ν := l.foldl (fun d e => dset d e.1 e.2) []

/-- read one object; `n` is what is left of the unpacker's stack -/
def unpackAt : Nat → P Obj
  | 0 => do
    match ← unpackHead with
    | .val o => return o
    | _ => P.fail .value
  | n + 1 => do
    match ← unpackHead with
    | .val o => return o
    | .arr k => return .arr (← P.times (unpackAt n) k)
    | .map k => return .map (dictOf (← P.times (unpackPair (unpackAt n)) k))

/-- the unpacker's next object, OutOfData when the data ends inside it -/
def unpack : P Obj := unpackAt 1024

end Verif
