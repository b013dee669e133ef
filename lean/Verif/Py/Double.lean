import Verif.Py.PyEq
import Verif.Py.Num
/-
Conversions between Python's numbers and text that `int(v)`, `float(v)` and `str(v)` perform.
-/
namespace Verif

/-- `int(x)` of a float: the part before the point. ValueError for NaN, OverflowError for the infinities. -/
def floatInt (x : UInt64) : Except PyErr Int :=
  match Obj.floatNum x with
  | .fin z => .ok (z.tdiv (2 ^ 1074))
  | .inf _ => .error .overflow
  | .nan => .error .value

/-- the leading 53 bits of `n`, whose highest bit is number `e`, rounded half to even -/
def topBits (n e : Nat) : Nat :=
  if e ≤ 52 then n * 2 ^ (52 - e)
  else
    let s := 2 ^ (e - 52)
    let q := n / s
    if 2 * (n % s) < s ∨ (2 * (n % s) = s ∧ q % 2 = 0) then q else q + 1

/-- `float(n)` of an int `n >= 0` (Objects/longobject.c, PyLong_AsDouble): the nearest float, of two the one whose
last bit is 0; OverflowError where that is no finite one. Rounding up to the next power of two carries into the exponent. -/
def natDouble (n : Nat) : Except PyErr Nat :=
  if n = 0 then .ok 0
  else
    let e := n.log2
    let bits := (e + 1022) * 2 ^ 52 + topBits n e
    if bits < 2047 * 2 ^ 52 then .ok bits else .error .overflow

/-- `float(i)` of an int -/
def intDouble (i : Int) : Except PyErr UInt64 :=
  match natDouble i.natAbs with
  | .error e => .error e
  | .ok b => .ok (UInt64.ofNat (if i < 0 then b + 2 ^ 63 else b))

/-! ### ints as text -/

/-- white space of `int(text)` for ASCII text: what C's isspace says -/
def isSpaceC (c : Char) : Bool := c = ' ' || c = '\t' || c = '\n' || c = Char.ofNat 11 || c = Char.ofNat 12 || c = '\r'

/-- digits with single underscores between them: the value, reading on from `acc`. The flag says that an underscore must
not come next. -/
def intDigits (acc : Nat) (under : Bool) : Str → Option Nat
  | [] => if under then none else some acc
  | c :: s =>
    if c = '_' then (if under then none else intDigits acc true s)
    else if c.isDigit then intDigits (acc * 10 + (c.toNat - 48)) false s
    else none

/-- what follows the sign -/
def intUnsigned (s : Str) : Except PyErr Int :=
  match intDigits 0 true s with
  | some n => .ok n
  | none => .error .value

/-- `int(s)` of ASCII text (Objects/longobject.c, PyLong_FromString with base 10). The limit on the number of digits
(4300, in recent versions) is left out. -/
def textInt (s : Str) : Except PyErr Int :=
  match ((s.dropWhile isSpaceC).reverse.dropWhile isSpaceC).reverse with
  | '-' :: r =>
    match intUnsigned r with
    | .ok i => .ok (-i)
    | .error e => .error e
  | '+' :: r => intUnsigned r
  | r => intUnsigned r

/-- one byte as two hexadecimal digits -/
def hexByte (b : UInt8) : Str := [Nat.digitChar (b.toNat / 16), Nat.digitChar (b.toNat % 16)]

/-- one byte in the repr of bytes written between the quotes `q` -/
def byteRepr (q : Char) (b : UInt8) : Str :=
  let c := Char.ofNat b.toNat
  if c = q ∨ c = '\\' then ['\\', c]
  else if c = '\t' then ['\\', 't']
  else if c = '\n' then ['\\', 'n']
  else if c = '\r' then ['\\', 'r']
  else if b.toNat < 32 ∨ 127 ≤ b.toNat then '\\' :: 'x' :: hexByte b
  else [c]

/-- `str(b)` of bytes (Objects/bytesobject.c, PyBytes_Repr): between double quotes if there are single quotes and no
double ones -/
def bytesText (b : Bytes) : Str :=
  let q := if 39 ∈ b ∧ 34 ∉ b then '"' else '\''
  'b' :: q :: b.flatMap (byteRepr q) ++ [q]

/-- one element of a list given to `bytes`: TypeError unless it is an int, ValueError unless it fits -/
def byteOf : Obj → Except PyErr UInt8
  | .int i => if 0 ≤ i ∧ i < 256 then .ok (UInt8.ofNat i.toNat) else .error .value
  | .bool b => .ok (if b then 1 else 0)
  | _ => .error .type

/-- `int(3.7)`, `int(-3.7)`, `int(1e300 * 1e300)`, `float(2 ** 53 + 1)`, `float(2 ** 53 + 3)`, `float(-1)`, `int(" -1_0\n")`,
`int("1__0")`, `str(b"a'\n\xff")` -/
example : floatInt 0x400D99999999999A = .ok 3 ∧ floatInt 0xC00D99999999999A = .ok (-3) ∧ floatInt 0x7FF0000000000000 = .error .overflow ∧
    intDouble (2 ^ 53 + 1) = .ok 0x4340000000000000 ∧ intDouble (2 ^ 53 + 3) = .ok 0x4340000000000002 ∧
    intDouble (-1) = .ok 0xBFF0000000000000 ∧ intDouble (2 ^ 54 - 1) = .ok 0x4350000000000000 ∧
    intDouble (2 ^ 1024) = .error .overflow ∧ intDouble (2 ^ 1024 - 2 ^ 970) = .error .overflow ∧
    intDouble (2 ^ 1024 - 2 ^ 970 - 1) = .ok 0x7FEFFFFFFFFFFFFF ∧
    textInt " -1_0\n".toList = .ok (-10) ∧ textInt "1__0".toList = .error .value ∧ textInt "+007".toList = .ok 7 ∧
    textInt "- 1".toList = .error .value ∧ textInt "".toList = .error .value ∧ textInt "_1".toList = .error .value ∧
    bytesText [97, 39, 10, 255] = "b\"a'\\n\\xff\"".toList ∧ bytesText [97] = "b'a'".toList := by decide +kernel

end Verif
