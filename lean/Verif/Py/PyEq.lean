import Verif.Py.Obj
/-
`==` and hashing of plain Python data, as far as dict keys need it.
-/
namespace Verif
namespace Obj

/-- a number of Python: finite ones by their value times 2^1074 (an integer for every float64 and every int) -/
inductive Num
  | fin (z : Int)
  | inf (neg : Bool)
  | nan
  deriving DecidableEq

/-- the number that a 64-bit pattern stands for (IEEE 754 binary64) -/
def floatNum (bits : UInt64) : Num :=
  let neg := decide (bits.toNat / 2 ^ 63 = 1)
  let e := bits.toNat / 2 ^ 52 % 2048
  let m := bits.toNat % 2 ^ 52
  if e = 2047 then (if m = 0 then .inf neg else .nan)
  else
    let v : Nat := if e = 0 then m else (m + 2 ^ 52) * 2 ^ (e - 1)
    .fin (if neg then -(v : Int) else v)

/-- bool is a subclass of int, and int and float compare by value -/
def num : Obj → Option Num
  | .bool b => some (.fin (if b then 2 ^ 1074 else 0))
  | .int i => some (.fin (i * 2 ^ 1074))
  | .float b => some (floatNum b)
  | _ => none

/-- equality of two numbers: NaN is not equal to anything -/
def Num.eq : Num → Num → Bool
  | .fin a, .fin b => decide (a = b)
  | .inf a, .inf b => decide (a = b)
  | _, _ => false

/-- `a == b` for hashable plain data (None, bool, int, float, str, bytes). A dict also finds a key by identity;
that matters for a NaN object only, and the keys of interest here are made by an Unpacker, so that no caller
holds them. -/
def pyEq : Obj → Obj → Bool
  | .nil, .nil => true
  | .str a, .str b => decide (a = b)
  | .bin a, .bin b => decide (a = b)
  | a, b =>
    match a.num, b.num with
    | some x, some y => x.eq y
    | _, _ => false

/-- list and dict are not hashable -/
def hashable : Obj → Bool
  | .arr _ => false
  | .map _ => false
  | _ => true

/-- `1 == True == 1.0`, `0.5 != 0`, `-0.0 == 0`, `nan != nan` -/
example : pyEq (.int 1) (.bool true) = true ∧ pyEq (.float 0x3FF0000000000000) (.int 1) = true ∧
    pyEq (.float 0x3FE0000000000000) (.int 0) = false ∧ pyEq (.float 0x8000000000000000) (.int 0) = true ∧
    pyEq (.float 0x7FF8000000000000) (.float 0x7FF8000000000000) = false ∧
    pyEq (.str "1".toList) (.int 1) = false ∧ pyEq (.float 0xC059000000000000) (.int (-100)) = true := by decide +kernel

end Obj
end Verif
