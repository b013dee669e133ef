import Verif.Py.Json
/-
Vocabulary for the JSON properties (C65, C66).
-/
namespace Verif
namespace Spec

/-- decimal digits only -/
def Digits (s : Str) : Prop := ∀ c ∈ s, c.isDigit = true

/-- the integer part of a JSON number: no leading zero -/
def IntText (s : Str) : Prop := s = ['0'] ∨ ∃ c l, s = c :: l ∧ c.isDigit = true ∧ c ≠ '0' ∧ Digits l

/-- a JSON number with a fraction or an exponent -/
def NumText (s : Str) : Prop := ∃ neg int frac exp : Str, s = neg ++ (int ++ (frac ++ exp)) ∧ (neg = [] ∨ neg = ['-']) ∧
  IntText int ∧ (frac = [] ∨ ∃ l, frac = '.' :: l ∧ l ≠ [] ∧ Digits l) ∧
  (exp = [] ∨ ∃ e sg l, exp = e :: (sg ++ l) ∧ (e = 'e' ∨ e = 'E') ∧ (sg = [] ∨ sg = ['-'] ∨ sg = ['+']) ∧ l ≠ [] ∧ Digits l) ∧
  (frac ≠ [] ∨ exp ≠ [])

/-- what is assumed of CPython's float formatting: finite floats are written as JSON numbers with a fraction or
an exponent, and are read back exactly (`float(repr(x)) == x`, sign of zero included) -/
structure FloatsExact (ft : FloatText) : Prop where
  shape : ∀ b, floatKind b = .finite → NumText (ft.repr b)
  exact : ∀ b, floatKind b = .finite → ft.parse (ft.repr b) = b

/-- a float JSON can carry: any, except NaNs other than `float('nan')` -/
def FloatOk (b : UInt64) : Prop := floatKind b = .nan → b = nanBits

mutual
/-- no bytes inside, and only floats that JSON can carry -/
def Jsonable : Obj → Prop
  | .bin _ => False
  | .float b => FloatOk b
  | .arr l => JsonableL l
  | .map l => JsonableM l
  | _ => True
def JsonableL : List Obj → Prop
  | [] => True
  | x :: xs => Jsonable x ∧ JsonableL xs
def JsonableM : List (Str × Obj) → Prop
  | [] => True
  | (_, x) :: xs => Jsonable x ∧ JsonableM xs
end

mutual
/-- bytes somewhere inside -/
def HasBytes : Obj → Prop
  | .bin _ => True
  | .arr l => HasBytesL l
  | .map l => HasBytesM l
  | _ => False
def HasBytesL : List Obj → Prop
  | [] => False
  | x :: xs => HasBytes x ∨ HasBytesL xs
def HasBytesM : List (Str × Obj) → Prop
  | [] => False
  | (_, x) :: xs => HasBytes x ∨ HasBytesM xs
end

/-- white space -/
def Blank (s : Str) : Prop := ∀ c ∈ s, c = ' ' ∨ c = '\t' ∨ c = '\n' ∨ c = '\r'

/-- printable ASCII -/
def Printable (s : Str) : Prop := ∀ c ∈ s, ' ' ≤ c ∧ c ≤ '~'

end Spec
end Verif
