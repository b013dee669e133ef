import Verif.Py.Obj
import Verif.Py.Num
import Verif.Py.Dict
import Verif.Py.Utf8
/-
`json.dumps(o)` and `json.loads(s)` of the Python standard library with default arguments
(json/encoder.py, json/decoder.py, json/scanner.py).

Trusted: read off the library, not off /repo. Simplifications: text of finite floats is a parameter
(`FloatText`); strings with a lone surrogate are `unmodelled` (the model's `Str` has none); the
interpreter's limits on nesting and on the number of digits of an int are left out.
-/
namespace Verif

/-- `float.__repr__` of a finite float and `float(s)` of a JSON number -/
structure FloatText where
  repr : UInt64 → Str
  parse : Str → UInt64

/-- what the 64 bits stand for -/
inductive FloatKind
  | finite | nan | inf | negInf
  deriving DecidableEq

def floatKind (b : UInt64) : FloatKind :=
  if b.toNat / 2 ^ 52 % 2048 ≠ 2047 then .finite
  else if b.toNat % 2 ^ 52 ≠ 0 then .nan
  else if b.toNat / 2 ^ 63 = 0 then .inf else .negInf

/-- bits of `float('nan')`, `float('inf')`, `float('-inf')` -/
def nanBits : UInt64 := 0x7ff8000000000000
def infBits : UInt64 := 0x7ff0000000000000
def negInfBits : UInt64 := 0xfff0000000000000

/-! ### writing -/

/-- `floatstr` (json/encoder.py) -/
def floatStr (ft : FloatText) (b : UInt64) : Str :=
  match floatKind b with
  | .finite => ft.repr b
  | .nan => "NaN".toList
  | .inf => "Infinity".toList
  | .negInf => "-Infinity".toList

/-- four lower case hexadecimal digits -/
def hex4 (n : Nat) : Str :=
  [Nat.digitChar (n / 4096 % 16), Nat.digitChar (n / 256 % 16), Nat.digitChar (n / 16 % 16), Nat.digitChar (n % 16)]

/-- escape of a UTF-16 unit -/
def escUnit (n : Nat) : Str := '\\' :: 'u' :: hex4 n

/-- characters with a short escape -/
def shortEsc : Dict Char Char :=
  [('\\', '\\'), ('"', '"'), (Char.ofNat 8, 'b'), (Char.ofNat 12, 'f'), ('\n', 'n'), ('\r', 'r'), ('\t', 't')]

/-- one character of a string, `ensure_ascii` -/
def jsonChar (c : Char) : Str :=
  match dget shortEsc c with
  | some e => ['\\', e]
  | none =>
    if 0x20 ≤ c.toNat ∧ c.toNat ≤ 0x7e then [c]
    else if c.toNat < 0x10000 then escUnit c.toNat
    else escUnit (0xd800 + (c.toNat - 0x10000) / 1024) ++ escUnit (0xdc00 + (c.toNat - 0x10000) % 1024)

/-- `py_encode_basestring_ascii` -/
def jsonStr (s : Str) : Str := '"' :: (s.flatMap jsonChar ++ ['"'])

mutual
/-- `json.dumps(o)` -/
def dumps (ft : FloatText) : Obj → Except PyErr Str
  | .nil => .ok "null".toList
  | .bool b => .ok (if b then "true".toList else "false".toList)
  | .int i => .ok (intStr i)
  | .float f => .ok (floatStr ft f)
  | .str s => .ok (jsonStr s)
  | .bin _ => .error .type
  | .arr l =>
    match dumpsL ft [] l with
    | .ok s => .ok ('[' :: s ++ [']'])
    | .error e => .error e
  | .map l =>
    match dumpsM ft [] l with
    | .ok s => .ok ('{' :: s ++ ['}'])
    | .error e => .error e
/-- the elements of a list, each after a separator -/
def dumpsL (ft : FloatText) (sep : Str) : List Obj → Except PyErr Str
  | [] => .ok []
  | x :: xs =>
    match dumps ft x with
    | .error e => .error e
    | .ok a =>
      match dumpsL ft ", ".toList xs with
      | .error e => .error e
      | .ok b => .ok (sep ++ a ++ b)
/-- the entries of a dict -/
def dumpsM (ft : FloatText) (sep : Str) : List (Str × Obj) → Except PyErr Str
  | [] => .ok []
  | (k, x) :: xs =>
    match dumps ft x with
    | .error e => .error e
    | .ok a =>
      match dumpsM ft ", ".toList xs with
      | .error e => .error e
      | .ok b => .ok (sep ++ jsonStr k ++ ": ".toList ++ a ++ b)
end

/-! ### reading -/

/-- white space skipped between tokens -/
def isWs (c : Char) : Bool := c = ' ' || c = '\t' || c = '\n' || c = '\r'

/-- `_w(s, end).end()` -/
def skipWs (s : Str) : Str := s.dropWhile isWs

/-- value of a hexadecimal digit -/
def hexVal (c : Char) : Option Nat :=
  if 48 ≤ c.toNat ∧ c.toNat ≤ 57 then some (c.toNat - 48)
  else if 97 ≤ c.toNat ∧ c.toNat ≤ 102 then some (c.toNat - 87)
  else if 65 ≤ c.toNat ∧ c.toNat ≤ 70 then some (c.toNat - 55)
  else none

/-- `_decode_uXXXX` -/
def readHex4 : Str → Option (Nat × Str)
  | a :: b :: c :: d :: r =>
    match hexVal a, hexVal b, hexVal c, hexVal d with
    | some x, some y, some z, some t => some (x * 4096 + y * 256 + z * 16 + t, r)
    | _, _, _, _ => none
  | _ => none

/-- BACKSLASH (json/decoder.py) -/
def unEsc : Dict Char Char :=
  [('"', '"'), ('\\', '\\'), ('/', '/'), ('b', Char.ofNat 8), ('f', Char.ofNat 12), ('n', '\n'), ('r', '\r'), ('t', '\t')]

/-- one step inside a string: its end, or a character (`none` for a lone surrogate) -/
inductive StrStep
  | stop (rest : Str)
  | char (c : Option Char) (rest : Str)

/-- an escape with `u`, after the `u` -/
def uStep (r : Str) : Except PyErr StrStep :=
  match readHex4 r with
  | none => .error .value
  | some (n, r) =>
    if 0xd800 ≤ n ∧ n ≤ 0xdbff then
      match r with
      | a :: b :: r' =>
        if a = '\\' ∧ b = 'u' then
          match readHex4 r' with
          | none => .error .value
          | some (m, r'') =>
            if 0xdc00 ≤ m ∧ m ≤ 0xdfff then
              .ok (.char (charOf? (0x10000 + (n - 0xd800) * 1024 + (m - 0xdc00))) r'')
            else .ok (.char none r)
        else .ok (.char none r)
      | _ => .ok (.char none r)
    else .ok (.char (charOf? n) r)

/-- one step of `py_scanstring` with `strict` -/
def strStep : Str → Except PyErr StrStep
  | [] => .error .value
  | c :: r =>
    if c = '"' then .ok (.stop r)
    else if c = '\\' then
      match r with
      | [] => .error .value
      | e :: r =>
        if e = 'u' then uStep r
        else
          match dget unEsc e with
          | some x => .ok (.char (some x) r)
          | none => .error .value
    else if c.toNat < 0x20 then .error .value
    else .ok (.char (some c) r)

/-- `py_scanstring` after the opening quote. The string is `none` when it contains a lone surrogate. -/
def scanStr : Nat → Str → Except PyErr (Option Str × Str)
  | 0, _ => .error .unmodelled
  | n + 1, s =>
    match strStep s with
    | .error e => .error e
    | .ok (.stop r) => .ok (some [], r)
    | .ok (.char c r) =>
      match scanStr n r with
      | .error e => .error e
      | .ok (t, r) => .ok ((match c, t with | some c, some t => some (c :: t) | _, _ => none), r)

/-- a string after the opening quote -/
def readStr (s : Str) : Except PyErr (Str × Str) :=
  match scanStr (s.length + 1) s with
  | .error e => .error e
  | .ok (some t, r) => .ok (t, r)
  | .ok (none, _) => .error .unmodelled

/-- `(\.\d+)?` -/
def fracPart (r : Str) : Str × Str :=
  match r with
  | '.' :: r' => if r'.takeWhile Char.isDigit = [] then ([], r) else ('.' :: r'.takeWhile Char.isDigit, r'.dropWhile Char.isDigit)
  | _ => ([], r)

/-- `[-+]?` -/
def signPart : Str → Str × Str
  | '-' :: r => (['-'], r)
  | '+' :: r => (['+'], r)
  | r => ([], r)

/-- `([eE][-+]?\d+)?` -/
def expPart (r : Str) : Str × Str :=
  match r with
  | [] => ([], r)
  | e :: r' =>
    if (e = 'e' ∨ e = 'E') ∧ (signPart r').2.takeWhile Char.isDigit ≠ [] then
      (e :: (signPart r').1 ++ (signPart r').2.takeWhile Char.isDigit, (signPart r').2.dropWhile Char.isDigit)
    else ([], r)

/-- `(-?(?:0|[1-9]\d*))` without the sign -/
def intPart : Str → Option (Str × Str)
  | [] => none
  | c :: r =>
    if c = '0' then some (['0'], r)
    else if c.isDigit then some (c :: r.takeWhile Char.isDigit, r.dropWhile Char.isDigit)
    else none

/-- `-?` -/
def minusPart : Str → Str × Str
  | '-' :: r => (['-'], r)
  | r => ([], r)

/-- a number (NUMBER_RE in json/scanner.py) -/
def readNum (ft : FloatText) (s : Str) : Except PyErr (Obj × Str) :=
  match intPart (minusPart s).2 with
  | none => .error .value
  | some (ds, r) =>
    let fr := fracPart r
    let ex := expPart fr.2
    if fr.1 = [] ∧ ex.1 = [] then
      .ok (.int (if (minusPart s).1 = [] then Nat.ofDigitChars 10 ds 0 else - (Nat.ofDigitChars 10 ds 0 : Int)), ex.2)
    else .ok (.float (ft.parse ((minusPart s).1 ++ ds ++ fr.1 ++ ex.1)), ex.2)

/-- the constants -/
def constants : List (Str × Obj) :=
  [("null".toList, .nil), ("true".toList, .bool true), ("false".toList, .bool false), ("NaN".toList, .float nanBits),
   ("Infinity".toList, .float infBits), ("-Infinity".toList, .float negInfBits)]

/-- the rest after a literal -/
def after (lit s : Str) : Option Str := if lit.isPrefixOf s then some (s.drop lit.length) else none

/-- the constant `s` starts with -/
def readConst (s : Str) : Option (Obj × Str) :=
  constants.findSome? (fun c => (after c.1 s).map (fun r => (c.2, r)))

mutual
/-- `scan_once` (json/scanner.py) -/
def scan (ft : FloatText) : Nat → Str → Except PyErr (Obj × Str)
  | 0, _ => .error .unmodelled
  | n + 1, s =>
    match s with
    | [] => .error .value
    | c :: r =>
      if c = '"' then
        match readStr r with
        | .error e => .error e
        | .ok (t, r) => .ok (.str t, r)
      else if c = '[' then
        match skipWs r with
        | ']' :: r => .ok (.arr [], r)
        | r =>
          match scanL ft n r with
          | .error e => .error e
          | .ok (l, r) => .ok (.arr l, r)
      else if c = '{' then
        match skipWs r with
        | '}' :: r => .ok (.map [], r)
        | r =>
          match scanM ft n r with
          | .error e => .error e
          | .ok (l, r) => .ok (.map (dupdate [] l), r)
      else
        match readConst s with
        | some p => .ok p
        | none => readNum ft s
/-- the elements of a list (JSONArray) -/
def scanL (ft : FloatText) : Nat → Str → Except PyErr (List Obj × Str)
  | 0, _ => .error .unmodelled
  | n + 1, s =>
    match scan ft n s with
    | .error e => .error e
    | .ok (x, r) =>
      match skipWs r with
      | ']' :: r => .ok ([x], r)
      | ',' :: r =>
        match scanL ft n (skipWs r) with
        | .error e => .error e
        | .ok (xs, r) => .ok (x :: xs, r)
      | _ => .error .value
/-- the entries of a dict (JSONObject) -/
def scanM (ft : FloatText) : Nat → Str → Except PyErr (List (Str × Obj) × Str)
  | 0, _ => .error .unmodelled
  | n + 1, s =>
    match s with
    | '"' :: r =>
      match readStr r with
      | .error e => .error e
      | .ok (k, r) =>
        match skipWs r with
        | ':' :: r =>
          match scan ft n (skipWs r) with
          | .error e => .error e
          | .ok (x, r) =>
            match skipWs r with
            | '}' :: r => .ok ([(k, x)], r)
            | ',' :: r =>
              match scanM ft n (skipWs r) with
              | .error e => .error e
              | .ok (xs, r) => .ok ((k, x) :: xs, r)
            | _ => .error .value
        | _ => .error .value
    | _ => .error .value
end

/-- `json.loads(s)`: every syntax error is a JSONDecodeError, which is a ValueError -/
def loads (ft : FloatText) (s : Str) : Except PyErr Obj :=
  match scan ft (2 * s.length + 2) (skipWs s) with
  | .error e => .error e
  | .ok (o, r) => if skipWs r = [] then .ok o else .error .value

end Verif
