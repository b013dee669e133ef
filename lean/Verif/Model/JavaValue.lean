import Verif.Py.Num
import Verif.Model.JavaNode
/-
Reading values of the Java library: java/core/src/main/java/se/lth/cs/docria/Value.java, values/, Span.java, Node.java and
NodeSpan.java, with what they use of Java: parseInt, parseLong, parseBoolean, String.valueOf, Base64, and the conversions
between int, long and double.

A double is its 64 bits. `Double.parseDouble`, and digits outside ASCII in `parseInt`, are `unmodelled`.
-/
namespace Verif

/-- the units of an ASCII string -/
def lit (s : String) : JStr := s.toList.map Char.toNat

/-- `String.valueOf(i)` of an int or long -/
def jPrint (i : Int) : JStr := (intStr i).map Char.toNat

/-- the digits of `Integer.parseInt` and `Long.parseLong` behind the sign: `Character.digit(c, 10)` -/
def jDigits (acc : Nat) : JStr → Except PyErr Nat
  | [] => .ok acc
  | c :: cs => if 48 ≤ c ∧ c ≤ 57 then jDigits (acc * 10 + (c - 48)) cs else if c < 128 then .error .value else .error .unmodelled

/-- a number in range, or NumberFormatException -/
def numberIn (lo hi i : Int) : Except PyErr Int := if lo ≤ i ∧ i ≤ hi then .ok i else .error .value

/-- at least one digit, with a sign -/
def jSigned (lo hi sign : Int) (s : JStr) : Except PyErr Int :=
  match s with
  | [] => .error .value
  | c :: cs =>
    match jDigits 0 (c :: cs) with
    | .error e => .error e
    | .ok n => numberIn lo hi (sign * n)

/-- `Integer.parseInt(s)` and `Long.parseLong(s)` of a string; NumberFormatException is `value` -/
def jParse (lo hi : Int) (s : JStr) : Except PyErr Int :=
  match s with
  | [] => .error .value
  | c :: cs => if c = 45 then jSigned lo hi (-1) cs else if c = 43 then jSigned lo hi 1 cs else jSigned lo hi 1 (c :: cs)

/-- the least and the greatest int and long -/
def intMin : Int := -0x80000000
def intMax : Int := 0x7fffffff
def longMin : Int := -0x8000000000000000
def longMax : Int := 0x7fffffffffffffff

/-- lower case of ASCII letters -/
def jLower (c : Nat) : Nat := if 65 ≤ c ∧ c ≤ 90 then c + 32 else c

/-- `Boolean.parseBoolean(s)`: `"true".equalsIgnoreCase(s)`; no character outside ASCII is equal to a letter of it -/
def jParseBool (s : JStr) : Bool := decide (s.map jLower = lit "true")

/-- `String.valueOf(b)` -/
def jPrintBool (b : Bool) : JStr := if b then lit "true" else lit "false"

/-- `(int)value` of a long: the low 32 bits as a signed number -/
def wrap32 (i : Int) : Int := (i + 0x80000000) % 0x100000000 - 0x80000000

/-- exponent and fraction of a double without its sign -/
def dExp (f : UInt64) : Nat := f.toNat % 2 ^ 63 / 2 ^ 52
def dFrac (f : UInt64) : Nat := f.toNat % 2 ^ 52

/-- the bit of the sign -/
def dNeg (f : UInt64) : Bool := decide (2 ^ 63 ≤ f.toNat)

/-- the part of a double before the point, without its sign; for infinities and NaNs some large number -/
def dTrunc (f : UInt64) : Nat :=
  if dExp f < 1075 then (2 ^ 52 + dFrac f) / 2 ^ (1075 - dExp f) else (2 ^ 52 + dFrac f) * 2 ^ (dExp f - 1075)

/-- `(int)value` and `(long)value` of a double: NaN is zero, the part before the point, the nearest int or long -/
def dToInt (lo hi : Int) (f : UInt64) : Int :=
  if dExp f = 2047 ∧ dFrac f ≠ 0 then 0
  else
    let i : Int := if dNeg f then -(dTrunc f : Int) else dTrunc f
    if i < lo then lo else if hi < i then hi else i

/-- exponent and fraction of the double nearest to a number, of two the one with an even fraction -/
def natToDouble (n : Nat) : Nat :=
  if n = 0 then 0
  else if n.log2 ≤ 52 then (n.log2 + 1022) * 2 ^ 52 + n * 2 ^ (52 - n.log2)
  else
    let s := n.log2 - 52
    let q := n / 2 ^ s
    let r := n % 2 ^ s
    (n.log2 + 1022) * 2 ^ 52 + (if 2 ^ s < 2 * r ∨ 2 * r = 2 ^ s ∧ q % 2 = 1 then q + 1 else q)

/-- an int or long as a double -/
def intToDouble (i : Int) : UInt64 := .ofNat (natToDouble i.natAbs + if i < 0 then 2 ^ 63 else 0)

/-- `1e-12` (DoubleValue.java:27) -/
def dEps : Nat := 0x3D719799812DEA11

/-- `Math.abs(value) - EPS <= 0.0` (DoubleValue.java:43-46): the difference of two doubles is zero or has the sign of the exact
difference, so it is a comparison, which for doubles without sign is that of the bits; NaNs are above -/
def dSmall (f : UInt64) : Bool := decide (f.toNat % 2 ^ 63 ≤ dEps)

/-- a character of the alphabet of Base64 -/
def b64Char (n : Nat) : Nat := if n < 26 then 65 + n else if n < 52 then 71 + n else if n < 62 then n - 4 else if n = 62 then 43 else 47

/-- `Base64.getEncoder().encodeToString(bs)` -/
def base64 : Bytes → JStr
  | [] => []
  | [a] => [b64Char (a.toNat / 4), b64Char (a.toNat % 4 * 16), 61, 61]
  | [a, b] => [b64Char (a.toNat / 4), b64Char (a.toNat % 4 * 16 + b.toNat / 16), b64Char (b.toNat % 16 * 4), 61]
  | a :: b :: c :: bs =>
    b64Char (a.toNat / 4) :: b64Char (a.toNat % 4 * 16 + b.toNat / 16) :: b64Char (b.toNat % 16 * 4 + c.toNat / 64) :: b64Char (c.toNat % 64) :: base64 bs

namespace JDoc

/-- `layer.name() + "#" + id` (Node.java:149-151); NullPointerException without a layer -/
def nodeString (d : JDoc) (n : Nat) : Except PyErr JStr :=
  match d.layerName n with
  | none => .error .attribute
  | some k => .ok (utf16 k ++ lit "#" ++ jPrint (d.ids n))

/-- `isValid() ? name + "#" + id : "INVALID"` (NodeSpan.java:57-58) -/
def nodeLabel (d : JDoc) (n : Nat) : JStr :=
  match d.layerName n with
  | none => lit "INVALID"
  | some k => utf16 k ++ lit "#" ++ jPrint (d.ids n)

/-- the ids behind the first one (NodeArrayValue.java:62-64) -/
def idsString (d : JDoc) (ns : List Nat) : JStr := ns.flatMap (fun n => lit "," ++ jPrint (d.ids n))

/-- `get(field)` (Node.java:271-273) -/
def get (d : JDoc) (n : Nat) (f : Str) : JVal := (dget (d.data n) f).getD .null

/-- `has(field)` (Node.java:263-265) -/
def has (d : JDoc) (n : Nat) (f : Str) : Bool := (dget (d.data n) f).isSome

/-- `spanValue()` (Value.java:54-56, NullValue.java:73-76, Span.java:68-71): the text and the span -/
def spanValue : JVal → Except PyErr (Str × JSpan)
  | .span c p => .ok (c, p)
  | .null => .error .attribute
  | _ => .error .notImplemented

/-- the type of "text" in the schema of the layer of a node (NodeSpan.java:48); NullPointerException if there is none -/
def textType (d : JDoc) (n : Nat) : Except PyErr JTName :=
  match (d.layerName n).bind (dget d.layers) with
  | none => .error .attribute
  | some L =>
    match dget L.fields "text".toList with
    | none => .error .attribute
    | some t => .ok t.name

/-- `startSpan.source().subSequence(start, stop)` (NodeSpan.java:49-54) -/
def coverString (d : JDoc) (a b : Str × JSpan) : Except PyErr JStr :=
  match dget d.texts a.1, dget d.texts b.1 with
  | some u, some w => substring u.text (u.start a.2) (w.stop b.2)
  | _, _ => .error .unmodelled

/-- `String.format("NodeSpan(left=%s, right=%s)", ...)` (NodeSpan.java:56-58) -/
def spanLabel (d : JDoc) (l r : Nat) : JStr := lit "NodeSpan(left=" ++ d.nodeLabel l ++ lit ", right=" ++ d.nodeLabel r ++ lit ")"

/-- `stringValue()` of a NodeSpan (NodeSpan.java:46-60) -/
def nodeSpanString (d : JDoc) (l r : Nat) : Except PyErr JStr :=
  if d.has l "text".toList && d.has r "text".toList then
    match d.textType l with
    | .error e => .error e
    | .ok t =>
      if t = .span then
        match spanValue (d.get l "text".toList) with
        | .error e => .error e
        | .ok a =>
          match spanValue (d.get r "text".toList) with
          | .error e => .error e
          | .ok b => d.coverString a b
      else .ok (d.spanLabel l r)
  else .ok (d.spanLabel l r)

/-- `stringValue()`; none is null (BoolValue.java:39-42, IntValue.java:36-39, LongValue.java:36-39, DoubleValue.java:38-41,
StringValue.java:36-39, BinaryValue.java:37-40, ExtensionValue.java:22-25, NullValue.java:33-36, Span.java:63-66, 147-150,
Node.java:148-151, NodeArrayValue.java:54-71, NodeSpan.java:46-60) -/
def stringValue (d : JDoc) : JVal → Except PyErr (Option JStr)
  | .null => .ok (some [])
  | .bool b => .ok (some (jPrintBool b))
  | .int i => .ok (some (jPrint i))
  | .long i => .ok (some (jPrint i))
  | .double _ => .ok none
  | .str s => .ok (some (utf16 s))
  | .bin b => .ok (some (base64 b))
  | .ext t b => .ok (some (utf16 t ++ lit ":" ++ base64 b))
  | .span c p =>
    match dget d.texts c with
    | none => .error .unmodelled
    | some u => (u.str p).map some
  | .node n => (d.nodeString n).map some
  | .nodes [] => .ok (some (lit "[]"))
  | .nodes (n :: ns) =>
    match d.layerName n with
    | none => .error .attribute
    | some k => .ok (some (utf16 k ++ lit "[" ++ jPrint (d.ids n) ++ d.idsString ns ++ lit "]"))
  | .nodespan l r => (d.nodeSpanString l r).map some
  | .idArray _ => .error .unmodelled
  | .idSpan _ _ => .error .unmodelled

/-- the default of `intValue()` and `longValue()` (Value.java:30-36): null is a NumberFormatException -/
def parsed (d : JDoc) (lo hi : Int) (v : JVal) : Except PyErr Int :=
  match d.stringValue v with
  | .error e => .error e
  | .ok none => .error .value
  | .ok (some s) => jParse lo hi s

/-- `intValue()` (Value.java:30-32, BoolValue.java:44-47, IntValue.java:46-49, LongValue.java:46-49, DoubleValue.java:48-51,
NullValue.java:43-46) -/
def intValue (d : JDoc) : JVal → Except PyErr Int
  | .null => .ok 0
  | .bool b => .ok (if b then 1 else 0)
  | .int i => .ok i
  | .long i => .ok (wrap32 i)
  | .double f => .ok (dToInt intMin intMax f)
  | v => d.parsed intMin intMax v

/-- `longValue()` (Value.java:34-36, BoolValue.java:49-52, IntValue.java:51-54, LongValue.java:51-54, DoubleValue.java:53-56,
NullValue.java:48-51) -/
def longValue (d : JDoc) : JVal → Except PyErr Int
  | .null => .ok 0
  | .bool b => .ok (if b then 1 else 0)
  | .int i => .ok i
  | .long i => .ok i
  | .double f => .ok (dToInt longMin longMax f)
  | v => d.parsed longMin longMax v

/-- `doubleValue()` (Value.java:38-40, BoolValue.java:54-57, IntValue.java:56-59, LongValue.java:56-59, DoubleValue.java:58-61,
NullValue.java:53-56); the default reads the string with `Double.parseDouble` -/
def doubleValue (d : JDoc) : JVal → Except PyErr UInt64
  | .null => .ok 0
  | .bool b => .ok (if b then 0x3FF0000000000000 else 0)
  | .int i => .ok (intToDouble i)
  | .long i => .ok (intToDouble i)
  | .double f => .ok f
  | v =>
    match d.stringValue v with
    | .error e => .error e
    | .ok _ => .error .unmodelled

/-- `boolValue()` (Value.java:26-28, IntValue.java:41-44, LongValue.java:41-44, DoubleValue.java:43-46, NullValue.java:38-41) -/
def boolValue (d : JDoc) : JVal → Except PyErr Bool
  | .null => .ok false
  | .int i => .ok (decide (i ≠ 0))
  | .long i => .ok (decide (i ≠ 0))
  | .double f => .ok (dSmall f)
  | v =>
    match d.stringValue v with
    | .error e => .error e
    | .ok none => .ok false
    | .ok (some s) => .ok (jParseBool s)

/-- `binaryValue()` (Value.java:42-44, BinaryValue.java:42-44, ExtensionValue.java:18-20, NullValue.java:58-61) -/
def binaryValue : JVal → Except PyErr Bytes
  | .bin b => .ok b
  | .ext _ b => .ok b
  | .null => .ok []
  | _ => .error .notImplemented

/-- `nodeValue()` (Value.java:46-48, Node.java:153-156, NodeArrayValue.java:73-79, NullValue.java:63-66) -/
def nodeValue : JVal → Except PyErr Nat
  | .node n => .ok n
  | .nodes [n] => .ok n
  | .null => .error .attribute
  | _ => .error .notImplemented

/-- `left.layer.nodespan(left, right)` (NodeSpan.java:41-44, Layer.java:213-237) -/
def nodespanOf (d : JDoc) (l r : Nat) : Except PyErr (List Nat) :=
  match (d.layerName l).bind (dget d.layers) with
  | none => .error .attribute
  | some L =>
    if r ∉ L.nodes then .error .data
    else if d.ids l > d.ids r then .error .data
    else if d.ids l < 0 ∨ (L.storage.length : Int) ≤ d.ids r then .error .index
    else .ok (((L.storage.take ((d.ids r).toNat + 1)).drop (d.ids l).toNat).filterMap id)

/-- `nodeArrayValue()` (Value.java:50-52, NodeArrayValue.java:81-84, NullValue.java:68-71, NodeSpan.java:41-44) -/
def nodeArrayValue (d : JDoc) : JVal → Except PyErr (List Nat)
  | .nodes ns => .ok ns
  | .nodespan l r => d.nodespanOf l r
  | .null => .ok []
  | _ => .error .notImplemented

/-- `nodeSpanValue()` (Value.java:58, NullValue.java:78-81, NodeSpan.java:62-65) -/
def nodeSpanValue : JVal → Except PyErr (Nat × Nat)
  | .nodespan l r => .ok (l, r)
  | .null => .error .attribute
  | _ => .error .notImplemented

end JDoc

/-- an object given to `Values.get(Object)` -/
inductive JObj
  | null
  | value (v : JVal)
  | int (i : Int)
  | long (i : Int)
  | double (f : UInt64)
  | number
  | string (s : Str)
  | bytes (b : Bytes)
  | bool (b : Bool)
  | array (ns : List Nat)
  | list (ns : List Nat)
  | other

/-- `Values.get(Object)` (Values.java:74-109), and by it the other `get`s (Values.java:26-72); a Float is `unmodelled` and not here,
`number` is another Number -/
def JDoc.valueOf (d : JDoc) : JObj → Except PyErr JVal
  | .null => .ok .null
  | .value v => .ok v
  | .int i => .ok (.int i)
  | .long i => .ok (.long i)
  | .double f => .ok (.double f)
  | .number => .error .notImplemented
  | .string s => .ok (.str s)
  | .bytes b => .ok (.bin b)
  | .bool b => .ok (.bool b)
  | .array ns => d.arrayOf ns
  | .list ns => d.argValue (.list ns)
  | .other => .error .notImplemented

end Verif
