import Verif.Model.JavaDoc
import Verif.Model.JavaLayer
import Verif.Model.JavaValue
import Verif.Py.Dict
/-
`equals` and `hashCode` of the Java library: java/core/src/main/java/se/lth/cs/docria/ Node.java, Layer.java, Span.java,
Offset.java, Text.java, DataType.java and values/*.java, and hash maps whose keys are such objects.

An object is the class, what its fields hold, and (for objects that can be alike) a number of its own: two references are to
the same object exactly if they are equal terms. The objects that fields refer to are found in a `JHeap`. Documents and
layers of a schema are objects without `equals` of their own, given by a number. Java ints are unbounded in fields; hash
codes are 32 bits wide. Null fields other than `layer` of a node, and arguments of types that are not plain values, are
not modelled.
-/
namespace Verif

/-- the value of a BoolValue, IntValue, LongValue, DoubleValue, StringValue or BinaryValue (values/*.java) -/
inductive JScal
  | bool (b : Bool)
  | int (i : Int)
  | long (i : Int)
  | double (f : UInt64)
  | str (s : Str)
  | bin (b : Bytes)
  deriving DecidableEq

/-- an object; `k` is its own number -/
inductive JRef
  | null
  | scal (k : Nat) (v : JScal)
  | ext (k : Nat) (type : Str) (b : Bytes)
  | nodes (k : Nat) (ns : List Nat)
  | nodespan (k : Nat) (l r : Nat)
  | node (n : Nat)
  | layer (l : Nat)
  | text (t : Nat)
  | offset (t : Nat) (o : Nat)
  | span (k : Nat) (t : Nat) (s : JSpan)
  | type (k : Nat) (name : JTName) (args : Dict Str JScal)
  deriving DecidableEq

/-- what the fields of nodes (Node.java:27-29), layers (Layer.java:26-27) and texts (Text.java:27-31) hold, and the class of
each node -/
structure JHeap where
  cls : Nat → Nat
  ids : Nat → Int
  lay : Nat → Option Nat
  parent : Nat → Nat
  schema : Nat → Nat
  name : Nat → Str
  text : Nat → JText

/-- `Double.doubleToLongBits(f)`: all NaNs are one -/
def dBits (f : UInt64) : UInt64 := if dExp f = 2047 ∧ dFrac f ≠ 0 then 0x7FF8000000000000 else f

/-- `equals` of plain values (BoolValue.java:65-72, IntValue.java:67-74, LongValue.java:67-74, DoubleValue.java:69-76,
StringValue.java:47-54, BinaryValue.java:52-59). `Double.compare` is 0 exactly for the same bits, with all NaNs alike. -/
def JScal.equals : JScal → JScal → Bool
  | .bool a, .bool b => a == b
  | .int a, .int b => decide (a = b)
  | .long a, .long b => decide (a = b)
  | .double a, .double b => decide (dBits a = dBits b)
  | .str a, .str b => decide (a = b)
  | .bin a, .bin b => decide (a = b)
  | _, _ => false

namespace JHeap

/-- `equals` of layers (Layer.java:56-64); documents and layers of a schema have no `equals` of their own -/
def layerEquals (w : JHeap) (l m : Nat) : Bool := decide (l = m) || (decide (w.parent l = w.parent m) && decide (w.schema l = w.schema m))

/-- `equals` of texts (Text.java:175-183) -/
def textEquals (w : JHeap) (t u : Nat) : Bool := decide (t = u) || (decide (w.name t = w.name u) && decide ((w.text t).text = (w.text u).text))

/-- `equals` of Offsets (Offset.java:33-41) -/
def offEquals (w : JHeap) (t o u p : Nat) : Bool :=
  decide (t = u ∧ o = p) ||
    (decide (((w.text t).off o).id = ((w.text u).off p).id) && decide (((w.text t).off o).offset = ((w.text u).off p).offset))

/-- whether a map has an argument with this name and value -/
def hasArg (b : Dict Str JScal) (e : Str × JScal) : Bool :=
  match dget b e.1 with
  | some v => e.2.equals v
  | none => false

/-- `equals` of the maps of arguments (`AbstractMap.equals`) -/
def argsEquals (a b : Dict Str JScal) : Bool := decide (a.length = b.length) && a.all (hasArg b)

/-- `a.equals(b)`: for nodes Node.java:168-175, NullPointerException (`.attribute`) if `layer` is null; for spans
Span.java:112-121; for types DataType.java:100-108; that of `Object` for ExtensionValue, NodeArrayValue, NodeSpan and
NullValue -/
def equals (w : JHeap) (a b : JRef) : Except PyErr Bool :=
  if a = b then .ok true
  else
    match a, b with
    | .scal _ u, .scal _ v => .ok (u.equals v)
    | .node n, .node m =>
      if w.cls n ≠ w.cls m then .ok false
      else if w.ids n ≠ w.ids m then .ok false
      else
        match w.lay n, w.lay m with
        | none, _ => .error .attribute
        | some _, none => .ok false
        | some l, some l' => .ok (w.layerEquals l l')
    | .layer l, .layer m => .ok (w.layerEquals l m)
    | .text t, .text u => .ok (w.textEquals t u)
    | .offset t o, .offset u p => .ok (w.offEquals t o u p)
    | .span _ t s, .span _ u r => .ok (w.textEquals t u && (w.offEquals t s.1 u r.1 && w.offEquals t s.2 u r.2))
    | .type _ x a, .type _ y b => .ok (decide (x = y) && argsEquals a b)
    | _, _ => .ok false

end JHeap

/-! ### hash codes -/

/-- hash codes of objects without `hashCode` of their own: any numbers -/
structure JHashes where
  obj : JRef → Int
  doc : Nat → Int
  schema : Nat → Int
  typeName : JTName → Int

/-- `31 * a + b` -/
def mix (a b : Int) : Int := wrap32 (31 * a + b)

/-- `String.hashCode()` -/
def strHash (s : JStr) : Int := s.foldl (fun (h : Int) (u : Nat) => mix h u) 0

/-- `Long.hashCode(i)`: `(int)(i ^ (i >>> 32))` -/
def longHash (i : Int) : Int :=
  let u := (i % 0x10000000000000000).toNat
  wrap32 (Nat.xor u (u / 0x100000000) : Nat)

/-- a byte as a number -/
def jByte (b : UInt8) : Int := if b.toNat < 128 then b.toNat else (b.toNat : Int) - 256

/-- `hashCode` of plain values (BoolValue.java:75-77, IntValue.java:77-79, LongValue.java:77-79, DoubleValue.java:79-81,
StringValue.java:57-59, BinaryValue.java:62-64); `Objects.hash(x)` is `31 + x.hashCode()` -/
def JScal.hash : JScal → Int
  | .bool b => mix 1 (if b then 1231 else 1237)
  | .int i => mix 1 i
  | .long i => mix 1 (longHash i)
  | .double f => mix 1 (longHash (dBits f).toNat)
  | .str s => mix 1 (strHash (utf16 s))
  | .bin b => b.foldl (fun (h : Int) (x : UInt8) => mix h (jByte x)) 1

/-- `a ^ b` of two ints -/
def xor32 (a b : Int) : Int := wrap32 (Nat.xor (a % 0x100000000).toNat (b % 0x100000000).toNat : Nat)

/-- `hashCode` of the map of arguments (`AbstractMap.hashCode`) -/
def argsHash (a : Dict Str JScal) : Int := wrap32 (a.map fun e => xor32 (strHash (utf16 e.1)) e.2.hash).sum

namespace JHeap

/-- `hashCode` of layers (Layer.java:67-71) -/
def layerHash (w : JHeap) (g : JHashes) (l : Nat) : Int := mix (g.doc (w.parent l)) (g.schema (w.schema l))

/-- `hashCode` of texts (Text.java:186-190) -/
def textHash (w : JHeap) (t : Nat) : Int := mix (strHash (utf16 (w.name t))) (strHash (w.text t).text)

/-- `hashCode` of Offsets (Offset.java:44-48) -/
def offHash (w : JHeap) (t o : Nat) : Int := mix ((w.text t).off o).id ((w.text t).off o).offset

/-- `a.hashCode()`: for nodes Node.java:178-182, NullPointerException (`.attribute`) if `layer` is null; for spans
Span.java:124-129; for types DataType.java:111-115 -/
def hash (w : JHeap) (g : JHashes) : JRef → Except PyErr Int
  | .scal _ v => .ok v.hash
  | .node n =>
    match w.lay n with
    | none => .error .attribute
    | some l => .ok (mix (w.ids n) (w.layerHash g l))
  | .layer l => .ok (w.layerHash g l)
  | .text t => .ok (w.textHash t)
  | .offset t o => .ok (w.offHash t o)
  | .span _ t s => .ok (mix (mix (w.textHash t) (w.offHash t s.1)) (w.offHash t s.2))
  | .type _ x a => .ok (mix (g.typeName x) (argsHash a))
  | a => .ok (g.obj a)

end JHeap

/-! ### hash maps -/

/-- a `java.util.HashMap`: the entries with the hash code that the key had when it was put. (Buckets depend on the hash code
alone, so an entry is looked for among those with the same hash code.) -/
abbrev JHashMap (V : Type) := List (Int × JRef × V)

namespace JHashMap

variable {V : Type}

/-- whether an entry is the one for a key: `e.hash == hash && (e.key == key || key.equals(e.key))` -/
def hit (w : JHeap) (h : Int) (k : JRef) (e : Int × JRef × V) : Except PyErr Bool :=
  if e.1 = h then w.equals k e.2.1 else .ok false

/-- `get(key)` after the hash code is taken -/
def lookup (w : JHeap) (h : Int) (k : JRef) : JHashMap V → Except PyErr (Option V)
  | [] => .ok none
  | e :: m =>
    match hit w h k e with
    | .error x => .error x
    | .ok true => .ok (some e.2.2)
    | .ok false => lookup w h k m

/-- `get(key)` -/
def get (m : JHashMap V) (w : JHeap) (g : JHashes) (k : JRef) : Except PyErr (Option V) :=
  match w.hash g k with
  | .error x => .error x
  | .ok h => lookup w h k m

/-- `put(key, value)` after the hash code is taken: the key of an entry that is there stays -/
def store (w : JHeap) (h : Int) (k : JRef) (v : V) : JHashMap V → Except PyErr (JHashMap V)
  | [] => .ok [(h, k, v)]
  | e :: m =>
    match hit w h k e with
    | .error x => .error x
    | .ok true => .ok ((e.1, e.2.1, v) :: m)
    | .ok false =>
      match store w h k v m with
      | .error x => .error x
      | .ok m => .ok (e :: m)

/-- `put(key, value)` -/
def put (m : JHashMap V) (w : JHeap) (g : JHashes) (k : JRef) (v : V) : Except PyErr (JHashMap V) :=
  match w.hash g k with
  | .error x => .error x
  | .ok h => store w h k v m

/-- some puts in order -/
def puts (m : JHashMap V) (w : JHeap) (g : JHashes) : List (JRef × V) → Except PyErr (JHashMap V)
  | [] => .ok m
  | (k, v) :: r =>
    match m.put w g k v with
    | .error x => .error x
    | .ok m => puts m w g r

end JHashMap

end Verif
