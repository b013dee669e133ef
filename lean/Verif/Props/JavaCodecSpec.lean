import Verif.Props.CodecSpec
import Verif.Model.JavaCodec
import Verif.Props.JavaText
/-
Vocabulary for C87-C89: the content of a document, and when a Python document, or a Java document, has it. Places in texts
are counted in characters (code points), nodes by their position in their layer.
-/
namespace Verif
open World
namespace Spec

/-- what a field can hold -/
inductive Cell
  | bool (b : Bool)
  | int (i : Int)
  | float (x : UInt64)
  | str (s : Str)
  | bin (b : Bytes)
  | ext (b : Bytes)
  | span (a b : Nat)
  | node (i : Nat)
  | nodes (is : List Nat)
  | nodespan (i j : Nat)
  deriving DecidableEq

/-- a type: its name in the format, and its arguments -/
abbrev FieldType := Str × (Str → Option Obj)

/-- the content of a layer: its fields, and for each node what its fields hold -/
structure LayerC where
  fields : Str → Option FieldType
  rows : List (Str → Option Cell)

/-- the content of a document; the order of properties, texts, layers and fields is not a part of it -/
structure Content where
  props : Str → Option Obj
  texts : Str → Option Str
  layers : Str → Option LayerC

/-- both are there and related, or both are not -/
inductive Both {α β : Type} (R : α → β → Prop) : Option α → Option β → Prop
  | none : Both R none none
  | some {a b} : R a b → Both R (some a) (some b)

/-! ### valid contents -/

/-- the number of nodes of a layer -/
def Content.size (c : Content) (k : Str) : Nat :=
  match c.layers k with
  | some l => l.rows.length
  | none => 0

/-- a type that refers to nodes -/
def IsRef (name : Str) : Prop := name = "noderef".toList ∨ name = "noderef_array".toList ∨ name = "nodespan".toList

/-- a type that both libraries know, whose target is in the document -/
structure TypeGood (c : Content) (t : FieldType) : Prop where
  name : t.1 ∈ ["i32".toList, "i64".toList, "f64".toList, "i1".toList, "str".toList, "bin".toList] ∨ t.1 = "span".toList ∨ IsRef t.1 ∨ t.1 = "ext".toList
  text : t.1 = "span".toList → ∃ s u, t.2 "context".toList = some (.str s) ∧ c.texts s = some u
  layer : IsRef t.1 → ∃ s l, t.2 "layer".toList = some (.str s) ∧ c.layers s = some l
  ext : t.1 = "ext".toList → ∃ s, t.2 "type".toList = some (.str s)
  args : t.2 "self".toList = none ∧ t.2 "typename".toList = none

/-- a cell of the right kind; spans are inside the text, and nodes are in the layer that the type names -/
inductive CellGood (c : Content) (t : FieldType) : Cell → Prop
  | bool {b} : t.1 = "i1".toList → CellGood c t (.bool b)
  | int {i} : t.1 = "i32".toList ∨ t.1 = "i64".toList → CellGood c t (.int i)
  | float {x} : t.1 = "f64".toList → CellGood c t (.float x)
  | str {s} : t.1 = "str".toList → CellGood c t (.str s)
  | bin {b} : t.1 = "bin".toList → CellGood c t (.bin b)
  | ext {b} : t.1 = "ext".toList → CellGood c t (.ext b)
  | span {a b s u} : t.1 = "span".toList → t.2 "context".toList = some (.str s) → c.texts s = some u → a ≤ b → b ≤ u.length →
      CellGood c t (.span a b)
  | node {i s} : t.1 = "noderef".toList → t.2 "layer".toList = some (.str s) → i < c.size s → CellGood c t (.node i)
  | nodes {is s} : t.1 = "noderef_array".toList → t.2 "layer".toList = some (.str s) → is ≠ [] → (∀ i ∈ is, i < c.size s) →
      CellGood c t (.nodes is)
  | nodespan {i j s} : t.1 = "nodespan".toList → t.2 "layer".toList = some (.str s) → i ≤ j → j < c.size s →
      CellGood c t (.nodespan i j)

/-- a valid content: declared fields only, of the right kind -/
structure Good (c : Content) : Prop where
  types : ∀ k l f t, c.layers k = some l → l.fields f = some t → TypeGood c t
  cells : ∀ k l row f x, c.layers k = some l → row ∈ l.rows → row f = some x → ∃ t, l.fields f = some t ∧ CellGood c t x

/-! ### Python documents -/

/-- a value of a type option or property -/
def PyPlain (v : Value) (o : Obj) : Prop := v.toObj = .ok o

/-- the type of a field -/
def PyType (t : DataType) (ft : FieldType) : Prop := t.tname.wire = .ok ft.1 ∧ ∀ a, Both PyPlain (dget t.options a) (ft.2 a)

/-- the layer a type refers to -/
def PyTarget (t : DataType) (s : Str) : Prop := dget t.options "layer".toList = some (.str s)

/-- What a field holds. Unset, None and an empty list of nodes are the same; a bool in an integer field is an integer. -/
inductive PyCell (w : World) (t : DataType) : Option Value → Option Cell → Prop
  | unset : PyCell w t none none
  | null : PyCell w t (some .none) none
  | empty : PyCell w t (some (.nodes [])) none
  | int {i} : PyCell w t (some (.int i)) (some (.int i))
  | intBool {b : Bool} : t.tname = .i32 ∨ t.tname = .i64 → PyCell w t (some (.bool b)) (some (.int (if b then 1 else 0)))
  | float {x} : PyCell w t (some (.float x)) (some (.float x))
  | bool {b} : t.tname = .bool → PyCell w t (some (.bool b)) (some (.bool b))
  | str {s} : PyCell w t (some (.str s)) (some (.str s))
  | bytes {s} : PyCell w t (some (.bytes s)) (some (.bin s))
  | node {n s i} : PyTarget t s → At w s i n → PyCell w t (some (.node n)) (some (.node i))
  | nodes {ns is s} : PyTarget t s → ns ≠ [] → ns.length = is.length →
      (∀ (j : Nat) (n i : Nat), ns[j]? = some n → is[j]? = some i → At w s i n) →
      PyCell w t (some (.nodes ns)) (some (.nodes is))
  | nodespan {l r i j s} : PyTarget t s → At w s i l → At w s j r → PyCell w t (some (.nodespan l r)) (some (.nodespan i j))
  | span {T c} {a b : Nat} : dget t.options "context".toList = some (.str c) → dget w.dt c = some T →
      PyCell w t (some (.span T a b)) (some (.span a b))

/-- one field of a node: fields that are not declared hold nothing -/
inductive PyField (w : World) : Option DataType → Option Value → Option Cell → Prop
  | undeclared : PyField w none none none
  | declared {t v x} : PyCell w t v x → PyField w (some t) v x

/-- a layer -/
structure PyLayer (w : World) (L : LayerId) (l : LayerC) : Prop where
  fields : ∀ f, Both PyType (dget (w.layers L).fields f) (l.fields f)
  size : (w.iter L).length = l.rows.length
  cells : ∀ (i : Nat) n row f, (w.iter L)[i]? = some (some n) → l.rows[i]? = some row →
    PyField w (dget (w.layers L).fields f) (dget (w.nodes n).fields f) (row f)

/-- a Python document has this content -/
structure PyHas (w : World) (c : Content) : Prop where
  props : ∀ k, Both PyPlain (dget w.props k) (c.props k)
  texts : ∀ k, Both (fun T s => (w.texts T).text = s) (dget w.dt k) (c.texts k)
  layers : ∀ k, Both (PyLayer w) (dget w.dl k) (c.layers k)

/-! ### Java documents -/

/-- a value of a type argument -/
inductive JPlain : JVal → Obj → Prop
  | bool {b} : JPlain (.bool b) (.bool b)
  | int {i} : JPlain (.int i) (.int i)
  | long {i} : JPlain (.long i) (.int i)
  | double {x} : JPlain (.double x) (.float x)
  | str {s} : JPlain (.str s) (.str s)
  | bin {b} : JPlain (.bin b) (.bin b)

/-- a value of a property -/
inductive JProp : JVal → Obj → Prop
  | plain {v o} : JPlain v o → JProp v o
  | null : JProp .null .nil

/-- the type of a field -/
def JTypeHas (t : JType) (ft : FieldType) : Prop := t.name.getName = ft.1 ∧ ∀ a, Both JPlain (dget t.args a) (ft.2 a)

/-- node `n` is the `i`-th of the layer named `k` -/
def JAt (d : JDoc) (k : Str) (i n : Nat) : Prop := ∃ L, dget d.layers k = some L ∧ L.nodes[i]? = some n

/-- the layer a type refers to -/
def JTarget (t : JType) (s : Str) : Prop := dget t.args "layer".toList = some (.str s)

/-- the position `p` of a Java string is before character number `a` of the text -/
def UnitAt (s : Str) (p : Int) (a : Nat) : Prop := a ≤ s.length ∧ p = ((utf16 (s.take a)).length : Nat)

/-- What a field holds; a NullValue is the same as nothing, but has no place in a span field (Document.java:346). A node
array has at least one node (NodeArrayValue.java:31-33). -/
inductive JCell (d : JDoc) (t : JType) : Option JVal → Option Cell → Prop
  | unset : JCell d t none none
  | null : t.name ≠ .span → JCell d t (some .null) none
  | bool {b} : JCell d t (some (.bool b)) (some (.bool b))
  | int {i} : JCell d t (some (.int i)) (some (.int i))
  | long {i} : JCell d t (some (.long i)) (some (.int i))
  | double {x} : JCell d t (some (.double x)) (some (.float x))
  | str {s} : JCell d t (some (.str s)) (some (.str s))
  | bin {b} : JCell d t (some (.bin b)) (some (.bin b))
  | ext {y b} : dget t.args "type".toList = some (.str y) → JCell d t (some (.ext y b)) (some (.ext b))
  | span {c u s p} {a b : Nat} : dget t.args "context".toList = some (.str c) → dget d.texts c = some u → u.text = utf16 s →
      UnitAt s (u.start p) a → UnitAt s (u.stop p) b → JCell d t (some (.span c p)) (some (.span a b))
  | node {n s i} : JTarget t s → JAt d s i n → JCell d t (some (.node n)) (some (.node i))
  | nodes {ns is s} : JTarget t s → ns ≠ [] → ns.length = is.length →
      (∀ (j : Nat) (n i : Nat), ns[j]? = some n → is[j]? = some i → JAt d s i n) →
      JCell d t (some (.nodes ns)) (some (.nodes is))
  | nodespan {l r i j s} : JTarget t s → JAt d s i l → JAt d s j r → JCell d t (some (.nodespan l r)) (some (.nodespan i j))

/-- one field of a node: fields that are not declared hold nothing -/
inductive JField (d : JDoc) : Option JType → Option JVal → Option Cell → Prop
  | undeclared : JField d none none none
  | declared {t v x} : JCell d t v x → JField d (some t) v x

/-- a layer -/
structure JLayerHas (d : JDoc) (L : JLay) (l : LayerC) : Prop where
  fields : ∀ f, Both JTypeHas (dget L.fields f) (l.fields f)
  size : L.nodes.length = l.rows.length
  cells : ∀ (i : Nat) n row f, L.nodes[i]? = some n → l.rows[i]? = some row → JField d (dget L.fields f) (dget (d.data n) f) (row f)

/-- a Java document has this content -/
structure JHas (d : JDoc) (c : Content) : Prop where
  props : ∀ k, Both JProp (dget d.props k) (c.props k)
  texts : ∀ k, Both (fun t s => t.text = utf16 s) (dget d.texts k) (c.texts k)
  layers : ∀ k, Both (JLayerHas d) (dget d.layers k) (c.layers k)

/-! ### what the Java decoder can read -/

/-- a value that the Java decoder can read as an argument of a type -/
inductive ArgReadable : Obj → Prop
  | bool {b} : ArgReadable (.bool b)
  | int {i : Int} : i < 2 ^ 63 → ArgReadable (.int i)
  | str {s} : ArgReadable (.str s)
  | bin {b} : ArgReadable (.bin b)

/-- a value that the Java decoder can read as a property -/
inductive PropReadable : Obj → Prop
  | arg {o} : ArgReadable o → PropReadable o
  | float {x} : PropReadable (.float x)

/-- a cell that the Java decoder can read -/
inductive CellReadable (t : FieldType) : Cell → Prop
  | bool {b} : CellReadable t (.bool b)
  | int {i : Int} : (t.1 = "i32".toList → -2 ^ 31 ≤ i ∧ i < 2 ^ 31) → (t.1 = "i64".toList → -2 ^ 63 ≤ i ∧ i < 2 ^ 63) → CellReadable t (.int i)
  | float {x} : CellReadable t (.float x)
  | str {s} : CellReadable t (.str s)
  | ext {b} : CellReadable t (.ext b)
  | span {a b} : CellReadable t (.span a b)
  | node {i} : CellReadable t (.node i)
  | nodes {is} : CellReadable t (.nodes is)
  | nodespan {i j} : CellReadable t (.nodespan i j)

/-- a content that the Java decoder can read: no properties that are None, lists or dicts; no arguments that are such or
floats; integers that are ints or longs; no bytes in fields -/
structure JavaReadable (c : Content) : Prop where
  props : ∀ k o, c.props k = some o → PropReadable o
  args : ∀ k l f (t : FieldType) a o, c.layers k = some l → l.fields f = some t → t.2 a = some o → ArgReadable o
  cells : ∀ k l row f (t : FieldType) x, c.layers k = some l → row ∈ l.rows → l.fields f = some t → row f = some x → CellReadable t x
  sizes : ∀ k l, c.layers k = some l → l.rows.length < 2 ^ 31

/-- what a field holds, without extended values -/
def unext : Option Cell → Option Cell
  | some (.ext _) => none
  | y => y

/-- a layer without its extended values -/
def LayerC.strip (l : LayerC) : LayerC := { l with rows := l.rows.map (fun row f => unext (row f)) }

/-- a content without its extended values -/
def Content.strip (c : Content) : Content := { c with layers := fun k => (c.layers k).map LayerC.strip }

/-- a content that the Python decoder can read: nothing in extended fields -/
def PythonReadable (c : Content) : Prop := ∀ k l row f b, c.layers k = some l → row ∈ l.rows → row f ≠ some (.ext b)

/-- a content without extended fields -/
def NoExt (c : Content) : Prop := ∀ k l f t, c.layers k = some l → l.fields f = some t → t.1 ≠ "ext".toList

/-! ### sound Java documents -/

/-- A Java document that was made by calls in the right order: texts and layers are as their methods leave them (see C83 and
C84), every node is in one layer only, spans in span fields have their Offsets in the table of their text (or the text is
empty), and the TreeMaps have distinct keys. -/
structure JSound (d : JDoc) : Prop where
  props : (dkeys d.props).Nodup
  textKeys : (dkeys d.texts).Nodup
  layerKeys : (dkeys d.layers).Nodup
  fieldKeys : ∀ k L, (k, L) ∈ d.layers → (dkeys L.fields).Nodup
  argKeys : ∀ k L f t, (k, L) ∈ d.layers → (f, t) ∈ L.fields → (dkeys t.args).Nodup
  texts : ∀ c t, (c, t) ∈ d.texts → JTInv t
  size : ∀ k L, (k, L) ∈ d.layers → L.size = L.nodes.length
  once : (d.layers.flatMap (fun e => e.2.nodes)).Nodup
  spans : ∀ k L n f t c s, (k, L) ∈ d.layers → n ∈ L.nodes → (f, t) ∈ L.fields → t.name = .span →
    dget (d.data n) f = some (.span c s) → ∃ u, dget d.texts c = some u ∧ SpanOk u s

end Spec
end Verif
