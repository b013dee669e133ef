import Verif.Model.Codec
/-
Vocabulary for the codec properties (C29, C31-C37): which documents can be encoded, and when two
documents in different heaps are observably the same.
-/
namespace Verif
open World
namespace Spec

/-- node `n` is the `i`-th node, in iteration order, of the document's layer named `k` -/
def At (w : World) (k : Str) (i : Nat) (n : NodeId) : Prop :=
  ∃ L, dget w.dl k = some L ∧ (w.iter L)[i]? = some (some n)

/-- values of properties and of type options: None, bool, int, float, str, bytes, and lists and dicts of
such (dicts with distinct str keys) -/
def PlainVal : Value → Prop
  | .none | .bool _ | .int _ | .float _ | .str _ | .bytes _ => True
  | .data (.arr l) => (Obj.arr l).KeysOk
  | .data (.map l) => (Obj.map l).KeysOk
  | _ => False

/-- a type the codec can write, whose target is in the document -/
structure TypeOk (w : World) (t : DataType) : Prop where
  kind : t.tname ≠ .ext ∧ t.tname ≠ .unknown
  plain : ∀ k v, (k, v) ∈ t.options → PlainVal v
  keys : (dkeys t.options).Nodup
  names : "self".toList ∉ dkeys t.options ∧ "typename".toList ∉ dkeys t.options
  layer : t.tname = .noderef ∨ t.tname = .noderefMany ∨ t.tname = .nodespan →
    ∃ s, dget t.options "layer".toList = some (.str s) ∧ s ∈ dkeys w.dl
  text : t.tname = .span → ∃ c, dget t.options "context".toList = some (.str c) ∧ c ∈ dkeys w.dt

/-- integer range of the types that check their values -/
def IntOk (t : DataType) (i : Int) : Prop :=
  t.checked = true → (t.tname = .i32 → -2 ^ 31 ≤ i ∧ i < 2 ^ 31) ∧ (t.tname = .i64 → -2 ^ 63 ≤ i ∧ i < 2 ^ 63)

/-- A valid value of a field of type `t`: references are to nodes that are in the document, in the layer
the type names; spans are on the document's own text and inside it. -/
inductive CellOk (w : World) (t : DataType) : Value → Prop
  | null : t.checked = false → t.tname ≠ .span → CellOk w t .none
  | int {i} : t.tname = .i32 ∨ t.tname = .i64 → IntOk t i → CellOk w t (.int i)
  | intBool {b} : t.tname = .i32 ∨ t.tname = .i64 → CellOk w t (.bool b)
  | float {x} : t.tname = .f64 → CellOk w t (.float x)
  | bool {b} : t.tname = .bool → CellOk w t (.bool b)
  | str {s} : t.tname = .string → (t.checked = true → s.length < 2 ^ 31) → CellOk w t (.str s)
  | bytes {s} : t.tname = .binary → (t.checked = true → s.length < 2 ^ 31) → CellOk w t (.bytes s)
  | node {n s i} : t.tname = .noderef → dget t.options "layer".toList = some (.str s) → At w s i n →
      CellOk w t (.node n)
  | nodes {ns s} : t.tname = .noderefMany → dget t.options "layer".toList = some (.str s) →
      (∀ n ∈ ns, ∃ i, At w s i n) → CellOk w t (.nodes ns)
  | nodespan {l r s i j} : t.tname = .nodespan → dget t.options "layer".toList = some (.str s) →
      At w s i l → At w s j r → i ≤ j → CellOk w t (.nodespan l r)
  | span {T c} {a b : Int} : t.tname = .span → dget t.options "context".toList = some (.str c) → dget w.dt c = some T →
      0 ≤ a → a ≤ b → b ≤ (w.texts T).text.length → CellOk w t (.span T a b)

/-- A valid document. -/
structure Encodable (w : World) : Prop where
  types : ∀ k L f t, (k, L) ∈ w.dl → (f, t) ∈ (w.layers L).fields → TypeOk w t
  cells : ∀ k L n f t v, (k, L) ∈ w.dl → some n ∈ w.iter L → (f, t) ∈ (w.layers L).fields →
    dget (w.nodes n).fields f = some v → CellOk w t v
  declared : ∀ k L n f, (k, L) ∈ w.dl → some n ∈ w.iter L → f ∈ dkeys (w.nodes n).fields →
    f ∈ dkeys (w.layers L).fields
  props : ∀ k v, (k, v) ∈ w.props → PlainVal v

/-- The same node of two documents: same layer name, same place. -/
def SameNode (w w' : World) (n n' : NodeId) : Prop := ∃ k i, At w k i n ∧ At w' k i n'

/-- The same text of two documents: same name. -/
def SameText (w w' : World) (T T' : TextId) : Prop := ∃ c, dget w.dt c = some T ∧ dget w'.dt c = some T'

/-- The same field content in two documents. Unset, None and an empty list of nodes become unset; a bool
in an integer field becomes an integer (`True == 1`). -/
inductive SameCell (w w' : World) (t : DataType) : Option Value → Option Value → Prop
  | unset : SameCell w w' t none none
  | null : SameCell w w' t (some .none) none
  | empty : SameCell w w' t (some (.nodes [])) none
  | int {i} : SameCell w w' t (some (.int i)) (some (.int i))
  | intBool {b : Bool} : t.tname = .i32 ∨ t.tname = .i64 →
      SameCell w w' t (some (.bool b)) (some (.int (if b then 1 else 0)))
  | float {x} : SameCell w w' t (some (.float x)) (some (.float x))
  | bool {b} : t.tname = .bool → SameCell w w' t (some (.bool b)) (some (.bool b))
  | str {s} : SameCell w w' t (some (.str s)) (some (.str s))
  | bytes {s} : SameCell w w' t (some (.bytes s)) (some (.bytes s))
  | node {n n'} : SameNode w w' n n' → SameCell w w' t (some (.node n)) (some (.node n'))
  | nodes {ns ns'} : ns ≠ [] → ns.length = ns'.length →
      (∀ (j : Nat) (n n' : NodeId), ns[j]? = some n → ns'[j]? = some n' → SameNode w w' n n') →
      SameCell w w' t (some (.nodes ns)) (some (.nodes ns'))
  | nodespan {l r l' r'} : SameNode w w' l l' → SameNode w w' r r' →
      SameCell w w' t (some (.nodespan l r)) (some (.nodespan l' r'))
  | span {T T' a b} : SameText w w' T T' → SameCell w w' t (some (.span T a b)) (some (.span T' a b))

/-- Observably the same document. -/
structure SameDoc (w w' : World) : Prop where
  /-- same properties, in the same order -/
  props : w'.props = w.props
  /-- same texts under the same names, in the same order -/
  texts : w'.dt.map (fun e => (e.1, (w'.texts e.2).text)) = w.dt.map (fun e => (e.1, (w.texts e.2).text))
  /-- same layers, in the same order -/
  layers : dkeys w'.dl = dkeys w.dl
  /-- same schemas: field names, type names and options, in the same order -/
  schema : ∀ k L L', dget w.dl k = some L → dget w'.dl k = some L' →
    (w'.layers L').fields.map (fun e => (e.1, e.2.tname, e.2.options)) =
      (w.layers L).fields.map (fun e => (e.1, e.2.tname, e.2.options))
  /-- same number of nodes -/
  count : ∀ k L L', dget w.dl k = some L → dget w'.dl k = some L' → (w'.iter L').length = (w.iter L).length
  /-- same content of the declared fields, place by place -/
  cells : ∀ k L i n n' f t, dget w.dl k = some L → At w k i n → At w' k i n' → (f, t) ∈ (w.layers L).fields →
    SameCell w w' t (dget (w.nodes n).fields f) (dget (w'.nodes n').fields f)
  /-- and nothing else -/
  only : ∀ k L i n' f, dget w.dl k = some L → At w' k i n' → f ∈ dkeys (w'.nodes n').fields →
    f ∈ dkeys (w.layers L).fields

end Spec
end Verif
