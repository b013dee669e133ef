import Verif.Model.Layer
import Verif.Py.PyEq
/-
Predicates and queries: query.py:23-176, model.py:198-388 (NodeCollection, NodeFieldCollection), 1251-1283
(NodeCollectionQuery), 1532-1539 (layer.filter).
-/
namespace Verif

/-- the number a value stands for in comparisons; bool is an int -/
def Value.num : Value → Option Obj.Num
  | .bool b => Obj.num (.bool b)
  | .int i => Obj.num (.int i)
  | .float b => Obj.num (.float b)
  | _ => Option.none

/-- `<` of numbers; false with a NaN -/
def Obj.Num.lt : Obj.Num → Obj.Num → Bool
  | .fin a, .fin b => decide (a < b)
  | .fin _, .inf neg => !neg
  | .inf neg, .fin _ => neg
  | .inf a, .inf b => a && !b
  | _, _ => false

/-- `<=` of numbers -/
def Obj.Num.le (a b : Obj.Num) : Bool := a.lt b || a.eq b

/-- `<` of two str or two bytes: the first position where they differ, else the shorter is less -/
def seqLt {α : Type} (code : α → Nat) : List α → List α → Bool
  | _, [] => false
  | [], _ :: _ => true
  | a :: as, b :: bs => if code a < code b then true else if code b < code a then false else seqLt code as bs

/-- the four order comparisons -/
inductive Cmp
  | lt | le | gt | ge
  deriving DecidableEq

/-- the comparison of two numbers or two sequences by `lt` and `le` -/
def Cmp.pick (c : Cmp) (lt gt eq : Bool) : Bool :=
  match c with
  | .lt => lt
  | .le => lt || eq
  | .gt => gt
  | .ge => gt || eq

namespace World

/-- `str(span)` of a span value (model.py:743-744) -/
def spanStr (w : World) (t : TextId) (a b : Int) : Str := (⟨w.texts t, a, b⟩ : TextSpan).str

/-- `x == y`. TextSpan.__eq__ (model.py:606-610) also answers for the reflected comparison `str == span`; Node.__eq__
(147-148) is identity; lists compare by elements; numbers by value. NodeSpan, ExtData and unknown objects
compare by identity, which values do not carry here: not modelled against their own kind. -/
def valueEq (w : World) : Value → Value → Except PyErr Bool
  | .other, _ => .error .unmodelled
  | _, .other => .error .unmodelled
  | .nodespan _ _, .nodespan _ _ => .error .unmodelled
  | .ext _ _, .ext _ _ => .error .unmodelled
  | .data _, .data _ => .error .unmodelled
  | .data _, .nodes _ => .error .unmodelled
  | .nodes _, .data _ => .error .unmodelled
  | .span _ a b, .span _ a' b' => .ok (decide (a = a') && decide (b = b'))
  | .span t a b, .str s => .ok (decide (w.spanStr t a b = s))
  | .str s, .span t a b => .ok (decide (w.spanStr t a b = s))
  | .none, .none => .ok true
  | .str a, .str b => .ok (decide (a = b))
  | .bytes a, .bytes b => .ok (decide (a = b))
  | .node a, .node b => .ok (decide (a = b))
  | .nodes a, .nodes b => .ok (decide (a = b))
  | a, b =>
    match a.num, b.num with
    | some x, some y => .ok (x.eq y)
    | _, _ => .ok false

/-- `x < y`, `x <= y`, `x > y`, `x >= y`: numbers, str and bytes are ordered; everything else raises TypeError
(None, Node, TextSpan and NodeSpan have no order). Lists are ordered in Python but not modelled. -/
def valueCmp (c : Cmp) : Value → Value → Except PyErr Bool
  | .other, _ => .error .unmodelled
  | _, .other => .error .unmodelled
  | .nodes _, .nodes _ => .error .unmodelled
  | .nodes _, .data _ => .error .unmodelled
  | .data _, .nodes _ => .error .unmodelled
  | .data _, .data _ => .error .unmodelled
  | .str a, .str b => .ok (Cmp.pick c (seqLt Char.toNat a b) (seqLt Char.toNat b a) (decide (a = b)))
  | .bytes a, .bytes b => .ok (Cmp.pick c (seqLt UInt8.toNat a b) (seqLt UInt8.toNat b a) (decide (a = b)))
  | a, b =>
    match a.num, b.num with
    | some x, some y => .ok (Cmp.pick c (x.lt y) (y.lt x) (x.eq y))
    | _, _ => .error .type

/-- `hash(x)` succeeds: lists and dicts are not hashable -/
def hashable : Value → Bool
  | .nodes _ => false
  | .data _ => false
  | _ => true

/-- an element of a set is found when the hashes agree and the objects are equal (or identical). A span hashes by
text, start and stop (model.py:603-604), so it is found only as an equal span of the same text, and never as
a str: the hash of a tuple and of a str are taken to differ. A NaN is found by identity only: not modelled. -/
def setHit (w : World) (x y : Value) : Except PyErr Bool :=
  match x, y with
  | .span t a b, .span t' a' b' => .ok (decide (t = t') && decide (a = a') && decide (b = b'))
  | .span _ _ _, .str _ => .ok false
  | .str _, .span _ _ _ => .ok false
  | x, y =>
    if x.num = some .nan ∧ y.num = some .nan then .error .unmodelled else w.valueEq x y

/-- `x in {ys}` -/
def inSet (w : World) (x : Value) : List Value → Except PyErr Bool
  | [] => if hashable x then .ok false else .error .type
  | y :: ys =>
    if ¬ hashable x then .error .type
    else match w.setHit x y with
      | .error e => .error e
      | .ok true => .ok true
      | .ok false => inSet w x ys

/-- the truth value of an object, as `and`, `or`, `not` and `if` take it. Node is a dict, TextSpan and
NodeSpan have `__len__`. `other` is an object without `__bool__` and `__len__`; `NotImplemented`, which
`has_value` produces, counts as true up to Python 3.13. -/
def truth (w : World) : Value → Except PyErr Bool
  | .none => .ok false
  | .bool b => .ok b
  | .int i => .ok (decide (i ≠ 0))
  | .float b => .ok (decide (Obj.floatNum b ≠ .fin 0))
  | .str s => .ok (decide (s ≠ []))
  | .bytes b => .ok (decide (b ≠ []))
  | .node n => .ok (decide ((w.nodes n).fields ≠ []))
  | .nodes ns => .ok (decide (ns ≠ []))
  | .nodespan l r =>
    match w.nodeSpanIter l r with
    | .error e => .error e
    | .ok ns => .ok (decide (ns ≠ []))
  | .span _ a b => .ok (decide (b - a ≠ 0))
  | .ext _ _ => .ok true
  | .data (.arr l) => .ok (decide (l ≠ []))
  | .data (.map l) => .ok (decide (l ≠ []))
  | .data _ => .error .unmodelled
  | .other => .ok true

end World

open World

/-- Predicates. `call` is a plain Python callable given to `layer[...]`; `fieldLambda` is NodeFieldPredicateLambda
(query.py:166-176); `lambda` is NodeLambdaPredicate (37-46). -/
inductive Pred
  | and (l r : Pred)
  | or (l r : Pred)
  | not (p : Pred)
  | contains (fld : Str) (vs : List Value)
  | eq (fld : Str) (v : Value)
  | neq (fld : Str) (v : Value)
  | cmp (c : Cmp) (fld : Str) (v : Value)
  | fieldLambda (fld : Str) (fn : Value → Except PyErr Value)
  | lambda (fn : List Value → Except PyErr Value) (flds : List Str)
  | call (fn : World → NodeId → Except PyErr Value)

namespace World

/-- `n.get(fld)` (dict method) -/
def getField (w : World) (n : NodeId) (fld : Str) : Value := (dget (w.nodes n).fields fld).getD .none

/-- wrap a bool -/
def asBool : Except PyErr Bool → Except PyErr Value
  | .error e => .error e
  | .ok b => .ok (.bool b)

/-- `pred(n)` (query.py:41-43, 54-55, 66-67, 79-80, 91-92, 103-104, 114-115, 126-127, 137-138, 148-149, 159-160,
171-172) -/
def evalPred (w : World) (n : NodeId) : Pred → Except PyErr Value
  | .and l r =>
    match evalPred w n l with
    | .error e => .error e
    | .ok v =>
      match w.truth v with
      | .error e => .error e
      | .ok true => evalPred w n r
      | .ok false => .ok v
  | .or l r =>
    match evalPred w n l with
    | .error e => .error e
    | .ok v =>
      match w.truth v with
      | .error e => .error e
      | .ok true => .ok v
      | .ok false => evalPred w n r
  | .not p =>
    match evalPred w n p with
    | .error e => .error e
    | .ok v =>
      match w.truth v with
      | .error e => .error e
      | .ok b => .ok (.bool (!b))
  | .contains fld vs => asBool (w.inSet (w.getField n fld) vs)
  | .eq fld v => asBool (w.valueEq (w.getField n fld) v)
  | .neq fld v =>
    match w.valueEq (w.getField n fld) v with
    | .error e => .error e
    | .ok b => .ok (.bool (!b))
  | .cmp c fld v => asBool (valueCmp c (w.getField n fld) v)
  | .fieldLambda fld fn => fn (w.getField n fld)
  | .lambda fn flds => fn (flds.map (w.getField n))
  | .call fn => fn w n

/-- `if pred(n)` -/
def holds (w : World) (n : NodeId) (p : Pred) : Except PyErr Bool :=
  match w.evalPred n p with
  | .error e => .error e
  | .ok v => w.truth v

end World

/-! ### NodeFieldCollection: predicates of a field (model.py:268-369) -/

namespace FieldPred

/-- `field.is_none()` (model.py:305-310) -/
def isNone (fld : Str) : Pred := .fieldLambda fld (fun v => .ok (.bool (decide (v = .none))))

/-- `field.has_value()` (model.py:312-317): `None.__ne__(v)` is False for None and NotImplemented otherwise -/
def hasValue (fld : Str) : Pred := .fieldLambda fld (fun v => .ok (if v = .none then .bool false else .other))

/-- `field.is_any(*items)` (model.py:319-326): building the set needs hashable items -/
def isAny (fld : Str) (vs : List Value) : Except PyErr Pred :=
  if vs.all hashable then .ok (.contains fld vs) else .error .type

/-- the lambda of `covered_by` (model.py:338): other values have no such method, except that NodeSpan,
NodeList, ... raise AttributeError too -/
def coveredFn (a b : Int) : Value → Except PyErr Value
  | .span _ s e => .ok (.bool (decide (a ≤ s) && decide (b ≥ e)))
  | .other => .error .unmodelled
  | _ => .error .attribute

/-- `field.covered_by(a, b)` (model.py:328-338) -/
def coveredBy (dt : DataType) (fld : Str) (a b : Int) : Except PyErr Pred :=
  if dt.tname = .span then .ok (.fieldLambda fld (coveredFn a b)) else .error .assertion

/-- the lambda of `intersected_by` (model.py:350) -/
def intersectedFn (a b : Int) : Value → Except PyErr Value
  | .span _ s e => .ok (.bool (decide (b > s) && decide (a < e)))
  | .other => .error .unmodelled
  | _ => .error .attribute

/-- `field.intersected_by(a, b)` (model.py:340-350) -/
def intersectedBy (dt : DataType) (fld : Str) (a b : Int) : Except PyErr Pred :=
  if dt.tname = .span then .ok (.fieldLambda fld (intersectedFn a b)) else .error .assertion

end FieldPred

/-! ### queries -/

/-- A collection: a layer, a NodeList, a NodeSpan, or a query object (by its identity). -/
inductive Coll
  | layer (L : LayerId)
  | list (ns : List NodeId)
  | span (l r : NodeId)
  | query (q : Nat)
  deriving DecidableEq

/-- A NodeCollectionQuery (model.py:1254-1258) -/
structure QueryObj where
  coll : Coll
  pred : Pred
  result : List NodeId

/-- the query objects created so far; a query's identity is its position -/
abbrev Queries := List QueryObj

namespace World

/-- iterating a collection (model.py:1655-1660, 411-413, 504-505, 1260-1261). A gap in a layer whose
counter is wrong would be passed to the predicate as None. -/
def iterColl (w : World) (qs : Queries) : Coll → Except PyErr (List (Option NodeId))
  | .layer L => .ok (w.iter L)
  | .list ns => .ok (ns.map some)
  | .span l r =>
    match w.nodeSpanIter l r with
    | .error e => .error e
    | .ok ns => .ok (ns.map some)
  | .query q =>
    match qs[q]? with
    | none => .error .unmodelled
    | some o => .ok (o.result.map some)

/-- `[n for n in collection if predicate(n)]` (model.py:1258, 1274). The predicates of the library call
`n.get`, so None raises AttributeError. -/
def selectFrom (w : World) (p : Pred) : List (Option NodeId) → Except PyErr (List NodeId)
  | [] => .ok []
  | none :: _ => .error .attribute
  | some n :: rest =>
    match w.holds n p with
    | .error e => .error e
    | .ok b =>
      match selectFrom w p rest with
      | .error e => .error e
      | .ok ns => .ok (if b then n :: ns else ns)

/-- evaluate the comprehension over a collection -/
def select (w : World) (qs : Queries) (c : Coll) (p : Pred) : Except PyErr (List NodeId) :=
  match w.iterColl qs c with
  | .error e => .error e
  | .ok ns => w.selectFrom p ns

/-- `collection[pred]` (model.py:261-268 with 1254-1258): the new query object -/
def query (w : World) (qs : Queries) (c : Coll) (p : Pred) : Except PyErr (Queries × Nat) :=
  match w.select qs c p with
  | .error e => .error e
  | .ok r => .ok (qs ++ [⟨c, p, r⟩], qs.length)

/-- `query.update()` (model.py:1273-1274): the result is replaced after the comprehension succeeded -/
def update (w : World) (qs : Queries) (q : Nat) : Queries × Option PyErr :=
  match qs[q]? with
  | none => (qs, some .unmodelled)
  | some o =>
    match w.select qs o.coll o.pred with
    | .error e => (qs, some e)
    | .ok r => (qs.set q { o with result := r }, none)

end World

/-- `iter(query)` (model.py:1260-1261) -/
def Queries.iter (qs : Queries) (q : Nat) : Option (List NodeId) := qs[q]?.map (·.result)

/-- `len(query)` (model.py:1263-1264) -/
def Queries.len (qs : Queries) (q : Nat) : Option Nat := qs[q]?.map (·.result.length)

end Verif
