import Verif.Model.Layer
/-
Graph searches over nodes: algorithm.py:42-194.

Simplifications: `children` is a pure function giving the whole list of children (the code may pass a
generator; the searches always consume it completely before popping the next node), and it does not raise.
`is_result` is `none` when the argument is absent and a pure Boolean function otherwise (a callable is
truthy, so `if is_result` tests presence). A generator is the list of everything it yields. A search over
an infinite graph never ends, so the loops take fuel: running out is `unmodelled`, and C48-C50 prove that it
never happens on a finite graph once the fuel reaches a bound computed from the graph.
-/
namespace Verif

namespace Graph

variable {α : Type} [DecidableEq α]

/-- `(is_result and is_result(n)) or not is_result` (algorithm.py:121-124, 153-156). -/
def wanted (isResult : Option (α → Bool)) (n : α) : Bool :=
  match isResult with
  | some f => f n
  | none => true

/-- The `while queue` loop of `bfs` (algorithm.py:114-128); `visited` is the set, newest first. -/
def bfsLoop (children : α → List α) (isResult : Option (α → Bool)) :
    Nat → List α → List (Nat × α) → Except PyErr (List (Nat × α))
  | _, _, [] => .ok []
  | 0, _, _ :: _ => .error .unmodelled
  | fuel + 1, visited, (d, n) :: queue =>
    if n ∈ visited then bfsLoop children isResult fuel visited queue
    else
      let visited' := n :: visited
      let pushed := ((children n).filter (fun c => decide (c ∉ visited'))).map (fun c => (d + 1, c))
      match bfsLoop children isResult fuel visited' (queue ++ pushed) with
      | .error e => .error e
      | .ok out => .ok (if wanted isResult n then (d, n) :: out else out)

/-- `bfs` (algorithm.py:99-128). -/
def bfs (fuel : Nat) (start : α) (children : α → List α) (isResult : Option (α → Bool)) :
    Except PyErr (List (Nat × α)) :=
  bfsLoop children isResult fuel [] [(0, start)]

/-- The `while stack` loop of `dfs` (algorithm.py:147-160). The stack is kept with its top first:
reversing `child_nodes` and extending the Python list is prepending the children in order. -/
def dfsLoop (children : α → List α) (isResult : Option (α → Bool)) :
    Nat → List α → List α → Except PyErr (List α)
  | _, _, [] => .ok []
  | 0, _, _ :: _ => .error .unmodelled
  | fuel + 1, visited, n :: stack =>
    if n ∈ visited then dfsLoop children isResult fuel visited stack
    else
      let visited' := n :: visited
      let pushed := (children n).filter (fun c => decide (c ∉ visited'))
      match dfsLoop children isResult fuel visited' (pushed ++ stack) with
      | .error e => .error e
      | .ok out => .ok (if wanted isResult n then n :: out else out)

/-- `dfs` (algorithm.py:131-160). -/
def dfs (fuel : Nat) (start : α) (children : α → List α) (isResult : Option (α → Bool)) :
    Except PyErr (List α) :=
  dfsLoop children isResult fuel [] [start]

/-- The `while stack` loop of `dfs_leaves` (algorithm.py:179-194). -/
def leavesLoop (children : α → List α) (isResult : Option (α → Bool)) :
    Nat → List α → List α → Except PyErr (List α)
  | _, _, [] => .ok []
  | 0, _, _ :: _ => .error .unmodelled
  | fuel + 1, visited, n :: stack =>
    if n ∈ visited then leavesLoop children isResult fuel visited stack
    else
      let visited' := n :: visited
      let pushed := (children n).filter (fun c => decide (c ∉ visited'))
      match leavesLoop children isResult fuel visited' (pushed ++ stack) with
      | .error e => .error e
      | .ok out => .ok (if pushed.isEmpty && wanted isResult n then n :: out else out)

/-- `dfs_leaves` (algorithm.py:163-194). -/
def dfsLeaves (fuel : Nat) (start : α) (children : α → List α) (isResult : Option (α → Bool)) :
    Except PyErr (List α) :=
  leavesLoop children isResult fuel [] [start]

end Graph

namespace World

/-- `iter(v)` on a field value (algorithm.py:55): a list of nodes or a node span; anything that cannot be
iterated is a TypeError; iterating strings, bytes or plain data is not modelled. -/
def iterValue (w : World) : Value → Except PyErr (List Value)
  | .nodes ns => .ok (ns.map Value.node)
  | .nodespan l r => (w.nodeSpanIter l r).map (List.map Value.node)
  | .str _ => .error .unmodelled
  | .bytes _ => .error .unmodelled
  | .data _ => .error .unmodelled
  | .other => .error .unmodelled
  | _ => .error .type

/-- The yielders `node_iter(prop)` and, if `many`, `node_array_iter(prop)` (algorithm.py:46-60) applied to
`n`. `prop in n` on something that is not a node: a TypeError on None, numbers and spans; other containers
are not modelled. -/
def yieldProp (w : World) (prop : Str) (many : Bool) (n : Value) : Except PyErr (List Value) :=
  match n with
  | .node i =>
    match dget (w.nodes i).fields prop with
    | none => .ok []
    | some v => if many then w.iterValue v else .ok [v]
  | .none => .error .type
  | .bool _ => .error .type
  | .int _ => .error .type
  | .float _ => .error .type
  | _ => .error .unmodelled

/-- The composed yielder (algorithm.py:62-68). The inner loop variable is also called `n`, so after a
property has yielded something, the next property is looked up on the last thing it yielded. -/
def yieldAll (w : World) : List (Str × Bool) → Value → List Value × Option PyErr
  | [], _ => ([], none)
  | (p, many) :: ps, n =>
    match w.yieldProp p many n with
    | .error e => ([], some e)
    | .ok vs =>
      let (rest, err) := w.yieldAll ps (vs.getLast?.getD n)
      (vs ++ rest, err)

/-- Looking a property up in the layer schema (algorithm.py:71-79, 83-92): `true` for NODEREF_MANY. -/
def childKind (w : World) (L : LayerId) (p : Str) : Except PyErr Bool :=
  match dget (w.layers L).fields p with
  | none => .error .key
  | some t => if t.tname = .noderef then .ok false else if t.tname = .noderefMany then .ok true else .error .value

/-- the loop over `props` (algorithm.py:81-92) -/
def childKinds (w : World) (L : LayerId) : List Str → Except PyErr (List (Str × Bool))
  | [] => .ok []
  | p :: ps => do
    let k ← w.childKind L p
    let ks ← w.childKinds L ps
    .ok ((p, k) :: ks)

/-- `children_of(layer, *props)` (algorithm.py:42-96): the function it returns, or the error it raises.
The function returns what is yielded and the exception that ends the iteration, if any. -/
def childrenOf (w : World) (L : LayerId) (props : List Str) :
    Except PyErr (Value → List Value × Option PyErr) :=
  match props with
  | [] => .error .value
  | [p] => do
    let k ← w.childKind L p
    .ok (fun n => match w.yieldProp p k n with
      | .ok vs => (vs, none)
      | .error e => ([], some e))
  | ps => do
    let ks ← w.childKinds L ps
    .ok (fun n => w.yieldAll ks n)

end World
end Verif
