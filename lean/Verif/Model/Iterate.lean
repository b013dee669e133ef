import Verif.Model.History
/-
Iteration over a layer that changes meanwhile: `for n in layer: ...` (model.py:1655-1660). The iterator is the iterator of
the list `_nodes`, behind a filter if the layer had gaps when the loop started. It holds a position in the list, and reads the
list as it is at each step (CPython, Objects/listobject.c, listiter_next); at the end of the list it is exhausted for good.
-/
namespace Verif

/-- an iterator: the layer, whether None is filtered out, and the position; none if exhausted -/
structure LayerIter where
  layer : LayerId
  filtered : Bool
  pos : Option Nat
  deriving DecidableEq

/-- how a loop ended: exhausted, by an exception of its body, or not yet -/
inductive LoopEnd
  | ended
  | raised (e : PyErr)
  | running
  deriving DecidableEq

namespace World

/-- `iter(layer)` (model.py:1655-1660) -/
def iterStart (w : World) (L : LayerId) : LayerIter :=
  ⟨L, decide ((w.layers L).num ≠ (w.layers L).slots.length), some 0⟩

/-- `filter(None.__ne__, ...)`: the first entry from position `i` on that is not None, and the position behind it. `s` is
the list from that position on. -/
def skipNone (i : Nat) : List (Option NodeId) → Option (NodeId × Nat)
  | [] => none
  | none :: s => skipNone (i + 1) s
  | some n :: _ => some (n, i + 1)

/-- `next(it)`: what it gives, none if the iterator is exhausted -/
def iterNext (w : World) (it : LayerIter) : Option (Option NodeId) × LayerIter :=
  match it.pos with
  | none => (none, it)
  | some i =>
    if it.filtered then
      match skipNone i ((w.layers it.layer).slots.drop i) with
      | some (n, j) => (some (some n), { it with pos := some j })
      | none => (none, { it with pos := none })
    else
      match (w.layers it.layer).slots[i]? with
      | some x => (some x, { it with pos := some (i + 1) })
      | none => (none, { it with pos := none })

/-- `for x in it: body(x)`, up to `k` times: the heap, what `x` was, and how it ended -/
def forLoop (body : World → Option NodeId → Res) : Nat → World → LayerIter → World × List (Option NodeId) × LoopEnd
  | 0, w, _ => (w, [], .running)
  | k + 1, w, it =>
    match w.iterNext it with
    | (none, _) => (w, [], .ended)
    | (some x, it) =>
      match body w x with
      | (w, some e) => (w, [x], .raised e)
      | (w, none) =>
        let r := forLoop body k w it
        (r.1, x :: r.2.1, r.2.2)

/-- `for n in layer: body(n)`, up to `k` times -/
def forLayer (w : World) (L : LayerId) (body : World → Option NodeId → Res) (k : Nat) : World × List (Option NodeId) × LoopEnd :=
  forLoop body k w (w.iterStart L)

/-- the body `if p(n): layer.remove(n)` (model.py:1552-1564, 1586-1587). `p` is asked for a node; None is none. -/
def removeIf (L : LayerId) (p : NodeId → Bool) (w : World) : Option NodeId → Res
  | none => (w, some .attribute)
  | some n => if p n then w.remove L n else (w, none)

/-- one round of the loop of `layer.remove(n for n in layer if p(n))` (model.py:1568-1580) -/
def removeCoreIf (L : LayerId) (p : NodeId → Bool) (w : World) : Option NodeId → Res
  | none => (w, some .attribute)
  | some n => if p n then w.removeCore L n else (w, none)

/-- `layer.remove(n for n in layer if p(n))` (model.py:1565-1587), for a generator that is at most `k` nodes long -/
def removeGen (w : World) (L : LayerId) (p : NodeId → Bool) (k : Nat) : World × LoopEnd :=
  match w.forLayer L (removeCoreIf L p) k with
  | (w, _, .ended) => (w.autoCompact L, .ended)
  | (w, _, e) => (w, e)

end World
end Verif
