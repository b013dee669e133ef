import Verif.Model.JavaLayer
/-
Loops over a layer of the Java library that change the layer: `for (Node n : layer) ...` and `layer.forEach(...)`
(java/core/src/main/java/se/lth/cs/docria/Layer.java:186-189, 346-350).

`iterator()` is the iterator of `storage.stream().filter(Objects::nonNull)`. It belongs to the ArrayList that `storage` is when the
loop starts; when `compact()` makes a new ArrayList (Layer.java:343) the loop stays with the old one. It takes the number of
slots and `modCount` of that list when it is first asked (java.util.ArrayList.ArrayListSpliterator.getFence), reads one slot
after the other only when it is asked for more (java.util.Spliterators.iterator, java.util.stream.StreamSpliterators), and
raises ConcurrentModificationException after it has read a slot if `modCount` is another one
(ArrayListSpliterator.tryAdvance). `set` does not change `modCount`, `add` and `clear` do.

`forEach` is `ArrayList.forEach`: it looks at `modCount` before each slot, and once more at the end.
-/
namespace Verif
namespace JLayer

/-- what a loop knows of its ArrayList: its slots, if it is not the layer's `storage` any more, and whether its `modCount`
has changed since the loop started -/
structure Watch where
  list : Option (List (Option Nat))
  changed : Bool

/-- `compact()` up to the lines that make a new list (Layer.java:328-339) -/
def packed (s : JLayer) : JLayer :=
  let c := compactLoop s.storage.length 0 0 s.storage s.ids
  { s with storage := c.1.take s.size.toNat ++ List.replicate (c.1.length - s.size.toNat) none, ids := c.2 }

namespace Watch

/-- a loop starts -/
def start : Watch := ⟨none, false⟩

/-- the slots of the loop's list -/
def slots (v : Watch) (s : JLayer) : List (Option Nat) := v.list.getD s.storage

/-- `compact()` (Layer.java:327-344) -/
def compact (v : Watch) (s : JLayer) : Watch :=
  if s.size < 0 ∧ s.storage ≠ [] then v
  else if s.packed.sparse = true ∧ v.list = none then { v with list := some s.packed.storage } else v

/-- the end of both `remove` methods (Layer.java:201-202, 321-322) -/
def shrink (v : Watch) (s : JLayer) : Watch := if s.sparse then v.compact s else v

/-- `remove` (Layer.java:191-205, 306-325) -/
def remove (v : Watch) (s : JLayer) (n : Nat) : Watch :=
  if s.lay n ≠ some 0 then v
  else
    match setAt s.storage (s.ids n) none with
    | .error _ => v
    | .ok st => v.shrink { s with storage := st, lay := upd s.lay n none, size := s.size - 1 }

/-- `removeAll(c)` (Layer.java:297-304) -/
def removeAll (v : Watch) (s : JLayer) : List Nat → Watch
  | [] => v
  | n :: c =>
    match s.removeObject n with
    | (_, .error _) => v.remove s n
    | (s', .ok _) => (v.remove s n).removeAll s' c

/-- `add(node)` (Layer.java:164-184): a new slot at the end changes `modCount`, using a slot does not -/
def add (v : Watch) (s : JLayer) (n : Nat) : Watch :=
  if s.lay n = none ∧ ¬ s.size < s.storage.length ∧ v.list = none then { v with changed := true } else v

/-- `clear()` (Layer.java:154-162) -/
def clear (v : Watch) (s : JLayer) : Watch :=
  match s.clear with
  | (_, .error _) => v
  | (_, .ok ()) => if v.list = none then { v with changed := true } else v

/-- a call -/
def op (v : Watch) (s : JLayer) : Op → Watch
  | .add n => v.add s n
  | .remove n => v.remove s n
  | .removeObject n => v.remove s n
  | .removeAll c => v.removeAll s c
  | .clear => v.clear s
  | .compact => v.compact s

end Watch

/-- how a loop ended: after the last slot, by an exception of its body, by ConcurrentModificationException -/
inductive LoopEnd
  | ended
  | raised (e : PyErr)
  | concurrent
  deriving DecidableEq

/-- the body of a loop in one round: some calls, up to the first exception -/
def calls (s : JLayer) (v : Watch) : List Op → JLayer × Watch × Option PyErr
  | [] => (s, v, none)
  | o :: os =>
    match s.op o with
    | (s', .error e) => (s', v.op s o, some e)
    | (s', .ok _) => calls s' (v.op s o) os

/-- the rounds of a loop for `todo` more slots from slot `i` on. `body i n` is what the body calls for the node `n` in slot
`i`. `last` tells whether `modCount` is looked at after the last slot. Returns the layer, the nodes that the body was given, and
the end. -/
def rounds (last : Bool) (body : Nat → Nat → List Op) : (todo i : Nat) → JLayer → Watch → JLayer × List Nat × LoopEnd
  | 0, _, s, v => (s, [], if last = true ∧ v.changed = true then .concurrent else .ended)
  | todo + 1, i, s, v =>
    if v.changed then (s, [], .concurrent)
    else
      match (v.slots s)[i]? with
      | some (some n) =>
        match s.calls v (body i n) with
        | (s, _, some e) => (s, [n], .raised e)
        | (s, v, none) =>
          let r := rounds last body todo (i + 1) s v
          (r.1, n :: r.2.1, r.2.2)
      | _ => rounds last body todo (i + 1) s v

/-- `for (Node n : layer) body` (Layer.java:186-189) -/
def loop (s : JLayer) (body : Nat → Nat → List Op) : JLayer × List Nat × LoopEnd := rounds false body s.storage.length 0 s .start

/-- `layer.forEach(n -> body)` (Layer.java:346-350) -/
def forEach (s : JLayer) (body : Nat → Nat → List Op) : JLayer × List Nat × LoopEnd := rounds true body s.storage.length 0 s .start

/-- `layer.removeAll(layer)` (Layer.java:297-304): the collection is the layer itself -/
def removeAllSelf (s : JLayer) : JLayer × LoopEnd :=
  let r := s.loop fun _ n => [.removeObject n]
  (r.1, r.2.2)

/-- `layer.removeIf(p)`: java.util.Collection's, which calls `remove()` of the iterator for the first node with `p`; the iterator
of a stream has none (java.util.Iterator.remove: UnsupportedOperationException) -/
def removeIf (s : JLayer) (p : Nat → Bool) : JLayer × Except PyErr Bool :=
  (s, if s.nodes.any p then .error .notImplemented else .ok false)

end JLayer
end Verif
