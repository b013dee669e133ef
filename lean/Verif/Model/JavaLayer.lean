import Verif.Py.Basic
/-
Layers of the Java library: java/core/src/main/java/se/lth/cs/docria/Layer.java.

A node is a number; `ids` and `lay` are the fields `id` and `layer` of all nodes (Node.java:28-29). `lay n` is none
for null and the number of a layer otherwise; the layer that is modelled is number 0. Java ints are unbounded here.
-/
namespace Verif

/-- a layer (Layer.java:26-30), with the nodes' fields -/
structure JLayer where
  storage : List (Option Nat)
  size : Int
  ids : Nat → Int
  lay : Nat → Option Nat

namespace JLayer

/-- a new layer (Layer.java:73-77), and nodes as Node() makes them -/
def new : JLayer := ⟨[], 0, fun _ => 0, fun _ => none⟩

/-- assign a field of node `n` -/
def upd {α : Type} (f : Nat → α) (n : Nat) (v : α) : Nat → α := fun m => if m = n then v else f m

/-- `storage.set(i, x)`: IndexOutOfBoundsException (`.index`) -/
def setAt (storage : List (Option Nat)) (i : Int) (x : Option Nat) : Except PyErr (List (Option Nat)) :=
  if i < 0 ∨ (storage.length : Int) ≤ i then .error .index else .ok (storage.set i.toNat x)

/-- the nodes that are there, in order: `stream()`, `iterator()`, `forEach` (Layer.java:83-90, 186-189, 346-350) -/
def nodes (s : JLayer) : List Nat := s.storage.filterMap id

/-- `size()` (Layer.java:352-355) -/
def sizeOf (s : JLayer) : Int := s.size

/-- `isEmpty()` (Layer.java:149-152) -/
def isEmpty (s : JLayer) : Bool := s.size == 0

/-- `get(id)` (Layer.java:101-103) -/
def get (s : JLayer) (i : Int) : Except PyErr (Option Nat) :=
  if i < 0 ∨ (s.storage.length : Int) ≤ i then .error .index else .ok (s.storage[i.toNat]?.getD none)

/-- `first()` (Layer.java:129-131) -/
def first (s : JLayer) : Option Nat := s.nodes.head?

/-- `last()` (Layer.java:133-136) -/
def last (s : JLayer) : Option Nat := (s.storage.reverse.filterMap id).head?

/-- `contains(o)` for a node (Layer.java:251-258) -/
def contains (s : JLayer) (n : Nat) : Bool := s.lay n == some 0

/-- the first loop of `compact()` (Layer.java:328-335) from position `k` on -/
def compactLoop : Nat → (k i : Nat) → List (Option Nat) → (Nat → Int) → List (Option Nat) × (Nat → Int)
  | 0, _, _, st, ids => (st, ids)
  | todo + 1, k, i, st, ids =>
    match st[k]? with
    | some (some n) => compactLoop todo (k + 1) (i + 1) (st.set i (some n)) (upd ids n i)
    | _ => compactLoop todo (k + 1) i st ids

/-- `this.size < 0.75 * storage.size() && storage.size() > 16` (Layer.java:201, 290, 321, 342) -/
def sparse (s : JLayer) : Bool := decide (4 * s.size < 3 * s.storage.length) && decide (16 < s.storage.length)

/-- `compact()` (Layer.java:327-344). A negative `size` is IndexOutOfBoundsException from the second loop. -/
def compact (s : JLayer) : JLayer × Except PyErr Unit :=
  let c := compactLoop s.storage.length 0 0 s.storage s.ids
  let s := { s with storage := c.1, ids := c.2 }
  if s.size < 0 ∧ s.storage ≠ [] then (s, .error .index)
  else
    let s := { s with storage := s.storage.take s.size.toNat ++ List.replicate (s.storage.length - s.size.toNat) none }
    if s.sparse then ({ s with storage := s.storage.take s.size.toNat }, .ok ()) else (s, .ok ())

/-- `add(node)` (Layer.java:164-184) -/
def add (s : JLayer) (n : Nat) : JLayer × Except PyErr Unit :=
  if s.lay n ≠ none then (s, .error .value)
  else
    let s := { s with ids := upd s.ids n s.storage.length, lay := upd s.lay n (some 0) }
    if s.size < s.storage.length then
      match setAt s.storage s.size (some n) with
      | .error e => (s, .error e)
      | .ok st => ({ s with storage := st, size := s.size + 1 }, .ok ())
    else ({ s with storage := s.storage ++ [some n], size := s.size + 1 }, .ok ())

/-- the end of both `remove` methods -/
def shrink (s : JLayer) : JLayer × Except PyErr Unit := if s.sparse then s.compact else (s, .ok ())

/-- `Node remove(Node n)` (Layer.java:191-205) -/
def remove (s : JLayer) (n : Nat) : JLayer × Except PyErr Unit :=
  if s.lay n ≠ some 0 then (s, .error .value)
  else
    match setAt s.storage (s.ids n) none with
    | .error e => (s, .error e)
    | .ok st => { s with storage := st, lay := upd s.lay n none, size := s.size - 1 }.shrink

/-- `boolean remove(Object o)` for a node (Layer.java:306-325) -/
def removeObject (s : JLayer) (n : Nat) : JLayer × Except PyErr Bool :=
  if s.lay n ≠ some 0 then (s, .ok false)
  else
    let s := { s with lay := upd s.lay n none }
    match setAt s.storage (s.ids n) none with
    | .error e => (s, .error e)
    | .ok st =>
      match { s with storage := st, size := s.size - 1 }.shrink with
      | (s, .error e) => (s, .error e)
      | (s, .ok ()) => (s, .ok true)

/-- `removeAll(c)` (Layer.java:297-304) -/
def removeAll (s : JLayer) (ops : Bool) : List Nat → JLayer × Except PyErr Bool
  | [] => (s, .ok ops)
  | n :: c =>
    match s.removeObject n with
    | (s, .error e) => (s, .error e)
    | (s, .ok b) => s.removeAll (ops || b) c

/-- the loop of `clear()` (Layer.java:156-159); an empty slot is NullPointerException (`.attribute`) -/
def clearLoop (s : JLayer) : List (Option Nat) → JLayer × Except PyErr Unit
  | [] => (s, .ok ())
  | none :: _ => (s, .error .attribute)
  | some n :: l => { s with ids := upd s.ids n (-1), lay := upd s.lay n none }.clearLoop l

/-- `clear()` (Layer.java:154-162) -/
def clear (s : JLayer) : JLayer × Except PyErr Unit :=
  match s.clearLoop s.storage with
  | (s, .error e) => (s, .error e)
  | (s, .ok ()) => ({ s with storage := [], size := 0 }, .ok ())

/-- the first loop of `retainAll(c)` (Layer.java:264-275) -/
def markLoop (s : JLayer) (edited : Bool) : List Nat → JLayer × Except PyErr Bool
  | [] => (s, .ok edited)
  | n :: c => if s.lay n ≠ some 0 then (s, .error .value) else { s with ids := upd s.ids n (-s.ids n) }.markLoop true c

/-- the second loop of `retainAll(c)` (Layer.java:278-288): what it makes of the slots, of `size` and of the ids -/
def dropLoop : List (Option Nat) → Int → (Nat → Int) → List (Option Nat) × Int × (Nat → Int)
  | [], size, ids => ([], size, ids)
  | none :: l, size, ids => let r := dropLoop l size ids; (none :: r.1, r.2)
  | some n :: l, size, ids =>
    if ids n ≥ 0 then let r := dropLoop l (size - 1) ids; (none :: r.1, r.2)
    else let r := dropLoop l size (upd ids n (-ids n)); (some n :: r.1, r.2)

/-- `retainAll(c)` for a collection of nodes (Layer.java:260-295) -/
def retainAll (s : JLayer) (c : List Nat) : JLayer × Except PyErr Bool :=
  match s.markLoop false c with
  | (s, .error e) => (s, .error e)
  | (s, .ok false) => (s, .ok false)
  | (s, .ok true) =>
    let d := dropLoop s.storage s.size s.ids
    match { s with storage := d.1, size := d.2.1, ids := d.2.2 }.shrink with
    | (s, .error e) => (s, .error e)
    | (s, .ok ()) => (s, .ok true)

/-- `sort(comparator)` (Layer.java:143-147). `sorted` is what sorting makes of the first `size` slots; a null slot
among them is NullPointerException in the comparator. -/
def sort (s : JLayer) (sorted : List Nat → List Nat) : JLayer × Except PyErr Unit :=
  match s.compact with
  | (s, .error e) => (s, .error e)
  | (s, .ok ()) =>
    if s.size < 0 ∨ (s.storage.length : Int) < s.size then (s, .error .index)
    else if none ∈ s.storage.take s.size.toNat then (s, .error .attribute)
    else ({ s with storage := (sorted ((s.storage.take s.size.toNat).filterMap id)).map some ++ s.storage.drop s.size.toNat }, .ok ())

/-- `nodespan(left, right)` read to its end, and `nodespanForEach` (Layer.java:213-249) -/
def nodespan (s : JLayer) (l r : Nat) : Except PyErr (List Nat) :=
  if s.lay l ≠ some 0 then .error .data
  else if s.lay r ≠ some 0 then .error .data
  else if s.ids l > s.ids r then .error .data
  else if s.ids l < 0 ∨ (s.storage.length : Int) ≤ s.ids r then .error .index
  else .ok (((s.storage.take ((s.ids r).toNat + 1)).drop (s.ids l).toNat).filterMap id)

/-- a call that changes the layer -/
inductive Op
  | add (n : Nat)
  | remove (n : Nat)
  | removeObject (n : Nat)
  | removeAll (c : List Nat)
  | clear
  | compact

/-- what a call returns -/
inductive Ans
  | unit
  | flag (b : Bool)
  deriving DecidableEq

/-- a call -/
def op (s : JLayer) : Op → JLayer × Except PyErr Ans
  | .add n => ((s.add n).1, (s.add n).2.map fun _ => .flag true)
  | .remove n => ((s.remove n).1, (s.remove n).2.map fun _ => .unit)
  | .removeObject n => ((s.removeObject n).1, (s.removeObject n).2.map .flag)
  | .removeAll c => ((s.removeAll false c).1, (s.removeAll false c).2.map .flag)
  | .clear => ((s.clear).1, (s.clear).2.map fun _ => .unit)
  | .compact => ((s.compact).1, (s.compact).2.map fun _ => .unit)

/-- some calls in order; exceptions are caught -/
def run (s : JLayer) : List Op → JLayer × List (Except PyErr Ans)
  | [] => (s, [])
  | o :: os => (((s.op o).1.run os).1, (s.op o).2 :: ((s.op o).1.run os).2)

end JLayer

end Verif
