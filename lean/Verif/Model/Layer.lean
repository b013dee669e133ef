import Verif.Model.World
/-
NodeLayerCollection: mutation, iteration, navigation. model.py:1286-1749.
Operations that can raise after mutating return the mutated heap together with the exception.
-/
namespace Verif
namespace World

/-- result of a mutating call: the heap afterwards and the exception, if any -/
abbrev Res := World × Option PyErr

/-- body of the loops at model.py:1463-1466 and 1496-1500: bind and append one node. -/
def appendNode (w : World) (L : LayerId) (n : NodeId) : World :=
  let len := (w.layers L).slots.length
  let w := w.setId n len
  let w := w.setColl n (some L)
  let w := w.setSlots L ((w.layers L).slots ++ [some n])
  w.setNum L ((w.layers L).num + 1)

/-- `layer.add(*nodes)` (model.py:1460-1468), arguments being nodes. -/
def addNodes (w : World) (L : LayerId) : List NodeId → World
  | [] => w
  | n :: ns => addNodes (w.appendNode L n) L ns

/-- `layer.add(**kwargs)` (model.py:1469-1477). When validation raises, the new node object is not
reachable by anybody, so the heap before the call is returned. -/
def addNew (w : World) (L : LayerId) (kw : Dict Str Value) : World × Except PyErr NodeId :=
  let (w1, n) := w.newNode (dupdate (w.layers L).defaults kw)
  let w2 := (w1.setId n (w.layers L).slots.length).setColl n (some L)
  match w2.validate L n with
  | .error e => (w, .error e)
  | .ok () =>
    let w3 := w2.setSlots L ((w2.layers L).slots ++ [some n])
    (w3.setNum L ((w3.layers L).num + 1), .ok n)

/-- first loop of `add_many` (model.py:1492-1500). -/
def addManyLoop (w : World) (L : LayerId) : List NodeId → Res
  | [] => (w, none)
  | n :: ns =>
    if (w.nodes n).coll ≠ none then (w, some .assertion)
    else addManyLoop (w.appendNode L n) L ns

/-- validation loop of `add_many` (model.py:1502-1504). -/
def validateAll (w : World) (L : LayerId) : List NodeId → Option PyErr
  | [] => none
  | n :: ns => match w.validate L n with
    | .error e => some e
    | .ok () => validateAll w L ns

/-- `n[k] = default` for each missing key (model.py:1509-1510); iteration order of the key set only
affects the order in which keys are inserted, here the order of the defaults. -/
def fillMissing (fields defaults : Dict Str Value) : Dict Str Value :=
  defaults.foldl (fun d kv => if (dget d kv.1).isSome then d else dset d kv.1 kv.2) fields

/-- loop at model.py:1508-1510 over `self._nodes[start_pos:]`. -/
def fillLoop (w : World) (defaults : Dict Str Value) : List (Option NodeId) → World
  | [] => w
  | none :: rest => fillLoop w defaults rest
  | some n :: rest =>
    fillLoop (w.modNode n (fun r => { r with fields := fillMissing r.fields defaults })) defaults rest

/-- `layer.add_many(nodes, default_fill, full_validation)` (model.py:1479-1510) for a re-iterable
argument (a list). -/
def addMany (w : World) (L : LayerId) (ns : List NodeId) (fill validate : Bool) : Res :=
  let start := (w.layers L).slots.length
  match w.addManyLoop L ns with
  | (w, some e) => (w, some e)
  | (w, none) =>
    match (if validate then w.validateAll L ns else none) with
    | some e => (w, some e)
    | none =>
      if fill && decide ((w.layers L).defaults.length > 0) then
        (w.fillLoop (w.layers L).defaults ((w.layers L).slots.drop start), none)
      else (w, none)

/-- loop of `compact` (model.py:1522-1527): read slot `k`, write slot `i`. -/
def compactLoop (L : LayerId) : List Nat → Nat → World → World × Nat
  | [], i, w => (w, i)
  | k :: ks, i, w =>
    match (w.layers L).slots[k]? with
    | some (some n) =>
      let w := w.setSlots L ((w.layers L).slots.set i (some n))
      let w := w.setId n i
      compactLoop L ks (i + 1) w
    | _ => compactLoop L ks i w

/-- `layer.compact()` (model.py:1512-1530). -/
def compact (w : World) (L : LayerId) : World :=
  if ((w.layers L).slots.length : Int) = (w.layers L).num then w
  else
    let (w, i) := compactLoop L (List.range (w.layers L).slots.length) 0 w
    w.setSlots L ((w.layers L).slots.take i)

/-- `layer.__iter__` (model.py:1655-1660). -/
def iter (w : World) (L : LayerId) : List (Option NodeId) :=
  if (w.layers L).num = (w.layers L).slots.length then (w.layers L).slots
  else (w.layers L).slots.filter Option.isSome

/-- `len(layer)` (model.py:1671-1672). -/
def len (w : World) (L : LayerId) : Int := (w.layers L).num

/-- `n._id = i` along an iteration, counting up (model.py:1549-1550 and 1975-1976). -/
def assignIds (nodes : NodeId → NodeRec) : Int → List (Option NodeId) → (NodeId → NodeRec)
  | _, [] => nodes
  | i, none :: rest => assignIds nodes (i + 1) rest
  | i, some n :: rest => assignIds (upd nodes n { nodes n with id := i }) (i + 1) rest

/-- `layer.sort(keyfn)` (model.py:1541-1550). `le a b` is `not (key b < key a)`; Python's `list.sort`
is modelled by the stable merge sort of Lean's core library. A `None` slot (impossible after compaction
in a consistent layer) would be handed to the key function: `unmodelled`. -/
def sort (w : World) (L : LayerId) (le : NodeId → NodeId → Bool) : Res :=
  let w := w.compact L
  if (w.layers L).slots.all Option.isSome then
    let ns := ((w.layers L).slots.filterMap id).mergeSort le
    let w := w.setSlots L (ns.map some)
    ({ w with nodes := assignIds w.nodes 0 ((w.iter L).take (w.len L).toNat) }, none)
  else (w, some .unmodelled)

/-- `self._nodes[i] = None` with Python list indexing -/
def clearSlot (s : List (Option NodeId)) (i : Int) : Except PyErr (List (Option NodeId)) :=
  let j := if i < 0 then i + s.length else i
  if 0 ≤ j ∧ j < s.length then .ok (s.set j.toNat none) else .error .index

/-- removal of one node without the compaction check (model.py:1559-1564 and 1570-1575). -/
def removeCore (w : World) (L : LayerId) (n : NodeId) : Res :=
  if (w.nodes n).coll ≠ some L then (w, some .value)
  else match clearSlot (w.layers L).slots (w.nodes n).id with
    | .error e => (w, some e)
    | .ok s =>
      let w := w.setSlots L s
      let w := w.setNum L ((w.layers L).num - 1)
      (w.setColl n none, none)

/-- the check at model.py:1586-1587; `0.75 * len > num` as `3 * len > 4 * num`. -/
def autoCompact (w : World) (L : LayerId) : World :=
  if 3 * ((w.layers L).slots.length : Int) > 4 * (w.layers L).num ∧ (w.layers L).slots.length > 16
  then w.compact L else w

/-- `layer.remove(node)` (model.py:1558-1564, 1586-1587). -/
def remove (w : World) (L : LayerId) (n : NodeId) : Res :=
  match w.removeCore L n with
  | (w, some e) => (w, some e)
  | (w, none) => (w.autoCompact L, none)

/-- loop of `layer.remove(iterable)` (model.py:1568-1580); `none` elements are skipped (1576). -/
def removeLoop (w : World) (L : LayerId) : List (Option NodeId) → Res
  | [] => (w, none)
  | none :: ns => removeLoop w L ns
  | some n :: ns =>
    match w.removeCore L n with
    | (w, some e) => (w, some e)
    | (w, none) => removeLoop w L ns

/-- `layer.remove(iterable)` (model.py:1565-1587). -/
def removeMany (w : World) (L : LayerId) (ns : List (Option NodeId)) : Res :=
  match w.removeLoop L ns with
  | (w, some e) => (w, some e)
  | (w, none) => (w.autoCompact L, none)

/-- `node.detach()` (model.py:114-116). -/
def detach (w : World) (n : NodeId) : Res :=
  match (w.nodes n).coll with
  | none => (w, some .attribute)
  | some L => w.remove L n

/-- marking loop of `retain` (model.py:1593-1600). -/
def retainMark (w : World) (L : LayerId) : List NodeId → Res
  | [] => (w, none)
  | n :: ns =>
    if (w.nodes n).coll ≠ some L then (w, some .value)
    else if (w.nodes n).id ≥ 0 then retainMark (w.setId n (-((w.nodes n).id + 1))) L ns
    else retainMark w L ns

/-- second loop of `retain` (model.py:1606-1615); a `None` slot has no `_id`: AttributeError. -/
def retainLoop (L : LayerId) : List Nat → Nat → World → (World × Nat) × Option PyErr
  | [], k, w => ((w, k), none)
  | i :: is, k, w =>
    match (w.layers L).slots[i]? with
    | some (some n) =>
      if (w.nodes n).id ≥ 0 then
        let w := w.setColl n none
        retainLoop L is k (w.setNum L ((w.layers L).num - 1))
      else
        let w := w.setSlots L ((w.layers L).slots.set k (some n))
        retainLoop L is (k + 1) (w.setId n k)
    | some none => ((w, k), some .attribute)
    | none => ((w, k), some .index)

/-- `layer.retain(nodes)` (model.py:1589-1618). -/
def retain (w : World) (L : LayerId) (ns : List NodeId) : Res :=
  match w.retainMark L ns with
  | (w, some e) => (w, some e)
  | (w, none) =>
    match retainLoop L (List.range (w.layers L).slots.length) 0 w with
    | ((w, _), some e) => (w, some e)
    | ((w, k), none) => (w.setSlots L ((w.layers L).slots.take k), none)

/-- first non-None slot along a list of indices (`for i in …: if self._nodes[i] is not None: return`). -/
def firstAt (s : List (Option NodeId)) : List Nat → Option NodeId
  | [] => none
  | i :: is => match s[i]? with
    | some (some n) => some n
    | _ => firstAt s is

/-- `layer.left(n)` (model.py:1620-1628). -/
def left (w : World) (L : LayerId) (n : NodeId) : Except PyErr (Option NodeId) :=
  if (w.nodes n).coll ≠ some L then .error .assertion
  else do
    let i ← w.nodeI n
    pure (firstAt (w.layers L).slots (List.range i.toNat).reverse)

/-- `layer.right(n)` (model.py:1630-1638). -/
def right (w : World) (L : LayerId) (n : NodeId) : Except PyErr (Option NodeId) :=
  if (w.nodes n).coll ≠ some L then .error .assertion
  else do
    let i ← w.nodeI n
    let len := (w.layers L).slots.length
    pure (firstAt (w.layers L).slots (List.range' (i + 1).toNat (len - (i + 1).toNat)))

/-- `node.left` (model.py:154-157): AttributeError on a dangling node. -/
def nodeLeft (w : World) (n : NodeId) : Except PyErr (Option NodeId) :=
  match (w.nodes n).coll with
  | none => .error .attribute
  | some L => w.left L n

/-- `node.right` (model.py:159-162). -/
def nodeRight (w : World) (n : NodeId) : Except PyErr (Option NodeId) :=
  match (w.nodes n).coll with
  | none => .error .attribute
  | some L => w.right L n

/-- `layer.first()` (model.py:1707-1708). -/
def first (w : World) (L : LayerId) : Option NodeId :=
  ((w.layers L).slots.filterMap id).head?

/-- `layer.last()` (model.py:1710-1711). -/
def last (w : World) (L : LayerId) : Option NodeId :=
  firstAt (w.layers L).slots (List.range (w.layers L).slots.length).reverse

/-- `layer.iter_nodespan(l, r)` (model.py:1640-1653). The index range is taken over naturals: ids of
bound nodes are never negative in a consistent heap. -/
def iterNodespan (w : World) (L : LayerId) (l r : NodeId) : Except PyErr (List NodeId) := do
  let i ← w.nodeI l
  let j ← w.nodeI r
  if ¬ i ≤ j then .error .assertion
  else if (w.nodes l).coll ≠ (w.nodes r).coll ∨ (w.nodes r).coll ≠ some L then .error .assertion
  else
    let items ← (List.range' i.toNat (j + 1 - i).toNat).mapM
      (fun k : Nat => pyIndex (w.layers L).slots (k : Int))
    pure (items.filterMap id)

/-- `node.iter_span(other)` (model.py:164-177). -/
def iterSpan (w : World) (a b : NodeId) : Except PyErr (List NodeId) := do
  let i ← w.nodeI a
  let j ← w.nodeI b
  match (w.nodes a).coll with
  | none => .error .attribute
  | some L => if i ≤ j then w.iterNodespan L a b else w.iterNodespan L b a

/-- `NodeSpan.__init__` checks (model.py:402-409). -/
def nodeSpanMk (w : World) (l r : NodeId) : Except PyErr Value := do
  if (w.nodes l).coll = none then .error .attribute
  else do
    let i ← w.nodeI l
    let j ← w.nodeI r
    if ¬ i ≤ j then .error .assertion
    else if (w.nodes l).coll ≠ (w.nodes r).coll then .error .assertion
    else pure (.nodespan l r)

/-- `NodeSpan.__iter__` (model.py:411-413). -/
def nodeSpanIter (w : World) (l r : NodeId) : Except PyErr (List NodeId) := do
  let i ← w.nodeI l
  let j ← w.nodeI r
  if ¬ i ≤ j then .error .assertion else w.iterSpan l r

/-- `DataTypeNoderefList.is_valid` of a NodeSpan, which is a NodeCollection (model.py:1063-1066, 391): its nodes are
looked at one by one. `DataType.isValid` leaves this case out -/
def validNodeSpanMany (w : World) (t : DataType) (l r : NodeId) : Except PyErr Bool := do
  let layer ← t.opt "layer"
  let ns ← w.nodeSpanIter l r
  pure (ns.all (fun n => DataType.boundTo w n layer))

/-- `layer[i]` for an int (model.py:1689-1690): may be `None` for a gap. -/
def getIndex (w : World) (L : LayerId) (i : Int) : Except PyErr (Option NodeId) :=
  pyIndex (w.layers L).slots i

/-- `layer[a:b]` (model.py:1696-1697). -/
def getSlice (w : World) (L : LayerId) (a b : Option Int) : List NodeId :=
  (pySlice (w.layers L).slots a b).filterMap id

/-- `n in layer` (model.py:1748-1749). -/
def contains (w : World) (L : LayerId) (n : NodeId) : Bool := decide ((w.nodes n).coll = some L)

/-- `n.is_dangling()` (model.py:118-120). -/
def isDangling (w : World) (n : NodeId) : Bool := (w.nodes n).coll.isNone

/-- `n[k] = v` (dict method). -/
def setField (w : World) (n : NodeId) (k : Str) (v : Value) : World :=
  w.modNode n (fun r => { r with fields := dset r.fields k v })

/-- `del n[k]` (dict method). -/
def delField (w : World) (n : NodeId) (k : Str) : World :=
  w.modNode n (fun r => { r with fields := ddel r.fields k })

/-- `doc.add_layer(name, **fields)` (model.py:1819-1835 with 1238-1248 and 1292-1299). Keyword arguments
have distinct names, so the `already exists` check cannot fire. A layer of the same name is replaced. -/
def addLayer (w : World) (name : Str) (fields : Dict Str DataType) : World × LayerId :=
  ({ w with
      layers := upd w.layers w.nextL
        { name := name, fields := fields, defaults := computeDefaults fields }
      dl := dset w.dl name w.nextL
      nextL := w.nextL + 1 }, w.nextL)

/-- `doc.add_text(name, text)` (model.py:1807-1817). -/
def addText (w : World) (name text : Str) : World × TextId :=
  ({ w with
      texts := upd w.texts w.nextT ⟨w.nextT, name, text⟩
      dt := dset w.dt name w.nextT
      nextT := w.nextT + 1 }, w.nextT)

end World
end Verif
