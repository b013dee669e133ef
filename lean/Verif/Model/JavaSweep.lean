import Verif.Model.JavaDoc
import Verif.Model.Sweep
/-
Sweeps over spans of the Java library: java/core/src/main/java/se/lth/cs/docria/algorithms/DominantRight.java and
GroupBySpan.java.

The sets and maps of nodes compare by (id, layer) (Node.java:167-182); a node here is an object. That is the same for the
nodes of a document whose layers have distinct ids; a node without a layer has no hash (NullPointerException) and is not
modelled. Positions are `Int`s; they are 0 or more, so differences do not overflow.
-/
namespace Verif
namespace JDoc

/-- `has(field)`, and then `get(field).spanValue()` with its `start()` and `stop()` (Node.java:263-273, Span.java:47-53,
NullValue.java:74-76, Value.java:54-56). A span of a text that is not in the document is `unmodelled`. -/
def bounds (d : JDoc) (n : Nat) (field : Str) : Except PyErr (Option (Int × Int)) :=
  match dget (d.data n) field with
  | none => .ok none
  | some (.span c s) =>
    match dget d.texts c with
    | none => .error .unmodelled
    | some t => .ok (some (t.start s, t.stop s))
  | some .null => .error .attribute
  | some _ => .error .notImplemented

end JDoc

/-! ### DominantRight -/

/-- the two points of a segment (DominantRight.java:63-71); the key is the order of `compareTo` (51-58): offset, then the
start points -/
def jdomMarks {ι : Type} (t : Seg ι) : List ((Int × Int) × Seg ι) :=
  if t.start ≠ t.stop then [((t.start, 0), t), ((t.stop - 1, 1), t)]
  else [((t.start, 0), t), ((t.stop, 1), t)]

/-- the loop over the points (DominantRight.java:77-91): with no open segment, the segment of any point is opened -/
def jdomLoop {ι : Type} : List ((Int × Int) × Seg ι) → Option (Seg ι) → List (Seg ι)
  | [], _ => []
  | ((_, mode), t) :: rest, opened =>
    match opened with
    | some o =>
      if mode = 0 then jdomLoop rest (if t.stop - t.start ≥ o.stop - o.start then some t else some o)
      else if o.obj = t.obj then t :: jdomLoop rest none
      else jdomLoop rest (some o)
    | none => jdomLoop rest (some t)

/-- `resolve(segments)` (DominantRight.java:61-94) -/
def jDominantRight {ι : Type} (segments : List (Seg ι)) : List ι :=
  (jdomLoop (sortByKey (segments.flatMap jdomMarks)) none).map (·.item)

namespace JDoc

/-- the segments of `resolve(nodes, spanfield)` (DominantRight.java:104-111): the value of an unset field is a NullValue,
whose `spanValue()` is NullPointerException -/
def domSegments (d : JDoc) (field : Str) : Nat → List Nat → Except PyErr (List (Seg Nat))
  | _, [] => .ok []
  | k, n :: ns =>
    match d.bounds n field with
    | .error e => .error e
    | .ok none => .error .attribute
    | .ok (some (a, b)) =>
      match d.domSegments field (k + 1) ns with
      | .error e => .error e
      | .ok rest => .ok (⟨k, a, b, n⟩ :: rest)

/-- `resolve(nodes, spanfield)` (DominantRight.java:104-111) -/
def dominantRight (d : JDoc) (ns : List Nat) (field : Str) : Except PyErr (List Nat) :=
  match d.domSegments field 0 ns with
  | .error e => .error e
  | .ok segs => .ok (jDominantRight segs)

/-- the segments of `resolveNodespans` (DominantRight.java:97-102): from the id of the left node to one after the id of the
right one -/
def idSegments (d : JDoc) (field : Str) : Nat → List Nat → Except PyErr (List (Seg Nat))
  | _, [] => .ok []
  | k, n :: ns =>
    match dget (d.data n) field with
    | some (.nodespan l r) =>
      match d.idSegments field (k + 1) ns with
      | .error e => .error e
      | .ok rest => .ok (⟨k, d.ids l, d.ids r + 1, n⟩ :: rest)
    | none | some .null => .error .attribute
    | some _ => .error .notImplemented

/-- `resolveNodespans(nodes, nodespanField)` (DominantRight.java:97-102) -/
def dominantNodespans (d : JDoc) (ns : List Nat) (field : Str) : Except PyErr (List Nat) :=
  match d.idSegments field 0 ns with
  | .error e => .error e
  | .ok segs => .ok (jDominantRight segs)

end JDoc

/-! ### GroupBySpan -/

open World (Mark Group bucketAdd Sweep)

/-- the two points of a group node (layer null) or a node of a layer (GroupBySpan.java:165-176, 187-198); the key is offset
and type -/
def jPoints (layer : Option Str) (n : Nat) (b : Int × Int) : List Mark :=
  match layer with
  | none => if b.1 ≠ b.2 then [((b.1, 0), (none, n)), ((b.2, -2), (none, n))] else [((b.1, 3), (none, n)), ((b.2, 5), (none, n))]
  | some l =>
    if b.1 ≠ b.2 then [((b.1, 1), (some l, n)), ((b.2, -1), (some l, n))] else [((b.1, 4), (some l, n)), ((b.2, 6), (some l, n))]

/-- `compareTo(o) <= 0` of the layers of two points (GroupBySpan.java:82-89) -/
def jLayerLe : Option Str → Option Str → Bool
  | none, _ => true
  | some _, none => false
  | some a, some b => !unitsLt (utf16 b) (utf16 a)

/-- `compareTo(o) <= 0` of points (GroupBySpan.java:75-92) -/
def jPointLe (a b : Mark) : Bool :=
  if a.1.1 ≠ b.1.1 then decide (a.1.1 < b.1.1)
  else if a.1.2 ≠ b.1.2 then decide (a.1.2 < b.1.2)
  else jLayerLe a.2.1 b.2.1

/-- put a point before all that are not less -/
def jInsert (x : Mark) : List Mark → List Mark
  | [] => [x]
  | y :: l => if jPointLe x y then x :: y :: l else y :: jInsert x l

/-- `Collections.sort(points)` (GroupBySpan.java:330): stable -/
def jSort (l : List Mark) : List Mark := l.foldr jInsert []

/-- a Builder (GroupBySpan.java:95-107) -/
structure JGroupBy where
  groups : List Nat
  field : Str
  layers : Dict Str (List Nat)
  fields : Dict Str Str
  cover : Bool
  empties : Bool

namespace JGroupBy

/-- `new Builder(groups, groupSpanField)` (GroupBySpan.java:99-107) -/
def new (groups : List Nat) (field : Str) : JGroupBy := ⟨groups, field, [], [], false, false⟩

/-- `builder(groups, spanfield)` of a list of nodes (GroupBySpan.java:33-35): the field is "text" in any case -/
def ofList (groups : List Nat) (_spanfield : Str) : JGroupBy := new groups "text".toList

/-- the check of a field of a layer (GroupBySpan.java:50-56, 140-146) -/
def checkField (L : JLay) (field : Str) : Except PyErr Unit :=
  match dget L.fields field with
  | none => .error .value
  | some t => if t.name ≠ .span then .error .value else .ok ()

/-- `builder(doc, grouplayer, spanfield)` (GroupBySpan.java:45-59); NullPointerException if there is no such layer -/
def ofLayer (d : JDoc) (layer field : Str) : Except PyErr JGroupBy :=
  match dget d.layers layer with
  | none => .error .attribute
  | some L =>
    match checkField L field with
    | .error e => .error e
    | .ok () => .ok (new L.nodes field)

/-- `group(name, nodes, spanfield)` (GroupBySpan.java:113-117) -/
def group (b : JGroupBy) (name : Str) (nodes : List Nat) (field : Str) : JGroupBy :=
  { b with layers := tput b.layers name nodes, fields := tput b.fields name field }

/-- `group(name, doc.layer(layer), spanfield)` (GroupBySpan.java:119-149) -/
def groupLayer (b : JGroupBy) (d : JDoc) (name layer field : Str) : Except PyErr JGroupBy :=
  match dget d.layers layer with
  | none => .error .attribute
  | some L =>
    match checkField L field with
    | .error e => .error e
    | .ok () => .ok (b.group name L.nodes field)

/-- `resolution(COVER)` or `resolution(INTERSECT)` (GroupBySpan.java:151-154) -/
def resolution (b : JGroupBy) (cover : Bool) : JGroupBy := { b with cover := cover }

/-- `includeEmptyGroups` (GroupBySpan.java:156-159) -/
def includeEmpty (b : JGroupBy) (e : Bool) : JGroupBy := { b with empties := e }

/-- the points of nodes (GroupBySpan.java:162-178, 184-200) -/
def pointsOf (d : JDoc) (layer : Option Str) (field : Str) : List Nat → Except PyErr (List Mark)
  | [] => .ok []
  | n :: ns =>
    match d.bounds n field with
    | .error e => .error e
    | .ok o =>
      match pointsOf d layer field ns with
      | .error e => .error e
      | .ok rest => .ok (match o with
        | some b => jPoints layer n b ++ rest
        | none => rest)

/-- `addLayers` (GroupBySpan.java:181-202); without an entry in `layerSpanfield` the field is null: NullPointerException -/
def layerPoints (d : JDoc) (fields : Dict Str Str) : Dict Str (List Nat) → Except PyErr (List Mark)
  | [] => .ok []
  | (l, ns) :: rest =>
    match dget fields l with
    | none => .error .attribute
    | some f =>
      match pointsOf d (some l) f ns with
      | .error e => .error e
      | .ok ms =>
        match layerPoints d fields rest with
        | .error e => .error e
        | .ok rs => .ok (ms ++ rs)

/-- whether a node of a layer goes into the list of a group it is open with (GroupBySpan.java:253-267, 282-290). The spans
that are read here were read for the points before. -/
def keep (b : JGroupBy) (d : JDoc) (g : Nat) (l : Str) (n : Nat) : Bool :=
  if b.cover then
    match d.bounds g b.field, d.bounds n ((dget b.fields l).getD []) with
    | .ok (some p), .ok (some s) => decide (s.1 ≥ p.1) && decide (s.2 ≤ p.2)
    | _, _ => false
  else true

/-- one point (GroupBySpan.java:243-310). `open_nodes`, a map from layers to sets, is the list of its pairs; `node2group` is
the newest group of a node. HashSets run in no particular order; here it is that of insertion. -/
def step (b : JGroupBy) (d : JDoc) (s : Sweep) (m : Mark) : Except PyErr Sweep :=
  if m.1.2 = 0 ∨ m.1.2 = 3 then
    .ok { s with
      openGroups := if m.2.2 ∈ s.openGroups then s.openGroups else s.openGroups ++ [m.2.2]
      gl := (m.2.2, (dkeys b.layers).map (fun l => (l, ((s.openNodes.filter (fun x => decide (x.1 = l))).map (·.2)).filter
        (b.keep d m.2.2 l)))) :: s.gl }
  else if m.1.2 = 1 ∨ m.1.2 = 4 then
    match m.2.1 with
    | none => .error .attribute
    | some l => .ok { s with
        openNodes := if (l, m.2.2) ∈ s.openNodes then s.openNodes else s.openNodes ++ [(l, m.2.2)]
        gl := s.openGroups.foldl (fun gl g => if b.keep d g l m.2.2 then bucketAdd g l m.2.2 gl else gl) s.gl }
  else if m.1.2 = -2 ∨ m.1.2 = 5 then .ok { s with openGroups := s.openGroups.erase m.2.2 }
  else if m.1.2 = -1 ∨ m.1.2 = 6 then
    match m.2.1 with
    | none => .error .attribute
    | some l => .ok { s with openNodes := s.openNodes.erase (l, m.2.2) }
  else .error .unmodelled

/-- `sweep(points)` (GroupBySpan.java:235-313) -/
def sweep (b : JGroupBy) (d : JDoc) : Sweep → List Mark → Except PyErr Sweep
  | s, [] => .ok s
  | s, m :: ms =>
    match b.step d s m with
    | .error e => .error e
    | .ok s => b.sweep d s ms

/-- `empty()` of a group (GroupBySpan.java:24-26) -/
def emptyGroup (g : Group) : Bool := g.2.all (fun e => e.2.isEmpty)

/-- `solve()` with `postprocess` (GroupBySpan.java:315-332) -/
def solve (b : JGroupBy) (d : JDoc) : Except PyErr (List Group) :=
  match pointsOf d none b.field b.groups with
  | .error e => .error e
  | .ok gp =>
    match layerPoints d b.fields b.layers with
    | .error e => .error e
    | .ok lp =>
      match b.sweep d ⟨[], [], []⟩ (jSort (gp ++ lp)) with
      | .error e => .error e
      | .ok s => .ok (if b.empties then s.gl.reverse else s.gl.reverse.filter (fun g => !emptyGroup g))

end JGroupBy
end Verif
