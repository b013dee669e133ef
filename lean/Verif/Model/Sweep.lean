import Verif.Model.Layer
import Verif.Py.Sort
/-
Sweeps over spans: algorithm.py:197-464 (span_translate, is_covered_by, group_by_span, dominant_right,
dominant_right_span).
-/
namespace Verif

/-! ### dominant_right (algorithm.py:415-464) -/

/-- A tuple `(start, stop, data)` (algorithm.py:415-424); `obj` is the identity of the tuple object. -/
structure Seg (ι : Type) where
  obj : Nat
  start : Int
  stop : Int
  item : ι
  deriving DecidableEq, Repr

/-- the two marks of one tuple (algorithm.py:424-431) -/
def domMarks {ι : Type} (t : Seg ι) : List ((Int × Int) × Seg ι) :=
  [((t.start, 0), t), (((if t.start ≠ t.stop then t.stop - 1 else t.stop), 1), t)]

/-- the sweep (algorithm.py:435-449); yields the selected tuples -/
def domLoop {ι : Type} : List ((Int × Int) × Seg ι) → Option (Seg ι) → List (Seg ι)
  | [], _ => []
  | ((_, mode), t) :: rest, opened =>
    if mode = 0 then
      match opened with
      | some o => domLoop rest (if o.stop - o.start ≤ t.stop - t.start then some t else some o)
      | none => domLoop rest (some t)
    else
      match opened with
      | some o => if o.obj = t.obj then t :: domLoop rest none else domLoop rest (some o)
      | none => domLoop rest none

/-- `dominant_right` (algorithm.py:415-451). -/
def dominantRight {ι : Type} (segments : List (Seg ι)) : List ι :=
  (domLoop (sortByKey (segments.flatMap domMarks)) none).map (·.item)

namespace World

/-- `n[field].start`, `n[field].stop` guarded by `field in n` (e.g. algorithm.py:323-324): `none` when the
field is unset; a value that is not a text span has no `start`: AttributeError. -/
def spanBounds (w : World) (n : NodeId) (field : Str) : Except PyErr (Option (Int × Int)) :=
  match dget (w.nodes n).fields field with
  | none => .ok none
  | some (.span _ a b) => .ok (some (a, b))
  | some _ => .error .attribute

/-- the list comprehension of `dominant_right_span` (algorithm.py:463): every tuple is a new object -/
def domSegments (w : World) (field : Str) : Nat → List NodeId → Except PyErr (List (Seg Nat))
  | _, [] => .ok []
  | k, n :: ns =>
    match w.spanBounds n field with
    | .error e => .error e
    | .ok b =>
      match w.domSegments field (k + 1) ns with
      | .error e => .error e
      | .ok rest => .ok (match b with
        | some (a, b) => ⟨k, a, b, n⟩ :: rest
        | none => rest)

/-- `dominant_right_span` (algorithm.py:454-464). -/
def dominantRightSpan (w : World) (ns : List NodeId) (field : Str) : Except PyErr (List NodeId) :=
  match w.domSegments field 0 ns with
  | .error e => .error e
  | .ok segs => .ok (dominantRight segs)

/-! ### group_by_span (algorithm.py:280-412) -/

/-- A mark: key and (layer name or None, node) (algorithm.py:319-350). -/
abbrev Mark := (Int × Int) × (Option Str × Nat)

/-- the two marks of a group node (algorithm.py:326-332) and of a layer node (344-350) -/
def spanMarks (layer : Option Str) (n : NodeId) (b : Int × Int) : List Mark :=
  if b.1 = b.2 then [((b.1, 3), (layer, n)), ((b.2, 4), (layer, n))]
  else match layer with
    | none => [((b.1, 0), (layer, n)), ((b.2, -2), (layer, n))]
    | some _ => [((b.1, 1), (layer, n)), ((b.2, -1), (layer, n))]

/-- the marks of a list of nodes (algorithm.py:322-332, 340-350) -/
def marksOf (w : World) (layer : Option Str) (field : Str) : List NodeId → Except PyErr (List Mark)
  | [] => .ok []
  | n :: ns =>
    match w.spanBounds n field with
    | .error e => .error e
    | .ok b =>
      match w.marksOf layer field ns with
      | .error e => .error e
      | .ok rest => .ok (match b with
        | some b => spanMarks layer n b ++ rest
        | none => rest)

/-- the field name of a layer (algorithm.py:316-317, 335-338): "text" for the default mapping -/
def fieldFor (lf : Option (Dict Str Str)) (layer : Str) : Except PyErr Str :=
  match lf with
  | none => .ok "text".toList
  | some d => match dget d layer with
    | some f => .ok f
    | none => .error .key

/-- the marks of all layers (algorithm.py:334-350) -/
def layerMarks (w : World) (lf : Option (Dict Str Str)) : Dict Str (List NodeId) → Except PyErr (List Mark)
  | [] => .ok []
  | (layer, ns) :: rest =>
    match fieldFor lf layer with
    | .error e => .error e
    | .ok f =>
      match w.marksOf (some layer) f ns with
      | .error e => .error e
      | .ok ms =>
        match w.layerMarks lf rest with
        | .error e => .error e
        | .ok rs => .ok (ms ++ rs)

/-- One group and its buckets. -/
abbrev Group := Nat × Dict Str (List Nat)

/-- `groups[g][layer].append(node)` (algorithm.py:378): the dict in `groups` is the one last added to
`group_list` for that node; `gl` is `group_list`, newest first. -/
def bucketAdd (g : Nat) (layer : Str) (n : Nat) : List Group → List Group
  | [] => []
  | (g', d) :: rest =>
    if g' = g then (g', dset d layer ((dget d layer).getD [] ++ [n])) :: rest
    else (g', d) :: bucketAdd g layer n rest

/-- The state of the sweep: `group_list` newest first, the set `open_nodes`, the set `open_groups`
(algorithm.py:364-367). Python iterates sets in an unspecified order; here it is the order of insertion. -/
structure Sweep where
  gl : List Group
  openNodes : List (Str × Nat)
  openGroups : List Nat

/-- one mark (algorithm.py:371-393). Step 2 (355-361) puts every mark in a list of its own, because
`current_group` is never assigned. -/
def sweepStep (layers : List Str) (s : Sweep) (m : Mark) : Except PyErr Sweep :=
  if 0 ≤ m.1.2 ∧ m.1.2 < 4 then
    match m.2 with
    | (some layer, n) => .ok { s with
        openNodes := if (layer, n) ∈ s.openNodes then s.openNodes else s.openNodes ++ [(layer, n)]
        gl := s.openGroups.foldl (fun gl g => bucketAdd g layer n gl) s.gl }
    | (none, g) => .ok { s with
        gl := (g, s.openNodes.foldl (fun d x => dset d x.1 ((dget d x.1).getD [] ++ [x.2]))
          (layers.map (fun l => (l, [])))) :: s.gl
        openGroups := if g ∈ s.openGroups then s.openGroups else s.openGroups ++ [g] }
  else
    match m.2 with
    | (some layer, n) =>
      if (layer, n) ∈ s.openNodes then .ok { s with openNodes := s.openNodes.erase (layer, n) } else .error .key
    | (none, g) =>
      if g ∈ s.openGroups then .ok { s with openGroups := s.openGroups.erase g } else .error .key

/-- the loop over the marks (algorithm.py:369-395) -/
def sweepLoop (layers : List Str) : Sweep → List Mark → Except PyErr Sweep
  | s, [] => .ok s
  | s, m :: ms =>
    match sweepStep layers s m with
    | .error e => .error e
    | .ok s => sweepLoop layers s ms

/-- `is_covered_by` (algorithm.py:280-287) on (start, stop) pairs -/
def isCoveredBy (a b : Int × Int) : Bool := decide (a.1 ≥ b.1) && decide (a.2 ≤ b.2)

/-- the spans read again in step 4 (algorithm.py:401-403): `n[field]` raises KeyError when unset -/
def spanOf! (w : World) (n : NodeId) (field : Str) : Except PyErr (Int × Int) :=
  match w.spanBounds n field with
  | .error e => .error e
  | .ok none => .error .key
  | .ok (some b) => .ok b

/-- `[n for n in v if is_covered_by(n[field], group_span)]` (algorithm.py:403) -/
def coverFilter (w : World) (field : Str) (g : Int × Int) : List NodeId → Except PyErr (List NodeId)
  | [] => .ok []
  | n :: ns =>
    match w.spanOf! n field with
    | .error e => .error e
    | .ok b =>
      match w.coverFilter field g ns with
      | .error e => .error e
      | .ok rest => .ok (if isCoveredBy b g then n :: rest else rest)

/-- the dict comprehension of step 4 (algorithm.py:402-405). The code looks the field name up once per node
and not at all for an empty bucket; the lookup cannot fail here, it succeeded for every layer at 336. -/
def coverBuckets (w : World) (lf : Option (Dict Str Str)) (g : Int × Int) :
    Dict Str (List NodeId) → Except PyErr (Dict Str (List NodeId))
  | [] => .ok []
  | (layer, ns) :: rest =>
    match fieldFor lf layer with
    | .error e => .error e
    | .ok f =>
      match w.coverFilter f g ns with
      | .error e => .error e
      | .ok ns' =>
        match w.coverBuckets lf g rest with
        | .error e => .error e
        | .ok rest' => .ok ((layer, ns') :: rest')

/-- step 4 (algorithm.py:397-405) -/
def coverGroups (w : World) (gf : Str) (lf : Option (Dict Str Str)) : List Group → Except PyErr (List Group)
  | [] => .ok []
  | (g, d) :: rest =>
    match w.spanOf! g gf with
    | .error e => .error e
    | .ok b =>
      match w.coverBuckets lf b d with
      | .error e => .error e
      | .ok d' =>
        match w.coverGroups gf lf rest with
        | .error e => .error e
        | .ok rest' => .ok ((g, d') :: rest')

/-- `sum(map(len, grp[1].values())) > 0` (algorithm.py:409) -/
def nonEmptyGroup (g : Group) : Bool := decide (0 < (g.2.map (fun e => e.2.length)).sum)

/-- `group_by_span` (algorithm.py:290-412); `cover` is `resolution == "cover"`; `lf` is `layer_span_field`. -/
def groupBySpan (w : World) (groupNodes : List NodeId) (layerNodes : Dict Str (List NodeId)) (cover : Bool)
    (gf : Str) (lf : Option (Dict Str Str)) (includeEmpty : Bool) : Except PyErr (List Group) :=
  match w.marksOf none gf groupNodes with
  | .error e => .error e
  | .ok gm =>
    match w.layerMarks lf layerNodes with
    | .error e => .error e
    | .ok lm =>
      match sweepLoop (layerNodes.map (·.1)) ⟨[], [], []⟩ (sortByKey (gm ++ lm)) with
      | .error e => .error e
      | .ok s =>
        match (if cover then w.coverGroups gf lf s.gl.reverse else .ok s.gl.reverse) with
        | .error e => .error e
        | .ok gl => .ok (if includeEmpty then gl else gl.filter nonEmptyGroup)

/-! ### span_translate (algorithm.py:197-277) -/

/-- A mark of `span_translate`: key and (0 mapping | 1 remapped, node) (algorithm.py:226-241). -/
abbrev TMark := (Int × Int) × (Bool × Nat)

/-- marks of the mapping layer (algorithm.py:228-233); iterating a layer gives nodes; a gap would be indexed:
TypeError -/
def mappingMarks (w : World) (source : Str) : List (Option NodeId) → Except PyErr (List TMark)
  | [] => .ok []
  | none :: _ => .error .type
  | some m :: ms =>
    match w.spanOf! m source with
    | .error e => .error e
    | .ok (a, b) =>
      match w.mappingMarks source ms with
      | .error e => .error e
      | .ok rest => .ok (((a, 0), (false, m)) :: ((b, -1), (false, m)) :: rest)

/-- marks of the remapped layer (algorithm.py:235-241), only for nodes without the target field -/
def remapMarks (w : World) (source target : Str) : List (Option NodeId) → Except PyErr (List TMark)
  | [] => .ok []
  | none :: _ => .error .type
  | some n :: ns =>
    if (dget (w.nodes n).fields target).isSome then w.remapMarks source target ns
    else
      match w.spanOf! n source with
      | .error e => .error e
      | .ok (a, b) =>
        match w.remapMarks source target ns with
        | .error e => .error e
        | .ok rest => .ok (((a, 1), (true, n)) :: ((b - 1, 2), (true, n)) :: rest)

/-- The state of the sweep: the active interval (source start, target start) and `remap_start_offsets`
(algorithm.py:246-249). -/
structure TState where
  active : Option (Int × Int)
  offsets : Dict Int Int

/-- one mark (algorithm.py:250-277); `T` is the target text. A slice of the target text may raise. -/
def translateStep (T : TextId) (target rtarget : Str) (w : World) (s : TState) (m : TMark) :
    (World × TState) × Option PyErr :=
  match m with
  | ((marker, typ), (false, n)) =>
    if typ = -1 then ((w, { s with active := none }), none)
    else if typ = 0 then
      match s.active with
      | some _ => ((w, s), some .assertion)
      | none =>
        match w.spanOf! n target with
        | .error e => ((w, s), some e)
        | .ok b => ((w, { s with active := some (marker, b.1) }), none)
    else ((w, s), some .assertion)
  | ((marker, typ), (true, n)) =>
    match s.active with
    | none => ((w, s), some .assertion)
    | some (a, t) =>
      if typ = 1 then ((w, { s with offsets := dset s.offsets (w.nodes n).id (marker - a + t) }), none)
      else if typ = 2 then
        match dget s.offsets (w.nodes n).id with
        | none => ((w, s), some .assertion)
        | some start =>
          match (w.texts T).getSlice (some start) (some (marker - a + t + 1)) none with
          | .error e => ((w, s), some e)
          | .ok sp => ((w.setField n rtarget (.span T sp.start sp.stop), s), none)
      else ((w, s), none)

/-- the sweep (algorithm.py:250-277) -/
def translateLoop (T : TextId) (target rtarget : Str) : World → TState → List TMark → World × Option PyErr
  | w, _, [] => (w, none)
  | w, s, m :: ms =>
    match translateStep T target rtarget w s m with
    | ((w, _), some e) => (w, some e)
    | ((w, s), none) => translateLoop T target rtarget w s ms

/-- `assert layer.schema.fields[f].typename == SPAN` (algorithm.py:215-220) -/
def assertSpan (w : World) (L : LayerId) (f : Str) : Except PyErr DataType :=
  match dget (w.layers L).fields f with
  | none => .error .key
  | some t => if t.tname = .span then .ok t else .error .assertion

/-- everything before the sweep (algorithm.py:211-243): the target text and the sorted marks -/
def translatePrepare (w : World) (mapping target source remap rsource rtarget : Str) :
    Except PyErr (TextId × List TMark) :=
  match dget w.dl mapping with
  | none => .error .key
  | some M =>
    match w.assertSpan M target with
    | .error e => .error e
    | .ok tt =>
      match w.assertSpan M source with
      | .error e => .error e
      | .ok _ =>
        match dget w.dl remap with
        | none => .error .key
        | some R =>
          match w.assertSpan R rsource with
          | .error e => .error e
          | .ok _ =>
            match w.assertSpan R rtarget with
            | .error e => .error e
            | .ok _ =>
              match tt.opt "context" with
              | .error e => .error e
              | .ok (.str ctx) =>
                match dget w.dt ctx with
                | none => .error .key
                | some T =>
                  match w.mappingMarks source (w.iter M) with
                  | .error e => .error e
                  | .ok ms =>
                    match w.remapMarks rsource rtarget (w.iter R) with
                    | .error e => .error e
                    | .ok rs => .ok (T, sortByKey (ms ++ rs))
              | .ok _ => .error .unmodelled

/-- `span_translate(doc, mapping, (target, source), remap, (rsource, rtarget))` (algorithm.py:197-277). -/
def spanTranslate (w : World) (mapping target source remap rsource rtarget : Str) : World × Option PyErr :=
  match w.translatePrepare mapping target source remap rsource rtarget with
  | .error e => (w, some e)
  | .ok (T, marks) => translateLoop T target rtarget w ⟨none, []⟩ marks

end World
end Verif
