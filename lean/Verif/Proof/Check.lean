import Verif.Props.CodecSpec
import Verif.Model.Types
import Verif.Model.History
/-
A decidable sufficient condition for `Spec.Encodable`, for concrete cases.
-/
set_option linter.unusedSimpArgs false
namespace Verif
open World

namespace Check

/-- not a list or dict -/
def flat : Obj → Bool
  | .arr _ | .map _ => false
  | _ => true

theorem flat_ok {o : Obj} (h : flat o = true) : o.KeysOk := by
  cases o <;> simp_all [flat, Obj.KeysOk]

theorem flatL {l : List Obj} (h : l.all flat = true) : Obj.KeysOkL l := by
  induction l with
  | nil => simp [Obj.KeysOkL]
  | cons o l ih => simp only [List.all_cons, Bool.and_eq_true] at h; exact ⟨flat_ok h.1, ih h.2⟩

theorem flatM {l : List (Str × Obj)} (h : l.all (fun e => flat e.2) = true) : Obj.KeysOkM l := by
  induction l with
  | nil => simp [Obj.KeysOkM]
  | cons o l ih => simp only [List.all_cons, Bool.and_eq_true] at h; exact ⟨flat_ok h.1, ih h.2⟩

/-- sufficient for `PlainVal` -/
def plain : Value → Bool
  | .none | .bool _ | .int _ | .float _ | .str _ | .bytes _ => true
  | .data (.arr l) => l.all flat
  | .data (.map l) => decide (l.map (·.1)).Nodup && l.all (fun e => flat e.2)
  | _ => false

theorem plain_ok {v : Value} (h : plain v = true) : Spec.PlainVal v := by
  cases v with
  | data o =>
    cases o with
    | arr l => simp only [Spec.PlainVal, Obj.KeysOk]; exact flatL h
    | map l =>
      simp only [plain, Bool.and_eq_true, decide_eq_true_eq] at h
      simp only [Spec.PlainVal, Obj.KeysOk]; exact ⟨h.1, flatM h.2⟩
    | _ => simp [plain] at h
  | _ => first | trivial | simp [plain] at h

/-- place of a node in the document's layer `s` -/
def place (w : World) (s : Str) (n : NodeId) : Option Nat :=
  match dget w.dl s with
  | none => none
  | some L => (List.range (w.iter L).length).find? (fun i => decide ((w.iter L)[i]? = some (some n)))

theorem place_ok {w : World} {s n i} (h : place w s n = some i) : Spec.At w s i n := by
  unfold place at h
  split at h
  · simp at h
  · rename_i L hL
    have := List.find?_some h
    exact ⟨L, hL, by simpa using this⟩

/-- sufficient for `TypeOk` -/
def type (w : World) (t : DataType) : Bool :=
  decide (t.tname ≠ .ext ∧ t.tname ≠ .unknown) && t.options.all (fun e => plain e.2) &&
  decide (dkeys t.options).Nodup &&
  decide ("self".toList ∉ dkeys t.options ∧ "typename".toList ∉ dkeys t.options) &&
  (if t.tname = .noderef ∨ t.tname = .noderefMany ∨ t.tname = .nodespan then
    match dget t.options "layer".toList with | some (.str s) => decide (s ∈ dkeys w.dl) | _ => false
  else true) &&
  (if t.tname = .span then
    match dget t.options "context".toList with | some (.str s) => decide (s ∈ dkeys w.dt) | _ => false
  else true)

theorem type_ok {w : World} {t} (h : type w t = true) : Spec.TypeOk w t := by
  simp only [type, Bool.and_eq_true, decide_eq_true_eq] at h
  obtain ⟨⟨⟨⟨⟨h1, h2⟩, h3⟩, h4⟩, h5⟩, h6⟩ := h
  refine ⟨h1, fun k v hm => plain_ok (List.all_eq_true.mp h2 _ hm), h3, h4, fun hl => ?_, fun hs => ?_⟩
  · rw [if_pos hl] at h5
    split at h5
    · exact ⟨_, ‹_›, by simpa using h5⟩
    · simp at h5
  · rw [if_pos hs] at h6
    split at h6
    · exact ⟨_, ‹_›, by simpa using h6⟩
    · simp at h6

/-- the layer a type names -/
def target (t : DataType) : Option Str :=
  match dget t.options "layer".toList with
  | some (.str s) => some s
  | _ => none

theorem target_ok {t s} (h : target t = some s) : dget t.options "layer".toList = some (.str s) := by
  unfold target at h
  split at h
  · cases h; assumption
  · simp at h

/-- sufficient for `CellOk` -/
def cell (w : World) (t : DataType) : Value → Bool
  | .none => decide (t.checked = false ∧ t.tname ≠ .span)
  | .int i => decide ((t.tname = .i32 ∨ t.tname = .i64) ∧ -2 ^ 31 ≤ i ∧ i < 2 ^ 31)
  | .bool _ => decide (t.tname = .i32 ∨ t.tname = .i64 ∨ t.tname = .bool)
  | .float _ => decide (t.tname = .f64)
  | .str s => decide (t.tname = .string ∧ s.length < 2 ^ 31)
  | .bytes s => decide (t.tname = .binary ∧ s.length < 2 ^ 31)
  | .node n =>
    match target t with
    | some s => decide (t.tname = .noderef) && (place w s n).isSome
    | none => false
  | .nodes ns =>
    match target t with
    | some s => decide (t.tname = .noderefMany) && ns.all (fun n => (place w s n).isSome)
    | none => false
  | .nodespan l r =>
    match target t with
    | some s =>
      match place w s l, place w s r with
      | some i, some j => decide (t.tname = .nodespan ∧ i ≤ j)
      | _, _ => false
    | none => false
  | .span T a b =>
    match dget t.options "context".toList with
    | some (.str c) =>
      decide (t.tname = .span ∧ dget w.dt c = some T ∧ 0 ≤ a ∧ a ≤ b ∧ b ≤ ((w.texts T).text.length : Int))
    | _ => false
  | _ => false

theorem cell_ok {w : World} {t v} (h : cell w t v = true) : Spec.CellOk w t v := by
  unfold cell at h
  split at h
  · simp at h; exact .null h.1 h.2
  · simp at h
    exact .int h.1 (fun _ => ⟨fun _ => by omega, fun _ => by omega⟩)
  · simp at h
    rcases h with h | h | h
    · exact .intBool (.inl h)
    · exact .intBool (.inr h)
    · exact .bool h
  · simp at h; exact .float h
  · simp at h; exact .str h.1 (fun _ => by omega)
  · simp at h; exact .bytes h.1 (fun _ => by omega)
  · split at h
    · simp at h
      obtain ⟨i, hi⟩ := Option.isSome_iff_exists.mp h.2
      exact .node h.1 (target_ok ‹_›) (place_ok hi)
    · simp at h
  · split at h
    · simp at h
      refine .nodes h.1 (target_ok ‹_›) (fun n hn => ?_)
      obtain ⟨i, hi⟩ := Option.isSome_iff_exists.mp (h.2 n hn)
      exact ⟨i, place_ok hi⟩
    · simp at h
  · split at h
    · split at h
      · simp at h
        exact .nodespan h.1 (target_ok ‹_›) (place_ok ‹_›) (place_ok ‹_›) h.2
      · simp at h
    · simp at h
  · split at h
    · simp at h
      obtain ⟨h1, h2, h3, h4, h5⟩ := h
      exact .span h1 ‹_› h2 h3 h4 h5
    · simp at h
  · simp at h

/-- sufficient for `Encodable` -/
def doc (w : World) : Bool :=
  w.dl.all (fun e => (w.layers e.2).fields.all (fun ft => type w ft.2) &&
    (w.iter e.2).all (fun n => match n with
      | none => true
      | some n => (w.layers e.2).fields.all (fun ft => match dget (w.nodes n).fields ft.1 with
          | some v => cell w ft.2 v
          | none => true) &&
        (dkeys (w.nodes n).fields).all (fun f => decide (f ∈ dkeys (w.layers e.2).fields)))) &&
  w.props.all (fun e => plain e.2)

theorem doc_ok {w : World} (h : doc w = true) : Spec.Encodable w := by
  simp only [doc, Bool.and_eq_true] at h
  obtain ⟨h1, h2⟩ := h
  have a1 := fun k L (hm : (k, L) ∈ w.dl) => (Bool.and_eq_true _ _ ▸ List.all_eq_true.mp h1 _ hm)
  refine ⟨fun k L f t hm hf => type_ok (List.all_eq_true.mp (a1 k L hm).1 _ hf), ?_, ?_,
    fun k v hm => plain_ok (List.all_eq_true.mp h2 _ hm)⟩
  · intro k L n f t v hm hn hf hv
    have := List.all_eq_true.mp (a1 k L hm).2 _ hn
    simp only [Bool.and_eq_true] at this
    have := List.all_eq_true.mp this.1 _ hf
    simp only [hv] at this
    exact cell_ok this
  · intro k L n f hm hn hf
    have := List.all_eq_true.mp (a1 k L hm).2 _ hn
    simp only [Bool.and_eq_true] at this
    simpa using List.all_eq_true.mp this.2 _ hf

end Check

namespace Ex

/-- calls that build a document with a field of every kind, a forward and a cyclic reference, a gap, an
undeclared-then-removed node, nested properties -/
def opsFull : List Op := [
  .addText "main".toList "hello world".toList,
  .addText "alt".toList "hej 😀".toList,
  .addLayer "tok".toList [("s".toList, DataTypes.textspan "main".toList), ("pos".toList, DataTypes.string (some [])),
    ("dep".toList, DataTypes.noderef "tok".toList), ("ent".toList, DataTypes.noderef "ent".toList),
    ("n".toList, ⟨.i32, true, []⟩), ("bin".toList, DataTypes.binary)],
  .addLayer "ent".toList [("toks".toList, DataTypes.noderefMany "tok".toList),
    ("rng".toList, DataTypes.nodespan "tok".toList), ("x".toList, ⟨.f64, true, []⟩), ("b".toList, ⟨.bool, true, []⟩),
    ("alt".toList, DataTypes.textspan "alt".toList)],
  .addNew 0 [("s".toList, .span 0 0 5)],
  .addNew 0 [],
  .addNew 0 [("s".toList, .span 0 6 11), ("pos".toList, .str "NN".toList), ("dep".toList, .node 0), ("n".toList, .bool true)],
  .setField 0 "dep".toList (.node 2),
  .setField 0 "n".toList (.int (-7)),
  .setField 0 "bin".toList (.bytes [1, 2, 255]),
  .remove 0 1,
  .addNew 1 [("toks".toList, .nodes [2, 0]), ("rng".toList, .nodespan 0 2), ("x".toList, .float 4611686018427387904),
    ("b".toList, .bool true), ("alt".toList, .span 1 4 5)],
  .addNew 1 [("toks".toList, .nodes []), ("b".toList, .bool false)],
  .setField 2 "ent".toList (.node 4),
  .setProp "id".toList (.int 3),
  .setProp "meta".toList (.data (.map [("k".toList, .str "v".toList), ("l".toList, .nil)]))]

/-- the document built by `opsFull` -/
def wfull : World := World.empty.run opsFull
set_option maxRecDepth 20000 in
theorem wfull_reachable : Reachable wfull := reachable_run _ (by decide)
set_option maxRecDepth 20000 in
theorem wfull_encodable : Spec.Encodable wfull := Check.doc_ok (by decide)

end Ex
end Verif
