import Verif.Proof.Convert
import Verif.Proof.Stable
import Verif.Proof.Check
/-
C29, C32 (plain data), C37, C64: the plain-data form shared by the codecs.
-/
set_option linter.unusedSimpArgs false
namespace Verif
open World

theorem decoded_unchecked {w : World} {offs} (h : Ready w offs) {k L f t} (h1 : (k, L) ∈ (decoded w offs).dl)
    (h2 : (f, t) ∈ ((decoded w offs).layers L).fields) : t.checked = false := by
  have hs := fromWire_started (wire_round h).choose_spec.2
  have h1' := dget_of_mem hs.2.dlKeys h1
  obtain ⟨L0, hL0⟩ := SameDoc.layer' (decoded_same h) h1'
  have e : L = keyIdx (dkeys w.dl) k := by
    have := decoded_dl h hL0
    rw [h1'] at this; exact Option.some.inj this
  subst e
  rw [decoded_layer h hL0] at h2
  simp only [bareFields, List.mem_map, Prod.mk.injEq] at h2
  obtain ⟨a, -, -, rfl⟩ := h2
  rfl

theorem SameObs.symm {w w' : World} (s : SameObs w w') : SameObs w' w :=
  ⟨fun K => (s.live K).symm, fun K => ⟨(s.attrs K).1.symm, (s.attrs K).2.1.symm, (s.attrs K).2.2.1.symm, (s.attrs K).2.2.2.symm⟩,
    s.dl.symm, s.dt.symm, s.texts.symm, s.props.symm, s.nextN.symm, s.nextL.symm, s.nextT.symm,
    fun n => ⟨(s.node n).1.symm, (s.node n).2.symm⟩⟩

theorem sameDoc_sameObs {w w1 w2 : World} (s : SameObs w1 w2) (hi1 : Inv w1) (hi2 : Inv w2) (h : Spec.SameDoc w w1) :
    Spec.SameDoc w w2 where
  props := by rw [s.props, h.props]
  texts := by rw [s.dt, s.texts, h.texts]
  layers := by rw [s.dl, h.layers]
  schema k L L' h1 h2 := by rw [← h.schema k L L' h1 (by rw [← s.dl]; exact h2), (s.attrs L').2.1]
  count k L L' h1 h2 := by rw [← h.count k L L' h1 (by rw [← s.dl]; exact h2), World.SameObs.iter s hi1 hi2]
  cells k L i n n' f t h1 h2 h3 h4 := by
    have := h.cells k L i n n' f t h1 h2 ((SameObs.at s hi1 hi2).mp h3) h4
    rw [← (s.node n').2] at this
    have hn : ∀ {a b}, Spec.SameNode w w1 a b → Spec.SameNode w w2 a b := by
      rintro a b ⟨k, i, h1, h2⟩
      exact ⟨k, i, h1, (SameObs.at s hi1 hi2).mpr h2⟩
    generalize dget (w.nodes n).fields f = v at *
    generalize dget (w2.nodes n').fields f = v' at *
    cases this with
    | unset => exact .unset
    | null => exact .null
    | empty => exact .empty
    | int => exact .int
    | intBool a => exact .intBool a
    | float => exact .float
    | bool a => exact .bool a
    | str => exact .str
    | bytes => exact .bytes
    | node a => exact .node (hn a)
    | nodes a b c => exact .nodes a b (fun j n n' h1 h2 => hn (c j n n' h1 h2))
    | nodespan a b => exact .nodespan (hn a) (hn b)
    | span a =>
      obtain ⟨c, h1, h2⟩ := a
      exact .span ⟨c, h1, by rw [s.dt]; exact h2⟩
  only k L i n' f h1 h2 h3 := by
    rw [(s.node n').2] at h3
    exact h.only k L i n' f h1 ((SameObs.at s hi1 hi2).mp h2) h3

/-- C29. Encoding a valid document succeeds, whatever the options, and decoding the result gives an
observably equal document, which is valid again. -/
theorem C29_round_trip {w : World} (h : Reachable w) (he : Spec.Encodable w) (x t : Bool) :
    ∃ w1 wire w2, w.toWire x t = (w1, .ok wire) ∧ fromWire wire = .ok w2 ∧ Spec.SameDoc w w2 ∧
      Reachable w2 ∧ Spec.Encodable w2 := by
  obtain ⟨w1, offs, hc, so, hr⟩ := ready_of h.inv h.wf he x t
  obtain ⟨wire, h1, h2⟩ := wire_round hr
  have hs := fromWire_started h2
  have sd := SameObs.sameDoc so h.inv hr.inv (decoded_same hr)
  refine ⟨w1, wire, _, ?_, h2, sd, ⟨_, [], .inr ⟨wire, h2⟩, .nil⟩, ?_⟩
  · unfold toWire; rw [hc]; simp only; rw [h1]
  · exact SameDoc.encodable sd h.inv hs.1 h.wf hs.2 he (fun k L f t h1 h2 => decoded_unchecked hr h1 h2)

/-- C32, plain data. Encoding the decoded document gives the same data again, whatever options are used on
either side. -/
theorem C32_stable_data {w : World} (h : Reachable w) (he : Spec.Encodable w) (x t x' t' : Bool) :
    ∃ wire w2, (w.toWire x t).2 = .ok wire ∧ fromWire wire = .ok w2 ∧ (w2.toWire x' t').2 = .ok wire := by
  obtain ⟨w1, offs, hc, so, hr⟩ := ready_of h.inv h.wf he x t
  obtain ⟨wire, h1, h2⟩ := wire_round hr
  have hs := fromWire_started h2
  have sd := decoded_same hr
  have e2 := SameDoc.encodable sd hr.inv hs.1 hr.wf hs.2 hr.enc (fun k L f t h1 h2 => decoded_unchecked hr h1 h2)
  obtain ⟨w3, offs3, hc3, so3, hr3⟩ := ready_of hs.1 hs.2 e2 x' t'
  refine ⟨wire, _, ?_, h2, ?_⟩
  · unfold toWire; rw [hc]; exact h1
  · unfold toWire; rw [hc3]
    simp only
    rw [← h1]
    exact (wire_same hr hr3 (sameDoc_sameObs so3 hs.1 hr3.inv sd)).symm

/-- observably equal documents in the same heap have the same data -/
theorem wireOf_sameObs {w w3 : World} {offs offs3} (hr : Ready w offs) (hr3 : Ready w3 offs3) (so : SameObs w w3) :
    w3.wireOf offs3 = w.wireOf offs := by
  obtain ⟨wire, h1, h2⟩ := wire_round hr
  have hs := fromWire_started h2
  have sd := decoded_same hr
  have e2 := SameDoc.encodable sd hr.inv hs.1 hr.wf hs.2 hr.enc (fun k L f t h1 h2 => decoded_unchecked hr h1 h2)
  obtain ⟨w4, offs4, -, so4, hr4⟩ := ready_of hs.1 hs.2 e2 true true
  have sd4 := sameDoc_sameObs so4 hs.1 hr4.inv sd
  rw [wire_same hr hr4 sd4]
  exact wire_same hr3 hr4 (SameObs.sameDoc (SameObs.symm so) hr3.inv hr.inv sd4)

/-- C32, plain data. Encoding a second time gives the same data. -/
theorem C32_twice_data {w : World} (h : Reachable w) (he : Spec.Encodable w) (x t x' t' : Bool) :
    ∃ w1 wire w2, w.toWire x t = (w1, .ok wire) ∧ w1.toWire x' t' = (w2, .ok wire) := by
  obtain ⟨w1, offs, hc, so, hr⟩ := ready_of h.inv h.wf he x t
  obtain ⟨wire, h1, h2⟩ := wire_round hr
  obtain ⟨w3, offs3, hc3, so3, hr3⟩ := ready_of hr.inv hr.wf hr.enc x' t'
  refine ⟨w1, wire, w3, ?_, ?_⟩
  · unfold toWire; rw [hc]; simp only; rw [h1]
  · unfold toWire; rw [hc3]; simp only
    rw [wireOf_sameObs hr hr3 so3, h1]

/-- C29, C32 apply to a document with a field of every kind, forward and cyclic references and a gap. -/
example : Reachable Ex.wfull ∧ Spec.Encodable Ex.wfull ∧ (Ex.wfull.iter 0).length = 2 ∧
    (Ex.wfull.layers 0).slots.length = 3 ∧ dget (Ex.wfull.nodes 0).fields "dep".toList = some (.node 2) ∧
    dget (Ex.wfull.nodes 2).fields "ent".toList = some (.node 4) := by
  refine ⟨Ex.wfull_reachable, Ex.wfull_encodable, ?_, ?_, ?_, ?_⟩ <;> decide

/-! ### C64 -/

/-- C64. The wire form of a type decodes to a type of the same name with the same options. -/
theorem C64_types_partial {t : DataType} (h1 : t.tname ≠ .unknown) (h2 : ∀ k v, (k, v) ∈ t.options → Spec.PlainVal v)
    (h3 : "self".toList ∉ dkeys t.options ∧ "typename".toList ∉ dkeys t.options) :
    ∃ tw t', t.encode = .ok tw ∧ tw.decode = .ok t' ∧ t'.tname = t.tname ∧ t'.options = t.options := by
  obtain ⟨tw, ha, hb⟩ := type_round h1 h2 h3
  exact ⟨tw, _, ha, hb, rfl, rfl⟩

/-- C64. Distinct type names have distinct wire names. -/
theorem C64_names_distinct {a b : TName} {s : Str} (ha : a.wire = .ok s) (hb : b.wire = .ok s) : a = b := by
  have h1 : a ≠ .unknown := by rintro rfl; simp [TName.wire] at ha
  have h2 : b ≠ .unknown := by rintro rfl; simp [TName.wire] at hb
  obtain ⟨s1, e1, f1⟩ := tname_round h1
  obtain ⟨s2, e2, f2⟩ := tname_round h2
  rw [ha] at e1; rw [hb] at e2; cases e1; cases e2
  rw [f1] at f2; cases f2; rfl

/-- C64. Types with the same wire form have the same name and options. -/
theorem C64_injective {t u : DataType} {tw : TypeWire} (ht : ∀ k v, (k, v) ∈ t.options → Spec.PlainVal v)
    (hu : ∀ k v, (k, v) ∈ u.options → Spec.PlainVal v) (h1 : t.encode = .ok tw) (h2 : u.encode = .ok tw) :
    t.tname = u.tname ∧ t.options = u.options := by
  have key : ∀ {t : DataType} (_ : ∀ k v, (k, v) ∈ t.options → Spec.PlainVal v), t.encode = .ok tw →
      t.tname.wire = .ok tw.name ∧ t.options = (tw.args.getD []).map (fun e => (e.1, Value.ofObj e.2)) := by
    intro t ht h
    unfold DataType.encode at h
    obtain ⟨o, ho, he, -⟩ := dict_round ht
    split at h
    · cases h
    · rename_i s hs
      split at h
      · rename_i ho'; cases h; exact ⟨hs, by rw [ho']; rfl⟩
      · rw [ho] at h; cases h; exact ⟨hs, he.symm⟩
  obtain ⟨a1, a2⟩ := key ht h1
  obtain ⟨b1, b2⟩ := key hu h2
  exact ⟨C64_names_distinct a1 b1, by rw [a2, b2]⟩

/-- C64, without the condition on option names: wrong, an option called `typename` makes decoding raise. -/
theorem C64_option_typename_raises : ∃ t : DataType, t.tname = .string ∧ ∃ tw, t.encode = .ok tw ∧
    tw.decode = .error .type :=
  ⟨⟨.string, false, [("typename".toList, .int 1)]⟩, rfl, _, rfl, by decide⟩

example : ∃ tw, (DataTypes.noderef "tok".toList).encode = .ok tw ∧ tw.name = "noderef".toList ∧
    tw.args = some [("layer".toList, .str "tok".toList)] := ⟨_, rfl, rfl, rfl⟩

/-! ### C37 -/

namespace Spec

/-- the references in a value of a field of type `t` are to nodes of the layer the type names, in the
document, or to the document's own text -/
structure Resolves (w : World) (t : DataType) (v : Value) : Prop where
  node : t.tname = .noderef → ∀ n, v = .node n → ∃ s i, dget t.options "layer".toList = some (.str s) ∧ At w s i n
  nodes : t.tname = .noderefMany → ∀ ns, v = .nodes ns → ∀ n ∈ ns,
    ∃ s i, dget t.options "layer".toList = some (.str s) ∧ At w s i n
  nodespan : t.tname = .nodespan → ∀ l r, v = .nodespan l r →
    ∃ s i j, dget t.options "layer".toList = some (.str s) ∧ At w s i l ∧ At w s j r ∧ i ≤ j
  span : t.tname = .span → ∀ T a b, v = .span T a b →
    ∃ c, dget t.options "context".toList = some (.str c) ∧ dget w.dt c = some T

/-- every reference of every node of the document resolves -/
def AllResolve (w : World) : Prop :=
  ∀ k L n f t v, (k, L) ∈ w.dl → some n ∈ w.iter L → (f, t) ∈ (w.layers L).fields →
    dget (w.nodes n).fields f = some v → Resolves w t v

/-- no layer or text outside the document carries the name of one in the document -/
structure NoImpostors (w : World) : Prop where
  layer : ∀ n L L', (w.nodes n).coll = some L → dget w.dl (w.layers L).name = some L' → L' = L
  text : ∀ T T', dget w.dt (w.texts T).name = some T' → T' = T

/-- all reference types of the document check their values -/
def RefsChecked (w : World) : Prop :=
  ∀ k L f t, (k, L) ∈ w.dl → (f, t) ∈ (w.layers L).fields →
    t.tname = .noderef ∨ t.tname = .noderefMany ∨ t.tname = .nodespan ∨ t.tname = .span → t.checked = true

end Spec

/-- C37 in full: if encoding does not raise, every reference resolves in the document. -/
def C37_full : Prop := ∀ w, Reachable w → ∀ x t wire, (w.toWire x t).2 = .ok wire → Spec.AllResolve w

namespace Ex
/-- a layer is replaced by one of the same name while a reference into the old one remains -/
def opsReplaced : List Op := [
  .addLayer "tok".toList [("x".toList, ⟨.i32, true, []⟩)], .addNew 0 [("x".toList, .int 1)],
  .addLayer "arc".toList [("r".toList, DataTypes.noderef "tok".toList)], .addNew 1 [("r".toList, .node 0)],
  .addLayer "tok".toList [("x".toList, ⟨.i32, true, []⟩)], .addNew 2 [("x".toList, .int 2)]]
def wreplaced : World := World.empty.run opsReplaced
/-- a text is replaced by one of the same name while a span on the old one remains -/
def opsRetext : List Op := [
  .addText "main".toList "hello".toList,
  .addLayer "tok".toList [("s".toList, DataTypes.textspan "main".toList)], .addNew 0 [("s".toList, .span 0 1 3)],
  .addText "main".toList "other text".toList]
def wretext : World := World.empty.run opsRetext
/-- a referenced node is removed -/
def opsRemoved : List Op := [
  .addLayer "tok".toList [("x".toList, ⟨.i32, true, []⟩)], .addNew 0 [("x".toList, .int 1)],
  .addNew 0 [("x".toList, .int 2)],
  .addLayer "arc".toList [("r".toList, DataTypes.noderef "tok".toList)], .addNew 1 [("r".toList, .node 0)],
  .remove 0 0]
def wremoved : World := World.empty.run opsRemoved
end Ex

/-- C37 fails: after `add_layer` with the name of an existing layer, references to nodes of the old layer pass
validation and come back as references to other nodes. -/
theorem C37_replaced_layer_redirects : Reachable Ex.wreplaced ∧ ¬ Spec.AllResolve Ex.wreplaced ∧
    dget (Ex.wreplaced.nodes 1).fields "r".toList = some (.node 0) ∧
    dget (Ex.wreplaced.nodes 0).fields "x".toList = some (.int 1) ∧
    ∃ wire w2 n m, (Ex.wreplaced.toWire false true).2 = .ok wire ∧ fromWire wire = .ok w2 ∧
      Spec.At w2 "arc".toList 0 n ∧ dget (w2.nodes n).fields "r".toList = some (.node m) ∧
      dget (w2.nodes m).fields "x".toList = some (.int 2) := by
  refine ⟨reachable_run _ (by decide), ?_, by decide, by decide, ?_⟩
  · intro h
    obtain ⟨s, i, h1, L, h2, h3⟩ := (h "arc".toList 1 1 "r".toList (DataTypes.noderef "tok".toList) (.node 0)
      (by decide) (by decide) (by decide) (by decide)).node rfl 0 rfl
    have e1 : dget (DataTypes.noderef "tok".toList).options "layer".toList = some (.str "tok".toList) := by decide
    rw [e1] at h1; cases h1
    have e2 : dget Ex.wreplaced.dl "tok".toList = some 2 := by decide
    rw [e2] at h2; cases h2
    have e3 : Ex.wreplaced.iter 2 = [some 2] := by decide
    rw [e3] at h3
    cases i <;> simp at h3
  · refine ⟨⟨[], [], [("tok".toList, ⟨1, [("x".toList, ⟨"i32".toList, none⟩, [.int 2])]⟩),
      ("arc".toList, ⟨1, [("r".toList, ⟨"noderef".toList, some [("layer".toList, .str "tok".toList)]⟩, [.int 0])]⟩)]⟩, ?_⟩
    have hw : (Ex.wreplaced.toWire false true).2 = .ok (⟨[], [], [("tok".toList, ⟨1, [("x".toList, ⟨"i32".toList, none⟩, [.int 2])]⟩),
      ("arc".toList, ⟨1, [("r".toList, ⟨"noderef".toList, some [("layer".toList, .str "tok".toList)]⟩, [.int 0])]⟩)]⟩ : Wire) := by decide
    rw [hw]
    refine ⟨_, 1, 0, rfl, rfl, ?_⟩
    refine ⟨⟨1, by decide, by decide⟩, by decide, by decide⟩

/-- C37 fails: after `add_text` with the name of an existing text, spans of the old text pass validation and
come back as spans of the new one. -/
theorem C37_replaced_text_redirects : Reachable Ex.wretext ∧ ¬ Spec.AllResolve Ex.wretext ∧
    dget (Ex.wretext.nodes 0).fields "s".toList = some (.span 0 1 3) ∧ (Ex.wretext.texts 0).text = "hello".toList ∧
    ∃ wire w2 n T, (Ex.wretext.toWire false true).2 = .ok wire ∧ fromWire wire = .ok w2 ∧
      Spec.At w2 "tok".toList 0 n ∧ dget (w2.nodes n).fields "s".toList = some (.span T 1 3) ∧
      (w2.texts T).text = "other text".toList := by
  refine ⟨reachable_run _ (by decide), ?_, by decide, by decide, ?_⟩
  · intro h
    obtain ⟨c, h1, h2⟩ := (h "tok".toList 0 0 "s".toList (DataTypes.textspan "main".toList) (.span 0 1 3)
      (by decide) (by decide) (by decide) (by decide)).span rfl 0 1 3 rfl
    have e1 : dget (DataTypes.textspan "main".toList).options "context".toList = some (.str "main".toList) := by decide
    rw [e1] at h1; cases h1
    exact absurd h2 (by decide)
  · have hw : (Ex.wretext.toWire false true).2 = .ok (⟨[], [("main".toList, ["o".toList, "th".toList, "er text".toList])],
      [("tok".toList, ⟨1, [("s".toList, ⟨"span".toList, some [("context".toList, .str "main".toList)]⟩, [.int 1, .int 2])]⟩)]⟩ : Wire) := by
      decide +kernel
    rw [hw]
    exact ⟨_, _, 0, 0, rfl, rfl, ⟨0, by decide, by decide⟩, by decide, by decide⟩

/-- C37 fails without validation: a reference to a removed node is written with the index the node used to
have and comes back as a reference to another node. -/
theorem C37_removed_node_redirects : Reachable Ex.wremoved ∧ ¬ Spec.AllResolve Ex.wremoved ∧
    dget (Ex.wremoved.nodes 2).fields "r".toList = some (.node 0) ∧
    dget (Ex.wremoved.nodes 0).fields "x".toList = some (.int 1) ∧
    ∃ wire w2 n m, (Ex.wremoved.toWire false false).2 = .ok wire ∧ fromWire wire = .ok w2 ∧
      Spec.At w2 "arc".toList 0 n ∧ dget (w2.nodes n).fields "r".toList = some (.node m) ∧
      dget (w2.nodes m).fields "x".toList = some (.int 2) := by
  refine ⟨reachable_run _ (by decide), ?_, by decide, by decide, ?_⟩
  · intro h
    obtain ⟨s, i, h1, L, h2, h3⟩ := (h "arc".toList 1 2 "r".toList (DataTypes.noderef "tok".toList) (.node 0)
      (by decide) (by decide) (by decide) (by decide)).node rfl 0 rfl
    have e1 : dget (DataTypes.noderef "tok".toList).options "layer".toList = some (.str "tok".toList) := by decide
    rw [e1] at h1; cases h1
    have e2 : dget Ex.wremoved.dl "tok".toList = some 0 := by decide
    rw [e2] at h2; cases h2
    have e3 : Ex.wremoved.iter 0 = [some 1] := by decide
    rw [e3] at h3
    cases i <;> simp at h3
  · have hw : (Ex.wremoved.toWire false false).2 = .ok (⟨[], [], [("tok".toList, ⟨1, [("x".toList, ⟨"i32".toList, none⟩, [.int 2])]⟩),
      ("arc".toList, ⟨1, [("r".toList, ⟨"noderef".toList, some [("layer".toList, .str "tok".toList)]⟩, [.int 0])]⟩)]⟩ : Wire) := by decide
    rw [hw]
    exact ⟨_, _, 1, 0, rfl, rfl, ⟨1, by decide, by decide⟩, by decide, by decide⟩

namespace Ex
/-- the wire form of a document like `wremoved` before the removal -/
def wireRef : Wire := ⟨[], [], [("tok".toList, ⟨2, [("x".toList, ⟨"i32".toList, none⟩, [.int 1, .int 2])]⟩),
  ("arc".toList, ⟨1, [("r".toList, ⟨"noderef".toList, some [("layer".toList, .str "tok".toList)]⟩, [.int 0])]⟩)]⟩
end Ex

/-- C37 fails for decoded documents even with validation: their types do not check anything. -/
theorem C37_decoded_removed_node_redirects : ∃ w0 w wire w2 n m, fromWire Ex.wireRef = .ok w0 ∧
    w0.remove 0 0 = (w, none) ∧ Reachable w ∧ dget (w.nodes 2).fields "r".toList = some (.node 0) ∧
    dget (w.nodes 0).fields "x".toList = some (.int 1) ∧
    (w.toWire false true).2 = .ok wire ∧ fromWire wire = .ok w2 ∧
    Spec.At w2 "arc".toList 0 n ∧ dget (w2.nodes n).fields "r".toList = some (.node m) ∧
    dget (w2.nodes m).fields "x".toList = some (.int 2) := by
  obtain ⟨w0, h0⟩ : ∃ w0, fromWire Ex.wireRef = .ok w0 := ⟨_, rfl⟩
  have e0 := h0
  cases e0
  refine ⟨_, _, ⟨[], [], [("tok".toList, ⟨1, [("x".toList, ⟨"i32".toList, none⟩, [.int 2])]⟩),
      ("arc".toList, ⟨1, [("r".toList, ⟨"noderef".toList, some [("layer".toList, .str "tok".toList)]⟩, [.int 0])]⟩)]⟩,
      _, 1, 0, rfl, rfl, ?_, by decide, by decide, ?_, rfl, ⟨1, by decide, by decide⟩, by decide, by decide⟩
  · exact ⟨_, _, .inr ⟨_, h0⟩, .snoc (op := .remove 0 0) .nil trivial⟩
  · decide

theorem C37_full_false : ¬ C37_full := by
  intro h
  obtain ⟨h1, h2, -, -, wire, -, -, -, h3, -⟩ := C37_replaced_layer_redirects
  exact h2 (h _ h1 _ _ _ h3)

/-- what a successful run over the layers has done: everything validated, everything compacted -/
theorem compileLayers_done (x t : Bool) (d : Dict Str LayerId) : ∀ {w : World} (_ : Inv w) (offs o),
    (compileLayers x t w offs d).2 = .ok o →
    (x = false → t = true → ∀ k L n, (k, L) ∈ d → some n ∈ w.iter L →
      ∃ u, Inv u ∧ SameObs w u ∧ u.validate L n = .ok ()) ∧
    (∀ K, Compacted w K ∨ (∃ k, (k, K) ∈ d) → Compacted (compileLayers x t w offs d).1 K) := by
  induction d with
  | nil => intro w hi offs o _; exact ⟨by simp, fun K hK => by rcases hK with h | ⟨_, h⟩; exact h; simp at h⟩
  | cons e d ih =>
    intro w hi offs o ho
    obtain ⟨k, L⟩ := e
    simp only [compileLayers] at ho ⊢
    rw [compileIds_eq hi] at ho ⊢
    have i1 := inv_compact hi L
    have s1 := sameObs_compact hi L
    have hcmp := compact_compacted hi L
    generalize w.compact L = u at *
    cases hval : (if t && !x then u.compileValidate L (u.iter L) else .ok ()) with
    | error e => rw [hval] at ho; simp at ho
    | ok _ =>
      rw [hval] at ho
      simp only at ho ⊢
      cases hlo : u.layerOffsets L (u.layers L).fields offs with
      | error e => simp [hlo] at ho
      | ok o1 =>
        rw [hlo] at ho
        simp only at ho ⊢
        obtain ⟨r1, r2⟩ := ih i1 o1 o ho
        refine ⟨fun hx ht k' L' n hm hn => ?_, fun K hK => r2 K ?_⟩
        · simp only [List.mem_cons, Prod.mk.injEq] at hm
          have hn' : some n ∈ u.iter L' := by rw [World.SameObs.iter s1 hi i1]; exact hn
          rcases hm with ⟨rfl, rfl⟩ | hm
          · subst hx ht
            simp only [Bool.not_false, Bool.and_self, if_true] at hval
            rw [i1.iter_eq] at hval hn'
            obtain ⟨v1, -⟩ := compileValidate_spec u L' (live (u.layers L').slots)
            exact ⟨u, i1, s1, (v1.mp hval n (by simpa using hn')).1⟩
          · obtain ⟨u', a, b, c⟩ := r1 hx ht k' L' n hm hn'
            exact ⟨u', a, s1.trans b, c⟩
        · rcases hK with hK | ⟨k', hK⟩
          · exact .inl (hcmp K (.inr hK))
          · simp only [List.mem_cons, Prod.mk.injEq] at hK
            rcases hK with ⟨-, rfl⟩ | hK
            · exact .inl (hcmp K (.inl rfl))
            · exact .inr ⟨k', hK⟩

theorem compile_done {w w1 : World} (hi : Inv w) (hc : Spec.TypesComplete w) {x t : Bool} {offs}
    (h : w.compile x t = (w1, .ok offs)) :
    ¬ Spec.Unresolved w ∧ (∀ k L, (k, L) ∈ w1.dl → Compacted w1 L) ∧
    (x = false → t = true → ∀ k L n, (k, L) ∈ w.dl → some n ∈ w.iter L →
      ∃ u, Inv u ∧ SameObs w u ∧ u.validate L n = .ok ()) := by
  rcases compile_cases w x t hc with ⟨-, he⟩ | ⟨hu, he⟩
  · rw [he] at h; simp at h
  · have sp := (compile_spec hi x t).2
    rw [h] at sp
    rw [he, compileRest] at h
    split at h
    · simp at h
    · rename_i w' o heq
      simp only [Prod.mk.injEq, Except.ok.injEq] at h
      obtain ⟨rfl, -⟩ := h
      have := compileLayers_done x t w.dl hi (w.dt.map (fun e => (e.1, []))) o (by rw [heq])
      rw [heq] at this
      exact ⟨hu, fun k L hm => this.2 L (.inr ⟨k, by rw [sp.dl] at hm; exact hm⟩), this.1⟩

/-- an accepted value of a checked reference field names attached nodes -/
theorem valid_refs {u : World} (hi : Inv u) {t : DataType} {v : Value} (hck : t.checked = true)
    (h : t.isValid u v = .ok true) :
    (t.tname = .noderef → ∀ n, v = .node n → ∃ s, dget t.options "layer".toList = some (.str s) ∧ Spec.AttachedTo u n s) ∧
    (t.tname = .noderefMany → ∀ ns, v = .nodes ns → ∀ n ∈ ns,
      ∃ s, dget t.options "layer".toList = some (.str s) ∧ Spec.AttachedTo u n s) ∧
    (t.tname = .nodespan → ∀ l r, v = .nodespan l r → ∃ s, dget t.options "layer".toList = some (.str s) ∧
      Spec.AttachedTo u l s ∧ Spec.AttachedTo u r s ∧ (u.nodes l).id ≤ (u.nodes r).id) ∧
    (t.tname = .span → ∀ T a b, v = .span T a b →
      dget t.options "context".toList = some (.str (u.texts T).name)) := by
  have hb : ∀ {n lv}, DataType.boundTo u n lv = true → ∃ s, lv = .str s ∧ Spec.AttachedTo u n s := by
    intro n lv hbt
    have hbt0 := hbt
    unfold DataType.boundTo at hbt
    split at hbt
    · simp at hbt
    · simp only [decide_eq_true_eq] at hbt
      subst hbt
      exact ⟨_, rfl, boundTo_iff.mp hbt0⟩
  have ho : ∀ {s lv}, t.opt s = .ok lv → dget t.options s.toList = some lv := by
    intro s lv h; unfold DataType.opt at h; split at h
    · cases h; assumption
    · simp at h
  have hid : ∀ {n s}, Spec.AttachedTo u n s → u.nodeI n = .ok (u.nodes n).id := by
    rintro n s ⟨L, hL, -⟩
    obtain ⟨i, h1, -⟩ := hi.bound n L hL
    rw [hi.nodeI_ok h1, h1]
  unfold DataType.isValid at h
  rw [hck] at h
  refine ⟨fun ht n hv => ?_, fun ht ns hv n hn => ?_, fun ht l r hv => ?_, fun ht T a b hv => ?_⟩
  · subst hv
    simp only [ht, Bool.not_true, Bool.false_eq_true, if_false] at h
    split at h
    · simp at h
    · cases hl : t.opt "layer" with
      | error e => simp [hl, bind, Except.bind] at h
      | ok lv =>
        simp [hl, bind, Except.bind, pure, Except.pure] at h
        obtain ⟨s, rfl, ha⟩ := hb h
        exact ⟨s, ho hl, ha⟩
  · subst hv
    simp only [ht, Bool.not_true, Bool.false_eq_true, if_false] at h
    cases hl : t.opt "layer" with
    | error e => simp [hl, bind, Except.bind] at h
    | ok lv =>
      simp [hl, bind, Except.bind, pure, Except.pure] at h
      obtain ⟨s, rfl, ha⟩ := hb (h n hn)
      exact ⟨s, ho hl, ha⟩
  · subst hv
    simp only [ht, Bool.not_true, Bool.false_eq_true, if_false] at h
    split at h
    · simp at h
    · cases hl : t.opt "layer" with
      | error e => simp [hl, bind, Except.bind] at h
      | ok lv =>
        simp only [hl, bind, Except.bind, pure, Except.pure] at h
        split at h
        · simp at h
        · rename_i hbb
          simp at hbb
          obtain ⟨s, rfl, ha⟩ := hb hbb.1
          have ha' := boundTo_iff.mp hbb.2
          rw [hid ha, hid ha'] at h
          simp at h
          exact ⟨s, ho hl, ha, ha', h⟩
  · subst hv
    simp only [ht, Bool.not_true, Bool.false_eq_true, if_false] at h
    cases hl : t.opt "context" with
    | error e => simp [hl, bind, Except.bind] at h
    | ok lv =>
      simp [hl, bind, Except.bind, pure, Except.pure] at h
      rw [ho hl, h]

/-- C37 with validation on, for documents whose reference types check their values and when no layer or text
outside the document has the name of one inside: then encoding only succeeds if every reference resolves.
(Without either condition it fails: `C37_replaced_layer_redirects`, `C37_replaced_text_redirects`,
`C37_removed_node_redirects`, `C37_decoded_removed_node_redirects`.) -/
theorem C37_validated_partial {w : World} (h : Reachable w) (hc : Spec.TypesComplete w) (hn : Spec.NoImpostors w)
    (hck : Spec.RefsChecked w) {wire} (hok : (w.toWire false true).2 = .ok wire) : Spec.AllResolve w := by
  unfold toWire at hok
  split at hok
  · simp at hok
  rename_i w1 offs hcomp
  obtain ⟨hu, -, hval⟩ := compile_done h.inv hc hcomp
  intro k L n f t v hm hmem hf hv
  obtain ⟨u, iu, so, hvu⟩ := hval rfl rfl k L n hm hmem
  unfold validate at hvu
  rw [validateFields_iff] at hvu
  have hvalid := hvu (f, t) (by rw [(so.attrs L).2.1]; exact hf) v (by rw [(so.node n).2]; exact hv)
  simp only at hvalid
  have hres : ∀ {m s}, (t.tname = .noderef ∨ t.tname = .noderefMany ∨ t.tname = .nodespan) →
      dget t.options "layer".toList = some (.str s) → Spec.AttachedTo u m s → ∃ i : Nat, Spec.At w s i m := by
    rintro m s ht hs ⟨M, hM1, hM2⟩
    rw [(so.node m).1] at hM1; rw [(so.attrs M).1] at hM2
    have hs' : s ∈ dkeys w.dl := by
      apply Classical.byContradiction
      intro hh
      exact hu ⟨k, L, f, t, hm, hf, .inl ⟨ht, fun s' h' => by rw [hs] at h'; cases h'; exact hh⟩⟩
    rw [← dget_isSome_iff] at hs'
    obtain ⟨M', hM'⟩ := Option.isSome_iff_exists.mp hs'
    have : M' = M := hn.layer m M M' hM1 (by rw [hM2]; exact hM')
    subst this
    have := (h.inv.mem_iff M' m).mpr hM1
    obtain ⟨i, hi⟩ := List.getElem?_of_mem this
    exact ⟨i, (At.iff h.inv).mpr ⟨M', hM', hi⟩⟩
  have ord : ∀ {s l r i j}, Spec.At w s i l → Spec.At w s j r → (u.nodes l).id ≤ (u.nodes r).id → i ≤ j := by
    intro s l r i j h1 h2 hle
    apply Classical.byContradiction
    intro hij
    have hle' := At.id_le iu ((SameObs.at so h.inv iu).mpr h2) ((SameObs.at so h.inv iu).mpr h1) (by omega)
    obtain ⟨M, a1, a2⟩ := (At.iff h.inv).mp h1
    obtain ⟨M', b1, b2⟩ := (At.iff h.inv).mp h2
    rw [a1] at b1; cases b1
    have c1 := (h.inv.mem_iff M l).mp (List.mem_of_getElem? a2)
    have c2 := (h.inv.mem_iff M r).mp (List.mem_of_getElem? b2)
    rw [← (so.node _).1] at c1 c2
    obtain ⟨p, p1, p2⟩ := iu.bound l M c1
    obtain ⟨q, q1, q2⟩ := iu.bound r M c2
    have : p = q := by omega
    subst this
    rw [p2] at q2; cases q2
    have := (At.unique h.inv h.wf h1 h2).2
    omega
  constructor
  · intro ht m hm'
    have hck' := hck k L f t hm hf (.inl ht)
    obtain ⟨s, h1, h2⟩ := (valid_refs iu hck' hvalid).1 ht m hm'
    obtain ⟨i, hi⟩ := hres (.inl ht) h1 h2
    exact ⟨s, i, h1, hi⟩
  · intro ht ms hm' m hmm
    have hck' := hck k L f t hm hf (.inr (.inl ht))
    obtain ⟨s, h1, h2⟩ := (valid_refs iu hck' hvalid).2.1 ht ms hm' m hmm
    obtain ⟨i, hi⟩ := hres (.inr (.inl ht)) h1 h2
    exact ⟨s, i, h1, hi⟩
  · intro ht l r hm'
    have hck' := hck k L f t hm hf (.inr (.inr (.inl ht)))
    obtain ⟨s, h1, h2, h3, h4⟩ := (valid_refs iu hck' hvalid).2.2.1 ht l r hm'
    obtain ⟨i, hi⟩ := hres (.inr (.inr ht)) h1 h2
    obtain ⟨j, hj⟩ := hres (.inr (.inr ht)) h1 h3
    exact ⟨s, i, j, h1, hi, hj, ord hi hj h4⟩
  · intro ht T a b hm'
    have hck' := hck k L f t hm hf (.inr (.inr (.inr ht)))
    have h1 := (valid_refs iu hck' hvalid).2.2.2 ht T a b hm'
    rw [so.texts] at h1
    have hs' : (w.texts T).name ∈ dkeys w.dt := by
      apply Classical.byContradiction
      intro hh
      exact hu ⟨k, L, f, t, hm, hf, .inr ⟨ht, fun s' h' => by rw [h1] at h'; cases h'; exact hh⟩⟩
    rw [← dget_isSome_iff] at hs'
    obtain ⟨T', hT'⟩ := Option.isSome_iff_exists.mp hs'
    have := hn.text T T' hT'
    subst this
    exact ⟨_, h1, hT'⟩

theorem mapE_get {α β : Type} {f : α → Except PyErr β} {l : List α} {r : List β} (h : mapE f l = .ok r) {i : Nat} {a : α}
    (ha : l[i]? = some a) : ∃ b, f a = .ok b ∧ r[i]? = some b := by
  obtain ⟨h1, h2⟩ := mapE_inv h
  obtain ⟨hi, rfl⟩ := List.getElem?_eq_some_iff.mp ha
  exact ⟨r[i]'(by omega), h2 i hi (by omega), List.getElem?_eq_getElem _⟩

theorem flatten_get {α : Type} {c : Nat} : ∀ {l : List (List α)}, (∀ x ∈ l, x.length = c) → ∀ {i : Nat} {x : List α},
    l[i]? = some x → ∀ r, r < c → l.flatten[c * i + r]? = x[r]? := by
  intro l
  induction l with
  | nil => intro _ i x hx; simp at hx
  | cons y l ih =>
    intro hl i x hx r hr
    have hy := hl y (by simp)
    cases i with
    | zero =>
      simp at hx; subst hx
      simp only [List.flatten_cons, Nat.mul_zero, Nat.zero_add]
      rw [List.getElem?_append_left (by omega)]
    | succ i =>
      simp at hx
      simp only [List.flatten_cons]
      rw [List.getElem?_append_right (by rw [hy, Nat.mul_succ]; omega)]
      rw [← ih (fun x hx => hl x (by simp [hx])) hx r hr]
      congr 1
      rw [hy, Nat.mul_succ]; omega

/-- number of column entries per node -/
def cellWidth (t : TName) : Nat := if t = .span then 2 else 1

theorem encodeCell_length {w : World} {idx t v l} (h : w.encodeCell idx t v = .ok l) : l.length = cellWidth t := by
  unfold encodeCell at h
  split at h <;>
    first
    | (obtain ⟨ht, o, rfl, -⟩ := encodeOther_kind h; simp [cellWidth, ht])
    | ((try split at h) <;> first | (cases h; rfl) | simp at h)

/-- where a cell ends up in the written data -/
theorem wire_cell {w : World} (h : Reachable w) {x t : Bool} {wire} (hok : (w.toWire x t).2 = .ok wire)
    {k L i n f ty} (hL : dget w.dl k = some L) (hn : Spec.At w k i n) (hf : (f, ty) ∈ (w.layers L).fields) :
    ∃ w1 offs idx wl tw col cell, w.compile x t = (w1, .ok offs) ∧ Inv w1 ∧ SameObs w w1 ∧
      dget wire.layers k = some wl ∧ (f, tw, col) ∈ wl.cols ∧
      (if ty.tname = .span then spanIndex offs ty else .ok []) = .ok idx ∧
      w1.encodeCell idx ty.tname ((dget (w.nodes n).fields f).getD .none) = .ok cell ∧
      ∀ r, r < cellWidth ty.tname → col[cellWidth ty.tname * i + r]? = cell[r]? := by
  have sp := compile_spec h.inv x t
  unfold toWire at hok
  cases hc : w.compile x t with
  | mk w1 r1 =>
  rw [hc] at hok sp
  cases r1 with
  | error e => simp at hok
  | ok offs =>
  obtain ⟨i1, so⟩ := sp
  simp only at hok i1 so
  unfold wireOf at hok
  split at hok
  · simp at hok
  split at hok
  · simp at hok
  rename_i lays hlays
  split at hok
  · simp at hok
  cases hok
  have hnd : (dkeys lays).Nodup := by
    have : lays.map (·.1) = w1.dl.map (·.1) := mapE_names hlays (·.1) (·.1) (fun a b hab => by
      unfold encodeEntry at hab; split at hab <;> cases hab; rfl)
    show (lays.map (·.1)).Nodup
    rw [this, so.dl]; exact h.wf.dlKeys
  obtain ⟨p, hp⟩ := List.getElem?_of_mem (dget_mem hL)
  rw [← so.dl] at hp
  obtain ⟨e, he, hget⟩ := mapE_get hlays hp
  unfold encodeEntry at he
  split at he
  · simp at he
  rename_i wl hwl
  cases he
  simp only at hwl
  unfold encodeLayer at hwl
  split at hwl
  · simp at hwl
  rename_i cols hcols
  cases hwl
  obtain ⟨q, hq⟩ := List.getElem?_of_mem hf
  rw [← (so.attrs L).2.1] at hq
  obtain ⟨e, he, hget2⟩ := mapE_get hcols hq
  unfold encodeField at he
  split at he
  · simp at he
  rename_i tw htw
  split at he
  · simp at he
  rename_i col hcol
  cases he
  simp only at hcol
  unfold encodeCol at hcol
  split at hcol
  · simp at hcol
  split at hcol
  · simp at hcol
  rename_i idx hidx
  split at hcol
  · simp at hcol
  rename_i cells hcells
  cases hcol
  obtain ⟨L', hL', hat⟩ := hn
  rw [hL] at hL'; cases hL'
  rw [← World.SameObs.iter so h.inv i1] at hat
  obtain ⟨cell, hcell, hget3⟩ := mapE_get hcells hat
  simp only [(so.node n).2] at hcell
  refine ⟨w1, offs, idx, _, tw, _, cell, rfl, i1, so, dget_of_mem hnd (List.mem_of_getElem? hget),
    List.mem_of_getElem? hget2, hidx, hcell, ?_⟩
  refine flatten_get (fun c hc => ?_) hget3
  obtain ⟨z, hz⟩ := List.getElem?_of_mem hc
  obtain ⟨l1, l2⟩ := mapE_inv hcells
  obtain ⟨hz1, hz2⟩ := List.getElem?_eq_some_iff.mp hz
  have := l2 z (by omega) hz1
  rw [hz2] at this
  split at this
  · simp at this
  · exact encodeCell_length this

theorem at_id {w w1 : World} (h : Reachable w) (hc : Spec.TypesComplete w) {x t : Bool} {offs} (i1 : Inv w1)
    (so : SameObs w w1) (hcomp : w.compile x t = (w1, .ok offs)) {s j m} (hm : Spec.At w s j m) :
    (w1.nodes m).id = (j : Int) ∧ w1.nodeI m = .ok (j : Int) := by
  obtain ⟨-, hcp, -⟩ := compile_done h.inv hc hcomp
  obtain ⟨L, h1, h2⟩ := (At.iff i1).mp ((SameObs.at so h.inv i1).mpr hm)
  have := hcp s L (dget_mem h1)
  have e : (w1.layers L).slots[j]? = some (some m) := by rw [this, List.getElem?_map, h2]; rfl
  have := (i1.slot L j m e).2
  exact ⟨this, i1.nodeI_ok this⟩

section
variable {w : World} {x t : Bool} {wire : Wire} {k f : Str} {L : LayerId} {i : Nat} {n : NodeId} {ty : DataType}

/-- C37. Whatever the options: a reference to a node of the document is written as the place of that node. -/
theorem C37_noderef_index (h : Reachable w) (hc : Spec.TypesComplete w) (hok : (w.toWire x t).2 = .ok wire)
    (hL : dget w.dl k = some L) (hn : Spec.At w k i n) (hf : (f, ty) ∈ (w.layers L).fields) (ht : ty.tname = .noderef)
    {m s} {j : Nat} (hv : dget (w.nodes n).fields f = some (.node m)) (hm : Spec.At w s j m) :
    ∃ wl tw col, dget wire.layers k = some wl ∧ (f, tw, col) ∈ wl.cols ∧ col[i]? = some (.int j) := by
  obtain ⟨w1, offs, idx, wl, tw, col, cell, a1, a2, a3, a4, a5, a6, a7, a8⟩ := wire_cell h hok hL hn hf
  obtain ⟨-, hid⟩ := at_id h hc a2 a3 a1 hm
  rw [ht, hv] at a7
  simp only [Option.getD_some, encodeCell, hid] at a7
  cases a7
  have := a8 0 (by rw [ht]; decide)
  rw [ht] at this
  exact ⟨wl, tw, col, a4, a5, by simpa [cellWidth] using this⟩

/-- C37, lists of nodes: the places of the nodes, in order. -/
theorem C37_nodes_index (h : Reachable w) (hc : Spec.TypesComplete w) (hok : (w.toWire x t).2 = .ok wire)
    (hL : dget w.dl k = some L) (hn : Spec.At w k i n) (hf : (f, ty) ∈ (w.layers L).fields) (ht : ty.tname = .noderefMany)
    {ms : List NodeId} (hv : dget (w.nodes n).fields f = some (.nodes ms)) (hne : ms ≠ []) {s : Str} {p : NodeId → Nat}
    (hm : ∀ m ∈ ms, Spec.At w s (p m) m) :
    ∃ wl tw col, dget wire.layers k = some wl ∧ (f, tw, col) ∈ wl.cols ∧
      col[i]? = some (.arr (ms.map (fun m => .int (p m)))) := by
  obtain ⟨w1, offs, idx, wl, tw, col, cell, a1, a2, a3, a4, a5, a6, a7, a8⟩ := wire_cell h hok hL hn hf
  have hid : w1.nodeIs ms = .ok (ms.map (fun m => .int (p m))) := by
    unfold nodeIs
    refine mapE_ok (fun m hmm => ?_)
    rw [(at_id h hc a2 a3 a1 (hm m hmm)).2]
  rw [ht, hv] at a7
  cases ms with
  | nil => exact absurd rfl hne
  | cons m0 ms =>
    simp only [Option.getD_some, encodeCell, hid] at a7
    cases a7
    have := a8 0 (by rw [ht]; decide)
    rw [ht] at this
    exact ⟨wl, tw, col, a4, a5, by simpa [cellWidth] using this⟩

/-- C37, node spans: the place of the left end and the distance to the right end. -/
theorem C37_nodespan_index (h : Reachable w) (hc : Spec.TypesComplete w) (hok : (w.toWire x t).2 = .ok wire)
    (hL : dget w.dl k = some L) (hn : Spec.At w k i n) (hf : (f, ty) ∈ (w.layers L).fields) (ht : ty.tname = .nodespan)
    {l r s} {a b : Nat} (hv : dget (w.nodes n).fields f = some (.nodespan l r)) (hl : Spec.At w s a l) (hr : Spec.At w s b r) :
    ∃ wl tw col, dget wire.layers k = some wl ∧ (f, tw, col) ∈ wl.cols ∧
      col[i]? = some (.arr [.int a, .int ((b : Int) - a)]) := by
  obtain ⟨w1, offs, idx, wl, tw, col, cell, a1, a2, a3, a4, a5, a6, a7, a8⟩ := wire_cell h hok hL hn hf
  rw [ht, hv] at a7
  simp only [Option.getD_some, encodeCell, (at_id h hc a2 a3 a1 hl).2, (at_id h hc a2 a3 a1 hr).2] at a7
  cases a7
  have := a8 0 (by rw [ht]; decide)
  rw [ht] at this
  exact ⟨wl, tw, col, a4, a5, by simpa [cellWidth] using this⟩

/-- C37, text spans: two entries, the places of the two offsets in the sorted offsets of the text. -/
theorem C37_span_index (h : Reachable w) (hc : Spec.TypesComplete w) (hok : (w.toWire x t).2 = .ok wire)
    (hL : dget w.dl k = some L) (hn : Spec.At w k i n) (hf : (f, ty) ∈ (w.layers L).fields) (ht : ty.tname = .span)
    {T c} {a b : Int} (hv : dget (w.nodes n).fields f = some (.span T a b))
    (hctx : dget ty.options "context".toList = some (.str c)) :
    ∃ w1 offs l wl tw col, ∃ p q : Nat, w.compile x t = (w1, .ok offs) ∧ dget offs c = some l ∧ l.Pairwise (· < ·) ∧
      dget wire.layers k = some wl ∧ (f, tw, col) ∈ wl.cols ∧
      col[2 * i]? = some (.int p) ∧ col[2 * i + 1]? = some (.int q) ∧ l[p]? = some a ∧ l[q]? = some b := by
  obtain ⟨w1, offs, idx, wl, tw, col, cell, a1, a2, a3, a4, a5, a6, a7, a8⟩ := wire_cell h hok hL hn hf
  have hT : ∃ T', dget w.dt c = some T' := by
    obtain ⟨hu, -, -⟩ := compile_done h.inv hc a1
    apply Option.isSome_iff_exists.mp
    rw [dget_isSome_iff]
    apply Classical.byContradiction
    intro hh
    exact hu ⟨k, L, f, ty, dget_mem hL, hf, .inr ⟨ht, fun s' h' => by rw [hctx] at h'; cases h'; exact hh⟩⟩
  obtain ⟨T', hT'⟩ := hT
  obtain ⟨l, o1, o2, -⟩ := C27_offsets h hc x t a1 c T' hT'
  rw [if_pos ht] at a6
  simp only [spanIndex, hctx, o1, Except.ok.injEq] at a6
  subst a6
  rw [ht, hv] at a7
  simp only [Option.getD_some, encodeCell] at a7
  split at a7
  · rename_i p q hp hq
    cases a7
    have e0 := a8 0 (by rw [ht]; decide)
    have e1 := a8 1 (by rw [ht]; decide)
    rw [ht] at e0 e1
    exact ⟨w1, offs, l, wl, tw, col, p, q, a1, o1, o2, a4, a5, by simpa [cellWidth] using e0, by simpa [cellWidth] using e1,
      (C27_inverse l o2 p a).mp hp, (C27_inverse l o2 q b).mp hq⟩
  · simp at a7

end

set_option maxRecDepth 20000 in
/-- C37 applies to the full document: it encodes, its types are complete and checked, and there are no impostors. -/
example : Spec.TypesComplete Ex.wfull ∧ Spec.NoImpostors Ex.wfull ∧ Spec.RefsChecked Ex.wfull ∧
    ∃ wire, (Ex.wfull.toWire false true).2 = .ok wire := by
  obtain ⟨w1, wire, w2, h1, -⟩ := C29_round_trip Ex.wfull_reachable Ex.wfull_encodable false true
  refine ⟨Encodable.complete Ex.wfull_encodable, ⟨?_, ?_⟩, ?_, wire, by rw [h1]⟩
  · intro n L L' hc hd
    obtain ⟨i, -, hs⟩ := Ex.wfull_reachable.inv.bound n L hc
    have hL : L < 2 := by
      apply Classical.byContradiction
      intro hh
      rw [Ex.wfull_reachable.inv.freshL L (by have : Ex.wfull.nextL = 2 := by decide
                                              omega)] at hs
      simp at hs
    have : L = 0 ∨ L = 1 := by omega
    rcases this with rfl | rfl
    · have e : dget Ex.wfull.dl (Ex.wfull.layers 0).name = some 0 := by decide
      rw [e] at hd; cases hd; rfl
    · have e : dget Ex.wfull.dl (Ex.wfull.layers 1).name = some 1 := by decide
      rw [e] at hd; cases hd; rfl
  · intro T T' hd
    match T, hd with
    | 0, hd =>
      have e : dget Ex.wfull.dt (Ex.wfull.texts 0).name = some 0 := by decide
      rw [e] at hd; cases hd; rfl
    | 1, hd =>
      have e : dget Ex.wfull.dt (Ex.wfull.texts 1).name = some 1 := by decide
      rw [e] at hd; cases hd; rfl
    | T + 2, hd =>
      have e : (Ex.wfull.texts (T + 2)).name = [] := rfl
      rw [e] at hd
      have e : dget Ex.wfull.dt [] = none := by decide
      rw [e] at hd; cases hd
  · have : (Ex.wfull.dl.all (fun e => (Ex.wfull.layers e.2).fields.all (fun ft => ft.2.checked))) = true := by decide
    intro k L f t hm hf _
    exact List.all_eq_true.mp (List.all_eq_true.mp this _ hm) _ hf

end Verif
