import Verif.Model.JavaNode
import Verif.Props.JavaCodecEx
/-
C96: nodes made with the validating builder of the Java library.
-/
set_option linter.unusedSimpArgs false
namespace Verif
open Spec (JSound JAt JHas JCell JField JLayerHas JTypeHas JPlain JProp Both Content Good TypeGood CellGood Cell LayerC UnitAt PyHas JavaReadable JTarget)

namespace Spec

/-- a value of this type; references are to nodes of the layer that the type names, and the nodes of a NodeSpan are in order -/
inductive JFits (d : JDoc) (t : JType) : JVal → Prop
  | null : t = ⟨.null, []⟩ → JFits d t .null
  | bool {b} : t = ⟨.bool, []⟩ → JFits d t (.bool b)
  | int {i} : t = ⟨.int, []⟩ → JFits d t (.int i)
  | long {i} : t = ⟨.long, []⟩ → JFits d t (.long i)
  | double {x} : t = ⟨.double, []⟩ → JFits d t (.double x)
  | str {s} : t = ⟨.string, []⟩ → JFits d t (.str s)
  | bin {b} : t = ⟨.binary, []⟩ → JFits d t (.bin b)
  | ext {ty b} : t = ⟨.ext, [("type".toList, .str ty)]⟩ → JFits d t (.ext ty b)
  | span {c p} : t = ⟨.span, [("context".toList, .str c)]⟩ → JFits d t (.span c p)
  | node {n k i} : t = ⟨.node, [("layer".toList, .str k)]⟩ → JAt d k i n → JFits d t (.node n)
  | nodes {ns k} : t = ⟨.nodeArray, [("layer".toList, .str k)]⟩ → ns ≠ [] → (∀ n ∈ ns, ∃ i, JAt d k i n) → JFits d t (.nodes ns)
  | nodespan {l r k i j} : t = ⟨.nodeSpan, [("layer".toList, .str k)]⟩ → JAt d k i l → JAt d k j r → i ≤ j → JFits d t (.nodespan l r)

/-- a document in which what a node of a layer holds is declared by the layer and is of the declared type -/
def JTyped (d : JDoc) : Prop := ∀ k L n f v, (k, L) ∈ d.layers → n ∈ L.nodes → dget (d.data n) f = some v → ∃ t, dget L.fields f = some t ∧ JFits d t v

/-- the nodes that are given for one field are nodes of one layer -/
def OneLayer (d : JDoc) : JArg → Prop
  | .list ns => ∀ n ∈ ns, ∀ m ∈ ns, ∃ k i j, JAt d k i n ∧ JAt d k j m
  | .pair l r => ∃ k i j, JAt d k i l ∧ JAt d k j r
  | .val (.nodes ns) => ∀ n ∈ ns, ∀ m ∈ ns, ∃ k i j, JAt d k i n ∧ JAt d k j m
  | .val (.nodespan l r) => ∃ k i j, JAt d k i l ∧ JAt d k j r ∧ i ≤ j
  | _ => True

/-- spans that are put were made since the document was last encoded; a new layer has a new name, its fields are distinct,
and so are the arguments of a type -/
def JBUses (s : JDState) : JBOp → Prop
  | .build _ _ puts => ∀ f c p, (f, .val (.span c p)) ∈ puts → (c, p) ∈ s.made
  | .layer name fields => dget s.doc.layers name = none ∧ (dkeys fields).Nodup ∧ ∀ e ∈ fields, (dkeys e.2.args).Nodup
  | _ => True

/-- so it is for all calls -/
def JBFresh (s : JDState) : List JBOp → Prop
  | [] => True
  | o :: os => JBUses s o ∧ JBFresh (s.bop o) os

/-- what is given for one field, is of one layer -/
def JBOne (s : JDState) : List JBOp → Prop
  | [] => True
  | o :: os => (∀ k n puts, o = .build k n puts → ∀ e ∈ puts, OneLayer s.doc e.2) ∧ JBOne (s.bop o) os

/-- a type that both libraries know, whose target is in the document, with plain arguments -/
structure JTypeOk (d : JDoc) (t : JType) : Prop where
  known : t.name ≠ .null
  text : t.name = .span → ∃ s u, dget t.args "context".toList = some (.str s) ∧ dget d.texts s = some u
  layer : t.name = .node ∨ t.name = .nodeArray ∨ t.name = .nodeSpan → ∃ s L, dget t.args "layer".toList = some (.str s) ∧ dget d.layers s = some L
  ext : t.name = .ext → ∃ s, dget t.args "type".toList = some (.str s)
  names : dget t.args "self".toList = none ∧ dget t.args "typename".toList = none
  plain : ∀ a v, dget t.args a = some v → ∃ o, JPlain v o

/-- such types only -/
def JTypesOk (d : JDoc) : Prop := ∀ k L f t, dget d.layers k = some L → dget L.fields f = some t → JTypeOk d t

/-- no extended fields -/
def JNoExt (d : JDoc) : Prop := ∀ k L f t, dget d.layers k = some L → dget L.fields f = some t → t.name ≠ .ext

/-- texts are Unicode, spans in fields start and end between characters, properties are plain values -/
structure JWhole (d : JDoc) : Prop where
  texts : ∀ c u, dget d.texts c = some u → ∃ s, u.text = utf16 s
  spans : ∀ k L n f c p, (k, L) ∈ d.layers → n ∈ L.nodes → dget (d.data n) f = some (.span c p) →
    ∃ u s a b, dget d.texts c = some u ∧ u.text = utf16 s ∧ UnitAt s (u.start p) a ∧ UnitAt s (u.stop p) b
  props : ∀ k v, dget d.props k = some v → ∃ o, JProp v o

end Spec

open Spec (JTypeOk JTypesOk JWhole JFits JTyped OneLayer JBUses JBFresh JBOne)

/-! ### places of nodes -/

theorem Spec.JAt.mem {d : JDoc} {k : Str} {i n : Nat} (h : JAt d k i n) : ∃ L, (k, L) ∈ d.layers ∧ n ∈ L.nodes := by
  obtain ⟨L, h1, h2⟩ := h
  exact ⟨L, dget_mem h1, List.mem_of_getElem? h2⟩

theorem jat_of_mem {d : JDoc} (hs : JSound d) {k : Str} {L : JLay} {n : Nat} (h1 : (k, L) ∈ d.layers) (h2 : n ∈ L.nodes) : ∃ i, JAt d k i n := by
  obtain ⟨i, hi, e⟩ := List.getElem_of_mem h2
  exact ⟨i, L, dget_of_mem hs.layerKeys h1, by rw [List.getElem?_eq_getElem hi, e]⟩

/-- a node is in one layer -/
theorem one_layer {ls : Dict Str JLay} (h : (ls.flatMap (fun e => e.2.nodes)).Nodup) {e e' : Str × JLay} (h1 : e ∈ ls) (h2 : e' ∈ ls) {n : Nat} (h3 : n ∈ e.2.nodes)
    (h4 : n ∈ e'.2.nodes) : e = e' := by
  induction ls with
  | nil => simp at h1
  | cons x ls ih =>
    rw [List.flatMap_cons, List.nodup_append] at h
    obtain ⟨-, hb, hc⟩ := h
    rcases List.mem_cons.mp h1 with rfl | h1' <;> rcases List.mem_cons.mp h2 with rfl | h2'
    · rfl
    · exact absurd rfl (hc n h3 n (List.mem_flatMap.mpr ⟨_, h2', h4⟩))
    · exact absurd rfl (hc n h4 n (List.mem_flatMap.mpr ⟨_, h1', h3⟩))
    · exact ih hb h1' h2'

theorem jat_unique {d : JDoc} (hs : JSound d) {k k' : Str} {i j n : Nat} (h : JAt d k i n) (h' : JAt d k' j n) : k = k' ∧ i = j := by
  obtain ⟨L, h1, h2⟩ := h
  obtain ⟨L', h3, h4⟩ := h'
  have e := one_layer hs.once (dget_mem h1) (dget_mem h3) (List.mem_of_getElem? h2) (List.mem_of_getElem? h4)
  simp only [Prod.mk.injEq] at e
  obtain ⟨rfl, rfl⟩ := e
  refine ⟨rfl, ?_⟩
  have hnd : L.nodes.Nodup := (List.pairwise_flatMap.mp hs.once).1 (k, L) (dget_mem h1)
  obtain ⟨hi, hi'⟩ := List.getElem?_eq_some_iff.mp h2
  obtain ⟨hj, hj'⟩ := List.getElem?_eq_some_iff.mp h4
  exact (List.getElem_inj hnd).mp (hi'.trans hj'.symm)

theorem layerName_some {d : JDoc} (hs : JSound d) {n : Nat} {k : Str} : d.layerName n = some k ↔ ∃ i, JAt d k i n := by
  unfold JDoc.layerName
  constructor
  · intro h
    rw [Option.map_eq_some_iff] at h
    obtain ⟨⟨k', L⟩, h1, rfl⟩ := h
    exact jat_of_mem hs (List.mem_of_find?_eq_some h1) (by simpa using List.find?_some h1)
  · rintro ⟨i, h⟩
    obtain ⟨L, h1, h2⟩ := h.mem
    cases hf : d.layers.find? (fun e => decide (n ∈ e.2.nodes)) with
    | none =>
      rw [List.find?_eq_none] at hf
      exact absurd h2 (by simpa using hf (k, L) h1)
    | some e =>
      have := one_layer hs.once (List.mem_of_find?_eq_some hf) h1 (by simpa using List.find?_some hf) h2
      rw [this]; rfl

/-! ### what the builder accepts -/

/-- ids are places -/
def IdsOk (d : JDoc) : Prop := ∀ k i n, JAt d k i n → d.ids n = i

theorem layerType_ok {d : JDoc} (hs : JSound d) {name : JTName} {n : Nat} {t : JType} (h : d.layerType name n = .ok t) :
    ∃ k i, t = ⟨name, [("layer".toList, .str k)]⟩ ∧ JAt d k i n := by
  unfold JDoc.layerType at h
  split at h
  · cases h
  · rename_i k hk
    cases h
    obtain ⟨i, hi⟩ := (layerName_some hs).mp hk
    exact ⟨k, i, rfl, hi⟩

theorem sameLayer_ok {d : JDoc} {k : Option Str} : ∀ {ns : List Nat}, d.sameLayer k ns = .ok () → ∀ n ∈ ns, d.layerName n = k := by
  intro ns
  induction ns with
  | nil => intro _ n hn; simp at hn
  | cons m ns ih =>
    intro h n hn
    rw [JDoc.sameLayer] at h
    split at h
    · split at h <;> cases h
    · rename_i hm
      rcases List.mem_cons.mp hn with rfl | hn
      · exact Decidable.not_not.mp hm
      · exact ih h n hn

/-- nodes of one layer, the first of them in `k` -/
theorem all_in {d : JDoc} (hs : JSound d) {n : Nat} {ns : List Nat} {k : Str} {i : Nat} (h : JAt d k i n)
    (ho : ∀ a ∈ n :: ns, ∀ m ∈ n :: ns, ∃ k i j, JAt d k i a ∧ JAt d k j m) : ∀ m ∈ n :: ns, ∃ i, JAt d k i m := by
  intro m hm
  obtain ⟨k', i', j', h1, h2⟩ := ho n (by simp) m hm
  obtain ⟨rfl, -⟩ := jat_unique hs h h1
  exact ⟨j', h2⟩

theorem argValue_fits {d : JDoc} (hs : JSound d) (hi : IdsOk d) {a : JArg} (ho : OneLayer d a) {v : JVal} (hv : d.argValue a = .ok v) {t : JType} (ht : d.valType v = .ok t) : JFits d t v := by
  have nodesFit : ∀ n ns, v = .nodes (n :: ns) → (∀ a ∈ n :: ns, ∀ m ∈ n :: ns, ∃ k i j, JAt d k i a ∧ JAt d k j m) → JFits d t v := by
    rintro n ns rfl ho
    obtain ⟨k, i, rfl, h1⟩ := layerType_ok hs ht
    exact .nodes rfl (by simp) (all_in hs h1 ho)
  cases a with
  | val w =>
    cases hv
    cases v with
    | null => cases ht; exact .null rfl
    | bool b => cases ht; exact .bool rfl
    | int i => cases ht; exact .int rfl
    | long i => cases ht; exact .long rfl
    | double x => cases ht; exact .double rfl
    | str s => cases ht; exact .str rfl
    | bin b => cases ht; exact .bin rfl
    | ext ty b => cases ht; exact .ext rfl
    | span c p => cases ht; exact .span rfl
    | node n =>
      obtain ⟨k, i, rfl, h1⟩ := layerType_ok hs ht
      exact .node rfl h1
    | nodes ns =>
      cases ns with
      | nil => cases ht
      | cons n ns => exact nodesFit n ns rfl ho
    | nodespan l r =>
      obtain ⟨k, i, rfl, h1⟩ := layerType_ok hs ht
      obtain ⟨k', i', j', h2, h3, h4⟩ := ho
      obtain ⟨rfl, rfl⟩ := jat_unique hs h1 h2
      exact .nodespan rfl h2 h3 h4
    | idArray is => cases ht
    | idSpan l r => cases ht
  | array ns =>
    cases ns with
    | nil => cases hv
    | cons n ns =>
      simp only [JDoc.argValue, JDoc.arrayOf] at hv
      split at hv
      · cases hv
      rename_i hsl
      cases hv
      obtain ⟨k, i, rfl, h1⟩ := layerType_ok hs ht
      refine .nodes rfl (by simp) fun m hm => ?_
      have := sameLayer_ok hsl m hm
      rw [(layerName_some hs).mpr ⟨i, h1⟩] at this
      exact (layerName_some hs).mp this
  | list ns =>
    cases ns with
    | nil => cases hv
    | cons n ns =>
      cases hv
      exact nodesFit n ns rfl ho
  | pair l r =>
    simp only [JDoc.argValue, JDoc.nodeSpanOf] at hv
    split at hv
    · cases hv
    split at hv
    · cases hv
    split at hv
    · cases hv
    rename_i hid
    cases hv
    obtain ⟨k, i, rfl, h1⟩ := layerType_ok hs ht
    obtain ⟨k', i', j', h2, h3⟩ := ho
    obtain ⟨rfl, rfl⟩ := jat_unique hs h1 h2
    refine .nodespan rfl h2 h3 ?_
    rw [hi _ _ _ h2, hi _ _ _ h3] at hid
    omega

theorem builderPut_ok {d : JDoc} {fields : Dict Str JType} {values r : Dict Str JVal} {f : Str} {v : JVal} (h : d.builderPut fields values f v = .ok r) :
    ∃ t, dget fields f = some t ∧ d.valType v = .ok t ∧ dget values f = none ∧ r = tput values f v := by
  unfold JDoc.builderPut at h
  split at h
  · cases h
  rename_i t ht
  split at h
  · cases h
  rename_i t' ht'
  split at h
  · cases h
  rename_i e
  split at h
  · cases h
  rename_i hn
  cases h
  exact ⟨t, ht, by rw [ht', Decidable.not_not.mp e], by simpa using hn, rfl⟩

/-- what is in a builder after calls of `put`: what was there, and what was put -/
theorem buildFrom_mem {d : JDoc} {fields : Dict Str JType} : ∀ {puts : List (Str × JArg)} {values r : Dict Str JVal}, d.buildFrom fields values puts = .ok r →
    ∀ {f v}, dget r f = some v → dget values f = some v ∨ ∃ a t, (f, a) ∈ puts ∧ d.argValue a = .ok v ∧ dget fields f = some t ∧ d.valType v = .ok t := by
  intro puts
  induction puts with
  | nil => intro values r h f v hv; cases h; exact .inl hv
  | cons e ps ih =>
    intro values r h f v hv
    obtain ⟨g, a⟩ := e
    rw [JDoc.buildFrom] at h
    split at h
    · cases h
    rename_i w hw
    split at h
    · cases h
    rename_i values' hp
    obtain ⟨t, h1, h2, h3, rfl⟩ := builderPut_ok hp
    rcases ih h hv with h4 | ⟨a', t', h4, h5⟩
    · rw [dget_tput] at h4
      split at h4
      · rename_i e
        subst e
        cases h4
        exact .inr ⟨a, t, by simp, hw, h1, h2⟩
      · exact .inl h4
    · exact .inr ⟨a', t', by simp [h4], h5⟩

theorem fits_mono {d d' : JDoc} (h : ∀ k i n, JAt d k i n → JAt d' k i n) {t : JType} {v : JVal} (hf : JFits d t v) : JFits d' t v := by
  cases hf with
  | null e => exact .null e
  | bool e => exact .bool e
  | int e => exact .int e
  | long e => exact .long e
  | double e => exact .double e
  | str e => exact .str e
  | bin e => exact .bin e
  | ext e => exact .ext e
  | span e => exact .span e
  | node e h1 => exact .node e (h _ _ _ h1)
  | nodes e h0 h1 => exact .nodes e h0 fun n hn => (h1 n hn).imp fun i hi => h _ _ _ hi
  | nodespan e h1 h2 h3 => exact .nodespan e (h _ _ _ h1) (h _ _ _ h2) h3

/-! ### programs -/

/-- what holds between calls -/
structure JBInv (s : JDState) : Prop where
  inv : JDInv s
  typed : JTyped s.doc
  ids : IdsOk s.doc

theorem typed_of {d d' : JDoc} (h : JTyped d) (hl : ∀ k L', (k, L') ∈ d'.layers → L'.nodes = [] ∨ ∃ L, (k, L) ∈ d.layers ∧ L'.nodes = L.nodes ∧ L'.fields = L.fields)
    (hd : d'.data = d.data) (hm : ∀ k i n, JAt d k i n → JAt d' k i n) : JTyped d' := by
  intro k L' n f v h1 h2 h3
  rcases hl k L' h1 with e | ⟨L, g1, g2, g3⟩
  · rw [e] at h2; simp at h2
  · rw [g2] at h2
    rw [hd] at h3
    obtain ⟨t, h4, h5⟩ := h k L n f v g1 h2 h3
    exact ⟨t, by rw [g3]; exact h4, fits_mono hm h5⟩

/-- the document after encoding -/
theorem encode_doc {d : JDoc} (hs : JSound d) : d.encode.1 = d ∨ ∃ (ls : Dict Str JLay) (ids : Nat → Int), ls.map layKey = d.layers.map layKey ∧
    (∀ e ∈ d.layers, ∀ (i n : Nat), e.2.nodes[i]? = some n → ids n = i) ∧ d.encode.1 = fin { d with layers := ls, ids := ids } := by
  obtain ⟨ls, ids, h1, h2, -, h4⟩ := compactAll_ok d.layers d.ids (fun e he => hs.size e.1 e.2 he) hs.once
  have hc : d.compile.1 = d ∨ d.compile.1 = fin { d with layers := ls, ids := ids } := by
    have s1 := compacted_sound hs (ids' := ids) h2
    unfold JDoc.compile
    rw [h1]
    simp only
    split
    · exact .inl rfl
    · rename_i spans hsp
      have := allSpans_eq hsp
      subst this
      refine .inr ?_
      rw [mapE_ok (g := fun e => (e.1, ctext (docSpans { d with layers := ls, ids := ids }) e, cparts (docSpans { d with layers := ls, ids := ids }) e))]
      · simp only [List.map_map, Function.comp_def]
        rfl
      · intro e he
        exact (ctext_ok s1 (k := e.1) (t := e.2) he).1
  have he : d.encode.1 = d ∨ d.encode.1 = d.compile.1 := by
    unfold JDoc.encode
    split
    · exact .inl rfl
    · split
      · rename_i e; rw [e]; exact .inr rfl
      · rename_i e; rw [e]; exact .inr rfl
  rcases he with he | he
  · exact .inl he
  · rcases hc with hc | hc
    · exact .inl (he.trans hc)
    · exact .inr ⟨ls, ids, h2, h4, he.trans hc⟩

theorem layKey_keys {ls ls' : Dict Str JLay} (h : ls'.map layKey = ls.map layKey) : dkeys ls' = dkeys ls := by
  have := congrArg (List.map (·.1)) h
  simpa [List.map_map, dkeys, layKey, Function.comp_def] using this

theorem jat_layKey {d : JDoc} (hs : JSound d) {ls : Dict Str JLay} {ids : Nat → Int} {texts : Dict Str JText} (h : ls.map layKey = d.layers.map layKey) {k : Str} {i n : Nat} :
    JAt { d with layers := ls, ids := ids, texts := texts } k i n ↔ JAt d k i n := by
  have hk : (dkeys ls).Nodup := by rw [layKey_keys h]; exact hs.layerKeys
  constructor
  · rintro ⟨L, h1, h2⟩
    obtain ⟨L', g1, -, g3, -⟩ := layKey_mem h (dget_mem h1)
    exact ⟨L', dget_of_mem hs.layerKeys g1, by rw [g3]; exact h2⟩
  · rintro ⟨L, h1, h2⟩
    obtain ⟨L', g1, -, g3, -⟩ := layKey_mem h.symm (dget_mem h1)
    exact ⟨L', dget_of_mem hk g1, by rw [g3]; exact h2⟩

/-- calls that leave layers, ids and fields as they are -/
theorem jb_same {s s' : JDState} (h : JBInv s) (h' : JDInv s') (h1 : s'.doc.layers = s.doc.layers) (h2 : s'.doc.ids = s.doc.ids) (h3 : s'.doc.data = s.doc.data) : JBInv s' := by
  have hj : ∀ k i n, JAt s'.doc k i n ↔ JAt s.doc k i n := by
    intro k i n
    unfold Spec.JAt
    rw [h1]
  refine ⟨h', ?_, ?_⟩
  · refine typed_of h.typed ?_ h3 fun k i n => (hj k i n).mpr
    intro k L hm
    rw [h1] at hm
    exact .inr ⟨L, hm, rfl, rfl⟩
  · intro k i n hj'
    rw [h2]
    exact h.ids k i n ((hj k i n).mp hj')

theorem jb_op {s : JDState} (h : JBInv s) (o : JBOp) (hu : JBUses s o) (ho : ∀ k n puts, o = .build k n puts → ∀ e ∈ puts, OneLayer s.doc e.2) : JBInv (s.bop o) := by
  obtain ⟨d, made⟩ := s
  have hs : JSound d := h.inv.sound
  cases o with
  | text name t =>
    have := inv_op h.inv (.text name t) trivial
    refine jb_same h this ?_ ?_ ?_ <;> (simp only [JDState.bop, JBOp.toOp, JDState.op, JDoc.addText]; split <;> rfl)
  | prop k v => exact jb_same h (inv_op h.inv (.prop k v) trivial) rfl rfl rfl
  | span c a b =>
    have := inv_op h.inv (.span c a b) trivial
    refine jb_same h this ?_ ?_ ?_ <;> (simp only [JDState.bop, JBOp.toOp, JDState.op]; split <;> rename_i e <;> unfold JDoc.span at e <;> split at e <;> (have e' := congrArg Prod.fst e; simp only at e'; rw [← e']))
  | layer name fields =>
    obtain ⟨hn, hu1, hu2⟩ := hu
    have hinv := inv_op h.inv (.layer name fields) ⟨hu1, hu2⟩
    have hj : ∀ k i n, JAt (d.addSchema name (tmap fields)) k i n ↔ JAt d k i n := by
      intro k i n
      unfold Spec.JAt JDoc.addSchema
      simp only [dget_tput]
      by_cases e : name = k
      · subst e
        simp only [if_pos]
        constructor
        · rintro ⟨L, h1, h2⟩; cases h1; simp [JLay.nodes] at h2
        · rintro ⟨L, h1, -⟩; simp only at hn; rw [hn] at h1; cases h1
      · simp only [if_neg e]
    refine ⟨hinv, ?_, ?_⟩
    · refine typed_of h.typed ?_ rfl fun k i n => (hj k i n).mpr
      intro k L hm
      rcases mem_tput hm with e | e
      · cases e; exact .inl rfl
      · exact .inr ⟨L, e, rfl, rfl⟩
    · intro k i n hk
      exact h.ids k i n ((hj k i n).mp hk)
  | encode =>
    have hinv := inv_op h.inv .encode trivial
    rcases encode_doc hs with e | ⟨ls, ids, h2, h4, e⟩
    · exact jb_same h hinv (by simp only [JDState.bop, JBOp.toOp, JDState.op, e]) (by simp only [JDState.bop, JBOp.toOp, JDState.op, e]) (by simp only [JDState.bop, JBOp.toOp, JDState.op, e])
    · refine ⟨hinv, ?_, ?_⟩
      · simp only [JDState.bop, JBOp.toOp, JDState.op, e, fin]
        refine typed_of h.typed ?_ rfl fun k i n hj => (jat_layKey hs h2).mpr hj
        intro k L hm
        obtain ⟨L', g1, g2, g3, -⟩ := layKey_mem h2 hm
        exact .inr ⟨L', g1, g3.symm, g2.symm⟩
      · simp only [JDState.bop, JBOp.toOp, JDState.op, e, fin]
        intro k i n hj
        obtain ⟨L, h5, h6⟩ := (jat_layKey hs h2).mp hj
        exact h4 (k, L) (dget_mem h5) i n h6
  | build k n puts =>
    have ho' := ho k n puts rfl
    simp only [JDState.bop, JBOp.toOp]
    cases hL : dget d.layers k with
    | none => exact h
    | some L =>
      simp only
      cases hb : d.build L.fields puts with
      | error e => exact h
      | ok r =>
        simp only
        have hmem : ∀ {f v}, dget r f = some v → ∃ a t, (f, a) ∈ puts ∧ d.argValue a = .ok v ∧ dget L.fields f = some t ∧ d.valType v = .ok t := by
          intro f v hv
          rcases buildFrom_mem hb hv with h0 | h0
          · cases h0
          · exact h0
        have hspan : Spec.JUses made (.insert k n r) := by
          intro f c p hv
          obtain ⟨a, t, h1, h2, -, -⟩ := hmem hv
          cases a with
          | val w => cases h2; exact hu f c p h1
          | array ns =>
            cases ns with
            | nil => cases h2
            | cons n ns =>
              simp only [JDoc.argValue, JDoc.arrayOf] at h2
              split at h2 <;> cases h2
          | list ns => cases ns <;> cases h2
          | pair l r =>
            simp only [JDoc.argValue, JDoc.nodeSpanOf] at h2
            repeat' split at h2
            all_goals cases h2
        have hinv := inv_op h.inv (.insert k n r) hspan
        cases hn : d.attached n with
        | true =>
          have e : (d.insert k n r).1 = d := insert_attached r hn
          exact jb_same h hinv (by simp only [JDState.op, e]) (by simp only [JDState.op, e]) (by simp only [JDState.op, e])
        | false =>
          have hm := dget_mem hL
          have e := insert_full r hL hn (h.inv.full k L hm) (hs.size k L hm)
          have hnm : n ∉ d.layers.flatMap (fun e => e.2.nodes) := by
            rw [← attached_iff, hn]; simp
          have hnd : ({ L with storage := L.storage ++ [some n], size := L.size + 1 } : JLay).nodes = L.nodes ++ [n] := by
            simp [JLay.nodes, List.filterMap_append]
          have hlen : L.storage.length = L.nodes.length := (congrArg List.length (h.inv.full k L hm)).trans (List.length_map ..)
          simp only [JDState.op, e] at hinv ⊢
          have hj : ∀ k' i m, JAt d k' i m → JAt ({ d with
              layers := dset d.layers k { L with storage := L.storage ++ [some n], size := L.size + 1 }
              ids := JLayer.upd d.ids n L.storage.length
              data := fun m => if m = n then r else d.data m }) k' i m := by
            rintro k' i m ⟨L', h1, h2⟩
            by_cases ek : k = k'
            · subst ek
              rw [hL] at h1
              cases h1
              refine ⟨_, by rw [dget_dset, if_pos rfl], ?_⟩
              rw [hnd, List.getElem?_append_left]
              · exact h2
              · exact (List.getElem?_eq_some_iff.mp h2).1
            · exact ⟨L', by rw [dget_dset, if_neg ek]; exact h1, h2⟩
          refine ⟨hinv, ?_, ?_⟩
          · intro k' L' m f v h1 h2 h3
            simp only at h1 h3
            split at h3
            · rename_i em
              subst em
              have hk : k' = k ∧ L'.fields = L.fields := by
                rcases mem_dset h1 with e | e
                · cases e; exact ⟨rfl, rfl⟩
                · exact absurd (List.mem_flatMap.mpr ⟨_, e, h2⟩) hnm
              obtain ⟨a, t, g1, g2, g3, g4⟩ := hmem h3
              exact ⟨t, by rw [hk.2]; exact g3, fits_mono hj (argValue_fits hs h.ids (ho' (f, a) g1) g2 g4)⟩
            · rename_i em
              rcases mem_dset h1 with e | e
              · cases e
                rw [hnd] at h2
                simp only [List.mem_append, List.mem_singleton] at h2
                obtain ⟨t, g1, g2⟩ := h.typed k L m f v hm (h2.resolve_right em) h3
                exact ⟨t, g1, fits_mono hj g2⟩
              · obtain ⟨t, g1, g2⟩ := h.typed k' L' m f v e h2 h3
                exact ⟨t, g1, fits_mono hj g2⟩
          · rintro k' i m ⟨L', h1, h2⟩
            simp only [dget_dset] at h1
            simp only [JLayer.upd]
            split at h1
            · rename_i ek
              subst ek
              cases h1
              rw [hnd] at h2
              by_cases hi : i < L.nodes.length
              · rw [List.getElem?_append_left hi] at h2
                have : m ≠ n := by
                  rintro rfl
                  exact hnm (List.mem_flatMap.mpr ⟨_, hm, List.mem_of_getElem? h2⟩)
                rw [if_neg this]
                exact h.ids k i m ⟨L, hL, h2⟩
              · rw [List.getElem?_append_right (by omega)] at h2
                have hi' : i - L.nodes.length = 0 := by
                  have := (List.getElem?_eq_some_iff.mp h2).1
                  simp at this
                  omega
                rw [hi'] at h2
                simp at h2
                subst h2
                rw [if_pos rfl, hlen]
                omega
            · have : m ≠ n := by
                rintro rfl
                exact hnm (List.mem_flatMap.mpr ⟨_, dget_mem h1, List.mem_of_getElem? h2⟩)
              rw [if_neg this]
              exact h.ids k' i m ⟨L', h1, h2⟩

theorem jb_new : JBInv .new := by
  refine ⟨inv_new, ?_, ?_⟩
  · intro k L n f v h; simp [JDState.new, JDoc.new] at h
  · rintro k i n ⟨L, h, -⟩; simp [JDState.new, JDoc.new, dget] at h

theorem jb_run (os : List JBOp) : ∀ {s : JDState}, JBInv s → JBFresh s os → JBOne s os → JBInv (s.brun os) := by
  induction os with
  | nil => intro s h _ _; exact h
  | cons o os ih => intro s h hf ho; exact ih (jb_op h o hf.1 ho.1) hf.2 ho.2

/-! ### the content of a typed document -/

theorem spanOk_le {t : JText} (h : JTInv t) {p : JSpan} (hp : SpanOk t p) : t.start p ≤ t.stop p := by
  unfold JText.start JText.stop
  rcases hp with ⟨a, b, h1, h2, h3⟩ | ⟨-, h1⟩
  · rw [(h.pos a _ h1).2, (h.pos b _ h2).2]; exact h3
  · rw [(h1 _ (.inl rfl)).2.1, (h1 _ (.inr rfl)).2.1]; exact Int.le_refl _

theorem both_get {α β : Type} {R : α → β → Prop} {a : Option α} {b : Option β} (h : Both R a b) {x : α} (hx : a = some x) : ∃ y, b = some y ∧ R x y := by
  cases h with
  | none => cases hx
  | some h => cases hx; exact ⟨_, rfl, h⟩

theorem both_get' {α β : Type} {R : α → β → Prop} {a : Option α} {b : Option β} (h : Both R a b) {y : β} (hy : b = some y) : ∃ x, a = some x ∧ R x y := by
  cases h with
  | none => cases hy
  | some h => cases hy; exact ⟨_, rfl, h⟩

theorem both_none {α β : Type} {R : α → β → Prop} {a : Option α} {b : Option β} (h : Both R a b) (ha : a = none) : b = none := by
  cases h with
  | none => rfl
  | some h => cases ha

theorem both_exists {α β : Type} {R : α → β → Prop} (a : Option α) (h : ∀ x, a = some x → ∃ y, R x y) : ∃ b, Both R a b := by
  cases a with
  | none => exact ⟨none, .none⟩
  | some x => obtain ⟨y, hy⟩ := h x rfl; exact ⟨some y, .some hy⟩

/-- the names of the types that the format knows -/
theorem getName_cases {n : JTName} (h : n ≠ .null) :
    n.getName ∈ ["i32".toList, "i64".toList, "f64".toList, "i1".toList, "str".toList, "bin".toList] ∨ n.getName = "span".toList ∨ Spec.IsRef n.getName ∨ n.getName = "ext".toList := by
  cases n with
  | null => exact absurd rfl h
  | ext => exact .inr (.inr (.inr rfl))
  | int => exact .inl (by decide +kernel)
  | long => exact .inl (by decide +kernel)
  | double => exact .inl (by decide +kernel)
  | bool => exact .inl (by decide +kernel)
  | string => exact .inl (by decide +kernel)
  | binary => exact .inl (by decide +kernel)
  | span => exact .inr (.inl rfl)
  | node => exact .inr (.inr (.inl (.inl rfl)))
  | nodeArray => exact .inr (.inr (.inl (.inr (.inl rfl))))
  | nodeSpan => exact .inr (.inr (.inl (.inr (.inr rfl))))

theorem getName_ref {n : JTName} (h : Spec.IsRef n.getName) : n = .node ∨ n = .nodeArray ∨ n = .nodeSpan := by
  cases n <;> first | exact .inl rfl | exact .inr (.inl rfl) | exact .inr (.inr rfl) | (rcases h with h | h | h <;> exact absurd h (by decide))

theorem jat_lt {d : JDoc} {c : Content} (h : JHas d c) {k : Str} {i n : Nat} (hj : JAt d k i n) : i < c.size k := by
  obtain ⟨L, h1, h2⟩ := hj
  obtain ⟨l, h3, h4⟩ := both_get (h.layers k) h1
  unfold Spec.Content.size
  rw [h3]
  simp only
  rw [← h4.size]
  exact (List.getElem?_eq_some_iff.mp h2).1

/-- C96. What a typed document contains is valid: it can be written, and read by the other library (C87, C89). -/
theorem C96_valid {d : JDoc} {c : Content} (hs : JSound d) (ht : JTyped d) (ho : JTypesOk d) (h : JHas d c) : Good c := by
  have argOf : ∀ {t : JType} {ft : Spec.FieldType}, JTypeHas t ft → ∀ {a s}, dget t.args a = some (.str s) → ft.2 a = some (.str s) := by
    intro t ft hft a s hd
    obtain ⟨o, h1, h2⟩ := both_get (hft.2 a) hd
    cases h2
    exact h1
  constructor
  · intro k l f ft hl hf
    obtain ⟨L, h1, h2⟩ := both_get' (h.layers k) hl
    obtain ⟨t, h3, h4⟩ := both_get' (h2.fields f) hf
    have hk := ho k L f t h1 h3
    refine ⟨?_, ?_, ?_, ?_, ?_⟩
    · rw [← h4.1]; exact getName_cases hk.known
    · intro e
      rw [← h4.1] at e
      obtain ⟨s, u, g1, g2⟩ := hk.text (getName_span.mp e)
      obtain ⟨x, g3, -⟩ := both_get (h.texts s) g2
      exact ⟨s, x, argOf h4 g1, g3⟩
    · intro e
      rw [← h4.1] at e
      obtain ⟨s, M, g1, g2⟩ := hk.layer (getName_ref e)
      obtain ⟨x, g3, -⟩ := both_get (h.layers s) g2
      exact ⟨s, x, argOf h4 g1, g3⟩
    · intro e
      rw [← h4.1] at e
      obtain ⟨s, g1⟩ := hk.ext (getName_inj (b := .ext) e)
      exact ⟨s, argOf h4 g1⟩
    · exact ⟨both_none (h4.2 _) hk.names.1, both_none (h4.2 _) hk.names.2⟩
  · intro k l row f x hl hrow hx
    obtain ⟨L, h1, h2⟩ := both_get' (h.layers k) hl
    obtain ⟨i, hi, hi'⟩ := List.getElem_of_mem hrow
    have hi2 : i < L.nodes.length := by rw [h2.size]; exact hi
    have hn : L.nodes[i]? = some L.nodes[i] := List.getElem?_eq_getElem hi2
    have hc := h2.cells i L.nodes[i] row f hn (by rw [List.getElem?_eq_getElem hi, hi'])
    rw [hx] at hc
    have hm := dget_mem h1
    generalize hfx : dget L.fields f = o at hc
    generalize hvx : dget (d.data L.nodes[i]) f = v at hc
    cases hc with
    | declared hc =>
      rename_i t
      obtain ⟨ft, g1, g2⟩ := both_get (h2.fields f) hfx
      refine ⟨ft, g1, ?_⟩
      cases v with
      | none => cases hc
      | some v =>
        obtain ⟨t', e1, hfit⟩ := ht k L L.nodes[i] f v hm (List.getElem_mem hi2) hvx
        rw [hfx] at e1
        cases e1
        cases hc with
        | bool => cases hfit with | bool e => subst e; exact .bool g2.1.symm
        | int => cases hfit with | int e => subst e; exact .int (.inl g2.1.symm)
        | long => cases hfit with | long e => subst e; exact .int (.inr g2.1.symm)
        | double => cases hfit with | double e => subst e; exact .float g2.1.symm
        | str => cases hfit with | str e => subst e; exact .str g2.1.symm
        | bin => cases hfit with | bin e => subst e; exact .bin g2.1.symm
        | ext => cases hfit with | ext e => subst e; exact .ext g2.1.symm
        | span j1 j2 j3 j4 j5 =>
          rename_i cc u s p a b
          cases hfit with
          | span e =>
            subst e
            obtain ⟨x, k1, k2⟩ := both_get (h.texts cc) j2
            have : x = s := utf16_inj (k2.symm.trans j3)
            subst this
            refine .span g2.1.symm (argOf g2 j1) k1 ?_ j5.1
            obtain ⟨u', m1, m2⟩ := hs.spans k L L.nodes[i] f _ cc p hm (List.getElem_mem hi2) (dget_mem hfx) rfl hvx
            rw [j2] at m1
            cases m1
            have hle := spanOk_le (hs.texts cc u (dget_mem j2)) m2
            rw [j4.2, j5.2] at hle
            apply Decidable.byContradiction
            intro hab
            have := utf16_len_lt (s := x) (a := b) (b := a) (by omega) j4.1
            omega
        | node j1 j2 =>
          cases hfit with
          | node e _ =>
            subst e
            exact .node g2.1.symm (argOf g2 j1) (jat_lt h j2)
        | nodes j1 j2 j3 j4 =>
          rename_i ns is s
          cases hfit with
          | nodes e _ _ =>
            subst e
            refine .nodes g2.1.symm (argOf g2 j1) ?_ ?_
            · rintro rfl
              exact j2 (List.length_eq_zero_iff.mp j3)
            · intro i0 hi0
              obtain ⟨j, hj, ej⟩ := List.getElem_of_mem hi0
              exact jat_lt h (j4 j ns[j] i0 (List.getElem?_eq_getElem (by omega)) (by rw [List.getElem?_eq_getElem hj, ej]))
        | nodespan j1 j2 j3 =>
          cases hfit with
          | nodespan e q1 q2 q3 =>
            subst e
            obtain ⟨-, rfl⟩ := jat_unique hs j2 q1
            obtain ⟨-, rfl⟩ := jat_unique hs j3 q2
            exact .nodespan g2.1.symm (argOf g2 j1) q3 (jat_lt h j3)

theorem jNoExt_content {d : JDoc} {c : Content} (hx : Spec.JNoExt d) (h : JHas d c) : Spec.NoExt c := by
  intro k l f ft hl hf e
  obtain ⟨L, h1, h2⟩ := both_get' (h.layers k) hl
  obtain ⟨t, h3, h4⟩ := both_get' (h2.fields f) hf
  exact hx k L f t h1 h3 (getName_inj (b := .ext) (h4.1.trans e))

/-- C96. A typed document whose texts are Unicode and whose spans are between characters has a content. -/
theorem C96_content {d : JDoc} (ht : JTyped d) (ho : JTypesOk d) (hw : JWhole d) : ∃ c, JHas d c := by
  have hcell : ∀ k L n f t, dget d.layers k = some L → n ∈ L.nodes → dget L.fields f = some t → ∃ x, JCell d t (dget (d.data n) f) x := by
    intro k L n f t hL hn hf
    cases hv : dget (d.data n) f with
    | none => exact ⟨none, .unset⟩
    | some v =>
      obtain ⟨t', e, hfit⟩ := ht k L n f v (dget_mem hL) hn hv
      rw [hf] at e
      cases e
      have hk := ho k L f t hL hf
      cases hfit with
      | null e => rw [e] at hk; exact absurd rfl hk.known
      | ext e => exact ⟨_, .ext (by rw [e]; rfl)⟩
      | bool e => exact ⟨_, .bool⟩
      | int e => exact ⟨_, .int⟩
      | long e => exact ⟨_, .long⟩
      | double e => exact ⟨_, .double⟩
      | str e => exact ⟨_, .str⟩
      | bin e => exact ⟨_, .bin⟩
      | span e =>
        rename_i cc p
        subst e
        obtain ⟨u, s, a, b, h1, h2, h3, h4⟩ := hw.spans k L n f cc p (dget_mem hL) hn hv
        exact ⟨_, .span (by simp [dget]) h1 h2 h3 h4⟩
      | node e h1 => subst e; exact ⟨_, .node (by simp [JTarget, dget]) h1⟩
      | nodes e h0 h1 =>
        rename_i ns kk
        subst e
        have : ∃ is : List Nat, ns.length = is.length ∧ ∀ (j : Nat) (n i : Nat), ns[j]? = some n → is[j]? = some i → JAt d kk i n := by
          clear h0 hv
          induction ns with
          | nil => exact ⟨[], rfl, by simp⟩
          | cons m ns ih =>
            obtain ⟨is, g1, g2⟩ := ih (fun n hn => h1 n (by simp [hn]))
            obtain ⟨i, hi⟩ := h1 m (by simp)
            refine ⟨i :: is, by simp [g1], ?_⟩
            intro j n' i' e1 e2
            cases j with
            | zero => simp at e1 e2; subst e1; subst e2; exact hi
            | succ j => simp at e1 e2; exact g2 j n' i' e1 e2
        obtain ⟨is, g1, g2⟩ := this
        exact ⟨_, .nodes (by simp [JTarget, dget]) h0 g1 g2⟩
      | nodespan e h1 h2 h3 => subst e; exact ⟨_, .nodespan (by simp [JTarget, dget]) h1 h2⟩
  have hrow : ∀ k L n, dget d.layers k = some L → n ∈ L.nodes → ∃ row : Str → Option Cell, ∀ f, JField d (dget L.fields f) (dget (d.data n) f) (row f) := by
    intro k L n hL hn
    refine Classical.axiomOfChoice (r := fun f x => JField d (dget L.fields f) (dget (d.data n) f) x) fun f => ?_
    cases hf : dget L.fields f with
    | none =>
      cases hv : dget (d.data n) f with
      | none => exact ⟨none, .undeclared⟩
      | some v =>
        obtain ⟨t, e, -⟩ := ht k L n f v (dget_mem hL) hn hv
        rw [hf] at e
        cases e
    | some t =>
      obtain ⟨x, hx⟩ := hcell k L n f t hL hn hf
      exact ⟨x, .declared hx⟩
  have hlay : ∀ k L, dget d.layers k = some L → ∃ l, JLayerHas d L l := by
    intro k L hL
    have hfs : ∃ fs : Str → Option Spec.FieldType, ∀ f, Both JTypeHas (dget L.fields f) (fs f) := by
      refine Classical.axiomOfChoice (r := fun f x => Both JTypeHas (dget L.fields f) x) fun f => both_exists _ fun t hf => ?_
      obtain ⟨args, ha⟩ := Classical.axiomOfChoice (r := fun a x => Both JPlain (dget t.args a) x) fun a => both_exists _ fun v hv => (ho k L f t hL hf).plain a v hv
      exact ⟨(t.name.getName, args), rfl, ha⟩
    obtain ⟨fs, hfs⟩ := hfs
    have hrows : ∀ ns : List Nat, (∀ n ∈ ns, n ∈ L.nodes) → ∃ rows : List (Str → Option Cell), ns.length = rows.length ∧
        ∀ (i : Nat) n row f, ns[i]? = some n → rows[i]? = some row → JField d (dget L.fields f) (dget (d.data n) f) (row f) := by
      intro ns
      induction ns with
      | nil => intro _; exact ⟨[], rfl, by simp⟩
      | cons m ns ih =>
        intro hns
        obtain ⟨rows, g1, g2⟩ := ih (fun n hn => hns n (by simp [hn]))
        obtain ⟨row, hr⟩ := hrow k L m hL (hns m (by simp))
        refine ⟨row :: rows, by simp [g1], ?_⟩
        intro i n' row' f e1 e2
        cases i with
        | zero => simp at e1 e2; subst e1; subst e2; exact hr f
        | succ i => simp at e1 e2; exact g2 i n' row' f e1 e2
    obtain ⟨rows, g1, g2⟩ := hrows L.nodes (fun _ h => h)
    exact ⟨⟨fs, rows⟩, hfs, g1, g2⟩
  obtain ⟨ps, h1⟩ := Classical.axiomOfChoice (r := fun k x => Both JProp (dget d.props k) x) fun k => both_exists _ fun v hv => hw.props k v hv
  obtain ⟨ts, h2⟩ := Classical.axiomOfChoice (r := fun k x => Both (fun (t : JText) s => t.text = utf16 s) (dget d.texts k) x) fun k => both_exists _ fun u hu => hw.texts k u hu
  obtain ⟨ls, h3⟩ := Classical.axiomOfChoice (r := fun k x => Both (JLayerHas d) (dget d.layers k) x) fun k => both_exists _ fun L hL => hlay k L hL
  exact ⟨⟨ps, ts, ls⟩, h1, h2, h3⟩

/-! ### C96: the validating builder -/

theorem fits_valType {d : JDoc} (hs : JSound d) {t : JType} {v : JVal} (h : JFits d t v) : d.valType v = .ok t := by
  have lt : ∀ {name k i n}, JAt d k i n → d.layerType name n = .ok ⟨name, [("layer".toList, .str k)]⟩ := by
    intro name k i n hj
    unfold JDoc.layerType
    rw [(layerName_some hs).mpr ⟨i, hj⟩]
    rfl
  cases h with
  | null e => rw [e]; rfl
  | bool e => rw [e]; rfl
  | int e => rw [e]; rfl
  | long e => rw [e]; rfl
  | double e => rw [e]; rfl
  | str e => rw [e]; rfl
  | bin e => rw [e]; rfl
  | ext e => rw [e]; rfl
  | span e => rw [e]; rfl
  | node e h1 => rw [e]; exact lt h1
  | nodes e h0 h1 =>
    rename_i ns k
    cases ns with
    | nil => exact absurd rfl h0
    | cons n ns =>
      obtain ⟨i, hi⟩ := h1 n (by simp)
      rw [e]
      exact lt hi
  | nodespan e h1 h2 h3 => rw [e]; exact lt h1

/-- C96. `put` of a builder takes a value exactly if the layer declares the field, the value is of the declared type, and
the field was not put before; then it has that value, and other fields keep theirs. Otherwise it is refused. -/
theorem C96_put {d : JDoc} (hs : JSound d) (hi : ∀ k i n, JAt d k i n → d.ids n = i) (fields : Dict Str JType) (values : Dict Str JVal) (f : Str) {v : JVal} (ho : OneLayer d (.val v)) :
    ((∃ t, dget fields f = some t ∧ JFits d t v) ∧ dget values f = none →
      ∃ r, d.builderPut fields values f v = .ok r ∧ ∀ g, dget r g = if f = g then some v else dget values g) ∧
    (¬ ((∃ t, dget fields f = some t ∧ JFits d t v) ∧ dget values f = none) → ∃ e, d.builderPut fields values f v = .error e) := by
  refine ⟨?_, ?_⟩ <;> intro h
  · obtain ⟨⟨t, h1, h2⟩, h3⟩ := h
    refine ⟨tput values f v, ?_, fun g => dget_tput ..⟩
    unfold JDoc.builderPut
    rw [h1]
    simp only [fits_valType hs h2, h3]
    simp
  · cases hb : d.builderPut fields values f v with
    | error e => exact ⟨e, rfl⟩
    | ok r =>
      exfalso
      obtain ⟨t, h1, h2, h3, -⟩ := builderPut_ok hb
      exact h ⟨⟨t, h1, argValue_fits hs hi ho rfl h2⟩, h3⟩

/-- what C96 would say: whatever is given to builders, the fields of all nodes are of the declared types -/
def C96_full : Prop := ∀ os, JBFresh .new os → JTyped (JDState.new.brun os).doc

/-- C96. Whatever texts, layers and spans are made, whatever is given to builders of nodes, and however often the document is
encoded: if the nodes that are given for one field are of one layer, the fields of all nodes are of the declared types. The
document is sound. -/
theorem C96_builder_partial (os : List JBOp) (hf : JBFresh .new os) (ho : JBOne .new os) : JTyped (JDState.new.brun os).doc ∧ JSound (JDState.new.brun os).doc := by
  have h := jb_run os jb_new hf ho
  exact ⟨h.typed, h.inv.sound⟩

/-- C96. A document made with builders, without extended fields: the Python library reads what is written, with the content
that it has. -/
theorem C96_python_reads_partial (os : List JBOp) (hf : JBFresh .new os) (ho : JBOne .new os) {d d' : JDoc} (hd : d = (JDState.new.brun os).doc) (ht : JTypesOk d) (hx : Spec.JNoExt d) (hw : JWhole d)
    {bs : Bytes} (he : d.encode = (d', .ok bs)) : ∃ c w, JHas d c ∧ decodeMsgpack bs = .ok w ∧ PyHas w c ∧ JHas d' c := by
  obtain ⟨h1, h2⟩ := C96_builder_partial os hf ho
  rw [← hd] at h1 h2
  obtain ⟨c, hc⟩ := C96_content h1 ht hw
  obtain ⟨⟨w, g1, g2⟩, g3, -⟩ := C87_java_to_python h2 hc (C96_valid h2 h1 ht hc) (noExt_readable (C96_valid h2 h1 ht hc) (jNoExt_content hx hc)) he
  exact ⟨c, w, hc, by simpa using g1 [], g2, g3⟩

/-- C96. So does the Java library, if it can read the kinds of values. -/
theorem C96_java_reads_partial (os : List JBOp) (hf : JBFresh .new os) (ho : JBOne .new os) {d d' : JDoc} (hd : d = (JDState.new.brun os).doc) (ht : JTypesOk d) {c : Content}
    (hc : JHas d c) (hr : JavaReadable c) {bs : Bytes} (he : d.encode = (d', .ok bs)) (hl : bs.length < 2 ^ 31) : ∃ d2, jDecode bs = .ok d2 ∧ JHas d2 c := by
  obtain ⟨h1, h2⟩ := C96_builder_partial os hf ho
  rw [← hd] at h1 h2
  obtain ⟨d2, g1, g2⟩ := C89_java_to_java_partial h2 hc (C96_valid h2 h1 ht hc) hr he hl
  exact ⟨d2, by simpa using g1 [], g2⟩

namespace Ex

/-- calls that make the document of the examples for C87, with builders -/
def jbops : List JBOp := [.prop "lang".toList (.str "en".toList), .text "main".toList (utf16 "a😀b".toList),
  .layer "tok".toList [("text".toList, ⟨.span, [("context".toList, .str "main".toList)]⟩), ("head".toList, ⟨.node, [("layer".toList, .str "tok".toList)]⟩), ("id".toList, ⟨.int, []⟩)],
  .span "main".toList 0 1, .span "main".toList 1 3,
  .build "tok".toList 7 [("text".toList, .val (.span "main".toList (0, 1))), ("id".toList, .val (.int 5))],
  .build "tok".toList 8 [("id".toList, .val (.long 5))],
  .build "tok".toList 9 [("text".toList, .val (.span "main".toList (1, 2))), ("head".toList, .val (.node 7))]]

theorem jbops_doc : JDState.new.brun jbops = JDState.new.run jops := rfl

theorem jbops_fresh : JBFresh .new jbops := by
  refine ⟨trivial, trivial, ⟨by decide +kernel, by decide, by decide⟩, trivial, trivial, ?_, ?_, ?_, trivial⟩
  · intro f c p h
    simp only [List.mem_cons, Prod.mk.injEq, List.not_mem_nil, or_false, JArg.val.injEq, JVal.span.injEq] at h
    rcases h with ⟨_, rfl, rfl⟩ | ⟨_, h⟩
    · decide +kernel
    · cases h
  · intro f c p h
    simp only [List.mem_cons, Prod.mk.injEq, List.not_mem_nil, or_false, JArg.val.injEq] at h
    cases h.2
  · intro f c p h
    simp only [List.mem_cons, Prod.mk.injEq, List.not_mem_nil, or_false, JArg.val.injEq, JVal.span.injEq] at h
    rcases h with ⟨_, rfl, rfl⟩ | ⟨_, h⟩
    · decide +kernel
    · cases h

theorem jbops_one : JBOne .new jbops := by
  refine ⟨by simp, by simp, by simp, by simp, by simp, ?_, ?_, ?_, trivial⟩
  all_goals
    intro k n puts e
    cases e
    intro e he
    simp only [List.mem_cons, List.not_mem_nil, or_false] at he
    rcases he with rfl | rfl <;> trivial

/-- lists of nodes, and pairs of nodes, of two layers -/
def mixOps (a : JArg) (t : JTName) : List JBOp := [.layer "a".toList [], .layer "b".toList [], .layer "c".toList [("x".toList, ⟨t, [("layer".toList, .str "a".toList)]⟩)],
  .build "a".toList 0 [], .build "b".toList 1 [], .build "b".toList 2 [], .build "c".toList 3 [("x".toList, a)]]

/-- the errors of the Java and of the Python decoder on what is written -/
def mixErr (a : JArg) (t : JTName) : Option (Option PyErr × Option PyErr) := match (JDState.new.brun (mixOps a t)).doc.encode.2 with
  | .ok bs => some (jErr bs, pyErr bs)
  | .error _ => none

theorem jdoc_noExt : Spec.JNoExt jdoc := by
  intro k L f t h1 h2
  rw [jdoc_layers] at h1
  have e1 := dget_mem h1
  simp only [List.mem_cons, Prod.mk.injEq, List.not_mem_nil, or_false] at e1
  obtain ⟨rfl, rfl⟩ := e1
  have e2 := dget_mem h2
  simp only [jlay, jfields, List.mem_cons, Prod.mk.injEq, List.not_mem_nil, or_false] at e2
  rcases e2 with ⟨rfl, rfl⟩ | ⟨rfl, rfl⟩ | ⟨rfl, rfl⟩ <;> decide

theorem jdoc_types : JTypesOk jdoc := by
  intro k L f t h1 h2
  rw [jdoc_layers] at h1
  have e1 := dget_mem h1
  simp only [List.mem_cons, Prod.mk.injEq, List.not_mem_nil, or_false] at e1
  obtain ⟨rfl, rfl⟩ := e1
  have e2 := dget_mem h2
  simp only [jlay, jfields, List.mem_cons, Prod.mk.injEq, List.not_mem_nil, or_false] at e2
  rcases e2 with ⟨rfl, rfl⟩ | ⟨rfl, rfl⟩ | ⟨rfl, rfl⟩
  · refine ⟨by decide, nofun, fun _ => ⟨_, jlay, rfl, by rw [jdoc_layers]; rfl⟩, nofun, by decide, ?_⟩
    intro a v h
    have := dget_mem h
    simp only [List.mem_cons, Prod.mk.injEq, List.not_mem_nil, or_false] at this
    rw [this.2]
    exact ⟨_, .str⟩
  · refine ⟨by decide, nofun, (by rintro (h | h | h) <;> cases h), nofun, by decide, ?_⟩
    intro a v h
    cases h
  · refine ⟨by decide, fun _ => ⟨_, jtxt, rfl, by rw [jdoc_texts]; rfl⟩, (by rintro (h | h | h) <;> cases h), nofun, by decide, ?_⟩
    intro a v h
    have := dget_mem h
    simp only [List.mem_cons, Prod.mk.injEq, List.not_mem_nil, or_false] at this
    rw [this.2]
    exact ⟨_, .str⟩

theorem jdoc_whole : JWhole jdoc := by
  have tt : jtxt.text = utf16 "a😀b".toList := by decide +kernel
  have txt : dget jdoc.texts "main".toList = some jtxt := by rw [jdoc_texts]; rfl
  have d7 : jdoc.data 7 = [("id".toList, .int 5), ("text".toList, .span "main".toList (0, 1))] := by decide +kernel
  have d9 : jdoc.data 9 = [("head".toList, .node 7), ("text".toList, .span "main".toList (1, 2))] := by decide +kernel
  refine ⟨?_, ?_, ?_⟩
  · intro c u h
    rw [jdoc_texts] at h
    have := dget_mem h
    simp only [List.mem_cons, Prod.mk.injEq, List.not_mem_nil, or_false] at this
    rw [this.2]
    exact ⟨_, tt⟩
  · intro k L n f c p h1 h2 h3
    rw [jdoc_layers] at h1
    simp only [List.mem_cons, Prod.mk.injEq, List.not_mem_nil, or_false] at h1
    rw [h1.2] at h2
    have h2' : n = 7 ∨ n = 9 := by simpa [jlay, JLay.nodes] using h2
    rcases h2' with rfl | rfl
    · rw [d7] at h3
      have := dget_mem h3
      simp only [List.mem_cons, Prod.mk.injEq, List.not_mem_nil, or_false, JVal.span.injEq] at this
      rcases this with ⟨_, h⟩ | ⟨_, rfl, rfl⟩
      · cases h
      · exact ⟨jtxt, _, 0, 1, txt, tt, ⟨by decide, by decide +kernel⟩, ⟨by decide, by decide +kernel⟩⟩
    · rw [d9] at h3
      have := dget_mem h3
      simp only [List.mem_cons, Prod.mk.injEq, List.not_mem_nil, or_false, JVal.span.injEq] at this
      rcases this with ⟨_, h⟩ | ⟨_, rfl, rfl⟩
      · cases h
      · exact ⟨jtxt, _, 1, 2, txt, tt, ⟨by decide, by decide +kernel⟩, ⟨by decide, by decide +kernel⟩⟩
  · intro k v h
    rw [jdoc_props] at h
    have := dget_mem h
    simp only [List.mem_cons, Prod.mk.injEq, List.not_mem_nil, or_false] at this
    rw [this.2]
    exact ⟨_, .plain .str⟩

end Ex

/-- C96. The builder takes a list with nodes of another layer than the declared one, and the document is written; neither
library can read it. An array with the same nodes is refused. -/
theorem C96_list_fails : Ex.mixErr (.list [0, 2]) .nodeArray = some (some .index, some .index) ∧
    (JDState.new.brun (Ex.mixOps (.list [0, 2]) .nodeArray)).doc.data 3 = [("x".toList, .nodes [0, 2])] ∧
    (JDState.new.brun (Ex.mixOps (.array [0, 2]) .nodeArray)).doc.data 3 = [] := by decide +kernel

/-- C96. It takes two nodes of different layers as a NodeSpan, and the document is written; neither library can read it. -/
theorem C96_span_fails : Ex.mixErr (.pair 0 2) .nodeSpan = some (some .index, some .index) ∧
    (JDState.new.brun (Ex.mixOps (.pair 0 2) .nodeSpan)).doc.data 3 = [("x".toList, .nodespan 0 2)] := by decide +kernel

theorem C96_full_false : ¬ C96_full := by
  intro h
  have hf : JBFresh .new (Ex.mixOps (.list [0, 2]) .nodeArray) := by
    refine ⟨⟨by decide +kernel, by decide, by decide⟩, ⟨by decide +kernel, by decide, by decide⟩, ⟨by decide +kernel, by decide, by decide⟩, ?_, ?_, ?_, ?_, trivial⟩
    all_goals
      intro f c p h
      simp only [List.mem_cons, Prod.mk.injEq, List.not_mem_nil, or_false, reduceCtorEq, and_false] at h
  have ht := h _ hf
  generalize hd : (JDState.new.brun (Ex.mixOps (.list [0, 2]) .nodeArray)).doc = d at ht
  have h1 : d.layers = [("a".toList, ⟨[], [some 0], 1⟩), ("b".toList, ⟨[], [some 1, some 2], 2⟩),
      ("c".toList, ⟨[("x".toList, ⟨.nodeArray, [("layer".toList, .str "a".toList)]⟩)], [some 3], 1⟩)] := by rw [← hd]; decide +kernel
  have h2 : d.data 3 = [("x".toList, .nodes [0, 2])] := by rw [← hd]; exact C96_list_fails.2.1
  obtain ⟨t, g1, g2⟩ := ht "c".toList ⟨[("x".toList, ⟨.nodeArray, [("layer".toList, .str "a".toList)]⟩)], [some 3], 1⟩ 3 "x".toList (.nodes [0, 2]) (by rw [h1]; simp only [List.mem_cons, true_or, or_true]) (by decide) (by rw [h2]; rfl)
  have g3 : t = ⟨.nodeArray, [("layer".toList, .str "a".toList)]⟩ := by
    have : some t = some _ := g1.symm
    exact Option.some.inj this
  cases g2 with
  | nodes e _ g4 =>
    rw [g3] at e
    simp only [JType.mk.injEq, List.cons.injEq, Prod.mk.injEq, JVal.str.injEq, true_and, and_true] at e
    subst e
    obtain ⟨i, L, m1, m2⟩ := g4 2 (by simp)
    rw [h1] at m1
    have : L = ⟨[], [some 0], 1⟩ := (Option.some.inj m1).symm
    rw [this] at m2
    have := List.mem_of_getElem? m2
    revert this
    decide

/-- a document made with builders, one of which is refused (a long for an int field); what is written, and what Python reads -/
example : ∃ c w, JHas Ex.jdoc c ∧ decodeMsgpack Ex.jbytes = .ok w ∧ PyHas w c := by
  obtain ⟨c, w, h1, h2, h3, -⟩ := C96_python_reads_partial Ex.jbops Ex.jbops_fresh Ex.jbops_one (d := Ex.jdoc) (by rw [Ex.jbops_doc]; rfl) Ex.jdoc_types Ex.jdoc_noExt Ex.jdoc_whole Ex.jbytes_ok
  exact ⟨c, w, h1, h2, h3⟩

/-- and what Java reads -/
example : ∃ d2, jDecode Ex.jbytes = .ok d2 ∧ JHas d2 Ex.jcontent :=
  C96_java_reads_partial Ex.jbops Ex.jbops_fresh Ex.jbops_one (d := Ex.jdoc) (by rw [Ex.jbops_doc]; rfl) Ex.jdoc_types Ex.jdoc_has Ex.jcontent_readable Ex.jbytes_ok (by decide +kernel)

/-- what a builder says to values of other types, to fields that are not declared, and to a second value -/
example : Ex.jdoc.build Ex.jfields [("id".toList, .val (.int 5)), ("head".toList, .val (.node 9))] = .ok [("head".toList, .node 9), ("id".toList, .int 5)] ∧
    Ex.jdoc.build Ex.jfields [("id".toList, .val (.long 5))] = .error .value ∧ Ex.jdoc.build Ex.jfields [("nope".toList, .val (.int 5))] = .error .value ∧
    Ex.jdoc.build Ex.jfields [("id".toList, .val (.int 5)), ("id".toList, .val (.int 6))] = .error .value ∧ Ex.jdoc.build Ex.jfields [("head".toList, .val (.node 5))] = .error .attribute ∧
    Ex.jdoc.build Ex.jfields [("head".toList, .list [])] = .error .notImplemented ∧ Ex.jdoc.build Ex.jfields [("head".toList, .pair 9 7)] = .error .data := ⟨rfl, rfl, rfl, rfl, rfl, rfl, rfl⟩

end Verif
