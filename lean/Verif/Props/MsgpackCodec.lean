import Verif.Proof.MDoc
import Verif.Props.Msgpack
/-
C31-C36: the MessagePack codec on bytes, lazy reading, pickling.
-/
set_option linter.unusedSimpArgs false
namespace Verif
open World

/-- what encoding to bytes is, for a valid document -/
theorem encode_parts {w : World} (h : Reachable w) (he : Spec.Encodable w) (x t : Bool) :
    ∃ w1 wire w2, w.toWire x t = (w1, .ok wire) ∧ w.encodeMsgpack x t = (w1, encodeBytes wire) ∧ WireOk wire ∧
      fromWire wire = .ok w2 ∧ Spec.SameDoc w w2 ∧ Reachable w2 ∧ Spec.Encodable w2 := by
  obtain ⟨w1, wire, w2, h1, h2, h3, h4, h5⟩ := C29_round_trip h he x t
  refine ⟨w1, wire, w2, h1, ?_, ?_, h2, h3, h4, h5⟩
  · unfold encodeMsgpack; rw [h1]
  · obtain ⟨w1', offs, hc, so, hr⟩ := ready_of h.inv h.wf he x t
    unfold toWire at h1; rw [hc] at h1
    simp only at h1
    cases hw : w1'.wireOf offs with
    | error e => rw [hw] at h1; simp at h1
    | ok y => rw [hw] at h1; simp at h1; rw [← h1.2]; exact wire_ok hr hw

/-! ### C31 -/

/-- C31. Bytes written for a valid document, with any options and with any bytes behind them, are decoded to
an observably equal document, which is valid again. -/
theorem C31_round_trip {w w1 : World} (h : Reachable w) (he : Spec.Encodable w) {x t : Bool} {bs : Bytes}
    (hb : w.encodeMsgpack x t = (w1, .ok bs)) (rest : Bytes) :
    ∃ w2, decodeMsgpack (bs ++ rest) = .ok w2 ∧ Spec.SameDoc w w2 ∧ Reachable w2 ∧ Spec.Encodable w2 := by
  obtain ⟨w1', wire, w2, h1, h2, h3, h4, h5, h6, h7⟩ := encode_parts h he x t
  rw [hb] at h2
  simp only [Prod.mk.injEq] at h2
  exact ⟨w2, by rw [decode_encode h3 h2.2.symm, h4], h5, h6, h7⟩

namespace Spec

/-- what is written, if anything, is shorter than 2^64 bytes -/
def Short : Except PyErr Bytes → Prop
  | .ok b => b.length < 2 ^ 64
  | .error _ => True

instance : ∀ a, Decidable (Short a)
  | .ok b => inferInstanceAs (Decidable (b.length < 2 ^ 64))
  | .error _ => inferInstanceAs (Decidable True)

/-- everything in the data is within the limits of the MessagePack format: 64-bit integers, sizes below 2^32,
nesting below 512 -/
structure WireFits (x : Wire) : Prop where
  props : Fits 512 (.map x.props)
  texts : Fits 512 (textsObj x.texts)
  names : Fits 512 (.arr ((dkeys x.layers).map .str))
  num : ∀ l ∈ x.layers, -2 ^ 63 ≤ l.2.num ∧ l.2.num < 2 ^ 64
  field : ∀ l ∈ x.layers, ∀ c ∈ l.2.cols, Fits 512 (.str c.1) ∧ Fits 512 (.str c.2.1.name) ∧
    (∀ d, c.2.1.args = some d → Fits 512 (.map d)) ∧ Fits 512 (.arr c.2.2)
  cols : ∀ l ∈ x.layers, l.2.cols.length < 2 ^ 64
  /-- the parts whose length is written are shorter than 2^64 bytes -/
  short : Short (pack (.map x.props)) ∧ Short (pack (textsObj x.texts)) ∧ ∀ l ∈ x.layers,
    Short (cat (pack (.int l.2.num)) (catL (l.2.cols.map (fun c => cat (pack (.bool false)) (pack (.arr c.2.2))))))

end Spec

theorem cat_two {a b : Except PyErr Bytes} (ha : ∃ x, a = .ok x) (hb : ∃ x, b = .ok x) : ∃ x, cat a b = .ok x := by
  obtain ⟨x, rfl⟩ := ha; obtain ⟨y, rfl⟩ := hb; exact ⟨_, rfl⟩

theorem catL_all {α : Type} {f : α → Except PyErr Bytes} : ∀ {l : List α}, (∀ a ∈ l, ∃ x, f a = .ok x) → ∃ x, catL (l.map f) = .ok x := by
  intro l
  induction l with
  | nil => intro _; exact ⟨_, rfl⟩
  | cons a l ih => intro h; exact cat_two (h a (by simp)) (ih (fun b hb => h b (by simp [hb])))

theorem sized_all {a : Except PyErr Bytes} (h : ∃ x, a = .ok x) (hs : Spec.Short a) : ∃ x, sized a = .ok x := by
  obtain ⟨x, rfl⟩ := h
  have : x.length < 2 ^ 64 := hs
  exact cat_two (C30_packs (.int x.length) (by simp only [Spec.Fits]; omega)) ⟨_, rfl⟩

theorem encodeBytes_ok {x : Wire} (h : Spec.WireFits x) : ∃ bs, encodeBytes x = .ok bs := by
  unfold encodeBytes
  refine cat_two ⟨_, rfl⟩ (cat_two (sized_all (C30_packs _ h.props) h.short.1) (cat_two (C30_packs _ h.names)
    (cat_two (catL_all ?_) (cat_two (sized_all (C30_packs _ h.texts) h.short.2.1) (catL_all ?_)))))
  · intro e he
    refine cat_two (C30_packs (.int e.2.cols.length) (by have := h.cols e he; simp only [Spec.Fits]; omega)) (catL_all ?_)
    intro c hc
    obtain ⟨f1, f2, f3, f4⟩ := h.field e he c hc
    refine cat_two (C30_packs _ f1) ?_
    split
    · exact cat_two ⟨_, rfl⟩ (C30_packs _ f2)
    · rename_i d hd
      exact cat_two ⟨_, rfl⟩ (cat_two (C30_packs _ f2) (C30_packs _ (f3 d hd)))
  · intro e he
    refine sized_all (cat_two (C30_packs (.int e.2.num) (by have := h.num e he; simp only [Spec.Fits]; exact this)) (catL_all ?_)) ?_
    · intro c hc
      exact cat_two ⟨_, rfl⟩ (C30_packs _ (h.field e he c hc).2.2.2)
    · exact h.short.2.2 e he

/-- C31. Encoding does not fail: a valid document whose data are within the limits of the format is written. -/
theorem C31_encodes {w : World} (h : Reachable w) (he : Spec.Encodable w) {x t : Bool} {wire : Wire}
    (hw : (w.toWire x t).2 = .ok wire) (hf : Spec.WireFits wire) : ∃ w1 bs, w.encodeMsgpack x t = (w1, .ok bs) := by
  obtain ⟨w1, wire', w2, h1, h2, -⟩ := encode_parts h he x t
  rw [h1] at hw; cases hw
  obtain ⟨bs, hb⟩ := encodeBytes_ok hf
  exact ⟨w1, bs, by rw [h2, hb]⟩

/-! ### C32 -/

/-- C32. Encoding the decoded document gives the same bytes again, whatever options are used. -/
theorem C32_stable {w : World} (h : Reachable w) (he : Spec.Encodable w) (x t x' t' : Bool) {bs : Bytes}
    (hb : (w.encodeMsgpack x t).2 = .ok bs) :
    ∃ w2, decodeMsgpack bs = .ok w2 ∧ (w2.encodeMsgpack x' t').2 = .ok bs := by
  obtain ⟨w1, wire, w2, h1, h2, h3, h4, -⟩ := encode_parts h he x t
  obtain ⟨wire', w2', g1, g2, g3⟩ := C32_stable_data h he x t x' t'
  rw [h1] at g1; cases g1
  rw [h4] at g2; cases g2
  rw [h2] at hb
  have hd := decode_encode h3 hb []
  rw [List.append_nil] at hd
  refine ⟨w2, by rw [hd, h4], ?_⟩
  unfold encodeMsgpack
  generalize hg : w2.toWire x' t' = r at g3
  obtain ⟨w3, r⟩ := r
  simp only at g3; subst g3
  exact hb

/-- C32. Encoding the same document a second time, with any options, gives the same bytes. -/
theorem C32_twice {w w1 : World} (h : Reachable w) (he : Spec.Encodable w) (x t x' t' : Bool) {bs : Bytes}
    (hb : w.encodeMsgpack x t = (w1, .ok bs)) : (w1.encodeMsgpack x' t').2 = .ok bs := by
  obtain ⟨w1', wire, w2, h1, h2⟩ := C32_twice_data h he x t x' t'
  unfold encodeMsgpack at hb
  rw [h1] at hb
  simp only [Prod.mk.injEq] at hb
  obtain ⟨rfl, hb⟩ := hb
  unfold encodeMsgpack
  rw [h2]
  exact hb

/-! ### C33 -/

namespace Spec

/-- a call on a MsgpackDocument -/
inductive Call
  | properties (names : List Str)
  | schema
  | texts (names : List Str)
  | document (layers : List Str)

/-- the MsgpackDocument after a call, whether it raised or not -/
def Call.after (s : MDoc) : Call → MDoc
  | .properties names => (s.properties names).1
  | .schema => s.getSchema.1
  | .texts names => (s.getTexts names).1
  | .document layers => (s.document layers).1

end Spec

theorem calls_kept (cs : List Spec.Call) : ∀ s : MDoc, Kept s (cs.foldl Spec.Call.after s) := by
  induction cs with
  | nil => exact Kept.refl
  | cons c cs ih =>
    intro s
    refine Kept.trans ?_ (ih _)
    cases c with
    | properties n => exact properties_kept s n
    | schema => exact getSchema_kept s
    | texts n => exact getTexts_kept s n
    | document l => exact document_kept s l

theorem ofBytes_over {bs : Bytes} {ref : Value} {s : MDoc} (h : MDoc.ofBytes bs ref = .ok s) : Over bs s := by
  unfold MDoc.ofBytes at h
  split at h <;> cases h
  exact ⟨rfl, rfl⟩

/-- C33. After any calls, on the bytes of a valid document: properties(), schema(), texts() and document() are
the properties, the schema, the texts and the whole of what MsgpackCodec.decode returns. -/
theorem C33_lazy {w w1 : World} (h : Reachable w) (he : Spec.Encodable w) {x t : Bool} {bs : Bytes}
    (hb : w.encodeMsgpack x t = (w1, .ok bs)) (ref : Value) :
    ∃ w2 s0, decodeMsgpack bs = .ok w2 ∧ MDoc.ofBytes bs ref = .ok s0 ∧ ∀ (cs : List Spec.Call),
      let s := cs.foldl Spec.Call.after s0
      (∃ d, (s.properties []).2 = .ok (.map d) ∧ d.map (fun e => (e.1, Value.ofObj e.2)) = w2.props) ∧
      (s.getSchema).2 = .ok (w2.dl.map (fun e => (e.1, (w2.layers e.2).fields))) ∧
      (∃ d, (s.getTexts []).2 = .ok (textsObj d) ∧
        d.map (fun e => (e.1, e.2.flatten)) = w2.dt.map (fun e => (e.1, (w2.texts e.2).text))) ∧
      (s.document []).2 = .ok w2 := by
  obtain ⟨w1', wire, w2, h1, h2, h3, h4, h5, h6, h7⟩ := encode_parts h he x t
  rw [hb] at h2
  simp only [Prod.mk.injEq] at h2
  have hbs := h2.2.symm
  obtain ⟨p⟩ := parts_of hbs
  have hp := fromWire_parts h4
  have hd := decode_encode h3 hbs []
  rw [List.append_nil, h4] at hd
  have hm : bs.take 4 = magic := by rw [p.split1]; rfl
  have ho : MDoc.ofBytes bs ref = .ok { raw := bs, ref := some ref } := by
    unfold MDoc.ofBytes; rw [if_neg (by simp [hm])]
  refine ⟨w2, _, hd, ho, ?_⟩
  intro cs s
  have hk := calls_kept cs { raw := bs, ref := some ref }
  have hs : Over bs s := ⟨hk.1, hk.2.1⟩
  refine ⟨⟨wire.props, ?_, hp.props.symm⟩, ?_, ⟨wire.texts, ?_, hp.texts.symm⟩, ?_⟩
  · rw [properties_ok h3 p hs]
  · rw [getSchema_ok h3 p hs hp.schema]
  · rw [getTexts_ok h3 p hs hp.schema]
  · rw [document_ok h3 p hs hp.schema (.inl rfl), h4]

/-! ### C34 -/

/-- the bytes of an ASCII string -/
def Spec.ascii (s : String) : Bytes := s.toList.map (fun c => UInt8.ofNat c.toNat)

/-- C34. Bytes that do not start with DM_1 are refused by MsgpackCodec.decode and MsgpackDocument. -/
theorem C34_foreign_refused {bs : Bytes} (h : ¬ Spec.ascii "DM_1" <+: bs) (ref : Value) :
    decodeMsgpack bs = .error .value ∧ MDoc.ofBytes bs ref = .error .value ∧ MDoc.setState (bs, ref) = .error .value := by
  have : bs.take 4 ≠ magic := by
    intro e
    apply h
    have hm : Spec.ascii "DM_1" = magic := by decide
    rw [hm, ← e]
    exact List.take_prefix 4 bs
  unfold decodeMsgpack MDoc.ofBytes MDoc.setState
  simp [this]

/-- C34. Bytes that do start with DM_1 are not refused for that reason: MsgpackDocument takes them. -/
theorem C34_accepted {bs : Bytes} (ref : Value) : ∃ s, MDoc.ofBytes (Spec.ascii "DM_1" ++ bs) ref = .ok s ∧
    s.binary = Spec.ascii "DM_1" ++ bs := by
  have hm : Spec.ascii "DM_1" = magic := by decide
  rw [hm]
  exact ⟨_, rfl, rfl⟩

/-! ### C35 -/

section
variable {w w1 : World} (h : Reachable w) (he : Spec.Encodable w) {x t : Bool} {bs : Bytes}
    (hb : w.encodeMsgpack x t = (w1, .ok bs)) (ref : Value)
include h he hb

/-- everything about a MsgpackDocument over the bytes of a valid document -/
theorem over_encoded {s : MDoc} (hs : Over bs s) : ∃ wire w2, WireOk wire ∧ encodeBytes wire = .ok bs ∧
    decodeMsgpack bs = .ok w2 ∧ fromWire wire = .ok w2 ∧ PartsOf wire w2 ∧ dkeys w2.dl = dkeys wire.layers := by
  obtain ⟨w1', wire, w2, h1, h2, h3, h4, h5, h6, h7⟩ := encode_parts h he x t
  rw [hb] at h2
  simp only [Prod.mk.injEq] at h2
  have hd := decode_encode h3 h2.2.symm []
  rw [List.append_nil, h4] at hd
  have hp := fromWire_parts h4
  refine ⟨wire, w2, h3, h2.2.symm, hd, h4, hp, ?_⟩
  have e := mapE_proj (f := schemaLayer) (·.1) (·.1) (fun a b hb => by
    unfold schemaLayer at hb
    split at hb
    · cases hb
    split at hb <;> cases hb
    rfl) hp.schema
  simpa [rawOf, dkeys, Function.comp_def] using e

/-- C35. properties(*names) is the property dict restricted to the names. -/
theorem C35_properties_partial {s0 : MDoc} (h0 : MDoc.ofBytes bs ref = .ok s0) (cs : List Spec.Call) (names : List Str)
    (hn : names ≠ []) : let s := cs.foldl Spec.Call.after s0
    ∃ d, (s.properties []).2 = .ok (.map d) ∧
      (s.properties names).2 = .ok (.map (d.filter (fun e => decide (e.1 ∈ names)))) := by
  intro s
  have hk := calls_kept cs s0
  have hs0 := ofBytes_over h0
  have hs : Over bs s := ⟨hk.1.trans hs0.1, hk.2.1.trans hs0.2⟩
  obtain ⟨wire, w2, h3, h4, -⟩ := over_encoded h he hb hs
  obtain ⟨p⟩ := parts_of h4
  refine ⟨wire.props, by rw [properties_ok h3 p hs], ?_⟩
  unfold MDoc.properties
  rw [parseState1_ok h3 p hs]
  simp only
  have : Reads (MDoc.decodeProperty names) p.prop (Obj.map (wire.props.filter (fun e => decide (e.1 ∈ names)))) := by
    unfold MDoc.decodeProperty
    rw [if_neg hn]
    exact select_map names p.hProp h3.props
  rw [readAt_at this (by rw [hs.1]; exact p.split2) (propAt_eq h3 p hs)]

/-- C35, texts. Wrong: texts(*names) returns an empty dict for every choice of names. -/
theorem C35_texts_always_empty {s0 : MDoc} (h0 : MDoc.ofBytes bs ref = .ok s0) (cs : List Spec.Call) (names : List Str)
    (hn : names ≠ []) : ((cs.foldl Spec.Call.after s0).getTexts names).2 = .ok (.map []) := by
  have hk := calls_kept cs s0
  have hs0 := ofBytes_over h0
  have hs : Over bs (cs.foldl Spec.Call.after s0) := ⟨hk.1.trans hs0.1, hk.2.1.trans hs0.2⟩
  obtain ⟨wire, w2, h3, h4, h5, h6, h7, h8⟩ := over_encoded h he hb hs
  obtain ⟨p⟩ := parts_of h4
  unfold MDoc.getTexts
  rw [parseState2_ok h3 p hs h7.schema]
  simp only
  have : Reads (MDoc.decodeTexts names) p.text (Obj.map []) := by
    unfold MDoc.decodeTexts
    rw [if_neg hn]
    have := select_map [] p.hText (keysOk_texts h3.texts)
    rwa [List.filter_eq_nil_iff.mpr (by simp)] at this
  rw [readAt_at this (by rw [hs.1]; exact p.split5) (textAt_eq h3 p hs)]

/-- C35, layers. Naming all layers, in any order and with repetitions, gives the whole document. -/
theorem C35_all_layers_partial {s0 : MDoc} (h0 : MDoc.ofBytes bs ref = .ok s0) (cs : List Spec.Call) (names : List Str)
    (hn : ∀ k, k ∈ names ↔ k ∈ dkeys w.dl) : let s := cs.foldl Spec.Call.after s0
    (s.document names).2 = decodeMsgpack bs := by
  intro s
  have hk := calls_kept cs s0
  have hs0 := ofBytes_over h0
  have hs : Over bs s := ⟨hk.1.trans hs0.1, hk.2.1.trans hs0.2⟩
  obtain ⟨wire, w2, h3, h4, h5, h6, h7, h8⟩ := over_encoded h he hb hs
  obtain ⟨p⟩ := parts_of h4
  obtain ⟨w2', g1, g2, -⟩ := C31_round_trip h he hb []
  rw [List.append_nil, h5] at g1; cases g1
  rw [document_ok h3 p hs h7.schema (.inr (fun k => by rw [hn, ← g2.layers, h8])), h5, h6]

/-- C35, layers. Wrong: naming some layers but not all raises KeyError. -/
theorem C35_some_layers_raise {s0 : MDoc} (h0 : MDoc.ofBytes bs ref = .ok s0) (cs : List Spec.Call) (names : List Str)
    (hn : names ≠ []) {k : Str} (hk : k ∈ dkeys w.dl) (hm : k ∉ names) :
    ((cs.foldl Spec.Call.after s0).document names).2 = .error .key := by
  have hk' := calls_kept cs s0
  have hs0 := ofBytes_over h0
  have hs : Over bs (cs.foldl Spec.Call.after s0) := ⟨hk'.1.trans hs0.1, hk'.2.1.trans hs0.2⟩
  obtain ⟨wire, w2, h3, h4, h5, h6, h7, h8⟩ := over_encoded h he hb hs
  obtain ⟨p⟩ := parts_of h4
  obtain ⟨w2', g1, g2, -⟩ := C31_round_trip h he hb []
  rw [List.append_nil, h5] at g1; cases g1
  exact document_missing h3 p hs h7.schema hn (by rw [← h8, g2.layers]; exact hk) hm

end

/-! ### C36 -/

/-- `Document.__getstate__` (model.py:1910-1915) -/
def World.getState (w : World) : World × Except PyErr Bytes := w.encodeMsgpack false true

/-- `Document.__setstate__` (model.py:1917-1923): layers, texts and properties of the decoded document -/
def World.setState (st : Bytes) : Except PyErr World := decodeMsgpack st

/-- C36. Restoring a pickled Document gives an observably equal document. -/
theorem C36_document {w w1 : World} (h : Reachable w) (he : Spec.Encodable w) {st : Bytes}
    (hb : w.getState = (w1, .ok st)) :
    ∃ w2, World.setState st = .ok w2 ∧ Spec.SameDoc w w2 ∧ Reachable w2 ∧ Spec.Encodable w2 := by
  have := C31_round_trip h he hb []
  rwa [List.append_nil] at this

/-- C36. Restoring a pickled MsgpackDocument gives the same bytes, whatever was called before. -/
theorem C36_bytes_partial {bs : Bytes} {ref : Value} {s0 : MDoc} (h0 : MDoc.ofBytes bs ref = .ok s0) (cs : List Spec.Call) :
    ∃ st s, (cs.foldl Spec.Call.after s0).getState = .ok st ∧ MDoc.setState st = .ok s ∧ s.binary = bs := by
  have hk := calls_kept cs s0
  have hm : bs.take 4 = magic := by
    unfold MDoc.ofBytes at h0
    split at h0
    · cases h0
    · rename_i hm; simpa using hm
  have e : s0 = { raw := bs, ref := some ref } := by
    unfold MDoc.ofBytes at h0
    split at h0 <;> cases h0
    rfl
  subst e
  refine ⟨(bs, ref), { raw := bs, ref := none }, ?_, ?_, rfl⟩
  · unfold MDoc.getState; rw [hk.2.2, hk.1]
  · unfold MDoc.setState; rw [if_neg (by simp [hm])]

/-- C36, reference. Wrong: the restored MsgpackDocument has no reference at all (reading `ref` raises
AttributeError), and so cannot be pickled again. -/
theorem C36_reference_lost {bs : Bytes} {ref : Value} {s0 : MDoc} (h0 : MDoc.ofBytes bs ref = .ok s0) :
    ∃ st s, s0.getState = .ok st ∧ MDoc.setState st = .ok s ∧ s.ref = none ∧ s.getState = .error .attribute := by
  obtain ⟨st, s, h1, h2, -⟩ := C36_bytes_partial h0 []
  refine ⟨st, s, h1, h2, ?_⟩
  unfold MDoc.setState at h2
  split at h2
  · cases h2
  · cases h2; exact ⟨rfl, rfl⟩

/-! ### a document with a field of every kind, forward and cyclic references and a gap -/

namespace Ex

/-- its bytes -/
def bfull : Bytes := match (wfull.encodeMsgpack false true).2 with
  | .ok b => b
  | .error _ => []

theorem bfull_ok : (wfull.encodeMsgpack false true).2 = .ok bfull := by decide +kernel

theorem bfull_eq : wfull.encodeMsgpack false true = ((wfull.encodeMsgpack false true).1, .ok bfull) := by
  rw [← bfull_ok]

end Ex

-- C31 with bytes following, C32, C33, C36 apply to it
example : Ex.bfull.length > 300 := by decide +kernel
example : ∃ w2, decodeMsgpack (Ex.bfull ++ [1, 2, 3]) = .ok w2 ∧ Spec.SameDoc Ex.wfull w2 := by
  obtain ⟨w2, h1, h2, -⟩ := C31_round_trip Ex.wfull_reachable Ex.wfull_encodable Ex.bfull_eq [1, 2, 3]
  exact ⟨w2, h1, h2⟩
example : Spec.WireFits Ex.wireRef := by
  constructor
  · simp [Ex.wireRef, Spec.Fits, Spec.FitsM]
  · simp [Ex.wireRef, textsObj, Spec.Fits, Spec.FitsM]
  · simp [Ex.wireRef, dkeys, Spec.Fits, Spec.FitsL]; decide
  · simp [Ex.wireRef]
  · intro l hl c hc
    simp only [Ex.wireRef, List.mem_cons, List.not_mem_nil, or_false] at hl
    rcases hl with rfl | rfl <;> simp only [List.mem_cons, List.not_mem_nil, or_false] at hc <;> subst hc <;>
      refine ⟨by simp only [Spec.Fits]; decide, by simp only [Spec.Fits]; decide, ?_, by simp [Spec.Fits, Spec.FitsL]⟩
    · intro d hd; cases hd
    · intro d hd; cases hd; simp [Spec.Fits, Spec.FitsM]; decide
  · simp [Ex.wireRef]
  · decide
-- C33, C35: properties to select from, texts that are not returned, a layer to leave out
example : (match MDoc.ofBytes Ex.bfull (.int 3) with
    | .ok s => ((s.properties ["id".toList, "nix".toList]).2, (s.getTexts ["main".toList]).2,
        match (s.document ["tok".toList]).2 with | .ok _ => none | .error e => some e)
    | .error e => (.error e, .error e, none)) =
    (.ok (.map [("id".toList, .int 3)]), .ok (.map []), some .key) := by decide +kernel
example : dkeys Ex.wfull.dl = ["tok".toList, "ent".toList] ∧ dkeys Ex.wfull.dt = ["main".toList, "alt".toList] ∧
    dkeys Ex.wfull.props = ["id".toList, "meta".toList] := by decide
-- C34
example : ¬ Spec.ascii "DM_1" <+: Spec.ascii "DM_2...." ∧ Spec.ascii "DM_1" <+: Ex.bfull := by decide +kernel

end Verif
