import Verif.Proof.CutMDoc
import Verif.Proof.Debug
import Verif.Props.JavaCodecEx
/-
C104: encoded documents of which the end is missing.
-/
set_option linter.unusedSimpArgs false
namespace Verif
open World
open Spec (Content Good PyHas JHas JSound JavaReadable)

namespace Spec

/-- the exceptions of msgpack's Unpacker at the end of the data: `OutOfData`, and `StopIteration` from `next`
(in Java, one exception) -/
def EndOfData (e : PyErr) : Prop := e = .outOfData ∨ e = .stopIteration

/-- a MsgpackDocument over these data, whatever it has looked up before -/
def MDocOver (bs : Bytes) (s : MDoc) : Prop := s.raw = bs ∧ s.readState = 0

end Spec

/-! ### a decoder that is given more data -/

/-- C104. Whatever the data are: if they can be decoded, then they can be decoded, to the same document, with anything behind
them. So of two documents one of which is the beginning of the other, not both can be decoded to different documents. -/
theorem C104_more {bs : Bytes} {w : World} (h : decodeMsgpack bs = .ok w) (t : Bytes) : decodeMsgpack (bs ++ t) = .ok w := by
  unfold decodeMsgpack at h ⊢
  by_cases hm : bs.take 4 = magic
  · have hl : 4 ≤ bs.length := by
      have := congrArg List.length hm
      simp only [List.length_take] at this
      have h4 : magic.length = 4 := rfl
      omega
    rw [List.take_append_of_le_length hl, List.drop_append_of_le_length hl, if_neg (by simpa using hm)]
    rw [if_neg (by simpa using hm)] at h
    cases hr : readWire (bs.drop 4) with
    | error e => rw [hr] at h; cases h
    | ok v =>
      obtain ⟨x, r⟩ := v
      rw [hr] at h
      rw [Grows.readWire.ok _ _ _ hr t]
      exact h
  · rw [if_pos hm] at h
    cases h

/-- C104. Data that are refused for another reason than their end are also refused with anything behind them. -/
theorem C104_more_refused {bs : Bytes} {e : PyErr} (h : decodeMsgpack bs = .error e) (hl : 4 ≤ bs.length) (he : ¬ Spec.EndOfData e) (t : Bytes) :
    decodeMsgpack (bs ++ t) = .error e := by
  unfold decodeMsgpack at h ⊢
  rw [List.take_append_of_le_length hl, List.drop_append_of_le_length hl]
  split
  · rename_i hm
    rw [if_pos hm] at h
    exact h
  · rename_i hm
    rw [if_neg hm] at h
    cases hr : readWire (bs.drop 4) with
    | error e' =>
      rw [hr] at h
      cases h
      rw [Grows.readWire.err _ _ hr he t]
    | ok v =>
      obtain ⟨x, r⟩ := v
      rw [hr] at h
      rw [Grows.readWire.ok _ _ _ hr t]
      exact h

/-- C104. The same of the Java decoder. -/
theorem C104_java_more {bs : Bytes} {d : JDoc} (h : jDecode bs = .ok d) (t : Bytes) : jDecode (bs ++ t) = .ok d := by
  unfold jDecode at h ⊢
  by_cases hl : bs.length < 4
  · rw [if_pos hl] at h; cases h
  rw [if_neg hl] at h
  rw [if_neg (by rw [List.length_append]; omega), List.take_append_of_le_length (by omega), List.drop_append_of_le_length (by omega)]
  split
  · rename_i hm
    rw [if_pos hm] at h
    cases h
  · rename_i hm
    rw [if_neg hm] at h
    cases hr : jRead (bs.drop 4) with
    | error e => rw [hr] at h; cases h
    | ok v =>
      obtain ⟨x, r⟩ := v
      rw [hr] at h
      rw [Grows.jRead.ok _ _ _ hr t]
      exact h

/-! ### a document cut short -/

theorem wire_cut {x : Wire} (hx : WireOk x) {bs : Bytes} (h : encodeBytes x = .ok bs) {k : Nat} (hk : k < bs.length) :
    ∃ e, decodeMsgpack (bs.take k) = .error e ∧ (k < 4 → e = .value) ∧ (4 ≤ k → Spec.EndOfData e) := by
  obtain ⟨p⟩ := parts_of h
  have hb : bs = magic ++ (p.propLen ++ (p.prop ++ ((p.types ++ p.schema) ++ (p.textLen ++ (p.text ++ p.layers))))) := by
    have := p.eq
    simpa only [List.append_assoc] using this
  have h4 : magic.length = 4 := rfl
  unfold decodeMsgpack
  by_cases hl : k < 4
  · rw [if_pos]
    · exact ⟨_, rfl, fun _ => rfl, fun h => absurd h (by omega)⟩
    · intro hm
      have := congrArg List.length hm
      simp only [List.length_take] at this
      omega
  · have ht : (bs.take k).take 4 = magic := by
      rw [List.take_take, show min 4 k = 4 by omega, hb, ← h4, List.take_left]
    rw [if_neg (by rw [ht]; simp)]
    have hd : (bs.take k).drop 4 = (p.propLen ++ (p.prop ++ ((p.types ++ p.schema) ++ (p.textLen ++ (p.text ++ p.layers))))).take (k - 4) := by
      rw [List.drop_take]
      congr 1
      exact (congrArg (List.drop 4) hb).trans rfl
    obtain ⟨e, h1, h2⟩ := Grows.readWire.cut (read_wire hx p) (k := k - 4) (by rw [hb, List.length_append, h4] at hk; omega)
    rw [hd, h2]
    exact ⟨e, rfl, fun h => absurd h hl, fun _ => h1⟩

/-- C104. Of what the encoder writes for a valid document, the decoder refuses every part from the beginning that is not all of
it: with ValueError when not even the magic bytes are there, otherwise with an exception for the end of the data. -/
theorem C104_cut {w w1 : World} (h : Reachable w) (he : Spec.Encodable w) {x t : Bool} {bs : Bytes} (hb : w.encodeMsgpack x t = (w1, .ok bs))
    {k : Nat} (hk : k < bs.length) :
    ∃ e, decodeMsgpack (bs.take k) = .error e ∧ (k < 4 → e = .value) ∧ (4 ≤ k → Spec.EndOfData e) := by
  obtain ⟨w1', wire, w2, h1, h2, h3, -⟩ := encode_parts h he x t
  rw [hb] at h2
  simp only [Prod.mk.injEq] at h2
  exact wire_cut h3 h2.2.symm hk

/-- C104. The same of what the Java encoder writes. -/
theorem C104_cut_from_java {d d' : JDoc} {c : Content} (hs : JSound d) (h : JHas d c) (hg : Good c) {bs : Bytes} (he : d.encode = (d', .ok bs))
    {k : Nat} (hk : k < bs.length) :
    ∃ e, decodeMsgpack (bs.take k) = .error e ∧ (k < 4 → e = .value) ∧ (4 ≤ k → Spec.EndOfData e) := by
  obtain ⟨d1, x, h1, h2, -⟩ := j_write hs h hg
  rw [he] at h1
  simp only [Prod.mk.injEq] at h1
  exact wire_cut h2.ok h1.2.symm hk

theorem java_cut {x : Wire} {c : Content} (hx : WHas x c) (hg : Good c) (hr : JavaReadable c) {bs : Bytes} (hb : encodeBytes x = .ok bs)
    (hl : bs.length < 2 ^ 31) {k : Nat} (hk : k < bs.length) : ∃ e, jDecode (bs.take k) = .error e ∧ Spec.EndOfData e := by
  obtain ⟨d, -, ⟨raw, hread⟩, -⟩ := j_read hx hg hr hb hl
  obtain ⟨p⟩ := parts_of hb
  have h4 : magic.length = 4 := rfl
  unfold jDecode
  by_cases hk4 : k < 4
  · rw [if_pos (by simp; omega)]
    exact ⟨_, rfl, .inl rfl⟩
  · rw [if_neg (by simp; omega)]
    have ht : (bs.take k).take 4 = magic := by
      rw [List.take_take, show min 4 k = 4 by omega, p.eq, ← h4, List.take_left]
    rw [if_neg (by rw [ht]; simp), List.drop_take]
    obtain ⟨e, h1, h2⟩ := Grows.jRead.cut hread (k := k - 4) (by simp; omega)
    rw [h2]
    exact ⟨e, rfl, h1⟩

/-- C104. The Java decoder refuses in the same way every part of what the Java encoder writes... -/
theorem C104_java_cut {d d' : JDoc} {c : Content} (hs : JSound d) (h : JHas d c) (hg : Good c) (hr : JavaReadable c) {bs : Bytes}
    (he : d.encode = (d', .ok bs)) (hl : bs.length < 2 ^ 31) {k : Nat} (hk : k < bs.length) : ∃ e, jDecode (bs.take k) = .error e ∧ Spec.EndOfData e := by
  obtain ⟨d1, x, h1, h2, -⟩ := j_write hs h hg
  rw [he] at h1
  simp only [Prod.mk.injEq] at h1
  exact java_cut h2 hg hr h1.2.symm hl hk

/-- C104. ... and of what the Python encoder writes. -/
theorem C104_java_cut_from_python {w w1 : World} (h : Reachable w) (he : Spec.Encodable w) {c : Content} (hc : PyHas w c) (hr : JavaReadable c)
    {x t : Bool} {bs : Bytes} (hb : w.encodeMsgpack x t = (w1, .ok bs)) (hl : bs.length < 2 ^ 31) {k : Nat} (hk : k < bs.length) :
    ∃ e, jDecode (bs.take k) = .error e ∧ Spec.EndOfData e := by
  obtain ⟨w1', offs, hcm, so, hrd⟩ := ready_of h.inv h.wf he x t
  have hcc := sameObs_has so h.inv hrd.inv (content_has hrd)
  have := pyHas_unique h.inv hc hcc
  subst this
  unfold encodeMsgpack toWire at hb
  rw [hcm] at hb
  simp only at hb
  cases hw : w1'.wireOf offs with
  | error e => rw [hw] at hb; simp at hb
  | ok wx =>
    rw [hw] at hb
    simp only [Prod.mk.injEq] at hb
    exact java_cut (py_write hrd hw) (content_good hrd) hr hb.2 hl hk

/-! ### MsgpackDocument -/

/-- what a call gives, it also gives with more data -/
theorem until_ok {α : Type} {t : Bytes} {x y : MDoc × Except PyErr α} (h : Until2 t x y) {v : α} (hv : x.2 = .ok v) : y.2 = .ok v := by
  rcases h with ⟨e, -, h⟩ | h
  · rw [h] at hv; cases hv
  · rw [h]; exact hv

/-- C104. Whatever the data are, and whatever was looked up before: what a call of a MsgpackDocument gives, it also gives with
anything behind the data. So what can be had from the beginning of a document is what the document holds. -/
theorem C104_lazy_more (s : MDoc) (t : Bytes) :
    let s' : MDoc := { s with raw := s.raw ++ t }
    (∀ ns o, (s.properties ns).2 = .ok o → (s'.properties ns).2 = .ok o) ∧
    (∀ sch, s.getSchema.2 = .ok sch → s'.getSchema.2 = .ok sch) ∧
    (∀ ns o, (s.getTexts ns).2 = .ok o → (s'.getTexts ns).2 = .ok o) ∧
    (∀ chosen w, (s.document chosen).2 = .ok w → (s'.document chosen).2 = .ok w) :=
  ⟨fun ns _ => until_ok (MDoc.properties_until s t ns), fun _ => until_ok (MDoc.getSchema_until s t),
    fun ns _ => until_ok (MDoc.getTexts_until s t ns), fun chosen _ => until_ok (MDoc.document_until s t chosen)⟩

/-- C104. A MsgpackDocument over a document cut short never gives a document, whatever layers are chosen and whatever was looked up
before. Unless layers are left out, or do not exist, the exception is one for the end of the data. -/
theorem C104_lazy_cut {w w1 : World} (h : Reachable w) (he : Spec.Encodable w) {x t : Bool} {bs : Bytes} (hb : w.encodeMsgpack x t = (w1, .ok bs))
    {k : Nat} (hk : k < bs.length) {s : MDoc} (hs : Spec.MDocOver (bs.take k) s) (chosen : List Str) :
    ∃ e, (s.document chosen).2 = .error e ∧ (chosen = [] ∨ (∀ l, l ∈ chosen ↔ l ∈ dkeys w.dl) → Spec.EndOfData e) := by
  obtain ⟨w1', wire, w2, h1, h2, h3, h4, h5, h6, h7⟩ := encode_parts h he x t
  rw [hb] at h2
  simp only [Prod.mk.injEq] at h2
  obtain ⟨p⟩ := parts_of h2.2.symm
  have hp := fromWire_parts h4
  have hsch := hp.schema
  have hkeys : dkeys w.dl = dkeys wire.layers := by
    rw [← h5.layers]
    have e := mapE_proj (f := schemaLayer) (·.1) (·.1) (fun a b hb => by
      unfold schemaLayer at hb
      split at hb
      · cases hb
      split at hb <;> cases hb
      rfl) hp.schema
    simpa [rawOf, dkeys, Function.comp_def] using e
  cases hd : (s.document chosen).2 with
  | ok v => exact absurd hd (document_cut h3 p hs hsch hk chosen v)
  | error e =>
    refine ⟨e, rfl, fun hc => ?_⟩
    rcases MDoc.document_until s (bs.drop k) chosen with ⟨e', g1, g2⟩ | g
    · rw [hd] at g2
      cases g2
      exact g1
    · have : ((s.more (bs.drop k)).document chosen).2 = fromWire wire := by
        refine document_ok h3 p (over_more hs) hsch (hc.imp id fun hc l => ?_)
        rw [hc l, hkeys]
      rw [g, h4] at this
      rw [this] at hd
      cases hd

/-! ### the listing -/

/-- C104. `debug` lists everything that the encoder wrote, in order, with anything behind it. -/
theorem C104_debug {w w1 : World} (h : Reachable w) (he : Spec.Encodable w) {x t : Bool} {bs : Bytes} (hb : w.encodeMsgpack x t = (w1, .ok bs)) :
    ∃ wire, w.toWire x t = (w1, .ok wire) ∧ ∀ rest, debugMsgpack (bs ++ rest) = (Spec.listing wire, .ok ()) := by
  obtain ⟨w1', wire, w2, h1, h2, h3, -⟩ := encode_parts h he x t
  rw [hb] at h2
  simp only [Prod.mk.injEq] at h2
  obtain ⟨rfl, h2⟩ := h2
  obtain ⟨p⟩ := parts_of h2.symm
  refine ⟨wire, h1, fun rest => ?_⟩
  have e : bs ++ rest = magic ++ ((p.propLen ++ (p.prop ++ (p.types ++ (p.schema ++ (p.textLen ++ (p.text ++ p.layers)))))) ++ rest) := by
    have := congrArg (· ++ rest) p.eq
    simp only [List.append_assoc] at this ⊢
    exact this
  have h4 : magic.length = 4 := rfl
  unfold debugMsgpack
  rw [e, ← h4, List.take_left, List.drop_left, (debug_prints h3 p).all, linesOf_items]

/-- C104. Of a document cut short after the magic bytes, `debug` lists what comes before the first object that is not all there, and
raises StopIteration. What it lists is the beginning of the listing of the whole document. -/
theorem C104_debug_cut {w w1 : World} (h : Reachable w) (he : Spec.Encodable w) {x t : Bool} {bs : Bytes} (hb : w.encodeMsgpack x t = (w1, .ok bs))
    {k : Nat} (hk : k < bs.length) (hk4 : 4 ≤ k) :
    ∃ wire, w.toWire x t = (w1, .ok wire) ∧ debugMsgpack (bs.take k) = (Spec.printed (k - 4) (Spec.items wire), .error .stopIteration) ∧
      Spec.printed (k - 4) (Spec.items wire) <+: Spec.listing wire := by
  obtain ⟨w1', wire, w2, h1, h2, h3, -⟩ := encode_parts h he x t
  rw [hb] at h2
  simp only [Prod.mk.injEq] at h2
  obtain ⟨rfl, h2⟩ := h2
  obtain ⟨p⟩ := parts_of h2.symm
  have e : bs = magic ++ (p.propLen ++ (p.prop ++ (p.types ++ (p.schema ++ (p.textLen ++ (p.text ++ p.layers)))))) := by
    have := p.eq
    simpa only [List.append_assoc] using this
  have h4 : magic.length = 4 := rfl
  have ht : (bs.take k).take 4 = magic := by
    rw [List.take_take, show min 4 k = 4 by omega, e, ← h4, List.take_left]
  have hd : (bs.take k).drop 4 = (p.propLen ++ (p.prop ++ (p.types ++ (p.schema ++ (p.textLen ++ (p.text ++ p.layers)))))).take (k - 4) := by
    rw [List.drop_take]
    congr 1
    exact (congrArg (List.drop 4) e).trans rfl
  refine ⟨wire, h1, ?_, ?_⟩
  · unfold debugMsgpack
    rw [ht, hd, (debug_prints h3 p).cut (k - 4) (by rw [e, List.length_append, h4] at hk; omega)]
  · rw [← linesOf_items]
    exact printed_prefix _ _

/-- C104. `debug` does not look at the magic bytes: it lists a document that `decode` refuses. -/
theorem C104_debug_no_check (m m' bs : Bytes) (hm : m.length = 4) (hm' : m'.length = 4) :
    (debugMsgpack (m ++ bs)).2 = (debugMsgpack (m' ++ bs)).2 := by
  unfold debugMsgpack
  rw [← hm, List.take_left, List.drop_left, hm, ← hm', List.take_left, List.drop_left]
  simp only [Prints.bind_eq, D.say]
  cases h : (D.body bs).2 with
  | error e =>
    have : D.body bs = ((D.body bs).1, .error e) := by rw [← h]
    rw [this]
  | ok v =>
    have : D.body bs = ((D.body bs).1, .ok v) := by rw [← h]
    rw [this]

namespace Ex

/-- what `decode` gives for the first `k` bytes -/
def cutErr (k : Nat) : Option PyErr := match decodeMsgpack (bfull.take k) with
  | .ok _ => none
  | .error e => some e

/-- what can be had of the first `k` bytes: properties, schema, texts, document -/
def cutLazy (k : Nat) : List Bool :=
  match MDoc.ofBytes (bfull.take k) .none with
  | .error _ => []
  | .ok s => [(s.properties []).2.toBool, s.getSchema.2.toBool, (s.getTexts []).2.toBool, (s.document []).2.toBool]

end Ex

example : ∀ k, k < Ex.bfull.length → ∃ e, decodeMsgpack (Ex.bfull.take k) = .error e ∧ (k < 4 → e = .value) ∧ (4 ≤ k → Spec.EndOfData e) :=
  fun _ hk => C104_cut Ex.wfull_reachable Ex.wfull_encodable Ex.bfull_eq hk

/-- both exceptions for the end of the data occur -/
example : [3, 4, 20].map Ex.cutErr = [some .value, some .outOfData, some .stopIteration] := by decide +kernel

/-- the Java decoder, on what either encoder writes -/
example : ∀ k, k < Ex.jbytes.length → ∃ e, jDecode (Ex.jbytes.take k) = .error e ∧ Spec.EndOfData e :=
  fun _ hk => C104_java_cut Ex.jdoc_sound Ex.jdoc_has Ex.jcontent_good Ex.jcontent_readable Ex.jbytes_ok (by decide +kernel) hk

/-- all but the document can be had when the last byte is missing; less and less when more is missing -/
example : [338, 337, 23, 22, 3].map Ex.cutLazy = [[true, true, true, true], [true, true, true, false], [true, false, false, false],
    [false, false, false, false], []] := by decide +kernel

/-- the last byte is missing: all of the listing but the last line -/
example : (debugMsgpack (Ex.bfull.take (Ex.bfull.length - 1))).1.length + 1 = (debugMsgpack Ex.bfull).1.length := by decide +kernel

/-- only the magic bytes are there -/
example : debugMsgpack (Ex.bfull.take 4) = ([⟨"-- Content --".toList, []⟩, ⟨"Magic: %s".toList, [.r (.bin (Ex.bfull.take 4))]⟩,
    ⟨"Document properties:".toList, []⟩], .error .stopIteration) := rfl

/-- what a MsgpackDocument over cut data has been asked before does not matter -/
example (cs : List Spec.Call) (k : Nat) (hk : k < Ex.bfull.length) (ref : Option Value) :
    ∃ e, ((cs.foldl Spec.Call.after { raw := Ex.bfull.take k, ref := ref }).document []).2 = .error e ∧ Spec.EndOfData e := by
  have hc := calls_kept cs { raw := Ex.bfull.take k, ref := ref }
  obtain ⟨e, h1, h2⟩ := C104_lazy_cut Ex.wfull_reachable Ex.wfull_encodable Ex.bfull_eq hk (s := cs.foldl Spec.Call.after { raw := Ex.bfull.take k, ref := ref }) ⟨hc.1, hc.2.1⟩ []
  exact ⟨e, h1, h2 (.inl rfl)⟩

end Verif
