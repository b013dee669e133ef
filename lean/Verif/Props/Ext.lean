import Verif.Model.Ext
import Verif.Props.Json
import Verif.Props.Index
/-
C71: extended data and embedded documents; C42 for documents rather than bytes.
-/
set_option linter.unusedSimpArgs false
namespace Verif
open World

/-! ### embedded documents -/

/-- C71. A document survives being embedded: what MsgpackDocumentExt(doc).encode() gives, MsgpackDocumentExt(bytes)
decodes to the same document, which it then holds; encoding that gives the bytes again. -/
theorem C71_round_trip_partial {w : World} (h : Reachable w) (he : Spec.Encodable w) {e1 : DocExt} {bs : Bytes}
    (hb : (DocExt.doc w).encode = (e1, .ok bs)) :
    ∃ w2 e2, (DocExt.raw bs).decode = (.doc w2, .ok w2) ∧ Spec.SameDoc w w2 ∧ (DocExt.doc w2).encode = (e2, .ok bs) := by
  have hb' : (w.encodeMsgpack false true).2 = .ok bs := by
    unfold DocExt.encode at hb
    simp only [Prod.mk.injEq] at hb
    exact hb.2
  obtain ⟨w2, h1, h2⟩ := C32_stable h he false true false true hb'
  obtain ⟨w2', h3, h4, -⟩ := C31_round_trip h he (w1 := (w.encodeMsgpack false true).1) (Prod.ext rfl hb') []
  rw [List.append_nil, h1] at h3
  cases h3
  refine ⟨w2, .doc (w2.encodeMsgpack false true).1, ?_, h4, ?_⟩
  · simp only [DocExt.decode, h1]
  · unfold DocExt.encode; simp only [h2]

/-- C71. encode() never changes or inspects bytes; a Document stays the document it was. -/
theorem C71_encode_pure :
    (∀ bs, (DocExt.raw bs).encode = (.raw bs, .ok bs)) ∧
    ∀ w, Reachable w → ∃ w', (DocExt.doc w).encode.1 = .doc w' ∧ Spec.Unchanged w w' := by
  refine ⟨fun bs => rfl, fun w h => ⟨(w.encodeMsgpack false true).1, rfl, (C28_encode_pure h false true ⟨fun _ => [], fun _ => 0⟩).1⟩⟩

/-- C71. decode() returns the same Document each time, after the first one without looking at bytes; if the bytes
cannot be decoded it raises each time and the data are left. -/
theorem C71_decode_twice (e : DocExt) : (e.decode.1).decode = e.decode := by
  cases e with
  | doc w => rfl
  | raw b =>
    cases h : decodeMsgpack b <;> simp only [DocExt.decode, h]

/-! ### other extended data -/

/-- C71. ExtData with bytes, and with lists of bytes, is encoded as these bytes; decode() returns the data. -/
theorem C71_ext_data (t : Str) (bs : Bytes) :
    (ExtData.mk t (.bin bs)).encode = .ok bs ∧ (ExtData.mk t (.arr (bs.map (fun b => .int b.toNat)))).encode = .ok bs ∧
    ∀ d, (ExtData.mk t d).decode = d := by
  refine ⟨rfl, ?_, fun _ => rfl⟩
  show mapE byteOf _ = _
  induction bs with
  | nil => rfl
  | cons b bs ih =>
    have : byteOf (.int b.toNat) = .ok b := by
      have h1 := b.toNat_lt
      have h2 : (0 : Int) ≤ b.toNat ∧ (b.toNat : Int) < 256 := ⟨by omega, by omega⟩
      simp only [byteOf, h2, and_self, if_true, Int.toNat_natCast, UInt8.ofNat_toNat]
    simp only [List.map_cons, mapE, this, ih]

/-- C71. A str is a TypeError. An int is not encoded as its digits or bytes, but as that many zeros. -/
theorem C71_ext_data_odd (t : Str) : (∀ s, (ExtData.mk t (.str s)).encode = .error .type) ∧
    ∀ n : Nat, (ExtData.mk t (.int n)).encode = .ok (List.replicate n 0) := by
  refine ⟨fun _ => rfl, fun n => ?_⟩
  show (if (0 : Int) ≤ n then Except.ok (List.replicate (n : Int).toNat 0) else .error .value) = _
  rw [if_pos (by omega)]
  rfl

/-! ### ext fields -/

namespace Spec

/-- a document that can be encoded but for its ext fields, which hold bytes or nothing -/
structure EncodableButExt (w : World) : Prop where
  types : ∀ k L f t, (k, L) ∈ w.dl → (f, t) ∈ (w.layers L).fields → TypeOk w t ∨ t.tname = .ext
  cells : ∀ k L n f t v, (k, L) ∈ w.dl → some n ∈ w.iter L → (f, t) ∈ (w.layers L).fields →
    dget (w.nodes n).fields f = some v → CellOk w t v ∨ (t.tname = .ext ∧ (v = .none ∨ ∃ b, v = .bytes b))
  declared : ∀ k L n f, (k, L) ∈ w.dl → some n ∈ w.iter L → f ∈ dkeys (w.nodes n).fields →
    f ∈ dkeys (w.layers L).fields
  props : ∀ k v, (k, v) ∈ w.props → PlainVal v

end Spec

theorem mapE_fails {α β : Type} {f : α → Except PyErr β} {l : List α} {a : α} (ha : a ∈ l) (h : ∀ b, f a ≠ .ok b) :
    ∀ r, mapE f l ≠ .ok r := by
  intro r hr
  obtain ⟨b, hb⟩ := mapE_all hr ha
  exact h b hb

/-- C71 fails. A document in which a layer declares a field of an extended type cannot be encoded at all, by either
codec and with any options, whatever the field contains, even if there are no nodes. -/
theorem C71_ext_field_fails {w : World} (h : Reachable w) {k L f t} (hl : (k, L) ∈ w.dl) (hf : (f, t) ∈ (w.layers L).fields)
    (ht : t.tname = .ext ∨ t.tname = .unknown) (x tv : Bool) (ft : FloatText) :
    (∀ wire, (w.toWire x tv).2 ≠ .ok wire) ∧ (∀ bs, (w.encodeMsgpack x tv).2 ≠ .ok bs) ∧ ∀ s, (w.encodeJson ft).2 ≠ .ok s := by
  have key : ∀ x tv wire, (w.toWire x tv).2 ≠ .ok wire := by
    intro x tv wire hw
    have hp := C28_compile_pure h x tv
    unfold toWire at hw
    cases hc : w.compile x tv with
    | mk w1 r =>
      rw [hc] at hp hw
      cases r with
      | error e => cases hw
      | ok offs =>
        simp only at hp hw
        obtain ⟨p1, -, -, -, p5, -⟩ := hp
        unfold wireOf at hw
        split at hw
        · cases hw
        · cases hm : mapE (w1.encodeEntry offs) w1.dl with
          | error e => rw [hm] at hw; cases hw
          | ok ls =>
            refine mapE_fails (a := (k, L)) (by rw [p1]; exact hl) ?_ _ hm
            intro b hb
            unfold encodeEntry encodeLayer at hb
            cases hg : mapE (w1.encodeField offs L) (w1.layers L).fields with
            | error e => rw [hg] at hb; cases hb
            | ok cs =>
              refine mapE_fails (a := (f, t)) (by rw [(p5 L).2.1]; exact hf) ?_ _ hg
              intro c hcc
              unfold encodeField at hcc
              split at hcc
              · cases hcc
              · unfold encodeCol at hcc
                rw [if_pos ht] at hcc
                cases hcc
  refine ⟨key x tv, ?_, ?_⟩
  · intro bs hb
    unfold encodeMsgpack at hb
    have := key x tv
    cases hw : w.toWire x tv with
    | mk w1 r =>
      rw [hw] at hb this
      cases r with
      | error e => cases hb
      | ok y => exact this y rfl
  · intro s hb
    unfold encodeJson at hb
    have := key false true
    cases hw : w.toWire false true with
    | mk w1 r =>
      rw [hw] at hb this
      cases r with
      | error e => cases hb
      | ok y => exact this y rfl

/-- C71 in full: a document with ext fields that hold bytes can be encoded -/
def C71_full : Prop := ∀ w, Reachable w → Spec.EncodableButExt w → ∃ wire, (w.toWire false true).2 = .ok wire

namespace Ex

/-- a layer with an extended field, one node with bytes in it -/
def opsExt : List Op := [.addLayer "img".toList [("data".toList, DataTypes.ext "png".toList)],
  .addNew 0 [("data".toList, .bytes [1, 2])]]
def wext : World := World.empty.run opsExt

end Ex

/-- C71 fails: bytes in a field of an extended type. -/
theorem C71_full_false : ¬ C71_full := by
  intro h
  have hr : Reachable Ex.wext := reachable_run _ (by decide)
  have hd : Ex.wext.dl = [("img".toList, 0)] := by decide
  have hf : (Ex.wext.layers 0).fields = [("data".toList, DataTypes.ext "png".toList)] := by decide
  have hi : Ex.wext.iter 0 = [some 0] := by decide
  have hn : (Ex.wext.nodes 0).fields = [("data".toList, .bytes [1, 2])] := by decide
  obtain ⟨wire, hw⟩ := h Ex.wext hr {
    types := by
      intro k L f t h1 h2
      rw [hd] at h1; simp only [List.mem_singleton, Prod.mk.injEq] at h1; obtain ⟨-, rfl⟩ := h1
      rw [hf] at h2; simp only [List.mem_singleton, Prod.mk.injEq] at h2; obtain ⟨-, rfl⟩ := h2
      exact .inr rfl
    cells := by
      intro k L n f t v h1 h2 h3 h4
      rw [hd] at h1; simp only [List.mem_singleton, Prod.mk.injEq] at h1; obtain ⟨-, rfl⟩ := h1
      rw [hf] at h3; simp only [List.mem_singleton, Prod.mk.injEq] at h3; obtain ⟨rfl, rfl⟩ := h3
      rw [hi] at h2; simp only [List.mem_singleton, Option.some.injEq] at h2; subst h2
      rw [hn] at h4
      exact .inr ⟨rfl, .inr ⟨[1, 2], by simpa [dget] using h4.symm⟩⟩
    declared := by
      intro k L n f h1 h2 h3
      rw [hd] at h1; simp only [List.mem_singleton, Prod.mk.injEq] at h1; obtain ⟨-, rfl⟩ := h1
      rw [hi] at h2; simp only [List.mem_singleton, Option.some.injEq] at h2; subst h2
      rw [hn] at h3; rw [hf]; exact h3
    props := by
      intro k v h1
      rw [show Ex.wext.props = [] by decide] at h1
      cases h1 }
  exact (C71_ext_field_fails hr (k := "img".toList) (L := 0) (f := "data".toList)
    (t := DataTypes.ext "png".toList) (by rw [hd]; simp) (by rw [hf]; simp)
    (.inl rfl) false true ⟨fun _ => [], fun _ => 0⟩).1 wire hw

/-- C71 applies to a document with every kind of field, embedded -/
example : ∃ e1 bs, (DocExt.doc Ex.wfull).encode = (e1, .ok bs) := by
  refine ⟨_, _, Prod.ext rfl ?_⟩
  rfl

/-! ### C42 for documents -/

/-- what `n` calls of `next` on a DocumentReader return -/
def DocReader.nextDocuments : Nat → DocReader → List (Except PyErr World)
  | 0, _ => []
  | n + 1, r => r.nextDocument.2 :: DocReader.nextDocuments n r.nextDocument.1

theorem nextDocuments_eq : ∀ (n : Nat) (r : DocReader),
    r.nextDocuments n = (r.nexts n).map (fun x => match x with | .ok d => (d.document []).2 | .error e => .error e) := by
  intro n
  induction n with
  | zero => intro r; rfl
  | succ n ih =>
    intro r
    have h1 : r.nextDocument.1 = r.next.1 := by
      unfold DocReader.nextDocument
      split <;> simp_all
    have h2 : r.nextDocument.2 = (match r.next.2 with | .ok d => (d.document []).2 | .error e => .error e) := by
      unfold DocReader.nextDocument
      split <;> simp_all
    simp only [DocReader.nextDocuments, DocReader.nexts, List.map_cons, ih, h1, h2]

/-- C42 for documents. Write valid documents to a collection, with any options, block size and lossless codec, each
encoding to less than 4 GiB; after a close() that succeeds, a DocumentReader of the file yields the same documents in
the same order, and then StopIteration for ever. -/
theorem C42_documents {reg : Codecs} {c : CCodec} {bnd num s0 s1} {ws : List (World × Bool × Bool)} (hreg : Spec.Lossless reg c)
    (hw : ∀ e ∈ ws, Reachable e.1 ∧ Spec.Encodable e.1 ∧ ∃ bs, (e.1.encodeMsgpack e.2.1 e.2.2).2 = .ok bs ∧ bs.length < 2 ^ 32)
    (h0 : DocWriter.new bnd num c = .ok s0)
    (h1 : (s0.run (ws.map (fun e => .write (.doc e.1 e.2.1 e.2.2)))).flush = (s1, none)) :
    ∃ (r : DocReader) (ds : List World), DocReader.new reg (Spec.payload s1.log) = .ok r ∧ ds.length = ws.length ∧
      (∀ i (h : i < ws.length) (h' : i < ds.length), Spec.SameDoc ws[i].1 ds[i]) ∧
      ∀ k, r.nextDocuments (ws.length + k) = ds.map .ok ++ List.replicate k (.error .stopIteration) := by
  have hreal : ∀ x ∈ ws.map (fun e => DocWriter.Call.write (.doc e.1 e.2.1 e.2.2)), Spec.Real x := by
    intro x hx
    obtain ⟨e, -, rfl⟩ := List.mem_map.mp hx
    trivial
  obtain ⟨f, r, hf, hacc, hnew, hat, -⟩ := index_parts hreg h0 h1 hreal
  -- what is accepted, and what it decodes to
  have key : ∀ ws : List (World × Bool × Bool), (∀ e ∈ ws, Reachable e.1 ∧ Spec.Encodable e.1 ∧
      ∃ bs, (e.1.encodeMsgpack e.2.1 e.2.2).2 = .ok bs ∧ bs.length < 2 ^ 32) →
      ∃ ds : List World, ds.length = ws.length ∧ (∀ i (h : i < ws.length) (h' : i < ds.length), Spec.SameDoc ws[i].1 ds[i]) ∧
        ∀ refs : List ((Nat × Nat) × Bytes),
          refs.map (·.2) = Spec.accepted (ws.map (fun e => DocWriter.Call.write (.doc e.1 e.2.1 e.2.2))) →
          refs.map (fun e => ((docOf e).document []).2) = ds.map .ok := by
    intro ws
    induction ws with
    | nil =>
      intro _
      refine ⟨[], rfl, by simp, ?_⟩
      intro refs hr
      simp only [List.map_nil, Spec.accepted, List.map_eq_nil_iff] at hr
      rw [hr]; rfl
    | cons e ws ih =>
      intro hw
      obtain ⟨ds, g1, g2, g3⟩ := ih (fun x hx => hw x (by simp [hx]))
      obtain ⟨k1, k2, bs, k3, k4⟩ := hw e (by simp)
      obtain ⟨w2, k5, k6, -⟩ := C31_round_trip k1 k2 (w1 := (e.1.encodeMsgpack e.2.1 e.2.2).1) (Prod.ext rfl k3) []
      rw [List.append_nil] at k5
      refine ⟨w2 :: ds, by simp [g1], ?_, ?_⟩
      · intro i h h'
        cases i with
        | zero => exact k6
        | succ i => exact g2 i (by simpa using h) (by simpa using h')
      · intro refs hr
        simp only [List.map_cons, Spec.accepted, DocArg.data, k3, k4, if_true] at hr
        cases refs with
        | nil => simp at hr
        | cons a refs =>
          simp only [List.map_cons, List.cons.injEq] at hr
          obtain ⟨a1, a2⟩ := hr
          rw [List.map_cons, List.map_cons, g3 refs a2]
          congr 1
          obtain ⟨w3, s, b1, b2, b3⟩ := C33_lazy k1 k2 (w1 := (e.1.encodeMsgpack e.2.1 e.2.2).1) (Prod.ext rfl k3) (refVal a.1)
          rw [k5] at b1
          cases b1
          have hs : s = docOf a := by
            unfold MDoc.ofBytes at b2
            split at b2
            · cases b2
            · cases b2
              unfold docOf
              rw [a1]
          rw [← hs]
          exact (b3 []).2.2.2
  obtain ⟨ds, g1, g2, g3⟩ := key ws hw
  refine ⟨r, ds, hnew, g1, g2, fun k => ?_⟩
  have hl : f.refs.length = ws.length := by
    have := congrArg List.length (g3 _ hacc)
    rw [List.length_map, List.length_map] at this
    omega
  rw [nextDocuments_eq, ← hl, nexts_ok hf k _ hat, List.map_append, List.map_map, List.map_replicate]
  congr 1
  exact g3 _ hacc

/-- C42 for documents applies to a document with every kind of field, written twice. -/
example : ∃ s0 s1, DocWriter.new false 1 ⟨"none".toList, .ok, .ok⟩ = .ok s0 ∧
    (s0.run ([(Ex.wfull, false, true), (Ex.wfull, true, false)].map (fun e => .write (.doc e.1 e.2.1 e.2.2)))).flush = (s1, none) := by
  obtain ⟨s0, h0⟩ : ∃ s0, DocWriter.new false 1 ⟨"none".toList, .ok, .ok⟩ = .ok s0 := ⟨_, rfl⟩
  have h1 : (s0.run ([(Ex.wfull, false, true), (Ex.wfull, true, false)].map (fun e => .write (.doc e.1 e.2.1 e.2.2)))).flush.2 = none := by
    cases h0
    decide +kernel
  have h2 : ∀ r : DocWriter × Option PyErr, r.2 = none → ∃ s1, r = (s1, none) := fun r h => ⟨r.1, Prod.ext rfl h⟩
  obtain ⟨s1, h3⟩ := h2 _ h1
  exact ⟨s0, s1, h0, h3⟩

end Verif
