import Verif.Props.Schema
import Verif.Props.Collections
import Verif.Props.MsgpackCodec
import Verif.Props.BlockFile
import Verif.Props.Printout
import Verif.Props.Ext
import Verif.Props.JavaEdit
import Verif.Props.JavaText
import Verif.Props.JavaValue
import Verif.Props.JavaHadoop
import Verif.Props.JavaEquals
/-
Further theorems for earlier properties: functions that are short forms of others, and what is left of removals.
-/
set_option linter.unusedSimpArgs false

namespace Verif

open World

/-! ### Python -/

/-- C21. Given a one-shot iterator, a returning `add_many` does with the nodes what it does without validation. -/
theorem C21_generator {w : World} (h : Reachable w) (L : LayerId) (hL : L < w.nextL) (ns : List NodeId)
    (hex : ∀ n ∈ ns, n < w.nextN) (fill val : Bool) (w' : World) (hrun : w.addManyOneShot L ns fill val = (w', none)) :
    w'.iter L = w.iter L ++ ns.map some ∧ (∀ K, K ≠ L → w'.iter K = w.iter K) ∧ ns.Nodup ∧ (∀ n ∈ ns, w.isDangling n = true) ∧
    (∀ n ∈ ns, ∀ k, dget (w'.nodes n).fields k = (dget (w.nodes n).fields k).or
      (if fill then (dget (w.layers L).fields k).bind Spec.default else none)) ∧
    (∀ n, n ∉ ns → (w'.nodes n).fields = (w.nodes n).fields) := by
  obtain ⟨h1, h2, h3, h4, h5, h6, -⟩ := C21_add_many h L hL ns hex fill false w' hrun
  exact ⟨h1, h2, h3, h4, h5, h6⟩

/-- C25. `del doc[name]` takes the layer, and only it, out of the document, or raises DataValidationError if another layer
refers to it; without such a layer nothing happens. -/
theorem C25_del (w : World) (name : Str) (ho : Spec.HasOptions w) :
    (name ∉ dkeys w.dl ∧ w.delLayer name = (w, .ok (some false))) ∨
    (name ∈ dkeys w.dl ∧ Spec.Referenced w name ∧ w.delLayer name = (w, .error .dataValidation)) ∨
    (name ∈ dkeys w.dl ∧ ¬ Spec.Referenced w name ∧ ∃ w', w.delLayer name = (w', .ok none) ∧
      (∀ k, dget w'.dl k = if k = name then none else dget w.dl k) ∧ w'.layers = w.layers ∧ w'.nodes = w.nodes ∧ w'.dt = w.dt) := by
  by_cases hn : name ∈ dkeys w.dl
  · rcases C25_removes w name hn ho false with ⟨h1, -, h2⟩ | ⟨h1, w', h2⟩
    · exact .inr (.inl ⟨hn, h1, h2⟩)
    · exact .inr (.inr ⟨hn, h1.resolve_right (by simp), w', h2⟩)
  · exact .inl ⟨hn, C25_absent w name hn false⟩

/-- C23. A bool field without default accepts exactly the booleans; an ext field, and a bool field with a default, everything. -/
theorem C23_bool (w : World) (v : Value) (b : Bool) (x : Str) : ((DataTypes.bool none).isValid w v = .ok true ↔ ∃ c, v = .bool c) ∧
    (DataTypes.bool (some b)).isValid w v = .ok true ∧ (DataTypes.ext x).isValid w v = .ok true := by
  refine ⟨?_, rfl, rfl⟩
  unfold DataTypes.bool DataType.isValid
  cases v <;> simp

/-- C71. The type of extended data is the one given. -/
theorem C71_type (t : Str) (d : Obj) : (ExtData.mk t d).type = t ∧ (ExtData.mk t d).decode = d := ⟨rfl, rfl⟩

/-- C36. A MsgpackDocument made of a document has the bytes of the document and its reference; pickling and restoring it
keeps the bytes, and they decode to an observably equal document. -/
theorem C36_of_document {w w1 : World} (h : Reachable w) (he : Spec.Encodable w) {bs : Bytes} (hb : w.encodeMsgpack false true = (w1, .ok bs))
    (ref : Value) : ∃ s, MDoc.ofDoc w ref = (w1, .ok s) ∧ s.binary = bs ∧ s.ref = some ref ∧
    ∃ st s' w2, s.getState = .ok st ∧ MDoc.setState st = .ok s' ∧ decodeMsgpack s'.binary = .ok w2 ∧ Spec.SameDoc w w2 := by
  have hm : bs.take 4 = magic := by
    unfold World.encodeMsgpack at hb
    cases hw : w.toWire false true with
    | mk w1' r =>
      rw [hw] at hb
      cases r with
      | error e => cases hb
      | ok wi => exact encode_magic (Prod.mk.inj hb).2
  have h0 : MDoc.ofBytes bs ref = .ok { raw := bs, ref := some ref } := by
    unfold MDoc.ofBytes
    rw [if_neg (by simp [hm])]
  refine ⟨{ raw := bs, ref := some ref }, ?_, rfl, rfl, ?_⟩
  · unfold MDoc.ofDoc
    rw [hb]
    simp only [h0]
  · obtain ⟨st, s', h1, h2, h3⟩ := C36_bytes_partial h0 []
    obtain ⟨w2, h4, h5, -⟩ := C31_round_trip h he hb []
    rw [List.append_nil] at h4
    exact ⟨st, s', w2, h1, h2, by rw [h3]; exact h4, h5⟩

section
open Printout

/-- C59. A table has the header set last, marked "#", and the rows in the order they were added; setting the one leaves the other
and all else. -/
theorem C59_build (t : Table) (rows : List Row) (es : List Elem) :
    (rows.foldl Table.addBody t).body = t.body ++ rows ∧ (rows.foldl Table.addBody t).header = t.header ∧
    (rows.foldl Table.addBody t) = { t with body := t.body ++ rows } ∧
    (t.setHeader es).header = some ⟨es, some "#".toList⟩ ∧ t.setHeader es = { t with header := some ⟨es, some "#".toList⟩ } := by
  have key : ∀ t : Table, rows.foldl Table.addBody t = { t with body := t.body ++ rows } := by
    induction rows with
    | nil => intro t; simp
    | cons r rows ih => intro t; rw [List.foldl_cons, ih]; simp [Table.addBody]
  exact ⟨by rw [key], by rw [key], key t, rfl, rfl⟩

end

/-! ### Java -/

/-- C86. `add(layer)` refuses a name that is taken, and changes nothing else. -/
theorem C86_add_layer (d : JDoc) (name : Str) (L : JLay) :
    (name ∈ dkeys d.layers → d.addLayer name L = (d, .error .value)) ∧
    (name ∉ dkeys d.layers → ∃ d', d.addLayer name L = (d', .ok ()) ∧ d'.texts = d.texts ∧ d'.props = d.props ∧ d'.ids = d.ids ∧ d'.data = d.data ∧
      ∀ k, dget d'.layers k = if k = name then some L else dget d.layers k) := by
  unfold JDoc.addLayer
  constructor
  · intro h; rw [if_pos ((dget_isSome_iff _ _).mpr h)]
  · intro h
    rw [if_neg (fun q => h ((dget_isSome_iff _ _).mp q))]
    refine ⟨_, rfl, rfl, rfl, rfl, rfl, fun k => ?_⟩
    simp only [dget_tput, eq_comm]

namespace Spec

/-- a field of references to nodes of this layer -/
def IsNodeOf (name : Str) (t : JType) : Bool :=
  (decide (t.name = .node) || decide (t.name = .nodeArray)) && decide (dget t.args "layer".toList = some (.str name))

end Spec

theorem nodeOf_eq {name : Str} {t : JType} {b : Bool} (h : JDoc.nodeOf name t = .ok b) : b = Spec.IsNodeOf name t := by
  unfold JDoc.nodeOf JType.arg at h
  unfold Spec.IsNodeOf
  split at h
  · rename_i ht
    split at h
    · cases h
    · rename_i c hc
      cases h
      split at hc
      · cases hc
      · rename_i s hs; cases hc; rw [hs]; rcases ht with ht | ht <;> simp [ht]
      · cases hc
  · rename_i ht
    cases h
    rw [not_or] at ht
    simp [ht.1, ht.2]

/-- C86. What `remove(layer, true)` does, instead of removing the layer: of the layers that have spans of a text *of that name*
the fields for nodes of the layer go, with their values; the other layers stay as they are. -/
theorem C86_remove_layer_partial {d d' : JDoc} (hs : Spec.JSound d) {name : Str} (h : d.removeLayer name true = (d', .ok ())) {k : Str} {L : JLay}
    (hL : dget d.layers k = some L) : let gone := fun t => (L.fields.any fun f => Spec.IsSpanOf name f.2) && Spec.IsNodeOf name t
    (∃ L', dget d'.layers k = some L' ∧ L'.nodes = L.nodes ∧ ∀ f, dget L'.fields f = (dget L.fields f).filter (fun t => !gone t)) ∧
    ∀ n ∈ L.nodes, ∀ f, dget (d'.data n) f = if (dget L.fields f).any gone then none else dget (d.data n) f := by
  intro gone
  unfold JDoc.removeLayer at h
  split at h
  · simp at h
  rename_i ls hls
  rw [if_neg (by simp), if_pos rfl] at h
  have hls' := filterE_ok (g := fun e : Str × JLay => decide (e.2.fields.filter (fun f => Spec.IsSpanOf name f.2) ≠ [])) hls (by
    rintro ⟨k, L⟩ - b hb
    simp only [JDoc.anySpanOf] at hb
    split at hb
    · cases hb
    · rename_i l hl
      cases hb
      rw [filterE_ok (g := fun f : Str × JType => Spec.IsSpanOf name f.2) hl (fun a _ b hb => spanOf_eq hb)])
  have hsub : ls.Sublist d.layers := by rw [hls']; exact List.filter_sublist
  have hmem : ∀ k L, (k, L) ∈ ls → (k, L) ∈ d.layers := fun k L hm => hsub.mem hm
  have hmL := dget_mem hL
  obtain ⟨r1, r2, r3⟩ := removeFields_ok (g := Spec.IsNodeOf name) (fun t b hb => nodeOf_eq hb) h ((hsub.map _).nodup hs.layerKeys)
    (fun k L hm => ⟨dget_of_mem hs.layerKeys (hmem k L hm), hs.fieldKeys k L (hmem k L hm)⟩) ((flatMap_sub hsub).nodup hs.once)
  by_cases hk : (k, L) ∈ ls
  · have hany : (L.fields.any fun f => Spec.IsSpanOf name f.2) = true := by
      rw [hls', List.mem_filter, decide_eq_true_eq] at hk
      rw [List.any_eq_true]
      obtain ⟨x, hx⟩ := List.exists_mem_of_ne_nil _ hk.2
      exact ⟨x, (List.mem_filter.mp hx).1, (List.mem_filter.mp hx).2⟩
    have hg : gone = Spec.IsNodeOf name := by funext t; simp only [gone, hany, Bool.true_and]
    rw [hg]
    exact ⟨(r1 k L hk).there, (r1 k L hk).data⟩
  · have hany : (L.fields.any fun f => Spec.IsSpanOf name f.2) = false := by
      rw [Bool.eq_false_iff]
      intro hx
      obtain ⟨x, hx, hy⟩ := List.any_eq_true.mp hx
      apply hk
      rw [hls', List.mem_filter, decide_eq_true_eq]
      exact ⟨hmL, List.ne_nil_of_mem (List.mem_filter.mpr ⟨hx, hy⟩)⟩
    have hg : gone = fun _ => false := by funext t; simp only [gone, hany, Bool.false_and]
    rw [hg]
    have hkk : k ∉ dkeys ls := by
      intro hm
      obtain ⟨⟨k', L'⟩, hm', rfl⟩ := List.mem_map.mp hm
      have := dget_of_mem hs.layerKeys (hmem _ _ hm')
      rw [hL] at this
      cases this
      exact hk hm'
    refine ⟨⟨L, by rw [r2 k hkk]; exact hL, rfl, fun f => by cases dget L.fields f <;> simp [Option.filter]⟩, ?_⟩
    intro n hn f
    rw [r3 n]
    · cases dget L.fields f <;> simp
    · intro hx
      obtain ⟨⟨k', L'⟩, hm', hn'⟩ := List.mem_flatMap.mp hx
      have hk' : (k', L') ≠ (k, L) := by rintro e; cases e; exact hk hm'
      exact hk' (flatMap_one hs.once (hmem _ _ hm') hmL hn' hn)

/-- C84. `setText` keeps the spans in order if the new text has all the positions the table has. -/
theorem C84_set_text {t : JText} (h : JTInv t) (s : JStr) (hp : ∀ p ∈ dkeys t.table, p ≤ s.length) :
    JTInv (t.setText s) ∧ (t.setText s).text = s ∧ (∀ x, LiveSpan t x → LiveSpan (t.setText s) x) ∧
    (∀ x, (t.setText s).start x = t.start x ∧ (t.setText s).stop x = t.stop x) :=
  ⟨⟨h.keys, h.pos, fun p o ho => ⟨(h.rng p o ho).1, hp p ((dget_isSome_iff _ _).mp (by rw [show dget t.table p = some o from ho]; rfl))⟩, h.zero⟩,
    rfl, fun _ hx => hx, fun _ => ⟨rfl, rfl⟩⟩

/-- With a text that is too short for a span the span cannot be read, and the document cannot be encoded. -/
theorem C84_set_text_fails : ∃ (t : JText) (x : JSpan), JTInv t ∧ LiveSpan t x ∧ (t.str x).isOk = true ∧
    (t.setText []).str x = .error .index ∧ ((t.setText []).compileWith [x]).2 = .error .index := by
  refine ⟨((JText.new [104, 105]).span 0 2).1, (0, 1), ?_, ⟨0, 2, rfl, rfl, by decide⟩, by decide, by decide, by decide⟩
  have h0 : JTInv (JText.new [104, 105]) := ⟨List.nodup_nil, nofun, nofun, nofun⟩
  have h := C84_span h0 rfl 0 2
  rw [if_pos (by decide)] at h
  obtain ⟨t', s, h1, -, -, h2, -⟩ := h
  rw [h1]
  exact h2

/-- C97. Only a NodeSpan has a `nodeSpanValue()`. -/
theorem C97_nodespan_value (v : JVal) (p : Nat × Nat) : JDoc.nodeSpanValue v = .ok p ↔ v = .nodespan p.1 p.2 := by
  cases v <;> simp [JDoc.nodeSpanValue, Prod.ext_iff]

/-- C95. After `close()` there are no more records, and the last key stays as it is. -/
theorem C95_close (s : JRecReader) (us : List (JWritable → JWritable)) : s.close.current = s.current ∧
    s.close.next = (s.close, .ok false) ∧ (∀ r ∈ s.close.calls us, r.1 = .ok false) ∧ s.close.close = s.close := by
  refine ⟨rfl, rfl, ?_, rfl⟩
  have key : ∀ us (c : JWritable), ∀ r ∈ JRecReader.calls ⟨none, c⟩ us, r.1 = .ok false := by
    intro us
    induction us with
    | nil => intro c r hr; cases hr
    | cons u us ih =>
      intro c r hr
      simp only [JRecReader.calls, JRecReader.next, List.mem_cons] at hr
      rcases hr with rfl | hr
      · rfl
      · exact ih _ r hr
  exact key us s.current

/-! ### hash codes -/

namespace Spec

/-- Σ uᵢ · 31^(n-1-i) -/
def poly : List Int → Int
  | [] => 0
  | u :: us => u * 31 ^ us.length + poly us

/-- the int with the same low 32 bits -/
def IsInt32 (i r : Int) : Prop := -2147483648 ≤ r ∧ r < 2147483648 ∧ (4294967296 : Int) ∣ r - i

/-- a byte of Java -/
def byte (b : UInt8) : Int := b.toInt8.toInt

end Spec

theorem wrap32_is (i : Int) : Spec.IsInt32 i (wrap32 i) := by
  unfold Spec.IsInt32 wrap32
  omega

theorem fold_poly : ∀ (l : List Int) (a : Int), (4294967296 : Int) ∣ l.foldl mix a - (a * 31 ^ l.length + Spec.poly l) := by
  intro l
  induction l with
  | nil => intro a; simp [Spec.poly]
  | cons u us ih =>
    intro a
    have h1 := ih (mix a u)
    have h2 : (4294967296 : Int) ∣ mix a u - (31 * a + u) := by unfold mix; exact (wrap32_is _).2.2
    have h3 := Int.dvd_mul_of_dvd_left (c := 31 ^ us.length) h2
    simp only [List.foldl_cons, Spec.poly, List.length_cons]
    have h4 := Int.dvd_add h1 h3
    have : List.foldl mix (mix a u) us - (mix a u * 31 ^ us.length + Spec.poly us) + (mix a u - (31 * a + u)) * 31 ^ us.length =
        List.foldl mix (mix a u) us - (a * 31 ^ (us.length + 1) + (u * 31 ^ us.length + Spec.poly us)) := by
      rw [Int.pow_succ]; grind
    rwa [this] at h4

theorem fold_range : ∀ (l : List Int) (a : Int), -2147483648 ≤ a → a < 2147483648 → -2147483648 ≤ l.foldl mix a ∧ l.foldl mix a < 2147483648 := by
  intro l
  induction l with
  | nil => intro a h1 h2; exact ⟨h1, h2⟩
  | cons u us ih =>
    intro a _ _
    have := wrap32_is (31 * a + u)
    exact ih _ this.1 this.2.1

theorem jByte_eq (b : UInt8) : jByte b = Spec.byte b := by
  have : ∀ b : Fin 256, jByte (UInt8.ofFin b) = Spec.byte (UInt8.ofFin b) := by decide +kernel
  exact this b.toFin

theorem longHash_eq (i : Int) : longHash i = ((BitVec.ofInt 64 i ^^^ (BitVec.ofInt 64 i >>> 32)).setWidth 32).toInt := by
  have h1 : (BitVec.ofInt 64 i).toNat = (i % 0x10000000000000000).toNat := by rw [BitVec.toNat_ofInt]; rfl
  rw [BitVec.toInt_eq_toNat_bmod, BitVec.toNat_setWidth, BitVec.toNat_xor, BitVec.toNat_ushiftRight, h1]
  unfold longHash wrap32
  simp only [Nat.shiftRight_eq_div_pow]
  generalize (i % 0x10000000000000000).toNat = u
  show (((u ^^^ (u / 4294967296) : Nat) : Int) + 0x80000000) % 0x100000000 - 0x80000000 = Int.bmod (((u ^^^ (u / 4294967296)) % 2 ^ 32 : Nat) : Int) (2 ^ 32)
  generalize u ^^^ (u / 4294967296) = x
  simp only [Int.bmod, Nat.reducePow]
  split <;> omega

/-- C99. The hash codes of plain values are those of Java: 31 more, as an int, than that of the thing itself. -/
theorem C99_hash_codes :
    (∀ b : Bool, (JScal.bool b).hash = 31 + if b then 1231 else 1237) ∧
    (∀ i, Spec.IsInt32 (31 + i) (JScal.int i).hash) ∧
    (∀ i, Spec.IsInt32 (31 + ((BitVec.ofInt 64 i ^^^ (BitVec.ofInt 64 i >>> 32)).setWidth 32).toInt) (JScal.long i).hash) ∧
    (∀ s, Spec.IsInt32 (31 + Spec.poly ((utf16 s).map fun u : Nat => (u : Int))) (JScal.str s).hash) ∧
    (∀ b, Spec.IsInt32 (31 ^ b.length + Spec.poly (b.map Spec.byte)) (JScal.bin b).hash) := by
  refine ⟨by decide, fun i => ?_, fun i => ?_, fun s => ?_, fun b => ?_⟩
  · have h : (JScal.int i).hash = wrap32 (31 * 1 + i) := by simp only [JScal.hash, mix]
    rw [h, Int.mul_one]; exact wrap32_is _
  · rw [← longHash_eq]
    have h : (JScal.long i).hash = wrap32 (31 * 1 + longHash i) := by simp only [JScal.hash, mix]
    rw [h, Int.mul_one]; exact wrap32_is _
  · have h1 := wrap32_is (31 * 1 + strHash (utf16 s))
    have h2 := fold_poly ((utf16 s).map fun u : Nat => (u : Int)) 0
    rw [List.foldl_map] at h2
    have h3 : (JScal.str s).hash = wrap32 (31 * 1 + strHash (utf16 s)) := rfl
    rw [h3]
    refine ⟨h1.1, h1.2.1, ?_⟩
    have h4 := h1.2.2
    have h5 : (4294967296 : Int) ∣ strHash (utf16 s) - (0 * 31 ^ ((utf16 s).map fun u : Nat => (u : Int)).length + Spec.poly ((utf16 s).map fun u : Nat => (u : Int))) := h2
    rw [Int.zero_mul] at h5
    omega
  · have h2 := fold_poly (b.map Spec.byte) 1
    have h3 := fold_range (b.map Spec.byte) 1 (by omega) (by omega)
    have h4 : (JScal.bin b).hash = (b.map Spec.byte).foldl mix 1 := by
      rw [List.foldl_map]; simp only [JScal.hash, jByte_eq]
    rw [h4]
    refine ⟨h3.1, h3.2, ?_⟩
    simpa using h2

/-! ### cases -/

-- C21_generator: two nodes
example : (Ex.wf.addManyOneShot 1 [2, 3] true true).1.iter 1 = [some 1, some 2, some 3] := by
  have h : (Ex.wf.addManyOneShot 1 [2, 3] true true).2 = none := by decide
  have h' : Ex.wf.addManyOneShot 1 [2, 3] true true = ((Ex.wf.addManyOneShot 1 [2, 3] true true).1, none) := by rw [← h]
  exact (C21_generator Ex.wf_reachable 1 (by decide) [2, 3] (by decide) true true _ h').1.trans (by decide)

-- C25_del: of two layers the one that is referred to cannot be deleted
example : (Ex.wref.delLayer "a".toList).2 = .error .dataValidation ∧ (Ex.wref.delLayer "b".toList).2 = .ok none ∧
    dkeys (Ex.wref.delLayer "b".toList).1.dl = ["a".toList] ∧ (Ex.wref.delLayer "c".toList).2 = .ok (some false) := by decide

-- C23_bool
example : (DataTypes.bool none).isValid .empty (.int 1) = .ok false := rfl

-- C36_of_document: a document with all that there is
example : ∃ s, (MDoc.ofDoc Ex.wfull (.str "r".toList)).2 = .ok s ∧ s.binary = Ex.bfull := by
  obtain ⟨s, h1, h2, -⟩ := C36_of_document Ex.wfull_reachable Ex.wfull_encodable Ex.bfull_eq (.str "r".toList)
  exact ⟨s, by rw [h1], h2⟩

namespace Ex

/-- a layer with the name of a text, and two layers with a field for its nodes; one has spans of the text -/
def rops : List JDOp := [.text "main".toList (utf16 "ab".toList), .layer "main".toList [],
  .layer "x".toList [("s".toList, ⟨.span, [("context".toList, .str "main".toList)]⟩), ("m".toList, ⟨.node, [("layer".toList, .str "main".toList)]⟩)],
  .layer "y".toList [("m".toList, ⟨.node, [("layer".toList, .str "main".toList)]⟩)],
  .insert "main".toList 1 [], .insert "x".toList 2 [("m".toList, .node 1)], .insert "y".toList 3 [("m".toList, .node 1)]]

theorem rops_fresh : Spec.JFresh .new rops := by
  refine ⟨trivial, ⟨by decide, by decide⟩, ⟨by decide, by decide⟩, ⟨by decide, by decide⟩, ?_, ?_, ?_, trivial⟩
  all_goals
    intro f c p h
    have := dget_mem h
    simp at this

def rdoc : JDoc := (JDState.new.run rops).doc

end Ex

-- C86_remove_layer_partial: the field goes in the layer with spans of the text "main", and stays in the other
example : ∃ d', Ex.rdoc.removeLayer "main".toList true = (d', .ok ()) ∧ dget (d'.data 2) "m".toList = none ∧ dget (d'.data 3) "m".toList = some (.node 1) ∧
    (Ex.rdoc.removeLayer "main".toList false).2 = .error .data := by
  have h : (Ex.rdoc.removeLayer "main".toList true).2 = .ok () := by decide +kernel
  have h' : Ex.rdoc.removeLayer "main".toList true = ((Ex.rdoc.removeLayer "main".toList true).1, .ok ()) := by rw [← h]
  have hs : Spec.JSound Ex.rdoc := C86_sound Ex.rops Ex.rops_fresh
  have hx : ∃ L, dget Ex.rdoc.layers "x".toList = some L ∧ 2 ∈ L.nodes := ⟨_, rfl, by decide +kernel⟩
  obtain ⟨L, hL, hn⟩ := hx
  have hg := (C86_remove_layer_partial hs h' hL).2 2 hn "m".toList
  refine ⟨_, h', by decide +kernel, by decide +kernel, by decide +kernel⟩

-- C86_add_layer
example : (Ex.rdoc.addLayer "x".toList ⟨[], [], 0⟩).2 = .error .value ∧ (Ex.rdoc.addLayer "z".toList ⟨[], [], 0⟩).2 = .ok () := by decide +kernel

-- C84_set_text: a longer text
example : let t := ((JText.new [104, 105]).span 0 2).1
    (∀ p ∈ dkeys t.table, p ≤ 3) ∧ (t.setText [97, 98, 99]).str (0, 1) = .ok [97, 98] := by decide

-- C99_hash_codes: "ab".hashCode() is 3105; `Long.hashCode(-1)` is 0; a string that wraps
example : Spec.poly [97, 98] = 3105 ∧ (JScal.str "ab".toList).hash = 3136 ∧ (JScal.long (-1)).hash = 31 ∧ (JScal.bin [1, 255]).hash = 991 ∧
    Spec.poly [1, -1] = 30 := by decide +kernel

end Verif
