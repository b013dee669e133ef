import Verif.Model.JavaHadoop
import Verif.Props.JavaMdoc
import Verif.Props.JavaReader
/-
C94, C95: the Hadoop formats of the Java library.
-/
set_option linter.unusedSimpArgs false
namespace Verif
open Spec (Content Good JHas JSound JavaReadable)

/-! ### specification -/

namespace Spec

/-- a writable holds a document with this content, in one form or in both -/
structure Carries (w : JWritable) (c : Content) : Prop where
  some : w.doc.isSome ∨ w.blob.isSome
  doc : ∀ d, w.doc = .some d → JSound d ∧ JHas d c
  blob : ∀ b, w.blob = .some b → WrittenBy c b ∧ b.length < 2 ^ 31

/-- what a getter of such a writable may return -/
def Tells (c : Content) : JWritable.Ans → Prop
  | .document d => ∃ d', d = some d' ∧ JSound d' ∧ JHas d' c
  | .blob b => ∃ b', b = some b' ∧ WrittenBy c b'
  | .msgpack m => ∃ b, JMsg.ofBytes b = .ok m ∧ WrittenBy c b
  | .sent => True

/-- arrays are shorter than 2 GiB: the files that the writable has before each of these calls -/
def Small : JWritable → List JWritable.Call → Prop
  | _, [] => True
  | w, k :: ks => (∀ b, w.getBlob.2 = .ok (some b) → b.length < 2 ^ 31) ∧ Small (w.call k).1 ks

/-- the records of a file, while the user does something to the key before each call -/
def records : List Bytes → List (JWritable → JWritable) → JWritable → List (Except PyErr Bool × JWritable)
  | _, [], _ => []
  | [], u :: us, k => (.ok false, u k) :: records [] us (u k)
  | b :: bs, _ :: us, _ => (.ok true, ⟨none, some b⟩) :: records bs us ⟨none, some b⟩

end Spec

/-! ### C94: DocumentWritable -/

theorem readBlob_ok {b : Bytes} (h : b.length < 2 ^ 31) (rest : Bytes) : JWritable.readBlob (be 4 b.length ++ b ++ rest) = .ok (b, rest) := by
  unfold JWritable.readBlob takeInt
  rw [List.append_assoc]
  simp only [P.bind_eq, takeNat_be 4 _ _ (show b.length < 256 ^ 4 by omega), P.pure_eq]
  have : (if b.length < 256 ^ 4 / 2 then (b.length : Int) else (b.length : Int) - (256 ^ 4 : Nat)) = b.length := if_pos (by omega)
  rw [this, if_neg (by omega)]
  exact take_append b rest

theorem getBlob_again {w w' : JWritable} {b : Option Bytes} (h : w.getBlob = (w', .ok b)) : w'.getBlob = (w', .ok b) ∧ w'.blob = b := by
  obtain ⟨d, bl⟩ := w
  cases d <;> cases bl <;> simp only [JWritable.getBlob] at h ⊢
  · cases h; exact ⟨rfl, rfl⟩
  · cases h; exact ⟨rfl, rfl⟩
  · split at h
    · cases h
    · cases h; exact ⟨rfl, rfl⟩
  · cases h; exact ⟨rfl, rfl⟩

/-- C94. What `write` wrote, `readFields` of any writable reads, whatever is behind it. -/
theorem C94_transport {w w' : JWritable} {bs : Bytes} (h : w.write = (w', .ok bs)) : ∃ b, w.getBlob = (w', .ok (some b)) ∧ bs = be 4 b.length ++ b ∧
    (b.length < 2 ^ 31 → ∀ (t : JWritable) (rest : Bytes), t.readFields (bs ++ rest) = (⟨none, some b⟩, .ok rest)) := by
  unfold JWritable.write at h
  split at h
  · cases h
  · cases h
  · rename_i w1 b hb
    cases h
    refine ⟨b, hb, rfl, fun hl t rest => ?_⟩
    unfold JWritable.readFields
    rw [readBlob_ok hl]

/-- C94. Any number of writables that are written one after the other are read one after the other. -/
theorem C94_sequence : ∀ {ws : List JWritable} {bs : List Bytes}, ws.map (fun w => w.write.2) = bs.map .ok → (∀ b ∈ bs, b.length < 2 ^ 31 + 4) →
    ∀ rest, P.times JWritable.readBlob ws.length (bs.flatten ++ rest) = .ok (bs.map (·.drop 4), rest) ∧
      ∀ (i : Nat) (w : JWritable) (b : Bytes), ws[i]? = some w → bs[i]? = some b → w.getBlob.2 = .ok (some (b.drop 4))
  | [], [], _, _, rest => ⟨rfl, by simp⟩
  | [], b :: bs, h, _, _ => by simp at h
  | w :: ws, [], h, _, _ => by simp at h
  | w :: ws, b :: bs, h, hl, rest => by
    simp only [List.map_cons, List.cons.injEq] at h
    obtain ⟨ih1, ih2⟩ := C94_sequence h.2 (fun x hx => hl x (by simp [hx])) rest
    obtain ⟨d, g1, g2, -⟩ := C94_transport (w := w) (w' := w.write.1) (bs := b) (by rw [← h.1])
    have hd : b.drop 4 = d := by rw [g2, List.drop_left' (be_length 4 _)]
    constructor
    · have : d.length < 2 ^ 31 := by have := hl b (by simp); rw [g2, List.length_append, be_length] at this; omega
      simp only [List.length_cons, List.flatten_cons, List.map_cons, hd]
      rw [P.times, P.bind_eq, g2, List.append_assoc, readBlob_ok this]
      simp only [P.bind_eq, ih1, P.pure_eq]
    · intro i w' b' hw hb
      cases i with
      | zero =>
        simp only [List.getElem?_cons_zero, Option.some.injEq] at hw hb
        subst hw; subst hb
        rw [g1, hd]
      | succ i => exact ih2 i w' b' hw hb

/-- C94. After a setter or a constructor the writable holds what was given, whatever it held before; nothing of that is left. -/
theorem C94_set {c : Content} (w : JWritable) :
    (∀ d, JSound d → JHas d c → Spec.Carries (JWritable.ofDoc d) c ∧ Spec.Carries (w.setDocument d) c ∧ (w.setDocument d).getDocument.2 = .ok (some d)) ∧
    (∀ b, Spec.WrittenBy c b → b.length < 2 ^ 31 → Spec.Carries (JWritable.ofBlob b) c ∧ Spec.Carries (w.setBlob b) c ∧ (w.setBlob b).getBlob.2 = .ok (some b)) := by
  refine ⟨fun d hs hh => ?_, fun b hb hl => ?_⟩
  · have : Spec.Carries ⟨some d, none⟩ c := ⟨.inl rfl, (by intro d' e; cases e; exact ⟨hs, hh⟩), by intro b e; cases e⟩
    exact ⟨this, this, rfl⟩
  · have : Spec.Carries ⟨none, some b⟩ c := ⟨.inr rfl, (by intro d' e; cases e), by intro b' e; cases e; exact ⟨hb, hl⟩⟩
    exact ⟨this, this, rfl⟩

/-- C94. `getDocument` of a writable with a content gives a document with that content, and again the same document. -/
theorem C94_get_document {w : JWritable} {c : Content} (h : Spec.Carries w c) (hr : JavaReadable c) :
    ∃ w' d, w.getDocument = (w', .ok (some d)) ∧ JSound d ∧ JHas d c ∧ Spec.Carries w' c ∧ w'.getDocument = (w', .ok (some d)) ∧ w'.doc = some d ∧ w'.blob = w.blob := by
  obtain ⟨d, b⟩ := w
  cases d with
  | some d =>
    have := h.doc d rfl
    exact ⟨⟨some d, b⟩, d, by cases b <;> rfl, this.1, this.2, h, by cases b <;> rfl, rfl, rfl⟩
  | none =>
    cases b with
    | none => rcases h.some with h | h <;> cases h
    | some b =>
      obtain ⟨h1, h2⟩ := h.blob b rfl
      obtain ⟨hw, hg⟩ := written_wrote h1
      obtain ⟨d, g1, g2, g3⟩ := wrote_reads_java hw hg hr h2
      have g1 := g1 []
      rw [List.append_nil] at g1
      refine ⟨⟨some d, some b⟩, d, ?_, g3.sound, g2, ⟨.inl rfl, ?_, h.blob⟩, rfl, rfl, rfl⟩
      · simp only [JWritable.getDocument, g1]
      · intro d' e; cases e; exact ⟨g3.sound, g2⟩

/-- C94. `getMsgpackBlob` of a writable with a content gives a file with that content, and again the same file; if the encoder
fails, the writable still holds the content. -/
theorem C94_get_blob {w : JWritable} {c : Content} (h : Spec.Carries w c) (hg : Good c) :
    (∃ w' b, w.getBlob = (w', .ok (some b)) ∧ Spec.WrittenBy c b ∧ (b.length < 2 ^ 31 → Spec.Carries w' c) ∧ w'.getBlob = (w', .ok (some b)) ∧ w'.blob = some b) ∨
    ∃ w' d e, w.doc = some d ∧ w.blob = none ∧ d.encode.2 = .error e ∧ w.getBlob = (w', .error e) ∧ Spec.Carries w' c := by
  obtain ⟨d, b⟩ := w
  cases b with
  | some b =>
    refine .inl ⟨⟨d, some b⟩, b, by cases d <;> rfl, (h.blob b rfl).1, fun _ => h, by cases d <;> rfl, rfl⟩
  | none =>
    cases d with
    | none => rcases h.some with h | h <;> cases h
    | some d =>
      obtain ⟨hs, hh⟩ := h.doc d rfl
      obtain ⟨k1, k2⟩ := C87_keeps hs hh hg
      cases he : d.encode with
      | mk d' r =>
        rw [he] at k1 k2
        cases r with
        | error e =>
          refine .inr ⟨⟨some d', none⟩, d, e, rfl, rfl, by rw [he], by simp only [JWritable.getBlob, he], ⟨.inl rfl, ?_, by intro b hb; cases hb⟩⟩
          intro d2 e2; cases e2; exact ⟨k2, k1⟩
        | ok b =>
          have hw : Spec.WrittenBy c b := .java hs hh hg he
          refine .inl ⟨⟨none, some b⟩, b, by simp only [JWritable.getBlob, he], hw, fun hl => ⟨.inr rfl, (by intro d e; cases e), ?_⟩, rfl, rfl⟩
          intro b' hb'; cases hb'; exact ⟨hw, hl⟩

theorem written_magic {c : Content} {b : Bytes} (h : Spec.WrittenBy c b) : ∃ r, b = magic ++ r := by
  obtain ⟨⟨x, -, hx, -⟩, -⟩ := written_wrote h
  exact ⟨b.drop 4, by rw [← encode_magic hx, List.take_append_drop]⟩

theorem call_holds {w : JWritable} {c : Content} (h : Spec.Carries w c) (hg : Good c) (hr : JavaReadable c) (hs : ∀ b, w.getBlob.2 = .ok (some b) → b.length < 2 ^ 31)
    (k : JWritable.Call) : Spec.Carries (w.call k).1 c ∧ ((∃ a, (w.call k).2 = .ok a ∧ Spec.Tells c a) ∨ ∃ d e, w.doc = some d ∧ w.blob = none ∧ d.encode.2 = .error e ∧ (w.call k).2 = .error e) := by
  cases k with
  | document =>
    obtain ⟨w', d, g1, g2, g3, g4, -⟩ := C94_get_document h hr
    simp only [JWritable.call, g1]
    exact ⟨g4, .inl ⟨_, rfl, d, rfl, g2, g3⟩⟩
  | blob =>
    simp only [JWritable.call]
    rcases C94_get_blob h hg with ⟨w', b, g1, g2, g3, -⟩ | ⟨w', d, e, g1, g2, g3, g4, g5⟩
    · rw [g1] at hs ⊢
      exact ⟨g3 (hs b rfl), .inl ⟨_, rfl, b, rfl, g2⟩⟩
    · rw [g4]
      exact ⟨g5, .inr ⟨d, e, g1, g2, g3, rfl⟩⟩
  | msgpack =>
    simp only [JWritable.call, JWritable.getMsgpackDocument]
    rcases C94_get_blob h hg with ⟨w', b, g1, g2, g3, -⟩ | ⟨w', d, e, g1, g2, g3, g4, g5⟩
    · rw [g1] at hs ⊢
      refine ⟨g3 (hs b rfl), .inl ?_⟩
      rcases C93_header b with ⟨-, hb⟩ | ⟨hb, -⟩
      · exact ⟨.msgpack ⟨b, none, none⟩, by simp only [hb]; rfl, b, hb, g2⟩
      · exact absurd (written_magic g2) hb
    · rw [g4]
      exact ⟨g5, .inr ⟨d, e, g1, g2, g3, rfl⟩⟩
  | send t =>
    simp only [JWritable.call]
    rcases C94_get_blob h hg with ⟨w', b, g1, g2, g3, -⟩ | ⟨w', d, e, g1, g2, g3, g4, g5⟩
    · have hw : w.write = (w', .ok (be 4 b.length ++ b)) := by simp only [JWritable.write, g1]
      have hl := hs b (by rw [g1])
      obtain ⟨b', k1, -, k3⟩ := C94_transport hw
      rw [g1] at k1
      cases k1
      have := k3 hl t []
      rw [List.append_nil] at this
      simp only [hw, this]
      exact ⟨⟨.inr rfl, (by intro d e; cases e), by intro b' e; cases e; exact ⟨g2, hl⟩⟩, .inl ⟨_, rfl, trivial⟩⟩
    · have hw : w.write = (w', .error e) := by simp only [JWritable.write, g4]
      simp only [hw]
      exact ⟨g5, .inr ⟨d, e, g1, g2, g3, rfl⟩⟩

/-- C94. Whatever getters are called on a writable, and however often it is sent from one place to another, it holds the same
content, and what the getters return has that content. Only the encoder can fail. -/
theorem C94_calls {c : Content} (hg : Good c) (hr : JavaReadable c) : ∀ (ks : List JWritable.Call) {w : JWritable}, Spec.Carries w c → Spec.Small w ks →
    Spec.Carries (w.calls ks).1 c ∧ ∀ a ∈ (w.calls ks).2, (∃ x, a = .ok x ∧ Spec.Tells c x) ∨ ∃ w' d e, Spec.Carries w' c ∧ w'.doc = some d ∧ w'.blob = none ∧ d.encode.2 = .error e ∧ a = .error e
  | [], w, h, _ => ⟨h, by simp [JWritable.calls]⟩
  | k :: ks, w, h, hs => by
    obtain ⟨g1, g2⟩ := call_holds h hg hr hs.1 k
    obtain ⟨i1, i2⟩ := C94_calls hg hr ks g1 hs.2
    refine ⟨i1, fun a ha => ?_⟩
    simp only [JWritable.calls, List.mem_cons] at ha
    rcases ha with rfl | ha
    · rcases g2 with g2 | ⟨d, e, q⟩
      · exact .inl g2
      · exact .inr ⟨w, d, e, h, q⟩
    · exact i2 a ha

theorem wrote_wire {c : Content} {b : Bytes} (h : Wrote c b) : ∃ x, WHas x c ∧ readWire (b.drop 4) = .ok (x, []) := by
  obtain ⟨x, h1, h2, -⟩ := h
  obtain ⟨p⟩ := parts_of h2
  have hr := read_wire h1.ok p []
  have : b.drop 4 = p.propLen ++ (p.prop ++ ((p.types ++ p.schema) ++ (p.textLen ++ (p.text ++ p.layers)))) := by
    refine (congrArg (List.drop 4) p.eq).trans ?_
    simp only [List.append_assoc]
    rfl
  rw [List.append_nil] at hr
  exact ⟨x, h1, by rw [this]; exact hr⟩

/-- no file has two contents with different properties -/
theorem written_props {c c' : Content} {b : Bytes} (h : Spec.WrittenBy c b) (h' : Spec.WrittenBy c' b) : c.props = c'.props := by
  obtain ⟨x, h1, h2⟩ := wrote_wire (written_wrote h).1
  obtain ⟨x', h1', h2'⟩ := wrote_wire (written_wrote h').1
  rw [h2] at h2'
  cases h2'
  funext k
  rw [← h1.props, ← h1'.props]

/-- C94. Changes of a document that was set are in what is written. -/
theorem C94_edit_partial {w : JWritable} {d : JDoc} (hd : w.doc = some d) (hb : w.blob = none) (f : JDoc → JDoc) {c : Content} (hs : JSound (f d)) (hh : JHas (f d) c) :
    Spec.Carries (w.edit f) c := by
  refine ⟨.inl (by rw [JWritable.edit, hd]; rfl), ?_, ?_⟩
  · intro d' e
    rw [JWritable.edit, hd] at e
    cases e
    exact ⟨hs, hh⟩
  · intro b e
    rw [JWritable.edit, hb] at e
    cases e

/-- C94. If the writable has a file, no change of the document is in what is written: not if the document was set, then the file
got, and then the document got, and not if the file was set or read. -/
theorem C94_edit_lost {w : JWritable} {b : Bytes} (hb : w.blob = some b) (f : JDoc → JDoc) :
    (w.edit f).getBlob = (w.edit f, .ok (some b)) ∧ (w.edit f).write = (w.edit f, .ok (be 4 b.length ++ b)) ∧
      (b.length < 2 ^ 31 → ∀ t : JWritable, ((t.readFields (be 4 b.length ++ b)).1.getDocument).2 = (jDecode b).map some) := by
  have h1 : (w.edit f).getBlob = (w.edit f, .ok (some b)) := by
    obtain ⟨d, b'⟩ := w
    cases hb
    cases d <;> rfl
  refine ⟨h1, by simp only [JWritable.write, h1], fun hl t => ?_⟩
  have := readBlob_ok hl []
  rw [List.append_nil] at this
  simp only [JWritable.readFields, this, JWritable.getDocument]
  cases jDecode b <;> rfl

/-- what C94 would say: the file of a writable has the changes of the document that `getDocument` returned -/
def C94_full : Prop := ∀ (w w' : JWritable) (d : JDoc) (c c' : Content) (f : JDoc → JDoc) (b : Bytes), Spec.Carries w c → JavaReadable c → w.getDocument = (w', .ok (some d)) →
  JSound (f d) → JHas (f d) c' → Good c' → (w'.edit f).getBlob.2 = .ok (some b) → Spec.WrittenBy c' b

/-- setting a property of a document without layers -/
theorem putProp_has {d : JDoc} {c : Content} (h : JHas d c) (hn : d.layers = []) {v : JVal} {o : Obj} (hv : Spec.JProp v o) (k : Str) :
    JHas (d.putProp k v) ⟨fun x => if k = x then some o else c.props x, c.texts, c.layers⟩ ∧ Good ⟨fun x => if k = x then some o else c.props x, c.texts, c.layers⟩ := by
  have hl : ∀ x, c.layers x = none := by
    intro x
    have := h.layers x
    rw [hn] at this
    generalize hc : c.layers x = y at this
    cases this
    rfl
  refine ⟨⟨?_, h.texts, ?_⟩, ⟨?_, ?_⟩⟩
  · intro x
    show Spec.Both Spec.JProp (dget (tput d.props k v) x) (if k = x then some o else c.props x)
    rw [dget_tput]
    split
    · exact .some hv
    · exact h.props x
  · intro x
    show Spec.Both _ (dget d.layers x) (c.layers x)
    rw [hn, hl]
    exact .none
  · intro x l f t e
    have e : c.layers x = some l := e
    rw [hl] at e
    cases e
  · intro x l row f t e
    have e : c.layers x = some l := e
    rw [hl] at e
    cases e

/-- C94 fails: a property that is set in the document of a writable that was read -/
theorem C94_full_false : ¬ C94_full := by
  intro h
  obtain ⟨c, hw, hr⟩ := Ex.bnone_written
  have hcar : Spec.Carries (.ofBlob Ex.bnone) c := ⟨.inr rfl, (by intro d e; cases e), by intro b e; cases e; exact ⟨hw, by decide⟩⟩
  obtain ⟨hw1, hg⟩ := written_wrote hw
  obtain ⟨d, g1, g3, g4⟩ := wrote_reads_java hw1 hg hr (by decide)
  have g1 := g1 []
  rw [List.append_nil] at g1
  obtain ⟨d', q1, q2⟩ := Ex.jLays_ok (bs := Ex.bnone) (n := 0) (by decide +kernel)
  rw [g1] at q1
  cases q1
  have hx : c.props "x".toList ≠ some (.int 1) ∨ c.props "x".toList ≠ some (.int 2) := by
    by_cases e : c.props "x".toList = some (.int 1)
    · exact .inr (by rw [e]; intro e; cases e)
    · exact .inl e
  have key : ∀ i : Int, c.props "x".toList = some (.int i) := by
    intro i
    obtain ⟨k1, k2⟩ := putProp_has g3 (List.eq_nil_of_length_eq_zero q2) (.plain (.int (i := i))) "x".toList
    have := h _ ⟨some d, some Ex.bnone⟩ d c _ (fun d => d.putProp "x".toList (.int i)) Ex.bnone hcar hr (by simp only [JWritable.ofBlob, JWritable.getDocument, g1])
      (inv_run [.prop "x".toList (.int i)] g4 ⟨trivial, trivial⟩).sound k1 k2
      (by rw [(C94_edit_lost (b := Ex.bnone) rfl _).1])
    have := congrFun (written_props hw this) "x".toList
    simpa using this
  rcases hx with hx | hx
  · exact hx (key 1)
  · exact hx (key 2)

/-! ### C95: the files of DocriaOutputFormat -/

theorem writeAll_run : ∀ {keys : List JWritable} {bs : List Bytes} {w : JDocWriter}, keys.map (fun k => k.getBlob.2) = bs.map (fun b => .ok (some b)) →
    (⟨some w⟩ : JRecWriter).writeAll keys = (w.run (bs.map .write)).map (fun w => ⟨some w⟩)
  | [], [], _, _ => rfl
  | [], b :: bs, _, h => by simp at h
  | k :: ks, [], _, h => by simp at h
  | k :: ks, b :: bs, w, h => by
    simp only [List.map_cons, List.cons.injEq] at h
    cases hk : k.getBlob with
    | mk k' x =>
      rw [hk] at h
      obtain ⟨h1, h2⟩ := h
      simp only at h1
      subst h1
      simp only [JRecWriter.writeAll, JRecWriter.write, hk, List.map_cons, JDocWriter.run]
      cases hw : w.write b with
      | error e => rfl
      | ok w' => exact writeAll_run h2

theorem jrun_append : ∀ (cs cs' : List JDocWriter.Call) (s : JDocWriter), s.run (cs ++ cs') = (match s.run cs with
    | .error e => .error e
    | .ok s => s.run cs')
  | [], cs', s => rfl
  | .write d :: cs, cs', s => by
    simp only [List.cons_append, JDocWriter.run]
    split
    · rfl
    · exact jrun_append cs cs' _
  | .flush :: cs, cs', s => by
    simp only [List.cons_append, JDocWriter.run]
    split
    · rfl
    · exact jrun_append cs cs' _

theorem blobs_write (bs : List Bytes) : Spec.blobs (bs.map .write) = bs := by
  induction bs with
  | nil => rfl
  | cons b bs ih => simp only [List.map_cons, Spec.blobs, ih]

/-- a reader on which `nextRaw()` gives these documents -/
theorem calls_records : ∀ (us : List (JWritable → JWritable)) {bs : List Bytes} {r : JDocReader} {bound : Nat} (k : JWritable),
    (∀ n, r.calls bound (List.replicate n .next) = Spec.answers bs (List.replicate n .next)) → (⟨some r, k⟩ : JRecReader).calls us = Spec.records bs us k ∧
      ∀ k, (⟨none, k⟩ : JRecReader).calls us = Spec.records [] us k
  | [], bs, r, bound, k, h => ⟨by cases bs <;> rfl, fun k => rfl⟩
  | u :: us, bs, r, bound, k, h => by
    have hnone : ∀ k, (⟨none, k⟩ : JRecReader).calls (u :: us) = Spec.records [] (u :: us) k := by
      intro k
      have := (calls_records us k h).2 (u k)
      simp only [JRecReader.calls, JRecReader.next, Spec.records, this]
    refine ⟨?_, hnone⟩
    have h1 := h 1
    simp only [List.replicate, JDocReader.calls, Spec.answers, JDocReader.call, Spec.answer, List.cons.injEq, and_true] at h1
    cases hn : r.nextRaw with
    | mk r' x =>
      rw [hn] at h1
      simp only at h1
      cases x with
      | error e => cases h1
      | ok x =>
        have hx : x = bs.head? := by
          have := Except.ok.inj h1
          cases this; rfl
        subst hx
        cases bs with
        | nil =>
          have := (calls_records us k h).2 (u k)
          simp only [JRecReader.calls, JRecReader.next, hn, List.head?_nil, Spec.records, this]
        | cons b bs =>
          have h' : ∀ n, r'.calls bound (List.replicate n .next) = Spec.answers bs (List.replicate n .next) := by
            intro n
            have := h (n + 1)
            simp only [List.replicate, JDocReader.calls, Spec.answers, JDocReader.call, Spec.answer, List.cons.injEq, hn, List.tail_cons] at this
            exact this.2
          have := (calls_records us ⟨none, some b⟩ h').1
          simp only [JRecReader.calls, JRecReader.next, hn, List.head?_cons, Spec.records, JWritable.setBlob, this]

/-- C95. What a job wrote with DocriaOutputFormat, if it wrote anything, is read with DocriaInputFormat, in the same order, whatever
is done to the key in between; then there is nothing more, however often it is asked. -/
theorem C95_round_trip_partial {early : Nat} {num : Int} {deflate : Bytes → Bytes} {unzip : Bytes → Except PyErr Bytes} (hinv : ∀ x, unzip (deflate x) = .ok x)
    {keys : List JWritable} {bs : List Bytes} (hk : keys.map (fun k => k.getBlob.2) = bs.map (fun b => .ok (some b))) (hne : keys ≠ [])
    (hd : ∀ b ∈ bs, b.length < 2 ^ 31 ∧ Spec.ascii "DM_1" <+: b) (hnum : num < 2 ^ 31) {s s1 s2 : JRecWriter} {log : List BWriter.Op}
    (h0 : JRecWriter.new early num deflate = .ok s) (h1 : s.writeAll keys = .ok s1) (h2 : s1.close = (s2, .ok (some log))) (hsize : (Spec.payload log).length < 2 ^ 31) :
    s2.close = (s2, .ok none) ∧ ∃ r, JRecReader.new unzip (Spec.payload log) = .ok r ∧ ∀ us, r.calls us = Spec.records bs us .new := by
  unfold JRecWriter.new at h0
  split at h0
  · cases h0
  · rename_i w hw
    cases h0
    rw [writeAll_run hk] at h1
    cases hr : w.run (bs.map .write) with
    | error e => rw [hr] at h1; cases h1
    | ok w1 =>
      rw [hr] at h1
      cases h1
      unfold JRecWriter.close at h2
      simp only at h2
      split at h2
      · cases h2
      · rename_i w2 hf
        cases h2
        refine ⟨rfl, ?_⟩
        have hrun : w.run (bs.map .write ++ [.flush]) = .ok w2 := by
          rw [jrun_append, hr]
          simp only [JDocWriter.run, hf]
        have hbs : bs ≠ [] := by
          rintro rfl
          cases keys with
          | nil => exact hne rfl
          | cons k ks => simp at hk
        obtain ⟨r, g1, g2⟩ := C81_java_files hw hrun (by rw [blobs_write]; exact hbs) hnum (by rw [blobs_write]; exact hd) hsize
          (unzip := unzip) (dec := unzip) (by rfl) hinv
        refine ⟨⟨some r, .new⟩, by simp only [JRecReader.new, g1], fun us => (calls_records us _ (bound := bs.length + 1) (fun n => ?_)).1⟩
        have := g2 (List.replicate n .next) (bs.length + 1) (by rw [blobs_write]; omega)
        rw [blobs_write] at this
        exact this

/-- C95. Writing and closing succeed, if the size of blocks is positive and the documents and the compressed blocks are shorter than 4 GiB. -/
theorem C95_writes {early : Nat} {num : Int} {deflate : Bytes → Bytes} (hn : 1 ≤ num) (hnum : num < 2 ^ 31)
    {keys : List JWritable} {bs : List Bytes} (hk : keys.map (fun k => k.getBlob.2) = bs.map (fun b => .ok (some b)))
    (hd : ∀ d ∈ bs, d.length < 2 ^ 32) (hf : ∀ ds, ds <:+: bs → (deflate (Spec.blockData ds)).length < 2 ^ 32) :
    ∃ s s1 s2 log, JRecWriter.new early num deflate = .ok s ∧ s.writeAll keys = .ok s1 ∧ s1.close = (s2, .ok (some log)) := by
  have hp : ∃ w, JDocWriter.new false early num "zip".toList deflate = .ok w := by
    obtain ⟨b, hb⟩ := C30_packs (.int num) (by simp only [Spec.Fits]; omega)
    have ha : pack (.str "zip".toList) = .ok [0xa3, 0x7a, 0x69, 0x70] := by decide
    unfold JDocWriter.new
    rw [if_neg (by omega), ha, hb]
    exact ⟨_, rfl⟩
  obtain ⟨w, hw⟩ := hp
  obtain ⟨w2, hr⟩ := C80_writes hw (bs.map .write ++ [.flush]) (by
    have : Spec.blobs (bs.map .write ++ [.flush]) = bs := by
      clear hk hd hf
      induction bs with
      | nil => rfl
      | cons b bs ih => simp only [List.map_cons, List.cons_append, Spec.blobs, ih]
    rw [this]; exact hd) (by
    have : Spec.blobs (bs.map .write ++ [.flush]) = bs := by
      clear hk hd hf
      induction bs with
      | nil => rfl
      | cons b bs ih => simp only [List.map_cons, List.cons_append, Spec.blobs, ih]
    rw [this]; exact hf)
  rw [jrun_append] at hr
  split at hr
  · cases hr
  · rename_i w1 hw1
    simp only [JDocWriter.run] at hr
    split at hr
    · cases hr
    · rename_i w3 hw3
      refine ⟨⟨some w⟩, ⟨some w1⟩, ⟨none⟩, w3.log, ?_, ?_, ?_⟩
      · simp only [JRecWriter.new, hw]
      · rw [writeAll_run hk, hw1]; rfl
      · simp only [JRecWriter.close, hw3]

/-- C95. If the keys hold documents with these contents, so does the key after each call, and `getDocument` gives it. -/
theorem C95_contents_partial {early : Nat} {num : Int} {deflate : Bytes → Bytes} {unzip : Bytes → Except PyErr Bytes} (hinv : ∀ x, unzip (deflate x) = .ok x)
    {keys : List JWritable} {bs : List Bytes} {cs : List Content} (hk : keys.map (fun k => k.getBlob.2) = bs.map (fun b => .ok (some b))) (hne : keys ≠ [])
    (hlen : cs.length = keys.length) (hc : ∀ (i : Nat) k c, keys[i]? = some k → cs[i]? = some c → Spec.Carries k c ∧ Good c ∧ JavaReadable c)
    (hl : ∀ b ∈ bs, b.length < 2 ^ 31) (hnum : num < 2 ^ 31) {s s1 s2 : JRecWriter} {log : List BWriter.Op}
    (h0 : JRecWriter.new early num deflate = .ok s) (h1 : s.writeAll keys = .ok s1) (h2 : s1.close = (s2, .ok (some log))) (hsize : (Spec.payload log).length < 2 ^ 31) :
    ∃ r, JRecReader.new unzip (Spec.payload log) = .ok r ∧ ∀ us (i : Nat), i < us.length →
      match cs[i]? with
      | some c => ∃ k d, (r.calls us)[i]? = some (.ok true, k) ∧ Spec.Carries k c ∧ k.getDocument.2 = .ok (some d) ∧ JSound d ∧ JHas d c
      | none => ∃ k, (r.calls us)[i]? = some (.ok false, k) := by
  have hbl : bs.length = keys.length := by have := congrArg List.length hk; simpa using this.symm
  have hw : ∀ (i : Nat) b c, bs[i]? = some b → cs[i]? = some c → Spec.WrittenBy c b ∧ JavaReadable c := by
    intro i b c hb hcc
    obtain ⟨k, hkk⟩ : ∃ k, keys[i]? = some k := by
      have : i < keys.length := by rw [← hbl]; exact (List.getElem?_eq_some_iff.mp hb).1
      exact ⟨_, List.getElem?_eq_getElem this⟩
    obtain ⟨g1, g2, g3⟩ := hc i k c hkk hcc
    have := congrArg (fun l => l[i]?) hk
    simp only [List.getElem?_map, hkk, hb, Option.map_some, Option.some.injEq] at this
    rcases C94_get_blob g1 g2 with ⟨w', b', q1, q2, -⟩ | ⟨w', d, e, -, -, -, q, -⟩
    · rw [q1] at this; cases this; exact ⟨q2, g3⟩
    · rw [q] at this; cases this
  have hd : ∀ b ∈ bs, b.length < 2 ^ 31 ∧ Spec.ascii "DM_1" <+: b := by
    intro b hb
    refine ⟨hl b hb, ?_⟩
    obtain ⟨i, hi⟩ := List.mem_iff_getElem?.mp hb
    have : i < cs.length := by rw [hlen, ← hbl]; exact (List.getElem?_eq_some_iff.mp hi).1
    obtain ⟨r, hr⟩ := written_magic (hw i b _ hi (List.getElem?_eq_getElem this)).1
    exact ⟨r, hr.symm⟩
  obtain ⟨-, r, hr, hus⟩ := C95_round_trip_partial hinv hk hne hd hnum h0 h1 h2 hsize
  refine ⟨r, hr, fun us i hi => ?_⟩
  rw [hus]
  have get : ∀ (bs : List Bytes) (us : List (JWritable → JWritable)) (k : JWritable) (i : Nat), i < us.length →
      match bs[i]? with
      | some b => (Spec.records bs us k)[i]? = some (.ok true, ⟨none, some b⟩)
      | none => ∃ k', (Spec.records bs us k)[i]? = some (.ok false, k') := by
    intro bs us
    induction us generalizing bs with
    | nil => intro k i hi; simp at hi
    | cons u us ih =>
      intro k i hi
      cases bs with
      | nil =>
        cases i with
        | zero => exact ⟨u k, rfl⟩
        | succ i => exact ih [] (u k) i (by simpa using hi)
      | cons b bs =>
        cases i with
        | zero => rfl
        | succ i =>
          have := ih bs ⟨none, some b⟩ i (by simpa using hi)
          simpa only [List.getElem?_cons_succ, Spec.records] using this
  have hg := get bs us .new i hi
  cases hcs : cs[i]? with
  | none =>
    have : bs[i]? = none := by
      rw [List.getElem?_eq_none_iff] at hcs ⊢
      omega
    rw [this] at hg
    exact hg
  | some c =>
    have hib : i < bs.length := by rw [hbl, ← hlen]; exact (List.getElem?_eq_some_iff.mp hcs).1
    obtain ⟨b, hb⟩ : ∃ b, bs[i]? = some b := ⟨_, List.getElem?_eq_getElem hib⟩
    rw [hb] at hg
    obtain ⟨q1, q2⟩ := hw i b c hb hcs
    have hcar : Spec.Carries ⟨none, some b⟩ c := ⟨.inr rfl, (by intro d e; cases e), by intro b' e; cases e; exact ⟨q1, hl _ (List.mem_of_getElem? hb)⟩⟩
    obtain ⟨w', d, p1, p2, p3, -⟩ := C94_get_document hcar q2
    exact ⟨_, d, hg, hcar, by rw [p1], p2, p3⟩

theorem loc_jBin : Loc jBin := by
  have h32 : Loc jLen32 := (Loc.takeNat 4).bind fun n => Loc.ite (Loc.pure _) (Loc.fail _)
  refine ((Loc.take 1).bind fun b => ?_).bind fun n => Loc.take n
  unfold jRawLen
  exact .ite (.pure _) (.ite (.takeNat 1) (.ite (.takeNat 2) (.ite h32 (.fail _))))

theorem loc_jInt : Loc jInt := by
  refine Loc.bind ((Loc.take 1).bind fun b => ?_) fun i => Loc.lift _
  unfold jIntOf
  exact .ite (.pure _) (.ite ((Loc.takeNat 1).bind fun _ => .pure _) (.ite ((Loc.takeNat 2).bind fun _ => .pure _) (.ite ((Loc.takeNat 4).bind fun _ => .pure _)
    (.ite ((Loc.takeNat 8).bind fun _ => .pure _) (.ite (.takeInt 1) (.ite (.takeInt 2) (.ite (.takeInt 4) (.ite (.takeInt 8) (.ite (.pure _) (.fail _))))))))))

theorem loc_jBool : Loc jBool := (Loc.take 1).bind fun _ => Loc.lift _

theorem loc_more {α : Type} {p : P α} (h : Loc p) {bs : Bytes} {a : α} {r : Bytes} (hp : p bs = .ok (a, r)) (t : Bytes) : p (bs ++ t) = .ok (a, r ++ t) := by
  obtain ⟨u, rfl, hu⟩ := h.ok _ _ _ hp
  rw [List.append_assoc]
  exact hu _

/-- a reader that opens a file opens every longer file, and has the rest of it to read -/
theorem open_more {unzip : Bytes → Except PyErr Bytes} {raw : Bytes} {r : JDocReader} (h : JDocReader.new unzip none raw = .ok r) (t : Bytes) :
    JDocReader.new unzip none (raw ++ t) = .ok { r with rest := r.rest ++ t } := by
  unfold JDocReader.new at h ⊢
  have hpick : Loc (JDocReader.pickCodec unzip none) := loc_jBin.bind fun _ => Loc.lift _
  cases h1 : P.take 4 raw with
  | error e => rw [h1] at h; cases h
  | ok x =>
    obtain ⟨m, r1⟩ := x
    rw [h1] at h
    rw [loc_more (Loc.take 4) h1]
    simp only at h ⊢
    split at h
    · cases h
    · rename_i hm
      rw [if_neg hm]
      cases h2 : JDocReader.pickCodec unzip none r1 with
      | error e => rw [h2] at h; cases h
      | ok x =>
        obtain ⟨cd, r2⟩ := x
        rw [h2] at h
        rw [loc_more hpick h2]
        simp only at h ⊢
        cases h3 : jInt r2 with
        | error e => rw [h3] at h; cases h
        | ok x =>
          obtain ⟨n, r3⟩ := x
          rw [h3] at h
          rw [loc_more loc_jInt h3]
          simp only at h ⊢
          cases h4 : jBool r3 with
          | error e => rw [h4] at h; cases h
          | ok x =>
            obtain ⟨b, r4⟩ := x
            rw [h4] at h
            rw [loc_more loc_jBool h4]
            cases b
            · simp only at h ⊢
              cases h
              rfl
            · cases h

/-- C95. A task that writes nothing leaves a file that cannot be opened, unless the packer has handed over the whole header by itself. -/
theorem C95_nothing_lost {early : Nat} {num : Int} {deflate : Bytes → Bytes} {unzip : Bytes → Except PyErr Bytes} (hnum : num < 2 ^ 31) {s s2 : JRecWriter} {log : List BWriter.Op}
    (h0 : JRecWriter.new early num deflate = .ok s) (h2 : s.close = (s2, .ok (some log))) :
    ∃ hd : Bytes, 10 ≤ hd.length ∧ Spec.payload log = hd.take early ∧ (early < hd.length → ∀ r, JRecReader.new unzip (Spec.payload log) ≠ .ok r) ∧
      (hd.length ≤ early → ∃ r, JRecReader.new unzip (Spec.payload log) = .ok r ∧ ∀ us, r.calls us = Spec.records [] us .new) := by
  unfold JRecWriter.new at h0
  split at h0
  · cases h0
  · rename_i w hw
    cases h0
    unfold JDocWriter.new at hw
    split at hw
    · cases hw
    · rename_i hn
      cases hc : cat (pack (.str "zip".toList)) (pack (.int num)) with
      | error e => rw [hc] at hw; cases hw
      | ok h =>
        rw [hc] at hw
        obtain ⟨a, b, pa, pb, rfl⟩ := cat_ok hc
        simp only at hw
        cases hw
        simp only [JRecWriter.close, JDocWriter.flush, gt_iff_lt, Nat.lt_irrefl, if_false, Prod.mk.injEq, Except.ok.injEq, Option.some.injEq] at h2
        obtain ⟨-, rfl⟩ := h2
        have ha : a = [0xa3, 0x7a, 0x69, 0x70] := by
          have : pack (.str "zip".toList) = .ok [0xa3, 0x7a, 0x69, 0x70] := by decide
          rw [this] at pa; exact (Except.ok.inj pa).symm
        have hh : Header "zip".toList num (fileMagic ++ (a ++ b) ++ [0xc2]) := ⟨a, b, [0xc2], pa, pb, rfl, by simp only [List.append_assoc]⟩
        obtain ⟨r0, g1, g2, -⟩ := java_open (unzip := unzip) (dec := unzip) (comp := id) (blocks := []) hh (by decide) (by omega) hnum (by rfl) (by simp)
        have hrest : r0.rest = [] := g2.rest
        have hb0 : Spec.blocksBytes id [] = [] := rfl
        rw [hb0, List.append_nil] at g1
        have hp : Spec.payload [BWriter.Op.write ((fileMagic ++ (a ++ b) ++ [0xc2]).take early)] = (fileMagic ++ (a ++ b) ++ [0xc2]).take early := by simp [Spec.payload]
        refine ⟨fileMagic ++ (a ++ b) ++ [0xc2], ?_, hp, ?_, ?_⟩
        · rw [ha]
          have : b ≠ [] := by
            rintro rfl
            have := jInt_int pb (by omega) hnum []
            cases this
          have : 1 ≤ b.length := List.length_pos_iff.mpr this
          simp only [List.length_append, fileMagic, List.length_cons, List.length_nil]
          omega
        · intro hlt r hr
          rw [hp] at hr
          unfold JRecReader.new at hr
          split at hr
          · cases hr
          · rename_i r1 hr1
            have := open_more hr1 ((fileMagic ++ (a ++ b) ++ [0xc2]).drop early)
            rw [List.take_append_drop, g1] at this
            have := congrArg JDocReader.rest (Except.ok.inj this)
            rw [hrest] at this
            have := congrArg List.length this
            rw [List.length_nil, List.length_append, List.length_drop] at this
            omega
        · intro hle
          rw [hp, List.take_of_length_le hle]
          refine ⟨⟨some r0, .new⟩, by simp only [JRecReader.new, g1], fun us => (calls_records us (bound := 1) _ ?_).1⟩
          have hall : ∀ (n : Nat) {r : JDocReader}, JRd id r [] [] → r.calls 1 (List.replicate n .next) = Spec.answers [] (List.replicate n .next) := by
            intro n
            induction n with
            | zero => intro r _; rfl
            | succ n ih =>
              intro r h
              obtain ⟨c', b', q1, q2, q3, q4⟩ := nextRaw_ok h
              have : c' = [] ∧ b' = [] := by
                rcases q4 with ⟨d, e, -⟩ | ⟨-, -, e1, e2⟩ | ⟨-, d, e⟩
                · cases e
                · exact ⟨e1, e2⟩
                · cases e
              obtain ⟨rfl, rfl⟩ := this
              simp only [List.replicate, JDocReader.calls, JDocReader.call, q1, Spec.answers, Spec.answer, ih q2]
              rfl
          exact fun n => hall n g2

/-- what C95 would say: any job's output can be read -/
def C95_full : Prop := ∀ (early : Nat) (num : Int) (deflate : Bytes → Bytes) (unzip : Bytes → Except PyErr Bytes) (keys : List JWritable) (bs : List Bytes)
  (s s1 s2 : JRecWriter) (log : List BWriter.Op), (∀ x, unzip (deflate x) = .ok x) → keys.map (fun k => k.getBlob.2) = bs.map (fun b => .ok (some b)) →
  (∀ b ∈ bs, b.length < 2 ^ 31 ∧ Spec.ascii "DM_1" <+: b) → num < 2 ^ 31 → JRecWriter.new early num deflate = .ok s → s.writeAll keys = .ok s1 → s1.close = (s2, .ok (some log)) →
  (Spec.payload log).length < 2 ^ 31 → ∃ r, JRecReader.new unzip (Spec.payload log) = .ok r ∧ ∀ us, r.calls us = Spec.records bs us .new

/-- C95 fails: the file of a task that writes nothing cannot be opened -/
theorem C95_full_false : ¬ C95_full := by
  intro h
  obtain ⟨s, s1, s2, log, h0, h1, h2⟩ := C95_writes (early := 0) (num := 128) (deflate := id) (keys := []) (bs := []) (by omega) (by omega) rfl (by simp)
    (by intro ds hds; rw [List.eq_nil_of_infix_nil hds]; decide)
  cases h1
  obtain ⟨hd, g1, g2, g3, -⟩ := C95_nothing_lost (unzip := .ok) (by omega) h0 h2
  obtain ⟨r, hr, -⟩ := h 0 128 id .ok [] [] s s s2 log (fun _ => rfl) rfl (by simp) (by omega) h0 rfl h2 (by rw [g2]; simp)
  exact g3 (by omega) r hr

/-! ### examples -/

attribute [local irreducible] Ex.jbytes Ex.jdoc

theorem Ex.jw_carries : Spec.Carries (.ofDoc Ex.jdoc) Ex.jcontent :=
  ⟨.inl rfl, (by intro d e; cases e; exact ⟨Ex.jdoc_sound, Ex.jdoc_has⟩), by intro b e; cases e⟩

theorem Ex.jw_blob : (JWritable.ofDoc Ex.jdoc).getBlob.2 = .ok (some Ex.jbytes) := by
  have h := Ex.jbytes_ok
  simp only [JWritable.ofDoc, JWritable.getBlob]
  cases hd : Ex.jdoc.encode with
  | mk d r =>
    rw [hd] at h
    have h : r = .ok Ex.jbytes := by cases h; rfl
    rw [h]

/-- the length of a file -/
def Ex.recFile (keys : List JWritable) : Option Nat := match JRecWriter.new 4 2 id with
  | .error _ => none
  | .ok s => match s.writeAll keys with
    | .error _ => none
    | .ok s => match s.close with
      | (_, .ok (some log)) => some (Spec.payload log).length
      | _ => none

-- C94_transport, C94_sequence: two writables are written, then two are read
example : P.times JWritable.readBlob 2 ((be 4 Ex.jbytes.length ++ Ex.jbytes) ++ (be 4 9 ++ Ex.bnone) ++ [7]) = .ok ([Ex.jbytes, Ex.bnone], [7]) := by
  have hw : (JWritable.ofDoc Ex.jdoc).write.2 = .ok (be 4 Ex.jbytes.length ++ Ex.jbytes) := by
    have h := Ex.jw_blob
    unfold JWritable.write
    cases hb : (JWritable.ofDoc Ex.jdoc).getBlob with
    | mk w r => rw [hb] at h; have h : r = .ok (some Ex.jbytes) := h; rw [h]
  have := (C94_sequence (ws := [.ofDoc Ex.jdoc, .ofBlob Ex.bnone]) (bs := [be 4 Ex.jbytes.length ++ Ex.jbytes, be 4 9 ++ Ex.bnone]) (by simp only [List.map_cons, List.map_nil, hw]; rfl)
    (by decide +kernel) [7]).1
  simpa only [List.length_cons, List.length_nil, List.flatten_cons, List.flatten_nil, List.append_nil, List.map_cons, List.map_nil, List.drop_left' (be_length 4 _)] using this

-- C94_get_document, C94_get_blob, C94_calls: a document is sent, read, sent again, and its file read
example : ∀ ks : List JWritable.Call, ks = [.send .new, .document, .send (.ofBlob []), .blob, .msgpack] →
    Spec.Carries ((JWritable.ofDoc Ex.jdoc).calls ks).1 Ex.jcontent := by
  rintro ks rfl
  have hl : Ex.jbytes.length < 2 ^ 31 := by decide +kernel
  have h1 : ∀ t, ((JWritable.ofDoc Ex.jdoc).call (.send t)).1 = .ofBlob Ex.jbytes := by
    intro t
    have h := Ex.jw_blob
    simp only [JWritable.call, JWritable.write]
    cases hb : (JWritable.ofDoc Ex.jdoc).getBlob with
    | mk w r =>
      rw [hb] at h
      have h : r = .ok (some Ex.jbytes) := h
      have := readBlob_ok hl []
      rw [List.append_nil] at this
      rw [h]
      simp only [JWritable.readFields, this]
      rfl
  obtain ⟨d, hd, -⟩ := Ex.jLays_ok (bs := Ex.jbytes) (n := 1) (by decide +kernel)
  have h2 : ((JWritable.ofBlob Ex.jbytes).call .document).1 = ⟨some d, some Ex.jbytes⟩ := by simp only [JWritable.call, JWritable.ofBlob, JWritable.getDocument, hd]
  have h3 : ∀ t, ((⟨some d, some Ex.jbytes⟩ : JWritable).call (.send t)).1 = .ofBlob Ex.jbytes := by
    intro t
    have := readBlob_ok hl []
    rw [List.append_nil] at this
    simp only [JWritable.call, JWritable.write, JWritable.getBlob, JWritable.readFields, this]
    rfl
  refine (C94_calls Ex.jcontent_good Ex.jcontent_readable _ Ex.jw_carries ?_).1
  refine ⟨?_, ?_, ?_, ?_, ?_, trivial⟩
  · rw [Ex.jw_blob]; intro b e; cases e; exact hl
  · rw [h1]; intro b e; cases e; exact hl
  · rw [h1, h2]; intro b e; cases e; exact hl
  · rw [h1, h2, h3]; intro b e; cases e; exact hl
  · rw [h1, h2, h3]; intro b e; cases e; exact hl

/-- C94_set: a document is set in a writable that holds the file of another one -/
example : Spec.Carries ((JWritable.ofBlob Ex.bnone).setDocument Ex.jdoc) Ex.jcontent :=
  ((C94_set (.ofBlob Ex.bnone)).1 Ex.jdoc Ex.jdoc_sound Ex.jdoc_has).2.1

-- C94_edit_partial and C94_edit_lost: removing all properties before and after the file was made
example : Spec.Carries ((JWritable.ofDoc JDoc.new).edit (fun _ => Ex.jdoc)) Ex.jcontent ∧
    ((⟨some JDoc.new, some Ex.bnone⟩ : JWritable).edit (fun _ => Ex.jdoc)).getBlob.2 = .ok (some Ex.bnone) :=
  ⟨C94_edit_partial rfl rfl (fun _ => Ex.jdoc) Ex.jdoc_sound Ex.jdoc_has, by rw [(C94_edit_lost (b := Ex.bnone) rfl _).1]⟩

-- C95_writes, C95_round_trip_partial, C95_contents_partial: three documents in blocks of two
example : ∃ s s1 s2 log r c, JRecWriter.new 4 2 id = .ok s ∧ s.writeAll [.ofDoc Ex.jdoc, .ofBlob Ex.bnone, .ofBlob Ex.jbytes] = .ok s1 ∧ s1.close = (s2, .ok (some log)) ∧
    JRecReader.new .ok (Spec.payload log) = .ok r ∧ Spec.WrittenBy c Ex.bnone ∧
    (∃ k d, (r.calls [id, id, JWritable.setDocument (d := JDoc.new), id])[1]? = some (.ok true, k) ∧ k.getDocument.2 = .ok (some d) ∧ JHas d c) ∧
    (∃ k d, (r.calls [id, id, JWritable.setDocument (d := JDoc.new), id])[2]? = some (.ok true, k) ∧ k.getDocument.2 = .ok (some d) ∧ JHas d Ex.jcontent) ∧
    ∃ k, (r.calls [id, id, JWritable.setDocument (d := JDoc.new), id])[3]? = some (.ok false, k) := by
  have hblob : Spec.WrittenBy Ex.jcontent Ex.jbytes := .java Ex.jdoc_sound Ex.jdoc_has Ex.jcontent_good Ex.jbytes_ok
  obtain ⟨c, hw, hr⟩ := Ex.bnone_written
  have hk : [JWritable.ofDoc Ex.jdoc, .ofBlob Ex.bnone, .ofBlob Ex.jbytes].map (fun k => k.getBlob.2) = [Ex.jbytes, Ex.bnone, Ex.jbytes].map (fun b => .ok (some b)) := by
    simp only [List.map_cons, List.map_nil, Ex.jw_blob]
    rfl
  have hl : ∀ b ∈ [Ex.jbytes, Ex.bnone, Ex.jbytes], b.length < 2 ^ 31 := by decide +kernel
  obtain ⟨s, s1, s2, log, h0, h1, h2⟩ := C95_writes (early := 4) (num := 2) (deflate := id) (by omega) (by omega) hk (fun b hb => by have := hl b hb; omega) (by
    rintro ds ⟨a, b, e⟩
    have h : (Spec.blockData [Ex.jbytes, Ex.bnone, Ex.jbytes]).length < 2 ^ 32 := by decide +kernel
    rw [← e, blockData_append, blockData_append] at h
    simp only [List.length_append] at h
    simp only [id]
    omega)
  have hsize : (Spec.payload log).length < 2 ^ 31 := by
    have h : Ex.recFile [.ofDoc Ex.jdoc, .ofBlob Ex.bnone, .ofBlob Ex.jbytes] = some 251 := by decide +kernel
    simp only [Ex.recFile, h0, h1, h2, Option.some.injEq] at h
    omega
  have hb : Spec.Carries (.ofBlob Ex.bnone) c := ⟨.inr rfl, (by intro d e; cases e), by intro b e; cases e; exact ⟨hw, by decide⟩⟩
  have hj : Spec.Carries (.ofBlob Ex.jbytes) Ex.jcontent := ⟨.inr rfl, (by intro d e; cases e), by intro b e; cases e; exact ⟨hblob, hl _ (by simp)⟩⟩
  obtain ⟨r, g1, g2⟩ := C95_contents_partial (unzip := .ok) (fun _ => rfl) hk (by simp) (cs := [Ex.jcontent, c, Ex.jcontent]) rfl (by
    intro i k c' hk hc
    match i, hk, hc with
    | 0, hk, hc => rw [← Option.some.inj hk, ← Option.some.inj hc]; exact ⟨Ex.jw_carries, Ex.jcontent_good, Ex.jcontent_readable⟩
    | 1, hk, hc => rw [← Option.some.inj hk, ← Option.some.inj hc]; exact ⟨hb, (written_wrote hw).2, hr⟩
    | 2, hk, hc => rw [← Option.some.inj hk, ← Option.some.inj hc]; exact ⟨hj, Ex.jcontent_good, Ex.jcontent_readable⟩
    | i + 3, hk, hc => cases hk) hl (by omega) h0 h1 h2 hsize
  obtain ⟨k1, d1, a1, -, a2, -, a3⟩ := g2 [id, id, JWritable.setDocument (d := JDoc.new), id] 1 (by simp)
  obtain ⟨k2, d2, b1, -, b2, -, b3⟩ := g2 [id, id, JWritable.setDocument (d := JDoc.new), id] 2 (by simp)
  obtain ⟨k3, c1⟩ := g2 [id, id, JWritable.setDocument (d := JDoc.new), id] 3 (by simp)
  exact ⟨s, s1, s2, log, r, c, h0, h1, h2, g1, hw, ⟨k1, d1, a1, a2, a3⟩, ⟨k2, d2, b1, b2, b3⟩, k3, c1⟩

end Verif
