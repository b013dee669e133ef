import Verif.Props.JavaCodec
/-
C90: documents that are read, edited and written again by either library.
-/
set_option linter.unusedSimpArgs false
namespace Verif
open World
open Spec (Both Cell LayerC Content FieldType Good TypeGood CellGood IsRef PyHas PyCell PyField PyLayer JHas JSound JavaReadable)

namespace Spec

/-- bytes that come from `bs` by being read and written, any number of times, by either library; a Java array has less than
2^31 bytes -/
inductive Passed (bs : Bytes) : Bytes → Prop
  | refl : Passed bs bs
  | python {b b' w w' x t} : Passed bs b → decodeMsgpack b = .ok w → w.encodeMsgpack x t = (w', .ok b') → Passed bs b'
  | java {b b' d d'} : Passed bs b → b.length < 2 ^ 31 → jDecode b = .ok d → d.encode = (d', .ok b') → Passed bs b'

end Spec

/-! ### the Python document is valid -/

theorem encodable_of {w : World} {c : Content} (hi : Inv w) (hwf : WF w) (hf : PyFresh w) (h : PyHas w c) (hg : Good c) (hne : Spec.NoExt c) : Spec.Encodable w := by
  have hdl : ∀ {k L}, (k, L) ∈ w.dl → dget w.dl k = some L := fun hm => dget_of_mem hwf.dlKeys hm
  have hly : ∀ {k L}, (k, L) ∈ w.dl → ∃ l, c.layers k = some l ∧ PyLayer w L l := by
    intro k L hm
    have := h.layers k
    rw [hdl hm] at this
    exact this.of_some
  have hft : ∀ {k L f t}, (k, L) ∈ w.dl → (f, t) ∈ (w.layers L).fields → ∃ l ft, c.layers k = some l ∧ PyLayer w L l ∧ l.fields f = some ft ∧ Spec.PyType t ft := by
    intro k L f t hm hm'
    obtain ⟨l, h1, h2⟩ := hly hm
    have := h2.fields f
    rw [dget_of_mem (hwf.fieldKeys L) hm'] at this
    obtain ⟨ft, h3, h4⟩ := this.of_some
    exact ⟨l, ft, h1, h2, h3, h4⟩
  have opt : ∀ {k L f t} {ft : FieldType} {a s : Str}, (k, L) ∈ w.dl → (f, t) ∈ (w.layers L).fields → Spec.PyType t ft → ft.2 a = some (.str s) →
      dget t.options a = some (.str s) := by
    intro k L f t ft a s hm hm' ht ha
    have hpl := (hf.types k L f t (hdl hm) hm').2.2
    have := ht.2 a
    rw [ha] at this
    generalize hv : dget t.options a = v at this
    cases this with
    | some hp =>
      rename_i v
      have hpl := hpl _ (dget_mem hv)
      simp only at hpl
      unfold Spec.PyPlain at hp
      cases v <;> simp only [Value.toObj, Except.ok.injEq, reduceCtorEq] at hp
      · rw [Obj.str.inj hp]
      · subst hp; exact hpl.elim
  have hnm : ∀ {t : DataType} {ft : FieldType} {n : TName} {s : Str}, Spec.PyType t ft → ft.1 = s → n.wire = .ok s → t.tname = n := by
    intro t ft n s ht h1 h2
    rw [← h1] at h2
    exact wire_inj ht.1 h2
  refine ⟨?_, ?_, ?_, hf.props⟩
  · intro k L f t hm hm'
    obtain ⟨l, ft, h1, h2, h3, h4⟩ := hft hm hm'
    obtain ⟨p1, p2, p3⟩ := hf.types k L f t (hdl hm) hm'
    have hgt := hg.types k l f ft h1 h3
    obtain ⟨n, -, n1, n3⟩ := ofWire_good hgt
    have hn : t.tname = n := wire_inj h4.1 n1
    refine ⟨⟨fun e => hne k l f ft h1 h3 (by have := h4.1; rw [e] at this; exact (Except.ok.inj this).symm), by rw [hn]; exact n3⟩, fun k v hv => p3 _ hv, p2, ?_, ?_, ?_⟩
    · rw [← dget_none_iff, ← dget_none_iff]
      exact ⟨((h4.2 _).none_iff).mpr hgt.args.1, ((h4.2 _).none_iff).mpr hgt.args.2⟩
    · intro ht
      have hr : IsRef ft.1 := by
        have := h4.1
        rcases ht with ht | ht | ht <;> rw [ht] at this <;> have := (Except.ok.inj this).symm
        · exact .inl this
        · exact .inr (.inl this)
        · exact .inr (.inr this)
      obtain ⟨s, l', q1, q2⟩ := hgt.layer hr
      refine ⟨s, opt hm hm' h4 q1, ?_⟩
      have := h.layers s
      rw [q2] at this
      obtain ⟨L', q3, -⟩ := this.to_some
      exact (dget_isSome_iff _ _).mp (by rw [q3]; rfl)
    · intro ht
      have := h4.1
      rw [ht] at this
      obtain ⟨s, u, q1, q2⟩ := hgt.text (Except.ok.inj this).symm
      refine ⟨s, opt hm hm' h4 q1, ?_⟩
      have := h.texts s
      rw [q2] at this
      obtain ⟨L', q3, -⟩ := this.to_some
      exact (dget_isSome_iff _ _).mp (by rw [q3]; rfl)
  · intro k L n f t v hm hn hm' hv
    obtain ⟨l, ft, h1, h2, h3, h4⟩ := hft hm hm'
    obtain ⟨p1, p2, p3⟩ := hf.types k L f t (hdl hm) hm'
    obtain ⟨v1, v2⟩ := hf.vals k L n f (hdl hm) hn
    obtain ⟨i, hi, hni⟩ := List.getElem_of_mem hn
    have hi' : i < l.rows.length := by rw [← h2.size]; exact hi
    have hc := h2.cells i n l.rows[i] f (by rw [List.getElem?_eq_getElem hi, hni]) (List.getElem?_eq_getElem hi')
    rw [dget_of_mem (hwf.fieldKeys L) hm', hv] at hc
    have hcg : ∀ y, l.rows[i] f = some y → CellGood c ft y := by
      intro y hy
      obtain ⟨ft', e1, e2⟩ := hg.cells k l _ f y h1 (List.getElem_mem hi') hy
      rw [h3] at e1; cases e1
      exact e2
    generalize l.rows[i] f = y at hc hcg
    cases hc with
    | declared hc =>
      have hint : ∀ j, Spec.IntOk t j := fun j hj => by rw [p1] at hj; cases hj
      cases hc with
      | null => exact absurd hv v1
      | empty => exact absurd hv v2
      | int =>
        cases hcg _ rfl with
        | int e => exact .int (e.imp (fun e => hnm h4 e rfl) (fun e => hnm h4 e rfl)) (hint _)
      | intBool e => exact .intBool e
      | float => cases hcg _ rfl with | float e => exact .float (hnm h4 e rfl)
      | bool e => exact .bool e
      | str => cases hcg _ rfl with | str e => exact .str (hnm h4 e rfl) (fun hj => by rw [p1] at hj; cases hj)
      | bytes => cases hcg _ rfl with | bin e => exact .bytes (hnm h4 e rfl) (fun hj => by rw [p1] at hj; cases hj)
      | node a b => cases hcg _ rfl with | node e _ _ => exact .node (hnm h4 e rfl) a b
      | nodes a b d e =>
        cases hcg _ rfl with
        | nodes e1 e2 e3 e4 =>
          refine .nodes (hnm h4 e1 rfl) a ?_
          intro m hmem
          obtain ⟨j, hj⟩ := List.getElem?_of_mem hmem
          obtain ⟨q, hq⟩ := getElem?_of_len d hj
          exact ⟨q, e j m q hj hq⟩
      | nodespan a b d => cases hcg _ rfl with | nodespan e1 e2 e3 e4 => exact .nodespan (hnm h4 e1 rfl) a b d e3
      | @span T cx a b e1 e2 =>
        cases hcg _ rfl with
        | span q1 q2 q3 q4 q5 =>
          have := opt hm hm' h4 q2
          rw [e1] at this
          cases this
          have ht := h.texts cx
          rw [e2, q3] at ht
          cases ht with
          | some ht => exact .span (hnm h4 q1 rfl) e1 e2 (by omega) (by omega) (by rw [ht]; omega)
  · intro k L n f hm hn hff
    obtain ⟨l, h1, h2⟩ := hly hm
    obtain ⟨i, hi, hni⟩ := List.getElem_of_mem hn
    have hi' : i < l.rows.length := by rw [← h2.size]; exact hi
    have hc := h2.cells i n l.rows[i] f (by rw [List.getElem?_eq_getElem hi, hni]) (List.getElem?_eq_getElem hi')
    apply (dget_isSome_iff _ _).mp
    have := (dget_isSome_iff _ _).mpr hff
    generalize dget (w.layers L).fields f = a at hc
    generalize dget (w.nodes n).fields f = b at hc this
    generalize l.rows[i] f = y at hc
    cases hc with
    | undeclared => cases this
    | declared => rfl

/-! ### what is written has the content -/

/-- bytes of a document with this content, as either library writes them -/
def Wrote (c : Content) (bs : Bytes) : Prop := ∃ x, WHas x c ∧ encodeBytes x = .ok bs ∧ SegsOk x

theorem wrote_python {w w1 : World} (hi : Inv w) (hwf : WF w) (he : Spec.Encodable w) {c : Content} (hc : PyHas w c) {x t : Bool} {bs : Bytes}
    (hb : w.encodeMsgpack x t = (w1, .ok bs)) : Wrote c bs ∧ Good c := by
  obtain ⟨w1', offs, hcm, so, hrd⟩ := ready_of hi hwf he x t
  have hcc := sameObs_has so hi hrd.inv (content_has hrd)
  have := pyHas_unique hi hc hcc
  subst this
  unfold encodeMsgpack toWire at hb
  rw [hcm] at hb
  simp only at hb
  cases hw : w1'.wireOf offs with
  | error e => rw [hw] at hb; simp at hb
  | ok wx =>
    rw [hw] at hb
    simp only [Prod.mk.injEq] at hb
    exact ⟨⟨wx, py_write hrd hw, hb.2, py_segs hrd hw⟩, content_good hrd⟩

theorem wrote_java {d d' : JDoc} {c : Content} (hs : JSound d) (h : JHas d c) (hg : Good c) {bs : Bytes} (he : d.encode = (d', .ok bs)) :
    Wrote c bs := by
  obtain ⟨d1, x, h1, h2, h3, h4, -, h5⟩ := j_write hs h hg
  rw [he] at h1
  simp only [Prod.mk.injEq] at h1
  exact ⟨x, h2, h1.2.symm, h5⟩

/-- valid Python documents have no extended fields -/
theorem encodable_noExt {w : World} {c : Content} (he : Spec.Encodable w) (h : PyHas w c) : Spec.NoExt c := by
  intro k l f ft hl hf e
  have := h.layers k
  rw [hl] at this
  obtain ⟨L, h1, h2⟩ := this.to_some
  have := h2.fields f
  rw [hf] at this
  obtain ⟨t, h3, h4⟩ := this.to_some
  exact (he.types k L f t (dget_mem h1) (dget_mem h3)).kind.1 (wire_inj h4.1 (by rw [e]; rfl))

theorem wrote_reads_python {c : Content} {bs : Bytes} (h : Wrote c bs) (hg : Good c) (hne : Spec.NoExt c) : ∃ w, (∀ rest, decodeMsgpack (bs ++ rest) = .ok w) ∧ PyHas w c ∧ Reachable w ∧ Spec.Encodable w := by
  obtain ⟨x, h1, h2, -⟩ := h
  obtain ⟨w, h5, h6, h7⟩ := py_read h1 hg (noExt_readable hg hne)
  obtain ⟨hi, hwf⟩ := fromWire_started h5
  exact ⟨w, fun rest => by rw [decode_encode h1.ok h2, h5], h6, ⟨w, [], .inr ⟨x, h5⟩, .nil⟩, encodable_of hi hwf h7 h6 hg hne⟩

theorem wrote_reads_java {c : Content} {bs : Bytes} (h : Wrote c bs) (hg : Good c) (hr : JavaReadable c) (hl : bs.length < 2 ^ 31) :
    ∃ d, (∀ rest, jDecode (bs ++ rest) = .ok d) ∧ JHas d c ∧ JDInv ⟨d, []⟩ := by
  obtain ⟨x, h1, h2, h3⟩ := h
  obtain ⟨d, g1, -, g2, g3⟩ := j_read h1 hg hr h2 hl
  obtain ⟨r1, r2, r3, r4, r5, r6⟩ := g3 h3
  exact ⟨d, g1, g2, ⟨r1, r2, r3, r4, r5, r6, by simp⟩⟩

/-! ### C90 -/

/-- C90. The Python decoder makes of what the Java encoder writes, if there are no extended fields, a document that is reachable and valid: all that is said
of such documents holds for it. -/
theorem C90_python_reads {d d' : JDoc} {c : Content} (hs : JSound d) (h : JHas d c) (hg : Good c) (hne : Spec.NoExt c) {bs : Bytes} (he : d.encode = (d', .ok bs)) :
    ∃ w, (∀ rest, decodeMsgpack (bs ++ rest) = .ok w) ∧ PyHas w c ∧ Reachable w ∧ Spec.Encodable w := by
  obtain ⟨d1, x, h1, h2, h3, h4, -⟩ := j_write hs h hg
  rw [he] at h1
  simp only [Prod.mk.injEq] at h1
  obtain ⟨w, h5, h6, h7⟩ := py_read h2 hg (noExt_readable hg hne)
  obtain ⟨hi, hwf⟩ := fromWire_started h5
  exact ⟨w, fun rest => by rw [decode_encode h2.ok h1.2.symm, h5], h6, ⟨w, [], .inr ⟨x, h5⟩, .nil⟩, encodable_of hi hwf h7 h6 hg hne⟩

/-- C90. What the Java decoder makes of what the Python encoder writes is sound, and stays so under any calls (see C86). -/
theorem C90_java_edits {w w1 : World} (h : Reachable w) (he : Spec.Encodable w) {c : Content} (hc : PyHas w c) (hr : JavaReadable c) {x t : Bool} {bs : Bytes}
    (hb : w.encodeMsgpack x t = (w1, .ok bs)) (hl : bs.length < 2 ^ 31) :
    ∃ d, jDecode bs = .ok d ∧ JHas d c ∧ JSound d ∧ ∀ os, Spec.JFresh ⟨d, []⟩ os → JSound ((⟨d, []⟩ : JDState).run os).doc := by
  obtain ⟨hw, hg⟩ := wrote_python h.inv h.wf he hc hb
  obtain ⟨d, g1, g2, g3⟩ := wrote_reads_java hw hg hr hl
  exact ⟨d, by have := g1 []; rwa [List.append_nil] at this, g2, g3.sound, fun os hf => (inv_run os g3 hf).sound⟩

/-- C90. So is what the Java decoder makes of what the Java encoder writes. -/
theorem C90_java_edits_java {d d' : JDoc} {c : Content} (hs : JSound d) (h : JHas d c) (hg : Good c) (hr : JavaReadable c) {bs : Bytes}
    (he : d.encode = (d', .ok bs)) (hl : bs.length < 2 ^ 31) :
    ∃ d, jDecode bs = .ok d ∧ JHas d c ∧ JSound d ∧ ∀ os, Spec.JFresh ⟨d, []⟩ os → JSound ((⟨d, []⟩ : JDState).run os).doc := by
  obtain ⟨d, g1, g2, g3⟩ := wrote_reads_java (wrote_java hs h hg he) hg hr hl
  exact ⟨d, by have := g1 []; rwa [List.append_nil] at this, g2, g3.sound, fun os hf => (inv_run os g3 hf).sound⟩

/-- C90. A document that both libraries can read keeps its content however often it is read and written by either library:
both can read the result, and the Python document is valid, the Java document sound. -/
theorem C90_passed {w w1 : World} (h : Reachable w) (he : Spec.Encodable w) {c : Content} (hc : PyHas w c) (hr : JavaReadable c) {x t : Bool} {bs : Bytes}
    (hb : w.encodeMsgpack x t = (w1, .ok bs)) {b : Bytes} (hp : Spec.Passed bs b) :
    (∃ w', decodeMsgpack b = .ok w' ∧ PyHas w' c ∧ Reachable w' ∧ Spec.Encodable w') ∧ (b.length < 2 ^ 31 → ∃ d, jDecode b = .ok d ∧ JHas d c ∧ JSound d) := by
  obtain ⟨hw, hg⟩ := wrote_python h.inv h.wf he hc hb
  have hne := encodable_noExt he hc
  have key : Wrote c b := by
    induction hp with
    | refl => exact hw
    | python _ h1 h2 ih =>
      obtain ⟨w2, g1, g2, g3, g4⟩ := wrote_reads_python ih hg hne
      have g1 := g1 []
      rw [List.append_nil, h1] at g1
      cases g1
      exact (wrote_python g3.inv g3.wf g4 g2 h2).1
    | java _ hl h1 h2 ih =>
      obtain ⟨d, g1, g2, g3⟩ := wrote_reads_java ih hg hr hl
      have g1 := g1 []
      rw [List.append_nil, h1] at g1
      cases g1
      exact wrote_java g3.sound g2 hg h2
  constructor
  · obtain ⟨w2, g1, g2, g3, g4⟩ := wrote_reads_python key hg hne
    have g1 := g1 []
    rw [List.append_nil] at g1
    exact ⟨w2, g1, g2, g3, g4⟩
  · intro hl
    obtain ⟨d, g1, g2, g3⟩ := wrote_reads_java key hg hr hl
    have g1 := g1 []
    rw [List.append_nil] at g1
    exact ⟨d, g1, g2, g3.sound⟩

namespace Ex

/-- read and written by the Java library; nothing if that fails -/
def hopJava (b : Bytes) : Bytes := match jDecode b with
  | .ok d => (match d.encode.2 with
    | .ok b => b
    | .error _ => [])
  | .error _ => []

/-- read and written by the Python library -/
def hopPython (b : Bytes) : Bytes := match decodeMsgpack b with
  | .ok w => (match (w.encodeMsgpack false true).2 with
    | .ok b => b
    | .error _ => [])
  | .error _ => []

theorem hopJava_ok {bs b : Bytes} (h : Spec.Passed bs b) (hl : b.length < 2 ^ 31) (hne : hopJava b ≠ []) : Spec.Passed bs (hopJava b) := by
  unfold hopJava at hne ⊢
  split at hne
  · rename_i d hd
    split at hne
    · rename_i b' hb
      exact .java (d' := d.encode.1) h hl hd (by rw [← hb])
    · exact absurd rfl hne
  · exact absurd rfl hne

theorem hopPython_ok {bs b : Bytes} (h : Spec.Passed bs b) (hne : hopPython b ≠ []) : Spec.Passed bs (hopPython b) := by
  unfold hopPython at hne ⊢
  split at hne
  · rename_i d hd
    split at hne
    · rename_i b' hb
      exact .python (w' := (d.encodeMsgpack false true).1) h hd (by rw [← hb])
    · exact absurd rfl hne
  · exact absurd rfl hne

/-- a document with a span of an empty text -/
def wempty : World := World.empty.run [.addText "main".toList [], .addLayer "tok".toList [("s".toList, DataTypes.textspan "main".toList)],
  .addNew 0 [("s".toList, .span 0 0 0)]]
theorem wempty_reachable : Reachable wempty := reachable_run _ (by decide)
theorem wempty_encodable : Spec.Encodable wempty := Check.doc_ok (by decide)

theorem wempty_readable : Spec.PyReadable wempty := pyReadable_ok (by decide +kernel)

/-- its bytes -/
def bempty : Bytes := match (wempty.encodeMsgpack false true).2 with
  | .ok b => b
  | .error _ => []

theorem bempty_ok : (wempty.encodeMsgpack false true).2 = .ok bempty := by decide +kernel

end Ex

-- C90_java_edits, C90_java_edits_java, C90_python_reads, C90_passed: from Python to Java, to Java again, and to Python
example : ∃ c d, PyHas Ex.wjava c ∧ Spec.Passed Ex.bjava (Ex.hopPython (Ex.hopJava (Ex.hopJava Ex.bjava))) ∧
    jDecode (Ex.hopPython (Ex.hopJava (Ex.hopJava Ex.bjava))) = .ok d ∧ JHas d c ∧ JSound d := by
  obtain ⟨c, hc, -, -⟩ := C88_content Ex.wjava_reachable Ex.wjava_encodable
  have hr := C88_readable Ex.wjava_reachable Ex.wjava_readable hc
  have hp : Spec.Passed Ex.bjava (Ex.hopPython (Ex.hopJava (Ex.hopJava Ex.bjava))) :=
    Ex.hopPython_ok (Ex.hopJava_ok (Ex.hopJava_ok .refl (by decide +kernel) (by decide +kernel)) (by decide +kernel) (by decide +kernel)) (by decide +kernel)
  obtain ⟨-, h⟩ := C90_passed Ex.wjava_reachable Ex.wjava_encodable hc hr (x := false) (t := true) (w1 := (Ex.wjava.encodeMsgpack false true).1) (by rw [← Ex.bjava_ok]) hp
  obtain ⟨d, h1, h2, h3⟩ := h (by decide +kernel)
  exact ⟨c, d, hc, hp, h1, h2, h3⟩

-- with a span of an empty text, which Java writes with one empty segment
example : ∃ c d, PyHas Ex.wempty c ∧ Spec.Passed Ex.bempty (Ex.hopJava (Ex.hopJava Ex.bempty)) ∧ Ex.hopJava Ex.bempty ≠ Ex.bempty ∧
    jDecode (Ex.hopJava (Ex.hopJava Ex.bempty)) = .ok d ∧ JHas d c ∧ JSound d := by
  obtain ⟨c, hc, -, -⟩ := C88_content Ex.wempty_reachable Ex.wempty_encodable
  have hr := C88_readable Ex.wempty_reachable Ex.wempty_readable hc
  have hp : Spec.Passed Ex.bempty (Ex.hopJava (Ex.hopJava Ex.bempty)) :=
    Ex.hopJava_ok (Ex.hopJava_ok .refl (by decide +kernel) (by decide +kernel)) (by decide +kernel) (by decide +kernel)
  obtain ⟨-, h⟩ := C90_passed Ex.wempty_reachable Ex.wempty_encodable hc hr (x := false) (t := true) (w1 := (Ex.wempty.encodeMsgpack false true).1) (by rw [← Ex.bempty_ok]) hp
  obtain ⟨d, h1, h2, h3⟩ := h (by decide +kernel)
  exact ⟨c, d, hc, hp, by decide +kernel, h1, h2, h3⟩

end Verif
