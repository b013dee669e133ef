import Verif.Props.JavaCodec
/-
Examples for C86-C89, and documents that go wrong.
-/
set_option linter.unusedSimpArgs false
namespace Verif
open World
open Spec (Both Cell LayerC Content FieldType Good TypeGood CellGood IsRef PyHas JHas JSound JavaReadable)

namespace Ex

/-- calls that make a document with a span beyond the BMP and a reference -/
def jops : List JDOp := [.prop "lang".toList (.str "en".toList), .text "main".toList (utf16 "a😀b".toList),
  .layer "tok".toList [("text".toList, ⟨.span, [("context".toList, .str "main".toList)]⟩), ("head".toList, ⟨.node, [("layer".toList, .str "tok".toList)]⟩), ("id".toList, ⟨.int, []⟩)],
  .span "main".toList 0 1, .span "main".toList 1 3,
  .insert "tok".toList 7 [("id".toList, .int 5), ("text".toList, .span "main".toList (0, 1))],
  .insert "tok".toList 9 [("head".toList, .node 7), ("text".toList, .span "main".toList (1, 2))]]

theorem jops_fresh : Spec.JFresh .new jops := by
  refine ⟨trivial, trivial, ⟨by decide, by decide⟩, trivial, trivial, ?_, ?_, trivial⟩
  · intro f c p h
    have := dget_mem h
    simp only [List.mem_cons, Prod.mk.injEq, List.not_mem_nil, or_false, JVal.span.injEq] at this
    rcases this with ⟨_, h⟩ | ⟨_, rfl, rfl⟩
    · cases h
    · decide +kernel
  · intro f c p h
    have := dget_mem h
    simp only [List.mem_cons, Prod.mk.injEq, List.not_mem_nil, or_false, JVal.span.injEq] at this
    rcases this with ⟨_, h⟩ | ⟨_, rfl, rfl⟩
    · cases h
    · decide +kernel

/-- the document -/
def jdoc : JDoc := (JDState.new.run jops).doc

theorem jdoc_sound : JSound jdoc := C86_sound jops jops_fresh

/-- its content -/
def jcontent : Content where
  props := dget [("lang".toList, .str "en".toList)]
  texts := dget [("main".toList, "a😀b".toList)]
  layers := dget [("tok".toList, {
    fields := dget [("head".toList, ("noderef".toList, dget [("layer".toList, .str "tok".toList)])), ("id".toList, ("i32".toList, dget [])),
      ("text".toList, ("span".toList, dget [("context".toList, .str "main".toList)]))]
    rows := [dget [("id".toList, .int 5), ("text".toList, .span 0 1)], dget [("head".toList, .node 0), ("text".toList, .span 1 2)]] })]

theorem both_nil {α β : Type} {R : α → β → Prop} (k : Str) : Both R (dget ([] : Dict Str α) k) (dget ([] : Dict Str β) k) := .none

theorem both_cons {α β : Type} {R : α → β → Prop} {x : Str} {a : α} {b : β} {l : Dict Str α} {l' : Dict Str β} (h : R a b) (hl : ∀ k, Both R (dget l k) (dget l' k)) (k : Str) :
    Both R (dget ((x, a) :: l) k) (dget ((x, b) :: l') k) := by
  simp only [dget]
  split
  · exact .some h
  · exact hl k

/-- the text and the fields of the layer -/
def jtxt : JText := match dget jdoc.texts "main".toList with
  | some t => t
  | none => .new []

def jfields : Dict Str JType := [("head".toList, ⟨.node, [("layer".toList, .str "tok".toList)]⟩), ("id".toList, ⟨.int, []⟩),
  ("text".toList, ⟨.span, [("context".toList, .str "main".toList)]⟩)]

def jlay : JLay := ⟨jfields, [some 7, some 9], 2⟩

theorem jdoc_texts : jdoc.texts = [("main".toList, jtxt)] := by decide +kernel
theorem jdoc_layers : jdoc.layers = [("tok".toList, jlay)] := by decide +kernel
theorem jdoc_props : jdoc.props = [("lang".toList, .str "en".toList)] := by decide +kernel

theorem fields_cases {P : Str → Prop} (h1 : P "head".toList) (h2 : P "id".toList) (h3 : P "text".toList)
    (h4 : ∀ f, f ≠ "head".toList → f ≠ "id".toList → f ≠ "text".toList → P f) (f : Str) : P f := by
  by_cases e1 : f = "head".toList
  · rw [e1]; exact h1
  by_cases e2 : f = "id".toList
  · rw [e2]; exact h2
  by_cases e3 : f = "text".toList
  · rw [e3]; exact h3
  exact h4 f e1 e2 e3

theorem dget_ne {ν : Type} {k f : Str} {v : ν} {l : Dict Str ν} (h : f ≠ k) : dget ((k, v) :: l) f = dget l f := by
  simp only [dget]
  rw [if_neg (fun e => h e.symm)]

theorem jdoc_has : JHas jdoc jcontent where
  props := by rw [jdoc_props]; exact both_cons (.plain .str) both_nil
  texts := by rw [jdoc_texts]; exact both_cons (by decide +kernel) both_nil
  layers := by
    have at7 : Spec.JAt jdoc "tok".toList 0 7 := ⟨jlay, by rw [jdoc_layers]; rfl, rfl⟩
    have txt : dget jdoc.texts "main".toList = some jtxt := by rw [jdoc_texts]; rfl
    have tt : jtxt.text = utf16 "a😀b".toList := by decide +kernel
    have d7 : jdoc.data 7 = [("id".toList, .int 5), ("text".toList, .span "main".toList (0, 1))] := by decide +kernel
    have d9 : jdoc.data 9 = [("head".toList, .node 7), ("text".toList, .span "main".toList (1, 2))] := by decide +kernel
    rw [jdoc_layers]
    refine both_cons ⟨?_, by decide, ?_⟩ both_nil
    · refine both_cons ⟨rfl, both_cons .str both_nil⟩ (both_cons ⟨rfl, both_nil⟩ (both_cons ⟨rfl, both_cons .str both_nil⟩ both_nil))
    · intro i n row f hn hr
      match i, hn, hr with
      | 0, hn, hr =>
        cases hn; cases hr
        rw [d7]
        revert f
        refine fields_cases ?_ ?_ ?_ ?_
        · exact .declared .unset
        · exact .declared .int
        · refine .declared ?_
          exact .span (u := jtxt) (s := "a😀b".toList) (a := 0) (b := 1) rfl txt tt ⟨by decide, by decide +kernel⟩ ⟨by decide, by decide +kernel⟩
        · intro f h1 h2 h3
          show Spec.JField jdoc (dget jfields f) _ _
          unfold jfields
          rw [dget_ne h1, dget_ne h2, dget_ne h3, dget_ne h2, dget_ne h3, dget_ne h2, dget_ne h3]
          exact .undeclared
      | 1, hn, hr =>
        cases hn; cases hr
        rw [d9]
        revert f
        refine fields_cases ?_ ?_ ?_ ?_
        · exact .declared (.node (s := "tok".toList) rfl at7)
        · exact .declared .unset
        · refine .declared ?_
          exact .span (u := jtxt) (s := "a😀b".toList) (a := 1) (b := 2) rfl txt tt ⟨by decide, by decide +kernel⟩ ⟨by decide, by decide +kernel⟩
        · intro f h1 h2 h3
          show Spec.JField jdoc (dget jfields f) _ _
          unfold jfields
          rw [dget_ne h1, dget_ne h2, dget_ne h3, dget_ne h1, dget_ne h3, dget_ne h1, dget_ne h3]
          exact .undeclared
      | i + 2, hn, _ =>
        have : jlay.nodes = [7, 9] := by decide
        rw [this] at hn
        simp at hn

theorem jcontent_layer {k : Str} {l : LayerC} (h : jcontent.layers k = some l) : k = "tok".toList ∧ some l = jcontent.layers "tok".toList := by
  have e : k = "tok".toList := by
    have := dget_mem h
    simp only [List.mem_singleton, Prod.mk.injEq] at this
    exact this.1
  exact ⟨e, by rw [← e]; exact h.symm⟩

theorem jcontent_noExt : Spec.NoExt jcontent := by
  intro k l f t hl hf
  obtain ⟨-, e⟩ := jcontent_layer hl
  cases e
  have := dget_mem hf
  simp only [List.mem_cons, Prod.mk.injEq, List.not_mem_nil, or_false] at this
  rcases this with ⟨-, rfl⟩ | ⟨-, rfl⟩ | ⟨-, rfl⟩ <;> decide

theorem jcontent_good : Good jcontent where
  types k l f t hl hf := by
    obtain ⟨-, e⟩ := jcontent_layer hl
    cases e
    have := dget_mem hf
    simp only [List.mem_cons, Prod.mk.injEq, List.not_mem_nil, or_false] at this
    rcases this with ⟨-, rfl⟩ | ⟨-, rfl⟩ | ⟨-, rfl⟩
    · exact ⟨.inr (.inr (.inl (.inl rfl))), fun h => absurd h (by decide), fun _ => ⟨_, _, rfl, rfl⟩, fun h => absurd h (by decide), by decide, by decide⟩
    · exact ⟨.inl (by decide), fun h => absurd h (by decide), fun h => absurd h (by unfold IsRef; decide), fun h => absurd h (by decide), by decide, by decide⟩
    · exact ⟨.inr (.inl rfl), fun _ => ⟨_, _, rfl, rfl⟩, fun h => absurd h (by unfold IsRef; decide), fun h => absurd h (by decide), by decide, by decide⟩
  cells k l row f x hl hrow hx := by
    obtain ⟨-, e⟩ := jcontent_layer hl
    cases e
    simp only [List.mem_cons, List.not_mem_nil, or_false] at hrow
    rcases hrow with rfl | rfl
    · have := dget_mem hx
      simp only [List.mem_cons, Prod.mk.injEq, List.not_mem_nil, or_false] at this
      rcases this with ⟨rfl, rfl⟩ | ⟨rfl, rfl⟩
      · exact ⟨_, rfl, .int (.inl rfl)⟩
      · exact ⟨_, rfl, .span (s := "main".toList) (u := "a😀b".toList) rfl rfl rfl (by decide) (by decide)⟩
    · have := dget_mem hx
      simp only [List.mem_cons, Prod.mk.injEq, List.not_mem_nil, or_false] at this
      rcases this with ⟨rfl, rfl⟩ | ⟨rfl, rfl⟩
      · exact ⟨_, rfl, .node (s := "tok".toList) rfl rfl (by decide)⟩
      · exact ⟨_, rfl, .span (s := "main".toList) (u := "a😀b".toList) rfl rfl rfl (by decide) (by decide)⟩

theorem jcontent_readable : JavaReadable jcontent where
  props k o h := by
    have := dget_mem h
    simp only [List.mem_singleton, Prod.mk.injEq] at this
    rw [this.2]; exact .arg .str
  args k l f t a o hl hf ho := by
    obtain ⟨-, e⟩ := jcontent_layer hl
    cases e
    have := dget_mem hf
    simp only [List.mem_cons, Prod.mk.injEq, List.not_mem_nil, or_false] at this
    rcases this with ⟨-, rfl⟩ | ⟨-, rfl⟩ | ⟨-, rfl⟩
    · have := dget_mem ho
      simp only [List.mem_singleton, Prod.mk.injEq] at this
      rw [this.2]; exact .str
    · cases ho
    · have := dget_mem ho
      simp only [List.mem_singleton, Prod.mk.injEq] at this
      rw [this.2]; exact .str
  cells k l row f t x hl hrow hf hx := by
    obtain ⟨-, e⟩ := jcontent_layer hl
    cases e
    simp only [List.mem_cons, List.not_mem_nil, or_false] at hrow
    rcases hrow with rfl | rfl
    · have := dget_mem hx
      simp only [List.mem_cons, Prod.mk.injEq, List.not_mem_nil, or_false] at this
      rcases this with ⟨rfl, rfl⟩ | ⟨rfl, rfl⟩
      · exact .int (fun _ => by decide) (fun _ => by decide)
      · exact .span
    · have := dget_mem hx
      simp only [List.mem_cons, Prod.mk.injEq, List.not_mem_nil, or_false] at this
      rcases this with ⟨rfl, rfl⟩ | ⟨rfl, rfl⟩
      · exact .node
      · exact .span
  sizes k l hl := by
    obtain ⟨-, e⟩ := jcontent_layer hl
    cases e
    decide

/-- its bytes -/
def jbytes : Bytes := match jdoc.encode.2 with
  | .ok b => b
  | .error _ => []

theorem jbytes_ok : jdoc.encode = (jdoc.encode.1, .ok jbytes) := by
  have : jdoc.encode.2 = .ok jbytes := by decide +kernel
  rw [← this]

end Ex

-- C86_sound, C87_java_to_python, C89_java_to_java_partial: a document with a span beyond the BMP and a reference
example : ∃ w d, decodeMsgpack (Ex.jbytes ++ [1]) = .ok w ∧ PyHas w Ex.jcontent ∧ jDecode (Ex.jbytes ++ [1]) = .ok d ∧ JHas d Ex.jcontent ∧ Ex.jbytes.length = 111 := by
  obtain ⟨⟨w, h1, h2⟩, -⟩ := C87_java_to_python Ex.jdoc_sound Ex.jdoc_has Ex.jcontent_good (noExt_readable Ex.jcontent_good Ex.jcontent_noExt) Ex.jbytes_ok
  obtain ⟨d, h3, h4⟩ := C89_java_to_java_partial Ex.jdoc_sound Ex.jdoc_has Ex.jcontent_good Ex.jcontent_readable Ex.jbytes_ok (by decide +kernel)
  exact ⟨w, d, h1 _, h2, h3 _, h4, by decide +kernel⟩

-- C86_insert: node 8 in that document
example : ∃ d' L', Ex.jdoc.insert "tok".toList 8 [] = (d', .ok ()) ∧ dget d'.layers "tok".toList = some L' ∧ L'.nodes = [7, 9, 8] := by
  obtain ⟨d', L', h1, h2, h3, -⟩ := C86_insert Ex.jops Ex.jops_fresh (d := Ex.jdoc) rfl (k := "tok".toList) (L := Ex.jlay) (by rw [Ex.jdoc_layers]; rfl) (n := 8) (by
    intro k L h
    rw [Ex.jdoc_layers] at h
    have := dget_mem h
    simp only [List.mem_singleton, Prod.mk.injEq] at this
    rw [this.2]
    decide) []
  exact ⟨d', L', h1, h2, h3⟩

-- C86_remove_text_partial, C86_remove_text_refused: the field of spans of the text goes, or the call is refused
example : ∃ d', Ex.jdoc.removeText "main".toList true = (d', .ok ()) ∧ dget (d'.data 9) "text".toList = none ∧ dget (d'.data 9) "head".toList = some (.node 7) ∧
    (Ex.jdoc.removeText "main".toList false).2 = .error .data := by
  have h : (Ex.jdoc.removeText "main".toList true).2 = .ok () := by decide +kernel
  have h' : Ex.jdoc.removeText "main".toList true = ((Ex.jdoc.removeText "main".toList true).1, .ok ()) := by rw [← h]
  have hL : dget Ex.jdoc.layers "tok".toList = some Ex.jlay := by rw [Ex.jdoc_layers]; rfl
  have := (C86_remove_text_partial Ex.jdoc_sound h' hL).2 9 (by decide)
  refine ⟨_, h', ?_, ?_, by decide +kernel⟩
  · rw [this]; decide
  · rw [this]; decide +kernel

-- C86_validate_partial: it passes for that document
example : ∃ r, Ex.jdoc.validateSchema = .ok r := by
  have : ∀ {α : Type} {x : Except PyErr α}, x.isOk = true → ∃ r, x = .ok r := by
    intro α x h
    cases x with
    | error e => cases h
    | ok r => exact ⟨r, rfl⟩
  exact this (by decide +kernel)

/-! ### documents that go wrong -/

namespace Ex

/-- the bytes of the document made by these calls -/
def bytesOf (os : List JDOp) : Option Bytes := match (JDState.new.run os).doc.encode.2 with
  | .ok b => some b
  | .error _ => none

/-- how reading bytes ends -/
def jErr (bs : Bytes) : Option PyErr := match jDecode bs with
  | .ok _ => none
  | .error e => some e

def pyErr (bs : Bytes) : Option PyErr := match decodeMsgpack bs with
  | .ok _ => none
  | .error e => some e

/-- the text and a field that Python reads -/
def pyText (bs : Bytes) : Option Str := match decodeMsgpack bs with
  | .ok w => some (w.texts 0).text
  | .error _ => none

def pyField (bs : Bytes) (n : Nat) (f : Str) : Option Value := match decodeMsgpack bs with
  | .ok w => dget (w.nodes n).fields f
  | .error _ => none

/-- a text and a layer with spans of it -/
def spanOps (s : Str) : List JDOp := [.text "main".toList (utf16 s), .layer "tok".toList [("text".toList, ⟨.span, [("context".toList, .str "main".toList)]⟩)]]

/-- a document with bytes in a field -/
def binOps : List JDOp := [.layer "tok".toList [("b".toList, ⟨.binary, []⟩)], .insert "tok".toList 0 [("b".toList, .bin [1])]]

def binContent : Content := ⟨dget [], dget [], dget [("tok".toList, ⟨dget [("b".toList, ("bin".toList, dget []))], [dget [("b".toList, .bin [1])]]⟩)]⟩

theorem bin_has : JHas (JDState.new.run binOps).doc binContent where
  props := both_nil
  texts := both_nil
  layers := by
    have h : (JDState.new.run binOps).doc.layers = [("tok".toList, ⟨[("b".toList, ⟨.binary, []⟩)], [some 0], 1⟩)] := by decide +kernel
    have hd : (JDState.new.run binOps).doc.data 0 = [("b".toList, .bin [1])] := by decide +kernel
    rw [h]
    refine both_cons ⟨both_cons ⟨rfl, both_nil⟩ both_nil, rfl, ?_⟩ both_nil
    intro i n row f hn hr
    match i, hn, hr with
    | 0, hn, hr =>
      cases hn; cases hr
      rw [hd]
      by_cases e : f = "b".toList
      · rw [e]; exact .declared .bin
      · rw [dget_ne e, dget_ne e, dget_ne e]; exact .undeclared
    | i + 1, hn, _ => simp [JLay.nodes] at hn

theorem bin_good : Good binContent where
  types k l f t hl hf := by
    have := dget_mem hl
    simp only [List.mem_singleton, Prod.mk.injEq] at this
    obtain ⟨-, rfl⟩ := this
    have := dget_mem hf
    simp only [List.mem_singleton, Prod.mk.injEq] at this
    obtain ⟨-, rfl⟩ := this
    exact ⟨.inl (by decide), fun h => absurd h (by decide), fun h => absurd h (by unfold IsRef; decide), fun h => absurd h (by decide), by decide, by decide⟩
  cells k l row f x hl hrow hx := by
    have := dget_mem hl
    simp only [List.mem_singleton, Prod.mk.injEq] at this
    obtain ⟨-, rfl⟩ := this
    simp only [List.mem_singleton] at hrow
    rw [hrow] at hx
    have := dget_mem hx
    simp only [List.mem_singleton, Prod.mk.injEq] at this
    obtain ⟨rfl, rfl⟩ := this
    exact ⟨_, rfl, .bin rfl⟩

theorem binOps_fresh : Spec.JFresh .new binOps := by
  refine ⟨⟨by decide, by decide⟩, ?_, trivial⟩
  intro f c p h
  have := dget_mem h
  simp at this

/-- its bytes -/
def binBytes : Bytes := (bytesOf binOps).getD []

theorem binBytes_ok : (JDState.new.run binOps).doc.encode = ((JDState.new.run binOps).doc.encode.1, .ok binBytes) := by
  have : (JDState.new.run binOps).doc.encode.2 = .ok binBytes := by decide +kernel
  rw [← this]

end Ex

/-- C89 fails: the Java decoder cannot read bytes in fields -/
theorem C89_full_false : ¬ C89_full := by
  intro h
  obtain ⟨d, h1, -⟩ := h _ _ _ _ (C86_sound _ Ex.binOps_fresh) Ex.bin_has Ex.bin_good Ex.binBytes_ok (by decide +kernel)
  have : Ex.jErr Ex.binBytes = some .type := by decide +kernel
  unfold Ex.jErr at this
  rw [h1] at this
  cases this

/-- nor a property that is a NullValue -/
theorem C89_null_property_fails : (Ex.bytesOf [.prop "x".toList .null]).map Ex.jErr = some (some .notImplemented) := by decide +kernel

/-- C88 fails: the Java decoder cannot read bytes in fields -/
theorem C88_full_false : ¬ C88_full := by
  intro h
  obtain ⟨d, c, h1, -⟩ := h _ _ _ _ _ Ex.wfull_reachable Ex.wfull_encodable Ex.bfull_eq (by decide +kernel)
  have : Ex.jErr Ex.bfull = some .notImplemented := by decide +kernel
  unfold Ex.jErr at this
  rw [h1] at this
  cases this

/-- a property of 2^63 is read as -2^63 -/
theorem C88_large_property_wraps : ∃ bs, ((World.empty.run [.setProp "x".toList (.int (2 ^ 63))]).encodeMsgpack false true).2 = .ok bs ∧
    (match jDecode bs with
      | .ok d => dget d.props "x".toList
      | .error _ => none) = some (.long (-2 ^ 63)) := by
  refine ⟨match ((World.empty.run [.setProp "x".toList (.int (2 ^ 63))]).encodeMsgpack false true).2 with
    | .ok bs => bs
    | .error _ => [], ?_, ?_⟩ <;> decide +kernel

/-- a span that ends inside a surrogate pair: the text is written with question marks -/
theorem C87_surrogate_lost : (Ex.bytesOf (Ex.spanOps "😀".toList ++ [.span "main".toList 0 1, .insert "tok".toList 0 [("text".toList, .span "main".toList (0, 1))]])).bind Ex.pyText =
    some "??".toList := by decide +kernel

/-- a NullValue in a span field: the document cannot be written -/
theorem C87_null_span_fails : (JDState.new.run (Ex.spanOps "ab".toList ++ [.insert "tok".toList 0 [("text".toList, .null)]])).doc.encode.2 = .error .attribute := by
  decide +kernel

/-- a span that is put into a field after the document was encoded: [1, 2) is written as [0, 2) -/
theorem C86_stale_span_differs : (Ex.bytesOf (Ex.spanOps "abcd".toList ++ [.span "main".toList 1 2, .span "main".toList 2 4,
      .insert "tok".toList 0 [("text".toList, .span "main".toList (1, 2))], .encode, .put 0 "text".toList (.span "main".toList (0, 1))])).bind (fun bs => Ex.pyField bs 0 "text".toList) =
    some (.span 0 0 2) := by decide +kernel

/-- a node span of a layer that is not there: the document is written, and neither library can read it -/
theorem C86_nodespan_fails : (Ex.bytesOf [.layer "tok".toList [("s".toList, ⟨.nodeSpan, [("layer".toList, .str "nope".toList)]⟩)],
      .insert "tok".toList 0 [("s".toList, .nodespan 0 0)]]).map (fun bs => (Ex.pyErr bs, Ex.jErr bs)) = some (some .key, some .attribute) := by decide +kernel

/-- a field that is not declared is not written -/
theorem C87_undeclared_lost : (Ex.bytesOf [.layer "tok".toList [], .insert "tok".toList 0 [("x".toList, .int 1)]]).bind (fun bs => Ex.pyField bs 0 "x".toList) = none ∧
    (Ex.bytesOf [.layer "tok".toList [], .insert "tok".toList 0 [("x".toList, .int 1)]]).map Ex.pyErr = some none := by decide +kernel

end Verif
