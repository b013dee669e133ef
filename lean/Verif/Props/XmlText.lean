import Verif.Proof.XmlFit
set_option linter.unusedSimpArgs false
/-
C108: the text of the XML export. The specification is a reader of XML, `Spec.XmlText.read` (Proof/XmlRead.lean).
-/
namespace Verif
open World Spec.XmlText

theorem asRead_new : asRead false = id := rfl

mutual
theorem mapVals_id : ∀ x : Xml, mapVals id x = x
  | .el t a c => by simp only [mapVals, mapValsL_id c, id_eq, List.map_id']
theorem mapValsL_id : ∀ l : List Xml, mapValsL id l = l
  | [] => rfl
  | x :: xs => by rw [mapValsL, mapVals_id x, mapValsL_id xs]
end

namespace Spec
namespace XmlText

/-- what a reader gets of a tree: before Python 3.9 with the line ends of values changed to LF -/
def readAs (old : Bool) (x : Xml) : Xml := if old then mapVals lineEnds x else x

/-- no tag, and no attribute other than `xml:id`, has a name that begins with a brace -/
def NoBraces (x : Xml) : Prop := Every (fun t a => (∀ s, t ≠ '{' :: s) ∧ ∀ e ∈ a, (∀ s, e.1 ≠ '{' :: s) ∨ e.1 = xmlId) x

/-- the documents of C63: valid, without binary data, no field called like the identifier attribute -/
structure TreeOk (w : World) : Prop where
  valid : Spec.Encodable w
  noBytes : ∀ k L n f b, (k, L) ∈ w.dl → some n ∈ w.iter L → dget (w.nodes n).fields f ≠ some (.bytes b)
  noId : ∀ k L, (k, L) ∈ w.dl → xmlId ∉ dkeys (w.layers L).fields

end XmlText
end Spec

theorem readAs_eq (old : Bool) (x : Xml) : Spec.XmlText.readAs old x = mapVals (asRead old) x := by
  cases old with
  | false => exact (mapVals_id x).symm
  | true => rfl

/-- **C108** a tree that XML can have (`Fit`: names of tags and attributes are names, values have only characters that
XML allows) is written, and read back from its text as it was. With the escaping of Python before 3.9, values come
back with LF for CR LF and CR. -/
theorem C108_write (old : Bool) {x : Xml} (h : Fit x) :
    ∃ s, ET.write old x = .ok s ∧ Spec.XmlText.read s = some (Spec.XmlText.readAs old x) :=
  ⟨_, write_bare old (fit_bare h), by rw [readAs_eq]; exact read_ser old h⟩

/-- **C108** the other way around: of the trees without names in braces, only these are read back from their text. -/
theorem C108_write_iff {x : Xml} (h : Spec.XmlText.NoBraces x) :
    (∃ s, ET.write false x = .ok s ∧ Spec.XmlText.read s = some x) ↔ Fit x := by
  constructor
  · rintro ⟨s, -, hr⟩
    refine proper_fit (read_proper hr) ((every_names (P := fun k => (∀ s, k ≠ '{' :: s) ∨ k = xmlId) x).mp ?_)
      (every_imp (fun _ _ h => h.1) x h)
    exact every_imp (fun _ _ h => ⟨.inl h.1, h.2⟩) x h
  · intro hf
    exact C108_write false hf

/-- **C108** no two trees have the same text. -/
theorem C108_write_inj {x y : Xml} (hx : Fit x) (hy : Fit y) (h : ET.write false x = ET.write false y) : x = y := by
  obtain ⟨s, h1, h2⟩ := C108_write false hx
  obtain ⟨t, h3, h4⟩ := C108_write false hy
  rw [h, h3] at h1
  cases h1
  rw [h2] at h4
  exact Option.some.inj h4

/-- **C108** whatever text is read, the tree is one that XML can have: names are names or in braces, attributes of an
element are different, values have only characters that XML allows. -/
theorem C108_read {s : Str} {x : Xml} (h : Spec.XmlText.read s = some x) :
    Every (fun t a => (ncName t = true ∨ ∃ r, t = '{' :: r) ∧ (∀ e ∈ a, (ncName e.1 = true ∧ e.1 ≠ "xmlns".toList ∨ ∃ r, e.1 = '{' :: r) ∧
      Chars e.2) ∧ (dkeys a).Nodup) x :=
  every_imp (fun _ _ h => ⟨h.1, fun e he => ⟨(h.2.1 e he).1, fun c hc => (allowed_iff c).mp ((h.2.1 e he).2 c hc)⟩, h.2.2⟩) x (read_proper h)

/-- the property in full: the text of the export of any document is read back as the tree of the export -/
def C108_full : Prop := ∀ (w : World) (p : PyStr) (verbose : Bool) (docId : Str) (x t : Bool), Reachable w → Spec.XmlText.TreeOk w →
  ∃ w' s e, w.xmlTree p verbose false docId x t = (w', .ok e) ∧ w.xmlString false p verbose false docId x t = (w', .ok s) ∧
    Spec.XmlText.read s = some e

/-- **C108**, missing: documents with names or characters that XML does not allow (`C108_name_fails`,
`C108_colon_fails`, `C108_xmlns_fails`, `C108_brace_fails`, `C108_inject_fails`, `C108_char_fails`). The export of
any other valid document has a text, which any XML reader reads as the tree of the export; what the tree shows is
C63. With Python before 3.9, values come back with LF for CR LF and CR. -/
theorem C108_text_partial {w : World} (h : Reachable w) (ht : Spec.XmlText.TreeOk w) (old : Bool) (p : PyStr) (verbose : Bool)
    (docId : Str) (x t : Bool) (hx : Exportable w p docId) :
    ∃ w' s e, w.xmlTree p verbose false docId x t = (w', .ok e) ∧ w.xmlString old p verbose false docId x t = (w', .ok s) ∧
      Spec.XmlText.read s = some (Spec.XmlText.readAs old e) ∧ Spec.Xml.ShowsDoc w p docId e := by
  obtain ⟨w', e, h1, h2⟩ := C63_tree_partial h ht.valid ht.noBytes ht.noId p verbose docId x t
  have hf : Fit e := xmlTree_fit h h1 hx (by
    intro k L n f l r s hL hn hv hs
    have hd := ht.valid.declared k L n f hL hn (List.mem_map.mpr ⟨_, dget_mem hv, rfl⟩)
    obtain ⟨⟨f', ty⟩, hm, rfl⟩ := List.mem_map.mp hd
    have hc := ht.valid.cells k L n f' ty _ hL hn hm hv
    cases hc with
    | @nodespan _ _ s' i j a b c d g =>
      obtain ⟨K, e1, e2⟩ := (At.iff h.inv).mp c
      have : w.collName l = some s' := by
        have hm : some l ∈ (w.layers K).slots := by
          have := List.mem_of_getElem? e2
          simpa [live] using this
        obtain ⟨q, hq⟩ := List.getElem?_of_mem hm
        have := (h.inv.slot K q l hq).1
        simp only [collName, this, Option.map_some, (h.wf.dlName s' K e1).1]
      rw [this] at hs
      cases hs
      exact hx.layers _ K (dget_mem e1))
  obtain ⟨s, h3, h4⟩ := C108_write old hf
  exact ⟨w', s, e, h1, by simp only [xmlString, h1, h3], h4, h2⟩

/-! ### concrete cases -/

namespace Ex

/-- only allowed characters, checked by evaluation -/
def charsB (s : Str) : Bool := s.all allowed

/-- can be written as XML, checked by evaluation -/
def exportableB (w : World) (p : PyStr) (docId : Str) : Bool :=
  w.dl.all (fun e => charsB e.1 && (w.layers e.2).fields.all (fun f => charsB f.1 &&
    (decide (f.2.tname = .span ∨ f.2.tname = .nodespan ∨ f.2.tname = .noderefMany) || (ncName f.1 && decide (f.1 ≠ "xmlns".toList))) &&
    f.2.options.all (fun a => charsB a.1 && charsB (p.str a.2)))) &&
  w.dt.all (fun e => charsB e.1 && charsB (w.texts e.2).text) && w.props.all (fun e => charsB e.1 && charsB (p.str e.2)) && charsB docId

theorem exportableB_ok {w : World} {p : PyStr} {docId : Str} (h : exportableB w p docId = true) (hp : ∀ x, Chars (p.float x)) :
    Exportable w p docId := by
  simp only [exportableB, Bool.and_eq_true, List.all_eq_true, Bool.or_eq_true, decide_eq_true_eq] at h
  obtain ⟨⟨⟨h1, h2⟩, h3⟩, h4⟩ := h
  refine ⟨fun k L f t hL hf a b c => ?_, fun k L f t hL hf => ?_, fun k L f t a v hL hf ha => ?_, fun k L hL => ?_, fun c T hT => ?_,
    fun k v hk => ?_, hp, chars_lit h4⟩
  · have := ((h1 _ hL).2 _ hf).1.2
    rcases this with (e | e | e) | e
    · exact (a e).elim
    · exact (b e).elim
    · exact (c e).elim
    · exact e
  · exact chars_lit ((h1 _ hL).2 _ hf).1.1
  · have := ((h1 _ hL).2 _ hf).2 _ ha
    exact ⟨chars_lit this.1, chars_lit this.2⟩
  · exact chars_lit (h1 _ hL).1
  · exact ⟨chars_lit (h2 _ hT).1, chars_lit (h2 _ hT).2⟩
  · exact ⟨chars_lit (h3 _ hk).1, chars_lit (h3 _ hk).2⟩

/-- no field is called like the identifier attribute, checked by evaluation -/
def noIdB (w : World) : Bool := w.dl.all (fun e => decide (xmlId ∉ dkeys (w.layers e.2).fields))

theorem treeOk {w : World} (h : Spec.Encodable w) (h1 : noBytes w = true) (h2 : noIdB w = true) : Spec.XmlText.TreeOk w :=
  ⟨h, noBytes_ok h1, fun k L hL => by simpa using List.all_eq_true.mp h2 (k, L) hL⟩

/-- the text of an export -/
def textOfXml : World × Except PyErr Str → Option Str
  | (_, .ok s) => some s
  | _ => none

/-- the error of an export to text -/
def textErr : World × Except PyErr Str → Option PyErr
  | (_, .error e) => some e
  | _ => none

/-- reading the text of an export, and the attributes of the element at a path -/
def readAttrs (r : World × Except PyErr Str) (path : List Nat) : Option (Dict Str Str) :=
  ((textOfXml r).bind Spec.XmlText.read).bind (fun e => (xmlAt e path).map (·.attrs))

/-- a layer with one field, a node with a value in it -/
def wname (f : Str) : World := World.empty.run [.addText "main".toList "ab".toList, .addLayer "l".toList
  [(f, ⟨.string, true, []⟩)], .addNew 0 [(f, .str "<v>".toList)]]

/-- a text with a line end of two characters -/
def wcrlf : World := World.empty.run [.addText "main".toList "a\r\nb".toList]

end Ex

set_option maxRecDepth 40000 in
example : ∃ w' s e, Ex.wxml.xmlTree Ex.pystr true false "d1".toList false true = (w', .ok e) ∧
    Ex.wxml.xmlString true Ex.pystr true false "d1".toList false true = (w', .ok s) ∧
    Spec.XmlText.read s = some (Spec.XmlText.readAs true e) ∧ Spec.Xml.ShowsDoc Ex.wxml Ex.pystr "d1".toList e :=
  C108_text_partial Ex.wxml_reachable (Ex.treeOk Ex.wxml_encodable (by decide +kernel) (by decide +kernel)) true Ex.pystr true "d1".toList false true
    (Ex.exportableB_ok (by decide +kernel) (fun _ => chars_nat _))

-- what is written, and read, with a name that XML allows
set_option maxRecDepth 40000 in
example : Ex.textOfXml ((Ex.wname "f".toList).xmlString false Ex.pystr false false "d".toList false true) = some
    ("<document xml:id=\"d\"><props /><schema><define layer=\"l\"><field name=\"f\" type=\"str\" /></define></schema>".toList ++
    "<texts><text name=\"main\"><sep><s v=\"ab\" /></sep></text></texts>".toList ++
    "<layers><layer name=\"l\"><n f=\"&lt;v&gt;\" xml:id=\"d.l.0\" /></layer></layers></document>".toList) := by decide +kernel
set_option maxRecDepth 40000 in
example : Ex.readAttrs ((Ex.wname "f".toList).xmlString false Ex.pystr false false "d".toList false true) [3, 0, 0] =
    some [("f".toList, "<v>".toList), (xmlId, "d.l.0".toList)] := by decide +kernel

-- a tree with all characters that are escaped
example : Fit (.el "a".toList [("k".toList, "&<>\"\r\n\t'é".toList), (xmlId, [])] [.el "b".toList [] []]) :=
  fitEl (by decide) (by
    intro e he
    simp only [List.mem_cons, List.not_mem_nil, or_false] at he
    rcases he with rfl | rfl
    · exact ⟨attr_lit (k := "k".toList) (by decide) (by decide), chars_lit (by decide)⟩
    · exact ⟨.inr rfl, chars_lit (by decide)⟩) (by decide) ⟨fitEl (by decide) (by simp) (by simp [dkeys]) trivial, trivial⟩

example : ET.escAttr false "&<>\"\r\n\t'".toList = "&amp;&lt;&gt;&quot;&#13;&#10;&#09;'".toList := by decide
example : ET.escAttr true "a\r\nb\rc".toList = "a&#10;b&#10;c".toList := by decide

-- the reader: white space, quotes, references, namespaces; and what is not well-formed
set_option maxRecDepth 20000 in
example : (Spec.XmlText.read "<p:a xmlns:p='u' b = \"&#x41;&apos;\n\" p:b=''><c/></p:a >\n".toList).map (fun x => (x.tag, x.attrs, x.children.map (·.tag))) =
    some ("{u}a".toList, [("b".toList, "A' ".toList), ("{u}b".toList, [])], ["c".toList]) := by decide +kernel
set_option maxRecDepth 20000 in
example : (["<a b=\"<\" />", "<a b=\"1\" b=\"2\" />", "<a b=\"1\"c=\"2\" />", "<a b c=\"1\" />", "<a><b></a></b>", "<a b=\"&x;\" />", "<p:a />",
    "<a />x", "<1a />", "<a b=1 />", "<a"].map (fun s => (Spec.XmlText.read s.toList).isNone)).all id = true := by decide +kernel

-- a tree that is not read back, by `C108_write_iff`
example : Spec.XmlText.NoBraces (.el "n".toList [("first name".toList, [])] []) ∧ ¬ Fit (.el "n".toList [("first name".toList, [])] []) := by
  refine ⟨⟨⟨?_, ?_⟩, trivial⟩, ?_⟩
  · intro s h
    cases h
  · intro e he
    simp only [List.mem_singleton] at he
    subst he
    exact .inl (by intro s h; cases h)
  · intro h
    rcases (h.1.2.1 _ (List.mem_singleton.mpr rfl)).1 with h | h
    · exact absurd h.1 (by decide)
    · exact absurd h (by decide)

/-! ### documents that cannot be read back -/

open Ex in
theorem Ex.odd {w : World} {ops : List Op} (h : World.empty.run ops = w) (h1 : World.empty.allowedRun ops = true) (h2 : Check.doc w = true)
    (h3 : noBytes w = true) (h4 : noIdB w = true) : Reachable w ∧ Spec.XmlText.TreeOk w :=
  ⟨h ▸ reachable_run _ h1, treeOk (Check.doc_ok h2) h3 h4⟩

set_option maxRecDepth 40000 in
/-- **C108** fails for a field with a space in its name, or with a name that starts with a digit: the text is not XML. -/
theorem C108_name_fails : ∀ f ∈ ["first name".toList, "1st".toList], (Reachable (Ex.wname f) ∧ Spec.XmlText.TreeOk (Ex.wname f)) ∧
    ∃ s, Ex.textOfXml ((Ex.wname f).xmlString false Ex.pystr false false [] false true) = some s ∧ Spec.XmlText.read s = none := by
  intro f hf
  simp only [List.mem_cons, List.not_mem_nil, or_false] at hf
  rcases hf with rfl | rfl
  · exact ⟨Ex.odd rfl (by decide +kernel) (by decide +kernel) (by decide +kernel) (by decide +kernel), _, rfl,
      Option.isNone_iff_eq_none.mp (by decide +kernel)⟩
  · exact ⟨Ex.odd rfl (by decide +kernel) (by decide +kernel) (by decide +kernel) (by decide +kernel), _, rfl,
      Option.isNone_iff_eq_none.mp (by decide +kernel)⟩

set_option maxRecDepth 40000 in
/-- **C108** fails for a field with a colon in its name: the prefix is not declared. A field `xml:id` gives the same
attribute twice. -/
theorem C108_colon_fails : ∀ f ∈ ["ud:pos".toList, "xml:id".toList], (Reachable (Ex.wname f) ∧ Spec.XmlText.TreeOk (Ex.wname f)) ∧
    ∃ s, Ex.textOfXml ((Ex.wname f).xmlString false Ex.pystr false false [] false true) = some s ∧ Spec.XmlText.read s = none := by
  intro f hf
  simp only [List.mem_cons, List.not_mem_nil, or_false] at hf
  rcases hf with rfl | rfl
  · exact ⟨Ex.odd rfl (by decide +kernel) (by decide +kernel) (by decide +kernel) (by decide +kernel), _, rfl,
      Option.isNone_iff_eq_none.mp (by decide +kernel)⟩
  · exact ⟨Ex.odd rfl (by decide +kernel) (by decide +kernel) (by decide +kernel) (by decide +kernel), _, rfl,
      Option.isNone_iff_eq_none.mp (by decide +kernel)⟩

set_option maxRecDepth 40000 in
/-- **C108** fails for a field called `xmlns`: its value is read as the namespace of the element, and lost. -/
theorem C108_xmlns_fails : (Reachable (Ex.wname "xmlns".toList) ∧ Spec.XmlText.TreeOk (Ex.wname "xmlns".toList)) ∧
    Ex.readAttrs ((Ex.wname "xmlns".toList).xmlString false Ex.pystr false false [] false true) [3, 0, 0] = some [(xmlId, "l.0".toList)] :=
  ⟨Ex.odd rfl (by decide +kernel) (by decide +kernel) (by decide +kernel) (by decide +kernel), by decide +kernel⟩

set_option maxRecDepth 40000 in
/-- **C108** fails for a field whose name starts with a brace that is not closed: there is a tree, but writing it
raises ValueError. -/
theorem C108_brace_fails : (Reachable (Ex.wname "{a".toList) ∧ Spec.XmlText.TreeOk (Ex.wname "{a".toList)) ∧
    Ex.textErr ((Ex.wname "{a".toList).xmlString false Ex.pystr false false [] false true) = some .value :=
  ⟨Ex.odd rfl (by decide +kernel) (by decide +kernel) (by decide +kernel) (by decide +kernel), by decide +kernel⟩

set_option maxRecDepth 40000 in
/-- **C108** fails for a field whose name is markup: the text is read as another tree. -/
theorem C108_inject_fails : (Reachable (Ex.wname "a=\"1\" b".toList) ∧ Spec.XmlText.TreeOk (Ex.wname "a=\"1\" b".toList)) ∧
    Ex.readAttrs ((Ex.wname "a=\"1\" b".toList).xmlString false Ex.pystr false false [] false true) [3, 0, 0] =
      some [("a".toList, "1".toList), ("b".toList, "<v>".toList), (xmlId, "l.0".toList)] :=
  ⟨Ex.odd rfl (by decide +kernel) (by decide +kernel) (by decide +kernel) (by decide +kernel), by decide +kernel⟩

namespace Ex

/-- a text with a character that XML does not allow -/
def wctrl : World := World.empty.run [.addText "main".toList ['a', Char.ofNat 1]]

end Ex

set_option maxRecDepth 40000 in
/-- **C108** fails for a text with a character that XML does not allow: the text of the export is not XML. -/
theorem C108_char_fails : (Reachable Ex.wctrl ∧ Spec.XmlText.TreeOk Ex.wctrl) ∧
    ∃ s, Ex.textOfXml (Ex.wctrl.xmlString false Ex.pystr false false [] false true) = some s ∧ Spec.XmlText.read s = none :=
  ⟨Ex.odd rfl (by decide +kernel) (by decide +kernel) (by decide +kernel) (by decide +kernel), _, rfl,
    Option.isNone_iff_eq_none.mp (by decide +kernel)⟩

set_option maxRecDepth 40000 in
/-- **C108** before Python 3.9: a text with CR LF is read back shorter than it is in the document, and than its `stop`
says. -/
theorem C108_crlf_fails : (Reachable Ex.wcrlf ∧ Spec.XmlText.TreeOk Ex.wcrlf) ∧
    Ex.readAttrs (Ex.wcrlf.xmlString true Ex.pystr true false [] false true) [2, 0, 0, 0] = some [("v".toList, "a\nb".toList),
      ("id".toList, "0".toList), ("start".toList, "0".toList), ("stop".toList, "4".toList)] :=
  ⟨Ex.odd rfl (by decide +kernel) (by decide +kernel) (by decide +kernel) (by decide +kernel), by decide +kernel⟩

theorem C108_full_false : ¬ C108_full := by
  intro h
  obtain ⟨⟨h1, h2⟩, s, h3, h4⟩ := C108_char_fails
  obtain ⟨w', s', e, -, h5, h6⟩ := h Ex.wctrl Ex.pystr false [] false true h1 h2
  rw [h5] at h3
  cases h3
  rw [h4] at h6
  cases h6

end Verif
