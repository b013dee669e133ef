import Verif.Model.Xml
/-
The text of the XML export: `XmlCodec.encode_utf8string` (py/docria/codec.py:984-997), which writes the tree of
`encode_tree` with `ElementTree.write(raw_output, encoding="utf-8")` of the standard library.

Modelled after xml/etree/ElementTree.py of CPython 3.12 (lines are those of that file). With this encoding `write`
puts no XML declaration (718-723). The output goes through UTF-8 and back (748-788, codec.py:996): our characters
are Unicode scalar values, for which that is the identity. Elements of the export have no text and no tail, tags
and attributes are strings (no `QName`, `Comment`, `ProcessingInstruction`).

`old`: before CPython 3.9 the escaping of attributes also replaced CR LF and CR by LF (setup.py names 3.5 to 3.7).
-/
namespace Verif
namespace ET

/-- `text.replace(c, r)` for a single character `c` -/
def replace1 (c : Char) (r : Str) (s : Str) : Str := s.flatMap (fun x => if x = c then r else [x])

/-- `text.replace("\r\n", "\n")`, then `text.replace("\r", "\n")` -/
def crlf : Str → Str
  | [] => []
  | '\r' :: '\n' :: s => '\n' :: crlf s
  | c :: s => (if c = '\r' then '\n' else c) :: crlf s

/-- `_escape_attrib(text)` (1024-1050) -/
def escAttr (old : Bool) (s : Str) : Str :=
  let s := replace1 '&' "&amp;".toList s
  let s := replace1 '<' "&lt;".toList s
  let s := replace1 '>' "&gt;".toList s
  let s := replace1 '"' "&quot;".toList s
  let s := if old then crlf s else replace1 '\r' "&#13;".toList s
  let s := replace1 '\n' "&#10;".toList s
  replace1 '\t' "&#09;".toList s

/-- `_namespace_map` (988-999) -/
def wellKnown : Dict Str Str := [
  ("http://www.w3.org/XML/1998/namespace".toList, "xml".toList),
  ("http://www.w3.org/1999/xhtml".toList, "html".toList),
  ("http://www.w3.org/1999/02/22-rdf-syntax-ns#".toList, "rdf".toList),
  ("http://schemas.xmlsoap.org/wsdl/".toList, "wsdl".toList),
  ("http://www.w3.org/2001/XMLSchema".toList, "xs".toList),
  ("http://www.w3.org/2001/XMLSchema-instance".toList, "xsi".toList),
  ("http://purl.org/dc/elements/1.1/".toList, "dc".toList)]

/-- `s.rsplit("}", 1)` when it has two parts -/
def rsplit (s : Str) : Option (Str × Str) :=
  match s with
  | [] => none
  | c :: s =>
    match rsplit s with
    | some (a, b) => some (c :: a, b)
    | none => if c = '}' then some ([], s) else none

/-- the tables of `_namespaces` (792-796): names as they are written, prefixes of namespaces -/
structure Names where
  qnames : Dict Str Str := []
  spaces : Dict Str Str := []

/-- `add_qname(qname)` (800-825); `"{a"` has no `}`: the unpacking raises ValueError -/
def Names.add (t : Names) (q : Str) : Except PyErr Names :=
  match q with
  | '{' :: s =>
    match rsplit s with
    | none => .error .value
    | some (uri, tag) =>
      match dget t.spaces uri with
      | some pre => .ok { t with qnames := dset t.qnames q (pre ++ ':' :: tag) }
      | none =>
        let pre := (dget wellKnown uri).getD ("ns".toList ++ natStr t.spaces.length)
        .ok ⟨dset t.qnames q (pre ++ ':' :: tag), if pre = "xml".toList then t.spaces else dset t.spaces uri pre⟩
  | _ => .ok { t with qnames := dset t.qnames q q }

/-- `if key not in qnames: add_qname(key)` (834, 841) for each of a list -/
def Names.addAll (t : Names) : List Str → Except PyErr Names
  | [] => .ok t
  | q :: qs =>
    match (if dget t.qnames q = none then t.add q else .ok t) with
    | .error e => .error e
    | .ok t => t.addAll qs

mutual
/-- the names in the order of `elem.iter()` (828-847): each element's tag, then its attributes' names -/
def namesOf : Xml → List Str
  | .el t a c => t :: dkeys a ++ namesOfL c
/-- of a list of elements -/
def namesOfL : List Xml → List Str
  | [] => []
  | x :: xs => namesOf x ++ namesOfL xs
end

/-- one step of the sorting -/
def insPre (x : Str × Str) : List (Str × Str) → List (Str × Str)
  | [] => [x]
  | y :: ys => if x.2 ≤ y.2 then x :: y :: ys else y :: insPre x ys

/-- `sorted(namespaces.items(), key=lambda x: x[1])` (871-872) -/
def sortPre : List (Str × Str) → List (Str × Str)
  | [] => []
  | x :: xs => insPre x (sortPre xs)

/-- the namespace declarations of the root (869-878), sorted on the prefix -/
def decls (old : Bool) (spaces : Dict Str Str) : Str :=
  (sortPre spaces).flatMap
    (fun e => " xmlns:".toList ++ e.2 ++ "=\"".toList ++ escAttr old e.1 ++ "\"".toList)

mutual
/-- `_serialize_xml(write, elem, qnames, namespaces, short_empty_elements=True)` (850-898). `q` is the table of
names, which has all of them; `ds` is the text of the namespace declarations, empty but for the root. -/
def ser (old : Bool) (q : Str → Str) (ds : Str) : Xml → Str
  | .el t a c =>
    "<".toList ++ q t ++ ds ++ a.flatMap (fun e => " ".toList ++ q e.1 ++ "=\"".toList ++ escAttr old e.2 ++ "\"".toList) ++
      match c with
      | [] => " />".toList
      | x :: xs => ">".toList ++ ser old q [] x ++ serL old q xs ++ "</".toList ++ q t ++ ">".toList
/-- the children (891-893) -/
def serL (old : Bool) (q : Str → Str) : List Xml → Str
  | [] => []
  | x :: xs => ser old q [] x ++ serL old q xs
end

/-- `tree.write(f, encoding="utf-8")` (679-730) -/
def write (old : Bool) (x : Xml) : Except PyErr Str :=
  match Names.addAll {} (namesOf x) with
  | .error e => .error e
  | .ok t => .ok (ser old (fun k => (dget t.qnames k).getD []) (decls old t.spaces) x)

end ET

/-- `XmlCodec.encode_utf8string(doc, verbose, verbose_node_spans, document_id, extra_fields_ok, type_validation)`
(codec.py:984-997) -/
def World.xmlString (w : World) (old : Bool) (p : PyStr) (verbose verboseSpans : Bool) (docId : Str) (extraOk typeVal : Bool) :
    World × Except PyErr Str :=
  match w.xmlTree p verbose verboseSpans docId extraOk typeVal with
  | (w, .error e) => (w, .error e)
  | (w, .ok x) => (w, ET.write old x)

end Verif
