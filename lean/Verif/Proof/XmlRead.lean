import Verif.Model.XmlText
import Verif.Props.Xml
set_option linter.unusedSimpArgs false
/-
A reader of XML text, after the W3C recommendations "Extensible Markup Language (XML) 1.0 (Fifth Edition)" and
"Namespaces in XML 1.0 (Third Edition)", and what it reads in the output of ElementTree (C108). Of the grammar of
documents it has elements with attributes and the references in attribute values; it returns `none` also for
documents with character data, comments, processing instructions, CDATA sections, an XML declaration or a DTD,
none of which the export writes.
-/
namespace Verif
open World

namespace Spec
namespace XmlText

/-- `Char` (XML 1.0, production 2), see `Spec.Xml.Allowed` -/
def allowed (c : Char) : Bool :=
  c.toNat = 9 || c.toNat = 10 || c.toNat = 13 || (0x20 ≤ c.toNat && c.toNat ≤ 0xD7FF) || (0xE000 ≤ c.toNat && c.toNat ≤ 0xFFFD) ||
    0x10000 ≤ c.toNat

/-- `NameStartChar` without the colon (XML 1.0, production 4; Namespaces, production 4) -/
def ncStart (c : Char) : Bool :=
  let n := c.toNat
  (65 ≤ n && n ≤ 90) || n = 95 || (97 ≤ n && n ≤ 122) || (0xC0 ≤ n && n ≤ 0xD6) || (0xD8 ≤ n && n ≤ 0xF6) ||
    (0xF8 ≤ n && n ≤ 0x2FF) || (0x370 ≤ n && n ≤ 0x37D) || (0x37F ≤ n && n ≤ 0x1FFF) || (0x200C ≤ n && n ≤ 0x200D) ||
    (0x2070 ≤ n && n ≤ 0x218F) || (0x2C00 ≤ n && n ≤ 0x2FEF) || (0x3001 ≤ n && n ≤ 0xD7FF) || (0xF900 ≤ n && n ≤ 0xFDCF) ||
    (0xFDF0 ≤ n && n ≤ 0xFFFD) || (0x10000 ≤ n && n ≤ 0xEFFFF)

/-- `NameChar` without the colon (XML 1.0, production 4a) -/
def ncChar (c : Char) : Bool :=
  let n := c.toNat
  ncStart c || n = 45 || n = 46 || (48 ≤ n && n ≤ 57) || n = 0xB7 || (0x300 ≤ n && n ≤ 0x36F) || (0x203F ≤ n && n ≤ 0x2040)

/-- `NCName` (Namespaces, production 4): a name without a colon -/
def ncName : Str → Bool
  | [] => false
  | c :: s => ncStart c && s.all ncChar

/-- white space (production 3) -/
def blank (c : Char) : Bool := c = ' ' || c = '\t' || c = '\n' || c = '\r'

/-- skip white space -/
def skipBlank (s : Str) : Str := s.dropWhile blank

/-- line ends (section 2.11): CR LF and CR alone are LF -/
def lineEnds : Str → Str
  | [] => []
  | '\r' :: '\n' :: s => '\n' :: lineEnds s
  | c :: s => (if c = '\r' then '\n' else c) :: lineEnds s

/-- `Name` (production 5), and the rest -/
def rName : Str → Option (Str × Str)
  | [] => none
  | c :: s => if ncStart c || c = ':' then
      some (c :: s.takeWhile (fun c => ncChar c || c = ':'), s.dropWhile (fun c => ncChar c || c = ':')) else none

/-- digits in a base -/
def digits (base : Nat) (val : Char → Option Nat) : Nat → Str → Option Nat
  | n, [] => some n
  | n, c :: s => match val c with
    | some d => digits base val (n * base + d) s
    | none => none

/-- the value of a decimal digit -/
def dec (c : Char) : Option Nat := if 48 ≤ c.toNat && c.toNat ≤ 57 then some (c.toNat - 48) else none

/-- the value of a hexadecimal digit -/
def hex (c : Char) : Option Nat :=
  if 48 ≤ c.toNat && c.toNat ≤ 57 then some (c.toNat - 48)
  else if 97 ≤ c.toNat && c.toNat ≤ 102 then some (c.toNat - 87)
  else if 65 ≤ c.toNat && c.toNat ≤ 70 then some (c.toNat - 55) else none

/-- the character with a number, when XML allows it -/
def charOf (n : Nat) : Option Char :=
  if n.isValidChar ∧ allowed (Char.ofNat n) = true then some (Char.ofNat n) else none

/-- a reference without `&` and `;` (production 67): a predefined entity or a character's number -/
def reference : Str → Option Char
  | ['a', 'm', 'p'] => some '&'
  | ['l', 't'] => some '<'
  | ['g', 't'] => some '>'
  | ['q', 'u', 'o', 't'] => some '"'
  | ['a', 'p', 'o', 's'] => some '\''
  | '#' :: 'x' :: d :: s => (digits 16 hex 0 (d :: s)).bind charOf
  | '#' :: d :: s => (digits 10 dec 0 (d :: s)).bind charOf
  | _ => none

/-- the value of an attribute up to the closing quote (production 10; normalisation of section 3.3.3: white space
that is not written as a reference is a space), and the rest. In a reference, `ref` is what has been read of it. -/
def rValue (quote : Char) : Option Str → Str → Option (Str × Str)
  | _, [] => none
  | none, c :: s =>
    if c = quote then some ([], s)
    else if c = '<' then none
    else if c = '&' then rValue quote (some []) s
    else (rValue quote none s).map (fun r => ((if blank c then ' ' else c) :: r.1, r.2))
  | some ref, c :: s =>
    if c = ';' then
      match reference ref with
      | none => none
      | some x => (rValue quote none s).map (fun r => (x :: r.1, r.2))
    else rValue quote (some (ref ++ [c])) s

/-- the attributes and the end of a start tag (productions 40, 41, 44): the attributes, whether the element is
empty, and the rest -/
def rAttrs : Nat → Str → Option (List (Str × Str) × Bool × Str)
  | 0, _ => none
  | f + 1, s =>
    match skipBlank s with
    | '>' :: r => some ([], false, r)
    | '/' :: '>' :: r => some ([], true, r)
    | _ =>
      if skipBlank s = s then none
      else match rName (skipBlank s) with
        | none => none
        | some (n, r) =>
          match skipBlank r with
          | '=' :: r =>
            match skipBlank r with
            | q :: r =>
              if q = '"' ∨ q = '\'' then
                match rValue q none r with
                | none => none
                | some (v, r) =>
                  match rAttrs f r with
                  | none => none
                  | some (as, e, r) => some ((n, v) :: as, e, r)
              else none
            | [] => none
          | _ => none

mutual
/-- an element (production 39), and the rest -/
def rElement : Nat → Str → Option (Xml × Str)
  | f + 1, '<' :: s =>
    match rName s with
    | none => none
    | some (n, r) =>
      match rAttrs (r.length + 1) r with
      | none => none
      | some (as, true, r) => some (.el n as [], r)
      | some (as, false, r) =>
        match rContent f r with
        | none => none
        | some (c, r) =>
          match rName r with
          | none => none
          | some (m, r) =>
            if m = n then
              match skipBlank r with
              | '>' :: r => some (.el n as c, r)
              | _ => none
            else none
  | _, _ => none
/-- elements up to an end tag (production 43), and what follows its `</` -/
def rContent : Nat → Str → Option (List Xml × Str)
  | _, '<' :: '/' :: r => some ([], r)
  | f + 1, s =>
    match rElement f s with
    | none => none
    | some (x, r) =>
      match rContent f r with
      | none => none
      | some (xs, r) => some (x :: xs, r)
  | 0, _ => none
end

/-- the namespace of the prefix `xml` -/
def xmlSpace : Str := "http://www.w3.org/XML/1998/namespace".toList

/-- a qualified name (Namespaces, production 7): prefix and local part -/
def qualified (s : Str) : Option (Option Str × Str) :=
  match s.takeWhile (· != ':'), s.dropWhile (· != ':') with
  | a, [] => if ncName a then some (none, a) else none
  | a, _ :: b => if ncName a && ncName b then some (some a, b) else none

/-- is the attribute a declaration (Namespaces, production 1)? Of which prefix (empty: the default)? -/
def declares (k : Str) : Option Str :=
  if k = "xmlns".toList then some []
  else match qualified k with
    | some (some p, l) => if p = "xmlns".toList then some l else none
    | _ => none

/-- the name in braces notation: `{namespace}local` -/
def braces (u l : Str) : Str := if u = [] then l else '{' :: u ++ '}' :: l

/-- the declarations of an element -/
def declared (as : List (Str × Str)) : Dict Str Str := as.filterMap (fun e => (declares e.1).map (fun p => (p, e.2)))

/-- May the prefix be bound to the name (Namespaces, section 3)? -/
def mayBind (e : Str × Str) : Bool :=
  e.1 != "xmlns".toList && (e.1 = [] || e.2 != []) && (decide (e.1 = "xml".toList) == decide (e.2 = xmlSpace))

/-- a name under the bindings; names of attributes do not get the default namespace (Namespaces, section 6) -/
def expandName (env : Dict Str Str) (isAttr : Bool) (k : Str) : Option Str :=
  match qualified k with
  | none => none
  | some (none, l) => some (if isAttr then l else braces ((dget env []).getD []) l)
  | some (some p, l) => (dget env p).map (fun u => braces u l)

/-- apply a partial function to a list -/
def mapO {α β : Type} (f : α → Option β) : List α → Option (List β)
  | [] => some []
  | a :: l => match f a, mapO f l with
    | some b, some bs => some (b :: bs)
    | _, _ => none

mutual
/-- names with their namespaces instead of prefixes; no two attributes of an element may have the same name
(XML 1.0, section 3.1; Namespaces, section 6.3) -/
def expand (env : Dict Str Str) : Xml → Option Xml
  | .el t as c =>
    if (as.map (·.1)).Nodup ∧ (declared as).all mayBind = true then
      match expandName (declared as ++ env) false t,
          mapO (fun e => (expandName (declared as ++ env) true e.1).map (fun k => (k, e.2)))
            (as.filter (fun e => (declares e.1).isNone)), expandL (declared as ++ env) c with
      | some t, some as, some c => if (as.map (·.1)).Nodup then some (.el t as c) else none
      | _, _, _ => none
    else none
/-- of a list of elements -/
def expandL (env : Dict Str Str) : List Xml → Option (List Xml)
  | [] => some []
  | x :: xs => match expand env x, expandL env xs with
    | some x, some xs => some (x :: xs)
    | _, _ => none
end

/-- read a document: an element, white space after it (production 1) -/
def read (s : Str) : Option Xml :=
  if s.all allowed then
    match rElement (s.length + 1) (lineEnds s) with
    | some (x, r) => if skipBlank r = [] then expand [("xml".toList, xmlSpace)] x else none
    | none => none
  else none

mutual
/-- something holds of the tag and the attributes of every element -/
def Every (P : Str → Dict Str Str → Prop) : Xml → Prop
  | .el t a c => P t a ∧ EveryL P c
/-- of a list of elements -/
def EveryL (P : Str → Dict Str Str → Prop) : List Xml → Prop
  | [] => True
  | x :: xs => Every P x ∧ EveryL P xs
end

/-- the name of an attribute that needs no declaration: a name without colon other than `xmlns`, or `xml:id` -/
def AttrName (k : Str) : Prop := ncName k = true ∧ k ≠ "xmlns".toList ∨ k = xmlId

/-- a tag and attributes that XML can have -/
def FitTag (t : Str) (a : Dict Str Str) : Prop :=
  ncName t = true ∧ (∀ e ∈ a, AttrName e.1 ∧ ∀ c ∈ e.2, Spec.Xml.Allowed c) ∧ (dkeys a).Nodup

/-- an element tree that XML can have -/
def Fit : Xml → Prop := Every FitTag

mutual
/-- change all values of attributes -/
def mapVals (g : Str → Str) : Xml → Xml
  | .el t a c => .el t (a.map (fun e => (e.1, g e.2))) (mapValsL g c)
/-- of a list of elements -/
def mapValsL (g : Str → Str) : List Xml → List Xml
  | [] => []
  | x :: xs => mapVals g x :: mapValsL g xs
end

end XmlText
end Spec

open Spec.XmlText

/-! ### characters -/

theorem allowed_iff (c : Char) : allowed c = true ↔ Spec.Xml.Allowed c := by
  have hv : c.val.toNat < 0xD800 ∨ 0xDFFF < c.val.toNat ∧ c.val.toNat < 0x110000 := c.valid
  simp only [allowed, Spec.Xml.Allowed, Bool.or_eq_true, Bool.and_eq_true, decide_eq_true_eq, Char.toNat,
    ← UInt32.toNat_inj, UInt32.le_iff_toNat_le]
  simp only [show (0x9 : UInt32).toNat = 9 from rfl, show (0xA : UInt32).toNat = 10 from rfl,
    show (0xD : UInt32).toNat = 13 from rfl, show (0x20 : UInt32).toNat = 0x20 from rfl,
    show (0xD7FF : UInt32).toNat = 0xD7FF from rfl, show (0xE000 : UInt32).toNat = 0xE000 from rfl,
    show (0xFFFD : UInt32).toNat = 0xFFFD from rfl, show (0x10000 : UInt32).toNat = 0x10000 from rfl,
    show (0x10FFFF : UInt32).toNat = 0x10FFFF from rfl]
  omega

theorem ncChar_allowed {c : Char} (h : ncChar c = true) : allowed c = true ∧ c ≠ '\r' ∧ c ≠ ':' ∧ c ≠ '{' ∧ c ≠ '=' ∧ c ≠ '>' ∧
    c ≠ '/' ∧ blank c = false := by
  have e : ∀ d : Char, c = d → c.toNat = d.toNat := fun d h => by rw [h]
  simp only [ncChar, ncStart, Bool.or_eq_true, Bool.and_eq_true, decide_eq_true_eq] at h
  simp only [allowed, blank, Bool.or_eq_true, Bool.and_eq_true, decide_eq_true_eq, Bool.or_eq_false_iff, decide_eq_false_iff_not]
  have e1 := e '\r'; have e2 := e ':'; have e3 := e '{'; have e4 := e '='; have e5 := e '>'; have e6 := e '/'
  have e7 := e ' '; have e8 := e '\t'; have e9 := e '\n'
  simp only [show '\r'.toNat = 13 from rfl, show ':'.toNat = 58 from rfl, show '{'.toNat = 123 from rfl, show '='.toNat = 61 from rfl,
    show '>'.toNat = 62 from rfl, show '/'.toNat = 47 from rfl, show ' '.toNat = 32 from rfl, show '\t'.toNat = 9 from rfl,
    show '\n'.toNat = 10 from rfl] at e1 e2 e3 e4 e5 e6 e7 e8 e9
  refine ⟨by omega, ?_, ?_, ?_, ?_, ?_, ?_, ?_⟩
  · intro h'; have := e1 h'; omega
  · intro h'; have := e2 h'; omega
  · intro h'; have := e3 h'; omega
  · intro h'; have := e4 h'; omega
  · intro h'; have := e5 h'; omega
  · intro h'; have := e6 h'; omega
  · refine ⟨⟨⟨?_, ?_⟩, ?_⟩, ?_⟩
    · intro h'; have := e7 h'; omega
    · intro h'; have := e8 h'; omega
    · intro h'; have := e9 h'; omega
    · intro h'; have := e1 h'; omega

theorem ncStart_char {c : Char} (h : ncStart c = true) : ncChar c = true := by
  simp only [ncChar, h, Bool.true_or]

theorem ncName_chars {s : Str} (h : ncName s = true) : ∀ c ∈ s, ncChar c = true := by
  cases s with
  | nil => cases h
  | cons c s =>
    simp only [ncName, Bool.and_eq_true, List.all_eq_true] at h
    intro d hd
    rcases List.mem_cons.mp hd with rfl | hd
    · exact ncStart_char h.1
    · exact h.2 d hd

/-! ### names -/

/-- a name with colons anywhere -/
def RawName (s : Str) : Prop := ∃ c r, s = c :: r ∧ (ncStart c || decide (c = ':')) = true ∧ ∀ x ∈ r, (ncChar x || decide (x = ':')) = true

theorem ncName_raw {s : Str} (h : ncName s = true) : RawName s := by
  cases s with
  | nil => cases h
  | cons c s =>
    have := ncName_chars h
    simp only [ncName, Bool.and_eq_true, List.all_eq_true] at h
    exact ⟨c, s, rfl, by simp [h.1], fun x hx => by simp [h.2 x hx]⟩

/-- how ElementTree writes a name of `Fit` -/
def wireName (k : Str) : Str := if k = xmlId then "xml:id".toList else k

theorem xmlid_raw : RawName "xml:id".toList := ⟨'x', "ml:id".toList, rfl, by decide, by decide⟩

theorem attrName_raw {k : Str} (h : AttrName k) : RawName (wireName k) := by
  rcases h with h | rfl
  · have : k ≠ xmlId := by rintro rfl; exact absurd h.1 (by decide)
    simp only [wireName, this, if_false]
    exact ncName_raw h.1
  · simp only [wireName, if_true]
    exact xmlid_raw

theorem raw_char {c : Char} (h : (ncChar c || decide (c = ':')) = true) : allowed c = true ∧ c ≠ '\r' ∧ c ≠ '{' ∧ c ≠ '=' ∧ c ≠ '>' ∧
    c ≠ '/' ∧ blank c = false := by
  simp only [Bool.or_eq_true, decide_eq_true_eq] at h
  rcases h with h | rfl
  · obtain ⟨a, b, -, d⟩ := ncChar_allowed h
    exact ⟨a, b, d⟩
  · decide

theorem raw_chars {s : Str} (h : RawName s) : ∀ c ∈ s, (ncChar c || decide (c = ':')) = true := by
  obtain ⟨c, r, rfl, h1, h2⟩ := h
  intro d hd
  rcases List.mem_cons.mp hd with rfl | hd
  · simp only [Bool.or_eq_true] at h1 ⊢
    exact h1.imp ncStart_char id
  · exact h2 d hd

/-- a character that ends a name -/
def EndsName (s : Str) : Prop := ∀ c, s.head? = some c → (ncChar c || decide (c = ':')) = false

theorem rName_raw {n t : Str} (h : RawName n) (ht : EndsName t) : rName (n ++ t) = some (n, t) := by
  obtain ⟨c, r, rfl, h1, h2⟩ := h
  have e : (r ++ t).takeWhile (fun c => ncChar c || decide (c = ':')) = r ∧
      (r ++ t).dropWhile (fun c => ncChar c || decide (c = ':')) = t := by
    clear h1
    induction r with
    | nil =>
      cases t with
      | nil => exact ⟨rfl, rfl⟩
      | cons d t => have := ht d rfl; simp only [List.nil_append, List.takeWhile_cons, List.dropWhile_cons, this]; exact ⟨rfl, rfl⟩
    | cons d r ih =>
      have := h2 d (by simp)
      obtain ⟨a, b⟩ := ih (fun x hx => h2 x (by simp [hx]))
      simp only [List.cons_append, List.takeWhile_cons, List.dropWhile_cons, this, if_true, a, b, and_self]
  simp only [List.cons_append, rName, h1, if_true, e.1, e.2]

theorem skipBlank_cons {c : Char} {s : Str} (h : blank c = false) : skipBlank (c :: s) = c :: s := by
  simp only [skipBlank, List.dropWhile_cons, h]; rfl

theorem skipBlank_space (s : Str) : skipBlank (' ' :: s) = skipBlank s := by
  simp only [skipBlank, List.dropWhile_cons, show blank ' ' = true from rfl, if_true]

/-! ### escaping -/

/-- what becomes of one character -/
def esc1 (c : Char) : Str :=
  if c = '&' then "&amp;".toList else if c = '<' then "&lt;".toList else if c = '>' then "&gt;".toList
  else if c = '"' then "&quot;".toList else if c = '\r' then "&#13;".toList else if c = '\n' then "&#10;".toList
  else if c = '\t' then "&#09;".toList else [c]

/-- before the line ends -/
def escA (c : Char) : Str :=
  if c = '&' then "&amp;".toList else if c = '<' then "&lt;".toList else if c = '>' then "&gt;".toList
  else if c = '"' then "&quot;".toList else [c]

theorem replace1_flatMap (c : Char) (r : Str) (g : Char → Str) (s : Str) :
    ET.replace1 c r (s.flatMap g) = s.flatMap (fun x => ET.replace1 c r (g x)) := by
  simp only [ET.replace1, List.flatMap_assoc]

theorem replace1_id (c : Char) (r : Str) (s : Str) : ET.replace1 c r s = s.flatMap (fun x => if x = c then r else [x]) := rfl

theorem escA_eq (s : Str) : ET.replace1 '"' "&quot;".toList (ET.replace1 '>' "&gt;".toList (ET.replace1 '<' "&lt;".toList
    (ET.replace1 '&' "&amp;".toList s))) = s.flatMap escA := by
  rw [replace1_id '&', replace1_flatMap, replace1_flatMap, replace1_flatMap]
  congr 1
  funext c
  simp only [escA]
  by_cases h1 : c = '&'
  · subst h1; decide
  by_cases h2 : c = '<'
  · subst h2; decide
  by_cases h3 : c = '>'
  · subst h3; decide
  by_cases h4 : c = '"'
  · subst h4; decide
  simp [ET.replace1, h1, h2, h3, h4]

theorem esc_tail (s : Str) : ET.replace1 '\t' "&#09;".toList (ET.replace1 '\n' "&#10;".toList
    (ET.replace1 '\r' "&#13;".toList (s.flatMap escA))) = s.flatMap esc1 := by
  rw [replace1_flatMap, replace1_flatMap, replace1_flatMap]
  congr 1
  funext c
  simp only [escA, esc1]
  by_cases h1 : c = '&'
  · subst h1; decide
  by_cases h2 : c = '<'
  · subst h2; decide
  by_cases h3 : c = '>'
  · subst h3; decide
  by_cases h4 : c = '"'
  · subst h4; decide
  by_cases h5 : c = '\r'
  · subst h5; decide
  by_cases h6 : c = '\n'
  · subst h6; decide
  by_cases h7 : c = '\t'
  · subst h7; decide
  simp [ET.replace1, h1, h2, h3, h4, h5, h6, h7]

theorem lineEnds_app {l : Str} (h : '\r' ∉ l) (s : Str) : lineEnds (l ++ s) = l ++ lineEnds s := by
  induction l with
  | nil => rfl
  | cons c l ih =>
    simp only [List.mem_cons, not_or] at h
    rw [List.cons_append, lineEnds, ih h.2]
    · simp [Ne.symm h.1]
    · rintro s' rfl; exact (h.1 rfl).elim

theorem crlf_eq (s : Str) : ET.crlf s = lineEnds s := by
  fun_induction ET.crlf s with
  | case1 => rfl
  | case2 s ih => simp only [lineEnds, ih]
  | case3 c s hne ih =>
    rw [lineEnds, ih]
    intro s' h1 h2
    exact hne s' h1 h2

theorem escA_cr (c : Char) (h : c ≠ '\r') : '\r' ∉ escA c := by
  unfold escA
  split
  · decide
  split
  · decide
  split
  · decide
  split
  · decide
  simp [Ne.symm h]

theorem escA_nl {c : Char} {s t : Str} (h : escA c ++ s = '\n' :: t) : c = '\n' := by
  unfold escA at h
  split at h
  · simp at h
  split at h
  · simp at h
  split at h
  · simp at h
  split at h
  · simp at h
  simp at h
  exact h.1

theorem lineEnds_escA (s : Str) : lineEnds (s.flatMap escA) = (lineEnds s).flatMap escA := by
  fun_induction lineEnds s with
  | case1 => rfl
  | case2 s ih =>
    simp only [List.flatMap_cons, ← ih]
    rfl
  | case3 c s hne ih =>
    simp only [List.flatMap_cons, ← ih]
    by_cases hc : c = '\r'
    · subst hc
      have : lineEnds ('\r' :: s.flatMap escA) = '\n' :: lineEnds (s.flatMap escA) := by
        rw [lineEnds]
        · simp
        · intro s' _ h
          cases s with
          | nil => cases h
          | cons d s =>
            simp only [List.flatMap_cons] at h
            exact hne s rfl (by rw [escA_nl h])
      exact this
    · simp only [hc, if_false]
      exact lineEnds_app (escA_cr c hc) _

theorem lineEnds_no (s : Str) : '\r' ∉ lineEnds s := by
  fun_induction lineEnds s with
  | case1 => simp
  | case2 s ih => simpa using ih
  | case3 c s hne ih =>
    simp only [List.mem_cons, not_or]
    refine ⟨?_, ih⟩
    split
    · decide
    · exact Ne.symm ‹_›

/-- what is read of a value -/
def asRead (old : Bool) (s : Str) : Str := if old then lineEnds s else s

theorem escAttr_eq (old : Bool) (s : Str) : ET.escAttr old s = (asRead old s).flatMap esc1 := by
  cases old with
  | false =>
    simp only [ET.escAttr, asRead, Bool.false_eq_true, if_false, escA_eq, esc_tail]
  | true =>
    simp only [ET.escAttr, asRead, if_true, escA_eq, crlf_eq, lineEnds_escA, ← esc_tail]
    congr 2
    generalize hs : lineEnds s = t
    have hr : '\r' ∉ t := hs ▸ lineEnds_no s
    have : '\r' ∉ t.flatMap escA := by
      simp only [List.mem_flatMap, not_exists, not_and]
      intro c hc
      exact escA_cr c (by rintro rfl; exact hr hc)
    rw [replace1_id]
    generalize t.flatMap escA = u at this
    clear hs hr
    induction u with
    | nil => rfl
    | cons c u ih =>
      simp only [List.mem_cons, not_or] at this
      rw [List.flatMap_cons, ← ih this.2]
      simp [Ne.symm this.1]

theorem esc1_chars {c : Char} (h : allowed c = true) : ∀ d ∈ esc1 c, allowed d = true ∧ d ≠ '\r' := by
  unfold esc1
  split
  · decide
  split
  · decide
  split
  · decide
  split
  · decide
  split
  · decide
  split
  · decide
  split
  · decide
  · intro d hd
    simp only [List.mem_singleton] at hd
    subst hd
    exact ⟨h, ‹_›⟩

/-! ### reading a value -/

theorem rValue_esc1 (c : Char) (s : Str) :
    rValue '"' none (esc1 c ++ s) = (rValue '"' none s).map (fun r => (c :: r.1, r.2)) := by
  unfold esc1
  split
  · subst c; simp [rValue, reference]
  split
  · subst c; simp [rValue, reference]
  split
  · subst c; simp [rValue, reference]
  split
  · subst c; simp [rValue, reference]
  split
  · subst c
    have : reference ['#', '1', '3'] = some '\r' := by decide
    simp [rValue, this]
  split
  · subst c
    have : reference ['#', '1', '0'] = some '\n' := by decide
    simp [rValue, this]
  split
  · subst c
    have : reference ['#', '0', '9'] = some '\t' := by decide
    simp [rValue, this]
  · rename_i h1 h2 h3 h4 h5 h6 h7
    by_cases h8 : c = ' '
    · subst h8; simp [rValue, blank]
    · simp [rValue, blank, h1, h2, h3, h4, h5, h6, h7, h8]

theorem rValue_escaped (v s : Str) : rValue '"' none (v.flatMap esc1 ++ '"' :: s) = some (v, s) := by
  induction v with
  | nil => simp [rValue]
  | cons c v ih =>
    rw [List.flatMap_cons, List.append_assoc, rValue_esc1, ih]
    rfl


/-! ### reading tags -/

/-- the text of attributes -/
def attrText (old : Bool) (q : Str → Str) (a : Dict Str Str) : Str :=
  a.flatMap (fun e => " ".toList ++ q e.1 ++ "=\"".toList ++ ET.escAttr old e.2 ++ "\"".toList)

theorem attrText_cons (old : Bool) (q : Str → Str) (e : Str × Str) (a : Dict Str Str) :
    attrText old q (e :: a) = ' ' :: (q e.1 ++ '=' :: '"' :: (ET.escAttr old e.2 ++ '"' :: attrText old q a)) := by
  simp [attrText]

theorem ends_eq (s : Str) : EndsName ('=' :: s) := by
  intro c h; cases h; decide

/-- what stands at the end of a start tag -/
def Closes (s : Str) (empty : Bool) (r : Str) : Prop := s = (if empty then ' ' :: '/' :: '>' :: r else '>' :: r)

theorem rAttrs_text (old : Bool) (q : Str → Str) (a : Dict Str Str) (ha : ∀ e ∈ a, RawName (q e.1)) {s r : Str} {b : Bool}
    (hs : Closes s b r) : ∀ f, a.length < f →
      rAttrs f (attrText old q a ++ s) = some (a.map (fun e => (q e.1, asRead old e.2)), b, r) := by
  induction a with
  | nil =>
    intro f hf
    cases f with
    | zero => cases hf
    | succ f =>
      simp only [attrText, List.flatMap_nil, List.nil_append, List.map_nil, rAttrs]
      unfold Closes at hs
      cases b with
      | false => subst hs; simp [skipBlank_cons (c := '>') (s := r) rfl]
      | true =>
        subst hs
        simp only [if_true, skipBlank_space, skipBlank_cons (c := '/') (s := '>' :: r) rfl]
  | cons e a ih =>
    intro f hf
    cases f with
    | zero => cases hf
    | succ f =>
      have hf' : a.length < f := by simpa using hf
      have hr := ha e (by simp)
      obtain ⟨c, t, hc, h1, h2⟩ := id hr
      have hch := raw_char (raw_chars hr c (by rw [hc]; simp))
      rw [attrText_cons]
      have hsk : ∀ u, skipBlank (' ' :: (q e.1 ++ u)) = q e.1 ++ u := by
        intro u
        rw [skipBlank_space, hc, List.cons_append, skipBlank_cons hch.2.2.2.2.2.2]
      have hv : rValue '"' none (ET.escAttr old e.2 ++ '"' :: attrText old q a ++ s) = some (asRead old e.2, attrText old q a ++ s) := by
        rw [escAttr_eq, List.append_assoc, List.cons_append, rValue_escaped]
      simp only [List.cons_append, List.append_assoc] at hv ⊢
      rw [rAttrs, hsk]
      split
      · rename_i r' heq
        rw [hc] at heq; simp at heq; exact (hch.2.2.2.2.1 heq.1).elim
      · rename_i r' heq
        rw [hc] at heq; simp at heq; exact (hch.2.2.2.2.2.1 heq.1).elim
      · rw [if_neg (by rw [hc]; intro h; have := congrArg List.length h; simp at this)]
        rw [rName_raw hr (ends_eq _)]
        simp only [skipBlank_cons (c := '=') rfl, skipBlank_cons (c := '"') rfl, true_or, if_true, hv,
          ih (fun e he => ha e (by simp [he])) f hf', List.map_cons]

/-! ### reading elements -/

mutual
/-- names and values as they are read -/
def rawTree (old : Bool) (q : Str → Str) : Xml → Xml
  | .el t a c => .el (q t) (a.map (fun e => (q e.1, asRead old e.2))) (rawTreeL old q c)
/-- of a list of elements -/
def rawTreeL (old : Bool) (q : Str → Str) : List Xml → List Xml
  | [] => []
  | x :: xs => rawTree old q x :: rawTreeL old q xs
end

mutual
/-- the fuel an element takes -/
def cost : Xml → Nat
  | .el _ _ c => 1 + costL c
/-- of a list of elements -/
def costL : List Xml → Nat
  | [] => 0
  | x :: xs => 1 + max (cost x) (costL xs)
end

/-- all names can be read as names -/
def NamesOk (q : Str → Str) : Xml → Prop := Every (fun t a => RawName (q t) ∧ ∀ e ∈ a, RawName (q e.1))

theorem ser_el (old : Bool) (q : Str → Str) (t : Str) (a : Dict Str Str) (c : List Xml) : ET.ser old q [] (.el t a c) =
    '<' :: (q t ++ (attrText old q a ++ (if c = [] then " />".toList else '>' :: (ET.serL old q c ++ '<' :: '/' :: (q t ++ ">".toList))))) := by
  cases c with
  | nil => simp [ET.ser, attrText]
  | cons x xs => simp [ET.ser, ET.serL, attrText]

theorem attrText_ends (old : Bool) (q : Str → Str) (a : Dict Str Str) {s : Str} (hs : EndsName s) : EndsName (attrText old q a ++ s) := by
  cases a with
  | nil => exact hs
  | cons e a =>
    rw [attrText_cons]
    intro c h; cases h; decide

theorem attrText_length (old : Bool) (q : Str → Str) (a : Dict Str Str) : a.length ≤ (attrText old q a).length := by
  induction a with
  | nil => simp
  | cons e a ih => rw [attrText_cons]; simp; omega

theorem rContent_end (f : Nat) (r : Str) : rContent f ('<' :: '/' :: r) = some ([], r) := by
  cases f <;> simp [rContent]

theorem ser_head (old : Bool) (q : Str → Str) (x : Xml) : ∃ s, ET.ser old q [] x = '<' :: s := by
  obtain ⟨t, a, c⟩ := x
  exact ⟨_, ser_el old q t a c⟩

theorem rContent_el {f : Nat} {s : Str} (h : ∀ r, s ≠ '<' :: '/' :: r) : rContent (f + 1) s =
    (match rElement f s with
    | none => none
    | some (x, r) =>
      match rContent f r with
      | none => none
      | some (xs, r) => some (x :: xs, r)) := by
  rw [rContent]
  exact fun r hr => h r hr

mutual
theorem rElement_ser (old : Bool) (q : Str → Str) : ∀ (x : Xml), NamesOk q x → ∀ f s, cost x ≤ f →
    rElement f (ET.ser old q [] x ++ s) = some (rawTree old q x, s)
  | .el t a c, h, f, s, hf => by
    obtain ⟨⟨h1, h2⟩, h3⟩ := h
    cases f with
    | zero => simp [cost] at hf
    | succ f =>
      have hf' : costL c ≤ f := by simp only [cost] at hf; omega
      have hn : ∀ u, EndsName u → rName (q t ++ (attrText old q a ++ u)) = some (q t, attrText old q a ++ u) :=
        fun u hu => rName_raw h1 (attrText_ends old q a hu)
      rw [ser_el]
      by_cases hc : c = []
      · subst hc
        simp only [if_true, List.cons_append, List.append_assoc, rElement]
        rw [hn _ (by intro c h; cases h; decide)]
        simp only
        rw [rAttrs_text old q a h2 (s := " />".toList ++ s) (b := true) (r := s) rfl _ (by
          have := attrText_length old q a; simp only [List.length_append]; omega)]
        rfl
      · simp only [hc, if_false, List.cons_append, List.append_assoc, rElement]
        rw [hn _ (by intro c h; cases h; decide)]
        simp only
        rw [rAttrs_text old q a h2 (s := '>' :: (ET.serL old q c ++ '<' :: '/' :: (q t ++ (">".toList ++ s)))) (b := false) (r := ET.serL old q c ++ '<' :: '/' :: (q t ++ (">".toList ++ s))) rfl _ (by
          have := attrText_length old q a; simp only [List.length_append]; omega)]
        simp only
        rw [rContent_ser old q c h3 f _ hf']
        simp only
        rw [rName_raw h1 (by intro c h; cases h; decide)]
        simp only [if_true]
        rfl
theorem rContent_ser (old : Bool) (q : Str → Str) : ∀ (l : List Xml), EveryL (fun t a => RawName (q t) ∧ ∀ e ∈ a, RawName (q e.1)) l →
    ∀ f s, costL l ≤ f → rContent f (ET.serL old q l ++ '<' :: '/' :: s) = some (rawTreeL old q l, s)
  | [], _, f, s, _ => by
    simp only [ET.serL, List.nil_append, rContent_end, rawTreeL]
  | x :: xs, h, f, s, hf => by
    cases f with
    | zero => simp [costL] at hf
    | succ f =>
      have hf' : cost x ≤ f ∧ costL xs ≤ f := by
        simp only [costL] at hf
        exact ⟨by have := Nat.le_max_left (cost x) (costL xs); omega, by have := Nat.le_max_right (cost x) (costL xs); omega⟩
      rw [ET.serL, List.append_assoc, rContent_el]
      · rw [rElement_ser old q x h.1 f _ hf'.1]
        simp only
        rw [rContent_ser old q xs h.2 f s hf'.2]
        rfl
      · intro r hr
        obtain ⟨t, a, c⟩ := x
        rw [ser_el] at hr
        obtain ⟨d, u, hd, h1, -⟩ := h.1.1.1
        rw [hd] at hr
        simp at hr
        rw [hr.1] at h1
        exact absurd h1 (by decide)
end

mutual
theorem cost_le (old : Bool) (q : Str → Str) : ∀ x : Xml, cost x ≤ (ET.ser old q [] x).length
  | .el t a c => by
    have := costL_le old q c
    rw [ser_el]
    by_cases hc : c = []
    · subst hc; simp [cost, costL]
    · simp [cost, hc]; omega
theorem costL_le (old : Bool) (q : Str → Str) : ∀ l : List Xml, costL l ≤ (ET.serL old q l).length + 1
  | [] => by simp [costL]
  | x :: xs => by
    have h1 := cost_le old q x
    have h2 := costL_le old q xs
    obtain ⟨s, hs⟩ := ser_head old q x
    have h3 : 1 ≤ (ET.ser old q [] x).length := by rw [hs]; simp
    simp only [costL, ET.serL, List.length_append]
    omega
end


/-! ### the characters of the text -/

/-- a character that the reader takes as it is -/
def FineChar (c : Char) : Prop := allowed c = true ∧ c ≠ '\r'

theorem fine_of_raw {s : Str} (h : RawName s) : ∀ c ∈ s, FineChar c := fun c hc =>
  ⟨(raw_char (raw_chars h c hc)).1, (raw_char (raw_chars h c hc)).2.1⟩

theorem lineEnds_allowed {s : Str} (h : ∀ c ∈ s, allowed c = true) : ∀ c ∈ lineEnds s, allowed c = true := by
  fun_induction lineEnds s with
  | case1 => simp
  | case2 s ih =>
    intro c hc
    rcases List.mem_cons.mp hc with rfl | hc
    · decide
    · exact ih (fun c hc => h c (by simp [hc])) c hc
  | case3 d s hne ih =>
    intro c hc
    rcases List.mem_cons.mp hc with rfl | hc
    · split
      · decide
      · exact h d (by simp)
    · exact ih (fun c hc => h c (by simp [hc])) c hc

theorem asRead_allowed {old : Bool} {s : Str} (h : ∀ c ∈ s, allowed c = true) : ∀ c ∈ asRead old s, allowed c = true := by
  cases old with
  | false => exact h
  | true => exact lineEnds_allowed h

theorem fine_esc {old : Bool} {s : Str} (h : ∀ c ∈ s, allowed c = true) : ∀ c ∈ ET.escAttr old s, FineChar c := by
  rw [escAttr_eq]
  intro c hc
  obtain ⟨d, hd, hc⟩ := List.mem_flatMap.mp hc
  exact esc1_chars (asRead_allowed h d hd) c hc

theorem fine_attrText {old : Bool} {q : Str → Str} {a : Dict Str Str}
    (h : ∀ e ∈ a, RawName (q e.1) ∧ ∀ c ∈ e.2, allowed c = true) : ∀ c ∈ attrText old q a, FineChar c := by
  induction a with
  | nil => intro c hc; cases hc
  | cons e a ih =>
    rw [attrText_cons]
    intro c hc
    simp only [List.mem_cons, List.mem_append] at hc
    rcases hc with rfl | hc | rfl | rfl | hc | rfl | hc
    · exact ⟨by decide, by decide⟩
    · exact fine_of_raw (h e (by simp)).1 c hc
    · exact ⟨by decide, by decide⟩
    · exact ⟨by decide, by decide⟩
    · exact fine_esc (h e (by simp)).2 c hc
    · exact ⟨by decide, by decide⟩
    · exact ih (fun e he => h e (by simp [he])) c hc

mutual
theorem fine_ser (old : Bool) (q : Str → Str) : ∀ x : Xml,
    Every (fun t a => RawName (q t) ∧ ∀ e ∈ a, RawName (q e.1) ∧ ∀ c ∈ e.2, allowed c = true) x → ∀ c ∈ ET.ser old q [] x, FineChar c
  | .el t a l, h => by
    have hl := fine_serL old q l h.2
    rw [ser_el]
    intro c hc
    simp only [List.mem_cons, List.mem_append] at hc
    rcases hc with rfl | hc | hc | hc
    · exact ⟨by decide, by decide⟩
    · exact fine_of_raw h.1.1 c hc
    · exact fine_attrText h.1.2 c hc
    · split at hc
      · revert c; unfold FineChar; decide
      · simp only [List.mem_cons, List.mem_append] at hc
        rcases hc with rfl | hc | rfl | rfl | hc | hc
        · exact ⟨by decide, by decide⟩
        · exact hl c hc
        · exact ⟨by decide, by decide⟩
        · exact ⟨by decide, by decide⟩
        · exact fine_of_raw h.1.1 c hc
        · revert c; unfold FineChar; decide
theorem fine_serL (old : Bool) (q : Str → Str) : ∀ l : List Xml,
    EveryL (fun t a => RawName (q t) ∧ ∀ e ∈ a, RawName (q e.1) ∧ ∀ c ∈ e.2, allowed c = true) l → ∀ c ∈ ET.serL old q l, FineChar c
  | [], _ => by intro c hc; cases hc
  | x :: xs, h => by
    intro c hc
    rw [ET.serL, List.mem_append] at hc
    rcases hc with hc | hc
    · exact fine_ser old q x h.1 c hc
    · exact fine_serL old q xs h.2 c hc
end

theorem lineEnds_fine {s : Str} (h : ∀ c ∈ s, FineChar c) : lineEnds s = s := by
  have := lineEnds_app (l := s) (fun hm => (h _ hm).2 rfl) []
  simpa [lineEnds] using this

/-! ### namespaces -/

theorem every_imp {P Q : Str → Dict Str Str → Prop} (h : ∀ t a, P t a → Q t a) : ∀ x : Xml, Every P x → Every Q x := by
  intro x
  exact Xml.rec (motive_1 := fun x => Every P x → Every Q x) (motive_2 := fun l => EveryL P l → EveryL Q l)
    (fun t a c ih hp => ⟨h t a hp.1, ih hp.2⟩) (fun _ => trivial) (fun x xs h1 h2 hp => ⟨h1 hp.1, h2 hp.2⟩) x

theorem takeWhile_nc {s : Str} (h : ∀ c ∈ s, c ≠ ':') : s.takeWhile (· != ':') = s ∧ s.dropWhile (· != ':') = [] := by
  induction s with
  | nil => exact ⟨rfl, rfl⟩
  | cons c s ih =>
    obtain ⟨a, b⟩ := ih (fun c hc => h c (by simp [hc]))
    have : (c != ':') = true := by simpa using h c (by simp)
    simp only [List.takeWhile_cons, List.dropWhile_cons, this, if_true, a, b, and_self]

theorem qualified_nc {s : Str} (h : ncName s = true) : qualified s = some (none, s) := by
  obtain ⟨a, b⟩ := takeWhile_nc (s := s) (fun c hc => (ncChar_allowed (ncName_chars h c hc)).2.2.1)
  simp only [qualified, a, b, h, if_true]

theorem qualified_id : qualified "xml:id".toList = some (some "xml".toList, "id".toList) := by decide

theorem declares_wire {k : Str} (h : AttrName k) : declares (wireName k) = none := by
  rcases h with ⟨h, hx⟩ | rfl
  · have : k ≠ xmlId := by rintro rfl; exact absurd h (by decide)
    simp only [wireName, this, if_false, declares, hx, qualified_nc h]
  · decide

theorem expandName_wire {k : Str} (h : AttrName k) : expandName [("xml".toList, xmlSpace)] true (wireName k) = some k := by
  rcases h with ⟨h, hx⟩ | rfl
  · have : k ≠ xmlId := by rintro rfl; exact absurd h (by decide)
    simp only [wireName, this, if_false, expandName, qualified_nc h, if_true]
  · decide

theorem expandName_tag {t : Str} (h : ncName t = true) : expandName [("xml".toList, xmlSpace)] false t = some t := by
  simp [expandName, qualified_nc h, dget, braces]

theorem wireName_tag {t : Str} (h : ncName t = true) : wireName t = t := by
  have : t ≠ xmlId := by rintro rfl; exact absurd h (by decide)
  simp [wireName, this]

theorem wireName_inj {k l : Str} (hk : AttrName k) (hl : AttrName l) (h : wireName k = wireName l) : k = l := by
  have a := expandName_wire hk
  rw [h, expandName_wire hl] at a
  exact (Option.some.inj a).symm

theorem mapO_some {α β : Type} {f : α → Option β} {g : α → β} {l : List α} (h : ∀ a ∈ l, f a = some (g a)) : mapO f l = some (l.map g) := by
  induction l with
  | nil => rfl
  | cons a l ih => simp only [mapO, h a (by simp), ih (fun b hb => h b (by simp [hb])), List.map_cons]

theorem declared_wire {old : Bool} {a : Dict Str Str} (h : ∀ e ∈ a, AttrName e.1) :
    declared (a.map (fun e => (wireName e.1, asRead old e.2))) = [] := by
  induction a with
  | nil => rfl
  | cons e a ih =>
    have := ih (fun e he => h e (by simp [he]))
    simp only [declared] at this
    simp only [declared, List.map_cons, List.filterMap_cons, declares_wire (h e (by simp)), Option.map_none, this]

theorem nodup_map_inj {α β : Type} {f : α → β} {l : List α} (hi : ∀ a ∈ l, ∀ b ∈ l, f a = f b → a = b) (h : l.Nodup) : (l.map f).Nodup := by
  induction l with
  | nil => exact List.nodup_nil
  | cons a l ih =>
    rw [List.nodup_cons] at h
    rw [List.map_cons, List.nodup_cons]
    refine ⟨?_, ih (fun a ha b hb => hi a (by simp [ha]) b (by simp [hb])) h.2⟩
    intro hm
    obtain ⟨b, hb, he⟩ := List.mem_map.mp hm
    exact h.1 (hi b (by simp [hb]) a (by simp) he ▸ hb)

mutual
theorem expand_raw (old : Bool) : ∀ x : Xml, Fit x → expand [("xml".toList, xmlSpace)] (rawTree old wireName x) = some (mapVals (asRead old) x)
  | .el t a c, ⟨⟨h1, h2, h3⟩, h4⟩ => by
    have hc := expandL_raw old c h4
    have hd := declared_wire (old := old) (fun e he => (h2 e he).1)
    have hf : (a.map (fun e => (wireName e.1, asRead old e.2))).filter (fun e => (declares e.1).isNone) =
        a.map (fun e => (wireName e.1, asRead old e.2)) := by
      rw [List.filter_eq_self]
      intro e he
      obtain ⟨e', he', rfl⟩ := List.mem_map.mp he
      simp only [declares_wire (h2 e' he').1, Option.isNone_none]
    have hm : mapO (fun e : Str × Str => (expandName [("xml".toList, xmlSpace)] true e.1).map (fun k => (k, e.2)))
        (a.map (fun e => (wireName e.1, asRead old e.2))) = some (a.map (fun e => (e.1, asRead old e.2))) := by
      have : ∀ l : List (Str × Str), (∀ e ∈ l, AttrName e.1) →
          mapO (fun e : Str × Str => (expandName [("xml".toList, xmlSpace)] true e.1).map (fun k => (k, e.2)))
            (l.map (fun e => (wireName e.1, asRead old e.2))) = some (l.map (fun e => (e.1, asRead old e.2))) := by
        intro l
        induction l with
        | nil => intro _; rfl
        | cons e l ih =>
          intro hl
          simp only [List.map_cons, mapO, expandName_wire (hl e (by simp)), Option.map_some, ih (fun e he => hl e (by simp [he]))]
      exact this a (fun e he => (h2 e he).1)
    have hn1 : ((a.map (fun e => (wireName e.1, asRead old e.2))).map (·.1)).Nodup := by
      have : (a.map (fun e => (wireName e.1, asRead old e.2))).map (·.1) = (dkeys a).map wireName := by simp [dkeys, Function.comp_def]
      rw [this]
      refine nodup_map_inj (fun k hk l hl h => ?_) h3
      obtain ⟨e, he, rfl⟩ := List.mem_map.mp hk
      obtain ⟨e', he', rfl⟩ := List.mem_map.mp hl
      exact wireName_inj (h2 e he).1 (h2 e' he').1 h
    have hn2 : ((a.map (fun e => (e.1, asRead old e.2))).map (·.1)).Nodup := by
      have : (a.map (fun e => (e.1, asRead old e.2))).map (·.1) = dkeys a := by simp [dkeys, Function.comp_def]
      rw [this]; exact h3
    rw [rawTree, expand, if_pos ⟨hn1, by rw [hd]; rfl⟩, hd, List.nil_append, wireName_tag h1, expandName_tag h1, hf, hm, hc]
    simp only [hn2, if_true, mapVals]
theorem expandL_raw (old : Bool) : ∀ l : List Xml, EveryL FitTag l →
    expandL [("xml".toList, xmlSpace)] (rawTreeL old wireName l) = some (mapValsL (asRead old) l)
  | [], _ => rfl
  | x :: xs, h => by
    rw [rawTreeL, expandL, expand_raw old x h.1, expandL_raw old xs h.2]
    rfl
end

theorem skipBlank_nil : skipBlank [] = [] := rfl

/-- a tree that XML can have is read from its text -/
theorem read_ser (old : Bool) {x : Xml} (h : Fit x) : read (ET.ser old wireName [] x) = some (mapVals (asRead old) x) := by
  have hn : NamesOk wireName x := every_imp (fun t a h => ⟨by rw [wireName_tag h.1]; exact ncName_raw h.1,
    fun e he => attrName_raw (h.2.1 e he).1⟩) x h
  have hf : ∀ c ∈ ET.ser old wireName [] x, FineChar c := fine_ser old wireName x (every_imp (fun t a h =>
    ⟨by rw [wireName_tag h.1]; exact ncName_raw h.1, fun e he => ⟨attrName_raw (h.2.1 e he).1,
      fun c hc => (allowed_iff c).mpr ((h.2.1 e he).2 c hc)⟩⟩) x h)
  have hr := rElement_ser old wireName x hn ((ET.ser old wireName [] x).length + 1) [] (by
    have := cost_le old wireName x; omega)
  rw [List.append_nil] at hr
  rw [show ∀ s, Spec.XmlText.read s = if s.all allowed then
      match rElement (s.length + 1) (lineEnds s) with
      | some (x, r) => if skipBlank r = [] then expand [("xml".toList, xmlSpace)] x else none
      | none => none
    else none from fun _ => rfl, if_pos (List.all_eq_true.mpr (fun c hc => (hf c hc).1)), lineEnds_fine hf, hr]
  simp only [skipBlank_nil, if_true, expand_raw old x h]

/-! ### the table of names -/

/-- a name that is written without a declaration -/
def Bare (k : Str) : Prop := (∀ s, k ≠ '{' :: s) ∨ k = xmlId

theorem add_bare {t : ET.Names} (ht : t.spaces = []) {k : Str} (hk : Bare k) :
    t.add k = .ok ⟨dset t.qnames k (wireName k), []⟩ := by
  rcases hk with hk | rfl
  · have : k ≠ xmlId := by rintro rfl; exact hk _ rfl
    obtain ⟨q, sp⟩ := t
    simp only at ht; subst ht
    unfold ET.Names.add
    split
    · rename_i s; exact (hk s rfl).elim
    · simp [wireName, this]
  · obtain ⟨q, sp⟩ := t
    simp only at ht; subst ht
    have h1 : xmlId = '{' :: "http://www.w3.org/XML/1998/namespace}id".toList := by decide
    have h2 : ET.rsplit "http://www.w3.org/XML/1998/namespace}id".toList =
      some ("http://www.w3.org/XML/1998/namespace".toList, "id".toList) := by decide
    have h3 : dget ET.wellKnown "http://www.w3.org/XML/1998/namespace".toList = some "xml".toList := by decide
    have h4 : wireName xmlId = "xml".toList ++ ':' :: "id".toList := by decide
    rw [h4]
    conv => lhs; rw [h1]
    simp only [ET.Names.add, h2, dget, h3, Option.getD_some, if_true]
    rw [h1]

theorem addAll_bare (l : List Str) : ∀ t : ET.Names, t.spaces = [] → (∀ k ∈ l, Bare k) →
    (∀ k v, dget t.qnames k = some v → v = wireName k) → ∃ t', t.addAll l = .ok t' ∧ t'.spaces = [] ∧
      (∀ k v, dget t'.qnames k = some v → v = wireName k) ∧
      ∀ k, (k ∈ l ∨ dget t.qnames k ≠ none) → dget t'.qnames k ≠ none := by
  induction l with
  | nil => intro t ht _ hv; exact ⟨t, rfl, ht, hv, fun k hk => hk.elim (by simp) id⟩
  | cons q l ih =>
    intro t ht hl hv
    have hq := hl q (by simp)
    have hl' := fun k hk => hl k (List.mem_cons_of_mem _ hk)
    simp only [ET.Names.addAll]
    by_cases hg : dget t.qnames q = none
    · simp only [hg, if_true, add_bare ht hq]
      obtain ⟨t', h1, h2, h3, h4⟩ := ih ⟨dset t.qnames q (wireName q), []⟩ rfl hl' (by
        intro k v hkv
        simp only [dget_dset] at hkv
        split at hkv
        · rename_i e; cases hkv; rw [e]
        · exact hv k v hkv)
      refine ⟨t', h1, h2, h3, fun k hk => h4 k ?_⟩
      simp only [List.mem_cons, dget_dset] at hk ⊢
      by_cases e : k = q
      · right; simp [e]
      · rcases hk with (hk | hk) | hk
        · exact (e hk).elim
        · exact .inl hk
        · right
          rw [if_neg (by first | exact e | exact Ne.symm e)]
          exact hk
    · simp only [hg, if_false]
      obtain ⟨t', h1, h2, h3, h4⟩ := ih t ht hl' hv
      refine ⟨t', h1, h2, h3, fun k hk => h4 k ?_⟩
      simp only [List.mem_cons] at hk
      rcases hk with (rfl | hk) | hk
      · exact .inr hg
      · exact .inl hk
      · exact .inr hk

mutual
theorem ser_congr (old : Bool) (q q' : Str → Str) (ds : Str) : ∀ x : Xml, (∀ k ∈ ET.namesOf x, q k = q' k) →
    ET.ser old q ds x = ET.ser old q' ds x
  | .el t a c, h => by
    have h1 : q t = q' t := h t (by simp [ET.namesOf])
    have h2 : a.flatMap (fun e => " ".toList ++ q e.1 ++ "=\"".toList ++ ET.escAttr old e.2 ++ "\"".toList) =
        a.flatMap (fun e => " ".toList ++ q' e.1 ++ "=\"".toList ++ ET.escAttr old e.2 ++ "\"".toList) := by
      have : ∀ l : Dict Str Str, (∀ e ∈ l, q e.1 = q' e.1) →
          l.flatMap (fun e => " ".toList ++ q e.1 ++ "=\"".toList ++ ET.escAttr old e.2 ++ "\"".toList) =
          l.flatMap (fun e => " ".toList ++ q' e.1 ++ "=\"".toList ++ ET.escAttr old e.2 ++ "\"".toList) := by
        intro l
        induction l with
        | nil => intro _; rfl
        | cons e l ih => intro hl; rw [List.flatMap_cons, List.flatMap_cons, ih (fun e he => hl e (by simp [he])), hl e (by simp)]
      refine this a (fun e he => h e.1 ?_)
      simp only [ET.namesOf, List.cons_append, List.mem_cons, List.mem_append]
      exact .inr (.inl (List.mem_map.mpr ⟨e, he, rfl⟩))
    have h3 : ∀ k ∈ ET.namesOfL c, q k = q' k := fun k hk => h k (by simp [ET.namesOf, hk])
    have h4 := serL_congr old q q' c h3
    cases c with
    | nil => simp only [ET.ser, h1, h2]
    | cons x xs =>
      have h5 := ser_congr old q q' [] x (fun k hk => h3 k (by simp [ET.namesOfL, hk]))
      have h6 := serL_congr old q q' xs (fun k hk => h3 k (by simp [ET.namesOfL, hk]))
      simp only [ET.ser, h1, h2, h5, h6]
theorem serL_congr (old : Bool) (q q' : Str → Str) : ∀ l : List Xml, (∀ k ∈ ET.namesOfL l, q k = q' k) →
    ET.serL old q l = ET.serL old q' l
  | [], _ => rfl
  | x :: xs, h => by
    rw [ET.serL, ET.serL, ser_congr old q q' [] x (fun k hk => h k (by simp [ET.namesOfL, hk])),
      serL_congr old q q' xs (fun k hk => h k (by simp [ET.namesOfL, hk]))]
end

/-- without names in braces the text has no declarations, and names are written as they are -/
theorem write_bare (old : Bool) {x : Xml} (h : ∀ k ∈ ET.namesOf x, Bare k) : ET.write old x = .ok (ET.ser old wireName [] x) := by
  obtain ⟨t, h1, h2, h3, h4⟩ := addAll_bare (ET.namesOf x) {} rfl h (by intro k v hk; cases hk)
  simp only [ET.write, h1, h2]
  congr 1
  refine ser_congr old _ _ _ x (fun k hk => ?_)
  have := h4 k (.inl hk)
  cases hv : dget t.qnames k with
  | none => exact (this hv).elim
  | some v => rw [h3 k v hv]; rfl

mutual
theorem every_names {P : Str → Prop} : ∀ x : Xml, Every (fun t a => P t ∧ ∀ e ∈ a, P e.1) x ↔ ∀ k ∈ ET.namesOf x, P k
  | .el t a c => by
    have := everyL_names (P := P) c
    simp only [Every, ET.namesOf, this, List.cons_append, List.mem_cons, List.mem_append, dkeys, List.mem_map]
    constructor
    · rintro ⟨⟨h1, h2⟩, h3⟩ k (rfl | ⟨e, he, rfl⟩ | hk)
      · exact h1
      · exact h2 e he
      · exact h3 k hk
    · intro h
      exact ⟨⟨h t (.inl rfl), fun e he => h e.1 (.inr (.inl ⟨e, he, rfl⟩))⟩, fun k hk => h k (.inr (.inr hk))⟩
theorem everyL_names {P : Str → Prop} : ∀ l : List Xml, EveryL (fun t a => P t ∧ ∀ e ∈ a, P e.1) l ↔ ∀ k ∈ ET.namesOfL l, P k
  | [] => by simp [EveryL, ET.namesOfL]
  | x :: xs => by
    simp only [EveryL, every_names x, everyL_names xs, ET.namesOfL, List.mem_append]
    constructor
    · rintro ⟨h1, h2⟩ k (hk | hk)
      · exact h1 k hk
      · exact h2 k hk
    · intro h
      exact ⟨fun k hk => h k (.inl hk), fun k hk => h k (.inr hk)⟩
end

theorem nc_bare {k : Str} (h : ncName k = true) : Bare k := by
  refine .inl (fun s hs => ?_)
  subst hs
  exact absurd h (by simp [ncName, show ncStart '{' = false from by decide])

theorem fit_bare {x : Xml} (h : Fit x) : ∀ k ∈ ET.namesOf x, Bare k :=
  (every_names x).mp (every_imp (fun _ _ h => ⟨nc_bare h.1, fun e he => (h.2.1 e he).1.elim (fun h => nc_bare h.1) .inr⟩) x h)

end Verif
