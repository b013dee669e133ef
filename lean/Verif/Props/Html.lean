import Verif.Props.Table
set_option linter.unusedSimpArgs false
/-
C61: what a browser reads from the HTML of a table or a text.
-/
namespace Verif
open Printout

namespace Spec
namespace Html

/-- inside a tag: characters and quoted attribute values (with references resolved) -/
inductive Part
  | c (c : Char)
  | q (v : Str)
  deriving DecidableEq

/-- what a browser reads: characters of text (with references resolved) and tags -/
inductive Tok
  | chr (c : Char)
  | tag (parts : List Part)
  deriving DecidableEq

inductive Mode
  | data
  | tag (parts : List Part)
  | quote (parts : List Part) (q : Char) (v : Str)
  deriving DecidableEq

/-- where the reader is: text, tag or quoted value, and the character reference being read, if any -/
structure St where
  mode : Mode := .data
  ref : Option Str := none
  deriving DecidableEq

/-- the references that stand for the special characters -/
def entity (name : Str) : Option Char :=
  if name = "amp".toList then some '&'
  else if name = "lt".toList then some '<'
  else if name = "gt".toList then some '>'
  else if name = "quot".toList then some '"'
  else if name = "#x27".toList then some '\''
  else none

/-- a literal character at the current place -/
def lit (m : Mode) (c : Char) : Mode × List Tok :=
  match m with
  | .data => (.data, [.chr c])
  | .tag ps => (.tag (ps ++ [.c c]), [])
  | .quote ps q v => (.quote ps q (v ++ [c]), [])

/-- several literal characters -/
def lits (m : Mode) : Str → Mode × List Tok
  | [] => (m, [])
  | c :: cs => ((lits (lit m c).1 cs).1, (lit m c).2 ++ (lits (lit m c).1 cs).2)

/-- a character outside a reference -/
def plain (m : Mode) (c : Char) : St × List Tok :=
  match m with
  | .data =>
    if c = '<' then (⟨.tag [], none⟩, []) else if c = '&' then (⟨.data, some []⟩, []) else (⟨.data, none⟩, [.chr c])
  | .tag ps =>
    if c = '>' then (⟨.data, none⟩, [.tag ps])
    else if c = '\'' ∨ c = '"' then (⟨.quote ps c [], none⟩, [])
    else (⟨.tag (ps ++ [.c c]), none⟩, [])
  | .quote ps q v =>
    if c = q then (⟨.tag (ps ++ [.q v]), none⟩, [])
    else if c = '&' then (⟨.quote ps q v, some []⟩, [])
    else (⟨.quote ps q (v ++ [c]), none⟩, [])

/-- read a character -/
def step (s : St) (c : Char) : St × List Tok :=
  match s.ref with
  | none => plain s.mode c
  | some b =>
    if c = ';' then
      match entity b with
      | some x => (⟨(lit s.mode x).1, none⟩, (lit s.mode x).2)
      | none => (⟨(lits s.mode ('&' :: b ++ [';'])).1, none⟩, (lits s.mode ('&' :: b ++ [';'])).2)
    else if c.isAlphanum || c == '#' then (⟨s.mode, some (b ++ [c])⟩, [])
    else
      let f := lits s.mode ('&' :: b)
      let r := plain f.1 c
      (r.1, f.2 ++ r.2)

/-- read a string: the state afterwards and the tokens -/
def scan (s : St) : Str → St × List Tok
  | [] => (s, [])
  | c :: cs => ((scan (step s c).1 cs).1, (step s c).2 ++ (scan (step s c).1 cs).2)

/-- the string is complete HTML: read from text, it ends in text, with the given tokens -/
def Reads (h : Str) (ts : List Tok) : Prop := scan {} h = ({}, ts)

/-- characters of text -/
def txt (s : Str) : List Tok := s.map .chr

/-- a tag without attributes -/
def el (s : String) : Tok := .tag (s.toList.map .c)

/-- a tag with one attribute -/
def el1 (s : String) (v : Str) : Tok := .tag (s.toList.map .c ++ [.q v])

/-- a tag with two attributes -/
def el2 (s : String) (v : Str) (s' : String) (v' : Str) : Tok :=
  .tag (s.toList.map .c ++ [.q v] ++ s'.toList.map .c ++ [.q v'])

/-- the address a URN stands for -/
def Link (u : Unicode) (s url : Str) : Prop :=
  ∃ w p, s = "urn:".toList ++ w ++ ":".toList ++ p ∧
    ((u.lower w = "wikidata".toList ∧ url = "https://www.wikidata.org/wiki/".toList ++ p) ∨
     (u.lower w = "wikipedia".toList ∧ ∃ lang page, p = lang ++ ":".toList ++ page ∧
        url = "https://".toList ++ lang ++ ".wikipedia.org/wiki/".toList ++ page))

/-- what is read from a cell: for a TableCell its own HTML, otherwise the text, cut, and nothing else — except that a
URN is wrapped in a link to its address -/
def Cell (u : Unicode) (o : Options) (e : Elem) (ts : List Tok) : Prop :=
  match e with
  | .cell _ h => Reads h ts
  | .obj s => ∃ t, truncate o s = .ok t ∧ ts = txt t
  | .str s => ∃ t, truncate o s = .ok t ∧
      (ts = txt t ∨ ∃ url, Link u s url ∧ ts = [el1 "a href=" url] ++ txt t ++ [el "/a"])

/-- the index of a row, as text -/
def index (r : Row) (i : Nat) : List Tok := txt (match r.index with | none => natStr i | some x => x)

/-- what is read from a body row of the table -/
def BodyRow (u : Unicode) (o : Options) (body : List Row) (n : Nat) (i : Option Nat) (ts : List Tok) : Prop :=
  match i with
  | none => ts = [el "tr", el2 "td colspan=" (natStr n) " style=" "text-align:center".toList] ++ txt ". . .".toList ++
      [el "/td", el "/tr"]
  | some i => ∃ r cells, body[i]? = some r ∧ Each (Cell u o) r.elems cells ∧
      ts = [el "tr"] ++ (index r i :: cells).flatMap
        (fun c => [el1 "td style=" "text-align:left".toList] ++ c ++ [el "/td"]) ++ [el "/tr"]

/-- what is read from the caption -/
def caption (n : Nat) : Option Str → List Tok
  | none => []
  | some c => [el "tr", el2 "th colspan=" (natStr n) " style=" "text-align:center".toList, el "em"] ++ txt c ++
      [el "/em", el "/th", el "/tr"]

/-- HTML given by the caller is complete, and an index given by the caller holds no special characters -/
def RowClean (r : Row) : Prop :=
  (∀ t h, .cell t h ∈ r.elems → ∃ ts, Reads h ts) ∧ (∀ x, r.index = some x → '<' ∉ x ∧ '&' ∉ x)

end Html
end Spec

open Spec.Html

theorem scan_append (s : St) (a b : Str) :
    scan s (a ++ b) = ((scan (scan s a).1 b).1, (scan s a).2 ++ (scan (scan s a).1 b).2) := by
  induction a generalizing s with
  | nil => simp [scan]
  | cons c a ih => simp [scan, ih]

theorem reads_append {a b : Str} {ta tb : List Tok} (ha : Reads a ta) (hb : Reads b tb) : Reads (a ++ b) (ta ++ tb) := by
  unfold Reads at *
  rw [scan_append, ha, hb]

/-- what `html.escape` does to a character -/
def escChar (c : Char) : Str :=
  if c = '&' then "&amp;".toList else if c = '<' then "&lt;".toList else if c = '>' then "&gt;".toList
  else if c = '"' then "&quot;".toList else if c = '\'' then "&#x27;".toList else [c]

theorem htmlEscape_eq (s : Str) : htmlEscape s = s.flatMap escChar := by
  simp only [htmlEscape, replaceChar, List.flatMap_assoc]
  congr 1
  funext c
  unfold escChar
  by_cases h1 : c = '&'
  · subst h1; decide
  by_cases h2 : c = '<'
  · subst h2; decide
  by_cases h3 : c = '>'
  · subst h3; decide
  by_cases h4 : c = '"'
  · subst h4; decide
  by_cases h5 : c = '\''
  · subst h5; decide
  · simp [h1, h2, h3, h4, h5]

/-- text or a quoted value -/
def Spec.Html.Mode.inText : Mode → Prop
  | .data => True
  | .tag _ => False
  | .quote _ q _ => q = '\'' ∨ q = '"'

theorem lit_inText {m : Mode} (h : m.inText) (c : Char) : (lit m c).1.inText := by
  cases m <;> exact h

theorem scan_escChar {m : Mode} (hm : m.inText) (c : Char) :
    scan ⟨m, none⟩ (escChar c) = (⟨(lit m c).1, none⟩, (lit m c).2) := by
  unfold escChar
  cases m with
  | data =>
    by_cases h1 : c = '&'
    · subst h1; rfl
    by_cases h2 : c = '<'
    · subst h2; rfl
    by_cases h3 : c = '>'
    · subst h3; rfl
    by_cases h4 : c = '"'
    · subst h4; rfl
    by_cases h5 : c = '\''
    · subst h5; rfl
    · simp [h1, h2, h3, h4, h5, scan, step, plain, lit]
  | tag ps => exact hm.elim
  | quote ps q v =>
    rcases hm with rfl | rfl
    all_goals
      by_cases h1 : c = '&'
      · subst h1; rfl
      by_cases h2 : c = '<'
      · subst h2; rfl
      by_cases h3 : c = '>'
      · subst h3; rfl
      by_cases h4 : c = '"'
      · subst h4; rfl
      by_cases h5 : c = '\''
      · subst h5; rfl
      · simp [h1, h2, h3, h4, h5, scan, step, plain, lit]

theorem scan_escape {m : Mode} (hm : m.inText) (s : Str) :
    scan ⟨m, none⟩ (htmlEscape s) = (⟨(lits m s).1, none⟩, (lits m s).2) := by
  rw [htmlEscape_eq]
  induction s generalizing m with
  | nil => rfl
  | cons c s ih =>
    rw [List.flatMap_cons, scan_append, scan_escChar hm]
    simp only [ih (lit_inText hm c), lits]

theorem lits_data (s : Str) : lits .data s = (.data, txt s) := by
  induction s with
  | nil => rfl
  | cons c s ih => simp [lits, lit, ih, txt]

theorem lits_quote (ps : List Part) (q : Char) (v s : Str) : lits (.quote ps q v) s = (.quote ps q (v ++ s), []) := by
  induction s generalizing v with
  | nil => simp [lits]
  | cons c s ih => simp [lits, lit, ih]

/-- C61. Escaped data is read as that text and nothing else, whatever it is. -/
theorem C61_escape (s : Str) : Reads (htmlEscape s) (txt s) := by
  unfold Reads
  rw [scan_escape (m := .data) trivial, lits_data]

theorem reads_clean (x : Str) (h1 : '<' ∉ x) (h2 : '&' ∉ x) : Reads x (txt x) := by
  unfold Reads
  induction x with
  | nil => rfl
  | cons c x ih =>
    simp only [List.mem_cons, not_or] at h1 h2
    have e : step {} c = ({}, [.chr c]) := by simp [step, plain, Ne.symm h1.1, Ne.symm h2.1]
    simp only [scan, e, ih h1.2 h2.2]
    rfl

theorem scan_quoted_escape (ps : List Part) (v s : Str) :
    scan ⟨.quote ps '\'' v, none⟩ (htmlEscape s) = (⟨.quote ps '\'' (v ++ s), none⟩, []) := by
  rw [scan_escape (m := .quote ps '\'' v) (.inl rfl), lits_quote]

theorem scan_quoted_plain (ps : List Part) (v s : Str) (h1 : '\'' ∉ s) (h2 : '&' ∉ s) :
    scan ⟨.quote ps '\'' v, none⟩ s = (⟨.quote ps '\'' (v ++ s), none⟩, []) := by
  induction s generalizing v with
  | nil => simp [scan]
  | cons c s ih =>
    simp only [List.mem_cons, not_or] at h1 h2
    have e : step ⟨.quote ps '\'' v, none⟩ c = (⟨.quote ps '\'' (v ++ [c]), none⟩, []) := by
      simp [step, plain, Ne.symm h1.1, Ne.symm h2.1]
    simp only [scan, e, ih _ h1.2 h2.2]
    simp

theorem natStr_digit {n : Nat} {c : Char} (h : c ∈ natStr n) : c.isDigit = true :=
  Nat.isDigit_of_mem_toDigits (by decide) (by decide) h

theorem natStr_not {n : Nat} {c : Char} (hc : c.isDigit = false) : c ∉ natStr n := by
  intro h
  rw [natStr_digit h] at hc
  cases hc

theorem reads_nat (n : Nat) : Reads (natStr n) (txt (natStr n)) :=
  reads_clean _ (natStr_not (by decide)) (natStr_not (by decide))

theorem scan_close (ps : List Part) (v rest : Str) :
    scan ⟨.quote ps '\'' v, none⟩ ('\'' :: rest) = scan ⟨.tag (ps ++ [.q v]), none⟩ rest := by
  simp [scan, step, plain]

theorem scan_open (ps : List Part) (rest : Str) :
    scan ⟨.tag ps, none⟩ ('\'' :: rest) = scan ⟨.quote ps '\'' [], none⟩ rest := by
  simp [scan, step, plain]

theorem scan_gt (ps : List Part) (rest : Str) :
    scan ⟨.tag ps, none⟩ ('>' :: rest) = ((scan {} rest).1, .tag ps :: (scan {} rest).2) := by
  simp [scan, step, plain]

theorem scan_tag_plain (ps : List Part) (s rest : Str) (h1 : '>' ∉ s) (h2 : '\'' ∉ s) (h3 : '"' ∉ s) :
    scan ⟨.tag ps, none⟩ (s ++ rest) = scan ⟨.tag (ps ++ s.map .c), none⟩ rest := by
  induction s generalizing ps with
  | nil => simp
  | cons c s ih =>
    simp only [List.mem_cons, not_or] at h1 h2 h3
    have e : step ⟨.tag ps, none⟩ c = (⟨.tag (ps ++ [.c c]), none⟩, []) := by
      simp [step, plain, Ne.symm h1.1, Ne.symm h2.1, Ne.symm h3.1]
    simp only [List.cons_append, scan, e, ih _ h1.2 h2.2 h3.2]
    simp

theorem cutColon_eq {s a b : Str} (h : cutColon s = some (a, b)) : s = a ++ ":".toList ++ b := by
  induction s generalizing a with
  | nil => simp [cutColon] at h
  | cons c s ih =>
    simp only [cutColon] at h
    split at h
    · rename_i hc
      simp only [Option.some.injEq, Prod.mk.injEq] at h
      obtain ⟨rfl, rfl⟩ := h
      simp [hc]
    · split at h
      · simp at h
      · rename_i a' b' hc
        simp only [Option.some.injEq, Prod.mk.injEq] at h
        obtain ⟨rfl, rfl⟩ := h
        rw [ih hc]
        simp

theorem urnMatch_eq {u : Unicode} {s w p : Str} (h : urnMatch u s = some (w, p)) :
    s = "urn:".toList ++ w ++ ":".toList ++ p := by
  unfold urnMatch at h
  split at h
  · rename_i rest
    split at h
    · simp at h
    · rename_i w' p' hc
      split at h
      · simp only [Option.some.injEq, Prod.mk.injEq] at h
        obtain ⟨rfl, rfl⟩ := h
        rw [cutColon_eq hc]
        simp
      · simp at h
  · simp at h

/-- reading an attribute value whose escaped form is given -/
theorem linkOf_scan {u : Unicode} {s link : Str} (h : linkOf u s = some (.ok link)) :
    ∃ url, Link u s url ∧ ∀ ps v, scan ⟨.quote ps '\'' v, none⟩ link = (⟨.quote ps '\'' (v ++ url), none⟩, []) := by
  unfold linkOf at h
  split at h
  · simp at h
  · rename_i w p hm
    have hs := urnMatch_eq hm
    unfold urnLink at h
    split at h
    · rename_i hw
      simp only [Option.some.injEq, Except.ok.injEq] at h
      subst h
      refine ⟨_, ⟨w, p, hs, .inl ⟨hw, rfl⟩⟩, ?_⟩
      intro ps v
      rw [scan_append, scan_quoted_plain _ _ _ (by decide) (by decide), scan_quoted_escape]
      simp only [List.nil_append, List.append_assoc]
    · split at h
      · rename_i hw
        simp only [Option.some.injEq] at h
        split at h
        · simp at h
        · rename_i lang page hc
          simp only [Except.ok.injEq] at h
          subst h
          refine ⟨_, ⟨w, p, hs, .inr ⟨hw, lang, page, cutColon_eq hc, rfl⟩⟩, ?_⟩
          intro ps v
          rw [scan_append, scan_append, scan_append, scan_quoted_plain _ _ _ (by decide) (by decide),
            scan_quoted_escape, scan_quoted_plain _ _ _ (by decide) (by decide), scan_quoted_escape]
          simp only [List.nil_append, List.append_assoc]
      · simp at h

theorem reads_plain {o : Options} {s c : Str} (h : cellPlain o s = .ok c) :
    ∃ t, truncate o s = .ok t ∧ Reads c (txt t) := by
  unfold cellPlain at h
  split at h
  · simp at h
  · rename_i t ht
    simp only [Except.ok.injEq] at h
    subst h
    exact ⟨t, ht, C61_escape t⟩

/-- C61. Every cell of a table is read as its own text, or, for a URN, as a link around it. -/
theorem C61_cell (u : Unicode) (o : Options) (e : Elem) (c : Str) (h : cellHtml u o e = .ok c)
    (hc : ∀ t x, e = .cell t x → ∃ ts, Reads x ts) : ∃ ts, Reads c ts ∧ Cell u o e ts := by
  cases e with
  | cell t x =>
    simp only [cellHtml, Except.ok.injEq] at h
    subst h
    obtain ⟨ts, hts⟩ := hc t x rfl
    exact ⟨ts, hts, hts⟩
  | obj s =>
    obtain ⟨t, h1, h2⟩ := reads_plain h
    exact ⟨txt t, h2, t, h1, rfl⟩
  | str s =>
    simp only [cellHtml] at h
    split at h
    · obtain ⟨t, h1, h2⟩ := reads_plain h
      exact ⟨txt t, h2, t, h1, .inl rfl⟩
    · simp at h
    · rename_i link hl
      split at h
      · simp at h
      · rename_i t ht
        simp only [Except.ok.injEq] at h
        subst h
        obtain ⟨url, hu, hsc⟩ := linkOf_scan hl
        refine ⟨[el1 "a href=" url] ++ txt t ++ [el "/a"], ?_, t, ht, .inr ⟨url, hu, rfl⟩⟩
        have h1 : Reads ("<a href='".toList ++ link ++ "'>".toList) [el1 "a href=" url] := by
          unfold Reads
          have e1 : scan {} "<a href='".toList = (⟨.quote ("a href=".toList.map .c) '\'' [], none⟩, []) := by decide
          rw [scan_append, scan_append, e1]
          simp only [hsc]
          have e2 : "'>".toList = ['\'', '>'] := by decide
          rw [e2, scan_close, scan_gt]
          simp only [scan, el1, List.nil_append]
        have h2 : Reads "</a>".toList [el "/a"] := by unfold Reads; decide
        exact reads_append (reads_append h1 (C61_escape t)) h2

theorem each_split {α β γ : Type} {P : α → β → Prop} {Q : α → γ → Prop} {R : β → γ → Prop} {as : List α} {bs : List β}
    (h : Each P as bs) (hs : ∀ a ∈ as, ∀ b, P a b → ∃ g, R b g ∧ Q a g) : ∃ gs, Each Q as gs ∧ Each R bs gs := by
  induction h with
  | nil => exact ⟨[], .nil, .nil⟩
  | cons h1 _ ih =>
    obtain ⟨gs, h2, h3⟩ := ih (fun a ha => hs a (List.mem_cons_of_mem _ ha))
    obtain ⟨g, h4, h5⟩ := hs _ (by simp) _ h1
    exact ⟨g :: gs, .cons h5 h2, .cons h4 h3⟩

theorem reads_flatMap {α : Type} {f : α → Str} {as : List α} {ts : List (List Tok)}
    (h : Each (fun a t => Reads (f a) t) as ts) : Reads (as.flatMap f) ts.flatten := by
  induction h with
  | nil => rfl
  | cons h _ ih =>
    rw [List.flatMap_cons, List.flatten_cons]
    exact reads_append h ih

theorem each_map_right {α β γ : Type} {R : α → γ → Prop} {f : β → γ} {as : List α} {bs : List β}
    (h : Each (fun a b => R a (f b)) as bs) : Each R as (bs.map f) := by
  induction h with
  | nil => exact .nil
  | cons h _ ih => exact .cons h ih

theorem each_mono {α β : Type} {R S : α → β → Prop} {as : List α} {bs : List β} (h : Each R as bs)
    (hi : ∀ a b, R a b → S a b) : Each S as bs := by
  induction h with
  | nil => exact .nil
  | cons h _ ih => exact .cons (hi _ _ h) ih

theorem formatHtml_reads {u : Unicode} {o : Options} {r : Row} {i : Nat} {cs : List Str}
    (h : formatHtml u o r i = .ok cs) (hc : RowClean r) :
    ∃ cells, Each (Cell u o) r.elems cells ∧ Each Reads cs (index r i :: cells) := by
  unfold formatHtml at h
  split at h
  · simp at h
  · rename_i rest hm
    simp only [Except.ok.injEq] at h
    subst h
    obtain ⟨h1, h2⟩ := mapRow_ok hm
    have he : Each (fun e c => cellHtml u o e = .ok c) r.elems rest := each_of_get h1 h2
    obtain ⟨cells, h3, h4⟩ := each_split (Q := Cell u o) (R := Reads) he (by
      intro e hmem c hec
      exact C61_cell u o e c hec (fun t x hx => hc.1 t x (hx ▸ hmem)))
    refine ⟨cells, h3, .cons ?_ h4⟩
    unfold index indexCell
    cases hx : r.index with
    | none =>
      have : ¬ (i : Int) < 0 := by omega
      simp only [Option.getD_none, intStr, this, if_false, Int.natAbs_natCast]
      exact reads_nat i
    | some x => exact reads_clean x (hc.2 x hx).1 (hc.2 x hx).2

theorem scan_center (ps : List Part) (v rest : Str) :
    scan ⟨.quote ps '\'' v, none⟩ ("' style='text-align:center'>".toList ++ rest) =
      ((scan {} rest).1, .tag (ps ++ [.q v] ++ " style=".toList.map .c ++ [.q "text-align:center".toList]) ::
        (scan {} rest).2) := by
  have e : "' style='text-align:center'>".toList ++ rest =
      '\'' :: (" style=".toList ++ '\'' :: ("text-align:center".toList ++ ('\'' :: '>' :: rest))) := by
    have : "' style='text-align:center'>".toList =
      '\'' :: (" style=".toList ++ '\'' :: ("text-align:center".toList ++ ('\'' :: '>' :: []))) := by decide
    rw [this]
    simp
  rw [e, scan_close, scan_tag_plain _ _ _ (by decide) (by decide) (by decide), scan_open, scan_append,
    scan_quoted_plain _ _ _ (by decide) (by decide)]
  simp only [List.nil_append, scan_close, scan_gt]

theorem reads_const (s : Str) (ts : List Tok) (h : scan {} s = ({}, ts)) : Reads s ts := h

theorem reads_caption (n : Nat) (cap : Option Str) : Reads (captionHtml n cap) (caption n cap) := by
  cases cap with
  | none => rfl
  | some c =>
    have h1 : Reads ("<tr>".toList ++ "<th colspan='".toList ++ natStr n ++ "' style='text-align:center'><em>".toList)
        [el "tr", el2 "th colspan=" (natStr n) " style=" "text-align:center".toList, el "em"] := by
      unfold Reads
      have e1 : scan {} ("<tr>".toList ++ "<th colspan='".toList) =
          (⟨.quote ("th colspan=".toList.map .c) '\'' [], none⟩, [el "tr"]) := by decide
      rw [scan_append, scan_append, e1]
      simp only [scan_quoted_plain _ _ _ (natStr_not (n := n) (c := '\'') (by decide))
        (natStr_not (n := n) (c := '&') (by decide))]
      have e2 : "' style='text-align:center'><em>".toList = "' style='text-align:center'>".toList ++ "<em>".toList := by
        decide
      have e3 : scan {} "<em>".toList = ({}, [el "em"]) := by decide
      rw [e2, scan_center, e3]
      simp only [el2, List.nil_append, List.cons_append]
    have h2 : Reads "</em></th></tr>".toList [el "/em", el "/th", el "/tr"] := by unfold Reads; decide
    exact reads_append (reads_append h1 (C61_escape c)) h2

theorem reads_gap (n : Nat) : Reads (rowHtml n none)
    ([el "tr", el2 "td colspan=" (natStr n) " style=" "text-align:center".toList] ++ txt ". . .".toList ++
      [el "/td", el "/tr"]) := by
  have h1 : Reads ("<tr><td colspan='".toList ++ natStr n ++ "' style='text-align:center'>".toList)
      [el "tr", el2 "td colspan=" (natStr n) " style=" "text-align:center".toList] := by
    unfold Reads
    have e1 : scan {} "<tr><td colspan='".toList =
        (⟨.quote ("td colspan=".toList.map .c) '\'' [], none⟩, [el "tr"]) := by decide
    rw [scan_append, scan_append, e1]
    simp only [scan_quoted_plain _ _ _ (natStr_not (n := n) (c := '\'') (by decide))
      (natStr_not (n := n) (c := '&') (by decide))]
    have e2 := scan_center ("td colspan=".toList.map .c) ([] ++ natStr n) []
    rw [List.append_nil] at e2
    rw [e2]
    simp only [el2, scan, List.nil_append, List.cons_append]
  have h2 : Reads ". . .</td></tr>".toList (txt ". . .".toList ++ [el "/td", el "/tr"]) :=
    reads_const _ _ (by decide)
  have e : "' style='text-align:center'>. . .</td></tr>".toList =
      "' style='text-align:center'>".toList ++ ". . .</td></tr>".toList := by decide
  have h3 := reads_append h1 h2
  rw [List.append_assoc, ← e, ← List.append_assoc] at h3
  exact h3

theorem reads_wrapped {cs : List Str} {ts : List (List Tok)} {a b : Str} {ta tb : Tok} (h : Each Reads cs ts)
    (ha : Reads a [ta]) (hb : Reads b [tb]) :
    Reads (cs.flatMap (fun c => a ++ c ++ b)) (ts.flatMap (fun c => [ta] ++ c ++ [tb])) := by
  induction h with
  | nil => rfl
  | cons h _ ih =>
    rw [List.flatMap_cons, List.flatMap_cons]
    exact reads_append (reads_append (reads_append ha h) hb) ih

/-- C61. The HTML of a table is complete, and what is read from it is the fixed frame of the table with the caption, the
header, the indices and the cells as text: no data adds a tag or an attribute, except that a URN becomes a link
whose address is the URN's. HTML that the caller supplies in a TableCell is taken as it is, and so is a row index
supplied by the caller (C61_index_fails). -/
theorem C61_table_partial (ops : List SetOp) (u : Unicode) (o : Options) (ho : Spec.Print.Settable ops o) (t : Table)
    (html : Str) (h : renderHtml u o t = .ok html) (hcb : ∀ r ∈ t.body, RowClean r)
    (hch : ∀ r, t.header = some r → RowClean r) :
    ∃ hd hcells rows, t.header = some hd ∧ Each (Cell u o) hd.elems hcells ∧
      Each (BodyRow u o t.body (hd.elems.length + 1)) (Spec.Print.shown o.maxRows t.body.length) rows ∧
      Reads html ([el "table", el "thead"] ++ caption (hd.elems.length + 1) t.caption ++ [el "tr"] ++
        (index hd 0 :: hcells).flatMap (fun c => [el1 "th style=" "text-align:left".toList] ++ c ++ [el "/th"]) ++
        [el "/tr", el "/thead", el "tbody"] ++ rows.flatten ++ [el "/tbody", el "/table"]) := by
  unfold renderHtml at h
  split at h
  · simp at h
  · rename_i hs rows hcomp
    simp only [Except.ok.injEq] at h
    subst h
    unfold compile at hcomp
    split at hcomp
    · simp at hcomp
    · rename_i hd hhd
      split at hcomp
      · simp at hcomp
      · rename_i hs' hf
        split at hcomp
        · simp at hcomp
        · rename_i rows' hb
          simp only [Except.ok.injEq, Prod.mk.injEq] at hcomp
          obtain ⟨rfl, rfl⟩ := hcomp
          obtain ⟨hcells, hc1, hc2⟩ := formatHtml_reads (i := 0) hf (hch hd hhd)
          have hlen : hs'.length = hd.elems.length + 1 := by
            have := each_length hc1
            have := each_length hc2
            simp at this
            omega
          have hrows := C59_rows ops o ho _ _ _ hb
          obtain ⟨rtoks, hr1, hr2⟩ := each_split (Q := BodyRow u o t.body (hd.elems.length + 1))
              (R := fun row ts => Reads (rowHtml hs'.length row) ts) hrows (by
            intro i _ row hir
            cases i with
            | none =>
              cases row with
              | none => exact ⟨_, reads_gap _, by rw [hlen]; rfl⟩
              | some cs => exact hir.elim
            | some i =>
              cases row with
              | none => exact hir.elim
              | some cs =>
                obtain ⟨r, hri, hfr⟩ := hir
                obtain ⟨cells, h1, h2⟩ := formatHtml_reads hfr (hcb r (List.mem_of_getElem? hri))
                refine ⟨_, ?_, r, cells, hri, h1, rfl⟩
                exact reads_append (reads_append (reads_const "<tr>".toList [el "tr"] (by decide))
                  (reads_wrapped h2 (reads_const "<td style='text-align:left'>".toList
                      (el1 "td style=" "text-align:left".toList :: []) (by decide))
                    (reads_const "</td>".toList [el "/td"] (by decide))))
                  (reads_const "</tr>".toList [el "/tr"] (by decide)))
          refine ⟨hd, hcells, rtoks, hhd, hc1, hr1, ?_⟩
          rw [← hlen]
          refine reads_append (reads_append (reads_append (reads_append (reads_append (reads_append
            (reads_const _ _ (by decide)) (reads_caption _ _)) (reads_const _ _ (by decide))) ?_)
            (reads_const _ _ (by decide))) (reads_flatMap hr2)) (reads_const _ _ (by decide))
          exact reads_wrapped hc2 (reads_const "<th style='text-align:left'>".toList
              [el1 "th style=" "text-align:left".toList] (by decide))
            (reads_const "</th>".toList [el "/th"] (by decide))

/-- C61, the HTML view of a text: the text is read as it is, provided its name holds no special character. -/
theorem C61_text_partial (name text : Str) (h1 : '<' ∉ name) (h2 : '&' ∉ name) :
    Reads (textHtml name text)
      ([el "h3"] ++ txt "Text: ".toList ++ txt name ++ [el "/h3", el "pre"] ++ txt text ++ [el "/pre"]) := by
  refine reads_append (reads_append (reads_append (reads_append (reads_const "<h3>Text: ".toList _ (by decide))
    (reads_clean name h1 h2)) (reads_const _ _ (by decide))) (C61_escape text)) (reads_const _ _ (by decide))

/-- C61, violated: the name of a text is not escaped in its HTML view. -/
theorem C61_text_name_fails :
    ∃ name text, Reads (textHtml name text)
      ([el "h3"] ++ txt "Text: ".toList ++ [el1 "img onerror=" "x()".toList] ++ [el "/h3", el "pre"] ++ txt text ++
        [el "/pre"]) :=
  ⟨"<img onerror='x()'>".toList, "t".toList, by unfold Reads; decide⟩

/-- the ASCII part of the character tables -/
def asciiUnicode : Unicode := ⟨fun c => c.isAlphanum || c == '_', fun s => s.map Char.toLower⟩

namespace Ex

/-- a table with special characters everywhere and a link -/
def evil : Table where
  caption := some "<script>".toList
  header := some ⟨[.str "a&b".toList, .str "c".toList], some "#".toList⟩
  body := [⟨[.str "urn:Wikidata:Q'>1".toList, .obj "</td>".toList], none⟩, ⟨[nilValue, .str "\"x\"".toList], none⟩]

example : ∀ r ∈ evil.body, RowClean r := by
  have h : ∀ ts, Reads "<em>NIL</em>".toList ts ↔ ts = [el "em"] ++ txt "NIL".toList ++ [el "/em"] := by
    intro ts
    have : scan {} "<em>NIL</em>".toList = ({}, [el "em"] ++ txt "NIL".toList ++ [el "/em"]) := by decide
    unfold Reads
    rw [this]
    simp [eq_comm]
  intro r hr
  simp only [evil, List.mem_cons, List.not_mem_nil, or_false] at hr
  rcases hr with rfl | rfl
  · exact ⟨by intro t h hm; simp at hm, by intro x hx; cases hx⟩
  · refine ⟨?_, by intro x hx; cases hx⟩
    intro t x hm
    simp [nilValue] at hm
    exact ⟨_, by rw [hm.2]; exact (h _).2 rfl⟩

example : (evil.body.map (fun r => formatHtml asciiUnicode {} r 0)).headD (.error .value) = .ok ["0".toList,
    "<a href='https://www.wikidata.org/wiki/Q&#x27;&gt;1'>urn:Wikidata:Q&#x27;&gt;1</a>".toList, "&lt;/td&gt;".toList] := by
  decide

end Ex

/-- C61, violated: a row index supplied by the caller is not escaped. -/
theorem C61_index_fails :
    ∃ t : Table, ∃ html, renderHtml asciiUnicode {} t = .ok html ∧ (scan {} html).2.contains (el "script") = true := by
  refine ⟨⟨none, some ⟨[.str "a".toList], some "#".toList⟩, [⟨[.str "b".toList], some "<script>".toList⟩], 2, false, false⟩,
    ("<table><thead><tr><th style='text-align:left'>#</th><th style='text-align:left'>a</th></tr></thead><tbody>" ++
    "<tr><td style='text-align:left'><script></td><td style='text-align:left'>b</td></tr></tbody></table>").toList, ?_, ?_⟩
  · set_option maxRecDepth 100000 in decide +kernel
  · set_option maxRecDepth 100000 in decide +kernel

/-- A value `urn:wikipedia:x` without a page makes the HTML view raise IndexError. -/
theorem C61_wikipedia_fails (o : Options) :
    cellHtml asciiUnicode o (.str "urn:wikipedia:x".toList) = .error .index := by
  have : linkOf asciiUnicode "urn:wikipedia:x".toList = some (.error .index) := by decide
  simp only [cellHtml, this]

end Verif
