import Verif.Py.Num
/-
Presentation: printout.py:24-363 (options, truncation, tables as text and as HTML) and model.py:765-767
(the HTML view of a text).
-/
namespace Verif

/-- `s.replace(c, r)` for a single character `c` -/
def replaceChar (c : Char) (r : Str) (s : Str) : Str := s.flatMap (fun x => if x = c then r else [x])

/-- `html.escape(s)` of the standard library: five replacements, the ampersand first -/
def htmlEscape (s : Str) : Str :=
  replaceChar '\'' "&#x27;".toList (replaceChar '"' "&quot;".toList (replaceChar '>' "&gt;".toList
    (replaceChar '<' "&lt;".toList (replaceChar '&' "&amp;".toList s))))

/-- `sep.join(parts)` -/
def pyJoin (sep : Str) : List Str → Str
  | [] => []
  | [p] => p
  | p :: q :: rest => p ++ sep ++ pyJoin sep (q :: rest)

/-- `"{:<w}".format(s)` -/
def ljust (w : Nat) (s : Str) : Str := s ++ List.replicate (w - s.length) ' '

/-- `"{:^w}".format(s)`: the extra blank goes to the right -/
def center (w : Nat) (s : Str) : Str :=
  List.replicate ((w - s.length) / 2) ' ' ++ s ++ List.replicate (w - s.length - (w - s.length) / 2) ' '

/-- `range(a, b)` -/
def intRange (a b : Int) : List Int := (List.range (b - a).toNat).map (fun (k : Nat) => a + (k : Int))

namespace Printout

/-- A number given to an option: the fraction `num / den`, an int when `den = 1`. Infinities and NaN are left
out. -/
structure Setting where
  num : Int
  den : Nat := 1
  pos : 0 < den := by decide

/-- `int(x)`: towards zero -/
def Setting.toInt (s : Setting) : Int := s.num.tdiv s.den

/-- `x <= k` -/
def Setting.le (s : Setting) (k : Int) : Bool := decide (s.num ≤ k * s.den)

/-- `PrintOptions` (printout.py:24-37) -/
structure Options where
  maxRows : Option Int := some 100
  maxColumns : Option Int := some 8
  maxColumnWidth : Option Int := some 30
  maxDisplayWidth : Option Int := some 120

namespace Options

/-- `options.max_rows = v` (printout.py:44-51) -/
def setMaxRows (o : Options) : Option Setting → Except PyErr Options
  | none => .ok { o with maxRows := none }
  | some s => if s.le 0 then .error .value else .ok { o with maxRows := some s.toInt }

/-- `options.max_columns` (printout.py:53-56): returns the number of rows -/
def getMaxColumns (o : Options) : Option Int := o.maxRows

/-- `options.max_columns = v` (printout.py:58-65) -/
def setMaxColumns (o : Options) : Option Setting → Except PyErr Options
  | none => .ok { o with maxColumns := none }
  | some s => if s.le 0 then .error .value else .ok { o with maxColumns := some s.toInt }

/-- `options.max_column_width = v` (printout.py:72-79) -/
def setMaxColumnWidth (o : Options) : Option Setting → Except PyErr Options
  | none => .ok { o with maxColumnWidth := none }
  | some s => if s.le 6 then .error .value else .ok { o with maxColumnWidth := some s.toInt }

/-- `options.max_display_width = v` (printout.py:87-94) -/
def setMaxDisplayWidth (o : Options) : Option Setting → Except PyErr Options
  | none => .ok { o with maxDisplayWidth := none }
  | some s => if s.le 10 then .error .value else .ok { o with maxDisplayWidth := some s.toInt }

end Options

/-- one assignment to an option -/
inductive SetOp
  | rows (s : Option Setting)
  | columns (s : Option Setting)
  | columnWidth (s : Option Setting)
  | displayWidth (s : Option Setting)
  | largeScreen

/-- one assignment; a rejected one leaves the options as they were. `set_large_screen()` (printout.py:100-104). -/
def Options.apply (o : Options) (op : SetOp) : Options :=
  match op with
  | .rows s => match o.setMaxRows s with | .ok o' => o' | .error _ => o
  | .columns s => match o.setMaxColumns s with | .ok o' => o' | .error _ => o
  | .columnWidth s => match o.setMaxColumnWidth s with | .ok o' => o' | .error _ => o
  | .displayWidth s => match o.setMaxDisplayWidth s with | .ok o' => o' | .error _ => o
  | .largeScreen => { o with maxColumnWidth := some 200, maxDisplayWidth := some 200 }

/-- `truncate(text)` (printout.py:112-121). `None - 5` raises TypeError. -/
def truncate (o : Options) (text : Str) : Except PyErr Str :=
  match o.maxColumnWidth with
  | none => .ok text
  | some c =>
    match o.maxDisplayWidth with
    | none => .error .type
    | some d =>
      let minSz := min (d - 5) (c - 5)
      if (text.length : Int) > minSz then
        let part := minSz / 2
        .ok (pySlice text (some 0) (some part) ++ " ... ".toList ++ pySlice text (some (-part)) none)
      else .ok text

/-- What a table shows in a column: a TableCell with its text and its HTML (printout.py:137-140), a str, or another
object, given by its `str()`. -/
inductive Elem
  | cell (text html : Str)
  | str (s : Str)
  | obj (s : Str)
  deriving DecidableEq

/-- TableRow (printout.py:124-131); the index by its `str()`. -/
structure Row where
  elems : List Elem
  index : Option Str := none

/-- Table (printout.py:161-169) with TableStyle.padding (107-109), as a nonnegative number. -/
structure Table where
  caption : Option Str := none
  header : Option Row := none
  body : List Row := []
  padding : Nat := 2
  hideHeader : Bool := false
  hideIndex : Bool := false

/-- `set_header(*row)` (printout.py:171-176) -/
def Table.setHeader (t : Table) (elems : List Elem) : Table := { t with header := some ⟨elems, some "#".toList⟩ }

/-- `add_body(*row)` (printout.py:178-182) -/
def Table.addBody (t : Table) (r : Row) : Table := { t with body := t.body ++ [r] }

/-- the index cell: `str(row.index) if row.index is not None else str(index)` -/
def indexCell (r : Row) (i : Int) : Str := r.index.getD (intStr i)

/-- one cell of `format_text` (printout.py:192-196) -/
def cellText (o : Options) : Elem → Except PyErr Str
  | .cell t _ => truncate o t
  | .str s => truncate o s
  | .obj s => truncate o s

/-- map with exceptions, left to right -/
def mapRow {α β : Type} (f : α → Except PyErr β) : List α → Except PyErr (List β)
  | [] => .ok []
  | x :: xs =>
    match f x with
    | .error e => .error e
    | .ok y =>
      match mapRow f xs with
      | .error e => .error e
      | .ok ys => .ok (y :: ys)

/-- `format_text(row, index)` (printout.py:190-198) -/
def formatText (o : Options) (r : Row) (i : Int) : Except PyErr (List Str) :=
  match mapRow (cellText o) r.elems with
  | .error e => .error e
  | .ok cs => .ok (indexCell r i :: cs)

/-- The character classes the link patterns use: `\w`, and `str.lower`. Left open: tables of Unicode. -/
structure Unicode where
  isWord : Char → Bool
  lower : Str → Str

/-- text up to the first ':' and what follows it -/
def cutColon : Str → Option (Str × Str)
  | [] => none
  | c :: cs =>
    if c = ':' then some ([], cs)
    else match cutColon cs with
      | none => none
      | some (a, b) => some (c :: a, b)

/-- `URN_MATCH.fullmatch(col)` (printout.py:143, 207): groups `\w+` and `.+`, where `.` is anything but a newline.
Words hold no ':', so the first group ends at the second colon, as in `col.split(":", 2)`. -/
def urnMatch (u : Unicode) (s : Str) : Option (Str × Str) :=
  match s with
  | 'u' :: 'r' :: 'n' :: ':' :: rest =>
    match cutColon rest with
    | none => none
    | some (w, p) => if w ≠ [] ∧ w.all u.isWord ∧ p ≠ [] ∧ '\n' ∉ p then some (w, p) else none
  | _ => none

/-- `URN_LINK_FN[urn_type](partial)` (printout.py:146-158): `none` for an unknown type. A wikipedia link
without a second ':' raises IndexError. -/
def urnLink (ty part : Str) : Option (Except PyErr Str) :=
  if ty = "wikidata".toList then some (.ok ("https://www.wikidata.org/wiki/".toList ++ htmlEscape part))
  else if ty = "wikipedia".toList then
    some (match cutColon part with
      | none => .error .index
      | some (lang, page) =>
        .ok ("https://".toList ++ htmlEscape lang ++ ".wikipedia.org/wiki/".toList ++ htmlEscape page))
  else none

/-- one escaped cell (printout.py:217) -/
def cellPlain (o : Options) (s : Str) : Except PyErr Str :=
  match truncate o s with
  | .error e => .error e
  | .ok t => .ok (htmlEscape t)

/-- the link of a str, if it is a known URN (printout.py:206-212) -/
def linkOf (u : Unicode) (s : Str) : Option (Except PyErr Str) :=
  match urnMatch u s with
  | none => none
  | some (w, p) => urnLink (u.lower w) p

/-- one cell of `format_html` (printout.py:202-217) -/
def cellHtml (u : Unicode) (o : Options) : Elem → Except PyErr Str
  | .cell _ h => .ok h
  | .obj s => cellPlain o s
  | .str s =>
    match linkOf u s with
    | none => cellPlain o s
    | some (.error e) => .error e
    | some (.ok link) =>
      match truncate o s with
      | .error e => .error e
      | .ok t => .ok ("<a href='".toList ++ link ++ "'>".toList ++ htmlEscape t ++ "</a>".toList)

/-- `format_html(row, index)` (printout.py:200-219) -/
def formatHtml (u : Unicode) (o : Options) (r : Row) (i : Int) : Except PyErr (List Str) :=
  match mapRow (cellHtml u o) r.elems with
  | .error e => .error e
  | .ok cs => .ok (indexCell r i :: cs)

/-- format the numbered rows, in order -/
def formatRows (fmt : Row → Int → Except PyErr (List Str)) (rs : List (Int × Row)) :
    Except PyErr (List (Option (List Str))) :=
  mapRow (fun p => match fmt p.2 p.1 with | .error e => .error e | .ok c => .ok (some c)) rs

/-- the body of `_compile_text` and `_compile_html` (printout.py:224-234, 241-251); `none` is the gap -/
def compileBody (o : Options) (fmt : Row → Int → Except PyErr (List Str)) (body : List Row) :
    Except PyErr (List (Option (List Str))) :=
  let all := formatRows fmt ((intRange 0 body.length).zip body)
  match o.maxRows with
  | none => all
  | some m =>
    if (body.length : Int) > m then
      let part := m / 2
      match formatRows fmt ((intRange 0 part).zip (pySlice body (some 0) (some part))) with
      | .error e => .error e
      | .ok upper =>
        match formatRows fmt ((intRange (body.length - part) body.length).zip (pySlice body (some (-part)) none)) with
        | .error e => .error e
        | .ok lower => .ok (upper ++ [none] ++ lower)
    else all

/-- `_compile_text` and `_compile_html` (printout.py:221-253); without a header AttributeError -/
def compile (o : Options) (fmt : Row → Int → Except PyErr (List Str)) (t : Table) :
    Except PyErr (List Str × List (Option (List Str))) :=
  match t.header with
  | none => .error .attribute
  | some h =>
    match fmt h 0 with
    | .error e => .error e
    | .ok hs =>
      match compileBody o fmt t.body with
      | .error e => .error e
      | .ok rows => .ok (hs, rows)

/-- the largest of some lengths, 0 if there are none -/
def maxNat (ns : List Nat) : Nat := ns.foldr max 0

/-- `len(row[i])` -/
def cellLen (i : Nat) (r : List Str) : Except PyErr Nat :=
  match r[i]? with
  | none => .error .index
  | some c => .ok c.length

/-- the width of column `i` in the rows (printout.py:263); a row that is too short raises IndexError -/
def rowWidth (rows : List (List Str)) (i : Nat) : Except PyErr Nat :=
  match mapRow (cellLen i) rows with
  | .error e => .error e
  | .ok ns => .ok (maxNat ns)

/-- `actual_widths` (printout.py:262-268) -/
def widths (t : Table) (hs : List Str) (rows : List (Option (List Str))) : Except PyErr (List Nat) :=
  match mapRow (rowWidth (rows.filterMap id)) (List.range hs.length) with
  | .error e => .error e
  | .ok rw => .ok (if t.hideHeader then rw else (hs.zip rw).map (fun p => max p.1.length p.2))

/-- the inner loop over columns (printout.py:277-282): from column `i` with `n` columns left and the width so far,
gives the width and the end of the block. The column that exceeds the display is included. -/
def blockLoop (o : Options) (pad : Nat) (ws : List Nat) : Nat → Nat → Nat → Nat × Nat
  | i, 0, width => (width, i)
  | i, n + 1, width =>
    let width' := width + (ws.getD i 0 + pad * 2)
    match o.maxDisplayWidth with
    | none => blockLoop o pad ws (i + 1) n width'
    | some d => if (width' : Int) > d then (width', i + 1) else blockLoop o pad ws (i + 1) n width'

/-- one formatted column: `_get_column_format(width)` (printout.py:255-256) filled in -/
def column (t : Table) (w : Nat) (s : Str) : Str :=
  List.replicate t.padding ' ' ++ ljust w s ++ List.replicate t.padding ' '

/-- a line of a block: the columns given with their widths -/
def fmtLine (t : Table) (cells : List (Nat × Str)) : Str := cells.flatMap (fun p => column t p.1 p.2)

/-- `xs[a:b]` for `0 <= a <= b` -/
def cut {α : Type} (xs : List α) (a b : Nat) : List α := (xs.drop a).take (b - a)

/-- the cells of a line in block `[a, b)` of columns: the index column first unless hidden
(printout.py:293-299, 313, 321-324) -/
def lineCells (t : Table) (ws : List Nat) (cells : List Str) (a b : Nat) : List (Nat × Str) :=
  if t.hideIndex then (cut ws a b).zip (cut cells a b)
  else (ws.headD 0 :: cut ws a b).zip (cells.headD [] :: cut cells a b)

/-- the lines of one row (printout.py:306-324) -/
def rowLines (t : Table) (ws : List Nat) (a b width : Nat) : Option (List Str) → List Str
  | none => [[], center width "...".toList, []]
  | some cells => [fmtLine t (lineCells t ws cells a b)]

/-- the lines of one block (printout.py:284-324) -/
def blockLines (o : Options) (t : Table) (hs : List Str) (rows : List (Option (List Str))) (ws : List Nat)
    (a b width : Nat) : Except PyErr (List Str) :=
  let lead : Except PyErr (List Str) :=
    if a = 1 then
      match t.caption with
      | none => .ok []
      | some c => match truncate o c with
        | .error e => .error e
        | .ok s => .ok [center width s, []]
    else .ok [[], []]
  match lead with
  | .error e => .error e
  | .ok l =>
    let head := if t.hideHeader then [] else
      [fmtLine t (lineCells t ws hs a b) ++ (if b ≠ hs.length then " \\".toList else []), []]
    .ok (l ++ head ++ rows.flatMap (rowLines t ws a b width))

/-- the width a block starts with (printout.py:273-275) -/
def startWidth (t : Table) (ws : List Nat) : Nat := if t.hideIndex then 0 else ws.headD 0 + t.padding * 2

/-- the outer loop (printout.py:272-326); a block never is empty, so the number of columns is enough fuel -/
def blocks (o : Options) (t : Table) (hs : List Str) (rows : List (Option (List Str))) (ws : List Nat) :
    Nat → Nat → Except PyErr (List Str)
  | 0, pos => if pos < hs.length then .error .unmodelled else .ok []
  | fuel + 1, pos =>
    if pos < hs.length then
      let we := blockLoop o t.padding ws pos (hs.length - pos) (startWidth t ws)
      match blockLines o t hs rows ws pos we.2 we.1 with
      | .error e => .error e
      | .ok l =>
        match blocks o t hs rows ws fuel we.2 with
        | .error e => .error e
        | .ok ls => .ok (l ++ ls)
    else .ok []

/-- the lines of `render_text()` (printout.py:258-328) -/
def textLines (o : Options) (t : Table) : Except PyErr (List Str) :=
  match compile o (formatText o) t with
  | .error e => .error e
  | .ok (hs, rows) =>
    match widths t hs rows with
    | .error e => .error e
    | .ok ws =>
      match blocks o t hs rows ws hs.length 1 with
      | .error e => .error e
      | .ok ls => .ok (ls ++ [[]])

/-- `render_text()` (printout.py:258-329) -/
def renderText (o : Options) (t : Table) : Except PyErr Str :=
  match textLines o t with
  | .error e => .error e
  | .ok ls => .ok (pyJoin ['\n'] ls)

/-- the caption row (printout.py:336-340) -/
def captionHtml (n : Nat) : Option Str → Str
  | none => []
  | some c => "<tr>".toList ++ "<th colspan='".toList ++ natStr n ++ "' style='text-align:center'><em>".toList ++
      htmlEscape c ++ "</em></th></tr>".toList

/-- a header cell (printout.py:343-346) -/
def headHtml (h : Str) : Str := "<th style='text-align:left'>".toList ++ h ++ "</th>".toList

/-- a body row (printout.py:352-359) -/
def rowHtml (n : Nat) : Option (List Str) → Str
  | none => "<tr><td colspan='".toList ++ natStr n ++ "' style='text-align:center'>. . .</td></tr>".toList
  | some cs => "<tr>".toList ++ cs.flatMap (fun c => "<td style='text-align:left'>".toList ++ c ++ "</td>".toList) ++
      "</tr>".toList

/-- `render_html()` (printout.py:331-363) -/
def renderHtml (u : Unicode) (o : Options) (t : Table) : Except PyErr Str :=
  match compile o (formatHtml u o) t with
  | .error e => .error e
  | .ok (hs, rows) =>
    .ok ("<table><thead>".toList ++ captionHtml hs.length t.caption ++ "<tr>".toList ++ hs.flatMap headHtml ++
      "</tr></thead><tbody>".toList ++ rows.flatMap (rowHtml hs.length) ++ "</tbody></table>".toList)

/-- `_NIL_VALUE` (printout.py:366) -/
def nilValue : Elem := .cell "NIL".toList "<em>NIL</em>".toList

/-- `Text._repr_html_` (model.py:765-767): the name is not escaped -/
def textHtml (name text : Str) : Str :=
  "<h3>Text: ".toList ++ name ++ "</h3><pre>".toList ++ htmlEscape text ++ "</pre>".toList

end Printout
end Verif
