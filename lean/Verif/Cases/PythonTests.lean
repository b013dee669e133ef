import Verif.Model.MsgpackCodec
import Verif.Model.JsonCodec
import Verif.Model.Query
import Verif.Model.Collections
import Verif.Model.Sweep
import Verif.Model.Tokens
import Verif.Model.BlockFile
/-
The model run on the tests of the repository: py/tests/test_simple.py, py/tests/test_algo.py
and py/tests/test_io.py. Each `assert` there is
an equation here, about the same calls. Two of the tests hold files that the libraries themselves have written; the
model writes these bytes.
-/
namespace Verif
namespace PyTests

/-! ### helpers -/

/-- the values of field `f` in the order of the layer, printed with `str`, between blanks:
`" ".join(map(lambda n: str(n[f]), layer))` -/
def joined (w : World) (ns : List (Option Nat)) (f : String) : String :=
  " ".intercalate (ns.map (fun n =>
    match n with
    | none => "None"
    | some n =>
      match dget (w.nodes n).fields f.toList with
      | some (.str s) => String.ofList s
      | some (.span t a b) => String.ofList (⟨w.texts t, a, b⟩ : TextSpan).str
      | _ => "?"))

/-- the layer of that name -/
def layerOf (w : World) (name : String) : Nat := (dget w.dl name.toList).getD 999

/-- `" ".join(map(str, map(lambda n: n[f], list(doc.layers[name]))))` -/
def words (w : World) (name f : String) : String := joined w (w.iter (layerOf w name)) f

/-- the heap, or an empty one if the call raised -/
def got : Except PyErr World → World
  | .ok w => w
  | .error _ => .empty

/-- the bytes, or none if the call raised -/
def bytes : Except PyErr Bytes → Bytes
  | .ok b => b
  | .error _ => []

/-- the layer's `add(**kwargs)` for each of these -/
def addAll (w : World) (L : Nat) : List (Dict Str Value) → World
  | [] => w
  | kw :: kws => addAll (w.addNew L kw).1 L kws

/-- the value of a base64 digit -/
def digit64 (c : Char) : Nat :=
  if 65 ≤ c.toNat ∧ c.toNat ≤ 90 then c.toNat - 65
  else if 97 ≤ c.toNat ∧ c.toNat ≤ 122 then c.toNat - 71
  else if 48 ≤ c.toNat ∧ c.toNat ≤ 57 then c.toNat + 4
  else if c = '+' then 62 else 63

/-- base64 (RFC 4648) -/
def unbase64 : List Char → Bytes
  | [a, b, '=', '='] => [.ofNat (digit64 a * 4 + digit64 b / 16)]
  | [a, b, c, '='] => [.ofNat (digit64 a * 4 + digit64 b / 16), .ofNat (digit64 b % 16 * 16 + digit64 c / 4)]
  | a :: b :: c :: d :: r =>
    .ofNat (digit64 a * 4 + digit64 b / 16) :: .ofNat (digit64 b % 16 * 16 + digit64 c / 4) ::
      .ofNat (digit64 c % 4 * 64 + digit64 d) :: unbase64 r
  | _ => []

/-! ### py/tests/test_simple.py -/

/-- the text of the tests (test_simple.py:29) -/
def sentence : String := "This code was written in Lund, Sweden."

/-- what the pattern `[a-zA-Z]+|[0-9]+|[^\s]` finds in it (test_simple.py:26, 34) -/
def tokens : List (Int × Int) := [(0, 4), (5, 9), (10, 13), (14, 21), (22, 24), (25, 29), (29, 30), (31, 37), (37, 38)]

/-- `create_doc()` (test_simple.py:49-67) with a type for `cls` -/
def createWith (cls : DataType) : World :=
  let w := (World.empty.addText "main".toList sentence.toList).1
  let w := (w.addLayer "token".toList [("text".toList, DataTypes.textspan "main".toList)]).1
  let w := addAll w 0 (tokens.map (fun t => [("text".toList, .span 0 t.1 t.2)]))
  let w := (w.addLayer "named_entity".toList [("text".toList, DataTypes.textspan "main".toList), ("cls".toList, cls)]).1
  addAll w 1 [[("text".toList, .span 0 25 29), ("cls".toList, .str "GPE".toList)],
    [("text".toList, .span 0 31 37), ("cls".toList, .str "GPE".toList)]]

/-- `create_doc()`: `T.string` is called by the schema (test_simple.py:61, model.py:1240) -/
def createDoc : World := createWith (DataTypes.string (some []))

/-- test_primary (test_simple.py:22-46) -/
example : String.ofList (createDoc.texts 0).text = sentence ∧
    words createDoc "token" "text" = "This code was written in Lund , Sweden ." ∧
    words createDoc "named_entity" "text" = "Lund Sweden" ∧ words createDoc "named_entity" "cls" = "GPE GPE" := by
  decide +kernel

/-- the query of test_nodespan (test_simple.py:73): `doc["token"][doc["token"]["text"].covered_by(25, 37)]` -/
def coveredTokens : List Nat :=
  match FieldPred.coveredBy (DataTypes.textspan "main".toList) "text".toList 25 37 with
  | .error _ => []
  | .ok p =>
    match createDoc.select [] (.layer 0) p with
    | .error _ => []
    | .ok ns => ns

/-- the document of test_nodespan (test_simple.py:71-74) -/
def geoDoc : World :=
  let w := (createDoc.addLayer "geolocations".toList [("tokens".toList, DataTypes.nodespan "token".toList)]).1
  match w.nodeSpanMk (coveredTokens.headD 0) (coveredTokens.getLastD 0) with
  | .error _ => w
  | .ok v => addAll w 2 [[("tokens".toList, v)]]

/-- `" ".join(map(lambda tok: str(tok["text"]), geoloc[0]["tokens"]))` (test_simple.py:75, 79) -/
def geoWords (w : World) : String :=
  match w.getIndex (layerOf w "geolocations") 0 with
  | .ok (some n) =>
    match dget (w.nodes n).fields "tokens".toList with
    | some (.nodespan l r) =>
      match w.nodeSpanIter l r with
      | .ok ns => joined w (ns.map some) "text"
      | .error _ => ""
    | _ => ""
  | _ => ""

/-- test_nodespan (test_simple.py:70-79) -/
example : coveredTokens = [5, 6, 7] ∧ geoWords geoDoc = "Lund , Sweden" ∧
    geoWords (got (decodeMsgpack (bytes (geoDoc.encodeMsgpack false true).2))) = "Lund , Sweden" := by
  decide +kernel

/-- `doc["token"].to_list()[[1, 5, 7]]` (test_simple.py:85) -/
def picked : List Nat :=
  match createDoc.toList 0 with
  | .error _ => []
  | .ok l =>
    match l.pick [1, 5, 7] with
    | .error _ => []
    | .ok l => l.elems

/-- test_retain (test_simple.py:82-93) -/
example : joined createDoc (picked.map some) "text" = "code Lund Sweden" ∧
    words (createDoc.retain 0 picked).1 "token" "text" = "code Lund Sweden" ∧ (createDoc.retain 0 picked).1.len 0 = 3 := by
  decide +kernel

/-- `doc["token"].remove(doc["token"][1])` (test_simple.py:98) -/
def removed1 : World :=
  match createDoc.getIndex 0 1 with
  | .ok (some n) => (createDoc.remove 0 n).1
  | _ => createDoc

/-- `toks = doc["token"].to_list()` (test_simple.py:101) -/
def remaining : List Nat :=
  match removed1.toList 0 with
  | .ok l => l.elems
  | .error _ => []

/-- `doc["token"].remove(toks[[0, 1, 2]])` (test_simple.py:103) -/
def removed2 : World :=
  match removed1.toList 0 with
  | .error _ => removed1
  | .ok l =>
    match l.pick [0, 1, 2] with
    | .error _ => removed1
    | .ok l => (removed1.removeMany 0 (l.elems.map some)).1

/-- `doc["token"].remove(toks[-1])` (test_simple.py:106) -/
def removed3 : World := (removed2.remove 0 (remaining.getLastD 999)).1

/-- test_remove (test_simple.py:96-107) -/
example : words removed1 "token" "text" = "This was written in Lund , Sweden ." ∧
    words removed2 "token" "text" = "in Lund , Sweden ." ∧ words removed3 "token" "text" = "in Lund , Sweden" := by
  decide +kernel

/-- the document of test_primary_msgpack (test_simple.py:112) -/
def msgpackDoc : World := got (decodeMsgpack (bytes (createDoc.encodeMsgpack false true).2))

/-- test_primary_msgpack (test_simple.py:110-123) -/
example : String.ofList (msgpackDoc.texts ((dget msgpackDoc.dt "main".toList).getD 999)).text = sentence ∧
    words msgpackDoc "token" "text" = "This code was written in Lund , Sweden ." ∧
    words msgpackDoc "named_entity" "text" = "Lund Sweden" ∧ words msgpackDoc "named_entity" "cls" = "GPE GPE" ∧
    (msgpackDoc.encodeMsgpack false true).2.toOption.isSome := by
  decide +kernel

/-- reading and printing floats; the document has none -/
def noFloats : FloatText := ⟨fun _ => [], fun _ => 0⟩

/-- the document of test_primary_json (test_simple.py:128) -/
def jsonDoc : World :=
  match (createDoc.encodeJson noFloats).2 with
  | .ok s => got (decodeJson noFloats s)
  | .error _ => .empty

/-- test_primary_json (test_simple.py:126-137) -/
example : String.ofList (jsonDoc.texts ((dget jsonDoc.dt "main".toList).getD 999)).text = sentence ∧
    words jsonDoc "token" "text" = "This code was written in Lund , Sweden ." ∧
    words jsonDoc "named_entity" "text" = "Lund Sweden" ∧ words jsonDoc "named_entity" "cls" = "GPE GPE" := by
  decide +kernel

/-- test_java_interaction (test_simple.py:140-144): a document that the Java library has encoded -/
def fromJava : Bytes := unbase64
  ("RE1fMQGAkqxuYW1lZF9lbnRpdHmldG9rZW4Co2Nsc8Kjc3RypHRleHTDpHNwYW6Bp2NvbnRleHSkbWFpbgGkdGV4dMOkc3BhboGnY29udGV4d" ++
   "KRtYWluPIGkbWFpbp+kVGhpc6EgpGNvZGWhIKN3YXOhIKd3cml0dGVuoSCiaW6hIKRMdW5koSyhIKZTd2VkZW6hLhECwpKjR1BFo0dQRcKUCg" ++
   "sNDhcJwtwAEgABAgMEBQYHCAkKCwsMDQ4ODw==").toList

/-- test_java_interaction (test_simple.py:139-148) -/
example : words (got (decodeMsgpack fromJava)) "token" "text" = "This code was written in Lund , Sweden ." ∧
    words (got (decodeMsgpack fromJava)) "named_entity" "text" = "Lund Sweden" := by
  decide +kernel

/-- testPython (java/core/src/test/java/se/lth/cs/docria/tests/MainTest.java:145-148): a document that the Python library
has encoded -/
def fromPython : Bytes := unbase64
  ("RE1fMQGAkqV0b2tlbqxuYW1lZF9lbnRpdHkBpHRleHTDpHNwYW6Bp2NvbnRleHSkbWFpbgKkdGV4dMOkc3BhboGnY29" ++
   "udGV4dKRtYWluo2Nsc8Kjc3RyPIGkbWFpbp+kVGhpc6EgpGNvZGWhIKN3YXOhIKd3cml0dGVuoSCiaW6hIKRMdW5koSyhIKZTd2" ++
   "VkZW6hLhcJwtwAEgABAgMEBQYHCAkKCwsMDQ4ODxECwpQKCw0OwpKjR1BFo0dQRQ==").toList

/-- the bytes of `MsgpackCodec.encode(create_doc())`, with a string type that has no default, are the bytes that the
Java library's test has from Python -/
example : ((createWith (DataTypes.string none)).encodeMsgpack false true).2.toOption = some fromPython := by
  decide +kernel

/-- the document of test_schema (test_simple.py:151-156) -/
def undeclared : World :=
  let w := (World.empty.addText "main".toList "Text".toList).1
  let w := (w.addLayer "token".toList [("text".toList, DataTypes.textspan "main".toList)]).1
  addAll w 0 [[("undeclared_field".toList, .str "Test".toList)]]

/-- test_schema (test_simple.py:151-168) -/
example (ft : FloatText) : (undeclared.encodeMsgpack false true).2 = .error .schemaValidation ∧
    (undeclared.encodeJson ft).2 = .error .schemaValidation := by
  constructor <;> rfl

/-- the text of test_text (test_simple.py:173) -/
def text : TextObj := ⟨0, "main".toList, "This code was written in Lund, Sweden".toList⟩

/-- `str(text[a:b])` -/
def slice (a b : Option Int) : Option String := (text.getSlice a b none).toOption.map (fun s => String.ofList s.str)

/-- `main_text[14:21]` (test_simple.py:197-206) -/
def written : TextSpan := ⟨text, 14, 21⟩

/-- `str(main_text[14:21][a:b])` -/
def slice' (a b : Option Int) : Option String := (written.getSlice a b none).toOption.map (fun s => String.ofList s.str)

/-- test_text (test_simple.py:171-206) -/
example : slice none none = some "This code was written in Lund, Sweden" ∧ slice none (some 4) = some "This" ∧
    slice (some 31) none = some "Sweden" ∧ slice (some 14) (some 21) = some "written" ∧
    (text.getPair 14 21).toOption.map (fun s => String.ofList s.str) = some "written" ∧
    slice (some (-4)) (some (-2)) = some "ed" ∧
    slice none (some (-2)) = some "This code was written in Lund, Swed" ∧
    (text.getSlice (some 14) (some 21) none).toOption.map (fun s => (s.start, s.stop)) = some (14, 21) ∧
    slice' (some 0) (some 2) = some "wr" ∧ slice' none (some 2) = some "wr" ∧ slice' (some 2) (some 5) = some "itt" ∧
    (written.getPair 2 5).toOption.map (fun s => String.ofList s.str) = some "itt" ∧
    slice' none (some (-2)) = some "writt" ∧ slice' (some (-2)) none = some "en" ∧ slice' none none = some "written" ∧
    (written.getInt 0).toOption = some 'w' ∧ (written.getInt (-1)).toOption = some 'n' := by
  decide +kernel

/-- `main_text[0]` and `main_text[-1]` (test_simple.py:185-186) -/
example : text.getItem (.int 0) = .ok (.char 'T') ∧ text.getItem (.int (-1)) = .ok (.char 'n') := by
  constructor <;> rfl

/-- the document of test_field_add before the fields are added (test_simple.py:209-215) -/
def lund : World :=
  let w := (World.empty.addText "main".toList "Lund".toList).1
  let w := (w.addLayer "token".toList [("id".toList, DataTypes.int32 (some 0)), ("text".toList, DataTypes.textspan "main".toList)]).1
  addAll w 0 [[("id".toList, .int 1), ("text".toList, .span 0 0 1)], [("id".toList, .int 2), ("text".toList, .span 0 1 2)]]

/-- the three calls of `add_field` (test_simple.py:217, 222, 225) -/
def lund1 : World := (lund.addField 0 "head".toList (DataTypes.noderef "token".toList) true).1
def lund2 : World := (lund1.addField 0 "pos".toList (DataTypes.string (some [])) true).1
def lund3 : World := (lund2.addField 0 "is_upper".toList (DataTypes.bool (some false)) true).1

/-- the value of a field in every node -/
def column (w : World) (f : String) : List (Option (Option Value)) :=
  (w.iter 0).map (fun n => n.map (fun n => dget (w.nodes n).fields f.toList))

/-- test_field_add (test_simple.py:209-226) -/
example : column lund1 "head" = [some none, some none] ∧
    column lund2 "pos" = [some (some (.str [])), some (some (.str []))] ∧
    column lund3 "is_upper" = [some (some (.bool false)), some (some (.bool false))] := by
  decide +kernel

/-! ### py/tests/test_algo.py -/

/-- the document of test_span_remap (test_algo.py:7-21) -/
def remap : World :=
  let w := (World.empty.addText "raw".toList "0123456789012345678901234567890".toList).1
  let w := (w.addText "clean".toList "012345012".toList).1
  let types := [("raw".toList, DataTypes.textspan "raw".toList), ("clean".toList, DataTypes.textspan "clean".toList)]
  let w := (w.addLayer "mapping".toList types).1
  let w := addAll w 0 [[("raw".toList, .span 0 10 15), ("clean".toList, .span 1 0 5)],
    [("raw".toList, .span 0 20 22), ("clean".toList, .span 1 5 7)], [("raw".toList, .span 0 25 27), ("clean".toList, .span 1 7 9)]]
  let w := (w.addLayer "data".toList types).1
  addAll w 1 [[("clean".toList, .span 1 0 3)], [("clean".toList, .span 1 5 9)], [("clean".toList, .span 1 4 7)],
    [("clean".toList, .span 1 5 9)]]

/-- `span_translate(doc, "mapping", ("raw", "clean"), "data", ("clean", "raw"))` (test_algo.py:23) -/
def remapped : World × Option PyErr :=
  remap.spanTranslate "mapping".toList "raw".toList "clean".toList "data".toList "clean".toList "raw".toList

/-- test_span_remap (test_algo.py:7-33) -/
example : remapped.2 = none ∧
    (remapped.1.iter 1).map (fun n => n.map (fun n => dget (remapped.1.nodes n).fields "raw".toList)) =
      [some (some (.span 0 10 13)), some (some (.span 0 20 27)), some (some (.span 0 14 22)), some (some (.span 0 20 27))] := by
  decide +kernel

/-- nodes with an `id` and a span of the text -/
def withIds (f : String) (l : List (Int × Int × Int)) : List (Dict Str Value) :=
  l.map (fun e => [("id".toList, .int e.1), (f.toList, .span 0 e.2.1 e.2.2)])

/-- the document of test_group_by (test_algo.py:36-64) -/
def groups : World :=
  let w := (World.empty.addText "raw".toList "0123456789012345678901234567890".toList).1
  let fields := fun f : String => [("id".toList, DataTypes.int32 (some 0)), (f.toList, DataTypes.textspan "raw".toList)]
  let w := (w.addLayer "token".toList (fields "span")).1
  let w := (w.addLayer "anchor".toList (fields "mention")).1
  let w := (w.addLayer "entity".toList (fields "entity")).1
  let w := addAll w 0 (withIds "span" [(1, 0, 2), (2, 3, 5), (3, 4, 6), (4, 8, 11), (5, 11, 12), (6, 14, 15), (7, 17, 17)])
  let w := addAll w 1 (withIds "mention" [(8, 0, 6), (9, 1, 6), (10, 2, 6), (11, 4, 10), (12, 4, 12), (13, 8, 11), (14, 16, 18), (15, 20, 20)])
  addAll w 2 (withIds "entity" [(16, 4, 6), (17, 8, 12), (18, 0, 15)])

/-- the nodes of a layer -/
def all (w : World) (L : Nat) : List Nat := (w.iter L).filterMap id

/-- `n["id"]` -/
def idOf (w : World) (n : Nat) : Int :=
  match dget (w.nodes n).fields "id".toList with
  | some (.int i) => i
  | _ => -1

/-- the identifiers of the tokens of every group, by the identifier of the group's node -/
def tokenIds (cover includeEmpty : Bool) : List (Int × List Int) :=
  match groups.groupBySpan (all groups 1) [("tokens".toList, all groups 0), ("entity".toList, all groups 2)] cover "mention".toList
      (some [("tokens".toList, "span".toList), ("entity".toList, "entity".toList)]) includeEmpty with
  | .error _ => []
  | .ok gs => gs.map (fun g => (idOf groups g.1, ((dget g.2 "tokens".toList).getD []).map (idOf groups)))

/-- is the group of that identifier this set? -/
def isSet (gs : List (Int × List Int)) (id : Int) (s : List Int) : Bool :=
  match dget gs id with
  | none => false
  | some l => l.all (fun x => decide (x ∈ s)) && s.all (fun x => decide (x ∈ l))

/-- test_group_by, with the default resolution (test_algo.py:66-80) -/
example : isSet (tokenIds false true) 8 [1, 2, 3] ∧ isSet (tokenIds false true) 9 [1, 2, 3] ∧
    isSet (tokenIds false true) 10 [2, 3] ∧ isSet (tokenIds false true) 11 [2, 3, 4] ∧
    isSet (tokenIds false true) 12 [2, 3, 4, 5] ∧ isSet (tokenIds false true) 13 [4] ∧
    isSet (tokenIds false true) 14 [7] ∧ isSet (tokenIds false true) 15 [] := by
  decide +kernel

/-- test_group_by, with resolution "cover" and without empty groups (test_algo.py:82-98) -/
example : isSet (tokenIds true false) 8 [1, 2, 3] ∧ isSet (tokenIds true false) 9 [2, 3] ∧
    isSet (tokenIds true false) 10 [2, 3] ∧ isSet (tokenIds true false) 11 [3] ∧
    isSet (tokenIds true false) 12 [3, 4, 5] ∧ isSet (tokenIds true false) 13 [4] ∧
    isSet (tokenIds true false) 14 [7] ∧ dget (tokenIds true false) 15 = none := by
  decide +kernel

/-- the segments of test_dominant_right (test_algo.py:102-112) -/
def segments : List (Seg Nat) :=
  [⟨0, 0, 3, 0⟩, ⟨1, 1, 4, 1⟩, ⟨2, 0, 1, 2⟩, ⟨3, 0, 6, 3⟩, ⟨4, 4, 5, 4⟩, ⟨5, 8, 10, 5⟩, ⟨6, 11, 15, 6⟩, ⟨7, 14, 16, 7⟩, ⟨8, 20, 25, 8⟩, ⟨9, 19, 21, 9⟩]

/-- test_dominant_right (test_algo.py:101-120) -/
example : (dominantRight segments).length = 4 ∧ 3 ∈ dominantRight segments ∧ 5 ∈ dominantRight segments ∧
    6 ∈ dominantRight segments ∧ 8 ∈ dominantRight segments := by
  decide +kernel

/-- `[(s.start, s.stop) for s in sequence_to_textspans(sequence, Text("test", text))]` -/
def spansOf (sequence : List String) (text : String) (start : Int) (stop : Option Int) : Option (List (Int × Int)) :=
  (sequenceToTextspans (sequence.map (·.toList)) ⟨0, "test".toList, text.toList⟩ start stop 1).toOption.map
    (fun l => l.map (fun s => (s.start, s.stop)))

/-- test_token_sequence_to_textspans_01 to _04 (test_algo.py:123-171) -/
example : spansOf ["A", "B", "C", "D", "E"] "AB CD. E" 0 none = some [(0, 1), (1, 2), (3, 4), (4, 5), (7, 8)] ∧
    spansOf ["A", ".", "B", "C", "D", "E"] "AB CD E" 0 none = some [(0, 1), (1, 1), (1, 2), (3, 4), (4, 5), (6, 7)] ∧
    spansOf ["A", ".", "B", "C", "D", "E"] "AB C.D. E" 0 none = some [(0, 1), (1, 1), (1, 2), (3, 4), (5, 6), (8, 9)] ∧
    spansOf ["B", "C", "D"] "ABCDEF" 1 (some 3) = some [(1, 2), (2, 3), (3, 3)] := by
  decide +kernel

/-! ### py/tests/test_io.py -/

/-- the document of test_io (test_io.py:22-40) -/
def ioDoc : World :=
  let w := (World.empty.addText "main".toList sentence.toList).1
  let w := (w.addLayer "token".toList [("id".toList, DataTypes.int32 (some 0)), ("text".toList, DataTypes.textspan "main".toList),
    ("head".toList, DataTypes.noderef "token".toList)]).1
  let w := addAll w 0 (tokens.zipIdx.map (fun t => [("id".toList, .int (t.2 + 1)), ("text".toList, .span 0 t.1.1 t.1.2)]))
  match w.getIndex 0 2, w.getIndex 0 0 with
  | .ok (some a), .ok (some b) => w.setField a "head".toList (.node b)
  | _, _ => w

/-- the codec "none" (collection.py:300); the test uses the default, "zip", which is a parameter of the model -/
def plain : CCodec := ⟨"none".toList, .ok, .ok⟩

/-- the file that test_io writes (test_io.py:42-43) -/
def ioFile : Bytes :=
  match DocWriter.new true 128 plain, BWriter.new 20 with
  | .ok d, .ok b =>
    match b.run (d.run [.write (.doc ioDoc false true), .flush]).log with
    | .ok b => b.out
    | .error _ => []
  | _, _ => []

/-- `next(reader)` (test_io.py:49-50), the reader of documents on what the `_BoundaryReader` gives -/
def ioRead : World :=
  match BReader.new ioFile with
  | .error _ => .empty
  | .ok r =>
    match (r.read none).2 with
    | .error _ => .empty
    | .ok payload =>
      match DocReader.new [("none".toList, plain)] payload with
      | .error _ => .empty
      | .ok r => got r.nextDocument.2

/-- test_io (test_io.py:22-51), and what the test could have looked at -/
example : words ioRead "token" "text" = "This code was written in Lund , Sweden ." ∧
    column ioRead "head" = (List.range 9).map (fun i => some (if i = 2 then some (.node 0) else none)) := by
  decide +kernel

end PyTests
end Verif
