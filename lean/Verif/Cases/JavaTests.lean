import Verif.Cases.PythonTests
import Verif.Model.JavaNode
import Verif.Model.JavaValue
import Verif.Model.JavaSweep
import Verif.Model.JavaBoundary
/-
The model run on the tests of the Java library: java/core/src/test/java/se/lth/cs/docria/tests/MainTest.java, AlgoTest.java
and IoTest.java. Not here: testGzipCodec (the deflate library is a parameter of the model), testSpecific (nodes that are
objects of a class, see Verif.Props.JavaConcrete), testDocumentStream and testDocumentStreamLargeBlock (16384 and more tokens).
-/
namespace Verif
namespace JavaTests
open PyTests (sentence tokens fromJava fromPython)

/-- text of UTF-16 units, all of them ASCII here -/
def ascii (s : JStr) : String := String.ofList (s.map Char.ofNat)

/-- the document, or an empty one if the call raised -/
def got : Except PyErr JDoc → JDoc
  | .ok d => d
  | .error _ => .new

/-- the layer of that name -/
def layerOf (d : JDoc) (name : String) : JLay := (dget d.layers name.toList).getD ⟨[], [], 0⟩

/-- `layer.stream().map(n -> n.get("text").spanValue().toString()).collect(Collectors.joining(" "))` (MainTest.java:154) -/
def words (d : JDoc) (name : String) : String :=
  " ".intercalate ((layerOf d name).nodes.map (fun n =>
    match d.stringValue (d.get n "text".toList) with
    | .ok (some s) => ascii s
    | _ => "?"))

/-- testPython (MainTest.java:144-159) -/
example : words (got (jDecode fromPython)) "token" = "This code was written in Lund , Sweden ." ∧
    words (got (jDecode fromPython)) "named_entity" = "Lund Sweden" := by
  decide +kernel

/-- nodes with a span of text `c` in field `f`, and further fields, added to layer `k` with a builder
(MainTest.java:207-223); `n` is the first new node -/
def addSpans (c k f : String) : JDState → Nat → List ((Int × Int) × List (Str × JArg)) → JDState
  | s, _, [] => s
  | s, n, ((a, b), more) :: l =>
    let s := s.bop (.span c.toList a b)
    match s.made with
    | [] => s
    | (c, p) :: _ => addSpans (String.ofList c) k f (s.bop (.build k.toList n ((f.toList, .val (.span c p)) :: more))) (n + 1) l

/-- `text.spanType()` (Text.java:55-57) -/
def spanType (c : String) : JType := ⟨.span, [("context".toList, .str c.toList)]⟩

/-- the two named entities (MainTest.java:215-223) -/
def entities : List ((Int × Int) × List (Str × JArg)) :=
  [((25, 29), [("cls".toList, .val (.str "GPE".toList))]), ((31, 37), [("cls".toList, .val (.str "GPE".toList))])]

/-- the document of testGeneric (MainTest.java:191-223) -/
def generic : JDoc :=
  let s := JDState.new.bop (.text "main".toList (utf16 sentence.toList))
  let s := s.bop (.layer "token".toList [("text".toList, spanType "main")])
  let s := s.bop (.layer "named_entity".toList [("text".toList, spanType "main"), ("cls".toList, ⟨.string, []⟩)])
  let s := addSpans "main" "token" "text" s 0 (tokens.map (fun t => (t, [])))
  (addSpans "main" "named_entity" "text" s 9 entities).doc

/-- testGeneric (MainTest.java:190-232) -/
example : words generic "token" = "This code was written in Lund , Sweden ." ∧
    words (got (jDecode (PyTests.bytes generic.encode.2))) "token" = "This code was written in Lund , Sweden ." ∧
    words (got (jDecode (PyTests.bytes generic.encode.2))) "named_entity" = "Lund Sweden" := by
  decide +kernel

/-- the bytes of `MsgpackCodec.encode` of this document are the bytes that the Python library's test has from Java -/
example : generic.encode.2.toOption = some fromJava := by
  decide +kernel

/-- and so are the bytes that the Java library makes of the document from Python -/
example : (got (jDecode fromPython)).encode.2.toOption = some fromJava := by
  decide +kernel

/-- the document of testNodeSpan (MainTest.java:235-281) -/
def withSentences : JDoc :=
  let s := JDState.new.bop (.text "main".toList (utf16 sentence.toList))
  let s := s.bop (.layer "sentence".toList [("tokens".toList, ⟨.nodeSpan, [("layer".toList, .str "token".toList)]⟩)])
  let s := s.bop (.layer "token".toList [("text".toList, spanType "main")])
  let s := s.bop (.layer "named_entity".toList [("text".toList, spanType "main"), ("cls".toList, ⟨.string, []⟩)])
  let s := addSpans "main" "token" "text" s 0 (tokens.map (fun t => (t, [])))
  let ts := (layerOf s.doc "token").nodes
  let s := s.bop (.build "sentence".toList 9 [("tokens".toList, .pair (ts.headD 99) (ts.getLastD 99))])
  let s := s.bop (.build "sentence".toList 10 [("tokens".toList, .pair (ts.getD 5 99) (ts.getD 7 99))])
  (addSpans "main" "named_entity" "text" s 11 entities).doc

/-- the document after encoding and decoding (MainTest.java:283) -/
def withSentences' : JDoc := got (jDecode (PyTests.bytes withSentences.encode.2))

/-- `sentenceLayer.get(i).get("tokens").nodeSpanValue().stringValue()` (MainTest.java:294) -/
def sentenceAt (d : JDoc) (i : Nat) : String :=
  match (layerOf d "sentence").nodes[i]? with
  | none => "?"
  | some n =>
    match d.stringValue (d.get n "tokens".toList) with
    | .ok (some s) => ascii s
    | _ => "?"

/-- testNodeSpan (MainTest.java:234-296) -/
example : words withSentences' "token" = "This code was written in Lund , Sweden ." ∧
    words withSentences' "named_entity" = "Lund Sweden" ∧
    sentenceAt withSentences' 0 = "This code was written in Lund, Sweden." := by
  decide +kernel

/-! ### AlgoTest.java -/

/-- the document of the two tests of GroupBySpan (AlgoTest.java:30-70) -/
def grouped : JDoc :=
  let s := JDState.new.bop (.text "raw".toList (utf16 "0123456789012345678901234567890".toList))
  let fields := fun f : String => [("id".toList, (⟨.int, []⟩ : JType)), (f.toList, spanType "raw")]
  let s := s.bop (.layer "token".toList (fields "span"))
  let s := s.bop (.layer "anchor".toList (fields "mention"))
  let s := s.bop (.layer "entity".toList (fields "entity"))
  let withId := fun (i a b : Int) => ((a, b), [("id".toList, JArg.val (.int i))])
  let s := addSpans "raw" "token" "span" s 0
    [withId 1 0 2, withId 2 3 5, withId 3 4 6, withId 4 8 11, withId 5 11 12, withId 6 14 15, withId 7 17 17]
  let s := addSpans "raw" "anchor" "mention" s 7
    [withId 8 0 6, withId 9 1 6, withId 10 2 6, withId 11 4 10, withId 12 4 12, withId 13 8 11, withId 14 16 18, withId 15 20 20]
  (addSpans "raw" "entity" "entity" s 15 [withId 16 4 6, withId 17 8 12, withId 18 0 15]).doc

/-- `n.get("id").intValue()` -/
def idOf (n : Nat) : Int :=
  match grouped.get n "id".toList with
  | .int i => i
  | _ => -1

/-- the builder of the tests (AlgoTest.java:71-74, 136-141) -/
def builder : JGroupBy :=
  match JGroupBy.ofLayer grouped "anchor".toList "mention".toList with
  | .error _ => .new [] []
  | .ok b =>
    match b.groupLayer grouped "tokens".toList "token".toList "span".toList with
    | .error _ => .new [] []
    | .ok b =>
      match b.groupLayer grouped "entity".toList "entity".toList "entity".toList with
      | .error _ => .new [] []
      | .ok b => b

/-- the identifiers of the tokens of every group, by the identifier of the group's node -/
def tokenIds (b : JGroupBy) : List (Int × List Int) :=
  match b.solve grouped with
  | .error _ => []
  | .ok gs => gs.map (fun g => (idOf g.1, ((dget g.2 "tokens".toList).getD []).map idOf))

/-- testGroupBySpanIntersect (AlgoTest.java:28-91); of group 15 nothing is looked at (AlgoTest.java:18-20) -/
example : PyTests.isSet (tokenIds builder) 8 [1, 2, 3] ∧ PyTests.isSet (tokenIds builder) 9 [1, 2, 3] ∧
    PyTests.isSet (tokenIds builder) 10 [2, 3] ∧ PyTests.isSet (tokenIds builder) 11 [2, 3, 4] ∧
    PyTests.isSet (tokenIds builder) 12 [2, 3, 4, 5] ∧ PyTests.isSet (tokenIds builder) 13 [4] ∧
    PyTests.isSet (tokenIds builder) 14 [7] := by
  decide +kernel

/-- the groups of testGroupBySpanCover (AlgoTest.java:136-141) -/
def covers : List (Int × List Int) := tokenIds ((builder.resolution true).includeEmpty false)

/-- testGroupBySpanCover (AlgoTest.java:93-158) -/
example : PyTests.isSet covers 8 [1, 2, 3] ∧ PyTests.isSet covers 9 [2, 3] ∧ PyTests.isSet covers 10 [2, 3] ∧
    PyTests.isSet covers 11 [3] ∧ PyTests.isSet covers 12 [3, 4, 5] ∧ PyTests.isSet covers 13 [4] ∧
    PyTests.isSet covers 14 [7] ∧ dget covers 15 = none := by
  decide +kernel

/-- testDominantRight (AlgoTest.java:160-182) -/
example : (jDominantRight PyTests.segments).length = 4 ∧ 3 ∈ jDominantRight PyTests.segments ∧
    5 ∈ jDominantRight PyTests.segments ∧ 6 ∈ jDominantRight PyTests.segments ∧ 8 ∈ jDominantRight PyTests.segments := by
  decide +kernel

/-! ### IoTest.java -/

/-- testComputeLength (IoTest.java:30-46) -/
example : computeLength 12 1 4096 = 4095 ∧ computeLength 12 1 (4096 + 4) = 4095 ∧
    computeLength 12 1 (4096 + 4 + 1) = 4096 ∧ computeLength 12 4096 8192 = 4092 ∧
    computeLength 12 4096 (8192 + 4) = 4092 ∧ computeLength 12 4096 (8192 + 4 + 4) = 4096 ∧
    computeLength 12 1 8201 = 8192 ∧ computeLength 12 4100 8192 = 4092 ∧
    computeLength 12 4100 8196 = 4092 ∧ computeLength 12 4100 8200 = 4096 := by
  decide +kernel

/-- `generateData()` (IoTest.java:20-28) -/
def testData : Bytes := (List.range 8192).map (fun i => .ofNat (i % 127 + 1))

/-- what testSimple writes (IoTest.java:51-63) -/
def written : Bytes :=
  match JWriter.new 12 with
  | .error _ => []
  | .ok s =>
    match s.run [.split, .write (testData.take 4096), .split, .write (testData.drop 4096)] with
    | .error _ => []
    | .ok s => s.out

/-- `readInt()` -/
def readInt (b : Bytes) : Int :=
  let n : Int := ofBe b
  if n < 0x80000000 then n else n - 0x100000000

/-- testSimple: what is written (IoTest.java:48-81) -/
example : written.length = 8192 + 1 + 8 ∧ readInt ((written.drop 4096).take 4) = -4095 ∧
    readInt ((written.drop 8192).take 4) = -4091 := by
  decide +kernel

/-- what testSimple reads (IoTest.java:83-86) -/
def reread : Bytes :=
  match JReader.new ⟨written, 0, [], true⟩ with
  | .error _ => []
  | .ok r =>
    match (r.readArr 8192).2 with
    | .ok (some b) => b
    | _ => []

/-- testSimple: what is read (IoTest.java:83-88), compared in parts of 128 bytes -/
example : reread.length = 8192 ∧
    ∀ i ∈ List.range 64, (reread.drop (128 * i)).take 128 = (testData.drop (128 * i)).take 128 := by
  decide +kernel

end JavaTests
end Verif
