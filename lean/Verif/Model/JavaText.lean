import Verif.Py.Basic
import Verif.Py.Dict
import Verif.Model.Doc
/-
Texts and spans of the Java library: java/core/src/main/java/se/lth/cs/docria/Text.java, Offset.java and Span.java.

A Java string is a list of UTF-16 units. Offset objects are shared by the table of a text and by spans: an Offset is its
place in `heap`. Java ints are unbounded here.
-/
namespace Verif

/-- a Java string -/
abbrev JStr := List Nat

/-- the units of a character: two above 0xFFFF -/
def utf16Char (c : Char) : JStr :=
  if c.toNat < 0x10000 then [c.toNat] else [0xD800 + (c.toNat - 0x10000) / 0x400, 0xDC00 + (c.toNat - 0x10000) % 0x400]

/-- the Java string of a string -/
def utf16 (s : Str) : JStr := s.flatMap utf16Char

/-- `s.substring(a, b)` and `s.subSequence(a, b)`: StringIndexOutOfBoundsException (`.index`) -/
def substring (s : JStr) (a b : Int) : Except PyErr JStr :=
  if a < 0 ∨ b > s.length ∨ a > b then .error .index else .ok ((s.take b.toNat).drop a.toNat)

/-- an Offset (Offset.java:19-25) -/
structure JOff where
  id : Int
  offset : Int
  refcount : Int
  deriving DecidableEq

/-- a text (Text.java:27-31), with the Offset objects that its table or its spans refer to. `table` is `pos2Offset`;
what the methods do does not depend on the order of that map. -/
structure JText where
  text : JStr
  validating : Bool
  heap : List JOff
  table : Dict Int Nat
  deriving DecidableEq

/-- a span (Span.java:23-35): its two Offset objects -/
abbrev JSpan := Nat × Nat

namespace JText

/-- a new text (Text.java:49-53) -/
def new (s : JStr) : JText := ⟨s, true, [], []⟩

/-- an Offset object -/
def off (t : JText) (o : Nat) : JOff := t.heap[o]?.getD ⟨0, 0, 0⟩

/-- the Offset for a position, made if it is not there (Text.java:145-150, 152-157) -/
def intern (t : JText) (p : Int) : JText × Nat :=
  match dget t.table p with
  | some o => (t, o)
  | none => ({ t with heap := t.heap ++ [⟨0, p, 0⟩], table := dset t.table p t.heap.length }, t.heap.length)

/-- `span(startOffset, stopOffset)` (Text.java:135-160) -/
def span (t : JText) (a b : Int) : JText × Except PyErr JSpan :=
  if t.validating = true ∧ ¬ ((a ≥ 0 ∧ a < t.text.length) ∧ (b ≥ 0 ∧ b ≤ t.text.length) ∧ b ≥ a) then (t, .error .value)
  else (((t.intern a).1.intern b).1, .ok ((t.intern a).2, ((t.intern a).1.intern b).2))

/-- `initializeOffsets` of new Offsets at these positions (Text.java:63-65, MsgpackCodec.java:594-605): the table gets
all of them, a later one instead of an earlier one at the same position -/
def initializeOffsets (t : JText) (ps : List Int) : JText :=
  { t with
    heap := t.heap ++ ps.map (fun p => ⟨0, p, 0⟩)
    table := dupdate t.table (ps.zipIdx.map fun e => (e.1, t.heap.length + e.2)) }

/-- `setText` (Text.java:74-76) -/
def setText (t : JText) (s : JStr) : JText := { t with text := s }

/-- `reset()` (Text.java:70-72) -/
def reset (t : JText) : JText := { t with heap := t.table.foldl (fun h e => h.modify e.2 fun x => { x with refcount := 0 }) t.heap }

/-- `span.incref()` (Span.java:37-40) -/
def incref (t : JText) (s : JSpan) : JText :=
  { t with heap := (t.heap.modify s.1 fun x => { x with refcount := x.refcount + 1 }).modify s.2 fun x => { x with refcount := x.refcount + 1 } }

/-- `pos2Offset.get(p).id = id` -/
def setId (t : JText) (p id : Int) : JText :=
  match dget t.table p with
  | some o => { t with heap := t.heap.modify o fun x => { x with id := id } }
  | none => t

/-- the loop of `compile()` (Text.java:119-125) -/
def cut (t : JText) (id start : Int) : List Int → JText × Except PyErr (List JStr)
  | [] => (t, .ok [])
  | stop :: rest =>
    match substring (t.setId stop id).text start stop with
    | .error e => (t.setId stop id, .error e)
    | .ok part =>
      match (t.setId stop id).cut (id + 1) stop rest with
      | (t, .error e) => (t, .error e)
      | (t, .ok parts) => (t, .ok (part :: parts))

/-- the Offsets that are used (Text.java:84-91) -/
def dropUnused (t : JText) : JText := { t with table := t.table.filter fun e => !decide ((t.off e.2).refcount = 0) }

/-- `compile()` (Text.java:81-129) -/
def compile (t : JText) : JText × Except PyErr (List JStr) :=
  let t := ((t.dropUnused.intern 0).1.intern t.text.length).1
  match sortedInts (dkeys t.table) with
  | start :: stop :: rest => (t.setId start 0).cut 1 start (stop :: rest)
  | _ => (t, .ok [[]])

/-- what `Document.compile()` does to a text whose nodes have these spans (Document.java:331-353) -/
def compileWith (t : JText) (used : List JSpan) : JText × Except PyErr (List JStr) :=
  (used.foldl incref t.reset).compile

/-! ### spans -/

/-- `start()` (Span.java:47-49) -/
def start (t : JText) (s : JSpan) : Int := (t.off s.1).offset

/-- `stop()` (Span.java:51-53) -/
def stop (t : JText) (s : JSpan) : Int := (t.off s.2).offset

/-- `length()` (Span.java:87-89) -/
def length (t : JText) (s : JSpan) : Int := t.stop s - t.start s

/-- `toString()`, and what `chars()` and `codePoints()` run over (Span.java:138-150) -/
def str (t : JText) (s : JSpan) : Except PyErr JStr := substring t.text (t.start s) (t.stop s)

/-- `charAt(index)` (Span.java:92-98) -/
def charAt (t : JText) (s : JSpan) (i : Int) : Except PyErr Nat :=
  if i + t.start s ≥ t.stop s ∨ i < 0 then .error .index
  else if i + t.start s < 0 then .error .index
  else
    match t.text[(i + t.start s).toNat]? with
    | some c => .ok c
    | none => .error .index

/-- `subSequence(start, end)` (Span.java:101-109) -/
def subSequence (t : JText) (s : JSpan) (a b : Int) : Except PyErr JStr :=
  if b + t.start s > t.stop s then .error .index else substring t.text (a + t.start s) (b + t.start s)

/-- `this.intersects(span)` (Span.java:73-75) -/
def intersects (t : JText) (s u : JSpan) : Bool := decide (t.start s ≤ t.stop u) && decide (t.stop s ≥ t.start u)

/-- `this.covers(span)` (Span.java:77-79) -/
def covers (t : JText) (s u : JSpan) : Bool := decide (t.start u ≥ t.start s) && decide (t.stop u ≤ t.stop s)

/-- `Integer.compare` -/
def intCompare (a b : Int) : Int := if a < b then -1 else if a = b then 0 else 1

/-- `this.compareTo(o)` (Span.java:132-135) -/
def compareTo (t : JText) (s u : JSpan) : Int :=
  if intCompare (t.start s) (t.start u) = 0 then intCompare (t.stop s) (t.stop u) else intCompare (t.start s) (t.start u)

/-- `this.equals(o)` for spans of one text (Span.java:112-121 and Offset.java:33-41) -/
def equals (t : JText) (s u : JSpan) : Bool :=
  decide ((t.off s.1).id = (t.off u.1).id ∧ (t.off s.1).offset = (t.off u.1).offset) &&
    decide ((t.off s.2).id = (t.off u.2).id ∧ (t.off s.2).offset = (t.off u.2).offset)

/-! ### calls -/

/-- a call on a text; `compile` says which of the spans made so far the nodes have -/
inductive TOp
  | span (a b : Int)
  | compile (used : List Nat)

/-- a text with the spans made so far, and what the last compile gave -/
structure TState where
  t : JText
  spans : List JSpan
  parts : Except PyErr (List JStr)

/-- a call -/
def TState.op (s : TState) : TOp → TState
  | .span a b =>
    match s.t.span a b with
    | (t, .ok p) => { s with t := t, spans := s.spans ++ [p] }
    | (t, .error _) => { s with t := t }
  | .compile used =>
    let r := s.t.compileWith (used.filterMap (fun k => s.spans[k]?))
    { s with t := r.1, parts := r.2 }

/-- some calls -/
def TState.run (s : TState) (os : List TOp) : TState := os.foldl TState.op s

end JText

end Verif
