import Verif.Py.Basic
/-
Text and TextSpan: model.py:552-825.
-/
namespace Verif

/-- `Text` (model.py:747-753). `oid` is the object identity (`id(text)`). `spantype` is derived from
the name and not stored. -/
structure TextObj where
  oid : Nat
  name : Str
  text : Str
  deriving DecidableEq, Repr

/-- `TextSpan` (model.py:576-598): text, `_start`, `_stop`. The redundant `start_offset`/`stop_offset`
attributes (set once at 589-590, never read by the library) are left out. -/
structure TextSpan where
  text : TextObj
  start : Int
  stop : Int
  deriving DecidableEq, Repr

namespace TextSpan

/-- `TextSpan.__init__` (model.py:584-590). -/
def mk' (t : TextObj) (a b : Int) : Except PyErr TextSpan :=
  if a ≤ b then .ok ⟨t, a, b⟩ else .error .assertion

/-- `__len__` (model.py:600-601). A negative value would make Python's `len` raise; the constructor
excludes it. -/
def len (s : TextSpan) : Int := s.stop - s.start

/-- `__str__` (model.py:743-744); also what `__iter__` (740-741) iterates. -/
def str (s : TextSpan) : Str := pySlice s.text.text (some s.start) (some s.stop)

end TextSpan

/-- The index expressions accepted by `Text.__getitem__` and `TextSpan.__getitem__`. `other` stands for
every other Python object. -/
inductive Idx
  | slice (a b step : Option Int)
  | pair (a b : Int)
  | int (i : Int)
  | other
  deriving DecidableEq, Repr

/-- Result of indexing: a span or a single character. -/
inductive Item
  | span (s : TextSpan)
  | char (c : Char)
  deriving DecidableEq, Repr

namespace TextObj

/-- slice branch of `Text.__getitem__` (model.py:793-808). -/
def getSlice (t : TextObj) (a b step : Option Int) : Except PyErr TextSpan :=
  if step ≠ none ∧ step ≠ some 1 then .error .notImplemented
  else
    let (start, stop) := sliceIndices t.text.length a b
    if stop < start then .error .dataValidation
    else if start > t.text.length ∨ stop > t.text.length then .error .dataValidation
    else TextSpan.mk' t start stop

/-- tuple branch of `Text.__getitem__` (model.py:809-821). -/
def getPair (t : TextObj) (a b : Int) : Except PyErr TextSpan :=
  if b < a then .error .dataValidation
  else if a < 0 ∨ b < 0 ∨ a > t.text.length ∨ b > t.text.length then .error .dataValidation
  else TextSpan.mk' t a b

/-- `Text.__getitem__` (model.py:791-825). -/
def getItem (t : TextObj) : Idx → Except PyErr Item
  | .slice a b step => (t.getSlice a b step).map .span
  | .pair a b => (t.getPair a b).map .span
  | .int i => (pyIndex t.text i).map .char
  | .other => .error .value

/-- `Text.compile` (model.py:769-784): one segment per consecutive pair of offsets. -/
def compile (t : TextObj) : List Int → List Str
  | a :: b :: rest => pySlice t.text (some a) (some b) :: compile t (b :: rest)
  | _ => []

/-- `Text.offset` (model.py:786-789). -/
def offset (t : TextObj) (i : Int) : Except PyErr Int :=
  if 0 ≤ i ∧ i ≤ t.text.length then .ok i else .error .assertion

end TextObj

namespace TextSpan

/-- slice branch of `TextSpan.__getitem__` (model.py:613-618). -/
def getSlice (s : TextSpan) (a b step : Option Int) : Except PyErr TextSpan :=
  if step ≠ none ∧ step ≠ some 1 then .error .notImplemented
  else
    let (start, stop) := sliceIndices s.len.toNat a b
    s.text.getSlice (some (start + s.start)) (some (stop + s.start)) none

/-- tuple branch of `TextSpan.__getitem__` (model.py:619-620). -/
def getPair (s : TextSpan) (a b : Int) : Except PyErr TextSpan :=
  s.text.getSlice (some (a + s.start)) (some (b + s.start)) none

/-- int branch of `TextSpan.__getitem__` (model.py:621-623): note that the resolved start of
`slice(i, i+1)` is used even when that slice is empty. -/
def getInt (s : TextSpan) (i : Int) : Except PyErr Char :=
  let (start, _) := sliceIndices s.len.toNat (some i) (some (i + 1))
  pyIndex s.text.text (start + s.start)

/-- `TextSpan.__getitem__` (model.py:612-625). -/
def getItem (s : TextSpan) : Idx → Except PyErr Item
  | .slice a b step => (s.getSlice a b step).map .span
  | .pair a b => (s.getPair a b).map .span
  | .int i => (s.getInt i).map .char
  | .other => .error .value

/-- `text_to` (model.py:627-633). -/
def textTo (l r : TextSpan) : Str := pySlice l.text.text (some l.start) (some r.stop)

/-- `span_to` (model.py:635-641). -/
def spanTo (l r : TextSpan) : Except PyErr TextSpan :=
  l.text.getSlice (some l.start) (some r.stop) none

/-- `covered_by` with a TextSpan argument (model.py:649-650). -/
def coveredBy (s o : TextSpan) : Bool := decide (o.start ≤ s.start) && decide (o.stop ≥ s.stop)

/-- `covered_by` with a tuple argument (model.py:651-653); also what
`NodeFieldCollection.covered_by` (model.py:328-338) applies. -/
def coveredByPair (s : TextSpan) (o : Int × Int) : Bool :=
  decide (o.1 ≤ s.start) && decide (o.2 ≥ s.stop)

/-- `intersected_by` with a TextSpan argument (model.py:663-664). -/
def intersectedBy (s o : TextSpan) : Bool := decide (o.stop > s.start) && decide (o.start < s.stop)

/-- `intersected_by` with a tuple argument (model.py:665-667); also what
`NodeFieldCollection.intersected_by` (model.py:340-350) applies. -/
def intersectedByPair (s : TextSpan) (o : Int × Int) : Bool :=
  decide (o.2 > s.start) && decide (o.1 < s.stop)

/-- forward loop of `_trim_offsets` (model.py:683-687): number of leading whitespace characters of
the span's string. `ws` is `str.isspace`. -/
def countLead (ws : Char → Bool) : Str → Int
  | [] => 0
  | w :: rest => if !ws w then 0 else 1 + countLead ws rest

/-- backward loop of `_trim_offsets` (model.py:690-694): at most `k` steps, each looking at
`text[new_stop - 1]`. Out of range reads would be IndexError in Python; they cannot happen when the
span lies inside its text, and are modelled as a stop of the loop. -/
def backLoop (ws : Char → Bool) (text : Str) : Nat → Int → Int
  | 0, newStop => newStop
  | k + 1, newStop =>
    match pyIndex text (newStop - 1) with
    | .ok c => if !ws c then newStop else backLoop ws text k (newStop - 1)
    | .error _ => newStop

/-- `_trim_offsets` (model.py:671-706); `ws` is `str.isspace` on one character. -/
def trimOffsets (ws : Char → Bool) (s : TextSpan) : Except PyErr (Option (Int × Int)) :=
  if s.len = 0 then .ok none
  else do
    let first ← pyIndex s.text.text s.start
    let (newStart, newStop) ←
      if ws first then
        pure (s.start + countLead ws s.str, s.stop)
      else do
        let last ← pyIndex s.text.text (s.stop - 1)
        if ws last then
          pure (s.start, backLoop ws s.text.text s.len.toNat s.stop)
        else pure (s.start, s.stop)
    if newStop ≤ newStart then pure (some (s.start, s.start))
    else if newStart ≠ s.start ∨ newStop ≠ s.stop then do
      let a ← s.text.offset newStart
      let b ← s.text.offset newStop
      pure (some (a, b))
    else pure none

/-- `trim` (model.py:720-730). -/
def trim (ws : Char → Bool) (s : TextSpan) : Except PyErr TextSpan := do
  match ← s.trimOffsets ws with
  | none => pure s
  | some (a, b) => TextSpan.mk' s.text a b

/-- `trim_` (model.py:708-718): in-place variant, result is the mutated span. -/
def trimInPlace (ws : Char → Bool) (s : TextSpan) : Except PyErr TextSpan := do
  match ← s.trimOffsets ws with
  | none => pure s
  | some (a, b) => pure { s with start := a, stop := b }

/-- Right-hand sides of `==` on a span (model.py:606-610). -/
inductive EqArg
  | span (o : TextSpan)
  | str (s : Str)
  | other

/-- `__eq__` (model.py:606-610). -/
def eqArg (s : TextSpan) : EqArg → Bool
  | .span o => decide ((s.start, s.stop) = (o.start, o.stop))
  | .str t => decide (s.str = t)
  | .other => false

/-- the tuple hashed by `__hash__` (model.py:603-604). -/
def hashKey (s : TextSpan) : Nat × Int × Int := (s.text.oid, s.start, s.stop)

end TextSpan
end Verif
