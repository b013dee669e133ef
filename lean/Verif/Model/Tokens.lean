import Verif.Model.Text
/-
sequence_to_textspans: algorithm.py:467-522.
-/
namespace Verif

/-- the end of the search of `str.find` -/
def findEnd (s : Str) (stop : Option Int) : Nat :=
  match stop with
  | none => s.length
  | some e => (adjustIdx s.length e).toNat

/-- `s.find(sub, start, stop)` of Python strings for `start ≥ 0`: the lowest position at or after `start` where
`sub` fits before the (adjusted) `stop`; `none` is -1. -/
def pyFind (s sub : Str) (start : Nat) (stop : Option Int) : Option Nat :=
  (List.range (s.length + 1)).find? (fun i =>
    decide (start ≤ i) && decide (i + sub.length ≤ findEnd s stop) && decide ((s.drop i).take sub.length = sub))

/-- The forward look (algorithm.py:499-502): among the following tokens given, the first one found before
`location`; its index and its place. -/
def findCloser (raw : Str) (stop : Option Int) (pos location : Nat) : List Str → Option (Nat × Nat × Str)
  | [] => none
  | tok :: rest =>
    match pyFind raw tok pos stop with
    | some c => if c < location then some (0, c, tok)
      else (findCloser raw stop pos location rest).map (fun x => (x.1 + 1, x.2))
    | none => (findCloser raw stop pos location rest).map (fun x => (x.1 + 1, x.2))

/-- The main loop (algorithm.py:490-520): the offsets of the spans relative to `start_offset`, for the tokens
from the current one on. Every round consumes a token; the fuel is the number of tokens left. The code builds
the spans as it goes (`text[start_offset+a:start_offset+b]`); searching cannot raise, so building them at the
end raises the same. -/
def seqLoop (raw : Str) (stop : Option Int) (k : Int) : Nat → List Str → Nat → List (Nat × Nat)
  | _, [], _ => []
  | 0, _ :: _, _ => []
  | fuel + 1, tok :: rest, pos =>
    match pyFind raw tok pos stop with
    | none => (pos, pos) :: seqLoop raw stop k fuel rest pos
    | some location =>
      match findCloser raw stop pos location (rest.take k.toNat) with
      | some (j, c, tok') =>
        List.replicate (j + 1) (pos, pos) ++
          (c, c + tok'.length) :: seqLoop raw stop k fuel (rest.drop (j + 1)) (c + tok'.length)
      | none => (location, location + tok.length) :: seqLoop raw stop k fuel rest (location + tok.length)

/-- `sequence_to_textspans` (algorithm.py:467-522). -/
def sequenceToTextspans (toks : List Str) (t : TextObj) (startOffset : Int) (stopOffset : Option Int) (k : Int) :
    Except PyErr (List TextSpan) :=
  let raw := pySlice t.text (some startOffset) stopOffset
  mapE (fun p => t.getSlice (some (startOffset + p.1)) (some (startOffset + p.2)) none)
    ((seqLoop raw stopOffset k toks.length toks 0).map (fun p => ((p.1 : Int), (p.2 : Int))))

end Verif
