import Verif.Model.JavaStream
/-
`DocumentStreamReader.nextBlock()` called by several threads at once. The method is documented as safe for concurrent
use (java/core/src/main/java/se/lth/cs/docria/io/DocumentStreamReader.java:146-152). Steps of different threads
interleave in any order; each step reads or writes shared state once, and steps take effect one after the other
(sequential consistency, which is more than Java promises).
-/
namespace Verif

/-- where a thread is in `readNextBlock()` (DocumentStreamReader.java:81-104) -/
inductive JPc
  /-- in front of the synchronized statement (line 86) -/
  | top
  /-- has the compressed bytes, in front of `block = ...` (lines 94-95) -/
  | bytes (z : Bytes)
  /-- in front of `block.hasNext()` (line 96) -/
  | check
  /-- in front of `return block` (line 100) -/
  | ret
  /-- has returned -/
  | done (b : Option Nat)
  /-- has raised -/
  | failed (e : PyErr)
  deriving DecidableEq

/-- a reader and the threads that use it -/
structure JThreads where
  r : JDocReader
  pcs : List JPc

namespace JThreads

/-- one step of a thread -/
def step1 (r : JDocReader) : JPc → JDocReader × JPc
  | .top =>
    if r.rest = [] then (r, .done none)
    else
      match jBin r.rest with
      | .error e => (r, .failed e)
      | .ok (z, rest) => ({ r with rest := rest }, .bytes z)
  | .bytes z =>
    match r.codec z with
    | .error e => (r, .failed e)
    | .ok d => ({ r with blks := r.blks ++ [d], block := some r.blks.length }, .check)
  | .check =>
    match r.block with
    | none => (r, .failed .attribute)
    | some i => (r, if r.left i ≠ [] then .ret else .top)
  | .ret => (r, .done r.block)
  | .done b => (r, .done b)
  | .failed e => (r, .failed e)

/-- thread `t` makes a step -/
def step (s : JThreads) (t : Nat) : JThreads :=
  match s.pcs[t]? with
  | none => s
  | some pc => ⟨(step1 s.r pc).1, s.pcs.set t (step1 s.r pc).2⟩

/-- the threads make steps in this order -/
def run (s : JThreads) : List Nat → JThreads
  | [] => s
  | t :: ts => (s.step t).run ts

end JThreads

end Verif
