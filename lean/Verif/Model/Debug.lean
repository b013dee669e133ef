import Verif.Model.MsgpackCodec
/-
MsgpackCodec.debug (codec.py:526-590): a listing of the content of encoded data on standard output.

A line is kept as its format string and the values put into it; how Python writes the values is not
modelled. Data in which another type of object stands where an encoder writes a list, dict or name are
`unmodelled`, as in the decoder.
-/
namespace Verif

/-- a value put into a line: with `%s`, with `%s` of its `repr`, with `%d` -/
inductive PArg where
  | s (o : Obj)
  | r (o : Obj)
  | d (i : Int)

/-- a line: format string and values -/
structure PLine where
  fmt : Str
  args : List PArg

/-- something that prints and reads: the lines printed, and the outcome -/
def D (α : Type) := Bytes → List PLine × Except PyErr (α × Bytes)

instance : Monad D where
  pure a := fun bs => ([], .ok (a, bs))
  bind p f := fun bs =>
    match p bs with
    | (ls, .error e) => (ls, .error e)
    | (ls, .ok (a, r)) =>
      match f a r with
      | (ls2, x) => (ls ++ ls2, x)

namespace D
variable {α β : Type}

/-- `print` -/
def say (fmt : Str) (args : List PArg) : D Unit := fun bs => ([⟨fmt, args⟩], .ok ((), bs))

/-- read without printing -/
def read (p : P α) : D α := fun bs => ([], p bs)

/-- an exception -/
def lift (x : Except PyErr α) : D α := read (P.lift x)

/-- a loop -/
def each (f : α → D β) : List α → D (List β)
  | [] => pure []
  | a :: l => do
    let b ← f a
    let bs ← each f l
    return b :: bs

/-- a loop over `range(n)` -/
def times (p : D α) : Nat → D (List α)
  | 0 => pure []
  | n + 1 => do
    let a ← p
    let l ← times p n
    return a :: l

/-- the value for `%d`: other types than int are `unmodelled` (a TypeError unless a float or bool) -/
def asNum : Obj → Except PyErr Int
  | .int i => .ok i
  | _ => .error .unmodelled

/-- one field (codec.py:555-566). The entry of `fields` is the name and, with arguments, a dict. -/
def field : D (Obj × Obj) := do
  let name ← read pnext
  let has ← read pnext
  let ty ← read pnext
  if ← lift (truthy has) then
    let args ← read pnext
    let e := Obj.map [("type".toList, ty), ("args".toList, args)]
    say "  - %s = %s".toList [.s name, .s e]
    return (name, e)
  else
    say "  - %s = %s".toList [.s name, .s ty]
    return (name, ty)

/-- the schema of one layer (codec.py:549-569) -/
def layerSchema (t : Str) : D (Str × List (Obj × Obj)) := do
  say " * %s".toList [.s (.str t)]
  let n ← lift (asCount (← read pnext))
  return (t, ← times field n.toNat)

/-- `texts.items()` -/
def asItems : Obj → Except PyErr (Dict Str Obj)
  | .map d => .ok d
  | _ => .error .attribute

/-- one column (codec.py:586-590) -/
def column (c : Obj × Obj) : D Unit := do
  say "  - %s".toList [.s c.1]
  let b ← read pnext
  say "  - Special encoding: %s".toList [.r b]
  let o ← read pnext
  say " ==> %s".toList [.s o]

/-- the data of one layer (codec.py:578-590): `schema[typename]` -/
def layerData (schema : Dict Str (List (Obj × Obj))) (t : Str) : D Unit := do
  say "[%s]".toList [.s (.str t)]
  let len ← read pnext
  let num ← read pnext
  say " * Segment length: %d ".toList [.d (← lift (asNum len))]
  say " * Num nodes: %d".toList [.d (← lift (asNum num))]
  match dget schema t with
  | none => lift (.error .key)
  | some fs =>
    let _ ← each column fs
    return ()

/-- the list of names of the layers -/
def asNames : Obj → Except PyErr (List Str)
  | .arr l => mapE asStr l
  | _ => .error .unmodelled

/-- `schema[typename] = fields` for each layer -/
def toDict {β : Type} (l : List (Str × β)) : Dict Str β := l.foldl (fun d e => dset d e.1 e.2) []

/-- what comes after the magic bytes (codec.py:537-590) -/
def body : D Unit := do
  say "Document properties:".toList []
  let _ ← read pnext
  say "%s".toList [.s (← read pnext)]
  say "Types:".toList []
  let types ← read pnext
  say "%s".toList [.s types]
  say "Schema: ".toList []
  let names ← lift (asNames types)
  let fields ← each layerSchema names
  say "Texts: ".toList []
  let len ← read pnext
  say " * Length: %d bytes".toList [.d (← lift (asNum len))]
  let texts ← lift (asItems (← read pnext))
  let _ ← each (fun (e : Str × Obj) => say "%s = %s".toList [.s (.str e.1), .r e.2]) texts
  say "Types data:".toList []
  let _ ← each (layerData (toDict fields)) names
  return ()

end D

/-- `MsgpackCodec.debug(data)` (codec.py:526-590): the lines printed, and how it ends. The magic bytes are printed,
not checked; `read_bytes(4)` of shorter data returns what there is. -/
def debugMsgpack (data : Bytes) : List PLine × Except PyErr Unit :=
  match (do
    D.say "-- Content --".toList []
    D.say "Magic: %s".toList [.r (.bin (data.take 4))]
    D.body : D Unit) (data.drop 4) with
  | (ls, .error e) => (ls, .error e)
  | (ls, .ok _) => (ls, .ok ())

end Verif
