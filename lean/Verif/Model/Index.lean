import Verif.Model.BlockFile
import Verif.Py.PyEq
/-
docria.collection: the property index of a file and of several files (collection.py:675-773).
-/
namespace Verif

/-- a dict from property values to lists of document numbers -/
abbrev PropIdx := List (Obj × List Nat)

namespace PropIdx

/-- `d.get(v)` -/
def lookup : PropIdx → Obj → Option (List Nat)
  | [], _ => none
  | (k, l) :: d, v => if Obj.pyEq k v then some l else lookup d v

/-- `d.setdefault(v, []).append(i)` for a hashable `v` -/
def add : PropIdx → Obj → Nat → PropIdx
  | [], v, i => [(v, [i])]
  | (k, l) :: d, v, i => if Obj.pyEq k v then (k, l ++ [i]) :: d else (k, l) :: add d v i

end PropIdx

/-- `sorted(set)` of numbers: insertion -/
def insertSorted (n : Nat) : List Nat → List Nat
  | [] => [n]
  | m :: l => if n < m then n :: m :: l else if n = m then m :: l else m :: insertSorted n l

/-- `sorted(set(l))` -/
def sortedSet (l : List Nat) : List Nat := l.foldr insertSorted []

/-- `DocumentFileIndex` (collection.py:675-690) without its path -/
structure FileIndex where
  properties : Dict Str PropIdx
  docrefs : List Value

namespace FileIndex

/-- one turn of the loop over the properties (collection.py:700-702) -/
def addProp (ps : Dict Str Obj) (docid : Nat) (idx : Dict Str PropIdx) (p : Str) : Except PyErr (Dict Str PropIdx) :=
  match dget ps p with
  | none => .ok idx
  | some v =>
    match dget idx p with
    | none => .error .key
    | some d => if v.hashable then .ok (dset idx p (d.add v docid)) else .error .type

/-- the loop over the properties (collection.py:700-702) -/
def addProps (ps : Dict Str Obj) (docid : Nat) : List Str → Dict Str PropIdx → Except PyErr (Dict Str PropIdx)
  | [], idx => .ok idx
  | p :: l, idx =>
    match addProp ps docid idx p with
    | .error e => .error e
    | .ok idx => addProps ps docid l idx

/-- the loop over the documents (collection.py:697-702). The properties of a document are a dict if it was
written by this library; anything else is not modelled. -/
def addDocs (names : List Str) : Nat → List MDoc → FileIndex → Except PyErr FileIndex
  | _, [], idx => .ok idx
  | i, d :: ds, idx =>
    match (d.properties []).2 with
    | .error e => .error e
    | .ok (.map ps) =>
      match addProps ps i names idx.properties with
      | .error e => .error e
      | .ok props => addDocs names (i + 1) ds ⟨props, idx.docrefs ++ d.ref.toList⟩
    | .ok _ => .error .unmodelled

/-- the documents of a block that has not been read yet (`for doc in block`) -/
def blockDocs (b : Block) : Except PyErr (List MDoc) :=
  match (Block.docsLoop (b.data.length + 1) 0 b).2 with
  | .error e => .error e
  | .ok l => .ok (l.map (·.2))

/-- `DocumentFileIndex.build(path, *properties)` (collection.py:691-706) on the contents of the file. All
documents are read before the loop here; if reading raises, build raises in any case. -/
def build (reg : Codecs) (raw : Bytes) (names : List Str) : Except PyErr FileIndex :=
  match DocReader.new reg raw with
  | .error e => .error e
  | .ok r =>
    match r.blocks.2 with
    | .error e => .error e
    | .ok bs =>
      match mapE blockDocs bs with
      | .error e => .error e
      | .ok docs => addDocs names 0 docs.flatten ⟨names.foldl (fun d p => dset d p []) [], []⟩

/-- the sets of documents for the conditions (collection.py:713-714); an unhashable value is a TypeError -/
def hits (idx : FileIndex) : List (Str × Obj) → Except PyErr (List (List Nat))
  | [] => .ok []
  | (k, v) :: l =>
    if v.hashable then
      match hits idx l with
      | .error e => .error e
      | .ok hs => .ok (((((dget idx.properties k).getD []).lookup v).getD []) :: hs)
    else .error .type

/-- the intersection (collection.py:716-718) -/
def intersect (first : List Nat) (rest : List (List Nat)) : List Nat := rest.foldl (fun a s => a.filter (fun i => decide (i ∈ s))) first

/-- `ref[0]`, `ref[1]` -/
def refOf : Value → Option (Nat × Nat)
  | .data (.arr [.int a, .int b]) => some (a.toNat, b.toNat)
  | _ => none

/-- the eager variant: `MsgpackCodec.decode(next(lastblk._unpacker))` (collection.py:741) -/
def decodeNext (b : Block) : Block × Except PyErr World :=
  match b.unp.next with
  | (u, .error e) => ({ b with unp := u }, .error e)
  | (u, .ok (.bin d)) => ({ b with unp := u }, decodeMsgpack d)
  | (u, .ok _) => ({ b with unp := u }, .error .type)

/-- `reader.seek(ref[0]); lastblk = reader.readblock()` unless the last block is the right one
(collection.py:730-735) -/
def blockFor (r : DocReader) (last : Option Block) (p : Nat) : DocReader × Except PyErr (Option Block) :=
  match last with
  | none => (r.seek p).readblock
  | some b => if b.position ≠ p then (r.seek p).readblock else (r, .ok (some b))

/-- the loop over the results (collection.py:727-744): what is yielded, and the exception that ends it. Whatever
goes wrong with a document becomes an IOError. -/
def readHits {α : Type} (step : Block → Block × Except PyErr α) (docrefs : List Value) :
    DocReader → Option Block → List Nat → List α × Option PyErr
  | _, _, [] => ([], none)
  | r, last, i :: is =>
    match docrefs[i]? with
    | none => ([], some .index)
    | some v =>
      match refOf v with
      | none => ([], some .unmodelled)
      | some ref =>
        match blockFor r last ref.1 with
        | (_, .error _) => ([], some .io)
        | (_, .ok none) => ([], some .io)
        | (r, .ok (some b)) =>
          match step (b.seek ref.2) with
          | (_, .error _) => ([], some .io)
          | (b, .ok a) =>
            match readHits step docrefs r (some b) is with
            | (l, e) => (a :: l, e)

/-- `search(conds, lazy)` (collection.py:708-744) for a file with this content (or that cannot be opened): what the
generator yields, and the exception that ends it -/
def search {α : Type} (step : Block → Block × Except PyErr α) (reg : Codecs) (file : Except PyErr Bytes) (idx : FileIndex)
    (conds : Dict Str Obj) : List α × Option PyErr :=
  if conds.length = 0 then ([], none)
  else
    match idx.hits conds with
    | .error e => ([], some e)
    | .ok [] => ([], none)
    | .ok (h :: hs) =>
      let results := sortedSet (intersect h hs)
      if results.length > 0 then
        match file with
        | .error e => ([], some e)
        | .ok raw =>
          match DocReader.new reg raw with
          | .error e => ([], some e)
          | .ok r => readHits step idx.docrefs r none results
      else ([], none)

/-- `search(conds, lazy=True)` -/
def searchLazy (reg : Codecs) (file : Except PyErr Bytes) (idx : FileIndex) (conds : Dict Str Obj) : List MDoc × Option PyErr :=
  search Block.next reg file idx conds

/-- `search(conds)` -/
def searchEager (reg : Codecs) (file : Except PyErr Bytes) (idx : FileIndex) (conds : Dict Str Obj) : List World × Option PyErr :=
  search decodeNext reg file idx conds

end FileIndex

/-! ### several files (collection.py:747-760) -/

/-- an absolute path, normalised: its components -/
abbrev Path := List Str

namespace Path

/-- the path that `comps` names in the directory `cwd`, `..` being the parent (no symbolic links) -/
def resolve (cwd : Path) (comps : List Str) : Path :=
  comps.foldl (fun p c => if c = "..".toList then p.dropLast else p ++ [c]) cwd

/-- the length of the common part (posixpath.relpath) -/
def common : Path → Path → Nat
  | a :: p, b :: q => if a = b then common p q + 1 else 0
  | _, _ => 0

/-- `os.path.relpath(path, start)` for absolute paths (posixpath.relpath) -/
def rel (p start : Path) : List Str :=
  List.replicate (start.length - common p start) "..".toList ++ p.drop (common p start)

end Path

/-- `DocumentIndex` (collection.py:747-751): `index` is keyed by the relative path, which is also the `filepath`
of the entry -/
structure DocIndex where
  basepath : Path
  index : Dict (List Str) FileIndex

namespace DocIndex

/-- `add(index)` (collection.py:753-755) for an index of the file with the absolute path `p` -/
def add (d : DocIndex) (p : Path) (i : FileIndex) : DocIndex := { d with index := dset d.index (Path.rel p d.basepath) i }

/-- `open(path, "rb")` with the working directory `cwd` -/
def openAt (fs : Path → Option Bytes) (cwd : Path) (comps : List Str) : Except PyErr Bytes :=
  match fs (Path.resolve cwd comps) with
  | some b => .ok b
  | none => .error .io

/-- the loop of `search` (collection.py:757-760) -/
def searchLoop {α : Type} (step : Block → Block × Except PyErr α) (reg : Codecs) (fs : Path → Option Bytes) (cwd : Path)
    (conds : Dict Str Obj) : List (List Str × FileIndex) → List α × Option PyErr
  | [] => ([], none)
  | (p, i) :: l =>
    match i.search step reg (openAt fs cwd p) conds with
    | (a, some e) => (a, some e)
    | (a, none) =>
      match searchLoop step reg fs cwd conds l with
      | (b, e) => (a ++ b, e)

/-- `search(conds, lazy)` (collection.py:757-760) with the working directory `cwd` -/
def search {α : Type} (step : Block → Block × Except PyErr α) (reg : Codecs) (fs : Path → Option Bytes) (cwd : Path)
    (d : DocIndex) (conds : Dict Str Obj) : List α × Option PyErr := searchLoop step reg fs cwd conds d.index

end DocIndex
end Verif
