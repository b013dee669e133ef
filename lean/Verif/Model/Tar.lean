import Verif.Model.BlockFile
/-
docria.collection: tar archives of documents (collection.py:532-625). The tar format itself is a list of members.
-/
namespace Verif

/-- a member of a tar archive: its name, whether `isfile()`, its data -/
structure TarMember where
  name : Str
  isfile : Bool
  data : Bytes

/-- the decimal digits of a number, `%d` -/
def decimal (n : Nat) : Str :=
  if n < 10 then [Char.ofNat (48 + n)] else decimal (n / 10) ++ [Char.ofNat (48 + n % 10)]
termination_by n
decreasing_by omega

/-- `"doc%05d.msgpack" % i` -/
def docName (i : Nat) : Str :=
  "doc".toList ++ (List.replicate (5 - (decimal i).length) '0' ++ decimal i) ++ ".msgpack".toList

/-- `os.path.join(root, name)` for a name that does not begin with a slash (posixpath.join) -/
def pathJoin (root name : Str) : Str :=
  if root = [] ∨ root.getLast? = some '/' then root ++ name else root ++ '/' :: name

/-- `TarMsgpackWriter` (collection.py:567-590); `fmt` is `docformat % i` -/
structure TarWriter where
  members : List TarMember
  rootdir : Option Str
  fmt : Nat → Str
  i : Nat

namespace TarWriter

/-- `TarMsgpackWriter(path, docformat, rootdir)` (collection.py:569-590) -/
def new (rootdir : Option Str) (fmt : Nat → Str := docName) : TarWriter :=
  match rootdir with
  | none => ⟨[], none, fmt, 0⟩
  | some d => ⟨[⟨d, false, []⟩], some d, fmt, 0⟩

/-- the name of the next member (collection.py:605-608) -/
def nextName (w : TarWriter) : Str :=
  match w.rootdir with
  | some d => pathJoin d (w.fmt w.i)
  | none => w.fmt w.i

/-- `write(doc)` (collection.py:598-622) -/
def write (w : TarWriter) (a : DocArg) : TarWriter × Option PyErr :=
  match a.data with
  | .error e => (w, some e)
  | .ok d => ({ w with i := w.i + 1, members := w.members ++ [⟨w.nextName, true, d⟩] }, none)

/-- the writer after a sequence of calls, whether or not they raised -/
def run (w : TarWriter) (as : List DocArg) : TarWriter := as.foldl (fun w a => (w.write a).1) w

end TarWriter

/-- `TarMsgpackReader.__next__` (collection.py:553-561) on the members that have not been read yet -/
def tarNext : List TarMember → List TarMember × Except PyErr MDoc
  | [] => ([], .error .stopIteration)
  | m :: ms => if m.isfile then (ms, MDoc.ofBytes m.data .none) else tarNext ms

end Verif
