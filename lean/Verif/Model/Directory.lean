import Verif.Model.Index
import Verif.Py.Regex
/-
Indexing a directory (collection.py:776-836).

Simplifications: the worker processes of the pool only compute, so `imap_unordered` is the results in any
order, `done` being the order of completion; the exception of a worker is raised when its result is reached.
Pickling the indices on their way between processes is left out. Absolute paths.
-/
namespace Verif

/-- `namefilter` (collection.py:813): `^[^.]+?\.docria(\.(xz|bz2|z|lz4))?$` -/
def namefilter : Re :=
  .seq (.plus (.cls (fun c => c != '.'))) (.seq (.lit ".docria".toList)
    (.opt (.seq (.lit ".".toList) (.alt (.lit "xz".toList) (.alt (.lit "bz2".toList) (.alt (.lit "z".toList) (.lit "lz4".toList)))))))

/-- the names in `docria_files` (collection.py:815-816) for the entries that `os.listdir` returns -/
def docriaFiles (listing : List Str) : List Str := listing.filter namefilter.fullmatch

/-- `_build_file_index` (collection.py:776-779), `build_msgpack_fileindex` (782-791): the file is opened and
indexed -/
def buildFile (reg : Codecs) (fs : Path → Option Bytes) (names : List Str) (p : Path) : Except PyErr FileIndex :=
  match fs p with
  | none => .error .io
  | some raw => FileIndex.build reg raw names

/-- the loop over the results in the order of their completion (collection.py:827-834) -/
def addFiles (reg : Codecs) (fs : Path → Option Bytes) (names : List Str) (dir : Path) : List Str → DocIndex → Except PyErr DocIndex
  | [], d => .ok d
  | f :: l, d =>
    match buildFile reg fs names (dir ++ [f]) with
    | .error e => .error e
    | .ok i => addFiles reg fs names dir l (d.add (dir ++ [f]) i)

/-- `build_msgpack_directory_fileindex(dir, *names, basepath=base)` (collection.py:794-836), the files being
completed in the order `done` -/
def buildDirectory (reg : Codecs) (fs : Path → Option Bytes) (names : List Str) (dir base : Path) (done : List Str) : Except PyErr DocIndex :=
  addFiles reg fs names dir done ⟨base, []⟩

end Verif
