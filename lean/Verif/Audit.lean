import Lean.Elab.Command
import Lean.Util.CollectAxioms
import Verif.Props.Text
import Verif.Props.Layer
import Verif.Props.Schema
import Verif.Props.Compile
import Verif.Props.Msgpack
import Verif.Props.CodecSpec
import Verif.Props.Codec
import Verif.Props.MsgpackCodec
import Verif.Props.BoundaryWriter
import Verif.Props.BoundaryReader
import Verif.Props.BlockFile
import Verif.Props.Index
import Verif.Props.Tar
import Verif.Props.Graph
import Verif.Props.Dominant
import Verif.Props.Translate
import Verif.Props.Tokens
import Verif.Props.Group
import Verif.Props.Query
import Verif.Props.Printout
import Verif.Props.Table
import Verif.Props.Html
import Verif.Props.Xml
import Verif.Props.Json
import Verif.Props.Collections
import Verif.Props.View
import Verif.Props.Directory
import Verif.Props.Ext
import Verif.Props.Access
import Verif.Props.JavaBoundary
import Verif.Props.JavaBuffer
import Verif.Props.JavaStream
import Verif.Props.JavaReader
import Verif.Props.JavaThreads
import Verif.Props.JavaLayer
import Verif.Props.JavaText
import Verif.Props.JavaEdit
import Verif.Props.JavaCodec
import Verif.Props.JavaCodecEx
import Verif.Props.JavaAgain
import Verif.Props.JavaDominant
import Verif.Props.JavaGroup
import Verif.Props.JavaMdoc
import Verif.Props.JavaHadoop
import Verif.Props.JavaNode
import Verif.Props.JavaValue
import Verif.Props.JavaConcrete
import Verif.Props.JavaEquals
import Verif.Props.Rest
import Verif.Props.JavaSchema
import Verif.Props.JavaExt
import Verif.Props.Convert
import Verif.Props.Iterate
import Verif.Props.Cut
import Verif.Props.JavaIterate
import Verif.Props.FileSession
import Verif.Props.JavaCut
import Verif.Props.XmlText
import Verif.Props.JavaSession
import Verif.Props.PySession
import Verif.Props.PyInput
import Verif.Props.BoundarySession
import Verif.Props.BoundaryInput
import Verif.Props.BoundaryDocs

/-!
Checks, when the project is built, that every property theorem (a theorem `Verif.Cnn_...`) depends on no
axiom other than the three of Lean's standard library.
-/

open Lean

/-- is the name that of a property theorem? -/
def isClaim (n : Name) : Bool :=
  match n with
  | .str (.str .anonymous "Verif") s =>
    match s.toList with
    | 'C' :: a :: b :: '_' :: _ => a.isDigit && b.isDigit
    | 'C' :: a :: b :: c :: '_' :: _ => a.isDigit && b.isDigit && c.isDigit
    | _ => false
  | _ => false

run_cmd do
  let env ← getEnv
  let mut count := 0
  for (n, info) in env.constants.map₁.toList do
    if isClaim n && info matches .thmInfo _ then
      count := count + 1
      for a in ← collectAxioms n do
        unless a ∈ [``propext, ``Quot.sound, ``Classical.choice] do
          throwError "{n} depends on {a}"
  if count < 200 then throwError "only {count} property theorems found"
