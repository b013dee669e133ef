import Verif.Py.Basic
import Verif.Py.Dict
import Verif.Py.Obj
import Verif.Py.Utf8
import Verif.Py.Msgpack
import Verif.Model.Text
import Verif.Model.World
import Verif.Model.Layer
import Verif.Model.Types
import Verif.Model.Doc
import Verif.Proof.Layer
import Verif.Proof.Doc
import Verif.Model.History
import Verif.Model.Codec
import Verif.Proof.Attrs
import Verif.Props.Text
import Verif.Props.Layer
import Verif.Props.Schema
import Verif.Props.Compile
import Verif.Props.Msgpack
import Verif.Proof.Msgpack
import Verif.Proof.BuildDoc
import Verif.Proof.Start
import Verif.Props.CodecSpec
import Verif.Proof.CodecCompile
import Verif.Proof.RoundTrip
import Verif.Proof.DocRound
import Verif.Proof.Stable
import Verif.Proof.Check
import Verif.Props.Codec
import Verif.Model.MsgpackCodec
import Verif.Proof.MsgpackCodec
import Verif.Proof.WireOk
import Verif.Proof.MDoc
import Verif.Props.MsgpackCodec
import Verif.Model.Boundary
import Verif.Props.BoundaryWriter
import Verif.Props.BoundaryReader
import Verif.Model.BlockFile
import Verif.Proof.BlockFile
import Verif.Props.BlockFile
import Verif.Py.PyEq
import Verif.Model.Index
import Verif.Proof.Index
import Verif.Props.Index
import Verif.Model.Tar
import Verif.Props.Tar
import Verif.Model.Graph
import Verif.Proof.Graph
import Verif.Props.Graph
import Verif.Py.Sort
import Verif.Model.Sweep
import Verif.Proof.Sweep
import Verif.Props.Dominant
import Verif.Props.Translate
import Verif.Model.Tokens
import Verif.Props.Tokens
import Verif.Props.Group
import Verif.Model.Query
import Verif.Props.Query
import Verif.Model.Printout
import Verif.Props.Printout
import Verif.Props.Table
import Verif.Props.Html
import Verif.Props.Xml
import Verif.Py.Num
import Verif.Py.Json
import Verif.Model.JsonCodec
import Verif.Proof.Json
import Verif.Proof.JsonTrunc
import Verif.Proof.JsonCodec
import Verif.Props.JsonSpec
import Verif.Props.Json
import Verif.Model.Collections
import Verif.Proof.Collections
import Verif.Props.Collections
import Verif.Model.View
import Verif.Props.View
import Verif.Py.Regex
import Verif.Model.Directory
import Verif.Props.Directory
import Verif.Model.Ext
import Verif.Props.Ext
import Verif.Model.Access
import Verif.Props.Access
import Verif.Props.JavaBoundary
import Verif.Model.JavaStream
import Verif.Props.JavaBuffer
import Verif.Props.JavaStream
import Verif.Proof.JavaUnpack
import Verif.Props.JavaReader
import Verif.Model.JavaThreads
import Verif.Props.JavaThreads
import Verif.Model.JavaLayer
import Verif.Props.JavaLayer
import Verif.Model.JavaText
import Verif.Props.JavaText
import Verif.Model.JavaDoc
import Verif.Model.JavaCodec
import Verif.Model.JavaEdit
import Verif.Props.JavaCodecSpec
import Verif.Proof.TreeMap
import Verif.Proof.Rows
import Verif.Proof.PyRead
import Verif.Proof.PyWrite
import Verif.Proof.JavaScalars
import Verif.Proof.JavaRead
import Verif.Proof.JavaBuild
import Verif.Proof.JavaWrite
import Verif.Proof.JavaWire
import Verif.Props.JavaEdit
import Verif.Props.JavaCodec
import Verif.Props.JavaCodecEx
import Verif.Props.JavaAgain
import Verif.Model.JavaSweep
import Verif.Props.JavaDominant
import Verif.Props.JavaGroup
import Verif.Model.JavaMdoc
import Verif.Props.JavaMdoc
import Verif.Model.JavaHadoop
import Verif.Props.JavaHadoop
import Verif.Cases.Text
import Verif.Cases.Document
import Verif.Cases.JavaFiles
import Verif.Cases.PythonTests
import Verif.Cases.JavaTests
import Verif.Model.JavaNode
import Verif.Props.JavaNode
import Verif.Model.JavaValue
import Verif.Proof.JavaDouble
import Verif.Props.JavaValue
import Verif.Model.JavaConcrete
import Verif.Props.JavaConcrete
import Verif.Model.JavaEquals
import Verif.Props.JavaEquals
import Verif.Props.Rest
import Verif.Model.JavaSchema
import Verif.Props.JavaSchema
import Verif.Model.Nested
import Verif.Proof.Nested
import Verif.Props.JavaExt
import Verif.Py.Double
import Verif.Model.Convert
import Verif.Proof.Convert
import Verif.Proof.WithFields
import Verif.Props.Convert
import Verif.Model.Iterate
import Verif.Proof.Iterate
import Verif.Props.Iterate
import Verif.Proof.Cut
import Verif.Proof.CutMDoc
import Verif.Model.Debug
import Verif.Proof.Debug
import Verif.Props.Cut
import Verif.Model.JavaIterate
import Verif.Proof.JavaIterate
import Verif.Props.JavaIterate
import Verif.Model.FileSession
import Verif.Proof.FileSession
import Verif.Props.FileSession
import Verif.Proof.JavaCut
import Verif.Props.JavaCut
import Verif.Model.XmlText
import Verif.Proof.XmlRead
import Verif.Proof.XmlProper
import Verif.Proof.XmlFit
import Verif.Props.XmlText
import Verif.Model.JavaSession
import Verif.Proof.JavaSession
import Verif.Props.JavaSession
import Verif.Model.PySession
import Verif.Props.PySession
import Verif.Model.PyInput
import Verif.Proof.PyInput
import Verif.Props.PyInput
import Verif.Model.BoundarySession
import Verif.Props.BoundarySession
import Verif.Model.BoundaryInput
import Verif.Props.BoundaryInput
import Verif.Model.BoundaryDocs
import Verif.Props.BoundaryDocs
import Verif.Audit
