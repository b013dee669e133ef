import Verif.Model.JavaEdit
/-
The validating builder of nodes of the Java library: java/core/src/main/java/se/lth/cs/docria/Node.java (Builder), Value.java,
NodeSpan.java, DataTypes.java, values/.

A node has a layer if it is in a layer of the document (Model/JavaEdit); nodes of other documents are not modelled.
A `null` given as a value, string, array or node is not modelled.
-/
namespace Verif
namespace JDoc

/-- `node.layer().name()`; none if `node.layer()` is null (Node.java:144-146, Layer.java:79-81) -/
def layerName (d : JDoc) (n : Nat) : Option Str := (d.layers.find? (fun e => decide (n ∈ e.2.nodes))).map (·.1)

/-- a type with one argument that is a string (DataTypes.java:27-45) -/
def argType (name : JTName) (arg k : Str) : JType := ⟨name, [(arg, .str k)]⟩

/-- a type with the name of the layer of a node; NullPointerException if it has none -/
def layerType (d : JDoc) (name : JTName) (n : Nat) : Except PyErr JType :=
  match d.layerName n with
  | none => .error .attribute
  | some k => .ok (argType name "layer".toList k)

/-- `value.type()`: BoolValue.java:35-37, IntValue.java:32-34, LongValue.java:32-34, DoubleValue.java:30-32, StringValue.java:32-34,
BinaryValue.java:33-35, NullValue.java:29-31, ExtensionValue.java:28-30, Span.java:43-45 with Text.java:41-43, Node.java:163-165,
NodeArrayValue.java:45-48, NodeSpan.java:68-70. The placeholders of the decoder have the types of arrays and spans without a
layer (MsgpackCodec.java:615-651); they are `unmodelled` here. -/
def valType (d : JDoc) : JVal → Except PyErr JType
  | .null => .ok ⟨.null, []⟩
  | .bool _ => .ok ⟨.bool, []⟩
  | .int _ => .ok ⟨.int, []⟩
  | .long _ => .ok ⟨.long, []⟩
  | .double _ => .ok ⟨.double, []⟩
  | .str _ => .ok ⟨.string, []⟩
  | .bin _ => .ok ⟨.binary, []⟩
  | .ext t _ => .ok (argType .ext "type".toList t)
  | .span c _ => .ok (argType .span "context".toList c)
  | .node n => d.layerType .node n
  | .nodes [] => .error .index
  | .nodes (n :: _) => d.layerType .nodeArray n
  | .nodespan l _ => d.layerType .nodeSpan l
  | .idArray _ => .error .unmodelled
  | .idSpan _ _ => .error .unmodelled

/-- the loop of `NodeArrayValue(Node[])` (NodeArrayValue.java:36-40): the message of the exception asks for the name of the
layer of the other node -/
def sameLayer (d : JDoc) (k : Option Str) : List Nat → Except PyErr Unit
  | [] => .ok ()
  | n :: ns => if d.layerName n ≠ k then (if d.layerName n = none then .error .attribute else .error .value) else d.sameLayer k ns

end JDoc

/-- what `put` can be given (Node.java:56-110): a value, an array of nodes, a list of nodes, or two nodes -/
inductive JArg
  | val (v : JVal)
  | array (ns : List Nat)
  | list (ns : List Nat)
  | pair (l r : Nat)
  deriving DecidableEq

namespace JDoc

/-- `new NodeSpan(left, right)` (NodeSpan.java:16-34) -/
def nodeSpanOf (d : JDoc) (l r : Nat) : Except PyErr JVal :=
  if d.layerName l = none then .error .data
  else if d.layerName r = none then .error .data
  else if d.ids l > d.ids r then .error .data
  else .ok (.nodespan l r)

/-- `new NodeArrayValue(nodes)` of an array (NodeArrayValue.java:28-43) -/
def arrayOf (d : JDoc) : List Nat → Except PyErr JVal
  | [] => .error .value
  | n :: ns =>
    match d.sameLayer (d.layerName n) (n :: ns) with
    | .error e => .error e
    | .ok () => .ok (.nodes (n :: ns))

/-- the value that is put: `Values.get` (Values.java:25-110). A list is given to `get(Object)`: an empty one is an
UnsupportedOperationException, of another only the first element is looked at (Values.java:103-109, NodeArrayValue.java:50-52). -/
def argValue (d : JDoc) : JArg → Except PyErr JVal
  | .val v => .ok v
  | .array ns => d.arrayOf ns
  | .list [] => .error .notImplemented
  | .list (n :: ns) => .ok (.nodes (n :: ns))
  | .pair l r => d.nodeSpanOf l r

/-- `Builder.put(fieldName, value)` (Node.java:56-73): the values of the builder after it -/
def builderPut (d : JDoc) (fields : Dict Str JType) (values : Dict Str JVal) (f : Str) (v : JVal) : Except PyErr (Dict Str JVal) :=
  match dget fields f with
  | none => .error .value
  | some t =>
    match d.valType v with
    | .error e => .error e
    | .ok t' =>
      if t' ≠ t then .error .value
      else if (dget values f).isSome then .error .value
      else .ok (tput values f v)

/-- calls of `put` one after the other (Node.java:56-110) on a builder with these values -/
def buildFrom (d : JDoc) (fields : Dict Str JType) (values : Dict Str JVal) : List (Str × JArg) → Except PyErr (Dict Str JVal)
  | [] => .ok values
  | (f, a) :: ps =>
    match d.argValue a with
    | .error e => .error e
    | .ok v =>
      match d.builderPut fields values f v with
      | .error e => .error e
      | .ok values => d.buildFrom fields values ps

/-- a new builder and calls of `put` -/
def build (d : JDoc) (fields : Dict Str JType) (puts : List (Str × JArg)) : Except PyErr (Dict Str JVal) := d.buildFrom fields [] puts

end JDoc

/-- a call in a program that makes its nodes with builders -/
inductive JBOp
  | text (name : Str) (s : JStr)
  | layer (name : Str) (fields : List (Str × JType))
  | prop (k : Str) (v : JVal)
  | build (k : Str) (n : Nat) (puts : List (Str × JArg))
  | span (c : Str) (a b : Int)
  | encode

/-- the call of Model/JavaEdit that it is: `layer(k).create().put(..)...insert()` (Layer.java:97-99, Node.java:56-129) inserts
the new node `n` with the values of the builder, or raises before -/
def JBOp.toOp (d : JDoc) : JBOp → Option JDOp
  | .text name s => some (.text name s)
  | .layer name fields => some (.layer name fields)
  | .prop k v => some (.prop k v)
  | .span c a b => some (.span c a b)
  | .encode => some .encode
  | .build k n puts =>
    match dget d.layers k with
    | none => none
    | some L =>
      match d.build L.fields puts with
      | .error _ => none
      | .ok r => some (.insert k n r)

/-- one call; the document after it -/
def JDState.bop (s : JDState) (o : JBOp) : JDState :=
  match o.toOp s.doc with
  | none => s
  | some o => s.op o

/-- calls in sequence -/
def JDState.brun (s : JDState) (os : List JBOp) : JDState := os.foldl JDState.bop s

end Verif
