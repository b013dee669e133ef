import Verif.Model.JavaDoc
/-
Schemas and their builders in the Java library: java/core/src/main/java/se/lth/cs/docria/Schema.java, DataType.java, and the
parts of Document.java and Layer.java that work on schemas.

What is of interest is which objects share which maps, so objects are numbers and their contents are in a heap. A builder is
taken together with the TreeMap it creates: `build()` hands that very map to the object it makes.

Simplifications: the public constructors `Schema.Layer(name, fields, factory)` and `DataType.Builder(name, args)`, which take a map of
the caller, are not modelled; nor are node factories, texts and properties. `layer d l` is `new Layer(d, l)`, with `d` not kept,
and `node y` is `Layer.add` of a new node (Layer.java:158-178) with given values.
-/

namespace Verif

structure JSchemas where
  /-- DataType.Builder: name and `args` (DataType.java:25-43), and how many there are -/
  tname : Nat → JTName := fun _ => .null
  args : Nat → Dict Str JVal := fun _ => []
  nTB : Nat := 0
  /-- DataType (DataType.java:82-88): whose map it has -/
  tfrom : Nat → Nat := fun _ => 0
  nT : Nat := 0
  /-- LayerBuilder: name and `fields` (Schema.java:74-81) -/
  bname : Nat → Str := fun _ => []
  fields : Nat → Dict Str Nat := fun _ => []
  nB : Nat := 0
  /-- Schema.Layer (Schema.java:25-38): name, and whose map it has -/
  sname : Nat → Str := fun _ => []
  sfrom : Nat → Nat := fun _ => 0
  nS : Nat := 0
  /-- Schema: `layerSchema` (Schema.java:107) -/
  lschema : Nat → Dict Str Nat := fun _ => []
  nSch : Nat := 0
  /-- Layer: its schema and its nodes (Layer.java:25-29) -/
  schema : Nat → Nat := fun _ => 0
  nodes : Nat → List Nat := fun _ => []
  nL : Nat := 0
  /-- Document: its Schema and its layers (Document.java:24-26) -/
  dschema : Nat → Nat := fun _ => 0
  layers : Nat → Dict Str Nat := fun _ => []
  nD : Nat := 0
  /-- the values of nodes -/
  data : Nat → Dict Str JVal := fun _ => []
  nN : Nat := 0

namespace JSchemas

/-- a function with one value changed -/
def at1 {α : Type} (f : Nat → α) (i : Nat) (a : α) : Nat → α := fun j => if j = i then a else f j

/-- `new DataType.Builder(name)` (DataType.java:29-35) -/
def newType (w : JSchemas) (n : JTName) : JSchemas :=
  { w with tname := at1 w.tname w.nTB n, args := at1 w.args w.nTB [], nTB := w.nTB + 1 }

/-- `addArg(key, value)` (DataType.java:42-55) -/
def addArg (w : JSchemas) (b : Nat) (k : Str) (v : JVal) : JSchemas × Except PyErr Unit :=
  if (dget (w.args b) k).isSome then (w, .error .value) else ({ w with args := at1 w.args b (tput (w.args b) k v) }, .ok ())

/-- `build()` (DataType.java:81-83) -/
def buildType (w : JSchemas) (b : Nat) : JSchemas := { w with tfrom := at1 w.tfrom w.nT b, nT := w.nT + 1 }

/-- `Schema.layer(name)`, `Layer.builder(name)` (Schema.java:74-81, 103-105, Layer.java:41-43) -/
def builder (w : JSchemas) (n : Str) : JSchemas :=
  { w with bname := at1 w.bname w.nB n, fields := at1 w.fields w.nB [], nB := w.nB + 1 }

/-- a field added to a map, if there is none with that name (Schema.java:59-64, 83-90) -/
def putField (w : JSchemas) (b : Nat) (f : Str) (t : Nat) : JSchemas × Except PyErr Unit :=
  if (dget (w.fields b) f).isSome then (w, .error .value) else ({ w with fields := at1 w.fields b (tput (w.fields b) f t) }, .ok ())

/-- `LayerBuilder.addField(name, type)` (Schema.java:83-90) -/
def addField (w : JSchemas) (b : Nat) (f : Str) (t : Nat) : JSchemas × Except PyErr Unit := w.putField b f t

/-- `LayerBuilder.build()` (Schema.java:97-99) -/
def build (w : JSchemas) (b : Nat) : JSchemas := { w with sname := at1 w.sname w.nS (w.bname b), sfrom := at1 w.sfrom w.nS b, nS := w.nS + 1 }

/-- `Schema.Layer.add(name, type)` (Schema.java:59-64) -/
def slAdd (w : JSchemas) (l : Nat) (f : Str) (t : Nat) : JSchemas × Except PyErr Unit := w.putField (w.sfrom l) f t

/-- `Schema.Layer.remove(name)` (Schema.java:66-68) -/
def slRemove (w : JSchemas) (l : Nat) (f : Str) : JSchemas := { w with fields := at1 w.fields (w.sfrom l) (ddel (w.fields (w.sfrom l)) f) }

/-- `Schema.Layer.getFieldType(field)` (Schema.java:70-72); null is `none` -/
def fieldType (w : JSchemas) (l : Nat) (f : Str) : Option Nat := dget (w.fields (w.sfrom l)) f

/-- name and arguments of a DataType (DataType.java:90-92, 117-119) -/
def type (w : JSchemas) (t : Nat) : JType := ⟨w.tname (w.tfrom t), w.args (w.tfrom t)⟩

/-- `Schema.Layer.fields()` (Schema.java:55-57), with what the types are -/
def slFields (w : JSchemas) (l : Nat) : Dict Str JType := (w.fields (w.sfrom l)).map fun e => (e.1, w.type e.2)

/-- `new Schema()` (Schema.java:109-111) -/
def newSchema (w : JSchemas) : JSchemas := { w with lschema := at1 w.lschema w.nSch [], nSch := w.nSch + 1 }

/-- `new Schema(schema)` (Schema.java:113-115) -/
def copySchema (w : JSchemas) (s : Nat) : JSchemas := { w with lschema := at1 w.lschema w.nSch (w.lschema s), nSch := w.nSch + 1 }

/-- `Schema.add(layer)` (Schema.java:117-119) -/
def schemaAdd (w : JSchemas) (s l : Nat) : JSchemas := { w with lschema := at1 w.lschema s (tput (w.lschema s) (w.sname l) l) }

/-- `new Layer(document, schema)` (Layer.java:73-77) -/
def newLayer (w : JSchemas) (l : Nat) : JSchemas := { w with schema := at1 w.schema w.nL l, nodes := at1 w.nodes w.nL [], nL := w.nL + 1 }

/-- `new Document()` (Document.java:30-32) -/
def newDoc (w : JSchemas) : JSchemas :=
  { w.newSchema with dschema := at1 w.dschema w.nD w.nSch, layers := at1 w.layers w.nD [], nD := w.nD + 1 }

/-- one layer for each of these (Document.java:36-37) -/
def docLayers (w : JSchemas) (d : Nat) : List (Str × Nat) → JSchemas
  | [] => w
  | (_, l) :: r => docLayers { w.newLayer l with layers := at1 w.layers d (tput (w.layers d) (w.sname l) w.nL) } d r

/-- `new Document(schema)` (Document.java:34-38) -/
def docOf (w : JSchemas) (s : Nat) : JSchemas :=
  ({ w.copySchema s with dschema := at1 w.dschema w.nD w.nSch, layers := at1 w.layers w.nD [], nD := w.nD + 1 } : JSchemas).docLayers w.nD (w.lschema s)

/-- `Document.add(schema)` (Document.java:89-94) -/
def docAdd (w : JSchemas) (d l : Nat) : JSchemas :=
  { (w.newLayer l).schemaAdd (w.dschema d) l with layers := at1 w.layers d (tput (w.layers d) (w.sname l) w.nL) }

/-- `Document.add(layer)` (Document.java:65-72) -/
def docAddLayer (w : JSchemas) (d y : Nat) : JSchemas × Except PyErr Unit :=
  if (dget (w.layers d) (w.sname (w.schema y))).isSome then (w, .error .value)
  else ({ w with layers := at1 w.layers d (tput (w.layers d) (w.sname (w.schema y)) y) }, .ok ())

/-- `Layer.addField(name, type)` (Layer.java:105-111) -/
def layAddField (w : JSchemas) (y : Nat) (f : Str) (t : Nat) : JSchemas × Except PyErr Unit :=
  if (dget (w.fields (w.sfrom (w.schema y))) f).isSome then (w, .error .value) else w.slAdd (w.schema y) f t

/-- `Layer.removeField(name)` (Layer.java:113-127) -/
def layRemoveField (w : JSchemas) (y : Nat) (f : Str) : JSchemas :=
  if (dget (w.fields (w.sfrom (w.schema y))) f).isSome then
    { w.slRemove (w.schema y) f with data := fun n => if n ∈ w.nodes y then ddel (w.data n) f else w.data n }
  else w

/-- a new node in a layer -/
def node (w : JSchemas) (y : Nat) (vs : Dict Str JVal) : JSchemas :=
  { w with nodes := at1 w.nodes y (w.nodes y ++ [w.nN]), data := at1 w.data w.nN vs, nN := w.nN + 1 }

/-- the calls; what they make is the next object of its kind -/
inductive _root_.Verif.JSchOp
  | newType (n : JTName)
  | addArg (b : Nat) (k : Str) (v : JVal)
  | buildType (b : Nat)
  | builder (n : Str)
  | addField (b : Nat) (f : Str) (t : Nat)
  | build (b : Nat)
  | slAdd (l : Nat) (f : Str) (t : Nat)
  | slRemove (l : Nat) (f : Str)
  | newSchema
  | copySchema (s : Nat)
  | schemaAdd (s l : Nat)
  | newLayer (l : Nat)
  | newDoc
  | docOf (s : Nat)
  | docAdd (d l : Nat)
  | docAddLayer (d y : Nat)
  | layAddField (y : Nat) (f : Str) (t : Nat)
  | layRemoveField (y : Nat) (f : Str)
  | node (y : Nat) (vs : Dict Str JVal)

/-- one call; a call that raises leaves things as they are -/
def step (w : JSchemas) : JSchOp → JSchemas × Except PyErr Unit
  | .newType n => (w.newType n, .ok ())
  | .addArg b k v => w.addArg b k v
  | .buildType b => (w.buildType b, .ok ())
  | .builder n => (w.builder n, .ok ())
  | .addField b f t => w.addField b f t
  | .build b => (w.build b, .ok ())
  | .slAdd l f t => w.slAdd l f t
  | .slRemove l f => (w.slRemove l f, .ok ())
  | .newSchema => (w.newSchema, .ok ())
  | .copySchema s => (w.copySchema s, .ok ())
  | .schemaAdd s l => (w.schemaAdd s l, .ok ())
  | .newLayer l => (w.newLayer l, .ok ())
  | .newDoc => (w.newDoc, .ok ())
  | .docOf s => (w.docOf s, .ok ())
  | .docAdd d l => (w.docAdd d l, .ok ())
  | .docAddLayer d y => w.docAddLayer d y
  | .layAddField y f t => w.layAddField y f t
  | .layRemoveField y f => (w.layRemoveField y f, .ok ())
  | .node y vs => (w.node y vs, .ok ())

/-- calls in sequence -/
def run (w : JSchemas) : List JSchOp → JSchemas
  | [] => w
  | o :: os => run (w.step o).1 os

end JSchemas
end Verif
