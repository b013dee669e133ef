import Verif.Model.JavaCodec
/-
Editing documents of the Java library: java/core/src/main/java/se/lth/cs/docria/Document.java, Layer.java, Node.java, Text.java.

A node has a layer if it is in a layer of the document; nodes of layers that are not in the document are not modelled.
-/
namespace Verif
namespace JDoc

/-- `node.layer != null` (Layer.java:169) -/
def attached (d : JDoc) (n : Nat) : Bool := d.layers.any (fun e => decide (n ∈ e.2.nodes))

/-- `setData(r)` and `layer(k).add(node)` (Node.java:111-137, Layer.java:164-184); NullPointerException if there is no such
layer -/
def insert (d : JDoc) (k : Str) (n : Nat) (r : Dict Str JVal) : JDoc × Except PyErr Unit :=
  match dget d.layers k with
  | none => (d, .error .attribute)
  | some L =>
    match (⟨L.storage, L.size, d.ids, fun m => if d.attached m then some 0 else none⟩ : JLayer).add n with
    | (_, .error e) => (d, .error e)
    | (s, .ok ()) =>
      ({ d with
        layers := dset d.layers k { L with storage := s.storage, size := s.size }
        ids := s.ids
        data := fun m => if m = n then r else d.data m }, .ok ())

/-- `node.put(f, v)` (Node.java:209-212) -/
def put (d : JDoc) (n : Nat) (f : Str) (v : JVal) : JDoc := { d with data := fun m => if m = n then tput (d.data n) f v else d.data m }

/-- `props().put(k, v)` (Document.java:45-47) -/
def putProp (d : JDoc) (k : Str) (v : JVal) : JDoc := { d with props := tput d.props k v }

/-- `text(c).span(a, b)` (Document.java:249-251, Text.java:135-160); NullPointerException if there is no such text -/
def span (d : JDoc) (c : Str) (a b : Int) : JDoc × Except PyErr JSpan :=
  match dget d.texts c with
  | none => (d, .error .attribute)
  | some t => ({ d with texts := dset d.texts c (t.span a b).1 }, (t.span a b).2)

end JDoc

/-- a call -/
inductive JDOp
  | text (name : Str) (s : JStr)
  | layer (name : Str) (fields : List (Str × JType))
  | prop (k : Str) (v : JVal)
  | insert (k : Str) (n : Nat) (r : Dict Str JVal)
  | put (n : Nat) (f : Str) (v : JVal)
  | span (c : Str) (a b : Int)
  | encode

/-- a document, and the spans made since it was last encoded -/
structure JDState where
  doc : JDoc
  made : List (Str × JSpan)

/-- one call; the document after it -/
def JDState.op (s : JDState) : JDOp → JDState
  | .text name t => { s with doc := (s.doc.addText name (.new t)).1 }
  | .layer name fields => { s with doc := s.doc.addSchema name (tmap fields) }
  | .prop k v => { s with doc := s.doc.putProp k v }
  | .insert k n r => { s with doc := (s.doc.insert k n r).1 }
  | .put n f v => { s with doc := s.doc.put n f v }
  | .span c a b =>
    match s.doc.span c a b with
    | (d, .error _) => { s with doc := d }
    | (d, .ok p) => ⟨d, (c, p) :: s.made⟩
  | .encode => ⟨s.doc.encode.1, []⟩

/-- calls in sequence -/
def JDState.run (s : JDState) (os : List JDOp) : JDState := os.foldl JDState.op s

/-- a new document -/
def JDState.new : JDState := ⟨.new, []⟩

end Verif
