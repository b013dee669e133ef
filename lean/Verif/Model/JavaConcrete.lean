import Verif.Model.JavaValue
/-
Nodes that are objects of a class with fields of their own: java/core/src/main/java/se/lth/cs/docria/ConcreteNode.java.

The fields of the object are a state `σ`; getters and setters are functions of it. A getter may give null (none) or raise.
-/
namespace Verif

/-- NodeInterface (ConcreteNode.java:27-35) -/
structure JIface (σ : Type) where
  getters : Dict Str (σ → Except PyErr (Option JVal))
  setters : Dict Str (σ → JVal → Except PyErr σ)

/-- the fields of the object, and `data` of Node (Node.java:28) -/
structure JCon (σ : Type) where
  st : σ
  data : Dict Str JVal

/-- `remove` of a TreeMap -/
def tremove {ν : Type} (d : Dict Str ν) (k : Str) : Dict Str ν := d.filter (fun e => !decide (e.1 = k))

namespace JIface
variable {σ : Type}

/-- a new Builder (ConcreteNode.java:37-39) -/
def new : JIface σ := ⟨[], []⟩

/-- `addField(name, getter, setter)` (ConcreteNode.java:41-45) -/
def addField (I : JIface σ) (name : Str) (g : σ → Except PyErr (Option JVal)) (s : σ → JVal → Except PyErr σ) : JIface σ :=
  ⟨tput I.getters name g, tput I.setters name s⟩

/-- `get(field)` (ConcreteNode.java:73-80, Node.java:271-273); none is null -/
def get (I : JIface σ) (c : JCon σ) (f : Str) : Except PyErr (Option JVal) :=
  match dget I.getters f with
  | some g => g c.st
  | none => .ok (some ((dget c.data f).getD .null))

/-- `put(field, value)` (ConcreteNode.java:82-91, Node.java:209-212) -/
def put (I : JIface σ) (c : JCon σ) (f : Str) (v : JVal) : Except PyErr (JCon σ) :=
  match dget I.setters f with
  | some s =>
    match s c.st v with
    | .error e => .error e
    | .ok st => .ok ⟨st, c.data⟩
  | none => .ok ⟨c.st, tput c.data f v⟩

/-- `has(field)` (ConcreteNode.java:93-96, Node.java:263-265) -/
def has (I : JIface σ) (c : JCon σ) (f : Str) : Bool := (dget I.getters f).isSome || (dget c.data f).isSome

/-- `remove(field)` (Node.java:267-269), which is not overridden -/
def remove (_ : JIface σ) (c : JCon σ) (f : Str) : JCon σ := ⟨c.st, tremove c.data f⟩

/-- `get(field, defaultValue)` (Node.java:295-301), which is not overridden -/
def getOr (_ : JIface σ) (c : JCon σ) (f : Str) (v : JVal) : JVal := (dget c.data f).getD v

/-- what the getters give, in order (ConcreteNode.java:56) -/
def apply (st : σ) : Dict Str (σ → Except PyErr (Option JVal)) → Except PyErr (List (Str × Option JVal))
  | [] => .ok []
  | (k, g) :: gs =>
    match g st with
    | .error e => .error e
    | .ok v =>
      match apply st gs with
      | .error e => .error e
      | .ok vs => .ok ((k, v) :: vs)

/-- `forEach(fieldFunction)` (ConcreteNode.java:52-57): the calls of the function -/
def forEach (I : JIface σ) (c : JCon σ) : Except PyErr (List (Str × Option JVal)) :=
  match apply c.st I.getters with
  | .error e => .error e
  | .ok vs => .ok (c.data.map (fun e => (e.1, some e.2)) ++ vs)

/-- the loop of `setData(data)` (ConcreteNode.java:63-68) -/
def setLoop (st : σ) (data : Dict Str JVal) : Dict Str (σ → JVal → Except PyErr σ) → Except PyErr (JCon σ)
  | [] => .ok ⟨st, data⟩
  | (k, s) :: ss =>
    match dget data k with
    | none => setLoop st data ss
    | some v =>
      match s st v with
      | .error e => .error e
      | .ok st => setLoop st (tremove data k) ss

/-- `setData(data)` (ConcreteNode.java:59-71) -/
def setData (I : JIface σ) (c : JCon σ) (data : Dict Str JVal) : Except PyErr (JCon σ) := setLoop c.st data I.setters

/-- what the decoder does with a reference of a node (MsgpackCodec.java:791-796): `nodes i` is what `get(i)` of the target layer gives -/
def resolve (I : JIface σ) (d : JDoc) (nodes : Int → Except PyErr JVal) (c : JCon σ) (f : Str) : Except PyErr (JCon σ) :=
  if I.has c f then
    match I.get c f with
    | .error e => .error e
    | .ok none => .error .attribute
    | .ok (some v) =>
      match d.intValue v with
      | .error e => .error e
      | .ok i =>
        match nodes i with
        | .error e => .error e
        | .ok v => I.put c f v
  else .ok c

/-- what the decoder does for one cell of a column of references: the id is put unless it is nil, and resolved later
(MsgpackCodec.java:674-679, 786-799) -/
def readRef (I : JIface σ) (d : JDoc) (nodes : Int → Except PyErr JVal) (c : JCon σ) (f : Str) : Option Int → Except PyErr (JCon σ)
  | none => I.resolve d nodes c f
  | some i =>
    match I.put c f (.int i) with
    | .error e => .error e
    | .ok c => I.resolve d nodes c f

/-- calls of `put` one after the other -/
def puts (I : JIface σ) (c : JCon σ) : List (Str × JVal) → Except PyErr (JCon σ)
  | [] => .ok c
  | (f, v) :: ps =>
    match I.put c f v with
    | .error e => .error e
    | .ok c => I.puts c ps

end JIface
end Verif
