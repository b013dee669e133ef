import Verif.Model.Layer
/-
Schema changes (model.py:1315-1357), Document.remove_layer (1837-1866) and Document.compile (1937-2016).
-/
namespace Verif
namespace World

/-- `for n in nodes: n[name] = v` (model.py:1335-1336). -/
def setAll (w : World) (name : Str) (v : Value) : List (Option NodeId) → World
  | [] => w
  | none :: ns => setAll w name v ns
  | some n :: ns => setAll (w.setField n name v) name v ns

/-- `for n in nodes: if name in n: del n[name]` (model.py:1350-1353). -/
def delAll (w : World) (name : Str) : List (Option NodeId) → World
  | [] => w
  | none :: ns => delAll w name ns
  | some n :: ns => delAll (w.delField n name) name ns

/-- `layer.add_field(name, dtype, init_with_default)` (model.py:1315-1336) with a `DataType` instance.
For a declared field the code calls `SchemaValidationError(msg)` without its second argument, which is a
TypeError. -/
def addField (w : World) (L : LayerId) (name : Str) (t : DataType) (init : Bool) : Res :=
  if (dget (w.layers L).fields name).isSome then (w, some .type)
  else
    let w := w.modLayer L (fun l =>
      { l with fields := dset l.fields name t, defaults := computeDefaults (dset l.fields name t) })
    if init then
      match t.default? with
      | none => (w, none)
      | some v => (w.setAll name v (w.iter L), none)
    else (w, none)

/-- `layer.remove_field(name, leave_data)` (model.py:1338-1357). -/
def removeField (w : World) (L : LayerId) (name : Str) (leave : Bool) : World × Bool :=
  if (dget (w.layers L).fields name).isNone then (w, false)
  else
    let w := if leave then w else w.delAll name (w.iter L)
    (w.modLayer L (fun l =>
      { l with fields := ddel l.fields name, defaults := computeDefaults (ddel l.fields name) }), true)

/-- inner loop of `remove_layer` (model.py:1850-1853): does any of the fields refer to `name`?
KeyError when the type lacks the option. -/
def fieldsRefer (name : Str) : Dict Str DataType → Except PyErr Bool
  | [] => .ok false
  | (_, t) :: rest =>
    if t.tname = .noderef ∨ t.tname = .noderefMany then do
      let v ← t.opt "layer"
      let b ← fieldsRefer name rest
      pure (decide (v = .str name) || b)
    else fieldsRefer name rest

/-- outer loop of `remove_layer` (model.py:1848-1853): is `referencing_layer_field` non-empty? -/
def layersRefer (w : World) (name : Str) : Dict Str LayerId → Except PyErr Bool
  | [] => .ok false
  | (k, L) :: rest =>
    if k ≠ name then do
      let a ← fieldsRefer name (w.layers L).fields
      let b ← layersRefer w name rest
      pure (a || b)
    else layersRefer w name rest

/-- `doc.remove_layer(name, fieldcascade)` (model.py:1837-1866). The returned value is `some false` for
`False` and `none` for Python's `None`, which is what the code returns after removing. -/
def removeLayer (w : World) (name : Str) (cascade : Bool) : World × Except PyErr (Option Bool) :=
  if (dget w.dl name).isNone then (w, .ok (some false))
  else match w.layersRefer name w.dl with
    | .error e => (w, .error e)
    | .ok refs =>
      if !cascade && refs then (w, .error .dataValidation)
      else ({ w with dl := ddel w.dl name }, .ok none)

/-! ### compile -/

/-- loop at model.py:1952-1957 over the fields of one layer: the `layer` and `context` options used. -/
def fieldRefs : Dict Str DataType → Except PyErr (List Value × List Value)
  | [] => .ok ([], [])
  | (_, t) :: rest =>
    match t.tname with
    | .noderef | .noderefMany | .nodespan => do
      let v ← t.opt "layer"
      let r ← fieldRefs rest
      pure (v :: r.1, r.2)
    | .span => do
      let v ← t.opt "context"
      let r ← fieldRefs rest
      pure (r.1, v :: r.2)
    | _ => fieldRefs rest

/-- loop at model.py:1951-1957 over the layers. Python collects sets; only membership matters. -/
def schemaRefs (w : World) : Dict Str LayerId → Except PyErr (List Value × List Value)
  | [] => .ok ([], [])
  | (_, L) :: rest => do
    let a ← fieldRefs (w.layers L).fields
    let b ← schemaRefs w rest
    pure (a.1 ++ b.1, a.2 ++ b.2)

/-- is the value the name of an entry of a dict keyed by names (`layer not in self.layers`) -/
def nameIn {ν} (d : Dict Str ν) (v : Value) : Bool :=
  match v with
  | .str s => (dget d s).isSome
  | _ => false

/-- `set.add` -/
def sadd (s : List Int) (x : Int) : List Int := if x ∈ s then s else s ++ [x]

/-- validation of the nodes of one layer (model.py:1985-1993). -/
def compileValidate (w : World) (L : LayerId) : List (Option NodeId) → Except PyErr Unit
  | [] => .ok ()
  | none :: _ => .error .type
  | some n :: ns =>
    match w.validate L n with
    | .error e => .error e
    | .ok () =>
      if (dkeys (w.nodes n).fields).all (fun k => decide (k ∈ dkeys (w.layers L).fields))
      then compileValidate w L ns
      else .error .schemaValidation

/-- offsets of one span field over the nodes (model.py:2000-2005). A value that is not a TextSpan has no
`start`. -/
def spanOffsets (w : World) (f : Str) : List (Option NodeId) → List Int → Except PyErr (List Int)
  | [], s => .ok s
  | none :: _, _ => .error .type
  | some n :: ns, s =>
    match dget (w.nodes n).fields f with
    | none => spanOffsets w f ns s
    | some (.span _ a b) => spanOffsets w f ns (sadd (sadd s a) b)
    | some _ => .error .attribute

/-- offsets of the span fields of one layer (model.py:1996-2005). -/
def layerOffsets (w : World) (L : LayerId) : Dict Str DataType → Dict Str (List Int) →
    Except PyErr (Dict Str (List Int))
  | [], offs => .ok offs
  | (f, t) :: rest, offs =>
    if t.tname = .span then
      match dget t.options "context".toList with
      | some (.str c) =>
        match dget offs c with
        | none => .error .key
        | some s =>
          match spanOffsets w f (w.iter L) s with
          | .error e => .error e
          | .ok s' => layerOffsets w L rest (dset offs c s')
      | _ => .error .key
    else layerOffsets w L rest offs

/-- ids from enumeration, then `compact()` (model.py:1975-1981). -/
def compileIds (w : World) (L : LayerId) : World :=
  let w := { w with nodes := assignIds w.nodes 0 ((w.iter L).take (w.len L).toNat) }
  w.compact L

/-- the loop over the layers (model.py:1974-2005). -/
def compileLayers (extraOk typeVal : Bool) (w : World) (offs : Dict Str (List Int)) :
    Dict Str LayerId → World × Except PyErr (Dict Str (List Int))
  | [] => (w, .ok offs)
  | (_, L) :: rest =>
    let w := w.compileIds L
    match (if typeVal && !extraOk then w.compileValidate L (w.iter L) else .ok ()) with
    | .error e => (w, .error e)
    | .ok () =>
      match w.layerOffsets L (w.layers L).fields offs with
      | .error e => (w, .error e)
      | .ok offs => compileLayers extraOk typeVal w offs rest

/-- `doc.compile(extra_fields_ok, type_validation)` (model.py:1937-2016). The result maps each text name
to its sorted offsets; the Python result also contains the inverse dict `{offset: index}`, which is
determined by the list. -/
def compile (w : World) (extraOk typeVal : Bool) : World × Except PyErr (Dict Str (List Int)) :=
  match w.schemaRefs w.dl with
  | .error e => (w, .error e)
  | .ok (ls, ts) =>
    if !ls.all (nameIn w.dl) then (w, .error .schema)
    else if !ts.all (nameIn w.dt) then (w, .error .schema)
    else
      match compileLayers extraOk typeVal w (w.dt.map (fun e => (e.1, []))) w.dl with
      | (w, .error e) => (w, .error e)
      | (w, .ok offs) =>
        (w, .ok (w.dt.map (fun e =>
          (e.1, sortedInts (sadd (sadd ((dget offs e.1).getD []) 0) (w.texts e.2).text.length)))))

/-- the dict `{offset: index}` of one text (model.py:2014) -/
def offsetIndex (offs : List Int) : Dict Int Nat := offs.zipIdx

end World
end Verif
