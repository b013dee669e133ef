import Verif.Model.Codec
/-
Histories of API calls on one heap.
-/
namespace Verif

/-- One call of the public API that mutates nodes, layers or the document. -/
inductive Op
  | newNode (fields : Dict Str Value)                                -- Node(**fields)
  | setField (n : NodeId) (k : Str) (v : Value)                      -- n[k] = v
  | delField (n : NodeId) (k : Str)                                  -- del n[k]
  | add (L : LayerId) (ns : List NodeId)                             -- layer.add(*ns)
  | addNew (L : LayerId) (kw : Dict Str Value)                       -- layer.add(**kw)
  | addMany (L : LayerId) (ns : List NodeId) (fill val : Bool)       -- layer.add_many(ns, fill, val)
  | remove (L : LayerId) (n : NodeId)                                -- layer.remove(n)
  | removeMany (L : LayerId) (ns : List (Option NodeId))             -- layer.remove(ns)
  | detach (n : NodeId)                                              -- n.detach()
  | retain (L : LayerId) (ns : List NodeId)                          -- layer.retain(ns)
  | sort (L : LayerId) (le : NodeId → NodeId → Bool)                 -- layer.sort(key)
  | compact (L : LayerId)                                            -- layer.compact()
  | addLayer (name : Str) (fields : Dict Str DataType)               -- doc.add_layer(name, **fields)
  | addText (name text : Str)                                        -- doc.add_text(name, text)
  | setProp (k : Str) (v : Value)                                    -- doc.props[k] = v
  | addField (L : LayerId) (name : Str) (t : DataType) (init : Bool) -- layer.add_field(name, t, init)
  | removeField (L : LayerId) (name : Str) (leave : Bool)            -- layer.remove_field(name, leave)
  | removeLayer (name : Str) (cascade : Bool)                        -- doc.remove_layer(name, cascade)
  | compile (extraOk typeVal : Bool)                                 -- doc.compile(...) / encoding

namespace World

/-- the exception of an `Except` -/
def errOf {α} : Except PyErr α → Option PyErr
  | .ok _ => none
  | .error e => some e

/-- Run one call. -/
def exec (w : World) : Op → Res
  | .newNode f => ((w.newNode f).1, none)
  | .setField n k v => (w.setField n k v, none)
  | .delField n k => if (dget (w.nodes n).fields k).isSome then (w.delField n k, none) else (w, some .key)
  | .add L ns => (w.addNodes L ns, none)
  | .addNew L kw => ((w.addNew L kw).1, errOf (w.addNew L kw).2)
  | .addMany L ns fill val => w.addMany L ns fill val
  | .remove L n => w.remove L n
  | .removeMany L ns => w.removeMany L ns
  | .detach n => w.detach n
  | .retain L ns => w.retain L ns
  | .sort L le => w.sort L le
  | .compact L => (w.compact L, none)
  | .addLayer name f => ((w.addLayer name f).1, none)
  | .addText name t => ((w.addText name t).1, none)
  | .setProp k v => ({ w with props := dset w.props k v }, none)
  | .addField L name t init => w.addField L name t init
  | .removeField L name leave => ((w.removeField L name leave).1, none)
  | .removeLayer name c => ((w.removeLayer name c).1, errOf (w.removeLayer name c).2)
  | .compile x t => ((w.compile x t).1, errOf (w.compile x t).2)

/-- Side conditions on a call: dict arguments have distinct keys (always so in Python); layers and nodes handed to appending calls exist; `add(*nodes)` gets
distinct dangling nodes (the code does not check); `retain` did not raise (a raising `retain` leaves its
marks behind, see `C10_failed_retain_breaks`); sort keys are totally preordered. -/
def Allowed (w : World) : Op → Prop
  | .add L ns => L < w.nextL ∧ ns.Nodup ∧ ∀ n ∈ ns, n < w.nextN ∧ w.isDangling n = true
  | .addNew L kw => L < w.nextL ∧ (dkeys kw).Nodup
  | .newNode f => (dkeys f).Nodup
  | .addLayer _ f => (dkeys f).Nodup
  | .addMany L ns _ _ => L < w.nextL ∧ ∀ n ∈ ns, n < w.nextN
  | .setField n _ _ => n < w.nextN
  | .retain L ns => (w.retain L ns).2 = none
  | .sort _ le => (∀ a b c, le a b = true → le b c = true → le a c = true) ∧ (∀ a b, (le a b || le b a) = true)
  | _ => True

end World

/-- `Hist w0 h w`: the calls of `h` (each with whether it raised) lead from `w0` to `w`. -/
inductive Hist (w0 : World) : List (Op × Bool) → World → Prop
  | nil : Hist w0 [] w0
  | snoc {h w op} : Hist w0 h w → w.Allowed op → Hist w0 (h ++ [(op, (w.exec op).2.isSome)]) (w.exec op).1

/-- how a document comes into being: `Document()`, or decoding -/
def Started (w0 : World) : Prop := w0 = World.empty ∨ ∃ x, fromWire x = .ok w0

/-- `w` is reachable through the API. -/
def Reachable (w : World) : Prop := ∃ w0 h, Started w0 ∧ Hist w0 h w

end Verif

namespace Verif
namespace World

/-- run a list of calls, ignoring exceptions (used for concrete cases) -/
def run (w : World) : List Op → World
  | [] => w
  | op :: ops => run (w.exec op).1 ops

/-- decidable sufficient condition for `Allowed` (used for concrete cases) -/
def allowedB (w : World) : Op → Bool
  | .add L ns => decide (L < w.nextL ∧ ns.Nodup ∧ ∀ n ∈ ns, n < w.nextN ∧ w.isDangling n = true)
  | .addNew L kw => decide (L < w.nextL ∧ (dkeys kw).Nodup)
  | .newNode f => decide ((dkeys f).Nodup)
  | .addLayer _ f => decide ((dkeys f).Nodup)
  | .addMany L ns _ _ => decide (L < w.nextL ∧ ∀ n ∈ ns, n < w.nextN)
  | .setField n _ _ => decide (n < w.nextN)
  | .retain L ns => decide ((w.retain L ns).2 = none)
  | .sort _ _ => false
  | _ => true

/-- all calls of a run are allowed -/
def allowedRun (w : World) : List Op → Bool
  | [] => true
  | op :: ops => w.allowedB op && allowedRun (w.exec op).1 ops

theorem allowedB_sound {w : World} {op : Op} (h : w.allowedB op = true) : w.Allowed op := by
  cases op <;> simp_all [allowedB, Allowed]

theorem hist_run {w0 h w} (hh : Hist w0 h w) (ops : List Op) (ha : w.allowedRun ops = true) :
    ∃ h', Hist w0 h' (w.run ops) := by
  induction ops generalizing h w with
  | nil => exact ⟨h, hh⟩
  | cons op ops ih =>
    simp only [allowedRun, Bool.and_eq_true] at ha
    exact ih (.snoc hh (allowedB_sound ha.1)) ha.2

theorem reachable_run (ops : List Op) (ha : World.empty.allowedRun ops = true) :
    Reachable (World.empty.run ops) :=
  have ⟨h, hh⟩ := hist_run .nil ops ha
  ⟨_, h, .inl rfl, hh⟩

end World
end Verif
