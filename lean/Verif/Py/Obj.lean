import Verif.Py.Basic
/-
Plain Python data as `msgpack` and `json` handle it: None, bool, int, float, str, bytes, list, dict.
-/
namespace Verif

/-- byte strings -/
abbrev Bytes := List UInt8

/-- Plain data. Floats are 64-bit patterns. `map` is a dict with `str` keys (other key types are not
modelled: msgpack's Unpacker refuses them, except bytes, by its `strict_map_key` default). -/
inductive Obj
  | nil
  | bool (b : Bool)
  | int (i : Int)
  | float (bits : UInt64)
  | str (s : Str)
  | bin (b : Bytes)
  | arr (l : List Obj)
  | map (l : List (Str × Obj))
  deriving Repr

namespace Obj

mutual
/-- structural equality -/
def beq : Obj → Obj → Bool
  | .nil, .nil => true
  | .bool a, .bool b => decide (a = b)
  | .int a, .int b => decide (a = b)
  | .float a, .float b => decide (a = b)
  | .str a, .str b => decide (a = b)
  | .bin a, .bin b => decide (a = b)
  | .arr a, .arr b => beqL a b
  | .map a, .map b => beqM a b
  | _, _ => false
def beqL : List Obj → List Obj → Bool
  | [], [] => true
  | x :: xs, y :: ys => beq x y && beqL xs ys
  | _, _ => false
def beqM : List (Str × Obj) → List (Str × Obj) → Bool
  | [], [] => true
  | (j, x) :: xs, (k, y) :: ys => decide (j = k) && (beq x y && beqM xs ys)
  | _, _ => false
end

mutual
theorem beq_iff : ∀ a b : Obj, beq a b = true ↔ a = b
  | .nil, b => by cases b <;> simp [beq]
  | .bool _, b => by cases b <;> simp [beq]
  | .int _, b => by cases b <;> simp [beq]
  | .float _, b => by cases b <;> simp [beq]
  | .str _, b => by cases b <;> simp [beq]
  | .bin _, b => by cases b <;> simp [beq]
  | .arr l, b => by cases b <;> simp [beq]; exact beqL_iff l _
  | .map l, b => by cases b <;> simp [beq]; exact beqM_iff l _
theorem beqL_iff : ∀ a b : List Obj, beqL a b = true ↔ a = b
  | [], b => by cases b <;> simp [beqL]
  | x :: xs, b => by
    cases b with
    | nil => simp [beqL]
    | cons y ys => simp [beqL, beq_iff x y, beqL_iff xs ys]
theorem beqM_iff : ∀ a b : List (Str × Obj), beqM a b = true ↔ a = b
  | [], b => by cases b <;> simp [beqM]
  | (j, x) :: xs, b => by
    cases b with
    | nil => simp [beqM]
    | cons e ys => obtain ⟨k, y⟩ := e; simp [beqM, beq_iff x y, beqM_iff xs ys, and_assoc]
end

instance : DecidableEq Obj := fun a b => decidable_of_iff _ (beq_iff a b)

mutual
/-- dicts have distinct keys, at every level -/
def KeysOk : Obj → Prop
  | .arr l => KeysOkL l
  | .map l => (l.map (·.1)).Nodup ∧ KeysOkM l
  | _ => True
def KeysOkL : List Obj → Prop
  | [] => True
  | x :: xs => KeysOk x ∧ KeysOkL xs
def KeysOkM : List (Str × Obj) → Prop
  | [] => True
  | (_, x) :: xs => KeysOk x ∧ KeysOkM xs
end

end Obj
end Verif
