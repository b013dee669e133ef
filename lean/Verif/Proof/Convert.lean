import Verif.Model.Codec
/-
What the encoders write for values of another type: one entry, of the kind that the declared type asks for.
-/
namespace Verif
set_option linter.unusedSimpArgs false

/-- the kinds of column entries of each type -/
inductive WireKind : TName → Obj → Prop
  | nil {t} : WireKind t .nil
  | int {t i} : t = .i32 ∨ t = .i64 → WireKind t (.int i)
  | float {x} : WireKind .f64 (.float x)
  | bool {b} : WireKind .bool (.bool b)
  | str {s} : WireKind .string (.str s)
  | bin {b} : WireKind .binary (.bin b)
  | node {i} : WireKind .noderef (.int i)
  | nodes {is : List Int} : WireKind .noderefMany (.arr (is.map .int))
  | pair {i j} : WireKind .nodespan (.arr [.int i, .int j])
  | span {i : Nat} : WireKind .span (.int i)

namespace World

theorem nodeIs_map {w : World} {ns : List NodeId} {l} (h : w.nodeIs ns = .ok l) : ∃ is : List Int, l = is.map .int := by
  induction ns generalizing l with
  | nil => cases h; exact ⟨[], rfl⟩
  | cons n ns ih =>
    simp only [nodeIs, mapE] at h
    split at h
    · cases h
    · rename_i y hy
      split at hy
      · cases hy
        split at h
        · cases h
        · rename_i i _ _ ys hys
          cases h
          obtain ⟨is, rfl⟩ := ih hys
          exact ⟨i :: is, rfl⟩
      · cases hy

theorem encodeOther_kind {w : World} {t v l} (h : w.encodeOther t v = .ok l) : t ≠ .span ∧ ∃ o, l = [o] ∧ WireKind t o := by
  unfold encodeOther at h
  split at h
  · split at h <;> cases h; exact ⟨by decide, _, rfl, .int (.inl rfl)⟩
  · split at h <;> cases h; exact ⟨by decide, _, rfl, .int (.inr rfl)⟩
  · split at h <;> cases h; exact ⟨by decide, _, rfl, .float⟩
  · split at h <;> cases h; exact ⟨by decide, _, rfl, .bool⟩
  · split at h <;> cases h; exact ⟨by decide, _, rfl, .str⟩
  · split at h <;> cases h; exact ⟨by decide, _, rfl, .bin⟩
  · split at h
    · cases h; exact ⟨by decide, _, rfl, .nil⟩
    · split at h
      · rename_i hn
        cases h
        obtain ⟨is, rfl⟩ := nodeIs_map hn
        exact ⟨by decide, _, rfl, .nodes⟩
      · cases h
    · cases h
  · split at h
    · cases h; exact ⟨by decide, _, rfl, .nil⟩
    · split at h
      · cases h
      · cases h; exact ⟨by decide, _, rfl, .nodes (is := [])⟩
    · cases h
  · split at h
    · cases h; exact ⟨by decide, _, rfl, .nil⟩
    · cases h
    · cases h
  · split at h
    · cases h; exact ⟨by decide, _, rfl, .pair⟩
    · cases h
    · cases h
  · cases h
  · cases h

/-- what is written for one value: entries of the declared kind -/
theorem encodeCell_kind {w : World} {idx t v l} (h : w.encodeCell idx t v = .ok l) : ∀ o ∈ l, WireKind t o := by
  unfold encodeCell at h
  split at h <;>
    first
    | (obtain ⟨-, o, rfl, ho⟩ := encodeOther_kind h; intro o' h'; simp at h'; subst h'; exact ho)
    | ((try split at h) <;> cases h <;> intro o ho <;> simp at ho <;>
        first
        | (subst ho; first | exact .nil | exact .int (.inl rfl) | exact .int (.inr rfl) | exact .float | exact .bool | exact .str | exact .bin | exact .node | exact .pair | (rename_i hn; obtain ⟨is, rfl⟩ := nodeIs_map hn; exact .nodes))
        | (rcases ho with rfl | rfl <;> exact .span))

end World
end Verif
