import Verif.Model.Iterate
import Verif.Proof.Layer
/-
Loops over a layer that remove nodes.
-/
set_option linter.unusedSimpArgs false
namespace Verif
namespace World

/-- what an iterator at position `i` has yet to give, if nothing changes -/
def ahead (w : World) (L : LayerId) (i : Nat) : List NodeId := live ((w.layers L).slots.drop i)

/-- an iterator that gives nodes only -/
structure Steady (w : World) (it : LayerIter) (i : Nat) : Prop where
  pos : it.pos = some i
  clean : it.filtered = true ∨ none ∉ (w.layers it.layer).slots.drop i

theorem live_cons_some (n : NodeId) (s : List (Option NodeId)) : live (some n :: s) = n :: live s := rfl
theorem live_cons_none (s : List (Option NodeId)) : live (none :: s) = live s := rfl

theorem skipNone_spec (i : Nat) (s : List (Option NodeId)) :
    (live s = [] ∧ skipNone i s = none) ∨ ∃ n j, live s = n :: live (s.drop (j - i)) ∧ i < j ∧ skipNone i s = some (n, j) ∧ s[j - i - 1]? = some (some n) := by
  induction s generalizing i with
  | nil => left; exact ⟨rfl, rfl⟩
  | cons x s ih =>
    cases x with
    | none =>
      rcases ih (i + 1) with ⟨h1, h2⟩ | ⟨n, j, h1, h2, h3, h4⟩
      · left; exact ⟨h1, h2⟩
      · right
        refine ⟨n, j, ?_, by omega, h3, ?_⟩
        · rw [live_cons_none, h1, show j - i = (j - (i + 1)) + 1 by omega, List.drop_succ_cons]
        · rw [show j - i - 1 = (j - (i + 1) - 1) + 1 by omega, List.getElem?_cons_succ]; exact h4
    | some n =>
      right
      refine ⟨n, i + 1, ?_, by omega, rfl, ?_⟩
      · rw [show i + 1 - i = 1 by omega]; rfl
      · rw [show i + 1 - i - 1 = 0 by omega]; rfl

/-- one step of an iterator that gives nodes only -/
theorem next_good {w : World} {it : LayerIter} {i : Nat} (g : Steady w it i) :
    (w.ahead it.layer i = [] ∧ (w.iterNext it).1 = none) ∨
    ∃ n j, w.ahead it.layer i = n :: w.ahead it.layer j ∧ i < j ∧ j ≤ (w.layers it.layer).slots.length ∧
      (w.layers it.layer).slots[j - 1]? = some (some n) ∧
      w.iterNext it = (some (some n), ⟨it.layer, it.filtered, some j⟩) := by
  unfold iterNext ahead
  simp only [g.pos]
  cases hf : it.filtered with
  | true =>
    simp only [if_true]
    rcases skipNone_spec i ((w.layers it.layer).slots.drop i) with ⟨h1, h2⟩ | ⟨n, j, h1, h2, h3, h4⟩
    · left; simp only [h1, h2, true_and]
    · right
      rw [List.getElem?_drop, show i + (j - i - 1) = j - 1 by omega] at h4
      refine ⟨n, j, ?_, h2, ?_, h4, by rw [h3]⟩
      · rw [h1, List.drop_drop, show i + (j - i) = j by omega]
      · have := (List.getElem?_eq_some_iff.mp h4).1; omega
  | false =>
    have hc : none ∉ (w.layers it.layer).slots.drop i := by rcases g.clean with h | h; rw [hf] at h; cases h; exact h
    simp only [Bool.false_eq_true, if_false]
    cases hx : (w.layers it.layer).slots[i]? with
    | none =>
      left
      rw [List.getElem?_eq_none_iff] at hx
      rw [List.drop_eq_nil_of_le hx]
      exact ⟨rfl, rfl⟩
    | some x =>
      obtain ⟨hlt, he⟩ := List.getElem?_eq_some_iff.mp hx
      have hd : (w.layers it.layer).slots.drop i = x :: (w.layers it.layer).slots.drop (i + 1) := by
        rw [List.drop_eq_getElem_cons hlt, he]
      cases x with
      | none => exact absurd (by rw [hd]; simp) hc
      | some n =>
        right
        refine ⟨n, i + 1, by rw [hd]; rfl, by omega, by omega, by simpa using hx, ?_⟩
        cases it; simp_all

/-- what `remove` of the node at position `j - 1` does to the list -/
theorem removeCore_slots {w : World} (h : Inv w) {L : LayerId} {n : NodeId} {a : Nat} (hs : (w.layers L).slots[a]? = some (some n)) :
    ∃ w', w.removeCore L n = (w', none) ∧ Inv w' ∧ (w'.layers L).slots = (w.layers L).slots.set a none := by
  obtain ⟨hc, hid⟩ := h.slot L a n hs
  have hlt := (List.getElem?_eq_some_iff.mp hs).1
  rcases removeCore_spec h L n with ⟨h1, -⟩ | ⟨-, w', h1, h2, -⟩
  · exact absurd hc h1
  · refine ⟨w', h1, h2, ?_⟩
    have hclear : clearSlot (w.layers L).slots (w.nodes n).id = .ok ((w.layers L).slots.set a none) := by
      simp only [clearSlot, hid]
      rw [if_neg (by omega : ¬ (a : Int) < 0), if_pos (by omega)]; simp
    simp only [removeCore, hc, ne_eq, not_true_eq_false, if_false, hclear] at h1
    injection h1 with h1
    rw [← h1]
    simp [setNum, setSlots, setColl, modNode, modLayer]

theorem autoCompact_slots {w : World} (h : Inv w) (L : LayerId) :
    (w.autoCompact L = w ∨ ((w.autoCompact L).layers L).slots = (live (w.layers L).slots).map some) ∧
    ((w.layers L).slots.length ≤ 16 ∨ 3 * (w.layers L).slots.length ≤ 4 * (live (w.layers L).slots).length → w.autoCompact L = w) := by
  unfold autoCompact
  refine ⟨?_, fun hc => ?_⟩
  · split
    · right; rw [compact_eq h]; simp
    · left; rfl
  · rw [if_neg]
    have := h.num L
    omega

end World
end Verif
