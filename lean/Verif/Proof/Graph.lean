import Verif.Model.Graph
/- Helper lemmas about the graph searches: the fuel bound and the shape of the loops. -/
namespace Verif
namespace Graph
set_option linter.unusedSimpArgs false

variable {α : Type} [DecidableEq α]

/-- children still to be pushed: the out-degrees of the nodes not yet visited -/
def pend (children : α → List α) : List α → List α → Nat
  | [], _ => 0
  | v :: V, vis => (if v ∈ vis then 0 else (children v).length) + pend children V vis

theorem pend_mono (children : α → List α) (V vis : List α) (n : α) :
    pend children V (n :: vis) ≤ pend children V vis := by
  induction V with
  | nil => simp [pend]
  | cons v V ih =>
    simp only [pend, List.mem_cons]
    by_cases h1 : v ∈ vis
    · simp [h1]; exact ih
    · by_cases h2 : v = n
      · simp [h1, h2]; omega
      · simp [h1, h2]; exact ih

theorem pend_step (children : α → List α) (V vis : List α) (n : α) (hV : n ∈ V) (hn : n ∉ vis) :
    pend children V (n :: vis) + (children n).length ≤ pend children V vis := by
  induction V with
  | nil => simp at hV
  | cons v V ih =>
    simp only [pend, List.mem_cons]
    by_cases h2 : v = n
    · subst h2
      have := pend_mono children V vis v
      simp [hn]; omega
    · have hV' : n ∈ V := by
        cases hV with
        | head => exact absurd rfl h2
        | tail _ h => exact h
      have := ih hV'
      by_cases h1 : v ∈ vis
      · simp [h1]; exact this
      · simp [h1, h2]; omega

theorem pend_nil (children : α → List α) (V : List α) :
    pend children V [] = (V.map (fun v => (children v).length)).sum := by
  induction V with
  | nil => rfl
  | cons v V ih => simp [pend, ih]

end Graph
end Verif
