/-
Python's stable `list.sort(key=...)` on keys that are pairs of integers, as insertion sort.
-/
namespace Verif

/-- `a <= b` on tuples of two ints -/
def keyLe (a b : Int × Int) : Bool := decide (a.1 < b.1) || (decide (a.1 = b.1) && decide (a.2 ≤ b.2))

/-- put `x` before everything with a key at least as large -/
def insertKey {α : Type} (x : (Int × Int) × α) : List ((Int × Int) × α) → List ((Int × Int) × α)
  | [] => [x]
  | y :: l => if keyLe x.1 y.1 then x :: y :: l else y :: insertKey x l

/-- `l.sort(key=lambda tup: tup[0])`: sorted by key, equal keys in their former order -/
def sortByKey {α : Type} : List ((Int × Int) × α) → List ((Int × Int) × α)
  | [] => []
  | x :: l => insertKey x (sortByKey l)

theorem keyLe_iff (a b : Int × Int) : keyLe a b = true ↔ a.1 < b.1 ∨ (a.1 = b.1 ∧ a.2 ≤ b.2) := by
  simp [keyLe]

theorem keyLe_trans {a b c : Int × Int} (h1 : keyLe a b = true) (h2 : keyLe b c = true) : keyLe a c = true := by
  rw [keyLe_iff] at *; omega

theorem keyLe_total (a b : Int × Int) (h : ¬ keyLe a b = true) : keyLe b a = true := by
  rw [keyLe_iff] at *; omega

theorem insertKey_perm {α : Type} (x : (Int × Int) × α) (l) : (insertKey x l).Perm (x :: l) := by
  induction l with
  | nil => exact List.Perm.refl _
  | cons y l ih =>
    simp only [insertKey]
    split
    · exact List.Perm.refl _
    · exact (List.Perm.cons y ih).trans (List.Perm.swap x y l)

theorem sortByKey_perm {α : Type} (l : List ((Int × Int) × α)) : (sortByKey l).Perm l := by
  induction l with
  | nil => exact List.Perm.refl _
  | cons x l ih => exact (insertKey_perm x _).trans (List.Perm.cons x ih)

theorem insertKey_sorted {α : Type} (x : (Int × Int) × α) (l)
    (h : l.Pairwise (fun a b => keyLe a.1 b.1 = true)) :
    (insertKey x l).Pairwise (fun a b => keyLe a.1 b.1 = true) := by
  induction l with
  | nil => simp [insertKey]
  | cons y l ih =>
    rw [List.pairwise_cons] at h
    simp only [insertKey]
    split
    · rename_i hxy
      refine List.pairwise_cons.2 ⟨fun z hz => ?_, List.pairwise_cons.2 h⟩
      rcases List.mem_cons.1 hz with rfl | hz
      · exact hxy
      · exact keyLe_trans hxy (h.1 z hz)
    · rename_i hxy
      refine List.pairwise_cons.2 ⟨fun z hz => ?_, ih h.2⟩
      rcases List.mem_cons.1 ((insertKey_perm x l).mem_iff.1 hz) with rfl | hz
      · exact keyLe_total _ _ hxy
      · exact h.1 z hz

theorem sortByKey_sorted {α : Type} (l : List ((Int × Int) × α)) :
    (sortByKey l).Pairwise (fun a b => keyLe a.1 b.1 = true) := by
  induction l with
  | nil => exact List.Pairwise.nil
  | cons x l ih => exact insertKey_sorted x _ ih

end Verif
