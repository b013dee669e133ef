import Verif.Model.Sweep
/- Helper lemmas about sorted mark lists and the marks of span_translate. -/
namespace Verif
set_option linter.unusedSimpArgs false

/-- what is known at one element of a sorted list without repetitions -/
theorem sorted_at {α : Type} {evs done todo : List ((Int × Int) × α)} {m : (Int × Int) × α}
    (hs : evs.Pairwise (fun a b => keyLe a.1 b.1 = true)) (hn : evs.Nodup) (he : evs = done ++ m :: todo) :
    (∀ x ∈ done, keyLe x.1 m.1 = true) ∧ (∀ x ∈ todo, keyLe m.1 x.1 = true) ∧ m ∉ done ∧ m ∈ evs ∧
    (∀ x ∈ evs, x ∉ done → x = m ∨ x ∈ todo) ∧ evs = (done ++ [m]) ++ todo := by
  subst he
  refine ⟨fun x hx => (List.pairwise_append.1 hs).2.2 x hx m (by simp), fun x hx =>
    (List.pairwise_cons.1 (List.pairwise_append.1 hs).2.1).1 x hx,
    fun h => (List.nodup_append.1 hn).2.2 m h m (by simp) rfl, by simp, ?_, by simp⟩
  intro x hx hxd
  rcases List.mem_append.1 hx with h | h
  · exact absurd h hxd
  · exact List.mem_cons.1 h

namespace World

/-- the marks of a mapping node -/
def mStart (sa : Nat → Int) (m : Nat) : TMark := ((sa m, 0), (false, m))
/-- its end mark -/
def mStop (sb : Nat → Int) (m : Nat) : TMark := ((sb m, -1), (false, m))
/-- the marks of a remapped node -/
def rStart (a : Nat → Int) (r : Nat) : TMark := ((a r, 1), (true, r))
/-- its last-character mark -/
def rStop (b : Nat → Int) (r : Nat) : TMark := ((b r - 1, 2), (true, r))

theorem mappingMarks_eq (w : World) (source : Str) (sa sb : Nat → Int) (ms : List Nat)
    (h : ∀ m ∈ ms, w.spanOf! m source = .ok (sa m, sb m)) :
    w.mappingMarks source (ms.map some) = .ok (ms.flatMap (fun m => [mStart sa m, mStop sb m])) := by
  induction ms with
  | nil => rfl
  | cons m ms ih =>
    simp only [List.map_cons, mappingMarks, h m (by simp), ih (fun x hx => h x (List.mem_cons_of_mem _ hx)),
      List.flatMap_cons, mStart, mStop]
    rfl

theorem remapMarks_eq (w : World) (source target : Str) (a b : Nat → Int) (rs : List Nat)
    (h : ∀ r ∈ rs, dget (w.nodes r).fields target = none → w.spanOf! r source = .ok (a r, b r)) :
    w.remapMarks source target (rs.map some) =
      .ok ((rs.filter (fun r => (dget (w.nodes r).fields target).isNone)).flatMap
        (fun r => [rStart a r, rStop b r])) := by
  induction rs with
  | nil => rfl
  | cons r rs ih =>
    have ih := ih (fun x hx => h x (List.mem_cons_of_mem _ hx))
    cases hd : dget (w.nodes r).fields target with
    | some v =>
      simp only [List.map_cons, remapMarks, hd, Option.isSome_some, if_true, ih, List.filter_cons, Option.isNone_some,
        Bool.false_eq_true, if_false]
    | none =>
      simp only [List.map_cons, remapMarks, hd, Option.isSome_none, Bool.false_eq_true, if_false, ih,
        List.filter_cons, Option.isNone_none, if_true, h r (by simp) hd, List.flatMap_cons, rStart, rStop]
      rfl

/-- two marks each for nodes without repetition: no repetition -/
theorem flatMap_two_nodup {β : Type} (f g : Nat → β) (node : β → Nat) (hf : ∀ n, node (f n) = n)
    (hg : ∀ n, node (g n) = n) (hfg : ∀ n, f n ≠ g n) (l : List Nat) (hl : l.Nodup) :
    (l.flatMap (fun n => [f n, g n])).Nodup := by
  induction l with
  | nil => simp
  | cons x l ih =>
    rw [List.nodup_cons] at hl
    rw [List.flatMap_cons, List.nodup_append]
    refine ⟨by simp [hfg], ih hl.2, ?_⟩
    intro y hy z hz hyz
    subst hyz
    obtain ⟨n, hn, hm⟩ := List.mem_flatMap.1 hz
    have h1 : node y = x := by
      simp only [List.mem_cons, List.not_mem_nil, or_false] at hy
      rcases hy with rfl | rfl
      · exact hf x
      · exact hg x
    have h2 : node y = n := by
      simp only [List.mem_cons, List.not_mem_nil, or_false] at hm
      rcases hm with rfl | rfl
      · exact hf n
      · exact hg n
    exact hl.1 (by rw [← h1, h2]; exact hn)

end World
end Verif
