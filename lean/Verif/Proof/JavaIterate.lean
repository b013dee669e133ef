import Verif.Model.JavaIterate
import Verif.Props.JavaLayer
/-
Loops over a layer of the Java library.
-/
set_option linter.unusedSimpArgs false
namespace Verif
open JLayer

/-- what a loop at slot `i` has still to come to -/
def jahead (v : Watch) (s : JLayer) (i : Nat) : List Nat := ((v.slots s).drop i).filterMap id

theorem compact_packed {s : JLayer} {l : List Nat} (h : JLW s l) :
    s.compact.1 = if s.packed.sparse then { s.packed with storage := l.map some } else s.packed := by
  have hst := compactLoop_storage s.storage.length 0 0 s.storage s.ids (by omega) (by omega)
  simp only [List.drop_zero, h.nodes, List.take_zero, List.nil_append, Nat.zero_add] at hst
  have hsz : s.size.toNat = l.length := by rw [h.size]; simp
  have htake : ((l.map some ++ s.storage.drop l.length).take l.length : List (Option Nat)) = l.map some := by
    rw [List.take_append_of_le_length (by simp), List.take_of_length_le (by simp)]
  unfold JLayer.compact JLayer.packed
  simp only
  rw [if_neg (by rw [h.size]; omega)]
  split
  · simp only [hst, hsz, htake]
    rw [List.take_append_of_le_length (by simp), List.take_of_length_le (by simp)]
  · rfl

theorem packed_storage {s : JLayer} {l : List Nat} (h : JLW s l) :
    s.packed.storage = l.map some ++ List.replicate (s.storage.length - l.length) none ∧ l.length ≤ s.storage.length := by
  have hst := compactLoop_storage s.storage.length 0 0 s.storage s.ids (by omega) (by omega)
  simp only [List.drop_zero, h.nodes, List.take_zero, List.nil_append, Nat.zero_add] at hst
  have hlen : l.length ≤ s.storage.length := by rw [← h.nodes]; exact List.length_filterMap_le ..
  have hsz : s.size.toNat = l.length := by rw [h.size]; simp
  refine ⟨?_, hlen⟩
  unfold JLayer.packed
  simp only [hst, hsz]
  rw [List.take_append_of_le_length (by simp), List.take_of_length_le (by simp)]
  congr 2
  simp

theorem packed_length {s : JLayer} {l : List Nat} (h : JLW s l) : s.packed.storage.length = s.storage.length := by
  obtain ⟨h1, h2⟩ := packed_storage h
  rw [h1]; simp; omega

theorem packed_sparse {s : JLayer} {l : List Nat} (h : JLW s l) : s.packed.sparse = s.sparse := by
  have := packed_length h
  unfold JLayer.sparse
  rw [this]; rfl

/-- what is still to come after `compact()`: as many nodes are skipped as there were empty slots before -/
theorem packed_ahead {s : JLayer} {l : List Nat} (h : JLW s l) (i : Nat) (hi : i ≤ s.storage.length) :
    (s.packed.storage.drop i).filterMap id =
      ((s.storage.drop i).filterMap id).drop (i - ((s.storage.take i).filterMap id).length) := by
  obtain ⟨h1, -⟩ := packed_storage h
  have e : l = (s.storage.take i).filterMap id ++ (s.storage.drop i).filterMap id := by
    rw [← List.filterMap_append, List.take_append_drop, h.nodes]
  have hle : ((s.storage.take i).filterMap id).length ≤ i :=
    Nat.le_trans (List.length_filterMap_le ..) (by simp; omega)
  rw [h1, List.drop_append, List.filterMap_append, ← List.map_drop, filterMap_some, List.drop_replicate, filterMap_none, List.append_nil]
  conv => lhs; rw [e]
  rw [List.drop_append, List.drop_eq_nil_of_le hle, List.nil_append]

/-- what the loop sees of `compact()` -/
theorem watch_compact {s : JLayer} {l : List Nat} (h : JLW s l) (v : Watch) (i : Nat) (hi : i ≤ (v.slots s).length) :
    (v.compact s).changed = v.changed ∧ ((v.compact s).slots s.compact.1).length = (v.slots s).length ∧
    (jahead (v.compact s) s.compact.1 i).Sublist (jahead v s i) := by
  unfold Watch.compact
  rw [if_neg (by rw [h.size]; omega)]
  obtain ⟨vl, vc⟩ := v
  cases vl with
  | some st => simp [Watch.slots, jahead]
  | none =>
    have hi : i ≤ s.storage.length := hi
    by_cases hs : s.packed.sparse = true
    · rw [if_pos ⟨hs, rfl⟩]
      refine ⟨rfl, packed_length h, ?_⟩
      show ((s.packed.storage.drop i).filterMap id).Sublist _
      rw [packed_ahead h i hi]
      exact List.drop_sublist ..
    · rw [if_neg (by simp [hs])]
      have e : s.compact.1 = s.packed := by rw [compact_packed h, if_neg hs]
      rw [e]
      refine ⟨rfl, packed_length h, ?_⟩
      show ((s.packed.storage.drop i).filterMap id).Sublist _
      rw [packed_ahead h i hi]
      exact List.drop_sublist ..

theorem set_none_sublist (st : List (Option Nat)) (p : Nat) : ((st.set p none).filterMap id).Sublist (st.filterMap id) := by
  induction st generalizing p with
  | nil => simp
  | cons x st ih =>
    cases p with
    | zero => cases x <;> simp [List.filterMap_cons]
    | succ p =>
      rw [List.set_cons_succ]
      cases x with
      | none => simpa [List.filterMap_cons] using ih p
      | some n => simpa [List.filterMap_cons] using ih p

theorem setAt_ok {st st' : List (Option Nat)} {i : Int} {x : Option Nat} (h : setAt st i x = .ok st') : st' = st.set i.toNat x := by
  unfold setAt at h
  split at h
  · cases h
  · exact (Except.ok.inj h).symm

/-- the layer with the slot of `n` emptied, before `compact()` -/
def emptied (s : JLayer) (n : Nat) : JLayer :=
  { s with storage := s.storage.set (s.ids n).toNat none, lay := upd s.lay n none, size := s.size - 1 }

theorem remove_steps {s : JLayer} {l : List Nat} {n : Nat} (h : JLOk s l) (hn : n ∈ l) :
    JLOk (emptied s n) (l.erase n) ∧ s.remove n = ((emptied s n).shrink.1, .ok ()) ∧ s.removeObject n = ((emptied s n).shrink.1, .ok true) ∧
    ∀ v : Watch, v.remove s n = v.shrink (emptied s n) := by
  obtain ⟨st, h1, h2⟩ := removed h hn
  have e := setAt_ok h1
  subst e
  have hl : s.lay n = some 0 := (h.lay n).mpr hn
  have hk := h2 (emptied s n) rfl rfl rfl rfl
  obtain ⟨g1, -, -⟩ := shrink_ok hk
  refine ⟨hk, ?_, ?_, ?_⟩
  · unfold JLayer.remove
    rw [if_neg (by simp [hl]), h1]
    show (emptied s n).shrink = _
    rw [← g1]
  · unfold JLayer.removeObject
    rw [if_neg (by simp [hl])]
    simp only [h1]
    rw [show ({ s with storage := s.storage.set (s.ids n).toNat none, lay := upd s.lay n none, size := s.size - 1 } : JLayer) = emptied s n from rfl]
    cases hx : (emptied s n).shrink with
    | mk s' a =>
      rw [hx] at g1
      simp only at g1
      rw [g1]
  · intro v
    unfold Watch.remove
    rw [if_neg (by simp [hl]), h1]
    rfl

theorem watch_shrink {s : JLayer} {l : List Nat} (h : JLW s l) (v : Watch) (i : Nat) (hi : i ≤ (v.slots s).length) :
    (v.shrink s).changed = v.changed ∧ ((v.shrink s).slots s.shrink.1).length = (v.slots s).length ∧
    (jahead (v.shrink s) s.shrink.1 i).Sublist (jahead v s i) := by
  unfold Watch.shrink JLayer.shrink
  split
  · exact watch_compact h v i hi
  · exact ⟨rfl, rfl, List.Sublist.refl _⟩

theorem watch_remove {s : JLayer} {l : List Nat} (h : JLOk s l) (v : Watch) (n : Nat) (i : Nat) (hi : i ≤ (v.slots s).length) :
    (v.remove s n).changed = v.changed ∧ ((v.remove s n).slots (s.removeObject n).1).length = (v.slots s).length ∧
    (jahead (v.remove s n) (s.removeObject n).1 i).Sublist (jahead v s i) := by
  by_cases hn : n ∈ l
  · obtain ⟨a, -, b, c⟩ := remove_steps h hn
    rw [b, c]
    have hs : (v.slots (emptied s n)).length = (v.slots s).length ∧ (jahead v (emptied s n) i).Sublist (jahead v s i) := by
      unfold jahead Watch.slots
      cases v.list with
      | some st => simp
      | none =>
        simp only [Option.getD_none, emptied, List.length_set, true_and]
        rw [List.drop_set]
        split
        · exact List.Sublist.refl _
        · exact set_none_sublist _ _
    obtain ⟨q1, q2, q3⟩ := watch_shrink a.toJLW v i (by rw [hs.1]; exact hi)
    exact ⟨q1, by rw [q2, hs.1], q3.trans hs.2⟩
  · have hl : s.lay n ≠ some 0 := by rw [ne_eq, h.lay n]; exact hn
    unfold Watch.remove JLayer.removeObject
    rw [if_pos hl, if_pos hl]
    exact ⟨rfl, rfl, List.Sublist.refl _⟩

theorem remove_same (s : JLayer) (n : Nat) {l : List Nat} (h : JLOk s l) : (s.remove n).1 = (s.removeObject n).1 := by
  by_cases hn : n ∈ l
  · obtain ⟨-, a, b, -⟩ := remove_steps h hn
    rw [a, b]
  · have hl : s.lay n ≠ some 0 := by rw [ne_eq, h.lay n]; exact hn
    unfold JLayer.remove JLayer.removeObject
    rw [if_pos hl, if_pos hl]

theorem watch_removeAll (c : List Nat) : ∀ {s : JLayer} {l : List Nat} (ops : Bool) (v : Watch) (i : Nat), JLOk s l → i ≤ (v.slots s).length →
    (v.removeAll s c).changed = v.changed ∧ ((v.removeAll s c).slots (s.removeAll ops c).1).length = (v.slots s).length ∧
    (jahead (v.removeAll s c) (s.removeAll ops c).1 i).Sublist (jahead v s i) := by
  induction c with
  | nil => intro s l ops v i h hi; exact ⟨rfl, rfl, List.Sublist.refl _⟩
  | cons n c ih =>
    intro s l ops v i h hi
    obtain ⟨g1, g2, -⟩ := removeObject_ok h n
    obtain ⟨q1, q2, q3⟩ := watch_remove h v n i hi
    unfold Watch.removeAll JLayer.removeAll
    cases hx : s.removeObject n with
    | mk s' a =>
      rw [hx] at g1 g2 q2 q3
      simp only at g1 g2 q2 q3
      subst g1
      simp only
      obtain ⟨r1, r2, r3⟩ := ih (ops || decide (n ∈ l)) (v.remove s n) i g2 (by rw [q2]; exact hi)
      exact ⟨r1.trans q1, r2.trans q2, r3.trans q3⟩

/-- what the loop sees of a call that takes nodes away -/
theorem watch_op {s : JLayer} {l : List Nat} (h : JLOk s l) {o : JLayer.Op} (ho : Spec.needsFull o = false) (v : Watch) (i : Nat)
    (hi : i ≤ (v.slots s).length) : (v.op s o).changed = v.changed ∧ ((v.op s o).slots (s.op o).1).length = (v.slots s).length ∧
    (jahead (v.op s o) (s.op o).1 i).Sublist (jahead v s i) := by
  cases o with
  | add n => cases ho
  | clear => cases ho
  | remove n => simp only [Watch.op, JLayer.op]; rw [remove_same s n h]; exact watch_remove h v n i hi
  | removeObject n => exact watch_remove h v n i hi
  | removeAll c => exact watch_removeAll c false v i h hi
  | compact => exact watch_compact h.toJLW v i hi

/-- a call that takes nodes away leaves a layer as it should be -/
theorem op_sound {s : JLayer} {l : List Nat} (h : JLOk s l) {o : JLayer.Op} (ho : Spec.needsFull o = false) :
    ∃ l', l'.Sublist l ∧ JLOk (s.op o).1 l' := by
  cases o with
  | add n => cases ho
  | clear => cases ho
  | remove n => simp only [JLayer.op]; rw [remove_same s n h]; exact ⟨_, List.erase_sublist, (removeObject_ok h n).2.1⟩
  | removeObject n => exact ⟨_, List.erase_sublist, (removeObject_ok h n).2.1⟩
  | removeAll c => exact ⟨_, List.filter_sublist, (removeAll_ok c false h).2.1⟩
  | compact => exact ⟨l, List.Sublist.refl _, (compact_ok h.toJLW).2.1⟩

theorem watch_calls (os : List JLayer.Op) : ∀ {s : JLayer} {l : List Nat} (v : Watch) (i : Nat), JLOk s l → (∀ o ∈ os, Spec.needsFull o = false) →
    i ≤ (v.slots s).length →
    (s.calls v os).2.1.changed = v.changed ∧ ((s.calls v os).2.1.slots (s.calls v os).1).length = (v.slots s).length ∧
    (jahead (s.calls v os).2.1 (s.calls v os).1 i).Sublist (jahead v s i) ∧ ∃ l', l'.Sublist l ∧ JLOk (s.calls v os).1 l' := by
  induction os with
  | nil => intro s l v i h _ _; exact ⟨rfl, rfl, List.Sublist.refl _, l, List.Sublist.refl _, h⟩
  | cons o os ih =>
    intro s l v i h ho hi
    obtain ⟨q1, q2, q3⟩ := watch_op h (ho o (by simp)) v i hi
    obtain ⟨l', p1, p2⟩ := op_sound h (ho o (by simp))
    unfold JLayer.calls
    cases hx : s.op o with
    | mk s' a =>
      rw [hx] at q2 q3 p2
      cases a with
      | error e => exact ⟨q1, q2, q3, l', p1, p2⟩
      | ok a =>
        obtain ⟨r1, r2, r3, l2, r4, r5⟩ := ih (v.op s o) i p2 (fun o' ho' => ho o' (by simp [ho'])) (by rw [q2]; exact hi)
        exact ⟨r1.trans q1, r2.trans q2, r3.trans q3, l2, r4.trans p1, r5⟩

theorem jahead_step {v : Watch} {s : JLayer} {i : Nat} (hi : i < (v.slots s).length) :
    (∃ n, (v.slots s)[i]? = some (some n) ∧ jahead v s i = n :: jahead v s (i + 1)) ∨
    ((v.slots s)[i]? = some none ∧ jahead v s i = jahead v s (i + 1)) := by
  unfold jahead
  rw [List.drop_eq_getElem_cons hi, List.getElem?_eq_getElem hi]
  cases (v.slots s)[i] with
  | none => right; exact ⟨rfl, by simp [List.filterMap_cons]⟩
  | some n => left; exact ⟨n, rfl, by simp [List.filterMap_cons]⟩

/-- a loop that takes nodes away: it is given nodes that were there, each once and in order, and is never interrupted -/
theorem rounds_sub (last : Bool) (body : Nat → Nat → List JLayer.Op) (hb : ∀ i n, ∀ o ∈ body i n, Spec.needsFull o = false) :
    ∀ (todo i : Nat) (s : JLayer) (v : Watch) (l : List Nat), JLOk s l → v.changed = false → (v.slots s).length = i + todo →
    (rounds last body todo i s v).2.1.Sublist (jahead v s i) ∧ (rounds last body todo i s v).2.2 ≠ .concurrent ∧
    ∃ l', l'.Sublist l ∧ JLOk (rounds last body todo i s v).1 l' := by
  intro todo
  induction todo with
  | zero =>
    intro i s v l h hc _
    refine ⟨by simp [rounds], ?_, l, List.Sublist.refl _, h⟩
    simp [rounds, hc]
  | succ todo ih =>
    intro i s v l h hc hlen
    unfold rounds
    rw [if_neg (by simp [hc])]
    rcases jahead_step (v := v) (s := s) (i := i) (by omega) with ⟨n, h1, h2⟩ | ⟨h1, h2⟩
    · rw [h1, h2]
      simp only
      obtain ⟨r1, r2, r3, l', r4, r5⟩ := watch_calls (body i n) v (i + 1) h (hb i n) (by omega)
      cases hx : s.calls v (body i n) with
      | mk s' a =>
        obtain ⟨v', e⟩ := a
        rw [hx] at r1 r2 r3 r5
        cases e with
        | some e => exact ⟨by simp, by simp, l', r4, r5⟩
        | none =>
          simp only at r1 r2 r3 r5 ⊢
          obtain ⟨t1, t2, l2, t3, t4⟩ := ih (i + 1) s' v' l' r5 (r1.trans hc) (by omega)
          exact ⟨(t1.trans r3).cons_cons _, t2, l2, t3.trans r4, t4⟩
    · rw [h1, h2]
      exact ih (i + 1) s v l h hc (by omega)

/-! ### loops that remove the node at hand -/

/-- the body `if (p(n)) layer.remove(n)`, with one of the two `remove` methods -/
def dropBody (rm : Nat → JLayer.Op) (p : Nat → Bool) : Nat → Nat → List JLayer.Op := fun _ n => if p n then [rm n] else []

theorem calls_drop {s : JLayer} {l : List Nat} {n : Nat} {rm : Nat → JLayer.Op} (hr : rm = .remove ∨ rm = .removeObject) (h : JLOk s l) (hn : n ∈ l)
    (v : Watch) : s.calls v [rm n] = ((emptied s n).shrink.1, v.shrink (emptied s n), none) := by
  obtain ⟨-, a, b, c⟩ := remove_steps h hn
  rcases hr with e | e <;> subst e
  · simp only [JLayer.calls, JLayer.op, a, Watch.op, c, Except.map]
  · simp only [JLayer.calls, JLayer.op, b, Watch.op, c, Except.map]

theorem filter_seen_cons {p : Nat → Bool} {l seen : List Nat} {n : Nat} (hp : p n = false) :
    l.filter (fun m => !(p m && decide (m ∈ n :: seen))) = l.filter (fun m => !(p m && decide (m ∈ seen))) := by
  refine List.filter_congr fun m _ => ?_
  by_cases hm : m = n
  · subst hm; simp [hp]
  · simp [hm]

theorem filter_seen_erase {p : Nat → Bool} {l seen : List Nat} {n : Nat} (hp : p n = true) (hd : l.Nodup) :
    l.filter (fun m => !(p m && decide (m ∈ n :: seen))) = (l.erase n).filter (fun m => !(p m && decide (m ∈ seen))) := by
  rw [hd.erase_eq_filter, List.filter_filter]
  refine List.filter_congr fun m _ => ?_
  by_cases hm : m = n
  · subst hm; simp [hp]
  · simp [hm]

/-- the loop stays with a list that is not the layer's any more -/
theorem rounds_frozen (last : Bool) {rm : Nat → JLayer.Op} (hr : rm = .remove ∨ rm = .removeObject) (p : Nat → Bool) (st : List (Option Nat)) :
    ∀ (todo i : Nat) (s : JLayer) (l : List Nat), JLOk s l → st.length = i + todo → ((st.drop i).filterMap id).Nodup →
    (∀ n ∈ (st.drop i).filterMap id, n ∈ l) →
    ∃ s', rounds last (dropBody rm p) todo i s ⟨some st, false⟩ = (s', (st.drop i).filterMap id, .ended) ∧
      JLOk s' (l.filter (fun m => !(p m && decide (m ∈ (st.drop i).filterMap id)))) := by
  intro todo
  induction todo with
  | zero =>
    intro i s l h hlen _ _
    rw [List.drop_eq_nil_of_le (by omega)]
    refine ⟨s, by simp [rounds], ?_⟩
    rw [List.filter_eq_self.mpr (by simp)]
    exact h
  | succ todo ih =>
    intro i s l h hlen hnd hsub
    have hi : i < st.length := by omega
    rw [List.drop_eq_getElem_cons hi] at hnd hsub ⊢
    unfold rounds
    rw [if_neg (by simp)]
    have e : (Watch.slots ⟨some st, false⟩ s)[i]? = some st[i] := List.getElem?_eq_getElem hi
    rw [e]
    cases hx : st[i] with
    | none =>
      rw [hx] at hnd hsub
      simp only [List.filterMap_cons, id] at hnd hsub ⊢
      exact ih (i + 1) s l h (by omega) hnd hsub
    | some n =>
      rw [hx] at hnd hsub
      simp only [List.filterMap_cons, id, List.nodup_cons, List.mem_cons, forall_eq_or_imp] at hnd hsub ⊢
      by_cases hp : p n = true
      · have hb : dropBody rm p i n = [rm n] := by simp [dropBody, hp]
        rw [hb, calls_drop hr h hsub.1]
        simp only
        have hv : Watch.shrink ⟨some st, false⟩ (emptied s n) = ⟨some st, false⟩ := by
          simp [Watch.shrink, Watch.compact]
        rw [hv]
        have hs := shrink_ok (remove_steps h hsub.1).1
        obtain ⟨s', q1, q2⟩ := ih (i + 1) _ _ hs.2.1 (by omega) hnd.2 (fun m hm =>
          (h.nodup.mem_erase_iff).mpr ⟨fun e => hnd.1 (e ▸ hm), hsub.2 m hm⟩)
        refine ⟨s', by rw [q1], ?_⟩
        have := filter_seen_erase (seen := (st.drop (i + 1)).filterMap id) hp h.nodup
        simp only [List.mem_cons] at this
        rw [this]
        exact q2
      · have hp : p n = false := by simpa using hp
        have hb : dropBody rm p i n = [] := by simp [dropBody, hp]
        rw [hb]
        simp only [JLayer.calls]
        obtain ⟨s', q1, q2⟩ := ih (i + 1) s l h (by omega) hnd.2 hsub.2
        refine ⟨s', by rw [q1], ?_⟩
        have := filter_seen_cons (l := l) (seen := (st.drop (i + 1)).filterMap id) hp
        simp only [List.mem_cons] at this
        rw [this]
        exact q2

namespace Spec

/-- the nodes that a loop comes to which removes the nodes with `p` from a layer with `slots` slots and `size` nodes, in the slots
`ids`. `b` are the nodes to come, `k` came before, of which `r` were removed. When less than three quarters of the slots are in use, and
there are more than 16, as many nodes are left out as there are empty slots up to there. -/
def loopSees (p : Nat → Bool) (slots size : Nat) (ids : Nat → Int) : (k r : Nat) → (b : List Nat) → List Nat
  | _, _, [] => []
  | k, r, n :: b =>
    n :: if p n then
        if 16 < slots ∧ 4 * (size : Int) < 3 * slots + 4 * (r + 1) then b.drop ((ids n).toNat - k + (r + 1)) else loopSees p slots size ids (k + 1) (r + 1) b
      else loopSees p slots size ids (k + 1) r b

end Spec

theorem take_filterMap_succ {st : List (Option Nat)} {i : Nat} (hi : i < st.length) :
    ((st.take (i + 1)).filterMap id).length = ((st.take i).filterMap id).length + if st[i].isSome then 1 else 0 := by
  rw [List.take_succ_eq_append_getElem hi, List.filterMap_append]
  cases st[i] <;> simp [List.filterMap_cons]

/-- a loop that removes nodes -/
theorem rounds_drop (last : Bool) {rm : Nat → JLayer.Op} (hr : rm = .remove ∨ rm = .removeObject) (p : Nat → Bool) (slots size : Nat) (ids : Nat → Int) :
    ∀ (todo i : Nat) (s : JLayer) (l : List Nat) (k r : Nat), JLOk s l → s.storage.length = i + todo → s.storage.length = slots →
    (∀ m ∈ (s.storage.drop i).filterMap id, s.ids m = ids m) → l.length + r = size → ((s.storage.take i).filterMap id).length + r = k → k ≤ i →
    ∃ s', rounds last (dropBody rm p) todo i s .start = (s', Spec.loopSees p slots size ids k r ((s.storage.drop i).filterMap id), .ended) ∧
      JLOk s' (l.filter (fun m => !(p m && decide (m ∈ Spec.loopSees p slots size ids k r ((s.storage.drop i).filterMap id))))) := by
  intro todo
  induction todo with
  | zero =>
    intro i s l k r h hlen _ _ _ _ _
    rw [List.drop_eq_nil_of_le (by omega)]
    refine ⟨s, by simp [rounds, Watch.start, Spec.loopSees], ?_⟩
    simp only [List.filterMap_nil, Spec.loopSees]
    rw [List.filter_eq_self.mpr (by simp)]
    exact h
  | succ todo ih =>
    intro i s l k r h hlen hslots hids hsize hk hki
    have hi : i < s.storage.length := by omega
    have hcount := take_filterMap_succ hi
    have hpart : l = (s.storage.take i).filterMap id ++ (s.storage.drop i).filterMap id := by
      rw [← List.filterMap_append, List.take_append_drop, h.nodes]
    have hdrop := List.drop_eq_getElem_cons hi
    rw [hdrop] at hids hpart ⊢
    unfold rounds
    rw [if_neg (by simp [Watch.start])]
    have e : (Watch.slots .start s)[i]? = some s.storage[i] := List.getElem?_eq_getElem hi
    rw [e]
    cases hx : s.storage[i] with
    | none =>
      rw [hx] at hids hcount
      simp only [List.filterMap_cons, id] at hids ⊢
      exact ih (i + 1) s l k r h (by omega) hslots hids hsize (by simp at hcount; omega) (by omega)
    | some n =>
      rw [hx] at hids hcount hpart
      simp only [List.filterMap_cons, id, List.mem_cons, forall_eq_or_imp] at hids hpart ⊢
      simp only [Option.isSome_some, if_true] at hcount
      have hn : n ∈ l := by rw [hpart]; simp
      have hidn : s.ids n = i := h.ids i n (by rw [← hx]; exact List.getElem?_eq_getElem hi)
      unfold Spec.loopSees
      by_cases hp : p n = true
      · have hb : dropBody rm p i n = [rm n] := by simp [dropBody, hp]
        rw [hb, calls_drop hr h hn]
        simp only [hp, if_true]
        obtain ⟨hk', -, -, -⟩ := remove_steps h hn
        obtain ⟨-, hs2, -⟩ := shrink_ok hk'
        have hset : s.storage.set (s.ids n).toNat none = s.storage.set i none := by rw [hidn]; simp
        have hest : (emptied s n).storage = s.storage.set i none := hset
        have hdrop' : (s.storage.set i none).drop (i + 1) = s.storage.drop (i + 1) := by rw [List.drop_set_of_lt (by omega)]
        have htake' : ((s.storage.set i none).take (i + 1)).filterMap id = (s.storage.take i).filterMap id := by
          rw [List.take_add_one, List.take_set_of_le (by omega), List.filterMap_append]
          simp [hi, List.filterMap_cons]
        have hlen1 : (l.erase n).length = l.length - 1 := List.length_erase_of_mem hn
        have hpos := List.length_pos_of_mem hn
        have hle : ((s.storage.take i).filterMap id).length ≤ i := Nat.le_trans (List.length_filterMap_le ..) (by simp; omega)
        have hnd : ((s.storage.drop (i + 1)).filterMap id).Nodup ∧ n ∉ (s.storage.drop (i + 1)).filterMap id := by
          have := h.nodup
          rw [hpart, List.nodup_append, List.nodup_cons] at this
          exact ⟨this.2.1.2, this.2.1.1⟩
        have hmem : ∀ m ∈ (s.storage.drop (i + 1)).filterMap id, m ∈ l.erase n := fun m hm =>
          (h.nodup.mem_erase_iff).mpr ⟨fun e => hnd.2 (e ▸ hm), by rw [hpart]; simp only [List.mem_append, List.mem_cons]; exact .inr (.inr hm)⟩
        have hsp : (emptied s n).sparse = true ↔ 16 < slots ∧ 4 * (size : Int) < 3 * slots + 4 * (r + 1) := by
          unfold JLayer.sparse
          rw [hest, Bool.and_eq_true, decide_eq_true_iff, decide_eq_true_iff, List.length_set, hslots]
          have : (emptied s n).size = (l.length : Int) - 1 := by show s.size - 1 = _; rw [h.size]
          rw [this]
          omega
        by_cases hcond : 16 < slots ∧ 4 * (size : Int) < 3 * slots + 4 * (r + 1)
        · rw [if_pos hcond]
          have hspt := hsp.mpr hcond
          have hv : Watch.shrink .start (emptied s n) = ⟨some (emptied s n).packed.storage, false⟩ := by
            unfold Watch.shrink Watch.compact
            rw [if_pos hspt, if_neg (by rw [hk'.size]; omega), if_pos ⟨by rw [packed_sparse hk'.toJLW]; exact hspt, rfl⟩]
            rfl
          rw [hv]
          have hah := packed_ahead hk'.toJLW (i + 1) (by rw [hest]; simp; omega)
          rw [hest, hdrop', htake'] at hah
          have hg : i + 1 - ((s.storage.take i).filterMap id).length = (ids n).toNat - k + (r + 1) := by
            rw [← hids.1, hidn]
            simp only [Int.toNat_natCast]
            omega
          rw [hg] at hah
          obtain ⟨s', q1, q2⟩ := rounds_frozen last hr p (emptied s n).packed.storage todo (i + 1) _ _ hs2
            (by rw [packed_length hk'.toJLW, hest]; simp; omega) (by rw [hah]; exact hnd.1.sublist (List.drop_sublist ..))
            (fun m hm => hmem m (by rw [hah] at hm; exact List.mem_of_mem_drop hm))
          rw [hah] at q1 q2
          refine ⟨s', by rw [q1], ?_⟩
          rw [filter_seen_erase hp h.nodup]
          exact q2
        · rw [if_neg hcond]
          have hspf : ¬ (emptied s n).sparse = true := fun e => hcond (hsp.mp e)
          have hv : Watch.shrink .start (emptied s n) = .start := by unfold Watch.shrink; rw [if_neg hspf]
          have hsh : (emptied s n).shrink.1 = emptied s n := by unfold JLayer.shrink; rw [if_neg hspf]
          rw [hv, hsh]
          obtain ⟨s', q1, q2⟩ := ih (i + 1) (emptied s n) (l.erase n) (k + 1) (r + 1) hk' (by rw [hest]; simp; omega) (by rw [hest]; simp; omega)
            (by rw [hest, hdrop']; exact hids.2) (by omega) (by rw [hest, htake']; omega) (by omega)
          rw [hest, hdrop'] at q1 q2
          refine ⟨s', by rw [q1], ?_⟩
          rw [filter_seen_erase hp h.nodup]
          exact q2
      · have hp : p n = false := by simpa using hp
        have hb : dropBody rm p i n = [] := by simp [dropBody, hp]
        rw [hb]
        simp only [JLayer.calls, hp, Bool.false_eq_true, if_false]
        obtain ⟨s', q1, q2⟩ := ih (i + 1) s l (k + 1) r h (by omega) hslots hids.2 hsize (by omega) (by omega)
        refine ⟨s', by rw [q1], ?_⟩
        rw [filter_seen_cons hp]
        exact q2

end Verif
