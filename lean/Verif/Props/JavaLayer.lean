import Verif.Model.JavaLayer
/-
C83: layers of the Java library as collections.
-/
set_option linter.unusedSimpArgs false
namespace Verif

open JLayer

namespace Spec

/-- a call on a list of nodes; `busy` are the nodes that belong to another layer -/
def listOp (busy : Nat → Bool) (l : List Nat) : JLayer.Op → List Nat × Except PyErr JLayer.Ans
  | .add n => if n ∈ l ∨ busy n then (l, .error .value) else (l ++ [n], .ok (.flag true))
  | .remove n => if n ∈ l then (l.erase n, .ok .unit) else (l, .error .value)
  | .removeObject n => (l.erase n, .ok (.flag (decide (n ∈ l))))
  | .removeAll c => (l.filter (fun n => decide (n ∉ c)), .ok (.flag (c.any fun n => decide (n ∈ l))))
  | .clear => ([], .ok .unit)
  | .compact => (l, .ok .unit)

/-- some calls on a list of nodes -/
def listRun (busy : Nat → Bool) (l : List Nat) : List JLayer.Op → List Nat × List (Except PyErr JLayer.Ans)
  | [] => (l, [])
  | o :: os => ((listRun busy (listOp busy l o).1 os).1, (listOp busy l o).2 :: (listRun busy (listOp busy l o).1 os).2)

/-- no slot of the layer is empty: nothing has been removed, or the slots have been given up -/
def Full (s : JLayer) : Prop := s.size = s.storage.length

/-- whether a call puts nodes into slots, or reads all of them -/
def needsFull : JLayer.Op → Bool
  | .add _ => true
  | .clear => true
  | _ => false

/-- `add` and `clear` are only called when no slot is empty -/
def WhenFull (s : JLayer) : List JLayer.Op → Prop
  | [] => True
  | o :: os => (needsFull o = true → Full s) ∧ WhenFull (s.op o).1 os

end Spec

/-- a layer has the nodes `l`; their ids may be wrong -/
structure JLW (s : JLayer) (l : List Nat) : Prop where
  nodes : s.storage.filterMap id = l
  nodup : l.Nodup
  size : s.size = l.length
  lay : ∀ n, s.lay n = some 0 ↔ n ∈ l

/-- a layer has the nodes `l`, and the id of each is its position -/
structure JLOk (s : JLayer) (l : List Nat) : Prop extends JLW s l where
  ids : ∀ (i n : Nat), s.storage[i]? = some (some n) → s.ids n = (i : Int)

/-! ### compact -/

theorem compactLoop_storage (todo : Nat) : ∀ (k i : Nat) (st : List (Option Nat)) (ids : Nat → Int), k + todo = st.length → i ≤ k →
    (compactLoop todo k i st ids).1 = st.take i ++ ((st.drop k).filterMap id).map some ++ st.drop (i + ((st.drop k).filterMap id).length) := by
  induction todo with
  | zero =>
    intro k i st ids hk hi
    rw [List.drop_eq_nil_of_le (by omega : st.length ≤ k)]
    simp [compactLoop]
  | succ todo ih =>
    intro k i st ids hk hi
    have hlt : k < st.length := by omega
    have hd : st.drop k = st[k] :: st.drop (k + 1) := List.drop_eq_getElem_cons hlt
    have hg : st[k]? = some st[k] := List.getElem?_eq_getElem hlt
    unfold compactLoop
    rw [hg]
    cases hx : st[k] with
    | none =>
      simp only
      rw [ih (k + 1) i st ids (by omega) (by omega), hd, hx]
      simp
    | some n =>
      simp only
      rw [ih (k + 1) (i + 1) (st.set i (some n)) _ (by simp; omega) (by omega), hd, hx]
      have e1 : (st.set i (some n)).drop (k + 1) = st.drop (k + 1) := by
        rw [List.drop_set_of_lt (by omega)]
      have e2 : (st.set i (some n)).take (i + 1) = st.take i ++ [some n] := by
        rw [List.take_add_one, List.take_set_of_le (by omega)]
        simp [show i < st.length by omega]
      rw [e1, e2]
      simp only [List.filterMap_cons, id, List.map_cons, List.length_cons]
      rw [List.drop_set_of_lt (by omega)]
      simp only [List.append_assoc, List.cons_append, List.nil_append]
      congr 4
      omega

theorem compactLoop_ids (todo : Nat) : ∀ (k i : Nat) (st : List (Option Nat)) (ids : Nat → Int), k + todo = st.length → i ≤ k →
    ((st.drop k).filterMap id).Nodup →
    (∀ n, n ∉ (st.drop k).filterMap id → (compactLoop todo k i st ids).2 n = ids n) ∧
    ∀ j n, ((st.drop k).filterMap id)[j]? = some n → (compactLoop todo k i st ids).2 n = ((i + j : Nat) : Int) := by
  induction todo with
  | zero =>
    intro k i st ids hk hi _
    rw [List.drop_eq_nil_of_le (by omega : st.length ≤ k)]
    simp [compactLoop]
  | succ todo ih =>
    intro k i st ids hk hi hnd
    have hlt : k < st.length := by omega
    have hd : st.drop k = st[k] :: st.drop (k + 1) := List.drop_eq_getElem_cons hlt
    have hg : st[k]? = some st[k] := List.getElem?_eq_getElem hlt
    unfold compactLoop
    rw [hg]
    rw [hd] at hnd ⊢
    cases hx : st[k] with
    | none =>
      rw [hx] at hnd
      simp only [List.filterMap_cons, id] at hnd ⊢
      exact ih (k + 1) i st ids (by omega) (by omega) hnd
    | some n =>
      rw [hx] at hnd
      simp only [List.filterMap_cons, id, List.nodup_cons] at hnd ⊢
      have e1 : (st.set i (some n)).drop (k + 1) = st.drop (k + 1) := by
        rw [List.drop_set_of_lt (by omega)]
      obtain ⟨h1, h2⟩ := ih (k + 1) (i + 1) (st.set i (some n)) (upd ids n i) (by simp; omega) (by omega) (by rw [e1]; exact hnd.2)
      rw [e1] at h1 h2
      constructor
      · intro m hm
        simp only [List.mem_cons, not_or] at hm
        rw [h1 m hm.2, upd, if_neg hm.1]
      · intro j m hj
        cases j with
        | zero =>
          simp only [List.getElem?_cons_zero, Option.some.injEq] at hj
          subst hj
          rw [h1 n hnd.1, upd, if_pos rfl]
          simp
        | succ j =>
          rw [List.getElem?_cons_succ] at hj
          rw [h2 j m hj]
          congr 1
          omega

theorem filterMap_some (l : List Nat) : (l.map some).filterMap id = l := by
  induction l with
  | nil => rfl
  | cons a l ih => simp [List.filterMap_cons, ih]

theorem filterMap_none (k : Nat) : (List.replicate k (none : Option Nat)).filterMap id = [] := by
  induction k with
  | zero => rfl
  | succ k ih => rw [List.replicate_succ, List.filterMap_cons]; exact ih

/-- what `compact()` makes of a layer -/
theorem compact_ok {s : JLayer} {l : List Nat} (h : JLW s l) : s.compact.2 = .ok () ∧ JLOk s.compact.1 l ∧ (∃ m, s.compact.1.storage = l.map some ++ List.replicate m none) ∧
    s.compact.1.lay = s.lay := by
  have hst := compactLoop_storage s.storage.length 0 0 s.storage s.ids (by omega) (by omega)
  obtain ⟨-, hids⟩ := compactLoop_ids s.storage.length 0 0 s.storage s.ids (by omega) (by omega) (by rw [List.drop_zero, h.nodes]; exact h.nodup)
  simp only [List.drop_zero, h.nodes, List.take_zero, List.nil_append, Nat.zero_add] at hst hids
  have hlen : l.length ≤ s.storage.length := by rw [← h.nodes]; exact List.length_filterMap_le ..
  have hsz : s.size.toNat = l.length := by rw [h.size]; simp
  have htake : ((l.map some ++ s.storage.drop l.length).take l.length : List (Option Nat)) = l.map some := by
    rw [List.take_append_of_le_length (by simp), List.take_of_length_le (by simp)]
  have fin : ∀ m (s' : JLayer), s'.storage = l.map some ++ List.replicate m none → s'.ids = (compactLoop s.storage.length 0 0 s.storage s.ids).2 →
      s'.size = s.size → s'.lay = s.lay → JLOk s' l := by
    intro m s' e1 e2 e3 e4
    refine ⟨⟨?_, h.nodup, by rw [e3, h.size], fun n => by rw [e4, h.lay]⟩, ?_⟩
    · rw [e1, List.filterMap_append, filterMap_some, filterMap_none, List.append_nil]
    · intro i n hi
      rw [e2]
      refine hids i n ?_
      rw [e1] at hi
      rw [List.getElem?_append] at hi
      split at hi
      · rw [List.getElem?_map] at hi
        cases hl : l[i]? with
        | none => rw [hl] at hi; cases hi
        | some x => rw [hl] at hi; cases hi; rfl
      · rw [List.getElem?_replicate] at hi
        split at hi <;> simp at hi
  unfold JLayer.compact
  simp only
  rw [if_neg (by rw [h.size]; omega)]
  simp only [hst, hsz, htake]
  by_cases hsp : JLayer.sparse { s with
      storage := l.map some ++ List.replicate ((l.map some ++ s.storage.drop l.length).length - l.length) none
      ids := (compactLoop s.storage.length 0 0 s.storage s.ids).2 } = true
  · rw [if_pos hsp]
    refine ⟨rfl, fin 0 _ ?_ rfl rfl rfl, ⟨0, ?_⟩, rfl⟩
    · simp only [List.replicate_zero, List.append_nil, hsz]
      rw [List.take_append_of_le_length (by simp), List.take_of_length_le (by simp)]
    · simp only [List.replicate_zero, List.append_nil, hsz]
      rw [List.take_append_of_le_length (by simp), List.take_of_length_le (by simp)]
  · rw [if_neg hsp]
    exact ⟨rfl, fin _ _ rfl rfl rfl rfl, ⟨_, rfl⟩, rfl⟩

theorem shrink_ok {s : JLayer} {l : List Nat} (h : JLOk s l) : s.shrink.2 = .ok () ∧ JLOk s.shrink.1 l ∧ s.shrink.1.lay = s.lay := by
  unfold JLayer.shrink
  split
  · obtain ⟨h1, h2, -, h3⟩ := compact_ok h.toJLW
    exact ⟨h1, h2, h3⟩
  · exact ⟨rfl, h, rfl⟩

/-! ### the calls -/

theorem slot_of {s : JLayer} {l : List Nat} {n : Nat} (h : JLOk s l) (hn : n ∈ l) : ∃ p : Nat, s.storage[p]? = some (some n) ∧ s.ids n = p ∧
    ∃ a b, s.storage = a ++ some n :: b ∧ a.length = p := by
  rw [← h.nodes, List.mem_filterMap] at hn
  obtain ⟨x, hx, rfl⟩ := hn
  obtain ⟨a, b, hab⟩ := List.append_of_mem hx
  refine ⟨a.length, ?_, ?_, a, b, hab, rfl⟩
  · rw [hab]; simp
  · exact h.ids _ _ (by rw [hab]; simp)

theorem removed {s : JLayer} {l : List Nat} {n : Nat} (h : JLOk s l) (hn : n ∈ l) : ∃ st, setAt s.storage (s.ids n) none = .ok st ∧
    ∀ s' : JLayer, s'.storage = st → s'.size = s.size - 1 → s'.lay = upd s.lay n none → s'.ids = s.ids → JLOk s' (l.erase n) := by
  obtain ⟨p, h1, h2, a, b, h3, h4⟩ := slot_of h hn
  have hlt : p < s.storage.length := (List.getElem?_eq_some_iff.mp h1).1
  refine ⟨s.storage.set p none, ?_, ?_⟩
  · rw [setAt, h2, if_neg (by omega)]; simp
  · intro s' e1 e2 e3 e4
    have hl : l = a.filterMap id ++ n :: b.filterMap id := by rw [← h.nodes, h3]; simp
    have hna : n ∉ a.filterMap id := by
      have := h.nodup
      rw [hl, List.nodup_append] at this
      intro hm
      exact this.2.2 n hm n (by simp) rfl
    have her : l.erase n = a.filterMap id ++ b.filterMap id := by
      rw [hl, List.erase_append_right _ hna, List.erase_cons_head]
    have hset : s.storage.set p none = a ++ none :: b := by
      rw [h3, ← h4]; simp
    refine ⟨⟨?_, ?_, ?_, ?_⟩, ?_⟩
    · rw [e1, hset, her]; simp
    · exact h.nodup.erase n
    · rw [e2, h.size, List.length_erase_of_mem hn]
      have := List.length_pos_of_mem hn
      omega
    · intro m
      rw [e3, upd, h.nodup.mem_erase_iff]
      by_cases hm : m = n
      · simp [hm]
      · simp [hm, h.lay]
    · intro i m hi
      rw [e1] at hi
      rw [e4]
      by_cases hip : i = p
      · subst hip
        rw [List.getElem?_set_self hlt] at hi
        simp at hi
      · rw [List.getElem?_set_ne (fun e => hip e.symm)] at hi
        exact h.ids i m hi

theorem removeObject_ok {s : JLayer} {l : List Nat} (h : JLOk s l) (n : Nat) : (s.removeObject n).2 = .ok (decide (n ∈ l)) ∧ JLOk (s.removeObject n).1 (l.erase n) ∧
    ∀ m, (s.removeObject n).1.lay m = if m = n ∧ n ∈ l then none else s.lay m := by
  unfold JLayer.removeObject
  by_cases hn : n ∈ l
  · rw [if_neg (by simp [(h.lay n).mpr hn])]
    obtain ⟨st, h1, h2⟩ := removed h hn
    simp only [h1]
    obtain ⟨g1, g2, g3⟩ := shrink_ok (h2 ⟨st, s.size - 1, s.ids, upd s.lay n none⟩ rfl rfl rfl rfl)
    cases hx : JLayer.shrink ⟨st, s.size - 1, s.ids, upd s.lay n none⟩ with
    | mk s' a =>
      rw [hx] at g1 g2 g3
      simp only at g1 g2 g3
      subst g1
      refine ⟨by simp [hn], g2, fun m => ?_⟩
      rw [g3, upd]
      simp [hn]
  · rw [if_pos (by rw [ne_eq, h.lay n]; exact hn)]
    refine ⟨by simp [hn], by rw [List.erase_of_not_mem hn]; exact h, fun m => by simp [hn]⟩

theorem removeAll_ok (c : List Nat) : ∀ {s : JLayer} {l : List Nat} (ops : Bool), JLOk s l →
    (s.removeAll ops c).2 = .ok (ops || c.any fun n => decide (n ∈ l)) ∧ JLOk (s.removeAll ops c).1 (l.filter (fun n => decide (n ∉ c))) ∧
    ∀ m, s.lay m ≠ some 0 → (s.removeAll ops c).1.lay m = s.lay m := by
  induction c with
  | nil => intro s l ops h; exact ⟨by simp [JLayer.removeAll], by rw [List.filter_eq_self.mpr (by simp)]; exact h, fun _ _ => rfl⟩
  | cons n c ih =>
    intro s l ops h
    obtain ⟨g1, g2, g3⟩ := removeObject_ok h n
    unfold JLayer.removeAll
    cases hx : s.removeObject n with
    | mk s' a =>
      rw [hx] at g1 g2 g3
      simp only at g1 g2 g3
      subst g1
      simp only
      obtain ⟨q1, q2, q3⟩ := ih (ops || decide (n ∈ l)) g2
      refine ⟨?_, ?_, ?_⟩
      · rw [q1, List.any_cons, Bool.or_assoc]
        by_cases hn : n ∈ l
        · simp [hn]
        · simp [hn, List.erase_of_not_mem hn]
      · have : l.filter (fun m => decide (m ∉ n :: c)) = (l.erase n).filter (fun m => decide (m ∉ c)) := by
          rw [h.nodup.erase_eq_filter, List.filter_filter]
          refine List.filter_congr fun m _ => ?_
          by_cases hm : m = n <;> simp [hm]
        rw [this]; exact q2
      · intro m hm
        have : s'.lay m = s.lay m := by
          rw [g3]
          split
          · rename_i e
            rw [e.1] at hm
            exact absurd ((h.lay n).mpr e.2) hm
          · rfl
        rw [q3 m (by rw [this]; exact hm), this]

theorem full_storage {s : JLayer} {l : List Nat} (h : JLW s l) (hf : Spec.Full s) : s.storage = l.map some := by
  have hlen : s.storage.length = l.length := by have := h.size; unfold Spec.Full at hf; omega
  rw [← h.nodes] at hlen ⊢
  generalize s.storage = st at hlen
  induction st with
  | nil => rfl
  | cons x st ih =>
    cases x with
    | none =>
      have := List.length_filterMap_le id st
      simp only [List.length_cons, List.filterMap_cons, id] at hlen
      omega
    | some n =>
      simp only [List.length_cons, List.filterMap_cons, id, Nat.add_right_cancel_iff] at hlen
      simp only [List.filterMap_cons, id, List.map_cons]
      rw [← ih hlen]

theorem clearLoop_ok (l : List Nat) : ∀ (s : JLayer), (s.clearLoop (l.map some)).2 = .ok () ∧
    ∀ m, (s.clearLoop (l.map some)).1.lay m = if m ∈ l then none else s.lay m := by
  induction l with
  | nil => intro s; exact ⟨rfl, fun m => by simp [JLayer.clearLoop]⟩
  | cons n l ih =>
    intro s
    simp only [List.map_cons, JLayer.clearLoop]
    obtain ⟨h1, h2⟩ := ih { s with ids := upd s.ids n (-1), lay := upd s.lay n none }
    refine ⟨h1, fun m => ?_⟩
    rw [h2 m]
    by_cases hm : m ∈ l
    · simp [hm]
    · by_cases hmn : m = n
      · simp [hmn, upd]
      · simp [hm, hmn, upd]

/-- one call on a layer -/
theorem jlOp_ok {s : JLayer} {l : List Nat} {busy : Nat → Bool} (h : JLOk s l) (hb : ∀ n, busy n = true ↔ ∃ k, s.lay n = some k ∧ k ≠ 0) (o : JLayer.Op) (hf : Spec.needsFull o = true → Spec.Full s) :
    (s.op o).2 = (Spec.listOp busy l o).2 ∧ JLOk (s.op o).1 (Spec.listOp busy l o).1 ∧ ∀ n, busy n = true ↔ ∃ k, (s.op o).1.lay n = some k ∧ k ≠ 0 := by
  have keep : ∀ {s' : JLayer}, (∀ n, s'.lay n = s.lay n ∨ ((s'.lay n = none ∨ s'.lay n = some 0) ∧ (s.lay n = none ∨ s.lay n = some 0))) →
      ∀ n, busy n = true ↔ ∃ k, s'.lay n = some k ∧ k ≠ 0 := by
    intro s' hs n
    rw [hb n]
    rcases hs n with e | ⟨e1, e2⟩
    · rw [e]
    · constructor
      · rintro ⟨k, hk, h0⟩
        rcases e2 with e | e <;> rw [e] at hk <;> simp at hk
        exact absurd hk.symm h0
      · rintro ⟨k, hk, h0⟩
        rcases e1 with e | e <;> rw [e] at hk <;> simp at hk
        exact absurd hk.symm h0
  cases o with
  | add n =>
    simp only [JLayer.op, Spec.listOp]
    by_cases hc : n ∈ l ∨ busy n = true
    · have hne : s.lay n ≠ none := by
        rcases hc with hc | hc
        · rw [(h.lay n).mpr hc]; simp
        · obtain ⟨k, hk, -⟩ := (hb n).mp hc; rw [hk]; simp
      unfold JLayer.add
      rw [if_pos hne, if_pos hc]
      exact ⟨rfl, h, keep fun _ => .inl rfl⟩
    · rw [if_neg hc]
      simp only [not_or] at hc
      have hno : s.lay n = none := by
        cases hl : s.lay n with
        | none => rfl
        | some k =>
          by_cases h0 : k = 0
          · subst h0; exact absurd ((h.lay n).mp hl) hc.1
          · exact absurd ((hb n).mpr ⟨k, hl, h0⟩) hc.2
      have hfull := hf rfl
      have hst := full_storage h.toJLW hfull
      unfold JLayer.add
      rw [if_neg (by simp [hno])]
      simp only
      rw [if_neg (by unfold Spec.Full at hfull; omega)]
      refine ⟨rfl, ⟨⟨?_, ?_, ?_, ?_⟩, ?_⟩, ?_⟩
      · simp only [List.filterMap_append, h.nodes]; rfl
      · rw [List.nodup_append]
        refine ⟨h.nodup, by simp, ?_⟩
        intro a ha b hb2
        simp only [List.mem_singleton] at hb2
        subst hb2
        rintro rfl
        exact hc.1 ha
      · simp [h.size]
      · intro m
        simp only [upd, List.mem_append, List.mem_singleton]
        by_cases hm : m = n
        · simp [hm]
        · simp [hm, h.lay]
      · intro i m hi
        simp only [upd]
        simp only [List.getElem?_append] at hi
        split at hi
        · have hm : m ≠ n := by
            rintro rfl
            refine hc.1 ?_
            rw [← h.nodes, List.mem_filterMap]
            exact ⟨some m, List.mem_of_getElem? hi, rfl⟩
          rw [if_neg hm]
          exact h.ids i m hi
        · rename_i hge
          have hi0 : i - s.storage.length = 0 := by
            rcases Nat.eq_zero_or_pos (i - s.storage.length) with e | e
            · exact e
            · rw [List.getElem?_eq_none (by simp; omega)] at hi; cases hi
          rw [hi0] at hi
          simp only [List.getElem?_cons_zero, Option.some.injEq] at hi
          rw [if_pos hi.symm]
          omega
      · refine keep fun m => ?_
        simp only [upd]
        by_cases hm : m = n
        · subst hm; exact .inr ⟨by simp, .inl hno⟩
        · exact .inl (by simp [hm])
  | remove n =>
    simp only [JLayer.op, Spec.listOp]
    unfold JLayer.remove
    by_cases hn : n ∈ l
    · rw [if_neg (by simp [(h.lay n).mpr hn]), if_pos hn]
      obtain ⟨st, h1, h2⟩ := removed h hn
      simp only [h1]
      obtain ⟨g1, g2, g3⟩ := shrink_ok (h2 ⟨st, s.size - 1, s.ids, upd s.lay n none⟩ rfl rfl rfl rfl)
      refine ⟨by rw [g1]; rfl, g2, keep fun m => ?_⟩
      rw [g3]
      simp only [upd]
      by_cases hm : m = n
      · subst hm; exact .inr ⟨by simp, .inr ((h.lay m).mpr hn)⟩
      · exact .inl (by simp [hm])
    · rw [if_pos (by rw [ne_eq, h.lay n]; exact hn), if_neg hn]
      exact ⟨rfl, h, keep fun _ => .inl rfl⟩
  | removeObject n =>
    simp only [JLayer.op, Spec.listOp]
    obtain ⟨g1, g2, g3⟩ := removeObject_ok h n
    refine ⟨by rw [g1]; rfl, g2, keep fun m => ?_⟩
    rw [g3]
    by_cases hm : m = n ∧ n ∈ l
    · rw [if_pos hm, hm.1]
      exact .inr ⟨.inl rfl, .inr ((h.lay n).mpr hm.2)⟩
    · rw [if_neg hm]; exact .inl rfl
  | removeAll c =>
    simp only [JLayer.op, Spec.listOp]
    obtain ⟨g1, g2, g3⟩ := removeAll_ok c false h
    refine ⟨by rw [g1]; simp [Except.map], g2, keep fun m => ?_⟩
    by_cases hm : s.lay m = some 0
    · refine .inr ⟨?_, .inr hm⟩
      -- a node of the layer stays or is detached
      by_cases hk : m ∈ c
      · left
        have hns : m ∉ l.filter (fun n => decide (n ∉ c)) := by simp [hk]
        have := mt (g2.lay m).mp hns
        have hdet : ∀ (c : List Nat) {s : JLayer} {l : List Nat} (ops : Bool), JLOk s l → (s.lay m = some 0 ∨ s.lay m = none) →
            ((s.removeAll ops c).1.lay m = some 0 ∨ (s.removeAll ops c).1.lay m = none) := by
          intro c
          induction c with
          | nil => intro s l ops _ h; exact h
          | cons x c ih =>
            intro s l ops hs hl
            obtain ⟨r1, r2, r3⟩ := removeObject_ok hs x
            unfold JLayer.removeAll
            cases hx : s.removeObject x with
            | mk s' a =>
              rw [hx] at r1 r2 r3
              simp only at r1 r2 r3
              subst r1
              refine ih _ r2 ?_
              rw [r3]
              split
              · exact .inr rfl
              · exact hl
        rcases hdet c false h (.inl hm) with e | e
        · exact absurd e this
        · exact e
      · right
        exact (g2.lay m).mpr (by simp [hk, (h.lay m).mp hm])
    · exact .inl (g3 m hm)
  | clear =>
    simp only [JLayer.op, Spec.listOp]
    have hst := full_storage h.toJLW (hf rfl)
    obtain ⟨g1, g2⟩ := clearLoop_ok l s
    unfold JLayer.clear
    rw [hst]
    cases hx : s.clearLoop (l.map some) with
    | mk s' a =>
      rw [hx] at g1 g2
      simp only at g1 g2
      subst g1
      refine ⟨rfl, ⟨⟨rfl, by simp, rfl, ?_⟩, by simp⟩, keep fun m => ?_⟩
      · intro n
        rw [g2]
        by_cases hn : n ∈ l
        · simp [hn]
        · simp [hn, h.lay]
      · simp only
        rw [g2]
        by_cases hm : m ∈ l
        · exact .inr ⟨by simp [hm], .inr ((h.lay m).mpr hm)⟩
        · exact .inl (by simp [hm])
  | compact =>
    simp only [JLayer.op, Spec.listOp]
    obtain ⟨g1, g2, -, g3⟩ := compact_ok h.toJLW
    exact ⟨by rw [g1]; rfl, g2, keep fun m => .inl (by rw [g3])⟩

theorem jlRun_ok (os : List JLayer.Op) : ∀ {s : JLayer} {l : List Nat} {busy : Nat → Bool}, JLOk s l →
    (∀ n, busy n = true ↔ ∃ k, s.lay n = some k ∧ k ≠ 0) → Spec.WhenFull s os →
    (s.run os).2 = (Spec.listRun busy l os).2 ∧ JLOk (s.run os).1 (Spec.listRun busy l os).1 := by
  induction os with
  | nil => intro s l busy h _ _; exact ⟨rfl, h⟩
  | cons o os ih =>
    intro s l busy h hb hw
    obtain ⟨g1, g2, g3⟩ := jlOp_ok h hb o hw.1
    obtain ⟨q1, q2⟩ := ih g2 g3 hw.2
    exact ⟨by simp only [JLayer.run, Spec.listRun, g1, q1], q2⟩

/-- C83. If `add` and `clear` are only called when no slot is empty, a layer is a list of nodes: every call returns
what it would on a list, and at the end iteration gives the list, `size()` its length, `contains` tells membership,
`get(id)` finds each node by its id, `first()` and `last()` are its ends. -/
theorem C83_sequence_partial {lay : Nat → Option Nat} {ids : Nat → Int} (hl : ∀ n, lay n ≠ some 0) (os : List JLayer.Op)
    (hw : Spec.WhenFull ⟨[], 0, ids, lay⟩ os) : ∃ l, l = (Spec.listRun (fun n => (lay n).isSome) [] os).1 ∧
    (JLayer.run ⟨[], 0, ids, lay⟩ os).2 = (Spec.listRun (fun n => (lay n).isSome) [] os).2 ∧
    (JLayer.run ⟨[], 0, ids, lay⟩ os).1.nodes = l ∧ (JLayer.run ⟨[], 0, ids, lay⟩ os).1.sizeOf = l.length ∧
    ((JLayer.run ⟨[], 0, ids, lay⟩ os).1.isEmpty = l.isEmpty) ∧
    (∀ n, (JLayer.run ⟨[], 0, ids, lay⟩ os).1.contains n = decide (n ∈ l)) ∧
    (∀ n ∈ l, (JLayer.run ⟨[], 0, ids, lay⟩ os).1.get ((JLayer.run ⟨[], 0, ids, lay⟩ os).1.ids n) = .ok (some n)) ∧
    (JLayer.run ⟨[], 0, ids, lay⟩ os).1.first = l.head? ∧ (JLayer.run ⟨[], 0, ids, lay⟩ os).1.last = l.getLast? := by
  have h0 : JLOk ⟨[], 0, ids, lay⟩ [] := ⟨⟨rfl, by simp, rfl, fun n => by simp [hl n]⟩, by simp⟩
  have hb : ∀ n, (fun n => (lay n).isSome) n = true ↔ ∃ k, (JLayer.mk [] 0 ids lay).lay n = some k ∧ k ≠ 0 := by
    intro n
    simp only [Option.isSome_iff_exists]
    constructor
    · rintro ⟨k, hk⟩; exact ⟨k, hk, fun e => hl n (by rw [hk, e])⟩
    · rintro ⟨k, hk, -⟩; exact ⟨k, hk⟩
  obtain ⟨g1, g2⟩ := jlRun_ok os h0 hb hw
  refine ⟨_, rfl, g1, g2.nodes, g2.size, ?_, ?_, ?_, ?_, ?_⟩
  · unfold JLayer.isEmpty
    rw [g2.size]
    cases (Spec.listRun (fun n => (lay n).isSome) [] os).1 with
    | nil => rfl
    | cons a l => simp only [List.length_cons, List.isEmpty_cons, beq_eq_false_iff_ne]; omega
  · intro n
    unfold JLayer.contains
    have := g2.lay n
    by_cases hn : n ∈ (Spec.listRun (fun n => (lay n).isSome) [] os).1
    · simp [hn, this.mpr hn]
    · have h1 := mt this.mp hn
      simp [hn, h1]
  · intro n hn
    obtain ⟨p, h1, h2, -⟩ := slot_of g2 hn
    have hlt := (List.getElem?_eq_some_iff.mp h1).1
    unfold JLayer.get
    rw [h2, if_neg (by omega)]
    simp [h1]
  · unfold JLayer.first JLayer.nodes
    rw [g2.nodes]
  · unfold JLayer.last
    rw [List.filterMap_reverse, List.head?_reverse, g2.nodes]

theorem filterMap_cons_split {st : List (Option Nat)} {x : Nat} {l : List Nat} (h : st.filterMap id = x :: l) :
    ∃ a b, st = a ++ some x :: b ∧ a.filterMap id = [] ∧ b.filterMap id = l := by
  induction st with
  | nil => cases h
  | cons y st ih =>
    cases y with
    | none =>
      obtain ⟨a, b, h1, h2, h3⟩ := ih (by simpa [List.filterMap_cons] using h)
      exact ⟨none :: a, b, by rw [h1]; rfl, by simpa [List.filterMap_cons] using h2, h3⟩
    | some z =>
      simp only [List.filterMap_cons, id, List.cons.injEq] at h
      exact ⟨[], st, by rw [h.1]; rfl, rfl, h.2⟩

theorem filterMap_append_split {st : List (Option Nat)} (k l : List Nat) (h : st.filterMap id = k ++ l) :
    ∃ a b, st = a ++ b ∧ a.filterMap id = k ∧ b.filterMap id = l := by
  induction k generalizing st with
  | nil => exact ⟨[], st, rfl, rfl, h⟩
  | cons x k ih =>
    obtain ⟨a, b, h1, h2, h3⟩ := filterMap_cons_split h
    obtain ⟨c, d, g1, g2, g3⟩ := ih h3
    refine ⟨a ++ some x :: c, d, by rw [h1, g1]; simp, ?_, g3⟩
    rw [List.filterMap_append, h2, List.filterMap_cons]
    simp only [id, g2, List.nil_append]

/-- C83. Between two nodes of the layer, `nodespan` gives the nodes from the first to the last, both included. -/
theorem C83_nodespan {s : JLayer} {l a m b : List Nat} {x y : Nat} (h : JLOk s l) (hl : l = a ++ m ++ b) (hx : m.head? = some x) (hy : m.getLast? = some y) :
    s.nodespan x y = .ok m := by
  have hxm : x ∈ m := List.mem_of_head? hx
  have hym : y ∈ m := List.mem_of_getLast? hy
  have key : ∀ (p q : Nat) (st : List (Option Nat)), st = s.storage → st[p]? = some (some x) → st[q]? = some (some y) → p ≤ q →
      ((st.take (q + 1)).drop p).filterMap id = m → s.nodespan x y = .ok m := by
    intro p q st e hp hq hpq hm
    subst e
    have hlt := (List.getElem?_eq_some_iff.mp hq).1
    unfold JLayer.nodespan
    rw [if_neg (by simp [(h.lay x).mpr (by rw [hl]; simp [hxm])]), if_neg (by simp [(h.lay y).mpr (by rw [hl]; simp [hym])]),
      h.ids p x hp, h.ids q y hq, if_neg (by omega), if_neg (by omega)]
    simp only [Int.toNat_natCast, hm]
  have hn := h.nodes
  rw [hl, List.append_assoc] at hn
  obtain ⟨A, S, h1, h2, h3⟩ := filterMap_append_split _ _ hn
  cases m with
  | nil => cases hx
  | cons z m =>
    simp only [List.head?_cons, Option.some.injEq] at hx
    subst hx
    obtain ⟨N, T, g1, g2, g3⟩ := filterMap_cons_split h3
    rcases List.eq_nil_or_concat m with e | ⟨m', w, e⟩
    · subst e
      simp only [List.getLast?_singleton, Option.some.injEq] at hy
      subst hy
      refine key (A.length + N.length) (A.length + N.length) ((A ++ N) ++ some z :: T) (by rw [h1, g1]; simp) (by rw [List.getElem?_append_right (by simp)]; simp)
        (by rw [List.getElem?_append_right (by simp)]; simp) (Nat.le_refl _) ?_
      have : A.length + N.length = (A ++ N).length := by simp
      rw [this, List.take_length_add_append, List.drop_left]
      rfl
    · subst e
      have hw : w = y := by rw [List.concat_eq_append, ← List.cons_append, List.getLast?_concat] at hy; exact Option.some.inj hy
      subst hw
      obtain ⟨T1, T2, k1, k2, k3⟩ := filterMap_append_split m' (w :: b) (by simpa using g3)
      obtain ⟨N', B, j1, j2, j3⟩ := filterMap_cons_split k3
      refine key (A ++ N).length ((A ++ N) ++ some z :: (T1 ++ N')).length (((A ++ N) ++ some z :: (T1 ++ N')) ++ some w :: B) (by rw [h1, g1, k1, j1]; simp) ?_
        (by rw [List.getElem?_append_right (by simp)]; simp) (by simp) ?_
      · rw [List.append_assoc, List.getElem?_append_right (by simp)]; simp
      · rw [List.take_length_add_append, List.append_assoc, List.drop_left]
        simp [k2, j2]

/-- C83. `sort` makes iteration follow the new order and keeps the nodes; their ids stay as they were. `compact()`
then makes each id the position again. -/
theorem C83_sort {s : JLayer} {l : List Nat} (h : JLW s l) (sorted : List Nat → List Nat) (hp : (sorted l).Perm l) :
    (s.sort sorted).2 = .ok () ∧ JLW (s.sort sorted).1 (sorted l) ∧ (s.sort sorted).1.ids = s.compact.1.ids ∧
    JLOk (s.sort sorted).1.compact.1 (sorted l) := by
  obtain ⟨g1, g2, ⟨k, g3⟩, g4⟩ := compact_ok h
  have hall : (s.sort sorted).2 = .ok () ∧ JLW (s.sort sorted).1 (sorted l) ∧ (s.sort sorted).1.ids = s.compact.1.ids := by
    unfold JLayer.sort
    cases hx : s.compact with
    | mk s' a =>
      rw [hx] at g1 g2 g3 g4
      simp only at g1 g2 g3 g4
      subst g1
      simp only
      have hsz : s'.size.toNat = l.length := by rw [g2.size]; simp
      have htk : s'.storage.take l.length = l.map some := by
        rw [g3, List.take_append_of_le_length (by simp), List.take_of_length_le (by simp)]
      have hdr : s'.storage.drop l.length = List.replicate k none := by
        rw [g3, List.drop_append_of_le_length (by simp), List.drop_of_length_le (by simp)]; rfl
      rw [hsz, htk, hdr, filterMap_some, if_neg (by rw [g2.size, g3]; simp; omega), if_neg (by simp)]
      refine ⟨rfl, ⟨?_, hp.nodup_iff.mpr g2.nodup, ?_, ?_⟩, rfl⟩
      · simp only [List.filterMap_append, filterMap_some, filterMap_none, List.append_nil]
      · simp only [g2.size, hp.length_eq]
      · intro n
        simp only [g2.lay, hp.mem_iff]
  exact ⟨hall.1, hall.2.1, hall.2.2, (compact_ok hall.2.1).2.1⟩

/-! ### retainAll -/

theorem markLoop_ok (c : List Nat) : ∀ (s : JLayer) (e : Bool), c.Nodup → (∀ n ∈ c, s.lay n = some 0) →
    s.markLoop e c = ({ s with ids := fun n => if n ∈ c then -s.ids n else s.ids n }, .ok (e || !c.isEmpty)) := by
  induction c with
  | nil => intro s e _ _; simp [JLayer.markLoop]
  | cons x c ih =>
    intro s e hnd hl
    rw [List.nodup_cons] at hnd
    unfold JLayer.markLoop
    rw [if_neg (by simp [hl x (by simp)]), ih { s with ids := upd s.ids x (-s.ids x) } _ hnd.2 (fun n hn => hl n (by simp [hn]))]
    simp only [List.isEmpty_cons, Bool.not_false, Bool.or_true, Bool.true_or, Prod.mk.injEq, JLayer.mk.injEq, true_and, and_true]
    funext n
    simp only [upd, List.mem_cons]
    by_cases hn : n = x
    · subst hn; simp [hnd.1]
    · simp [hn]

theorem dropLoop_ok (st : List (Option Nat)) : ∀ (size : Int) (ids : Nat → Int), (st.filterMap id).Nodup →
    (dropLoop st size ids).1 = st.map (fun x => x.bind fun n => if ids n ≥ 0 then none else some n) ∧
    (dropLoop st size ids).2.1 = size - ((st.filterMap id).filter (fun n => decide (ids n ≥ 0))).length ∧
    (dropLoop st size ids).2.2 = fun n => if n ∈ st.filterMap id ∧ ids n < 0 then -ids n else ids n := by
  induction st with
  | nil => intro size ids _; simp [dropLoop]
  | cons x st ih =>
    intro size ids hnd
    cases x with
    | none =>
      obtain ⟨h1, h2, h3⟩ := ih size ids (by simpa [List.filterMap_cons] using hnd)
      simp only [dropLoop, List.map_cons, Option.bind_none, List.filterMap_cons, id]
      exact ⟨by rw [h1], h2, h3⟩
    | some n =>
      simp only [List.filterMap_cons, id, List.nodup_cons] at hnd
      simp only [dropLoop]
      by_cases hn : ids n ≥ 0
      · obtain ⟨h1, h2, h3⟩ := ih (size - 1) ids hnd.2
        rw [if_pos hn]
        simp only [List.map_cons, Option.bind_some, if_pos hn, List.filterMap_cons, id, List.filter_cons, decide_eq_true hn, if_true, List.length_cons]
        refine ⟨by rw [h1], ?_, ?_⟩
        · rw [h2]; omega
        · rw [h3]
          funext m
          simp only [List.mem_cons, id]
          by_cases hm : m = n
          · subst hm; simp [hnd.1, show ¬ ids m < 0 by omega]
          · simp [hm]
      · have hlt : ids n < 0 := by omega
        obtain ⟨h1, h2, h3⟩ := ih size (upd ids n (-ids n)) hnd.2
        rw [if_neg hn]
        simp only [List.map_cons, Option.bind_some, if_neg hn, List.filterMap_cons, id, List.filter_cons]
        have hsame : ∀ m ∈ st.filterMap id, upd ids n (-ids n) m = ids m := by
          intro m hm
          rw [upd, if_neg (by rintro rfl; exact hnd.1 hm)]
        refine ⟨?_, ?_, ?_⟩
        · rw [h1]
          congr 1
          refine List.map_congr_left fun x hx => ?_
          cases x with
          | none => rfl
          | some m => simp only [Option.bind_some]; rw [hsame m (List.mem_filterMap.mpr ⟨_, hx, rfl⟩)]
        · rw [h2, List.filter_congr (fun m hm => by rw [hsame m hm])]
          simp [hn]
        · rw [h3]
          funext m
          simp only [List.mem_cons, upd, id]
          by_cases hm : m = n
          · subst hm
            simp [hlt]
            intro _ h; omega
          · simp [hm]

theorem compact_lay (s : JLayer) (f : Nat → Option Nat) :
    ({ s with lay := f } : JLayer).compact = ({ s.compact.1 with lay := f }, s.compact.2) := by
  unfold JLayer.compact
  simp only
  split
  · rfl
  · generalize ((compactLoop s.storage.length 0 0 s.storage s.ids).1.take s.size.toNat ++
      List.replicate ((compactLoop s.storage.length 0 0 s.storage s.ids).1.length - s.size.toNat) none) = st
    rw [show (JLayer.mk st s.size (compactLoop s.storage.length 0 0 s.storage s.ids).2 f).sparse =
      (JLayer.mk st s.size (compactLoop s.storage.length 0 0 s.storage s.ids).2 s.lay).sparse from rfl]
    split <;> rfl

theorem shrink_lay (s : JLayer) (f : Nat → Option Nat) :
    ({ s with lay := f } : JLayer).shrink = ({ s.shrink.1 with lay := f }, s.shrink.2) := by
  unfold JLayer.shrink
  rw [compact_lay]
  by_cases hs : s.sparse = true
  · rw [if_pos hs, if_pos (show ({ s with lay := f } : JLayer).sparse = true from hs)]
  · rw [if_neg hs, if_neg (show ¬ ({ s with lay := f } : JLayer).sparse = true from hs)]

/-- C83. `retainAll(c)` for a non-empty collection of different nodes of the layer that does not contain the node in
slot 0 keeps exactly the nodes of `c`; but the others still say that the layer contains them. The full statement, for
any collection of nodes of the layer, is false: `C83_retain_false`. -/
theorem C83_retain_partial {s : JLayer} {l c : List Nat} (h : JLOk s l) (hc : c.Nodup) (hne : c ≠ []) (hsub : ∀ n ∈ c, n ∈ l)
    (h0 : ∀ n, s.storage[0]? = some (some n) → n ∉ c) : (s.retainAll c).2 = .ok true ∧ (s.retainAll c).1.nodes = l.filter (fun n => decide (n ∈ c)) ∧
    (s.retainAll c).1.sizeOf = c.length ∧ (∀ n ∈ l, (s.retainAll c).1.contains n = true) := by
  have hm := markLoop_ok c s false hc (fun n hn => (h.lay n).mpr (hsub n hn))
  have hsig : ∀ n ∈ l, (if n ∈ c then -s.ids n else s.ids n) ≥ 0 ↔ n ∉ c := by
    intro n hn
    obtain ⟨p, h1, h2, -⟩ := slot_of h hn
    rw [h2]
    by_cases hcn : n ∈ c
    · have : p ≠ 0 := by rintro rfl; exact h0 n h1 hcn
      simp only [hcn, if_true, not_true_eq_false, iff_false]
      omega
    · simp only [hcn, if_false, not_false_eq_true, iff_true]; omega
  obtain ⟨d1, d2, d3⟩ := dropLoop_ok s.storage s.size (fun n => if n ∈ c then -s.ids n else s.ids n) (by rw [h.nodes]; exact h.nodup)
  have hperm : (l.filter (fun n => decide (n ∈ c))).length = c.length := by
    refine (List.Perm.length_eq ?_)
    refine (List.perm_ext_iff_of_nodup (h.nodup.filter _) hc).mpr fun n => ?_
    simp only [List.mem_filter, decide_eq_true_eq]
    exact ⟨fun e => e.2, fun e => ⟨hsub n e, e⟩⟩
  have hmap : (s.storage.map (fun x => x.bind fun n => if (if n ∈ c then -s.ids n else s.ids n) ≥ 0 then none else some n)).filterMap id =
      l.filter (fun n => decide (n ∈ c)) := by
    have : ∀ (st : List (Option Nat)), (∀ n ∈ st.filterMap id, n ∈ l) →
        (st.map (fun x => x.bind fun n => if (if n ∈ c then -s.ids n else s.ids n) ≥ 0 then none else some n)).filterMap id =
        (st.filterMap id).filter (fun n => decide (n ∈ c)) := by
      intro st
      induction st with
      | nil => intro _; rfl
      | cons x st ih =>
        intro hx
        cases x with
        | none => simpa [List.filterMap_cons] using ih (fun n hn => hx n (by simpa [List.filterMap_cons] using hn))
        | some m =>
          have hi := ih (fun n hn => hx n (by simp only [List.filterMap_cons, id]; exact List.mem_cons_of_mem _ hn))
          have := hsig m (hx m (by simp [List.filterMap_cons]))
          simp only [List.map_cons, Option.bind_some, List.filterMap_cons]
          by_cases hmc : m ∈ c
          · rw [if_neg (by rw [this]; simp [hmc])]
            simp only [id, List.filter_cons, hmc, decide_true, if_true]
            rw [← hi]
          · rw [if_pos (this.mpr hmc)]
            simp only [id, List.filter_cons, hmc, decide_false]
            exact hi
    rw [this s.storage (fun n hn => by rw [← h.nodes]; exact hn), h.nodes]
  have hok : JLOk ⟨(dropLoop s.storage s.size (fun n => if n ∈ c then -s.ids n else s.ids n)).1,
      (dropLoop s.storage s.size (fun n => if n ∈ c then -s.ids n else s.ids n)).2.1,
      (dropLoop s.storage s.size (fun n => if n ∈ c then -s.ids n else s.ids n)).2.2, fun n => if n ∈ c then some 0 else none⟩
      (l.filter (fun n => decide (n ∈ c))) := by
    refine ⟨⟨?_, h.nodup.filter _, ?_, ?_⟩, ?_⟩
    · simp only; rw [d1, hmap]
    · simp only
      rw [d2, h.nodes, h.size, List.filter_congr (q := fun n => !decide (n ∈ c)) (fun n hn => by rw [decide_eq_decide.mpr (hsig n hn), decide_not])]
      have := List.length_eq_countP_add_countP (fun n => decide (n ∈ c)) (l := l)
      simp only [List.countP_eq_length_filter, decide_not, Bool.decide_eq_true] at this
      omega
    · intro n
      simp only [List.mem_filter, decide_eq_true_eq]
      by_cases hn : n ∈ c
      · simp [hn, hsub n hn]
      · simp [hn]
    · intro i n hi
      simp only at hi ⊢
      rw [d1, List.getElem?_map] at hi
      cases hx : s.storage[i]? with
      | none => rw [hx] at hi; cases hi
      | some x =>
        cases x with
        | none => rw [hx] at hi; simp at hi
        | some m =>
          rw [hx] at hi
          simp only [Option.map_some, Option.bind_some, Option.some.injEq] at hi
          by_cases hneg : (if m ∈ c then -s.ids m else s.ids m) ≥ 0
          · rw [if_pos hneg] at hi; cases hi
          · rw [if_neg hneg, Option.some.injEq] at hi
            subst hi
            have hml : m ∈ s.storage.filterMap id := List.mem_filterMap.mpr ⟨_, List.mem_of_getElem? hx, rfl⟩
            have hmc : m ∈ c := by
              have := hsig m (by rw [← h.nodes]; exact hml)
              by_cases e : m ∈ c
              · exact e
              · exact absurd (this.mpr e) hneg
            rw [d3]
            simp only [hml, true_and, hmc, if_true]
            simp only [hmc, if_true] at hneg
            rw [if_pos (by omega), Int.neg_neg]
            exact h.ids i m hx
  unfold JLayer.retainAll
  rw [hm]
  have hcne : c.isEmpty = false := by cases c with | nil => exact absurd rfl hne | cons _ _ => rfl
  simp only [hcne, Bool.not_false, Bool.or_true]
  obtain ⟨g1, g2, -⟩ := shrink_ok hok
  have hsl := shrink_lay ⟨(dropLoop s.storage s.size (fun n => if n ∈ c then -s.ids n else s.ids n)).1,
      (dropLoop s.storage s.size (fun n => if n ∈ c then -s.ids n else s.ids n)).2.1,
      (dropLoop s.storage s.size (fun n => if n ∈ c then -s.ids n else s.ids n)).2.2, fun n => if n ∈ c then some 0 else none⟩ s.lay
  simp only at hsl
  rw [hsl, g1]
  simp only
  refine ⟨trivial, g2.nodes, ?_, ?_⟩
  · unfold JLayer.sizeOf
    simp only
    rw [g2.size, hperm]
  · intro n hn
    unfold JLayer.contains
    simp [(h.lay n).mpr hn]

/-! ### what goes wrong -/

/-- C83, the full statement: whatever calls are made, a layer answers as a list of nodes and holds what the list holds. -/
def C83_full : Prop := ∀ os : List JLayer.Op, (JLayer.new.run os).2 = (Spec.listRun (fun _ => false) [] os).2 ∧
  (JLayer.new.run os).1.nodes = (Spec.listRun (fun _ => false) [] os).1

/-- three nodes are added, the first is removed, and a fourth is added: the third node is gone from the layer,
`size()` is 3 although two nodes are left, and the third node says that it is in the layer -/
theorem C83_node_lost : (JLayer.new.run [.add 0, .add 1, .add 2, .remove 0, .add 3]).1.nodes = [1, 3] ∧
    (JLayer.new.run [.add 0, .add 1, .add 2, .remove 0, .add 3]).1.sizeOf = 3 ∧
    (JLayer.new.run [.add 0, .add 1, .add 2, .remove 0, .add 3]).1.contains 2 = true ∧
    (Spec.listRun (fun _ => false) [] [.add 0, .add 1, .add 2, .remove 0, .add 3]).1 = [1, 2, 3] := by decide

/-- with a `compact()` after that, a node is in the layer twice -/
theorem C83_node_doubled_lost : (JLayer.new.run [.add 0, .add 1, .add 2, .remove 0, .add 3, .compact]).1.nodes = [1, 3, 3] := by decide

/-- two nodes are added, the second is removed, and a third is added: its id is not its position, `get` of its id and
its removal raise -/
theorem C83_id_over : (JLayer.new.run [.add 0, .add 1, .remove 1, .add 2]).1.nodes = [0, 2] ∧
    (JLayer.new.run [.add 0, .add 1, .remove 1, .add 2]).1.get ((JLayer.new.run [.add 0, .add 1, .remove 1, .add 2]).1.ids 2) = .error .index ∧
    (JLayer.new.run [.add 0, .add 1, .remove 1, .add 2, .remove 2]).2.getLast? = some (.error .index) := by decide

/-- `clear()` after a removal raises, and leaves the layer as it was but for some nodes' fields -/
theorem C83_clear_raises : (JLayer.new.run [.add 0, .add 1, .remove 1, .clear]).2.getLast? = some (.error .attribute) ∧
    (JLayer.new.run [.add 0, .add 1, .remove 1, .clear]).1.nodes = [0] ∧
    (JLayer.new.run [.add 0, .add 1, .remove 1, .clear]).1.contains 0 = false := by decide

/-- after sorting, removing a node removes another one: the first node is removed from the layer, and the second is
gone -/
theorem C83_sort_removal_lost : (((JLayer.new.run [.add 0, .add 1]).1.sort List.reverse).1.remove 0).2 = .ok () ∧
    (((JLayer.new.run [.add 0, .add 1]).1.sort List.reverse).1.remove 0).1.nodes = [0] := by decide

/-- `retainAll` drops the node with id 0 although it is to be retained; keeps every node if nothing is to be
retained; drops a node that is given twice; and if it raises, leaves the ids of the nodes before the foreign one
negative -/
theorem C83_retain_false : ((JLayer.new.run [.add 0, .add 1]).1.retainAll [0, 1]).1.nodes = [1] ∧
    ((JLayer.new.run [.add 0, .add 1]).1.retainAll []).1.nodes = [0, 1] ∧
    ((JLayer.new.run [.add 0, .add 1]).1.retainAll [1, 1]).1.nodes = [] ∧
    ((JLayer.new.run [.add 0, .add 1]).1.retainAll [1, 5]).2 = .error .value ∧
    ((JLayer.new.run [.add 0, .add 1]).1.retainAll [1, 5]).1.ids 1 = -1 := by decide

/-- C83. The full statement is false. -/
theorem C83_full_false : ¬ C83_full := by
  intro h
  have := (h [.add 0, .add 1, .add 2, .remove 0, .add 3]).2
  rw [C83_node_lost.1, C83_node_lost.2.2.2] at this
  exact absurd this (by decide)

/-- removals need no full layer -/
theorem whenFull_rest (os : List JLayer.Op) (h : ∀ o ∈ os, Spec.needsFull o = false) : ∀ s : JLayer, Spec.WhenFull s os := by
  induction os with
  | nil => intro s; trivial
  | cons o os ih =>
    intro s
    exact ⟨fun e => (by rw [h o (by simp)] at e; cases e), ih (fun o ho => h o (by simp [ho])) _⟩

theorem whenFull_adds (ns : List Nat) (os : List JLayer.Op) (h : ∀ o ∈ os, Spec.needsFull o = false) : ∀ s : JLayer, Spec.Full s →
    Spec.WhenFull s (ns.map .add ++ os) := by
  induction ns with
  | nil => intro s _; exact whenFull_rest os h s
  | cons n ns ih =>
    intro s hs
    refine ⟨fun _ => hs, ih _ ?_⟩
    unfold Spec.Full at hs ⊢
    simp only [JLayer.op, JLayer.add]
    split
    · exact hs
    · rw [if_neg (by omega)]
      simp only [List.length_append, List.length_cons, List.length_nil]
      omega

/-- C83. In particular, a layer to which nodes are added and from which they are then only removed holds the added
nodes without the removed ones, in the order of addition. -/
theorem C83_build_partial (ns c : List Nat) (hn : ns.Nodup) : (JLayer.new.run (ns.map .add ++ [.removeAll c])).1.nodes = ns.filter (fun n => decide (n ∉ c)) ∧
    (JLayer.new.run (ns.map .add ++ [.removeAll c])).1.sizeOf = (ns.filter (fun n => decide (n ∉ c))).length := by
  obtain ⟨l, h1, -, h2, h3, -⟩ := C83_sequence_partial (lay := fun _ => none) (ids := fun _ => 0) (by simp) (ns.map .add ++ [.removeAll c])
    (whenFull_adds ns _ (by simp [Spec.needsFull]) _ (by simp [Spec.Full]))
  have hrun : ∀ (ns l : List Nat), (l ++ ns).Nodup → (Spec.listRun (fun _ => false) l (ns.map .add ++ [.removeAll c])).1 =
      (l ++ ns).filter (fun n => decide (n ∉ c)) := by
    intro ns
    induction ns with
    | nil => intro l _; simp [Spec.listRun, Spec.listOp]
    | cons n ns ih =>
      intro l hl
      have hnl : n ∉ l := by
        rw [List.nodup_append] at hl
        exact fun e => hl.2.2 n e n (by simp) rfl
      simp only [List.map_cons, List.cons_append, Spec.listRun]
      rw [show (Spec.listOp (fun _ => false) l (.add n)).1 = l ++ [n] by simp [Spec.listOp, hnl]]
      rw [ih (l ++ [n]) (by simpa using hl)]
      simp
  have hl : l = ns.filter (fun n => decide (n ∉ c)) := by
    rw [h1]
    exact (hrun ns [] (by simpa using hn))
  rw [← hl]
  exact ⟨h2, h3⟩

namespace Ex

/-- twenty nodes are added, six removed, which gives up the empty slots, and another one added -/
def jlayerOps : List JLayer.Op := (List.range 20).map .add ++ ((List.range 6).map fun k => .remove (3 * k)) ++ [.add 100]

/-- Non-vacuity of C83_sequence_partial: an addition after removals -/
example : (JLayer.new.run jlayerOps).1.nodes = [1, 2, 4, 5, 7, 8, 10, 11, 13, 14, 16, 17, 18, 19, 100] ∧
    (JLayer.new.run jlayerOps).1.ids 100 = 14 ∧ (JLayer.new.run (jlayerOps.take 26)).1.storage.length = 14 ∧
    (JLayer.new.run jlayerOps).1.nodespan 4 10 = .ok [4, 5, 7, 8, 10] := by decide +kernel

/-- Non-vacuity of C83_retain_partial, C83_sort and C83_build_partial -/
example : ((JLayer.new.run [.add 0, .add 1, .add 2]).1.retainAll [2]).1.nodes = [2] ∧
    ((JLayer.new.run [.add 0, .add 1, .add 2]).1.sort List.reverse).1.nodes = [2, 1, 0] ∧
    (JLayer.new.run [.add 0, .add 1, .add 2, .removeAll [1, 7]]).1.nodes = [0, 2] := by decide

end Ex

end Verif
