import Verif.Proof.JavaIterate
/-
C105: loops over a layer of the Java library whose body changes the layer.
-/
set_option linter.unusedSimpArgs false
namespace Verif
open JLayer

namespace Spec

/-- a layer as it should be: `size()` counts the nodes that iteration gives, none is given twice, they are the nodes that say they
are in the layer, and each is found by its id -/
structure Sound (s : JLayer) : Prop where
  size : s.sizeOf = s.nodes.length
  nodup : s.nodes.Nodup
  contains : ∀ n, s.contains n = true ↔ n ∈ s.nodes
  get : ∀ n ∈ s.nodes, s.get (s.ids n) = .ok (some n)

/-- what a loop that removes the nodes with `p` is meant to leave -/
def leave (p : Nat → Bool) (ns : List Nat) : List Nat := ns.filter (fun n => !p n)

end Spec

theorem filterMap_pos {st : List (Option Nat)} (hd : (st.filterMap id).Nodup) : ∀ {i j n : Nat}, st[i]? = some (some n) → st[j]? = some (some n) → i = j := by
  induction st with
  | nil => intro i j n h; simp at h
  | cons x st ih =>
    intro i j n h1 h2
    have hmem : ∀ {k : Nat}, st[k]? = some (some n) → n ∈ st.filterMap id := fun hk => List.mem_filterMap.mpr ⟨_, List.mem_of_getElem? hk, rfl⟩
    cases x with
    | none =>
      simp only [List.filterMap_cons, id] at hd
      cases i with
      | zero => simp at h1
      | succ i =>
        cases j with
        | zero => simp at h2
        | succ j => rw [List.getElem?_cons_succ] at h1 h2; rw [ih hd h1 h2]
    | some m =>
      simp only [List.filterMap_cons, id, List.nodup_cons] at hd
      cases i with
      | zero =>
        cases j with
        | zero => rfl
        | succ j =>
          rw [List.getElem?_cons_succ] at h2
          simp only [List.getElem?_cons_zero, Option.some.injEq] at h1
          exact absurd (h1 ▸ hmem h2) hd.1
      | succ i =>
        rw [List.getElem?_cons_succ] at h1
        cases j with
        | zero =>
          simp only [List.getElem?_cons_zero, Option.some.injEq] at h2
          exact absurd (h2 ▸ hmem h1) hd.1
        | succ j => rw [List.getElem?_cons_succ] at h2; rw [ih hd.2 h1 h2]

theorem Spec.Sound.ok {s : JLayer} (h : Spec.Sound s) : JLOk s s.nodes := by
  refine ⟨⟨rfl, h.nodup, h.size, fun n => ?_⟩, fun i n hi => ?_⟩
  · rw [← h.contains n]; simp [JLayer.contains]
  · have hg := h.get n (List.mem_filterMap.mpr ⟨_, List.mem_of_getElem? hi, rfl⟩)
    unfold JLayer.get at hg
    split at hg
    · cases hg
    · rename_i hc
      have hlt : (s.ids n).toNat < s.storage.length := by omega
      rw [List.getElem?_eq_getElem hlt] at hg
      have hg' : s.storage[(s.ids n).toNat]? = some (some n) := by
        rw [List.getElem?_eq_getElem hlt]
        exact congrArg some (Except.ok.inj hg)
      have := filterMap_pos h.nodup hi hg'
      omega

theorem JLOk.sound {s : JLayer} {l : List Nat} (h : JLOk s l) : Spec.Sound s ∧ s.nodes = l := by
  have e : s.nodes = l := h.nodes
  refine ⟨⟨by rw [e]; exact h.size, by rw [e]; exact h.nodup, fun n => ?_, fun n hn => ?_⟩, e⟩
  · rw [e, ← h.lay n]; simp [JLayer.contains]
  · rw [e] at hn
    obtain ⟨p, h1, h2, -⟩ := slot_of h hn
    have hlt := (List.getElem?_eq_some_iff.mp h1).1
    unfold JLayer.get
    rw [h2, if_neg (by omega)]
    simp [h1]

/-- C105. Layers that are filled before nodes are removed from them are as they should be. -/
theorem C105_sound_partial {lay : Nat → Option Nat} {ids : Nat → Int} (hl : ∀ n, lay n ≠ some 0) (os : List JLayer.Op)
    (hw : Spec.WhenFull ⟨[], 0, ids, lay⟩ os) : Spec.Sound (JLayer.run ⟨[], 0, ids, lay⟩ os).1 := by
  have h0 : JLOk ⟨[], 0, ids, lay⟩ [] := ⟨⟨rfl, by simp, rfl, fun n => by simp [hl n]⟩, by simp⟩
  have hb : ∀ n, (fun n => (lay n).isSome) n = true ↔ ∃ k, (JLayer.mk [] 0 ids lay).lay n = some k ∧ k ≠ 0 := by
    intro n
    simp only [Option.isSome_iff_exists]
    constructor
    · rintro ⟨k, hk⟩; exact ⟨k, hk, fun e => hl n (by rw [hk, e])⟩
    · rintro ⟨k, hk, -⟩; exact ⟨k, hk⟩
  exact (jlRun_ok os h0 hb hw).2.sound.1

theorem jahead_start (s : JLayer) : jahead .start s 0 = s.nodes := rfl

/-! ### loops in general -/

theorem rounds_read (last : Bool) (s : JLayer) : ∀ (todo i : Nat), s.storage.length = i + todo →
    rounds last (fun _ _ => []) todo i s .start = (s, jahead .start s i, .ended)
  | 0, i, h => by
    unfold jahead
    rw [show Watch.slots .start s = s.storage from rfl, List.drop_eq_nil_of_le (by omega)]
    simp [rounds, Watch.start]
  | todo + 1, i, h => by
    have ih := rounds_read last s todo (i + 1) (by omega)
    unfold rounds
    rw [if_neg (by simp [Watch.start])]
    rcases jahead_step (v := .start) (s := s) (i := i) (by show i < s.storage.length; omega) with ⟨n, h1, h2⟩ | ⟨h1, h2⟩
    · rw [h1, h2]; simp only [JLayer.calls]; rw [ih]
    · rw [h1, h2]; exact ih

/-- C105. A loop that leaves the layer alone is given every node, in order, however the layer was made. -/
theorem C105_read (s : JLayer) : s.loop (fun _ _ => []) = (s, s.nodes, .ended) ∧ s.forEach (fun _ _ => []) = (s, s.nodes, .ended) :=
  ⟨rounds_read false s _ 0 (by omega), rounds_read true s _ 0 (by omega)⟩

theorem rounds_bound (last : Bool) (body : Nat → Nat → List JLayer.Op) : ∀ (todo i : Nat) (s : JLayer) (v : Watch),
    (rounds last body todo i s v).2.1.length ≤ todo
  | 0, _, _, _ => by simp [rounds]
  | todo + 1, i, s, v => by
    unfold rounds
    split
    · simp
    · split
      · split
        · simp
        · rename_i s' v' _
          have := rounds_bound last body todo (i + 1) s' v'
          simp only [List.length_cons]
          omega
      · have := rounds_bound last body todo (i + 1) s v
        omega

/-- C105. Whatever its body does, a loop ends: it has at most as many rounds as the layer had slots when it started. -/
theorem C105_ends (s : JLayer) (body : Nat → Nat → List JLayer.Op) :
    (s.loop body).2.1.length ≤ s.storage.length ∧ (s.forEach body).2.1.length ≤ s.storage.length :=
  ⟨rounds_bound _ _ _ _ _ _, rounds_bound _ _ _ _ _ _⟩

/-- C105. A loop that does not add nodes, and does not clear the layer, is given nodes that were in the layer, each at most once, in
order; there is no ConcurrentModificationException; and the layer is as it should be, with some of the nodes it had. -/
theorem C105_once {s : JLayer} (h : Spec.Sound s) (body : Nat → Nat → List JLayer.Op) (hb : ∀ i n, ∀ o ∈ body i n, Spec.needsFull o = false) :
    ((s.loop body).2.1.Sublist s.nodes ∧ (s.loop body).2.2 ≠ .concurrent ∧ Spec.Sound (s.loop body).1 ∧ (s.loop body).1.nodes.Sublist s.nodes) ∧
    ((s.forEach body).2.1.Sublist s.nodes ∧ (s.forEach body).2.2 ≠ .concurrent ∧ Spec.Sound (s.forEach body).1 ∧
      (s.forEach body).1.nodes.Sublist s.nodes) := by
  constructor
  · obtain ⟨a, b, l, c, d⟩ := rounds_sub false body hb s.storage.length 0 s .start _ h.ok rfl (by simp [Watch.slots, Watch.start])
    exact ⟨a, b, d.sound.1, by rw [show (s.loop body).1.nodes = l from d.sound.2]; exact c⟩
  · obtain ⟨a, b, l, c, d⟩ := rounds_sub true body hb s.storage.length 0 s .start _ h.ok rfl (by simp [Watch.slots, Watch.start])
    exact ⟨a, b, d.sound.1, by rw [show (s.forEach body).1.nodes = l from d.sound.2]; exact c⟩

theorem rounds_raise (last : Bool) {body : Nat → Nat → List JLayer.Op} {s s' : JLayer} {v : Watch} {e : PyErr} {a : Nat} {b : List Nat} (h : JLOk s s.nodes)
    (hc : s.calls .start (body (s.ids a).toNat a) = (s', v, some e)) : ∀ (todo i : Nat), s.storage.length = i + todo → jahead .start s i = a :: b →
    rounds last body todo i s .start = (s', [a], .raised e)
  | 0, i, hl, hj => by
    unfold jahead at hj
    rw [show Watch.slots .start s = s.storage from rfl, List.drop_eq_nil_of_le (by omega)] at hj
    cases hj
  | todo + 1, i, hl, hj => by
    unfold rounds
    rw [if_neg (by simp [Watch.start])]
    rcases jahead_step (v := .start) (s := s) (i := i) (by show i < s.storage.length; omega) with ⟨n, h1, h2⟩ | ⟨h1, h2⟩
    · rw [h2] at hj
      injection hj with e1 _
      subst e1
      have hi : s.ids n = (i : Int) := h.ids i n h1
      rw [hi, Int.toNat_natCast] at hc
      rw [h1]
      simp only [hc]
    · rw [h2] at hj
      rw [h1]
      exact rounds_raise last h hc todo (i + 1) (by omega) hj

/-- C105. An exception of the body ends the loop with that exception, with the layer as the body left it. -/
theorem C105_raise {s s' : JLayer} (h : Spec.Sound s) {body : Nat → Nat → List JLayer.Op} {a : Nat} {b : List Nat} (hn : s.nodes = a :: b) {v : Watch} {e : PyErr}
    (hc : s.calls .start (body (s.ids a).toNat a) = (s', v, some e)) :
    s.loop body = (s', [a], .raised e) ∧ s.forEach body = (s', [a], .raised e) :=
  ⟨rounds_raise false h.ok hc _ 0 (by omega) hn, rounds_raise true h.ok hc _ 0 (by omega) hn⟩

/-- C105. Removing a node twice in the body raises IllegalStateException in the first round, with the node removed. -/
theorem C105_twice {s : JLayer} (h : Spec.Sound s) {a : Nat} {b : List Nat} (hn : s.nodes = a :: b) :
    ∃ s', s.loop (fun _ n => [.remove n, .remove n]) = (s', [a], .raised .value) ∧ Spec.Sound s' ∧ s'.nodes = b := by
  have ha : a ∈ s.nodes := by rw [hn]; simp
  obtain ⟨h1, h2, -, -⟩ := remove_steps h.ok ha
  obtain ⟨-, h3, h4⟩ := shrink_ok h1
  refine ⟨(emptied s a).shrink.1, (C105_raise h hn (v := (Watch.op .start s (.remove a)).op (emptied s a).shrink.1 (.remove a)) ?_).1, h3.sound.1, ?_⟩
  · have hr : (emptied s a).shrink.1.remove a = ((emptied s a).shrink.1, .error .value) := by
      unfold JLayer.remove
      rw [if_pos (by rw [h4]; simp [emptied, upd])]
    simp only [JLayer.calls, JLayer.op, h2, hr, Except.map]
  · rw [h3.sound.2, hn, List.erase_cons_head]

/-! ### loops that remove the node at hand -/

/-- C105. A loop that removes nodes ends without an exception. It comes to the nodes of `Spec.loopSees`, and removes those of them that
it is to remove. -/
theorem C105_remove {s : JLayer} (h : Spec.Sound s) (p : Nat → Bool) {rm : Nat → JLayer.Op} (hr : rm = .remove ∨ rm = .removeObject) :
    ∃ seen, seen = Spec.loopSees p s.storage.length s.nodes.length s.ids 0 0 s.nodes ∧
      (∃ s', s.loop (fun _ n => if p n then [rm n] else []) = (s', seen, .ended) ∧ Spec.Sound s' ∧
        s'.nodes = s.nodes.filter (fun n => !(p n && decide (n ∈ seen)))) ∧
      ∃ s', s.forEach (fun _ n => if p n then [rm n] else []) = (s', seen, .ended) ∧ Spec.Sound s' ∧
        s'.nodes = s.nodes.filter (fun n => !(p n && decide (n ∈ seen))) := by
  have key : ∀ last, ∃ s', rounds last (dropBody rm p) s.storage.length 0 s .start =
      (s', Spec.loopSees p s.storage.length s.nodes.length s.ids 0 0 s.nodes, .ended) ∧ Spec.Sound s' ∧
      s'.nodes = s.nodes.filter (fun n => !(p n && decide (n ∈ Spec.loopSees p s.storage.length s.nodes.length s.ids 0 0 s.nodes))) := by
    intro last
    obtain ⟨s', a, b⟩ := rounds_drop last hr p s.storage.length s.nodes.length s.ids s.storage.length 0 s s.nodes 0 0 h.ok (by omega) rfl
      (fun _ _ => rfl) rfl (by simp) (by omega)
    exact ⟨s', a, b.sound.1, b.sound.2⟩
  exact ⟨_, rfl, key false, key true⟩

theorem loopSees_all (p : Nat → Bool) (slots size : Nat) (ids : Nat → Int) (b : List Nat) : ∀ (k r : Nat),
    slots ≤ 16 ∨ 3 * slots + 4 * (r + (b.filter p).length) ≤ 4 * size → Spec.loopSees p slots size ids k r b = b := by
  induction b with
  | nil => intro k r _; rfl
  | cons n b ih =>
    intro k r h
    unfold Spec.loopSees
    by_cases hp : p n = true
    · rw [List.filter_cons_of_pos hp, List.length_cons] at h
      rw [if_pos hp, if_neg (by omega), ih (k + 1) (r + 1) (by omega)]
    · rw [List.filter_cons_of_neg hp] at h
      rw [if_neg hp, ih (k + 1) r h]

/-- C105. The full statement: a loop that removes the nodes with `p` leaves the nodes without. -/
def C105_full : Prop := ∀ s : JLayer, Spec.Sound s → ∀ p : Nat → Bool, (s.loop fun _ n => if p n then [.remove n] else []).1.nodes = Spec.leave p s.nodes

/-- C105. A loop that removes the nodes with `p` leaves exactly the nodes without, if the layer has at most 16 slots, or if at
least three quarters of the slots are in use at the end. -/
theorem C105_remove_partial {s : JLayer} (h : Spec.Sound s) (p : Nat → Bool) {rm : Nat → JLayer.Op} (hr : rm = .remove ∨ rm = .removeObject)
    (hc : s.storage.length ≤ 16 ∨ 3 * s.storage.length ≤ 4 * (Spec.leave p s.nodes).length) :
    ∃ s', s.loop (fun _ n => if p n then [rm n] else []) = (s', s.nodes, .ended) ∧ Spec.Sound s' ∧ s'.nodes = Spec.leave p s.nodes := by
  obtain ⟨seen, e, ⟨s', h1, h2, h3⟩, -⟩ := C105_remove h p hr
  have hsplit : (Spec.leave p s.nodes).length + (s.nodes.filter p).length = s.nodes.length := by
    unfold Spec.leave
    generalize s.nodes = l
    induction l with
    | nil => rfl
    | cons n l ih => by_cases hp : p n = true <;> simp [hp] <;> omega
  have hs : seen = s.nodes := by rw [e]; exact loopSees_all p _ _ _ _ 0 0 (by omega)
  rw [hs] at h1 h3
  refine ⟨s', h1, h2, ?_⟩
  rw [h3]
  refine List.filter_congr fun n hn => ?_
  simp [hn]

/-- what a loop comes to that removes every node of a layer without empty slots -/
theorem loopSees_full {l : List Nat} {ids : Nat → Int} (h16 : 16 < l.length) (hids : ∀ (i n : Nat), l[i]? = some n → ids n = (i : Int)) :
    ∀ (d r : Nat), d + r = l.length / 4 → Spec.loopSees (fun _ => true) l.length l.length ids r r (l.drop r) =
      (l.drop r).take (d + 1) ++ l.drop (2 * (l.length / 4 + 1)) := by
  intro d
  induction d with
  | zero =>
    intro r hr
    have hlt : r < l.length := by omega
    rw [List.drop_eq_getElem_cons hlt]
    unfold Spec.loopSees
    rw [if_pos rfl, if_pos (by omega)]
    have := hids r l[r] (List.getElem?_eq_getElem hlt)
    rw [this, List.drop_drop]
    simp only [Int.toNat_natCast, Nat.sub_self, Nat.zero_add, List.take_succ_cons, List.take_zero, List.cons_append, List.nil_append]
    congr 2
    omega
  | succ d ih =>
    intro r hr
    have hlt : r < l.length := by omega
    rw [List.drop_eq_getElem_cons hlt]
    unfold Spec.loopSees
    rw [if_pos rfl, if_neg (by omega), ih (r + 1) (by omega), List.take_succ_cons, List.cons_append]

theorem filter_middle {l : List Nat} (hd : l.Nodup) (r : Nat) :
    l.filter (fun n => !(true && decide (n ∈ l.take r ++ l.drop (2 * r)))) = (l.drop r).take r := by
  have e : l = l.take r ++ ((l.drop r).take r ++ l.drop (2 * r)) := by
    conv => lhs; rw [← List.take_append_drop r l, ← List.take_append_drop r (l.drop r), List.drop_drop]
    congr 3
    omega
  generalize l.take r = a at e
  generalize (l.drop r).take r = b at e ⊢
  generalize l.drop (2 * r) = c at e
  subst e
  rw [List.nodup_append, List.nodup_append] at hd
  obtain ⟨-, ⟨-, -, h2⟩, h1⟩ := hd
  rw [List.filter_append, List.filter_append, List.filter_eq_nil_iff.mpr, List.filter_eq_self.mpr, List.filter_eq_nil_iff.mpr]
  · simp
  · intro n hn; simp [hn]
  · intro n hn
    have ha : n ∉ a := fun hm => h1 n hm n (by simp [hn]) rfl
    have hcc : n ∉ c := fun hm => h2 n hn n hm rfl
    simp [ha, hcc]
  · intro n hn; simp [hn]

/-- C105. A loop that removes every node of a layer of more than 16 nodes, none removed before, leaves more than a quarter of them: with `r` a
quarter of their number and one, the nodes that follow the first `r`, `r` many. -/
theorem C105_remove_every_false {s : JLayer} (h : Spec.Sound s) (hf : Spec.Full s) (h16 : 16 < s.nodes.length) {rm : Nat → JLayer.Op}
    (hr : rm = .remove ∨ rm = .removeObject) : ∃ s', (∃ seen, s.loop (fun _ n => [rm n]) = (s', seen, .ended)) ∧ Spec.Sound s' ∧
      s'.nodes = (s.nodes.drop (s.nodes.length / 4 + 1)).take (s.nodes.length / 4 + 1) ∧ s'.nodes.length = s.nodes.length / 4 + 1 := by
  obtain ⟨seen, e, ⟨s', h1, h2, h3⟩, -⟩ := C105_remove h (fun _ => true) hr
  have hst := full_storage h.ok.toJLW hf
  have hids : ∀ (i n : Nat), s.nodes[i]? = some n → s.ids n = (i : Int) := fun i n hi => h.ok.ids i n (by rw [hst, List.getElem?_map, hi]; rfl)
  have hlen : s.storage.length = s.nodes.length := by rw [hst]; simp
  have hs := loopSees_full h16 hids (s.nodes.length / 4) 0 (by omega)
  rw [List.drop_zero] at hs
  rw [hlen, hs] at e
  rw [e, filter_middle h.nodup] at h3
  refine ⟨s', ⟨seen, h1⟩, h2, h3, ?_⟩
  rw [h3]
  simp
  omega

/-- C105. `layer.removeAll(layer)` does not remove all: the same holds for it. -/
theorem C105_remove_all_false {s : JLayer} (h : Spec.Sound s) (hf : Spec.Full s) (h16 : 16 < s.nodes.length) :
    s.removeAllSelf.2 = .ended ∧ s.removeAllSelf.1.nodes = (s.nodes.drop (s.nodes.length / 4 + 1)).take (s.nodes.length / 4 + 1) ∧
      s.removeAllSelf.1.sizeOf = (s.nodes.length / 4 + 1 : Nat) := by
  obtain ⟨s', ⟨seen, h1⟩, h2, h3, h4⟩ := C105_remove_every_false h hf h16 (rm := .removeObject) (.inr rfl)
  unfold JLayer.removeAllSelf
  rw [h1]
  exact ⟨rfl, h3, by rw [h2.size, h4]⟩

/-- C105. With at most 16 slots it does. -/
theorem C105_remove_all_partial {s : JLayer} (h : Spec.Sound s) (h16 : s.storage.length ≤ 16) :
    s.removeAllSelf.2 = .ended ∧ s.removeAllSelf.1.nodes = [] := by
  obtain ⟨s', h1, -, h3⟩ := C105_remove_partial h (fun _ => true) (rm := .removeObject) (.inr rfl) (.inl h16)
  unfold JLayer.removeAllSelf
  rw [show (fun (_ n : Nat) => [JLayer.Op.removeObject n]) = (fun _ n => if (fun _ => true) n then [JLayer.Op.removeObject n] else []) from rfl, h1]
  exact ⟨rfl, by rw [h3]; simp [Spec.leave]⟩

/-- C105. A loop over a copy of the nodes, and `removeAll` of a copy, remove what they are to remove, whatever the size of the layer. -/
theorem C105_copy {s : JLayer} (h : Spec.Sound s) (p : Nat → Bool) :
    ((s.calls .start ((s.nodes.filter p).map .remove)).2.2 = none ∧ (s.calls .start ((s.nodes.filter p).map .remove)).1.nodes = Spec.leave p s.nodes) ∧
    (s.removeAll false (s.nodes.filter p)).1.nodes = Spec.leave p s.nodes := by
  have hfil : s.nodes.filter (fun n => decide (n ∉ s.nodes.filter p)) = Spec.leave p s.nodes := by
    refine List.filter_congr fun n hn => ?_
    simp [List.mem_filter, hn]
  constructor
  · have key : ∀ (c : List Nat) (s : JLayer) (v : Watch) (l : List Nat), JLOk s l → c.Nodup → (∀ n ∈ c, n ∈ l) →
        (s.calls v (c.map .remove)).2.2 = none ∧ JLOk (s.calls v (c.map .remove)).1 (l.filter (fun n => decide (n ∉ c))) := by
      intro c
      induction c with
      | nil => intro s v l hs _ _; exact ⟨rfl, by rw [List.filter_eq_self.mpr (by simp)]; exact hs⟩
      | cons n c ih =>
        intro s v l hs hd hsub
        rw [List.nodup_cons] at hd
        obtain ⟨a1, a2, -, -⟩ := remove_steps hs (hsub n (by simp))
        rw [List.map_cons]
        simp only [JLayer.calls, JLayer.op, a2, Except.map]
        obtain ⟨q1, q2⟩ := ih (emptied s n).shrink.1 (v.op s (.remove n)) (l.erase n) (shrink_ok a1).2.1 hd.2 (fun m hm =>
          (hs.nodup.mem_erase_iff).mpr ⟨fun e => hd.1 (e ▸ hm), hsub m (by simp [hm])⟩)
        refine ⟨q1, ?_⟩
        have : l.filter (fun m => decide (m ∉ n :: c)) = (l.erase n).filter (fun m => decide (m ∉ c)) := by
          rw [hs.nodup.erase_eq_filter, List.filter_filter]
          refine List.filter_congr fun m _ => ?_
          by_cases hm : m = n <;> simp [hm]
        rw [this]; exact q2
    obtain ⟨q1, q2⟩ := key (s.nodes.filter p) s .start s.nodes h.ok (h.nodup.filter _) (fun n hn => (List.mem_filter.mp hn).1)
    exact ⟨q1, by rw [q2.sound.2, hfil]⟩
  · rw [(removeAll_ok (s.nodes.filter p) false h.ok).2.1.sound.2, hfil]

/-! ### loops that add, clear, or ask the collection -/

/-- C105. A loop that adds a node is interrupted by ConcurrentModificationException after its first round, with the node added, unless
there was only one slot; `forEach` even then. -/
theorem C105_add {s : JLayer} (h : Spec.Sound s) (hf : Spec.Full s) {a : Nat} {b : List Nat} (hn : s.nodes = a :: b) {f : Nat → Nat} (hfresh : s.lay (f 0) = none) :
    (∃ s', s.loop (fun i _ => [.add (f i)]) = (s', [a], if b = [] then .ended else .concurrent) ∧ Spec.Sound s' ∧ s'.nodes = s.nodes ++ [f 0]) ∧
    ∃ s', s.forEach (fun i _ => [.add (f i)]) = (s', [a], .concurrent) ∧ Spec.Sound s' ∧ s'.nodes = s.nodes ++ [f 0] := by
  have hst := full_storage h.ok.toJLW hf
  have hlen : s.storage.length = b.length + 1 := by rw [hst, hn]; simp
  have hadd : (s.add (f 0)).2 = .ok () ∧ JLOk (s.add (f 0)).1 (s.nodes ++ [f 0]) := by
    have hb : ∀ n, (fun n => decide (s.lay n ≠ none ∧ s.lay n ≠ some 0)) n = true ↔ ∃ k, s.lay n = some k ∧ k ≠ 0 := by
      intro n
      simp only [decide_eq_true_iff]
      cases s.lay n with
      | none => simp
      | some k => simp
    obtain ⟨g1, g2, -⟩ := jlOp_ok h.ok hb (.add (f 0)) (fun _ => hf)
    have hmem : f 0 ∉ s.nodes := by rw [← h.ok.lay]; simp [hfresh]
    have hlist : Spec.listOp (fun n => decide (s.lay n ≠ none ∧ s.lay n ≠ some 0)) s.nodes (.add (f 0)) = (s.nodes ++ [f 0], .ok (.flag true)) := by
      simp [Spec.listOp, hmem, hfresh]
    rw [hlist] at g1 g2
    refine ⟨?_, g2⟩
    simp only [JLayer.op] at g1
    cases hx : (s.add (f 0)).2 with
    | error e => rw [hx] at g1; simp [Except.map] at g1
    | ok u => rfl
  have hslot : (Watch.slots .start s)[0]? = some (some a) := by
    show s.storage[0]? = _
    rw [hst, hn]; rfl
  have hv : Watch.op .start s (.add (f 0)) = ⟨none, true⟩ := by
    unfold Spec.Full at hf
    show Watch.add .start s (f 0) = _
    unfold Watch.add
    rw [if_pos ⟨hfresh, by omega, rfl⟩]
    rfl
  have hcalls : s.calls .start [.add (f 0)] = ((s.add (f 0)).1, ⟨none, true⟩, none) := by
    cases hx : s.add (f 0) with
    | mk s' r =>
      have h2 : r = .ok () := by have := hadd.1; rw [hx] at this; exact this
      subst h2
      simp only [JLayer.calls, JLayer.op, hx, Except.map, hv]
  constructor
  · refine ⟨(s.add (f 0)).1, ?_, hadd.2.sound.1, hadd.2.sound.2⟩
    unfold JLayer.loop
    rw [hlen, rounds, if_neg (by simp [Watch.start]), hslot]
    simp only [hcalls]
    cases b with
    | nil => simp [rounds]
    | cons c b => simp [rounds]
  · refine ⟨(s.add (f 0)).1, ?_, hadd.2.sound.1, hadd.2.sound.2⟩
    unfold JLayer.forEach
    rw [hlen, rounds, if_neg (by simp [Watch.start]), hslot]
    simp only [hcalls]
    cases b with
    | nil => simp [rounds]
    | cons c b => simp [rounds]

/-- C105. A loop that clears the layer is interrupted by ConcurrentModificationException after its first round, with the layer empty, unless
there was only one slot; `forEach` even then. -/
theorem C105_clear {s : JLayer} (h : Spec.Sound s) (hf : Spec.Full s) {a : Nat} {b : List Nat} (hn : s.nodes = a :: b) :
    (∃ s', s.loop (fun _ _ => [.clear]) = (s', [a], if b = [] then .ended else .concurrent) ∧ Spec.Sound s' ∧ s'.nodes = []) ∧
    ∃ s', s.forEach (fun _ _ => [.clear]) = (s', [a], .concurrent) ∧ Spec.Sound s' ∧ s'.nodes = [] := by
  have hst := full_storage h.ok.toJLW hf
  have hlen : s.storage.length = b.length + 1 := by rw [hst, hn]; simp
  have hcl : s.clear.2 = .ok () ∧ JLOk s.clear.1 [] := by
    have hb : ∀ n, (fun n => decide (s.lay n ≠ none ∧ s.lay n ≠ some 0)) n = true ↔ ∃ k, s.lay n = some k ∧ k ≠ 0 := by
      intro n
      simp only [decide_eq_true_iff]
      cases s.lay n with
      | none => simp
      | some k => simp
    obtain ⟨g1, g2, -⟩ := jlOp_ok h.ok hb .clear (fun _ => hf)
    refine ⟨?_, g2⟩
    simp only [JLayer.op, Spec.listOp] at g1
    cases hx : s.clear.2 with
    | error e => rw [hx] at g1; simp [Except.map] at g1
    | ok u => rfl
  have hslot : (Watch.slots .start s)[0]? = some (some a) := by
    show s.storage[0]? = _
    rw [hst, hn]; rfl
  have hcalls : s.calls .start [.clear] = (s.clear.1, ⟨none, true⟩, none) := by
    cases hx : s.clear with
    | mk s' r =>
      have h2 : r = .ok () := by have := hcl.1; rw [hx] at this; exact this
      subst h2
      simp only [JLayer.calls, JLayer.op, hx, Except.map, Watch.op, Watch.clear, Watch.start, if_true]
  constructor
  · refine ⟨s.clear.1, ?_, hcl.2.sound.1, hcl.2.sound.2⟩
    unfold JLayer.loop
    rw [hlen, rounds, if_neg (by simp [Watch.start]), hslot]
    simp only [hcalls]
    cases b with
    | nil => simp [rounds]
    | cons c b => simp [rounds]
  · refine ⟨s.clear.1, ?_, hcl.2.sound.1, hcl.2.sound.2⟩
    unfold JLayer.forEach
    rw [hlen, rounds, if_neg (by simp [Watch.start]), hslot]
    simp only [hcalls]
    cases b with
    | nil => simp [rounds]
    | cons c b => simp [rounds]

/-- C105. `layer.removeIf(p)` removes nothing; it raises if there is a node to remove. -/
theorem C105_removeIf (s : JLayer) (p : Nat → Bool) : (s.removeIf p).1 = s ∧
    ((s.removeIf p).2 = .error .notImplemented ↔ ∃ n ∈ s.nodes, p n = true) := by
  refine ⟨rfl, ?_⟩
  unfold JLayer.removeIf
  rw [← List.any_eq_true]
  cases s.nodes.any p <;> simp

namespace Ex

/-- twenty nodes -/
def jtwenty : JLayer := (JLayer.new.run ((List.range 20).map .add)).1

theorem jtwenty_sound : Spec.Sound jtwenty :=
  C105_sound_partial (by simp) _ (by
    have := whenFull_adds (List.range 20) [] (by simp) ⟨[], 0, fun _ => 0, fun _ => none⟩ rfl
    rwa [List.append_nil] at this)

end Ex

/-- C105. The full statement is false: the loop `for (Node n : layer) layer.remove(n)` leaves six of twenty nodes. -/
theorem C105_full_false : ¬ C105_full := by
  intro h
  have := h Ex.jtwenty Ex.jtwenty_sound (fun _ => true)
  exact absurd this (by decide +kernel)

/-- C105. Once the layer has given up its empty slots, the loop is given nodes that were removed in an earlier round: after the nodes 0 to 5
are removed, the round of node 12 removes node 13, and the next round is for node 13. -/
theorem C105_removed_node_seen : (Ex.jtwenty.loop fun _ n => if n < 6 then [.remove n] else if n = 12 then [.remove 13] else []).2.1 =
      [0, 1, 2, 3, 4, 5, 12, 13, 14, 15, 16, 17, 18, 19] ∧
    (Ex.jtwenty.loop fun _ n => if n < 6 then [.remove n] else if n = 12 then [.remove 13] else []).1.contains 13 = false ∧
    (Ex.jtwenty.loop fun _ n => if n = 12 then [.remove 13] else []).2.1 = (List.range 20).filter (· ≠ 13) := by decide +kernel

/-- Non-vacuity of C105_remove: twenty nodes, all but every fifth removed. -/
example : (Ex.jtwenty.loop fun _ n => if n % 5 ≠ 4 then [.remove n] else []).2.1 = [0, 1, 2, 3, 4, 5, 6, 13, 14, 15, 16, 17, 18, 19] ∧
    (Ex.jtwenty.loop fun _ n => if n % 5 ≠ 4 then [.remove n] else []).1.nodes = [4, 7, 8, 9, 10, 11, 12, 14, 19] ∧
    Spec.leave (fun n => decide (n % 5 ≠ 4)) Ex.jtwenty.nodes = [4, 9, 14, 19] := by decide +kernel

/-- Non-vacuity of C105_remove_partial: five of twenty nodes removed. -/
example : (Ex.jtwenty.loop fun _ n => if n % 4 = 0 then [.remove n] else []).1.nodes = (List.range 20).filter (· % 4 ≠ 0) ∧
    3 * Ex.jtwenty.storage.length ≤ 4 * (Spec.leave (fun n => decide (n % 4 = 0)) Ex.jtwenty.nodes).length := by decide +kernel

/-- Non-vacuity of C105_remove_every_false and C105_remove_all_false. -/
example : Ex.jtwenty.removeAllSelf.1.nodes = [6, 7, 8, 9, 10, 11] ∧ Spec.Full Ex.jtwenty ∧ 16 < Ex.jtwenty.nodes.length :=
  ⟨by decide +kernel, by show Ex.jtwenty.size = Ex.jtwenty.storage.length; decide +kernel, by decide +kernel⟩

/-- Non-vacuity of C105_add and C105_clear. -/
example : ((Ex.jtwenty.loop fun i _ => [.add (30 + i)]).1.nodes = List.range 20 ++ [30] ∧ (Ex.jtwenty.loop fun i _ => [.add (30 + i)]).2 = ([0], .concurrent)) ∧
    (((JLayer.new.add 7).1.loop fun i _ => [.add (30 + i)]).2 = ([7], .ended) ∧ ((JLayer.new.add 7).1.forEach fun i _ => [.add (30 + i)]).2 = ([7], .concurrent)) ∧
    ((Ex.jtwenty.loop fun _ _ => [.clear]).1.nodes = [] ∧ (Ex.jtwenty.loop fun _ _ => [.clear]).2 = ([0], .concurrent)) := by decide +kernel

/-- Non-vacuity of C105_once: a body that compacts and removes in between; a body whose second removal of a node raises. -/
example : (Ex.jtwenty.loop fun _ n => if n % 3 = 0 then [.removeAll [n, n + 1], .compact] else []).2.1 = [0, 3, 6, 9, 10, 11, 12, 13, 14, 15, 16, 17, 18, 19] ∧
    (Ex.jtwenty.loop fun _ n => [.remove n, .remove n]).2 = ([0], .raised .value) := by decide +kernel

end Verif
