import Verif.Model.Layer
/-
Consistency invariant of the heap and its preservation by every layer operation.
-/
set_option linter.unusedSimpArgs false
namespace Verif
namespace World

/-- the live nodes of a slot list, in order -/
def live (s : List (Option NodeId)) : List NodeId := s.filterMap id

@[simp] theorem live_nil : live [] = [] := rfl
@[simp] theorem live_none (s) : live (none :: s) = live s := rfl
@[simp] theorem live_some (n s) : live (some n :: s) = n :: live s := rfl
@[simp] theorem live_append (s t) : live (s ++ t) = live s ++ live t := by simp [live]
@[simp] theorem live_map_some (l : List NodeId) : live (l.map some) = l := by
  induction l <;> simp_all [live]

theorem live_length_le (s) : (live s).length ≤ s.length := List.length_filterMap_le _ _

theorem mem_live {s} {n : NodeId} : n ∈ live s ↔ some n ∈ s := by simp [live]

theorem map_some_live {s} (h : (live s).length = s.length) : (live s).map some = s := by
  induction s with
  | nil => rfl
  | cons a s ih =>
    cases a with
    | none => simp at h; have := live_length_le s; omega
    | some n => simp at h; simp [ih h]

theorem filter_isSome_eq (s : List (Option NodeId)) : s.filter Option.isSome = (live s).map some := by
  induction s with
  | nil => rfl
  | cons a s ih => cases a <;> simp [ih]

/-- nodes bound to no layer that is not listed; ids are slot positions; counter is exact -/
structure Inv (w : World) : Prop where
  slot : ∀ L (i : Nat) n, (w.layers L).slots[i]? = some (some n) →
    (w.nodes n).coll = some L ∧ (w.nodes n).id = (i : Int)
  bound : ∀ n L, (w.nodes n).coll = some L →
    ∃ i : Nat, (w.nodes n).id = i ∧ (w.layers L).slots[i]? = some (some n)
  num : ∀ L, (w.layers L).num = (live (w.layers L).slots).length
  fresh : ∀ n, w.nextN ≤ n → (w.nodes n).coll = none
  freshL : ∀ L, w.nextL ≤ L → (w.layers L).slots = []

theorem inv_empty : Inv World.empty := by
  constructor <;> simp [World.empty]

theorem nodup_of_index {s : List (Option NodeId)} (f : NodeId → Int)
    (h : ∀ (i : Nat) n, s[i]? = some (some n) → f n = (i : Int)) : (live s).Nodup := by
  unfold live
  refine List.Pairwise.filterMap id (S := fun a b => a ≠ b)
    (R := fun a b => ∀ n, a = some n → b ≠ some n) ?_ ?_
  · intro a a' hr b hb b' hb' e
    simp at hb hb'; subst hb; subst hb'; subst e
    exact hr b rfl rfl
  · rw [List.pairwise_iff_getElem]
    intro i j hi hj hij n ha hb
    have h1 := h i n (by rw [List.getElem?_eq_getElem hi, ha])
    have h2 := h j n (by rw [List.getElem?_eq_getElem hj, hb])
    omega

theorem Inv.nodup {w : World} (h : Inv w) (L) : (live (w.layers L).slots).Nodup :=
  nodup_of_index (fun n => (w.nodes n).id) (fun i n hi => (h.slot L i n hi).2)

theorem Inv.mem_iff {w : World} (h : Inv w) (L n) :
    n ∈ live (w.layers L).slots ↔ (w.nodes n).coll = some L := by
  rw [mem_live]
  constructor
  · intro hm
    obtain ⟨i, hi, he⟩ := List.getElem_of_mem hm
    exact (h.slot L i n (by rw [List.getElem?_eq_getElem hi, he])).1
  · intro hc
    obtain ⟨i, -, hi⟩ := h.bound n L hc
    exact List.mem_of_getElem? hi

theorem Inv.iter_eq {w : World} (h : Inv w) (L) : w.iter L = (live (w.layers L).slots).map some := by
  unfold iter
  split
  · rename_i he
    rw [h.num L] at he
    rw [map_some_live]; omega
  · exact filter_isSome_eq _

/-- Inv after an operation that only touched layer `L`. -/
theorem Inv.of_update {w w' : World} (h : Inv w) (L : LayerId)
    (hlay : ∀ K, K ≠ L → (w'.layers K).slots = (w.layers K).slots ∧ (w'.layers K).num = (w.layers K).num)
    (hnum : (w'.layers L).num = (live (w'.layers L).slots).length)
    (hslot : ∀ (i : Nat) n, (w'.layers L).slots[i]? = some (some n) →
      (w'.nodes n).coll = some L ∧ (w'.nodes n).id = (i : Int))
    (hbound : ∀ n, (w'.nodes n).coll = some L →
      ∃ i : Nat, (w'.nodes n).id = i ∧ (w'.layers L).slots[i]? = some (some n))
    (hother : ∀ n K, K ≠ L → ((w'.nodes n).coll = some K ↔ (w.nodes n).coll = some K))
    (hid : ∀ n K, K ≠ L → (w.nodes n).coll = some K → (w'.nodes n).id = (w.nodes n).id)
    (hnn : w.nextN ≤ w'.nextN) (hnl : w'.nextL = w.nextL)
    (hfresh : ∀ n, w'.nextN ≤ n → (w'.nodes n).coll ≠ some L)
    (hfl : w.nextL ≤ L → (w'.layers L).slots = []) : Inv w' where
  slot K i n hs := by
    by_cases hK : K = L
    · subst hK; exact hslot i n hs
    · rw [(hlay K hK).1] at hs
      obtain ⟨h1, h2⟩ := h.slot K i n hs
      exact ⟨(hother n K hK).mpr h1, by rw [hid n K hK h1, h2]⟩
  bound n K hc := by
    by_cases hK : K = L
    · subst hK; exact hbound n hc
    · have hc' := (hother n K hK).mp hc
      obtain ⟨i, h1, h2⟩ := h.bound n K hc'
      exact ⟨i, by rw [hid n K hK hc', h1], by rw [(hlay K hK).1, h2]⟩
  num K := by
    by_cases hK : K = L
    · subst hK; exact hnum
    · rw [(hlay K hK).1, (hlay K hK).2]; exact h.num K
  fresh n hn := by
    cases hc : (w'.nodes n).coll with
    | none => rfl
    | some K =>
      by_cases hK : K = L
      · subst hK; exact absurd hc (hfresh n hn)
      · have := (hother n K hK).mp hc
        rw [h.fresh n (by omega)] at this; simp at this
  freshL K hKn := by
    rw [hnl] at hKn
    by_cases hK : K = L
    · subst hK; exact hfl hKn
    · rw [(hlay K hK).1]; exact h.freshL K hKn

/-! ### assignIds -/

theorem assignIds_coll (nodes : NodeId → NodeRec) (s) : ∀ (i : Int) (n : NodeId),
    (assignIds nodes i s n).coll = (nodes n).coll ∧
    (assignIds nodes i s n).fields = (nodes n).fields := by
  induction s generalizing nodes with
  | nil => intro i n; exact ⟨rfl, rfl⟩
  | cons a s ih =>
    intro i n
    cases a with
    | none => exact ih _ _ _
    | some m =>
      simp only [assignIds]
      rw [(ih _ _ _).1, (ih _ _ _).2]
      simp only [upd]; split <;> simp_all

theorem assignIds_not_mem (nodes : NodeId → NodeRec) (s) : ∀ (i : Int) (n : NodeId), some n ∉ s →
    assignIds nodes i s n = nodes n := by
  induction s generalizing nodes with
  | nil => intro i n _; rfl
  | cons a s ih =>
    intro i n hn
    simp only [List.mem_cons, not_or] at hn
    cases a with
    | none => exact ih _ _ _ hn.2
    | some m =>
      simp only [assignIds]
      rw [ih _ _ _ hn.2, upd_ne]
      rintro rfl; exact hn.1 rfl

theorem assignIds_getElem (nodes : NodeId → NodeRec) (l : List NodeId) (hn : l.Nodup) :
    ∀ (i : Int) (j : Nat) (n : NodeId), l[j]? = some n →
    (assignIds nodes i (l.map some) n).id = i + j := by
  induction l generalizing nodes with
  | nil => intro i j n h; simp at h
  | cons a l ih =>
    intro i j n h
    rw [List.nodup_cons] at hn
    simp only [List.map_cons, assignIds]
    cases j with
    | zero =>
      simp at h; subst h
      rw [assignIds_not_mem]
      · simp
      · simpa using hn.1
    | succ j =>
      simp at h
      rw [ih _ hn.2 (i+1) j n h]
      omega

theorem assignIds_self (nodes : NodeId → NodeRec) (s : List (Option NodeId)) : ∀ (i : Int),
    (∀ (j : Nat) n, s[j]? = some (some n) → (nodes n).id = i + j) → assignIds nodes i s = nodes := by
  induction s generalizing nodes with
  | nil => intro i _; rfl
  | cons a s ih =>
    intro i h
    have h' : ∀ (j : Nat) n, s[j]? = some (some n) → (nodes n).id = (i + 1) + j := by
      intro j n hj
      have := h (j+1) n (by simpa using hj)
      omega
    cases a with
    | none => exact ih _ _ h'
    | some m =>
      have hm := h 0 m (by simp)
      have : upd nodes m { nodes m with id := i } = nodes := by
        funext x; simp only [upd]; split
        · subst_vars; simp at hm; rw [← hm]
        · rfl
      simp only [assignIds, this]
      exact ih _ _ h'

/-! ### compact -/

theorem setSlots_layers (w : World) (L s) : (w.setSlots L s).layers = upd w.layers L { w.layers L with slots := s } := rfl
theorem setId_nodes (w : World) (n i) : (w.setId n i).nodes = upd w.nodes n { w.nodes n with id := i } := rfl
theorem setColl_nodes (w : World) (n c) : (w.setColl n c).nodes = upd w.nodes n { w.nodes n with coll := c } := rfl
theorem setNum_layers (w : World) (L k) : (w.setNum L k).layers = upd w.layers L { w.layers L with num := k } := rfl

/-- what the compaction loop leaves behind -/
def compacted (w : World) (L : LayerId) (s : List (Option NodeId)) (P : List NodeId) (l : List NodeId) : World :=
  { w with
    layers := upd w.layers L { w.layers L with slots := s }
    nodes := assignIds w.nodes P.length (l.map some) }

theorem compactLoop_eq (L : LayerId) (S : List (Option NodeId)) :
    ∀ (m k : Nat) (P : List NodeId) (w : World), k + m = S.length → P.length ≤ k →
    (w.layers L).slots = P.map some ++ S.drop P.length →
    compactLoop L (List.range' k m) P.length w =
      (compacted w L ((P ++ live (S.drop k)).map some ++ S.drop (P ++ live (S.drop k)).length) P (live (S.drop k)),
        (P ++ live (S.drop k)).length) := by
  intro m
  induction m with
  | zero =>
    intro k P w hk hP hs
    have : S.drop k = [] := List.drop_eq_nil_of_le (by omega)
    simp [compactLoop, compacted, this, assignIds, ← hs]
  | succ m ih =>
    intro k P w hk hP hs
    have hlt : k < S.length := by omega
    have hdrop : S.drop k = S[k] :: S.drop (k+1) := List.drop_eq_getElem_cons hlt
    have hread : (w.layers L).slots[k]? = some S[k] := by
      rw [hs, List.getElem?_append_right (by simp; omega)]
      simp only [List.length_map, List.getElem?_drop]
      rw [show P.length + (k - P.length) = k by omega, List.getElem?_eq_getElem hlt]
    simp only [List.range'_succ, compactLoop, hread]
    rw [hdrop]
    cases hSk : S[k] with
    | none =>
      simp only [live_none]
      exact ih (k+1) P w (by omega) (by omega) hs
    | some n =>
      simp only [live_some]
      let w1 := (w.setSlots L ((w.layers L).slots.set P.length (some n))).setId n P.length
      have hs1 : (w1.layers L).slots = (P ++ [n]).map some ++ S.drop (P ++ [n]).length := by
        show (upd w.layers L _ L).slots = _
        rw [upd_same]
        simp only [hs]
        have hlt2 : P.length < S.length := by omega
        rw [List.set_append_right _ _ (by simp)]
        simp only [List.length_map, Nat.sub_self, List.map_append, List.map_cons, List.map_nil,
          List.length_append, List.length_singleton, List.append_assoc, List.singleton_append]
        rw [List.drop_eq_getElem_cons hlt2]; rfl
      have := ih (k+1) (P ++ [n]) w1 (by omega) (by simp; omega) hs1
      simp only [List.length_append, List.length_singleton] at this
      refine Eq.trans this ?_
      simp only [List.append_assoc, List.singleton_append, List.length_append, List.length_cons]
      refine Prod.ext ?_ ?_
      · simp only [compacted, w1]
        simp only [setId_nodes, World.setId, World.modNode, World.setSlots, World.modLayer, upd_upd, upd_same,
          List.map_cons, assignIds, List.length_append, List.length_singleton,
          show (P.length + 1 + (live (S.drop (k+1))).length) = P.length + ((live (S.drop (k+1))).length + 1) by omega]
        rfl
      · simp; omega

/-- `compact` on any consistent heap: dense slots, ids reassigned. -/
theorem compact_eq {w : World} (h : Inv w) (L : LayerId) :
    w.compact L = { w with
      layers := upd w.layers L { w.layers L with slots := (live (w.layers L).slots).map some }
      nodes := assignIds w.nodes 0 ((live (w.layers L).slots).map some) } := by
  unfold compact
  split
  · rename_i he
    rw [h.num L] at he
    have e := map_some_live (s := (w.layers L).slots) (by omega)
    rw [e]
    rw [assignIds_self]
    · simp
    · intro j n hj; rw [(h.slot L j n hj).2]; omega
  · have := compactLoop_eq L (w.layers L).slots (w.layers L).slots.length 0 [] w (by omega) (by simp) (by simp)
    rw [← List.range_eq_range'] at this
    simp only [List.length_nil] at this
    rw [this]
    simp only [List.nil_append, List.drop_zero, compacted, setSlots, modLayer, upd_upd, upd_same,
      List.length_nil]
    rw [List.take_left' (by simp)]
    rfl

theorem inv_compact {w : World} (h : Inv w) (L : LayerId) : Inv (w.compact L) := by
  have hn := h.nodup L
  rw [compact_eq h]
  refine h.of_update L ?_ ?_ ?_ ?_ ?_ ?_ (Nat.le_refl _) rfl ?_ ?_
  · intro K hK; simp [upd_ne _ _ hK]
  · simp [h.num L]
  · intro i n hi
    simp only [upd_same, List.getElem?_map, Option.map_eq_some_iff, Option.some.injEq] at hi
    obtain ⟨a, ha, rfl⟩ := hi
    refine ⟨?_, ?_⟩
    · rw [(assignIds_coll _ _ _ _).1]
      exact (h.mem_iff L a).mp (List.mem_of_getElem? ha)
    · rw [assignIds_getElem _ _ hn 0 i a ha]; omega
  · intro n hc
    rw [(assignIds_coll _ _ _ _).1] at hc
    have hm := (h.mem_iff L n).mpr hc
    obtain ⟨i, hi, he⟩ := List.getElem_of_mem hm
    have hg : (live (w.layers L).slots)[i]? = some n := by rw [List.getElem?_eq_getElem hi, he]
    refine ⟨i, ?_, ?_⟩
    · rw [assignIds_getElem _ _ hn 0 i n hg]; omega
    · simp [upd_same, hg]
  · intro n K hK; rw [(assignIds_coll _ _ _ _).1]
  · intro n K hK hc
    show (assignIds _ _ _ n).id = _
    rw [assignIds_not_mem]
    intro hm
    simp at hm
    rw [h.mem_iff L n, hc] at hm
    simp at hm; exact hK hm
  · intro n hn'
    rw [(assignIds_coll _ _ _ _).1, h.fresh n hn']; simp
  · intro hl; simp [h.freshL L hl]

theorem abs_compact {w : World} (h : Inv w) (L K : LayerId) :
    live ((w.compact L).layers K).slots = live (w.layers K).slots := by
  rw [compact_eq h]
  simp only [upd]; split
  · subst_vars; simp
  · rfl

/-! ### append -/

theorem appendNode_eq (w : World) (L : LayerId) (n : NodeId) :
    w.appendNode L n = { w with
      nodes := upd w.nodes n { w.nodes n with id := (w.layers L).slots.length, coll := some L }
      layers := upd w.layers L { w.layers L with
        slots := (w.layers L).slots ++ [some n], num := (w.layers L).num + 1 } } := by
  simp [appendNode, setId, setColl, setSlots, setNum, modNode, modLayer]

theorem inv_append_core {w : World} (h : Inv w) (L : LayerId) (n : NodeId) (hL : L < w.nextL)
    (hd : (w.nodes n).coll = none) (r : NodeRec) (hr : r.id = (w.layers L).slots.length)
    (hrc : r.coll = some L) (w' : World)
    (hnodes : w'.nodes = upd w.nodes n r) (hnext : w.nextN ≤ w'.nextN) (hn : n < w'.nextN)
    (hnl : w'.nextL = w.nextL)
    (hlay : w'.layers = upd w.layers L { w.layers L with
        slots := (w.layers L).slots ++ [some n], num := (w.layers L).num + 1 }) : Inv w' := by
  have hnm : ∀ (i : Nat) m, (w.layers L).slots[i]? = some (some m) → m ≠ n := by
    rintro i m hi rfl
    rw [(h.slot L i _ hi).1] at hd; simp at hd
  refine h.of_update L ?_ ?_ ?_ ?_ ?_ ?_ hnext hnl ?_ ?_
  · intro K hK; rw [hlay]; simp [upd_ne _ _ hK]
  · rw [hlay]; simp [h.num L]
  · intro i m hi
    rw [hlay, upd_same] at hi
    rw [hnodes]
    rw [List.getElem?_append] at hi
    split at hi
    · rw [upd_ne _ _ (hnm i m hi)]; exact h.slot L i m hi
    · rename_i hge
      have : i = (w.layers L).slots.length := by
        have := (List.getElem?_eq_some_iff.mp hi).1; simp at this; omega
      subst this
      simp at hi; subst hi
      simp [hr, hrc]
  · intro m hc
    rw [hnodes] at hc ⊢
    rw [hlay, upd_same]
    by_cases hm : m = n
    · subst hm
      refine ⟨(w.layers L).slots.length, by simp [hr], by simp⟩
    · rw [upd_ne _ _ hm] at hc ⊢
      obtain ⟨i, h1, h2⟩ := h.bound m L hc
      refine ⟨i, h1, ?_⟩
      rw [List.getElem?_append_left (List.getElem?_eq_some_iff.mp h2).1]; exact h2
  · intro m K hK
    rw [hnodes]
    by_cases hm : m = n
    · subst hm; simp [hrc, hd]; exact fun e => hK e.symm
    · rw [upd_ne _ _ hm]
  · intro m K hK hc
    rw [hnodes]
    by_cases hm : m = n
    · subst hm; rw [hd] at hc; simp at hc
    · rw [upd_ne _ _ hm]
  · intro m hm
    rw [hnodes, upd_ne _ _ (by omega), h.fresh m (by omega)]; simp
  · intro hl; omega

theorem inv_appendNode {w : World} (h : Inv w) (L : LayerId) (n : NodeId) (hL : L < w.nextL)
    (hd : (w.nodes n).coll = none) (hn : n < w.nextN) : Inv (w.appendNode L n) := by
  rw [appendNode_eq]
  exact inv_append_core h L n hL hd _ rfl rfl _ rfl (Nat.le_refl _) hn rfl rfl

theorem abs_appendNode (w : World) (L K : LayerId) (n : NodeId) :
    live ((w.appendNode L n).layers K).slots =
      if K = L then live (w.layers L).slots ++ [n] else live (w.layers K).slots := by
  rw [appendNode_eq]; simp only [upd]; split <;> simp

@[simp] theorem appendNode_nextN (w : World) (L n) : (w.appendNode L n).nextN = w.nextN := by
  rw [appendNode_eq]
@[simp] theorem appendNode_nextL (w : World) (L n) : (w.appendNode L n).nextL = w.nextL := by
  rw [appendNode_eq]

theorem appendNode_coll (w : World) (L n m) :
    ((w.appendNode L n).nodes m).coll = if m = n then some L else (w.nodes m).coll := by
  rw [appendNode_eq]; simp only [upd]; split <;> simp

theorem appendNode_fields (w : World) (L n m) :
    ((w.appendNode L n).nodes m).fields = (w.nodes m).fields := by
  rw [appendNode_eq]; simp only [upd]; split <;> simp_all

theorem addNodes_spec {w : World} (h : Inv w) (L : LayerId) (hL : L < w.nextL) (ns : List NodeId) :
    ns.Nodup → (∀ n ∈ ns, (w.nodes n).coll = none ∧ n < w.nextN) →
    Inv (w.addNodes L ns) ∧ (w.addNodes L ns).nextN = w.nextN ∧ (w.addNodes L ns).nextL = w.nextL ∧
    (∀ K, live ((w.addNodes L ns).layers K).slots =
      if K = L then live (w.layers L).slots ++ ns else live (w.layers K).slots) ∧
    (∀ m, ((w.addNodes L ns).nodes m).fields = (w.nodes m).fields) := by
  induction ns generalizing w with
  | nil => intro _ _; refine ⟨h, rfl, rfl, ?_, fun m => rfl⟩; intro K; simp only [addNodes]; split <;> simp_all
  | cons n ns ih =>
    intro hnd hall
    rw [List.nodup_cons] at hnd
    have hn := hall n (by simp)
    have h1 := inv_appendNode h L n hL hn.1 hn.2
    have := ih h1 (by simpa using hL) hnd.2 (by
      intro m hm
      rw [appendNode_coll, appendNode_nextN]
      have : m ≠ n := by rintro rfl; exact hnd.1 hm
      rw [if_neg this]; exact hall m (by simp [hm]))
    simp only [addNodes]
    refine ⟨this.1, by simpa using this.2.1, by simpa using this.2.2.1, ?_, ?_⟩
    · intro K
      rw [this.2.2.2.1 K, abs_appendNode, abs_appendNode]
      split <;> simp
    · intro m; rw [this.2.2.2.2 m, appendNode_fields]

theorem addManyLoop_spec {w : World} (h : Inv w) (L : LayerId) (hL : L < w.nextL) (ns : List NodeId) :
    (∀ n ∈ ns, n < w.nextN) →
    ∃ k ≤ ns.length, (w.addManyLoop L ns).1 = w.addNodes L (ns.take k) ∧
      (ns.take k).Nodup ∧ (∀ n ∈ ns.take k, (w.nodes n).coll = none) ∧
      ((w.addManyLoop L ns).2 = none → k = ns.length) ∧
      ((w.addManyLoop L ns).2 ≠ none → (w.addManyLoop L ns).2 = some .assertion ∧
        ∃ n, ns[k]? = some n ∧ ((w.nodes n).coll ≠ none ∨ n ∈ ns.take k)) := by
  induction ns generalizing w with
  | nil => intro _; exact ⟨0, Nat.le_refl _, rfl, by simp, by simp, fun _ => rfl, by simp [addManyLoop]⟩
  | cons n ns ih =>
    intro hall
    simp only [addManyLoop]
    split
    · rename_i hb
      exact ⟨0, Nat.zero_le _, rfl, by simp, by simp, by simp, fun _ => ⟨rfl, n, by simp, .inl hb⟩⟩
    · rename_i hb
      have hb' : (w.nodes n).coll = none := by simpa using hb
      have h1 := inv_appendNode h L n hL hb' (hall n (by simp))
      obtain ⟨k, hk, e1, e2, e3, e4, e5⟩ := ih h1 (by simpa using hL) (by
        intro m hm; rw [appendNode_nextN]; exact hall m (by simp [hm]))
      have hnk : n ∉ ns.take k := by
        intro hm; have := e3 n hm; rw [appendNode_coll] at this; simp at this
      refine ⟨k+1, by simpa using hk, ?_, ?_, ?_, ?_, ?_⟩
      · simpa [addNodes] using e1
      · simp only [List.take_succ_cons, List.nodup_cons]; exact ⟨hnk, e2⟩
      · intro m hm
        simp only [List.take_succ_cons, List.mem_cons] at hm
        rcases hm with rfl | hm
        · exact hb'
        · have := e3 m hm; rw [appendNode_coll] at this
          split at this
          · simp at this
          · exact this
      · intro he; simp [e4 he]
      · intro he
        obtain ⟨x1, m, x2, x3⟩ := e5 he
        refine ⟨x1, m, by simpa using x2, ?_⟩
        rw [appendNode_coll] at x3
        by_cases hmn : m = n
        · right; subst hmn; simp
        · rw [if_neg hmn] at x3
          rcases x3 with x3 | x3
          · exact .inl x3
          · right; simp [x3]

/-- operations that change only node fields keep the invariant -/
theorem inv_of_fields {w w' : World} (h : Inv w) (hl : w'.layers = w.layers)
    (hn : ∀ n, (w'.nodes n).coll = (w.nodes n).coll ∧ (w'.nodes n).id = (w.nodes n).id)
    (h1 : w.nextN ≤ w'.nextN) (h2 : w'.nextL = w.nextL) : Inv w' where
  slot L i n hs := by rw [hl] at hs; rw [(hn n).1, (hn n).2]; exact h.slot L i n hs
  bound n L hc := by rw [(hn n).1] at hc; rw [(hn n).2, hl]; exact h.bound n L hc
  num L := by rw [hl]; exact h.num L
  fresh n hh := by rw [(hn n).1]; exact h.fresh n (by omega)
  freshL L hh := by rw [hl]; exact h.freshL L (by omega)

theorem fillLoop_layers (w : World) (d) (s) : (w.fillLoop d s).layers = w.layers ∧
    (w.fillLoop d s).nextN = w.nextN ∧ (w.fillLoop d s).nextL = w.nextL ∧
    ∀ n, ((w.fillLoop d s).nodes n).coll = (w.nodes n).coll ∧ ((w.fillLoop d s).nodes n).id = (w.nodes n).id := by
  induction s generalizing w with
  | nil => exact ⟨rfl, rfl, rfl, fun n => ⟨rfl, rfl⟩⟩
  | cons a s ih =>
    cases a with
    | none => exact ih w
    | some n =>
      simp only [fillLoop]
      obtain ⟨a1, a2, a3, a4⟩ := ih (w.modNode n (fun r => { r with fields := fillMissing r.fields d }))
      refine ⟨a1, a2, a3, fun m => ?_⟩
      rw [(a4 m).1, (a4 m).2]
      simp only [modNode, upd]; split <;> simp_all

/-- `add_many`: the nodes appended are a prefix of the argument (all of it unless it raised). -/
theorem addMany_spec {w : World} (h : Inv w) (L : LayerId) (hL : L < w.nextL) (ns : List NodeId)
    (fill val : Bool) (hex : ∀ n ∈ ns, n < w.nextN) :
    Inv (w.addMany L ns fill val).1 ∧
    ∃ k ≤ ns.length, ((w.addMany L ns fill val).2 = none → k = ns.length) ∧
      (ns.take k).Nodup ∧ (∀ n ∈ ns.take k, (w.nodes n).coll = none) ∧
      (∀ K, live (((w.addMany L ns fill val).1).layers K).slots =
        if K = L then live (w.layers L).slots ++ ns.take k else live (w.layers K).slots) ∧
      (k < ns.length → ∃ n, ns[k]? = some n ∧ ((w.nodes n).coll ≠ none ∨ n ∈ ns.take k)) := by
  obtain ⟨k, hk, e1, e2, e3, e4, e5⟩ := addManyLoop_spec h L hL ns hex
  obtain ⟨i1, i2, i3, i4, i5⟩ := addNodes_spec h L hL (ns.take k) e2
    (fun n hn => ⟨e3 n hn, hex n (List.mem_of_mem_take hn)⟩)
  simp only [addMany]
  rcases hr : w.addManyLoop L ns with ⟨w1, e⟩
  rw [hr] at e1 e4 e5
  simp only at e1 e4 e5
  subst e1
  cases e with
  | some e => exact ⟨i1, k, hk, by simp, e2, e3, i4, fun _ => (e5 (by simp)).2⟩
  | none =>
    simp only
    have hkk := e4 rfl
    have hlast : k < ns.length → ∃ n, ns[k]? = some n ∧ ((w.nodes n).coll ≠ none ∨ n ∈ ns.take k) := by
      intro hlt; omega
    split
    · exact ⟨i1, k, hk, by simp, e2, e3, i4, hlast⟩
    · split
      · obtain ⟨f1, f2, f3, f4⟩ := fillLoop_layers (w.addNodes L (ns.take k))
          ((w.addNodes L (ns.take k)).layers L).defaults
          (((w.addNodes L (ns.take k)).layers L).slots.drop (w.layers L).slots.length)
        refine ⟨inv_of_fields i1 f1 f4 (Nat.le_of_eq f2.symm) f3, k, hk, fun _ => hkk, e2, e3, ?_, hlast⟩
        intro K; simp only [f1]; exact i4 K
      · exact ⟨i1, k, hk, fun _ => hkk, e2, e3, i4, hlast⟩

theorem addNew_spec {w : World} (h : Inv w) (L : LayerId) (hL : L < w.nextL) (kw) :
    (∃ e, w.addNew L kw = (w, .error e)) ∨
    (∃ w', w.addNew L kw = (w', .ok w.nextN) ∧ Inv w' ∧ w'.nextL = w.nextL ∧
      (∀ K, live (w'.layers K).slots =
        if K = L then live (w.layers L).slots ++ [w.nextN] else live (w.layers K).slots) ∧
      (w'.nodes w.nextN).fields = dupdate (w.layers L).defaults kw ∧
      (∀ m, m ≠ w.nextN → w'.nodes m = w.nodes m)) := by
  unfold addNew
  simp only [newNode]
  generalize hv : validate _ _ _ = v
  cases v with
  | error e => exact .inl ⟨e, rfl⟩
  | ok u =>
    right
    refine ⟨_, rfl, ?_, ?_, ?_, ?_, ?_⟩
    · refine inv_append_core h L w.nextN hL (h.fresh _ (Nat.le_refl _)) 
        { fields := dupdate (w.layers L).defaults kw, id := (w.layers L).slots.length, coll := some L }
        rfl rfl _ ?_ ?_ ?_ ?_ ?_
      · simp [setNum, setSlots, setColl, setId, modNode, modLayer]
      · simp [setNum, setSlots, setColl, setId, modNode, modLayer]
      · simp [setNum, setSlots, setColl, setId, modNode, modLayer]
      · simp [setNum, setSlots, setColl, setId, modNode, modLayer]
      · simp [setNum, setSlots, setColl, setId, modNode, modLayer]
    · simp [setNum, setSlots, setColl, setId, modNode, modLayer]
    · intro K
      simp only [setNum, setSlots, setColl, setId, modNode, modLayer, upd_upd, upd_same]
      simp only [upd]; split <;> simp
    · simp [setNum, setSlots, setColl, setId, modNode, modLayer]
    · intro m hm
      simp [setNum, setSlots, setColl, setId, modNode, modLayer, upd, hm]

/-! ### removal -/

theorem live_set_none {s : List (Option NodeId)} {i : Nat} {n : NodeId} (hi : s[i]? = some (some n))
    (hnd : (live s).Nodup) : live (s.set i none) = (live s).filter (fun m => !decide (m = n)) := by
  induction s generalizing i with
  | nil => simp at hi
  | cons a s ih =>
    cases i with
    | zero =>
      simp at hi; subst hi
      simp only [live_some, List.nodup_cons] at hnd
      simp only [List.set_cons_zero, live_none, live_some, List.filter_cons, decide_true, Bool.not_true,
        Bool.false_eq_true, if_false]
      rw [List.filter_eq_self.mpr]
      intro m hm; simp; rintro rfl; exact hnd.1 hm
    | succ i =>
      simp at hi
      simp only [List.set_cons_succ]
      cases a with
      | none => exact ih hi (by simpa using hnd)
      | some b =>
        simp only [live_some, List.nodup_cons] at hnd ⊢
        have : b ≠ n := by
          rintro rfl
          exact hnd.1 (mem_live.mpr (List.mem_of_getElem? hi))
        rw [ih hi hnd.2]
        simp [this]

theorem length_filter_ne {l : List NodeId} {n : NodeId} (hnd : l.Nodup) (hm : n ∈ l) :
    (l.filter (fun m => !decide (m = n))).length = l.length - 1 := by
  induction l with
  | nil => simp at hm
  | cons a l ih =>
    rw [List.nodup_cons] at hnd
    by_cases h : a = n
    · subst h
      rw [List.filter_cons]; simp only [decide_true, Bool.not_true, Bool.false_eq_true, if_false]
      rw [List.filter_eq_self.mpr]
      · simp
      · intro m hm'; simp; rintro rfl; exact hnd.1 hm'
    · have hm' : n ∈ l := by rcases List.mem_cons.mp hm with e | e; exact absurd e.symm h; exact e
      have hpos : 0 < l.length := List.length_pos_of_mem hm'
      rw [List.filter_cons]; simp only [h, decide_false, Bool.not_false, if_true, List.length_cons]
      rw [ih hnd.2 hm']; omega

theorem removeCore_spec {w : World} (h : Inv w) (L : LayerId) (n : NodeId) :
    ((w.nodes n).coll ≠ some L ∧ w.removeCore L n = (w, some .value)) ∨
    ((w.nodes n).coll = some L ∧ ∃ w', w.removeCore L n = (w', none) ∧ Inv w' ∧
      w'.nextN = w.nextN ∧ w'.nextL = w.nextL ∧
      (w'.layers L).slots.length = (w.layers L).slots.length ∧
      (∀ K, live (w'.layers K).slots =
        if K = L then (live (w.layers L).slots).filter (fun m => !decide (m = n)) else live (w.layers K).slots) ∧
      (∀ m, (w'.nodes m).fields = (w.nodes m).fields) ∧
      (∀ m, (w'.nodes m).coll = if m = n then none else (w.nodes m).coll)) := by
  by_cases hc : (w.nodes n).coll = some L
  · right
    refine ⟨hc, ?_⟩
    obtain ⟨i, hid, hsl⟩ := h.bound n L hc
    have hlt : i < (w.layers L).slots.length := (List.getElem?_eq_some_iff.mp hsl).1
    have hclear : clearSlot (w.layers L).slots (w.nodes n).id = .ok ((w.layers L).slots.set i none) := by
      simp only [clearSlot, hid]
      rw [if_neg (by omega : ¬ (i : Int) < 0), if_pos (by omega)]; simp
    have hlv := live_set_none hsl (h.nodup L)
    have hlen := length_filter_ne (h.nodup L) ((h.mem_iff L n).mpr hc)
    have hpos : 0 < (live (w.layers L).slots).length :=
      List.length_pos_of_mem ((h.mem_iff L n).mpr hc)
    refine ⟨((w.setSlots L ((w.layers L).slots.set i none)).setNum L
      (((w.setSlots L ((w.layers L).slots.set i none)).layers L).num - 1)).setColl n none,
      by simp only [removeCore, hc, ne_eq, not_true_eq_false, if_false, hclear], ?_, ?_, ?_, ?_, ?_, ?_, ?_⟩
    · refine h.of_update L ?_ ?_ ?_ ?_ ?_ ?_ (Nat.le_refl _) rfl ?_ ?_
      · intro K hK
        simp [setNum, setSlots, setColl, modNode, modLayer, upd_ne _ _ hK]
      · simp only [setNum, setSlots, setColl, modNode, modLayer, upd_upd, upd_same, hlv, hlen, h.num L]
        omega
      · intro j m hj
        simp only [setNum, setSlots, setColl, modNode, modLayer, upd_upd, upd_same] at hj ⊢
        rw [List.getElem?_set] at hj
        split at hj
        · simp at hj
        · rename_i hij
          have hjs := h.slot L j m hj
          have hmn : m ≠ n := by rintro rfl; rw [hid] at hjs; omega
          rw [upd_ne _ _ hmn]; exact hjs
      · intro m hm
        simp only [setNum, setSlots, setColl, modNode, modLayer, upd_upd, upd_same] at hm ⊢
        by_cases hmn : m = n
        · subst hmn; simp at hm
        · rw [upd_ne _ _ hmn] at hm ⊢
          obtain ⟨j, h1, h2⟩ := h.bound m L hm
          refine ⟨j, h1, ?_⟩
          rw [List.getElem?_set]
          have : i ≠ j := by rintro rfl; rw [hsl] at h2; simp at h2; exact hmn h2.symm
          rw [if_neg this]; exact h2
      · intro m K hK
        simp only [setNum, setSlots, setColl, modNode, modLayer]
        by_cases hmn : m = n
        · subst hmn; simp [hc]; exact fun e => hK e.symm
        · rw [upd_ne _ _ hmn]
      · intro m K hK hmc
        simp only [setNum, setSlots, setColl, modNode, modLayer]
        by_cases hmn : m = n
        · subst hmn; simp
        · rw [upd_ne _ _ hmn]
      · intro m hm
        simp only [setNum, setSlots, setColl, modNode, modLayer] at hm ⊢
        by_cases hmn : m = n
        · subst hmn; simp
        · rw [upd_ne _ _ hmn, h.fresh m hm]; simp
      · intro hl
        have := h.freshL L hl
        rw [this] at hlt; simp at hlt
    · rfl
    · rfl
    · simp [setNum, setSlots, setColl, modNode, modLayer]
    · intro K
      simp only [setNum, setSlots, setColl, modNode, modLayer, upd_upd, upd_same]
      simp only [upd]; split
      · exact hlv
      · rfl
    · intro m; simp only [setNum, setSlots, setColl, modNode, modLayer, upd]; split <;> simp_all
    · intro m; simp only [setNum, setSlots, setColl, modNode, modLayer, upd]; split <;> simp_all
  · left; exact ⟨hc, by simp [removeCore, hc]⟩

theorem autoCompact_spec {w : World} (h : Inv w) (L : LayerId) :
    Inv (w.autoCompact L) ∧ (∀ K, live ((w.autoCompact L).layers K).slots = live (w.layers K).slots) ∧
    (w.autoCompact L).nextN = w.nextN ∧ (w.autoCompact L).nextL = w.nextL ∧
    (∀ m, ((w.autoCompact L).nodes m).coll = (w.nodes m).coll ∧
      ((w.autoCompact L).nodes m).fields = (w.nodes m).fields) ∧
    (((w.autoCompact L).layers L).slots.length ≤ 16 ∨
      3 * ((w.autoCompact L).layers L).slots.length ≤ 4 * (live ((w.autoCompact L).layers L).slots).length) := by
  unfold autoCompact
  split
  · refine ⟨inv_compact h L, abs_compact h L, ?_, ?_, ?_, ?_⟩
    · rw [compact_eq h]
    · rw [compact_eq h]
    · intro m; rw [compact_eq h]; exact assignIds_coll _ _ _ _
    · right; rw [compact_eq h]; simp; omega
  · rename_i hc
    refine ⟨h, fun _ => rfl, rfl, rfl, fun _ => ⟨rfl, rfl⟩, ?_⟩
    rw [h.num L] at hc
    omega

theorem removeLoop_spec {w : World} (h : Inv w) (L : LayerId) (ns : List (Option NodeId)) :
    Inv (w.removeLoop L ns).1 ∧ (w.removeLoop L ns).1.nextN = w.nextN ∧ (w.removeLoop L ns).1.nextL = w.nextL ∧
    (∀ m, ((w.removeLoop L ns).1.nodes m).fields = (w.nodes m).fields) ∧
    ∃ k ≤ ns.length,
      (∀ K, live ((w.removeLoop L ns).1.layers K).slots =
        if K = L then (live (w.layers L).slots).filter (fun m => !decide (m ∈ live (ns.take k)))
        else live (w.layers K).slots) ∧
      (∀ n ∈ live (ns.take k), n ∈ live (w.layers L).slots) ∧ (live (ns.take k)).Nodup ∧
      (∀ m, ((w.removeLoop L ns).1.nodes m).coll =
        if m ∈ live (ns.take k) then none else (w.nodes m).coll) ∧
      ((w.removeLoop L ns).2 = none → k = ns.length) ∧
      ((w.removeLoop L ns).2 ≠ none → (w.removeLoop L ns).2 = some .value ∧
        ∃ n, ns[k]? = some (some n) ∧ (n ∉ live (w.layers L).slots ∨ n ∈ live (ns.take k))) := by
  induction ns generalizing w with
  | nil =>
    refine ⟨h, rfl, rfl, fun _ => rfl, 0, Nat.le_refl _, ?_, by simp, by simp, by simp [removeLoop],
      fun _ => rfl, by simp [removeLoop]⟩
    intro K; simp only [removeLoop]; split
    · subst_vars; simp [List.filter_eq_self.mpr]
    · rfl
  | cons a ns ih =>
    cases a with
    | none =>
      obtain ⟨a1, a2, a3, a4, k, hk, a5, a6, a7, a8, a9, a10⟩ := ih h
      refine ⟨a1, a2, a3, a4, k+1, by simpa using hk, ?_, ?_, ?_, ?_, ?_, ?_⟩ <;>
        simp only [List.take_succ_cons, live_none, removeLoop]
      · exact a5
      · exact a6
      · exact a7
      · exact a8
      · intro he; simp [a9 he]
      · intro he; simpa using a10 he
    | some n =>
      rcases removeCore_spec h L n with ⟨hc, he⟩ | ⟨hc, w', he, i1, i2, i3, -, i4, i5, i6⟩
      · have hl : w.removeLoop L (some n :: ns) = (w, some .value) := by simp only [removeLoop, he]
        rw [hl]
        refine ⟨h, rfl, rfl, fun _ => rfl, 0, Nat.zero_le _, ?_, by simp, by simp, by simp, by simp, ?_⟩
        · intro K; dsimp only; split
          · subst_vars; simp [List.filter_eq_self.mpr]
          · rfl
        · intro _; exact ⟨rfl, n, by simp, .inl (by rw [h.mem_iff]; exact hc)⟩
      · obtain ⟨a1, a2, a3, a4, k, hk, a5, a6, a7, a8, a9, a10⟩ := ih i1
        have hl : w.removeLoop L (some n :: ns) = w'.removeLoop L ns := by simp only [removeLoop, he]
        rw [hl]
        have hmem : ∀ m, m ∈ live (w'.layers L).slots ↔ m ∈ live (w.layers L).slots ∧ m ≠ n := by
          intro m; rw [i4 L]; simp
        refine ⟨a1, by rw [a2, i2], by rw [a3, i3], fun m => by rw [a4, i5], k+1, by simpa using hk,
          ?_, ?_, ?_, ?_, ?_, ?_⟩ <;> try simp only [List.take_succ_cons, live_some]
        · intro K
          rw [a5 K, i4 K, i4 L]
          split
          · simp only [if_true, List.filter_filter]
            congr 1; funext m
            simp only [List.mem_cons]
            by_cases hmn : m = n <;> by_cases hmk : m ∈ live (ns.take k) <;> simp [hmn, hmk]
          · rfl
        · intro m hm
          rcases List.mem_cons.mp hm with rfl | hm
          · exact (h.mem_iff L _).mpr hc
          · exact ((hmem m).mp (a6 m hm)).1
        · rw [List.nodup_cons]
          exact ⟨fun hm => ((hmem n).mp (a6 n hm)).2 rfl, a7⟩
        · intro m
          rw [a8 m, i6 m]
          by_cases hmn : m = n <;> by_cases hmk : m ∈ live (ns.take k) <;> simp [hmn, hmk]
        · intro he; simp [a9 he]
        · intro he
          obtain ⟨x1, m, x2, x3⟩ := a10 he
          refine ⟨x1, m, by simpa using x2, ?_⟩
          rw [hmem] at x3
          by_cases hmn : m = n
          · right; subst hmn; simp
          · rcases x3 with x3 | x3
            · left; intro hm; exact x3 ⟨hm, hmn⟩
            · right; simp [x3]

/-! ### retain -/

theorem retainMark_spec {w : World} (h : Inv w) (L : LayerId) :
    ∀ (done ns : List NodeId) (u : World),
    u.layers = w.layers → u.nextN = w.nextN → u.nextL = w.nextL →
    (∀ m, (u.nodes m).coll = (w.nodes m).coll ∧ (u.nodes m).fields = (w.nodes m).fields) →
    (∀ m, (w.nodes m).coll = some L → (u.nodes m).id = if m ∈ done then -((w.nodes m).id + 1) else (w.nodes m).id) →
    (∀ m, (w.nodes m).coll ≠ some L → (u.nodes m).id = (w.nodes m).id) →
    (u.retainMark L ns).2 = none →
    (u.retainMark L ns).1.layers = w.layers ∧ (u.retainMark L ns).1.nextN = w.nextN ∧
    (u.retainMark L ns).1.nextL = w.nextL ∧
    (∀ n ∈ ns, (w.nodes n).coll = some L) ∧
    (∀ m, ((u.retainMark L ns).1.nodes m).coll = (w.nodes m).coll ∧
      ((u.retainMark L ns).1.nodes m).fields = (w.nodes m).fields) ∧
    (∀ m, (w.nodes m).coll = some L → ((u.retainMark L ns).1.nodes m).id =
      if m ∈ done ∨ m ∈ ns then -((w.nodes m).id + 1) else (w.nodes m).id) ∧
    (∀ m, (w.nodes m).coll ≠ some L → ((u.retainMark L ns).1.nodes m).id = (w.nodes m).id) := by
  intro done ns
  induction ns generalizing done with
  | nil =>
    intro u h1 h2 h3 h4 h5 h6 _
    refine ⟨h1, h2, h3, by simp, h4, ?_, h6⟩
    intro m hm; simpa [retainMark] using h5 m hm
  | cons n ns ih =>
    intro u h1 h2 h3 h4 h5 h6 herr
    simp only [retainMark] at herr ⊢
    split at herr
    · simp at herr
    · rename_i hc
      have hc' : (w.nodes n).coll = some L := by rw [← (h4 n).1]; simpa using hc
      rw [if_neg hc]
      obtain ⟨idx, hidx, -⟩ := h.bound n L hc'
      have hid := h5 n hc'
      split at herr
      · rename_i hge
        rw [if_pos hge]
        have hnd : n ∉ done := by
          intro hd; rw [if_pos hd] at hid; omega
        rw [if_neg hnd] at hid
        have := ih (n :: done) (u.setId n (-((u.nodes n).id + 1))) h1 h2 h3 ?_ ?_ ?_ herr
        · obtain ⟨x1, x2, x3, x4, x5, x6, x7⟩ := this
          refine ⟨x1, x2, x3, ?_, x5, ?_, x7⟩
          · intro m hm; rcases List.mem_cons.mp hm with rfl | hm
            · exact hc'
            · exact x4 m hm
          · intro m hm; rw [x6 m hm]; congr 1; simp only [List.mem_cons]
            apply propext; constructor
            · rintro ((h | h) | h) <;> simp [h]
            · rintro (h | h | h) <;> simp [h]
        · intro m; simp only [setId_nodes, upd]; split
          · subst_vars; exact h4 _
          · exact h4 m
        · intro m hm; simp only [setId_nodes, upd]; split
          · subst_vars; simp [hid]
          · rename_i hmn; rw [h5 m hm]; simp [hmn]
        · intro m hm; simp only [setId_nodes, upd]; split
          · subst_vars; exact absurd hc' hm
          · exact h6 m hm
      · rename_i hlt
        rw [if_neg hlt]
        have hd : n ∈ done := by
          rcases Classical.em (n ∈ done) with hd | hd
          · exact hd
          · rw [if_neg hd] at hid; omega
        obtain ⟨x1, x2, x3, x4, x5, x6, x7⟩ := ih done u h1 h2 h3 h4 h5 h6 herr
        refine ⟨x1, x2, x3, ?_, x5, ?_, x7⟩
        · intro m hm; rcases List.mem_cons.mp hm with rfl | hm
          · exact hc'
          · exact x4 m hm
        · intro m hm; rw [x6 m hm]; congr 1; simp only [List.mem_cons]
          apply propext; constructor
          · rintro (h | h) <;> simp [h]
          · rintro (h | rfl | h)
            · simp [h]
            · simp [hd]
            · simp [h]

/-- the heap after the second loop of `retain` has consumed the nodes `l` of the layer -/
def retained (keep : NodeId → Bool) (L : LayerId) (w : World) (k : Nat) (l : List NodeId)
    (s : List (Option NodeId)) : World :=
  { w with
    layers := upd w.layers L { w.layers L with
      slots := s, num := (w.layers L).num - (l.filter (fun n => !keep n)).length }
    nodes := fun m => if m ∈ l then
        (if keep m then { w.nodes m with id := k + ((l.filter keep).idxOf m : Nat) }
         else { w.nodes m with coll := none })
      else w.nodes m }

theorem retainLoop_spec (L : LayerId) (S : List (Option NodeId)) (keep : NodeId → Bool) :
    ∀ (m i : Nat) (P : List NodeId) (w : World), i + m = S.length → P.length ≤ i →
    (w.layers L).slots = P.map some ++ S.drop P.length →
    (live (S.drop i)).Nodup → (∀ n ∈ P, n ∉ live (S.drop i)) →
    (∀ n ∈ live (S.drop i), keep n = decide ((w.nodes n).id < 0)) →
    (∃ x, retainLoop L (List.range' i m) P.length w = (x, some .attribute) ∧ none ∈ S.drop i) ∨
    (S.drop i = (live (S.drop i)).map some ∧
      retainLoop L (List.range' i m) P.length w =
        ((retained keep L w P.length (live (S.drop i))
          ((P ++ (live (S.drop i)).filter keep).map some ++ S.drop (P ++ (live (S.drop i)).filter keep).length),
          (P ++ (live (S.drop i)).filter keep).length), none)) := by
  intro m
  induction m with
  | zero =>
    intro i P w hk hP hs _ _ _
    right
    have : S.drop i = [] := List.drop_eq_nil_of_le (by omega)
    refine ⟨by simp [this], ?_⟩
    simp [retainLoop, retained, this, ← hs]
  | succ m ih =>
    intro i P w hk hP hs hnd hPn hkeep
    have hlt : i < S.length := by omega
    have hdrop : S.drop i = S[i] :: S.drop (i+1) := List.drop_eq_getElem_cons hlt
    have hread : (w.layers L).slots[i]? = some S[i] := by
      rw [hs, List.getElem?_append_right (by simp; omega)]
      simp only [List.length_map, List.getElem?_drop]
      rw [show P.length + (i - P.length) = i by omega, List.getElem?_eq_getElem hlt]
    simp only [List.range'_succ, retainLoop, hread]
    rw [hdrop] at hnd hPn hkeep ⊢
    cases hSk : S[i] with
    | none => left; exact ⟨_, rfl, by simp⟩
    | some n =>
      rw [hSk] at hnd hPn hkeep
      simp only [live_some, List.nodup_cons, List.mem_cons, not_or] at hnd hPn hkeep
      simp only [live_some, List.filter_cons]
      have hk0 := hkeep n (.inl rfl)
      by_cases hge : (w.nodes n).id ≥ 0
      · rw [if_pos hge]
        have hkn : keep n = false := by rw [hk0]; simp; omega
        simp only [hkn, Bool.false_eq_true, if_false]
        let w1 := (w.setColl n none).setNum L (((w.setColl n none).layers L).num - 1)
        have hs1 : (w1.layers L).slots = P.map some ++ S.drop P.length := by
          simp [w1, setNum, setColl, modNode, modLayer, hs]
        have hid1 : ∀ x, (w1.nodes x).id = (w.nodes x).id := by
          intro x; simp only [w1, setNum, setColl, modNode, modLayer, upd]; split <;> simp_all
        rcases ih (i+1) P w1 (by omega) (by omega) hs1 hnd.2 (fun x hx => (hPn x hx).2)
          (fun x hx => by rw [hid1]; exact hkeep x (.inr hx)) with ⟨x, hx, hxn⟩ | ⟨hx1, hx2⟩
        · left; exact ⟨x, hx, List.mem_cons_of_mem _ hxn⟩
        · right
          refine ⟨by rw [List.map_cons, ← hx1], ?_⟩
          refine Eq.trans hx2 ?_
          congr 2
          simp only [retained]
          congr 1
          · funext x
            simp only [w1, setNum, setColl, modNode, modLayer]
            by_cases hxn : x = n
            · subst hxn
              rw [if_neg hnd.1]
              simp [hkn]
            · simp only [upd_ne _ _ hxn, List.mem_cons, hxn, false_or, List.filter_cons, hkn,
                Bool.false_eq_true, if_false]
          · simp only [w1, setNum, setColl, modNode, modLayer, upd_upd, upd_same]
            congr 1
            simp [List.filter_cons, hkn]; omega
      · rw [if_neg hge]
        have hkn : keep n = true := by rw [hk0]; simp; omega
        simp only [hkn, if_true]
        let w1 := (w.setSlots L ((w.layers L).slots.set P.length (some n))).setId n P.length
        have hs1 : (w1.layers L).slots = (P ++ [n]).map some ++ S.drop (P ++ [n]).length := by
          show (upd w.layers L _ L).slots = _
          rw [upd_same]
          simp only [hs]
          have hlt2 : P.length < S.length := by omega
          rw [List.set_append_right _ _ (by simp)]
          simp only [List.length_map, Nat.sub_self, List.map_append, List.map_cons, List.map_nil,
            List.length_append, List.length_singleton, List.append_assoc, List.singleton_append]
          rw [List.drop_eq_getElem_cons hlt2]; rfl
        have := ih (i+1) (P ++ [n]) w1 (by omega) (by simp; omega) hs1 hnd.2
          (fun x hx => by
            rcases List.mem_append.mp hx with hx | hx
            · exact (hPn x hx).2
            · simp at hx; subst hx; exact hnd.1)
          (fun x hx => by
            have hxn : x ≠ n := by rintro rfl; exact hnd.1 hx
            have : w1.nodes x = w.nodes x := by
              show upd w.nodes n _ x = _
              rw [upd_ne _ _ hxn]
            rw [this]; exact hkeep x (.inr hx))
        simp only [List.length_append, List.length_singleton] at this
        rcases this with ⟨x, hx, hxn⟩ | ⟨hx1, hx2⟩
        · left; exact ⟨x, hx, List.mem_cons_of_mem _ hxn⟩
        · right
          refine ⟨by rw [List.map_cons, ← hx1], ?_⟩
          refine Eq.trans hx2 ?_
          simp only [List.append_assoc, List.singleton_append, List.length_append, List.length_cons]
          refine Prod.ext (Prod.ext ?_ ?_) rfl
          · simp only [retained]
            have hw1 : w1 = { w with
                layers := upd w.layers L { w.layers L with slots := (w.layers L).slots.set P.length (some n) }
                nodes := upd w.nodes n { w.nodes n with id := P.length } } := rfl
            rw [hw1]
            simp only [upd_upd, upd_same]
            congr 1
            · funext x
              by_cases hxn : x = n
              · subst hxn
                rw [if_neg hnd.1]
                simp [hkn]
              · simp only [upd_ne _ _ hxn, List.mem_cons, hxn, false_or, List.filter_cons, hkn, if_true]
                split
                · split
                  · have : (n == x) = false := by simp; exact fun e => hxn e.symm
                    rw [List.idxOf_cons, this]
                    simp only [cond_false]
                    congr 1; omega
                  · rfl
                · rfl
            · congr 1
              simp [List.filter_cons, hkn]
              omega
          · simp; omega

theorem filter_split {α} (p : α → Bool) (l : List α) :
    l.length = (l.filter p).length + (l.filter (fun a => !p a)).length := by
  induction l with
  | nil => rfl
  | cons a l ih => cases h : p a <;> simp [List.filter_cons, h] <;> omega

/-- `retain` when it does not raise. -/
theorem retain_spec {w : World} (h : Inv w) (L : LayerId) (ns : List NodeId)
    (hok : (w.retain L ns).2 = none) :
    Inv (w.retain L ns).1 ∧ (w.retain L ns).1.nextN = w.nextN ∧ (w.retain L ns).1.nextL = w.nextL ∧
    (∀ n ∈ ns, n ∈ live (w.layers L).slots) ∧
    (∀ K, live ((w.retain L ns).1.layers K).slots =
      if K = L then (live (w.layers L).slots).filter (fun m => decide (m ∈ ns)) else live (w.layers K).slots) ∧
    ((w.retain L ns).1.layers L).slots.length = (live ((w.retain L ns).1.layers L).slots).length ∧
    (∀ m, ((w.retain L ns).1.nodes m).fields = (w.nodes m).fields) ∧
    (∀ m, ((w.retain L ns).1.nodes m).coll =
      if (w.nodes m).coll = some L ∧ m ∉ ns then none else (w.nodes m).coll) ∧
    (w.layers L).slots = (live (w.layers L).slots).map some := by
  unfold retain at hok ⊢
  rcases hm : w.retainMark L ns with ⟨u, e⟩
  rw [hm] at hok
  cases e with
  | some e => simp at hok
  | none =>
    have hmark := retainMark_spec h L [] ns w rfl rfl rfl (fun _ => ⟨rfl, rfl⟩) (fun m hm => by simp)
      (fun _ _ => rfl) (by rw [hm])
    rw [hm] at hmark
    obtain ⟨u1, u2, u3, u4, u5, u6, u7⟩ := hmark
    simp only at hok ⊢
    simp only at u1 u2 u3 u5 u6 u7
    let keep : NodeId → Bool := fun m => decide (m ∈ ns)
    have hnd := h.nodup L
    have hkeep : ∀ n ∈ live (w.layers L).slots, keep n = decide ((u.nodes n).id < 0) := by
      intro n hn
      have hc := (h.mem_iff L n).mp hn
      obtain ⟨i, hi, -⟩ := h.bound n L hc
      rw [u6 n hc]
      by_cases hns : n ∈ ns
      · simp [keep, hns]; omega
      · simp [keep, hns]; omega
    have hloop := retainLoop_spec L (w.layers L).slots keep (w.layers L).slots.length 0 [] u
      (by omega) (by simp) (by simp [u1]) (by simpa using hnd) (by simp) (by simpa using hkeep)
    rw [← List.range_eq_range'] at hloop
    simp only [List.drop_zero, List.length_nil, List.nil_append] at hloop
    rw [u1] at hok ⊢
    rcases hloop with ⟨x, hx, -⟩ | ⟨hdense, hx⟩
    · rw [hx] at hok; simp at hok
    · rw [hx]
      simp only
      have hslots : (((live (w.layers L).slots).filter keep).map some ++
          List.drop ((live (w.layers L).slots).filter keep).length (w.layers L).slots).take
          ((live (w.layers L).slots).filter keep).length =
          ((live (w.layers L).slots).filter keep).map some := List.take_left' (by simp)
      have hL : ∀ y, ((retained keep L u 0 (live (w.layers L).slots) y).layers L).slots = y := by
        intro y; simp [retained]
      rw [hL, hslots]
      have hfn : ((live (w.layers L).slots).filter keep).Nodup := hnd.filter _
      have hcoll : ∀ m, (((retained keep L u 0 (live (w.layers L).slots)
          (((live (w.layers L).slots).filter keep).map some ++
          List.drop ((live (w.layers L).slots).filter keep).length (w.layers L).slots)).setSlots L
          (((live (w.layers L).slots).filter keep).map some)).nodes m).coll =
          if (w.nodes m).coll = some L ∧ m ∉ ns then none else (w.nodes m).coll := by
        intro m
        simp only [retained, setSlots, modLayer]
        by_cases hm : m ∈ live (w.layers L).slots
        · have hc := (h.mem_iff L m).mp hm
          rw [if_pos hm]
          by_cases hns : m ∈ ns
          · simp [keep, hns, (u5 m).1]
          · simp [keep, hns, hc]
        · rw [if_neg hm, (u5 m).1, if_neg]
          rw [h.mem_iff L m] at hm; exact fun hh => hm hh.1
      have hid : ∀ m, (((retained keep L u 0 (live (w.layers L).slots)
          (((live (w.layers L).slots).filter keep).map some ++
          List.drop ((live (w.layers L).slots).filter keep).length (w.layers L).slots)).setSlots L
          (((live (w.layers L).slots).filter keep).map some)).nodes m).id =
          if m ∈ (live (w.layers L).slots).filter keep then
            ((((live (w.layers L).slots).filter keep).idxOf m : Nat) : Int) else (u.nodes m).id := by
        intro m
        simp only [retained, setSlots, modLayer, List.mem_filter]
        by_cases hm : m ∈ live (w.layers L).slots
        · rw [if_pos hm]
          by_cases hk : keep m = true
          · simp [hk, hm]
          · simp [hk, hm]
        · rw [if_neg hm]; simp [hm]
      refine ⟨?_, ?_, ?_, ?_, ?_, ?_, ?_, hcoll, hdense⟩
      · refine h.of_update L ?_ ?_ ?_ ?_ ?_ ?_ ?_ ?_ ?_ ?_
        · intro K hK
          simp [retained, setSlots, modLayer, upd_ne _ _ hK, u1]
        · simp only [retained, setSlots, modLayer, upd_upd, upd_same, u1, h.num L, live_map_some]
          have := filter_split keep (live (w.layers L).slots)
          omega
        · intro i n hi
          simp only [setSlots, modLayer, upd_same, List.getElem?_map, Option.map_eq_some_iff,
            Option.some.injEq] at hi
          obtain ⟨a, ha, rfl⟩ := hi
          have hmem := List.mem_of_getElem? ha
          rw [hcoll, hid, if_pos hmem]
          have hmem' := List.mem_filter.mp hmem
          refine ⟨?_, ?_⟩
          · have hc := (h.mem_iff L a).mp hmem'.1
            have : a ∈ ns := by simpa [keep] using hmem'.2
            simp [this, hc]
          · obtain ⟨hi', he⟩ := List.getElem?_eq_some_iff.mp ha
            subst he
            rw [hfn.idxOf_getElem]
        · intro n hc
          rw [hcoll] at hc
          split at hc
          · simp at hc
          · rename_i hcond
            have hns : n ∈ ns := by
              rcases Classical.em (n ∈ ns) with h' | h'
              · exact h'
              · exact absurd ⟨hc, h'⟩ hcond
            have hmem : n ∈ (live (w.layers L).slots).filter keep :=
              List.mem_filter.mpr ⟨(h.mem_iff L n).mpr hc, by simp [keep, hns]⟩
            refine ⟨_, by rw [hid, if_pos hmem], ?_⟩
            simp only [setSlots, modLayer, upd_same, List.getElem?_map]
            rw [List.getElem?_eq_getElem (List.idxOf_lt_length_of_mem hmem), List.getElem_idxOf]
            rfl
        · intro n K hK
          rw [hcoll]
          split
          · rename_i hh; rw [hh.1]; simp; exact fun e => hK e.symm
          · rfl
        · intro n K hK hc
          rw [hid]
          have : n ∉ (live (w.layers L).slots).filter keep := by
            intro hmem
            have := (h.mem_iff L n).mp (List.mem_filter.mp hmem).1
            rw [hc] at this; simp at this; exact hK this
          rw [if_neg this, u7 n (by rw [hc]; simp; exact hK)]
        · simp [retained, setSlots, modLayer, u2]
        · simp [retained, setSlots, modLayer, u3]
        · intro n hn
          simp only [retained, setSlots, modLayer, u2] at hn
          rw [hcoll, h.fresh n hn]; simp
        · intro hl
          simp [setSlots, modLayer, h.freshL L hl]
      · simp [retained, setSlots, modLayer, u2]
      · simp [retained, setSlots, modLayer, u3]
      · intro n hn; exact (h.mem_iff L n).mpr (u4 n hn)
      · intro K
        simp only [retained, setSlots, modLayer, upd_upd, upd_same]
        simp only [upd]; split
        · simp [keep]
        · simp [u1]
      · simp [setSlots, modLayer]
      · intro m
        simp only [retained, setSlots, modLayer]
        split
        · split <;> simp [(u5 m).2]
        · exact (u5 m).2

/-! ### sort -/

theorem sort_eq {w : World} (h : Inv w) (L : LayerId) (le : NodeId → NodeId → Bool) :
    w.sort L le = ({ w with
      layers := upd w.layers L { w.layers L with slots := ((live (w.layers L).slots).mergeSort le).map some }
      nodes := assignIds (assignIds w.nodes 0 ((live (w.layers L).slots).map some)) 0
        (((live (w.layers L).slots).mergeSort le).map some) }, none) := by
  unfold sort
  rw [compact_eq h]
  simp only [upd_same]
  rw [if_pos (by simp)]
  have hl : List.filterMap id ((live (w.layers L).slots).map some) = live (w.layers L).slots :=
    live_map_some _
  rw [hl]
  simp only [setSlots, modLayer, upd_upd, upd_same, iter, len, h.num L]
  rw [if_pos (by simp)]
  rw [List.take_of_length_le (by simp)]

theorem inv_sort {w : World} (h : Inv w) (L : LayerId) (le : NodeId → NodeId → Bool) :
    Inv (w.sort L le).1 := by
  have hperm : ((live (w.layers L).slots).mergeSort le).Perm (live (w.layers L).slots) :=
    List.mergeSort_perm _ _
  have hn : ((live (w.layers L).slots).mergeSort le).Nodup := hperm.nodup_iff.mpr (h.nodup L)
  have hmem : ∀ n, n ∈ (live (w.layers L).slots).mergeSort le ↔ (w.nodes n).coll = some L := by
    intro n; rw [hperm.mem_iff, h.mem_iff]
  rw [sort_eq h]
  refine h.of_update L ?_ ?_ ?_ ?_ ?_ ?_ (Nat.le_refl _) rfl ?_ ?_
  · intro K hK; simp [upd_ne _ _ hK]
  · simp [h.num L]
  · intro i n hi
    simp only [upd_same, List.getElem?_map, Option.map_eq_some_iff, Option.some.injEq] at hi
    obtain ⟨a, ha, rfl⟩ := hi
    refine ⟨?_, ?_⟩
    · rw [(assignIds_coll _ _ _ _).1, (assignIds_coll _ _ _ _).1]
      exact (hmem a).mp (List.mem_of_getElem? ha)
    · rw [assignIds_getElem _ _ hn 0 i a ha]; omega
  · intro n hc
    rw [(assignIds_coll _ _ _ _).1, (assignIds_coll _ _ _ _).1] at hc
    obtain ⟨i, hi, he⟩ := List.getElem_of_mem ((hmem n).mpr hc)
    have hg : ((live (w.layers L).slots).mergeSort le)[i]? = some n := by
      rw [List.getElem?_eq_getElem hi, he]
    refine ⟨i, ?_, ?_⟩
    · rw [assignIds_getElem _ _ hn 0 i n hg]; omega
    · simp [upd_same, hg]
  · intro n K hK; rw [(assignIds_coll _ _ _ _).1, (assignIds_coll _ _ _ _).1]
  · intro n K hK hc
    have hnm : (w.nodes n).coll ≠ some L := by rw [hc]; simp; exact hK
    show (assignIds _ _ _ n).id = _
    rw [assignIds_not_mem, assignIds_not_mem]
    · simp; rw [h.mem_iff]; exact hnm
    · simp; rw [h.mem_iff]; exact hnm
  · intro n hn'
    rw [(assignIds_coll _ _ _ _).1, (assignIds_coll _ _ _ _).1, h.fresh n hn']; simp
  · intro hl; simp [h.freshL L hl]

/-! ### reading -/

theorem Inv.nodeI_ok {w : World} (_ : Inv w) {n : NodeId} {i : Nat} (h : (w.nodes n).id = i) :
    w.nodeI n = .ok i := by
  unfold nodeI; rw [h, if_pos (by omega)]

theorem pyIndex_nat {α} {s : List α} {i : Nat} {x : α} (h : s[i]? = some x) : pyIndex s i = .ok x := by
  unfold pyIndex
  dsimp only
  rw [if_neg (by omega : ¬ (i : Int) < 0), if_neg (by omega), Int.toNat_natCast, h]

theorem filterMap_range' (s : List (Option NodeId)) : ∀ (m k : Nat),
    (List.range' k m).filterMap (fun i => (s[i]?).join) = live ((s.drop k).take m) := by
  intro m
  induction m with
  | zero => intro k; simp
  | succ m ih =>
    intro k
    simp only [List.range'_succ, List.filterMap_cons, ih]
    rcases Nat.lt_or_ge k s.length with h | h
    · rw [List.drop_eq_getElem_cons h, List.take_succ_cons, List.getElem?_eq_getElem h]
      cases s[k] <;> simp [ih]
    · rw [List.drop_eq_nil_of_le (as := s) (i := k) (by omega), List.drop_eq_nil_of_le (as := s) (i := k+1) (by omega),
        List.getElem?_eq_none h]
      simp

theorem firstAt_eq (s : List (Option NodeId)) (is : List Nat) :
    firstAt s is = (is.filterMap (fun i => (s[i]?).join)).head? := by
  induction is with
  | nil => rfl
  | cons i is ih =>
    simp only [firstAt, List.filterMap_cons]
    rcases h : s[i]? with _ | (_ | n) <;> simp [ih]

theorem firstAt_range' (s : List (Option NodeId)) (k : Nat) :
    firstAt s (List.range' k (s.length - k)) = (live (s.drop k)).head? := by
  rw [firstAt_eq, filterMap_range', List.take_of_length_le (by simp)]

theorem firstAt_rev (s : List (Option NodeId)) (i : Nat) :
    firstAt s (List.range i).reverse = (live (s.take i)).getLast? := by
  rw [firstAt_eq, List.filterMap_reverse, List.head?_reverse, List.range_eq_range', filterMap_range',
    List.drop_zero]

theorem split_unique {α} {pre post pre' post' : List α} {n : α} (h : pre ++ n :: post = pre' ++ n :: post')
    (h1 : n ∉ pre) (h2 : n ∉ pre') : pre = pre' ∧ post = post' := by
  induction pre generalizing pre' with
  | nil =>
    cases pre' with
    | nil => simpa using h
    | cons a pre' => simp at h; simp [h.1] at h2
  | cons a pre ih =>
    cases pre' with
    | nil => simp at h; simp [h.1] at h1
    | cons b pre' =>
      simp at h h1 h2
      obtain ⟨e1, e2⟩ := ih h.2 h1.2 h2.2
      exact ⟨by rw [h.1, e1], e2⟩

theorem live_split {s : List (Option NodeId)} {i : Nat} {n : NodeId} (h : s[i]? = some (some n))
    (hn : (live s).Nodup) {pre post : List NodeId} (hl : live s = pre ++ n :: post) :
    live (s.take i) = pre ∧ live (s.drop (i+1)) = post := by
  have hlt := (List.getElem?_eq_some_iff.mp h).1
  have e : s = s.take i ++ some n :: s.drop (i+1) := by
    have := List.drop_eq_getElem_cons hlt
    rw [(List.getElem?_eq_some_iff.mp h).2] at this
    rw [← this, List.take_append_drop]
  have e2 : live s = live (s.take i) ++ n :: live (s.drop (i+1)) := by
    conv => lhs; rw [e]
    simp
  rw [hl] at hn
  have hn2 := hn
  rw [← hl, e2] at hn2
  simp only [List.nodup_append, List.mem_cons, forall_eq_or_imp] at hn hn2
  exact split_unique (e2.symm.trans hl)
    (fun hm => hn2.2.2 n hm |>.1 rfl) (fun hm => hn.2.2 n hm |>.1 rfl)

theorem mapM_pyIndex {α} (s : List α) : ∀ (m k : Nat), k + m ≤ s.length →
    (List.range' k m).mapM (fun i : Nat => pyIndex s (i : Int)) = .ok ((s.drop k).take m) := by
  intro m
  induction m with
  | zero => intro k _; simp; rfl
  | succ m ih =>
    intro k h
    have hlt : k < s.length := by omega
    rw [List.range'_succ, List.mapM_cons, pyIndex_nat (List.getElem?_eq_getElem hlt), ih (k+1) (by omega),
      List.drop_eq_getElem_cons hlt]
    rfl

theorem retainMark_ok {w : World} (L : LayerId) (ns : List NodeId)
    (h : ∀ n ∈ ns, (w.nodes n).coll = some L) : (w.retainMark L ns).2 = none := by
  induction ns generalizing w with
  | nil => rfl
  | cons n ns ih =>
    simp only [retainMark]
    rw [if_neg (by simpa using h n (by simp))]
    split
    · apply ih
      intro m hm
      simp only [setId_nodes, upd]; split
      · subst_vars; exact h _ (by simp)
      · exact h m (by simp [hm])
    · exact ih (fun m hm => h m (by simp [hm]))

theorem retain_ok {w : World} (h : Inv w) (L : LayerId) (ns : List NodeId)
    (hd : none ∉ (w.layers L).slots) (hns : ∀ n ∈ ns, n ∈ live (w.layers L).slots) :
    (w.retain L ns).2 = none := by
  have hmk := retainMark_ok (w := w) L ns (fun n hn => (h.mem_iff L n).mp (hns n hn))
  have hmark := retainMark_spec h L [] ns w rfl rfl rfl (fun _ => ⟨rfl, rfl⟩) (fun m hm => by simp)
      (fun _ _ => rfl) hmk
  unfold retain
  rcases hm : w.retainMark L ns with ⟨u, e⟩
  rw [hm] at hmk hmark
  simp only at hmk; subst hmk
  obtain ⟨u1, u2, u3, u4, u5, u6, u7⟩ := hmark
  simp only at u1 u2 u3 u5 u6 u7 ⊢
  have hloop := retainLoop_spec L (w.layers L).slots (fun n => decide ((u.nodes n).id < 0))
    (w.layers L).slots.length 0 [] u
    (by omega) (by simp) (by simp [u1]) (by simpa using h.nodup L) (by simp) (by simp)
  rw [← List.range_eq_range'] at hloop
  simp only [List.drop_zero, List.length_nil, List.nil_append] at hloop
  rw [u1]
  rcases hloop with ⟨x, hx, hnone⟩ | ⟨-, hx⟩
  · exact absurd hnone hd
  · rw [hx]

end World
end Verif
