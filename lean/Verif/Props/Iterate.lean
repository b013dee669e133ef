import Verif.Proof.Iterate
import Verif.Props.Layer
import Verif.Model.Types
/-
C103: loops over a layer whose body changes the layer.
-/
set_option linter.unusedSimpArgs false
namespace Verif
open World

namespace Spec

/-- what a loop that removes the nodes with `p` is meant to leave -/
def Without (p : NodeId → Bool) (ns : List NodeId) : List NodeId := ns.filter (fun n => !p n)

/-- the layer never gets so empty that it is tidied up: at most 16 places, or at least three quarters of them stay in use -/
def Roomy (w : World) (L : LayerId) (p : NodeId → Bool) (ns : List NodeId) : Prop :=
  slotCount w L ≤ 16 ∨ 3 * slotCount w L ≤ 4 * (Without p ns).length

end Spec
open Spec

theorem reach_remove {w : World} (h : Reachable w) (L : LayerId) (n : NodeId) : Reachable (w.remove L n).1 := by
  obtain ⟨w0, hs, h1, h2⟩ := h
  exact ⟨w0, _, h1, .snoc (op := .remove L n) h2 trivial⟩

theorem reach_setField {w : World} (h : Reachable w) {n : NodeId} (hn : n < w.nextN) (k : Str) (v : Value) : Reachable (w.setField n k v) := by
  obtain ⟨w0, hs, h1, h2⟩ := h
  exact ⟨w0, _, h1, .snoc (op := .setField n k v) h2 hn⟩

theorem reach_addNew {w : World} (h : Reachable w) {L : LayerId} (hL : L < w.nextL) {kw : Dict Str Value} (hk : (dkeys kw).Nodup) :
    Reachable (w.addNew L kw).1 := by
  obtain ⟨w0, hs, h1, h2⟩ := h
  exact ⟨w0, _, h1, .snoc (op := .addNew L kw) h2 ⟨hL, hk⟩⟩

theorem good_start {w : World} (h : Inv w) (L : LayerId) : Steady w (w.iterStart L) 0 := by
  refine ⟨rfl, ?_⟩
  simp only [iterStart, h.num L, List.drop_zero]
  by_cases hl : ((live (w.layers L).slots).length : Int) = (w.layers L).slots.length
  · right
    have := map_some_live (s := (w.layers L).slots) (by omega)
    rw [← this]; simp
  · left; simp [hl]

/-- a loop that removes nodes -/
theorem loop_remove (L : LayerId) (p : NodeId → Bool) : ∀ (k : Nat) (w : World) (it : LayerIter) (i : Nat), Reachable w → it.layer = L →
    Steady w it i → (w.ahead L i).length < k →
    ∃ w' seen, forLoop (removeIf L p) k w it = (w', seen.map some, .ended) ∧ Reachable w' ∧ seen.Sublist (w.ahead L i) ∧
      live (w'.layers L).slots = (live (w.layers L).slots).filter (fun n => !(p n && decide (n ∈ seen))) ∧
      (∀ K, K ≠ L → live (w'.layers K).slots = live (w.layers K).slots) ∧
      ((w.layers L).slots.length ≤ 16 ∨ 3 * (w.layers L).slots.length ≤ 4 * ((live (w.layers L).slots).filter (fun n => !p n)).length →
        seen = w.ahead L i)
  | 0, _, _, _, _, _, _, hk => by omega
  | k + 1, w, it, i, hr, hl, g, hk => by
    have hi := hr.inv
    rcases next_good g with ⟨h1, h2⟩ | ⟨n, j, h1, h2, h3, h4, h5⟩
    · rw [hl] at h1
      refine ⟨w, [], ?_, hr, by simp, by simp [List.filter_eq_self.mpr], fun _ _ => rfl, fun _ => h1.symm⟩
      simp only [forLoop]
      split
      · rfl
      · rename_i he; rw [he] at h2; cases h2
    · rw [hl] at h1 h3 h4
      have hlen : (w.ahead L j).length < k := by rw [h1] at hk; simp at hk; omega
      simp only [forLoop, h5]
      cases hp : p n with
      | false =>
        simp only [removeIf, hp, Bool.false_eq_true, if_false]
        have g' : Steady w ⟨it.layer, it.filtered, some j⟩ j := by
          refine ⟨rfl, ?_⟩
          rcases g.clean with hc | hc
          · exact .inl hc
          · refine .inr fun hm => hc ?_
            simp only at hm
            rw [show j = i + (j - i) by omega, ← List.drop_drop] at hm
            exact List.mem_of_mem_drop hm
        obtain ⟨w', seen, a1, a2, a3, a4, a5, a6⟩ := loop_remove L p k w ⟨it.layer, it.filtered, some j⟩ j hr hl g' hlen
        refine ⟨w', n :: seen, by rw [a1]; rfl, a2, by rw [h1]; exact a3.cons_cons _, ?_, a5, fun hc => by rw [h1, a6 hc]⟩
        rw [a4]
        refine List.filter_congr fun m _ => ?_
        by_cases hm : m = n
        · subst hm; simp [hp]
        · simp [hm]
      | true =>
        simp only [removeIf, hp, if_true]
        obtain ⟨w1, r1, r2, r3⟩ := removeCore_slots hi h4
        have hs := removeCore_spec hi L n
        rw [r1] at hs
        rcases hs with ⟨-, e⟩ | ⟨-, w1', e, -, -, -, -, hlive, -, -⟩
        · cases e
        injection e with e; subst e
        have hrm : w.remove L n = (w1.autoCompact L, none) := by simp only [World.remove, r1]
        have hr2 : Reachable (w1.autoCompact L) := by have := reach_remove hr L n; rwa [hrm] at this
        obtain ⟨b1, b2, -, -, -, -⟩ := autoCompact_spec r2 L
        obtain ⟨c1, c2⟩ := autoCompact_slots r2 L
        rw [hrm]
        simp only
        have hdrop : (w1.layers L).slots.drop j = (w.layers L).slots.drop j := by
          rw [r3, List.drop_set, if_pos (by omega)]
        have hnin : n ∉ (live (w1.layers L).slots) := by rw [hlive]; simp
        -- what is ahead is a suffix
        have hah : ((w1.autoCompact L).ahead L j).Sublist (w.ahead L j) ∧
            (w1.autoCompact L = w1 → (w1.autoCompact L).ahead L j = w.ahead L j) := by
          refine ⟨?_, fun e => by rw [e]; simp only [ahead, hdrop]⟩
          rcases c1 with c | c
          · rw [c]; simp only [ahead, hdrop]; exact .refl _
          · simp only [ahead, c, ← hdrop, ← List.map_drop, live_map_some]
            have hsp : live (w1.layers L).slots = live ((w1.layers L).slots.take j) ++ live ((w1.layers L).slots.drop j) := by
              rw [← live_append, List.take_append_drop]
            have hle : (live ((w1.layers L).slots.take j)).length ≤ j :=
              Nat.le_trans (live_length_le _) (List.length_take_le _ _)
            rw [hsp, List.drop_append, List.drop_eq_nil_of_le hle, List.nil_append]
            exact List.drop_sublist _ _
        have g' : Steady (w1.autoCompact L) ⟨it.layer, it.filtered, some j⟩ j := by
          refine ⟨rfl, ?_⟩
          rcases g.clean with hc | hc
          · exact .inl hc
          · refine .inr fun hm => ?_
            simp only [hl] at hm
            rcases c1 with c | c
            · rw [c, hdrop, show j = i + (j - i) by omega, ← List.drop_drop] at hm
              rw [hl] at hc
              exact hc (List.mem_of_mem_drop hm)
            · rw [c] at hm
              have := List.mem_of_mem_drop hm
              simp at this
        obtain ⟨w', seen, a1, a2, a3, a4, a5, a6⟩ := loop_remove L p k _ ⟨it.layer, it.filtered, some j⟩ j hr2 hl g' (Nat.lt_of_le_of_lt hah.1.length_le hlen)
        refine ⟨w', n :: seen, by rw [a1]; rfl, a2, by rw [h1]; exact (a3.trans hah.1).cons_cons _, ?_, ?_, ?_⟩
        · rw [a4, b2, hlive, if_pos rfl, List.filter_filter]
          refine List.filter_congr fun m _ => ?_
          by_cases hm : m = n
          · subst hm; simp [hp]
          · simp [hm]
        · intro K hK; rw [a5 K hK, b2, hlive, if_neg hK]
        · intro hc
          have hf : (live (w1.layers L).slots).filter (fun n => !p n) = (live (w.layers L).slots).filter (fun n => !p n) := by
            rw [hlive, if_pos rfl, List.filter_filter]
            refine List.filter_congr fun m _ => ?_
            by_cases hm : m = n
            · subst hm; simp [hp]
            · simp [hm]
          have hn : (w1.layers L).slots.length = (w.layers L).slots.length := by rw [r3]; simp
          have hle : ((live (w1.layers L).slots).filter (fun n => !p n)).length ≤ (live (w1.layers L).slots).length := List.length_filter_le _ _
          have hno := c2 (by rw [hn]; rw [hf] at hle; omega)
          rw [h1, a6 (by rw [hno, hn, hf]; exact hc), hah.2 hno]

/-- C103. `for n in layer: if p(n): layer.remove(n)`: it always ends, without an exception. The nodes it gets to see are nodes of
the layer, in the order of the layer, none of them twice; and what is left are all nodes but those with `p` that it saw. Other
layers stay as they are. -/
theorem C103_remove {w : World} (h : Reachable w) (L : LayerId) (p : NodeId → Bool) {ns : List NodeId} (hh : Holds w L ns)
    {k : Nat} (hk : ns.length < k) :
    ∃ (w' : World) (seen : List NodeId), w.forLayer L (removeIf L p) k = (w', seen.map some, .ended) ∧ Reachable w' ∧ seen.Sublist ns ∧ seen.Nodup ∧
      Holds w' L (ns.filter (fun n => !(p n && decide (n ∈ seen)))) ∧ (∀ K, K ≠ L → w'.iter K = w.iter K) := by
  have hi := h.inv
  have hns := (holds_iff hi).mp hh
  have ha : w.ahead L 0 = ns := by rw [hns]; rfl
  obtain ⟨w', seen, a1, a2, a3, a4, a5, -⟩ := loop_remove L p k w _ 0 h rfl (good_start hi L) (by rw [ha]; exact hk)
  rw [ha] at a3
  refine ⟨w', seen, a1, a2, a3, a3.nodup (hns ▸ hi.nodup L), (holds_iff a2.inv).mpr (by rw [a4, ← hns]), fun K hK => ?_⟩
  rw [a2.inv.iter_eq, hi.iter_eq, a5 K hK]

/-- the whole property: such a loop leaves what it is meant to leave -/
def C103_full : Prop := ∀ (w : World) (L : LayerId) (p : NodeId → Bool) (ns : List NodeId) (k : Nat), Reachable w → Holds w L ns → ns.length < k →
  Holds (w.forLayer L (removeIf L p) k).1 L (Without p ns)

/-- C103. It does, if the layer is not tidied up meanwhile; and then it sees every node. Missing: larger layers of which more than
a quarter is removed (`C103_full_false`). -/
theorem C103_remove_partial {w : World} (h : Reachable w) (L : LayerId) (p : NodeId → Bool) {ns : List NodeId} (hh : Holds w L ns)
    {k : Nat} (hk : ns.length < k) (hc : Roomy w L p ns) :
    ∃ w', w.forLayer L (removeIf L p) k = (w', ns.map some, .ended) ∧ Reachable w' ∧ Holds w' L (Without p ns) := by
  have hi := h.inv
  have hns := (holds_iff hi).mp hh
  have ha : w.ahead L 0 = ns := by rw [hns]; rfl
  obtain ⟨w', seen, a1, a2, a3, a4, a5, a6⟩ := loop_remove L p k w _ 0 h rfl (good_start hi L) (by rw [ha]; exact hk)
  rw [← hns, ha] at a6
  have hs := a6 hc
  subst hs
  refine ⟨w', a1, a2, (holds_iff a2.inv).mpr ?_⟩
  rw [a4, ← hns]
  refine List.filter_congr fun m hm => ?_
  simp [hm]

/-- a loop that removes nodes and never tidies up -/
theorem loop_core (L : LayerId) (p : NodeId → Bool) : ∀ (k : Nat) (w : World) (it : LayerIter) (i : Nat), Inv w → it.layer = L →
    Steady w it i → (w.ahead L i).length < k →
    forLoop (removeCoreIf L p) k w it = ((w.removeLoop L (((w.ahead L i).filter p).map some)).1, (w.ahead L i).map some, .ended) ∧
      (w.removeLoop L (((w.ahead L i).filter p).map some)).2 = none
  | 0, _, _, _, _, _, _, hk => by omega
  | k + 1, w, it, i, hi, hl, g, hk => by
    rcases next_good g with ⟨h1, h2⟩ | ⟨n, j, h1, h2, h3, h4, h5⟩
    · rw [hl] at h1
      simp only [forLoop, h1]
      split
      · exact ⟨rfl, rfl⟩
      · rename_i he; rw [he] at h2; cases h2
    · rw [hl] at h1 h3 h4
      have hlen : (w.ahead L j).length < k := by rw [h1] at hk; simp at hk; omega
      simp only [forLoop, h5, h1]
      cases hp : p n with
      | false =>
        have g' : Steady w ⟨it.layer, it.filtered, some j⟩ j := by
          refine ⟨rfl, ?_⟩
          rcases g.clean with hc | hc
          · exact .inl hc
          · refine .inr fun hm => hc ?_
            simp only at hm
            rw [show j = i + (j - i) by omega, ← List.drop_drop] at hm
            exact List.mem_of_mem_drop hm
        obtain ⟨a1, a2⟩ := loop_core L p k w ⟨it.layer, it.filtered, some j⟩ j hi hl g' hlen
        simp only [removeCoreIf, hp, Bool.false_eq_true, if_false, a1, List.filter_cons]
        exact ⟨rfl, a2⟩
      | true =>
        obtain ⟨w1, r1, r2, r3⟩ := removeCore_slots hi h4
        have hdrop : (w1.layers L).slots.drop j = (w.layers L).slots.drop j := by
          rw [r3, List.drop_set, if_pos (by omega)]
        have hah : w1.ahead L j = w.ahead L j := by simp only [ahead, hdrop]
        have g' : Steady w1 ⟨it.layer, it.filtered, some j⟩ j := by
          refine ⟨rfl, ?_⟩
          rcases g.clean with hc | hc
          · exact .inl hc
          · refine .inr fun hm => ?_
            simp only [hl] at hm
            rw [hdrop, show j = i + (j - i) by omega, ← List.drop_drop] at hm
            rw [hl] at hc
            exact hc (List.mem_of_mem_drop hm)
        obtain ⟨a1, a2⟩ := loop_core L p k w1 ⟨it.layer, it.filtered, some j⟩ j r2 hl g' (by rw [hah]; exact hlen)
        rw [hah] at a1 a2
        simp only [removeCoreIf, hp, if_true, r1, a1, List.filter_cons, List.map_cons, removeLoop]
        exact ⟨trivial, a2⟩

/-- C103. `layer.remove(n for n in layer if p(n))`, which walks the layer while it removes, is the same as removing the list of
those nodes; it leaves what it is meant to leave. -/
theorem C103_generator {w : World} (h : Reachable w) (L : LayerId) (p : NodeId → Bool) {ns : List NodeId} (hh : Holds w L ns)
    {k : Nat} (hk : ns.length < k) :
    ∃ w', w.removeGen L p k = (w', .ended) ∧ w.removeMany L ((ns.filter p).map some) = (w', none) ∧ Reachable w' ∧
      Holds w' L (Without p ns) := by
  have hi := h.inv
  have hns := (holds_iff hi).mp hh
  have ha : w.ahead L 0 = ns := by rw [hns]; rfl
  obtain ⟨a1, a2⟩ := loop_core L p k w _ 0 hi rfl (good_start hi L) (by rw [ha]; exact hk)
  rw [ha] at a1 a2
  have hm : w.removeMany L ((ns.filter p).map some) = ((w.removeLoop L ((ns.filter p).map some)).1.autoCompact L, none) := by
    simp only [removeMany]
    generalize w.removeLoop L ((ns.filter p).map some) = r at a2
    obtain ⟨r1, r2⟩ := r
    simp only at a2; subst a2; rfl
  have hr : Reachable ((w.removeLoop L ((ns.filter p).map some)).1.autoCompact L) := by
    obtain ⟨w0, hs, h1, h2⟩ := h
    have : Reachable (w.exec (.removeMany L ((ns.filter p).map some))).1 := ⟨w0, _, h1, .snoc h2 trivial⟩
    simpa only [exec, hm] using this
  refine ⟨_, ?_, hm, hr, (holds_iff hr.inv).mpr ?_⟩
  · simp only [removeGen, forLayer, a1]
  · obtain ⟨b1, -, -, -, kk, hkk, b2, -, -, -, b3, -⟩ := removeLoop_spec hi L ((ns.filter p).map some)
    rw [(autoCompact_spec b1 L).2.1, b2, if_pos rfl, b3 a2, List.take_length, live_map_some, ← hns]
    refine List.filter_congr fun m hm => ?_
    simp [hm]

/-- C103. A loop over a layer that has a gap when the loop starts never gets None, whatever its body does. -/
theorem C103_gaps_hidden {w : World} (L : LayerId) (hg : ¬ w.len L = slotCount w L)
    (body : World → Option NodeId → Res) (k : Nat) : none ∉ (w.forLayer L body k).2.1 := by
  have hf : (w.iterStart L).filtered = true := by
    simp only [iterStart, decide_eq_true_eq]
    intro he; apply hg
    simp only [World.len, slotCount]
    omega
  unfold forLayer
  generalize w.iterStart L = it at hf
  clear hg
  induction k generalizing w it with
  | zero => simp [forLoop]
  | succ k ih =>
    simp only [forLoop]
    split
    · simp
    rename_i x it' he
    have hx : x ≠ none ∧ it'.filtered = true := by
      simp only [iterNext, hf, if_true] at he
      split at he
      · cases he
      · split at he <;> cases he
        exact ⟨by simp, rfl⟩
    split
    · simpa using hx.1.symm
    · simp only [List.mem_cons, not_or]
      exact ⟨hx.1.symm, ih _ hx.2⟩

/-- the body `n[key] = v(n)` -/
def setEach (key : Str) (v : NodeId → Value) (w : World) : Option NodeId → Res
  | none => (w, some .type)
  | some n => (w.setField n key (v n), none)

theorem loop_set (L : LayerId) (key : Str) (v : NodeId → Value) : ∀ (k : Nat) (w : World) (it : LayerIter) (i : Nat), Reachable w → it.layer = L →
    Steady w it i → (w.ahead L i).length < k →
    ∃ w' : World, forLoop (setEach key v) k w it = (w', (w.ahead L i).map some, .ended) ∧ Reachable w' ∧ w'.layers = w.layers ∧
      ((w.ahead L i).Nodup → ∀ m, (w'.nodes m).fields = if m ∈ w.ahead L i then dset (w.nodes m).fields key (v m) else (w.nodes m).fields)
  | 0, _, _, _, _, _, _, hk => by omega
  | k + 1, w, it, i, hr, hl, g, hk => by
    have hi := hr.inv
    rcases next_good g with ⟨h1, h2⟩ | ⟨n, j, h1, h2, h3, h4, h5⟩
    · rw [hl] at h1
      refine ⟨w, ?_, hr, rfl, by simp [h1]⟩
      simp only [forLoop, h1]
      split
      · rfl
      · rename_i he; rw [he] at h2; cases h2
    · rw [hl] at h1 h3 h4
      have hlen : (w.ahead L j).length < k := by rw [h1] at hk; simp at hk; omega
      have hn : n < w.nextN := by
        apply Nat.lt_of_not_le; intro hc
        have := (hi.slot L _ n h4).1
        rw [hi.fresh n hc] at this; cases this
      have hly : (w.setField n key (v n)).layers = w.layers := rfl
      have hah : (w.setField n key (v n)).ahead L j = w.ahead L j := rfl
      have g' : Steady (w.setField n key (v n)) ⟨it.layer, it.filtered, some j⟩ j := by
        refine ⟨rfl, ?_⟩
        rcases g.clean with hc | hc
        · exact .inl hc
        · refine .inr fun hm => hc ?_
          simp only [hly] at hm
          rw [show j = i + (j - i) by omega, ← List.drop_drop] at hm
          exact List.mem_of_mem_drop hm
      obtain ⟨w', a1, a2, a3, a4⟩ := loop_set L key v k _ ⟨it.layer, it.filtered, some j⟩ j (reach_setField hr hn key (v n)) hl g' (by rw [hah]; exact hlen)
      rw [hah] at a1 a4
      refine ⟨w', by simp only [forLoop, h5, h1, setEach, a1]; rfl, a2, a3, fun hnd m => ?_⟩
      rw [h1] at hnd ⊢
      obtain ⟨hnd1, hnd2⟩ := List.nodup_cons.mp hnd
      rw [a4 hnd2 m]
      by_cases hm : m = n
      · subst hm
        rw [if_neg hnd1, if_pos (by simp)]
        simp [setField, modNode]
      · have : ((w.setField n key (v n)).nodes m).fields = (w.nodes m).fields := by simp [setField, modNode, upd, hm]
        simp [hm, this]

/-- C103. `for n in layer: n[key] = v(n)` gets to every node of the layer once, in order; it sets the field in each, and changes
nothing else. -/
theorem C103_set_fields {w : World} (h : Reachable w) (L : LayerId) (key : Str) (v : NodeId → Value) {ns : List NodeId} (hh : Holds w L ns)
    {k : Nat} (hk : ns.length < k) :
    ∃ w' : World, w.forLayer L (setEach key v) k = (w', ns.map some, .ended) ∧ Reachable w' ∧ Holds w' L ns ∧
      ∀ m, (w'.nodes m).fields = if m ∈ ns then dset (w.nodes m).fields key (v m) else (w.nodes m).fields := by
  have hi := h.inv
  have hns := (holds_iff hi).mp hh
  have ha : w.ahead L 0 = ns := by rw [hns]; rfl
  obtain ⟨w', a1, a2, a3, a4⟩ := loop_set L key v k w _ 0 h rfl (good_start hi L) (by rw [ha]; exact hk)
  rw [ha] at a1 a4
  exact ⟨w', a1, a2, (holds_iff a2.inv).mpr (by rw [a3]; exact hns), a4 (hns ▸ hi.nodup L)⟩

/-- the body `layer.add(**kw)` -/
def addEach (L : LayerId) (kw : Dict Str Value) (w : World) (_ : Option NodeId) : Res := ((w.addNew L kw).1, errOf (w.addNew L kw).2)

theorem addNew_slots (w : World) (L : LayerId) (kw : Dict Str Value) :
    (∃ e, errOf (w.addNew L kw).2 = some e) ∨ (errOf (w.addNew L kw).2 = none ∧
      ((w.addNew L kw).1.layers L).slots = (w.layers L).slots ++ [some w.nextN] ∧ ((w.addNew L kw).1.layers L).num = (w.layers L).num + 1) := by
  unfold addNew
  simp only [newNode]
  generalize validate _ _ _ = r
  cases r with
  | error e => exact .inl ⟨e, rfl⟩
  | ok u => right; simp [setNum, setSlots, setColl, setId, modNode, modLayer, errOf]

theorem skipNone_some (i m : Nat) (s : List (Option NodeId)) (n : NodeId) (h : s[m]? = some (some n)) :
    ∃ n' j, skipNone i s = some (n', j) ∧ j ≤ i + m + 1 := by
  induction s generalizing i m with
  | nil => simp at h
  | cons x s ih =>
    cases x with
    | some x => exact ⟨x, i + 1, rfl, by omega⟩
    | none =>
      cases m with
      | zero => simp at h
      | succ m =>
        obtain ⟨n', j, a, b⟩ := ih (i + 1) m (by simpa using h)
        exact ⟨n', j, a, by omega⟩

theorem loop_add (L : LayerId) (kw : Dict Str Value) : ∀ (k : Nat) (w : World) (it : LayerIter) (i m : Nat) (n : NodeId), it.layer = L → it.pos = some i →
    i ≤ m → (w.layers L).slots[m]? = some (some n) →
    (forLoop (addEach L kw) k w it).2.2 ≠ .ended ∧
    ((forLoop (addEach L kw) k w it).2.2 = .running → (forLoop (addEach L kw) k w it).1.len L = w.len L + k)
  | 0, w, it, i, m, n, hl, hp, him, hs => by simp [forLoop]
  | k + 1, w, it, i, m, n, hl, hp, him, hs => by
    obtain ⟨x, j, h1, hj⟩ : ∃ x j, w.iterNext it = (some x, ⟨L, it.filtered, some j⟩) ∧ j ≤ m + 1 := by
      have hlt := (List.getElem?_eq_some_iff.mp hs).1
      subst hl
      simp only [iterNext, hp]
      cases hf : it.filtered with
      | true =>
        obtain ⟨n', j, a, b⟩ := skipNone_some i (m - i) ((w.layers it.layer).slots.drop i) n (by rw [List.getElem?_drop, show i + (m - i) = m by omega]; exact hs)
        refine ⟨some n', j, ?_, by omega⟩
        simp only [if_true, a]
      | false =>
        refine ⟨(w.layers it.layer).slots[i], i + 1, ?_, by omega⟩
        rw [List.getElem?_eq_getElem (by omega)]
        simp
    have hlt := (List.getElem?_eq_some_iff.mp hs).1
    simp only [forLoop, h1, addEach]
    rcases addNew_slots w L kw with ⟨e, he⟩ | ⟨he, hsl, hnum⟩
    · simp [he]
    · simp only [he]
      obtain ⟨a1, a2⟩ := loop_add L kw k (w.addNew L kw).1 ⟨L, it.filtered, some j⟩ j (w.layers L).slots.length w.nextN rfl rfl (by omega) (by rw [hsl]; simp)
      refine ⟨a1, fun hr => ?_⟩
      rw [a2 hr]; simp only [World.len, hnum]; omega

/-- C103. `for n in layer: layer.add(**kw)` does not end by itself unless the layer is empty: it goes on until `add` raises an
exception, and the layer has one more node after each round. -/
theorem C103_add_forever {w : World} (h : Reachable w) (L : LayerId) (kw : Dict Str Value) {ns : List NodeId} (hh : Holds w L ns)
    (hne : ns ≠ []) (k : Nat) :
    (w.forLayer L (addEach L kw) k).2.2 ≠ .ended ∧
    ((w.forLayer L (addEach L kw) k).2.2 = .running → (w.forLayer L (addEach L kw) k).1.len L = w.len L + k) := by
  have hns := (holds_iff h.inv).mp hh
  obtain ⟨n, rest, rfl⟩ : ∃ n rest, ns = n :: rest := by cases ns with | nil => exact absurd rfl hne | cons a r => exact ⟨a, r, rfl⟩
  have hm : some n ∈ (w.layers L).slots := mem_live.mp (by rw [← hns]; simp)
  obtain ⟨m, hm⟩ := List.getElem?_of_mem hm
  exact loop_add L kw k w _ 0 m n rfl rfl (by omega) hm

namespace Ex.Iterate

/-- a layer of 20 nodes, from which all are removed one by one -/
def all : NodeId → Bool := fun _ => true
def after : World := (Ex.big.forLayer 0 (removeIf 0 all) 21).1

theorem holdsBig : Holds Ex.big 0 (List.range 20) := by unfold Holds; decide +kernel

example : (Ex.big.forLayer 0 (removeIf 0 all) 21).2 = ([0, 1, 2, 3, 4, 5, 12, 13, 14, 15, 16, 17, 18, 19].map some, .ended) := by decide +kernel
example : after.iter 0 = [6, 7, 8, 9, 10, 11].map some := by decide +kernel

/-- the generator removes them all -/
example : (Ex.big.removeGen 0 all 21).1.iter 0 = [] := by decide +kernel

/-- `C103_remove`, `C103_generator` and `C103_set_fields` on it -/
example := C103_remove Ex.reachBig 0 all holdsBig (k := 21) (by decide)
example := C103_generator Ex.reachBig 0 all holdsBig (k := 21) (by decide)
example := C103_set_fields Ex.reachBig 0 "k".toList (fun n => .int n) holdsBig (k := 21) (by decide)
example : ((Ex.big.forLayer 0 (setEach "k".toList (fun n => .int n)) 21).1.nodes 7).fields = [("k".toList, .int 7)] := by decide +kernel

/-- `C103_remove_partial`: every fourth node of the 20; and all nodes of a layer with gaps that is small -/
def fourth : NodeId → Bool := fun n => n % 4 == 0
example : Roomy Ex.big 0 fourth (List.range 20) := by unfold Roomy; decide +kernel
example := C103_remove_partial Ex.reachBig 0 fourth holdsBig (k := 21) (by decide) (by unfold Roomy; decide +kernel)
example : (Ex.big.forLayer 0 (removeIf 0 fourth) 21).1.iter 0 = [1, 2, 3, 5, 6, 7, 9, 10, 11, 13, 14, 15, 17, 18, 19].map some := by decide +kernel
example := C103_remove_partial Ex.reach 0 all Ex.holds0 (k := 4) (by decide) (by unfold Roomy; decide +kernel)

/-- `C103_gaps_hidden`: a loop over nodes 0, 2, 4 that removes node 4 when it is at node 0 -/
def ahead4 (w : World) : Option NodeId → Res
  | some 0 => w.remove 0 4
  | _ => (w, none)
example := C103_gaps_hidden (w := Ex.w) 0 (by decide +kernel) ahead4 9
example : (Ex.w.forLayer 0 ahead4 9).2 = ([some 0, some 2], .ended) := by decide +kernel

/-- the same loop over the same nodes, after `layer.compact()` -/
example : (Ex.wc.forLayer 0 ahead4 9).2 = ([some 0, some 2, none], .ended) := by decide +kernel

/-- `C103_add_forever` -/
example := C103_add_forever Ex.reach 0 [] Ex.holds0 (by decide) 12
example : (Ex.w.forLayer 0 (addEach 0 []) 12).2 = ([0, 2, 4, 7, 8, 9, 10, 11, 12, 13, 14, 15].map some, .running) := by decide +kernel
/-- it ends by the exception of an `add` that is refused -/
def typed : World := World.empty.run [.addLayer "a".toList [("p".toList, DataTypes.int32 none)], .addNew 0 [("p".toList, .int 1)]]
example : (typed.forLayer 0 (addEach 0 [("p".toList, .str "x".toList)]) 12).2.1 = [some 0] ∧
    ∃ e, (typed.forLayer 0 (addEach 0 [("p".toList, .str "x".toList)]) 12).2.2 = .raised e := ⟨by decide +kernel, _, rfl⟩

end Ex.Iterate

/-- C103. A loop over a layer without gaps can get None: when a node that is yet to come is removed. -/
theorem C103_none_given : ∃ (w : World) (L : LayerId) (n m : NodeId) (k : Nat), Reachable w ∧ w.len L = slotCount w L ∧
    none ∈ (w.forLayer L (fun w x => if x = some n then w.remove L m else (w, none)) k).2.1 :=
  ⟨Ex.wc, 0, 0, 4, 9, Ex.reachc, by decide +kernel, by decide +kernel⟩

/-- C103. Removing every node of a layer of 20 in a loop leaves six of them: after six removals the layer is tidied up, and the loop
skips as many nodes as were removed. -/
theorem C103_full_false : ¬ C103_full := by
  intro h
  have := h Ex.big 0 Ex.Iterate.all (List.range 20) 21 Ex.reachBig Ex.Iterate.holdsBig (by decide)
  revert this
  unfold Holds
  decide +kernel

end Verif
