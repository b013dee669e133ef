import Verif.Model.History
import Verif.Proof.Doc
import Verif.Proof.Start
/-
C10-C19: layers.
-/
set_option linter.unusedSimpArgs false
namespace Verif
open World

namespace Spec

/-- Specification state: for every layer a plain list of nodes. -/
abbrev Lists := Nat → List Nat

/-- replace the list of one layer -/
def put (A : Lists) (L : Nat) (l : List Nat) : Lists := fun K => if K = L then l else A K

/-- in no layer -/
def Free (A : Lists) (n : Nat) : Prop := ∀ K, n ∉ A K

/-- What a call may do to the plain lists, given whether it raised. -/
def Step (A : Lists) (op : Op) (raised : Bool) (A' : Lists) : Prop :=
  match op with
  | .add L ns => raised = false ∧ A' = put A L (A L ++ ns)
  | .addNew L _ => if raised then A' = A else ∃ n, Free A n ∧ A' = put A L (A L ++ [n])
  | .addMany L ns _ _ =>
    ∃ k ≤ ns.length, A' = put A L (A L ++ ns.take k) ∧
      (ns.take k).Nodup ∧ (∀ n ∈ ns.take k, Free A n) ∧
      (raised = false → k = ns.length) ∧
      (k < ns.length → ∃ n, ns[k]? = some n ∧ (¬ Free A n ∨ n ∈ ns.take k))
  | .remove L n =>
    if raised then n ∉ A L ∧ A' = A else n ∈ A L ∧ A' = put A L ((A L).filter (fun m => m ≠ n))
  | .removeMany L ns =>
    ∃ k ≤ ns.length, A' = put A L ((A L).filter (fun m => some m ∉ ns.take k)) ∧
      (∀ n, some n ∈ ns.take k → n ∈ A L) ∧
      (raised = false → k = ns.length) ∧
      (raised = true → ∃ n, ns[k]? = some (some n) ∧ (n ∉ A L ∨ some n ∈ ns.take k))
  | .detach n =>
    if raised then Free A n ∧ A' = A
    else ∃ L, n ∈ A L ∧ A' = put A L ((A L).filter (fun m => m ≠ n))
  | .retain L ns =>
    raised = false ∧ (∀ n ∈ ns, n ∈ A L) ∧ A' = put A L ((A L).filter (fun m => m ∈ ns))
  | .sort L le =>
    raised = false ∧ ∃ l, A' = put A L l ∧ l.Perm (A L) ∧ l.Pairwise (fun a b => le a b = true) ∧
      ∀ a b, [a, b].Sublist (A L) → le a b = true → [a, b].Sublist l
  | _ => A' = A

/-- A history of calls acting on plain lists. -/
inductive Run (A0 : Lists) : List (Op × Bool) → Lists → Prop
  | nil : Run A0 [] A0
  | snoc {h A op raised A'} : Run A0 h A → Step A op raised A' → Run A0 (h ++ [(op, raised)]) A'

end Spec

/-- the nodes of every layer -/
def absOf (w : World) : Spec.Lists := fun L => live (w.layers L).slots

theorem free_iff {w : World} (h : Inv w) (n) : Spec.Free (absOf w) n ↔ (w.nodes n).coll = none := by
  constructor
  · intro hf
    cases hc : (w.nodes n).coll with
    | none => rfl
    | some L => exact absurd ((h.mem_iff L n).mpr hc) (hf L)
  · intro hc K hm
    rw [absOf, h.mem_iff K n, hc] at hm; simp at hm

theorem not_free_iff {w : World} (h : Inv w) (n) : ¬ Spec.Free (absOf w) n ↔ (w.nodes n).coll ≠ none := by
  rw [free_iff h]

theorem abs_put {w w' : World} {L l} (h : ∀ K, live (w'.layers K).slots = if K = L then l else live (w.layers K).slots) :
    absOf w' = Spec.put (absOf w) L l := by
  funext K; exact h K

theorem abs_same {w w' : World} (h : ∀ K, (w'.layers K).slots = (w.layers K).slots) : absOf w' = absOf w := by
  funext K; simp only [absOf, h K]

/-- simulation step -/
theorem step_sim {w : World} (h : Inv w) (op : Op) (ha : w.Allowed op) :
    Inv (w.exec op).1 ∧ Spec.Step (absOf w) op (w.exec op).2.isSome (absOf (w.exec op).1) := by
  cases op with
  | newNode f =>
    refine ⟨?_, rfl⟩
    constructor
    · intro L i n hs
      simp only [exec, newNode] at hs ⊢
      have := h.slot L i n hs
      have hne : n ≠ w.nextN := by
        rintro rfl; rw [h.fresh _ (Nat.le_refl _)] at this; simp at this
      rw [upd_ne _ _ hne]; exact this
    · intro n L hc
      simp only [exec, newNode] at hc ⊢
      by_cases hne : n = w.nextN
      · subst hne; simp at hc
      · rw [upd_ne _ _ hne] at hc ⊢; exact h.bound n L hc
    · exact h.num
    · intro n hn
      simp only [exec, newNode] at hn ⊢
      rw [upd_ne _ _ (by omega)]; exact h.fresh n (by omega)
    · exact h.freshL
  | setField n k v =>
    have s := same_setField w n k v
    exact ⟨s.inv h, abs_same (fun K => by simp only [exec, s.layers])⟩
  | delField n k =>
    simp only [exec]
    split
    · have s := same_delField w n k
      exact ⟨s.inv h, abs_same (fun K => by simp only [s.layers])⟩
    · exact ⟨h, rfl⟩
  | add L ns =>
    obtain ⟨h1, h2, h3⟩ := ha
    obtain ⟨a, -, -, b, -⟩ := addNodes_spec h L h1 ns h2 (fun n hn => by
      have := h3 n hn
      refine ⟨?_, this.1⟩
      simpa [isDangling] using this.2)
    exact ⟨a, rfl, abs_put b⟩
  | addNew L kw =>
    simp only [exec]
    rcases addNew_spec h L ha.1 kw with ⟨e, he⟩ | ⟨w', he, i, -, b, -, -⟩
    · rw [he]; exact ⟨h, rfl⟩
    · rw [he]
      exact ⟨i, w.nextN, (free_iff h _).mpr (h.fresh _ (Nat.le_refl _)), abs_put b⟩
  | addMany L ns fill val =>
    obtain ⟨i, k, hk, e1, e2, e3, e4, e5⟩ := addMany_spec h L ha.1 ns fill val ha.2
    refine ⟨i, k, hk, abs_put e4, e2, fun n hn => (free_iff h n).mpr (e3 n hn), ?_, ?_⟩
    · intro hr; apply e1; simpa [exec] using hr
    · intro hlt
      obtain ⟨n, hn, hh⟩ := e5 hlt
      refine ⟨n, hn, ?_⟩
      rcases hh with hh | hh
      · exact .inl ((not_free_iff h n).mpr hh)
      · exact .inr hh
  | remove L n =>
    simp only [exec, remove]
    rcases removeCore_spec h L n with ⟨hc, he⟩ | ⟨hc, w', he, i, -, -, -, b, -, -⟩
    · rw [he]; refine ⟨h, ?_⟩
      simp only [Spec.Step, Option.isSome_some, if_true]
      exact ⟨by rw [absOf, h.mem_iff]; exact hc, trivial⟩
    · rw [he]
      obtain ⟨a1, a2, -⟩ := autoCompact_spec i L
      refine ⟨a1, ?_⟩
      simp only [Spec.Step, Option.isSome_none, Bool.false_eq_true, if_false]
      refine ⟨(h.mem_iff L n).mpr hc, ?_⟩
      funext K
      simp only [absOf, Spec.put]
      rw [a2 K, b K]
      simp
  | removeMany L ns =>
    simp only [exec, removeMany]
    obtain ⟨i, -, -, -, k, hk, b, m, -, -, e1, e2⟩ := removeLoop_spec h L ns
    rcases hr : w.removeLoop L ns with ⟨w', e⟩
    rw [hr] at i b e1 e2
    have hfil : (live (w.layers L).slots).filter (fun m => !decide (m ∈ live (ns.take k))) =
        (absOf w L).filter (fun m => some m ∉ ns.take k) := by
      simp only [absOf]; congr 1; funext x; simp [mem_live]
    cases e with
    | some e =>
      refine ⟨i, k, hk, ?_, ?_, by simp, ?_⟩
      · rw [← hfil]; exact abs_put b
      · intro n hn; exact m n (mem_live.mpr hn)
      · intro _
        obtain ⟨-, n, x1, x2⟩ := e2 (by simp)
        exact ⟨n, x1, by simpa only [absOf, mem_live] using x2⟩
    | none =>
      obtain ⟨a1, a2, -⟩ := autoCompact_spec i L
      refine ⟨a1, k, hk, ?_, ?_, fun _ => e1 rfl, by simp⟩
      · rw [← hfil]; apply abs_put; intro K; rw [a2 K, b K]
      · intro n hn; exact m n (mem_live.mpr hn)
  | detach n =>
    simp only [exec, detach]
    cases hc : (w.nodes n).coll with
    | none =>
      refine ⟨h, ?_⟩
      simp only [Spec.Step, Option.isSome_some, if_true]
      exact ⟨(free_iff h n).mpr hc, trivial⟩
    | some L =>
      simp only [remove]
      rcases removeCore_spec h L n with ⟨hc', he⟩ | ⟨-, w', he, i, -, -, -, b, -, -⟩
      · exact absurd hc hc'
      · rw [he]
        obtain ⟨a1, a2, -⟩ := autoCompact_spec i L
        refine ⟨a1, ?_⟩
        simp only [Spec.Step, Option.isSome_none, Bool.false_eq_true, if_false]
        refine ⟨L, (h.mem_iff L n).mpr hc, ?_⟩
        funext K
        simp only [absOf, Spec.put]
        rw [a2 K, b K]
        simp
  | retain L ns =>
    obtain ⟨a, -, -, m, b, -⟩ := retain_spec h L ns ha
    refine ⟨a, ?_, m, abs_put b⟩
    simp only [Allowed] at ha
    simp [exec, ha]
  | sort L le =>
    refine ⟨inv_sort h L le, ?_⟩
    have e := sort_eq h L le
    simp only [exec]
    rw [e]
    refine ⟨rfl, (live (w.layers L).slots).mergeSort le, ?_, List.mergeSort_perm _ _, ?_, ?_⟩
    · apply abs_put; intro K; simp only [upd]; split <;> simp
    · exact List.pairwise_mergeSort (fun a b c => ha.1 a b c) (fun a b => ha.2 a b) _
    · intro a b hs hle
      exact List.pair_sublist_mergeSort (fun a b c => ha.1 a b c) (fun a b => ha.2 a b) hle hs
  | compact L =>
    refine ⟨inv_compact h L, ?_⟩
    funext K; exact abs_compact h L K
  | addLayer name f =>
    have hslots : ∀ K, ((w.addLayer name f).1.layers K).slots = (w.layers K).slots := by
      intro K; simp only [addLayer, upd]; split
      · subst_vars; rw [h.freshL _ (Nat.le_refl _)]
      · rfl
    refine ⟨?_, abs_same hslots⟩
    constructor
    · intro K i n hs; simp only [exec] at hs; rw [hslots] at hs; exact h.slot K i n hs
    · intro n K hc; simp only [exec]; rw [hslots]; exact h.bound n K hc
    · intro K
      simp only [exec]; rw [hslots]
      simp only [addLayer, upd]; split
      · subst_vars; rw [h.freshL _ (Nat.le_refl _)]; rfl
      · exact h.num K
    · exact h.fresh
    · intro K hK; simp only [exec]; rw [hslots]; apply h.freshL
      simp only [exec, addLayer] at hK; omega
  | addText name t =>
    exact ⟨⟨h.slot, h.bound, h.num, h.fresh, h.freshL⟩, rfl⟩
  | setProp k v =>
    exact ⟨⟨h.slot, h.bound, h.num, h.fresh, h.freshL⟩, rfl⟩
  | addField L name t init =>
    obtain ⟨a, b⟩ := addField_spec h L name t init
    exact ⟨a, abs_same b⟩
  | removeField L name leave =>
    obtain ⟨a, b⟩ := removeField_spec h L name leave
    exact ⟨a, abs_same b⟩
  | removeLayer name c =>
    simp only [exec, Spec.Step]
    unfold removeLayer
    split
    · exact ⟨h, rfl⟩
    · split
      · exact ⟨h, rfl⟩
      · split
        · exact ⟨h, rfl⟩
        · exact ⟨⟨h.slot, h.bound, h.num, h.fresh, h.freshL⟩, rfl⟩
  | compile x t =>
    obtain ⟨a, s⟩ := compile_spec h x t
    refine ⟨a, ?_⟩
    funext K; exact s.live K

theorem hist_sim {w0 : World} {h w} (hi : Inv w0) (hh : Hist w0 h w) : Inv w ∧ Spec.Run (absOf w0) h (absOf w) := by
  induction hh with
  | nil => exact ⟨hi, Spec.Run.nil⟩
  | snoc _ ha ih =>
    obtain ⟨a, b⟩ := step_sim ih.1 _ ha
    exact ⟨a, .snoc ih.2 b⟩

theorem Reachable.inv {w : World} (h : Reachable w) : Inv w :=
  have ⟨_, _, hs, hh⟩ := h
  (hist_sim (started_inv hs) hh).1

/-- C10. Every history of calls acts on the layers as on plain lists. -/
theorem C10_layer_is_list {w0 : World} (hs : Started w0) {h : List (Op × Bool)} {w : World} (hh : Hist w0 h w) :
    ∃ A0 A : Spec.Lists, (∀ L, w0.iter L = (A0 L).map some) ∧ Spec.Run A0 h A ∧ ∀ L, w.iter L = (A L).map some :=
  ⟨absOf w0, absOf w, fun L => (started_inv hs).iter_eq L, (hist_sim (started_inv hs) hh).2,
    fun L => (hist_sim (started_inv hs) hh).1.iter_eq L⟩

/-- the nodes of a layer as iterated -/
def Spec.Holds (w : World) (L : LayerId) (l : List NodeId) : Prop := w.iter L = l.map some

theorem holds_iff {w : World} (h : Inv w) {L l} : Spec.Holds w L l ↔ l = live (w.layers L).slots := by
  unfold Spec.Holds
  rw [h.iter_eq]
  constructor
  · intro e; have := congrArg live e; simpa using this.symm
  · rintro rfl; rfl

/-- C11. -/
theorem C11_len {w : World} (h : Reachable w) (L : LayerId) : w.len L = (w.iter L).length := by
  rw [h.inv.iter_eq, len, h.inv.num]; simp

/-- C12. `layer[n.i] is n`, and indices increase along iteration. -/
theorem C12_index {w : World} (h : Reachable w) (L : LayerId) (l : List NodeId) (hl : Spec.Holds w L l) :
    (∀ n ∈ l, ∃ i, w.nodeI n = .ok i ∧ w.getIndex L i = .ok (some n)) ∧
    l.Pairwise (fun a b => ∃ i j, w.nodeI a = .ok i ∧ w.nodeI b = .ok j ∧ i < j) := by
  have hi := h.inv
  rw [holds_iff hi] at hl; subst hl
  constructor
  · intro n hn
    obtain ⟨i, h1, h2⟩ := hi.bound n L ((hi.mem_iff L n).mp hn)
    refine ⟨i, hi.nodeI_ok h1, ?_⟩
    simp only [getIndex]; exact pyIndex_nat h2
  · unfold live
    refine List.Pairwise.filterMap id (R := fun a b => ∀ x y, a = some x → b = some y →
      ∃ i j, w.nodeI x = .ok i ∧ w.nodeI y = .ok j ∧ i < j) ?_ ?_
    · intro a a' hr b hb b' hb'
      simp at hb hb'; exact hr b b' hb hb'
    · rw [List.pairwise_iff_getElem]
      intro i j hi' hj' hij x y hx hy
      have h1 := (hi.slot L i x (by rw [List.getElem?_eq_getElem hi', hx])).2
      have h2 := (hi.slot L j y (by rw [List.getElem?_eq_getElem hj', hy])).2
      exact ⟨i, j, hi.nodeI_ok h1, hi.nodeI_ok h2, by omega⟩

theorem slice_filter (f : NodeId → Int) : ∀ (s : List (Option NodeId)) (k : Int) (lo hi : Nat),
    (∀ (i : Nat) n, s[i]? = some (some n) → f n = k + i) →
    ((s.drop lo).take (hi - lo)).filterMap id = (s.filterMap id).filter (fun n => decide (k + lo ≤ f n ∧ f n < k + hi)) := by
  intro s
  induction s with
  | nil => intros; simp
  | cons x s ih =>
    intro k lo hi h
    have hs : ∀ (i : Nat) n, s[i]? = some (some n) → f n = k + 1 + i := by
      intro i n hn
      have := h (i + 1) n (by simpa using hn)
      omega
    have hmem : ∀ n ∈ s.filterMap id, k + 1 ≤ f n := by
      intro n hn
      obtain ⟨o, ho, hon⟩ := List.mem_filterMap.mp hn
      obtain ⟨i, hi⟩ := List.getElem?_of_mem ho
      simp only [id] at hon
      subst hon
      have := hs i n hi
      omega
    have hx : ∀ n, x = some n → f n = k := by
      intro n hn
      have := h 0 n (by simp [hn])
      omega
    cases lo with
    | zero =>
      cases hi with
      | zero =>
        symm
        simp only [Nat.sub_zero, List.take_zero, List.filterMap_nil, List.filter_eq_nil_iff, decide_eq_true_eq]
        intro n hn
        obtain ⟨o, ho, hon⟩ := List.mem_filterMap.mp hn
        obtain ⟨i, hi⟩ := List.getElem?_of_mem ho
        simp only [id] at hon
        subst hon
        have := h i n hi
        omega
      | succ hi =>
        have := ih (k + 1) 0 hi hs
        simp only [List.drop_zero, Nat.sub_zero, List.take_succ_cons, List.filterMap_cons] at this ⊢
        have e : (s.filterMap id).filter (fun n => decide (k + 1 + ((0 : Nat) : Int) ≤ f n ∧ f n < k + 1 + (hi : Int))) =
            (s.filterMap id).filter (fun n => decide (k + ((0 : Nat) : Int) ≤ f n ∧ f n < k + ((hi + 1 : Nat) : Int))) := by
          apply List.filter_congr
          intro n hn
          have := hmem n hn
          simp only [decide_eq_decide]
          omega
        rw [e] at this
        cases x with
        | none => simpa using this
        | some n =>
          have := hx n rfl
          simp only [id, List.filter_cons]
          rw [if_pos (by simp only [decide_eq_true_eq]; omega)]
          simp_all
    | succ lo =>
      have e : (hi - (lo + 1)) = (hi - 1) - lo := by omega
      have := ih (k + 1) lo (hi - 1) hs
      simp only [List.drop_succ_cons, e, this]
      have e2 : (s.filterMap id).filter (fun n => decide (k + 1 + (lo : Int) ≤ f n ∧ f n < k + 1 + ((hi - 1 : Nat) : Int))) =
          (s.filterMap id).filter (fun n => decide (k + ((lo + 1 : Nat) : Int) ≤ f n ∧ f n < k + (hi : Int))) := by
        apply List.filter_congr
        intro n hn
        simp only [decide_eq_decide]
        have := hmem n hn
        omega
      rw [e2]
      cases x with
      | none => simp
      | some n =>
        have := hx n rfl
        simp only [List.filterMap_cons, id, List.filter_cons]
        rw [if_neg (by simp only [decide_eq_true_eq]; omega)]

namespace Spec
/-- the index of the node is in `[a, b)` -/
def indexIn (w : World) (a b : Nat) (n : NodeId) : Bool :=
  match w.nodeI n with
  | .ok i => decide ((a : Int) ≤ i ∧ i < b)
  | .error _ => false

/-- a bound of a slice of `n` places: negative ones count from the end, and it is cut to 0 .. n -/
def bounded (n : Nat) (x : Int) : Nat := min n (if x < 0 then (n + x).toNat else x.toNat)

/-- where a slice begins; at 0 when the bound is missing -/
def sliceFrom (n : Nat) : Option Int → Nat
  | none => 0
  | some x => bounded n x

/-- where a slice ends; at `n` when the bound is missing -/
def sliceTo (n : Nat) : Option Int → Nat
  | none => n
  | some x => bounded n x
end Spec

/-- C12, slices: `layer[a:b]` are the nodes with an index from `a` up to `b`, in order; `layer[:]` are all. -/
theorem C12_slice {w : World} (h : Reachable w) (L : LayerId) (l : List NodeId) (hl : Spec.Holds w L l) (a b : Nat) :
    w.getSlice L (some a) (some b) = l.filter (Spec.indexIn w a b) ∧ w.getSlice L none none = l := by
  have hi := h.inv
  rw [holds_iff hi] at hl; subst hl
  constructor
  · have h1 := slice_filter (fun n => (w.nodes n).id) (w.layers L).slots 0 a b (fun i n hn => by
      have := (hi.slot L i n hn).2
      omega)
    have h2 : pySlice (w.layers L).slots (some (a : Int)) (some (b : Int)) = ((w.layers L).slots.drop a).take (b - a) := by
      generalize (w.layers L).slots = s
      have e : ∀ x : Nat, adjustIdx s.length (x : Int) = ((min x s.length : Nat) : Int) := by
        intro x; unfold adjustIdx; split
        · omega
        · split <;> omega
      unfold pySlice sliceIndices
      simp only [e, Int.toNat_natCast]
      by_cases ha : s.length ≤ a
      · rw [List.drop_eq_nil_of_le (by omega), List.drop_eq_nil_of_le ha]; simp
      · have e2 : min a s.length = a := by omega
        rw [e2]
        by_cases hb : s.length ≤ b
        · rw [List.take_of_length_le (by simp; omega), List.take_of_length_le (by simp; omega)]
        · have : (((min b s.length : Nat) : Int) - a).toNat = b - a := by omega
          rw [this]
    unfold getSlice
    rw [h2, h1]
    apply List.filter_congr
    intro n hn
    obtain ⟨i, h3, -⟩ := hi.bound n L ((hi.mem_iff L n).mp hn)
    simp only [Spec.indexIn, hi.nodeI_ok h3, h3]
    simp
  · unfold getSlice pySlice sliceIndices live
    simp

/-- C12, slices with any bounds: negative and missing bounds are taken as on a list as long as the layer has slots, gaps
included; the nodes are those whose index lies between the bounds, in order. -/
theorem C12_slice_any {w : World} (h : Reachable w) (L : LayerId) (l : List NodeId) (hl : Spec.Holds w L l) (a b : Option Int) :
    w.getSlice L a b = l.filter (Spec.indexIn w (Spec.sliceFrom (w.layers L).slots.length a) (Spec.sliceTo (w.layers L).slots.length b)) := by
  have hi := h.inv
  rw [holds_iff hi] at hl; subst hl
  have h1 := slice_filter (fun n => (w.nodes n).id) (w.layers L).slots 0 (Spec.sliceFrom (w.layers L).slots.length a) (Spec.sliceTo (w.layers L).slots.length b) (fun i n hn => by
      have := (hi.slot L i n hn).2
      omega)
  have h2 : pySlice (w.layers L).slots a b = ((w.layers L).slots.drop (Spec.sliceFrom (w.layers L).slots.length a)).take (Spec.sliceTo (w.layers L).slots.length b - Spec.sliceFrom (w.layers L).slots.length a) := by
    generalize (w.layers L).slots = s
    have e : ∀ x : Int, adjustIdx s.length x = ((Spec.bounded s.length x : Nat) : Int) := by
      intro x; unfold adjustIdx Spec.bounded
      repeat' split
      all_goals omega
    unfold pySlice sliceIndices
    cases a <;> cases b <;> simp only [e, Spec.sliceFrom, Spec.sliceTo, Int.toNat_natCast, Int.toNat_zero, Int.sub_zero, Nat.sub_zero] <;> congr 1 <;> omega
  unfold getSlice
  rw [h2, h1]
  apply List.filter_congr
  intro n hn
  obtain ⟨i, h3, -⟩ := hi.bound n L ((hi.mem_iff L n).mp hn)
  simp only [Spec.indexIn, hi.nodeI_ok h3, h3]
  simp

/-- C13. Neighbours, first and last. -/
theorem C13_neighbours {w : World} (h : Reachable w) (L : LayerId) (pre post : List NodeId) (n : NodeId)
    (hl : Spec.Holds w L (pre ++ n :: post)) :
    w.nodeLeft n = .ok pre.getLast? ∧ w.nodeRight n = .ok post.head? := by
  have hi := h.inv
  rw [holds_iff hi] at hl
  have hmem : n ∈ live (w.layers L).slots := by rw [← hl]; simp
  have hc := (hi.mem_iff L n).mp hmem
  obtain ⟨i, h1, h2⟩ := hi.bound n L hc
  obtain ⟨e1, e2⟩ := live_split h2 (hi.nodup L) hl.symm
  simp only [nodeLeft, nodeRight, hc, left, right, ne_eq, not_true_eq_false, if_false, hi.nodeI_ok h1]
  refine ⟨?_, ?_⟩
  · show Except.ok _ = _
    rw [Int.toNat_natCast, firstAt_rev, e1]
  · show Except.ok _ = _
    rw [show ((i : Int) + 1).toNat = i + 1 by omega, firstAt_range', e2]

/-- C13. -/
theorem C13_first_last {w : World} (h : Reachable w) (L : LayerId) (l : List NodeId)
    (hl : Spec.Holds w L l) : w.first L = l.head? ∧ w.last L = l.getLast? := by
  have hi := h.inv
  rw [holds_iff hi] at hl; subst hl
  refine ⟨rfl, ?_⟩
  rw [last, firstAt_rev, List.take_length]

/-- C14. A node span over `a .. b` yields the stretch of the iteration order from `a` to `b`. -/
theorem C14_nodespan {w : World} (h : Reachable w) (L : LayerId) (pre mid post : List NodeId) (a b : NodeId)
    (hl : Spec.Holds w L (pre ++ mid ++ post)) (ha : mid.head? = some a) (hb : mid.getLast? = some b) :
    w.nodeSpanMk a b = .ok (.nodespan a b) ∧ w.nodeSpanIter a b = .ok mid ∧
    w.iterSpan a b = .ok mid ∧ w.iterSpan b a = .ok mid := by
  have hi := h.inv
  rw [holds_iff hi] at hl
  obtain ⟨mt, hma⟩ : ∃ mt, mid = a :: mt := by
    cases mid with
    | nil => simp at ha
    | cons x mt => simp at ha; exact ⟨mt, by rw [ha]⟩
  obtain ⟨mi, hmb⟩ : ∃ mi, mid = mi ++ [b] := List.getLast?_eq_some_iff.mp hb
  have hca := (hi.mem_iff L a).mp (by rw [← hl]; simp [hma])
  have hcb := (hi.mem_iff L b).mp (by rw [← hl]; simp [hmb])
  obtain ⟨i, i1, i2⟩ := hi.bound a L hca
  obtain ⟨j, j1, j2⟩ := hi.bound b L hcb
  have ea := live_split i2 (hi.nodup L) (pre := pre) (post := mt ++ post) (by rw [← hl, hma]; simp)
  have eb := live_split j2 (hi.nodup L) (pre := pre ++ mi) (post := post) (by rw [← hl, hmb]; simp)
  have hij : i ≤ j := by
    rcases Nat.lt_or_ge j i with hlt | hge
    · exfalso
      have hbm : b ∈ live ((w.layers L).slots.take i) := by
        rw [mem_live]
        apply List.mem_of_getElem? (i := j)
        rw [List.getElem?_take_of_lt hlt]; exact j2
      rw [ea.1] at hbm
      have hnd := hi.nodup L
      rw [← hl, hmb] at hnd
      simp only [List.append_assoc, List.nodup_append] at hnd
      exact hnd.2.2 b hbm b (by simp) rfl
    · exact hge
  have hlenj : j < (w.layers L).slots.length := (List.getElem?_eq_some_iff.mp j2).1
  have hstretch : live (((w.layers L).slots.drop i).take (j + 1 - i)) = mid := by
    have e : (w.layers L).slots.take (j+1) = (w.layers L).slots.take i ++
        ((w.layers L).slots.drop i).take (j + 1 - i) := by
      rw [← List.take_add]; congr 1; omega
    have h1 : live ((w.layers L).slots.take (j+1)) = pre ++ mid := by
      rw [List.take_succ, j2]
      simp [eb.1, hmb]
    rw [e, live_append, ea.1] at h1
    exact List.append_cancel_left h1
  have hns : w.iterNodespan L a b = .ok mid := by
    simp only [iterNodespan, hi.nodeI_ok i1, hi.nodeI_ok j1, hca, hcb, bind, Except.bind]
    rw [if_neg (by omega), if_neg (by simp)]
    rw [show ((j : Int) + 1 - i).toNat = j + 1 - i by omega, Int.toNat_natCast]
    rw [mapM_pyIndex _ _ _ (by omega)]
    exact congrArg Except.ok hstretch
  have hsp : w.iterSpan a b = .ok mid := by
    simp only [iterSpan, hi.nodeI_ok i1, hi.nodeI_ok j1, hca, bind, Except.bind]
    rw [if_pos (by omega)]; exact hns
  refine ⟨?_, ?_, hsp, ?_⟩
  · simp only [nodeSpanMk, hca, hcb, hi.nodeI_ok i1, hi.nodeI_ok j1, bind, Except.bind]
    rw [if_neg (by simp), if_neg (by omega), if_neg (by simp)]; rfl
  · simp only [nodeSpanIter, hi.nodeI_ok i1, hi.nodeI_ok j1, bind, Except.bind]
    rw [if_neg (by omega)]; exact hsp
  · simp only [iterSpan, hi.nodeI_ok i1, hi.nodeI_ok j1, hcb, bind, Except.bind]
    split
    · have : i = j := by omega
      subst this
      rw [i2] at j2; simp at j2; subst j2; exact hns
    · exact hns

/-- C14. Any two nodes of a layer delimit such a stretch, in one of the two orders. -/
theorem C14_any_pair {w : World} (L : LayerId) (l : List NodeId) (_ : Spec.Holds w L l) (a b : NodeId)
    (ha : a ∈ l) (hb : b ∈ l) :
    ∃ pre mid post, l = pre ++ mid ++ post ∧
      ((mid.head? = some a ∧ mid.getLast? = some b) ∨ (mid.head? = some b ∧ mid.getLast? = some a)) := by
  obtain ⟨p, q, rfl⟩ := List.append_of_mem ha
  have key : ∀ x y : NodeId, ∀ q, y ∈ q → ∃ mid post, x :: q = mid ++ post ∧
      mid.head? = some x ∧ mid.getLast? = some y := by
    intro x y q hy
    obtain ⟨u, v, rfl⟩ := List.append_of_mem hy
    exact ⟨x :: u ++ [y], v, by simp, by simp, List.getLast?_eq_some_iff.mpr ⟨x :: u, rfl⟩⟩
  rcases List.mem_append.mp hb with hb | hb
  · obtain ⟨u, v, rfl⟩ := List.append_of_mem hb
    obtain ⟨mid, post, e, h1, h2⟩ := key b a (v ++ a :: q) (by simp)
    exact ⟨u, mid, post, by simp [← e], .inr ⟨h1, h2⟩⟩
  · rcases List.mem_cons.mp hb with rfl | hb
    · exact ⟨p, [b], q, by simp, .inl ⟨rfl, rfl⟩⟩
    · obtain ⟨mid, post, e, h1, h2⟩ := key a b q hb
      exact ⟨p, mid, post, by simp [← e], .inl ⟨h1, h2⟩⟩

/-- C15. `compact` keeps nodes, order and fields of every layer. -/
theorem C15_compact {w : World} (h : Reachable w) (L : LayerId) :
    (∀ K, (w.compact L).iter K = w.iter K) ∧
    (∀ n, ((w.compact L).nodes n).fields = (w.nodes n).fields ∧
      (w.compact L).isDangling n = w.isDangling n) ∧
    (∀ (j : Nat) n, ((w.compact L).iter L)[j]? = some (some n) → (w.compact L).nodeI n = .ok j) ∧
    (w.compact L).compact L = w.compact L := by
  have hi := h.inv
  have hi' := inv_compact hi L
  have hd : ((w.compact L).layers L).slots.length = (live ((w.compact L).layers L).slots).length := by
    rw [compact_eq hi]; simp
  refine ⟨?_, ?_, ?_, ?_⟩
  · intro K; rw [hi.iter_eq, hi'.iter_eq, abs_compact hi]
  · intro n
    have := (sameObs_compact hi L).node n
    exact ⟨this.2, by simp only [isDangling, this.1]⟩
  · intro j n hj
    rw [hi'.iter_eq, map_some_live hd.symm] at hj
    exact hi'.nodeI_ok (hi'.slot L j n hj).2
  · have hcond : (((w.compact L).layers L).slots.length : Int) = ((w.compact L).layers L).num := by
      rw [hi'.num, hd]
    generalize w.compact L = v at hcond
    unfold compact; rw [if_pos hcond]

/-- C16, the part that holds: on a layer without gaps `retain` keeps exactly the given nodes. Missing:
layers with gaps, where `retain` raises (`C16_retain_fails_on_gaps`). -/
theorem C16_retain_partial {w : World} (h : Reachable w) (L : LayerId) (l ns : List NodeId)
    (hl : Spec.Holds w L l) (hgap : ∀ i : Int, w.getIndex L i ≠ .ok none) (hns : ∀ n ∈ ns, n ∈ l) :
    (w.retain L ns).2 = none ∧
    Spec.Holds (w.retain L ns).1 L (l.filter (fun m => m ∈ ns)) ∧
    (∀ K, K ≠ L → (w.retain L ns).1.iter K = w.iter K) ∧
    (∀ n ∈ l, n ∉ ns → (w.retain L ns).1.isDangling n = true) ∧
    (∀ (j : Nat) n, ((w.retain L ns).1.iter L)[j]? = some (some n) → (w.retain L ns).1.nodeI n = .ok j) := by
  have hi := h.inv
  rw [holds_iff hi] at hl; subst hl
  have hdense : none ∉ (w.layers L).slots := by
    intro hm
    obtain ⟨i, hlt, he⟩ := List.getElem_of_mem hm
    exact hgap i (pyIndex_nat (by rw [List.getElem?_eq_getElem hlt, he]))
  have hok : (w.retain L ns).2 = none := retain_ok hi L ns hdense hns
  obtain ⟨a, -, -, -, b, d, -, c, -⟩ := retain_spec hi L ns hok
  refine ⟨hok, ?_, ?_, ?_, ?_⟩
  · rw [holds_iff a, b L]; simp
  · intro K hK; rw [hi.iter_eq, a.iter_eq, b K, if_neg hK]
  · intro n hn hnn
    simp only [isDangling]; rw [c n, if_pos ⟨(hi.mem_iff L n).mp hn, hnn⟩]; rfl
  · intro j n hj
    rw [a.iter_eq, map_some_live d.symm] at hj
    exact a.nodeI_ok (a.slot L j n hj).2

/-- C17. -/
theorem C17_attached {w : World} (h : Reachable w) (n : NodeId) :
    (∀ L, w.contains L n = true ↔ some n ∈ w.iter L) ∧
    (w.isDangling n = false ↔ ∃ L, some n ∈ w.iter L) ∧
    (∀ K L, some n ∈ w.iter K → some n ∈ w.iter L → K = L) := by
  have hi := h.inv
  have hm : ∀ L, some n ∈ w.iter L ↔ (w.nodes n).coll = some L := by
    intro L; rw [hi.iter_eq]; simp [hi.mem_iff]
  refine ⟨fun L => by simp [contains, hm], ?_, ?_⟩
  · simp only [hm, isDangling]
    cases (w.nodes n).coll <;> simp
  · intro K L h1 h2; rw [hm] at h1 h2; rw [h1] at h2; exact Option.some.inj h2

/-- C18. -/
theorem C18_sort {w : World} (h : Reachable w) (L : LayerId) (l : List NodeId) (le : NodeId → NodeId → Bool)
    (htrans : ∀ a b c, le a b = true → le b c = true → le a c = true)
    (htotal : ∀ a b, (le a b || le b a) = true) (hl : Spec.Holds w L l) :
    ∃ l', Spec.Holds (w.sort L le).1 L l' ∧ (w.sort L le).2 = none ∧ l'.Perm l ∧
      l'.Pairwise (fun a b => le a b = true) ∧
      (∀ a b, [a, b].Sublist l → le a b = true → [a, b].Sublist l') ∧
      (∀ (j : Nat) n, l'[j]? = some n → (w.sort L le).1.nodeI n = .ok j) ∧
      (∀ K, K ≠ L → (w.sort L le).1.iter K = w.iter K) := by
  have hi := h.inv
  rw [holds_iff hi] at hl; subst hl
  have hs := inv_sort hi L le
  have e := sort_eq hi L le
  have hslots : ((w.sort L le).1.layers L).slots = ((live (w.layers L).slots).mergeSort le).map some := by
    rw [e]; simp
  refine ⟨(live (w.layers L).slots).mergeSort le, ?_, by rw [e], List.mergeSort_perm _ _,
    List.pairwise_mergeSort htrans htotal _, ?_, ?_, ?_⟩
  · rw [holds_iff hs, hslots]; simp
  · intro a b hsub hle; exact List.pair_sublist_mergeSort htrans htotal hle hsub
  · intro j n hj
    exact hs.nodeI_ok (hs.slot L j n (by rw [hslots]; simp [hj])).2
  · intro K hK
    rw [hi.iter_eq, hs.iter_eq, e]; simp [upd_ne _ _ hK]

/-- number of list slots a layer occupies: the smallest index that is out of range -/
def Spec.slotCount (w : World) (L : LayerId) : Nat := (w.layers L).slots.length

/-- C19. -/
theorem C19_gap_bound {w : World} (h : Reachable w) (L : LayerId) (ns : List (Option NodeId))
    (hok : (w.removeMany L ns).2 = none) :
    Spec.slotCount (w.removeMany L ns).1 L ≤ 16 ∨
    3 * Spec.slotCount (w.removeMany L ns).1 L ≤ 4 * ((w.removeMany L ns).1.iter L).length := by
  have hi := h.inv
  obtain ⟨i, -⟩ := removeLoop_spec hi L ns
  simp only [removeMany] at hok ⊢
  rcases hr : w.removeLoop L ns with ⟨w', e⟩
  rw [hr] at i hok
  cases e with
  | some e => simp at hok
  | none =>
    obtain ⟨a, -, -, -, -, b⟩ := autoCompact_spec i L
    rw [a.iter_eq]; simpa [Spec.slotCount] using b

/-- C19, single node. -/
theorem C19_gap_bound_single {w : World} (h : Reachable w) (L : LayerId) (n : NodeId)
    (hok : (w.remove L n).2 = none) :
    Spec.slotCount (w.remove L n).1 L ≤ 16 ∨
    3 * Spec.slotCount (w.remove L n).1 L ≤ 4 * ((w.remove L n).1.iter L).length := by
  have hi := h.inv
  simp only [remove] at hok ⊢
  rcases removeCore_spec hi L n with ⟨hc, he⟩ | ⟨hc, w', he, i, -, -, -, b, -, -⟩
  · rw [he] at hok; simp at hok
  · rw [he]
    obtain ⟨a, -, -, -, -, b⟩ := autoCompact_spec i L
    simp only
    rw [a.iter_eq]; simpa [Spec.slotCount] using b

/-! ### concrete cases -/

namespace Ex

/-- two layers; `tok` gets five nodes, of which the second and fourth are removed again -/
def ops : List Op :=
  [.addLayer "tok".toList [], .addLayer "sent".toList []] ++ List.replicate 5 (.addNew 0 []) ++
  [.addNew 1 [], .remove 0 1, .detach 3, .newNode []]

/-- a heap with gaps: `tok` holds nodes 0, 2, 4 in slots 0, 2, 4; `sent` holds node 5 -/
def w : World := World.empty.run ops

theorem reach : Reachable w := reachable_run ops (by decide)

example : ∃ A : Spec.Lists, (∃ h, Spec.Run (fun _ => []) h A) ∧ ∀ L, w.iter L = (A L).map some := by
  obtain ⟨h, hh⟩ := hist_run (w := World.empty) .nil ops (by decide)
  obtain ⟨A0, A, h0, h1, h2⟩ := C10_layer_is_list (.inl rfl) hh
  have : A0 = fun _ => [] := funext (fun L => (List.map_eq_nil_iff.mp (h0 L).symm))
  exact ⟨A, ⟨h, this ▸ h1⟩, h2⟩
theorem holds0 : Spec.Holds w 0 [0, 2, 4] := by unfold Spec.Holds; decide
theorem holds1 : Spec.Holds w 1 [5] := by unfold Spec.Holds; decide
example : w.len 0 = 3 := (C11_len reach 0).trans (by decide)
example : w.nodeI 2 = .ok 2 ∧ w.getIndex 0 2 = .ok (some 2) := by decide
example : ∀ n ∈ [0, 2, 4], ∃ i, w.nodeI n = .ok i ∧ w.getIndex 0 i = .ok (some n) := (C12_index reach 0 _ holds0).1
example : w.getSlice 0 (some 1) (some 3) = [0, 2, 4].filter (Spec.indexIn w 1 3) ∧ [0, 2, 4].filter (Spec.indexIn w 1 3) = [2] :=
  ⟨(C12_slice reach 0 _ holds0 1 3).1, by decide⟩
example : w.getSlice 0 (some (-3)) none = [2, 4] := (C12_slice_any reach 0 _ holds0 (some (-3)) none).trans (by decide)
example : w.nodeLeft 2 = .ok (some 0) ∧ w.nodeRight 2 = .ok (some 4) :=
  C13_neighbours reach 0 [0] [4] 2 holds0
example : w.nodeLeft 0 = .ok none ∧ w.nodeRight 4 = .ok none :=
  ⟨(C13_neighbours reach 0 [] [2, 4] 0 holds0).1, (C13_neighbours reach 0 [0, 2] [] 4 holds0).2⟩
example : w.first 0 = some 0 ∧ w.last 0 = some 4 := C13_first_last reach 0 _ holds0
example : w.nodeSpanIter 0 2 = .ok [0, 2] := (C14_nodespan reach 0 [] [0, 2] [4] 0 2 holds0 rfl rfl).2.1
example : w.iterSpan 4 2 = .ok [2, 4] := (C14_nodespan reach 0 [0] [2, 4] [] 2 4 holds0 rfl rfl).2.2.2
example : (w.compact 0).nodeI 4 = .ok 2 := (C15_compact reach 0).2.2.1 2 4 (by decide)
example : w.contains 0 4 = true ∧ w.isDangling 1 = true := by decide
example : some 4 ∈ w.iter 0 := ((C17_attached reach 4).1 0).mp (by decide)

/-- the same heap with `tok` compacted -/
def wc : World := World.empty.run (ops ++ [.compact 0])
theorem reachc : Reachable wc := reachable_run _ (by decide)

theorem wc_nogap (i : Int) : wc.getIndex 0 i ≠ .ok none := by
  intro h
  have hs : (wc.layers 0).slots = [some 0, some 2, some 4] := by decide
  rw [getIndex, hs] at h
  have := pyIndex_mem h
  simp at this

example : Spec.Holds (wc.retain 0 [4, 0, 4]).1 0 [0, 4] :=
  (C16_retain_partial reachc 0 [0, 2, 4] [4, 0, 4] (by unfold Spec.Holds; decide) wc_nogap (by decide)).2.1

/-- order nodes by descending identity -/
example : ∃ l', Spec.Holds (w.sort 0 (fun a b => decide (b ≤ a))).1 0 l' ∧ l'.Perm [0, 2, 4] ∧
    l'.Pairwise (fun a b => decide (b ≤ a) = true) := by
  obtain ⟨l', a, -, b, c, -⟩ := C18_sort reach 0 [0, 2, 4] (fun a b => decide (b ≤ a))
    (by intro a b c; simp; omega) (by intro a b; simp; omega) holds0
  exact ⟨l', a, b, c⟩

/-- twenty nodes, seven removed: 13 < 0.75 * 20 live nodes, so the layer is compacted -/
def big : World := World.empty.run ([.addLayer "tok".toList []] ++ List.replicate 20 (.addNew 0 []))
theorem reachBig : Reachable big := reachable_run _ (by decide)
example : Spec.slotCount big 0 = 20 ∧
    (big.removeMany 0 ((List.range 7).map some)).2 = none ∧
    Spec.slotCount (big.removeMany 0 ((List.range 7).map some)).1 0 = 13 := by decide
example : Spec.slotCount (big.removeMany 0 ((List.range 7).map some)).1 0 ≤ 16 ∨
    3 * Spec.slotCount (big.removeMany 0 ((List.range 7).map some)).1 0 ≤
      4 * ((big.removeMany 0 ((List.range 7).map some)).1.iter 0).length :=
  C19_gap_bound reachBig 0 _ (by decide)
example : (big.remove 0 3).2 = none := by decide

end Ex

/-! ### behaviour outside the properties -/

/-- C16 fails in general: `retain` on a layer with a gap raises AttributeError, although all nodes given
are in the layer, and leaves the node's index negative. -/
theorem C16_retain_fails_on_gaps : ∃ (w : World) (L : LayerId) (ns : List NodeId), Reachable w ∧
    (∀ n ∈ ns, some n ∈ w.iter L) ∧ (w.retain L ns).2 = some .attribute ∧
    ∃ n, n ∈ ns ∧ (w.retain L ns).1.nodeI n = .ok (-5) :=
  ⟨Ex.w, 0, [4], Ex.reach, by decide, by decide, 4, by decide, by decide⟩

/-- Why C10 asks for `retain` calls that do not raise: a ValueError halfway leaves a node attached whose
index no longer addresses it. -/
theorem C10_failed_retain_breaks : ∃ (w : World) (L : LayerId) (ns : List NodeId) (n : NodeId), Reachable w ∧
    (w.retain L ns).2 = some .value ∧ some n ∈ (w.retain L ns).1.iter L ∧
    (w.retain L ns).1.nodeI n = .error .assertion :=
  ⟨Ex.w, 0, [0, 5], 0, Ex.reach, by decide, by decide, by decide⟩

/-- Why C10 asks `add(*nodes)` for dangling nodes: the code accepts a node of another layer, which is then
iterated by both layers. -/
theorem C10_add_bound_breaks : ∃ (w : World) (n : NodeId), Reachable w ∧
    (w.exec (.add 1 [n])).2 = none ∧
    some n ∈ (w.exec (.add 1 [n])).1.iter 0 ∧ some n ∈ (w.exec (.add 1 [n])).1.iter 1 :=
  ⟨Ex.w, 2, Ex.reach, by decide, by decide, by decide⟩

/-- Integer indexing sees gaps: `layer[1]` is `None` after a removal, although the layer has three
nodes; and a removed node still reports its old index. -/
theorem C12_gap_is_visible : ∃ (w : World) (L : LayerId), Reachable w ∧ w.len L = 3 ∧
    w.getIndex L 1 = .ok none ∧ w.isDangling 1 = true ∧ w.nodeI 1 = .ok 1 :=
  ⟨Ex.w, 0, Ex.reach, by decide, by decide, by decide, by decide⟩

/-- Why C19 asks for calls that return: a batch that raises is not followed by compaction. -/
theorem C19_raising_batch_not_bounded : ∃ (w : World) (ns : List (Option NodeId)), Reachable w ∧
    (w.removeMany 0 ns).2 = some .value ∧ 16 < Spec.slotCount (w.removeMany 0 ns).1 0 ∧
    4 * ((w.removeMany 0 ns).1.iter 0).length < 3 * Spec.slotCount (w.removeMany 0 ns).1 0 :=
  ⟨Ex.big, (List.range 7).map some ++ [some 0], Ex.reachBig, by decide, by decide, by decide⟩

end Verif
