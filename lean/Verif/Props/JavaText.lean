import Verif.Model.JavaText
import Verif.Props.Text
/-
C84: texts of the Java library. C85: their spans.
-/
set_option linter.unusedSimpArgs false
namespace Verif

open JText

namespace Spec

/-- in a text made of these parts, number `i` is the border at position `p` -/
def BorderAt (parts : List JStr) (i p : Int) : Prop := 0 ≤ i ∧ i ≤ parts.length ∧ ((parts.take i.toNat).flatten.length : Int) = p

/-- whether `span(a, b)` is accepted for a text of this length -/
def spanValid (len : Nat) (a b : Int) : Bool := decide (0 ≤ a ∧ a < len ∧ a ≤ b ∧ b ≤ len)

/-- the spans that are made, as they were asked for -/
def madeSpans (len : Nat) : List TOp → List (Int × Int)
  | [] => []
  | .span a b :: os => if spanValid len a b then (a, b) :: madeSpans len os else madeSpans len os
  | .compile _ :: os => madeSpans len os

/-- every span given to a compile was made after the compile before, or was given to that one too; `live` are those
spans, `n` is the number of spans made -/
def FreshSpans (len : Nat) (live : List Nat) (n : Nat) : List TOp → Prop
  | [] => True
  | .span a b :: os => if spanValid len a b then FreshSpans len (n :: live) (n + 1) os else FreshSpans len live n os
  | .compile used :: os => (∀ k ∈ used, k < n → k ∈ live) ∧ FreshSpans len used n os

end Spec

/-- what holds of a text between calls -/
structure JTInv (t : JText) : Prop where
  keys : (dkeys t.table).Nodup
  pos : ∀ (p : Int) (o : Nat), dget t.table p = some o → o < t.heap.length ∧ (t.off o).offset = p
  rng : ∀ (p : Int) (o : Nat), dget t.table p = some o → 0 ≤ p ∧ p ≤ t.text.length
  zero : ∀ (o : Nat), dget t.table 0 = some o → (t.off o).id = 0

/-- the Offsets of a span are those of the table -/
def LiveSpan (t : JText) (s : JSpan) : Prop := ∃ p q : Int, dget t.table p = some s.1 ∧ dget t.table q = some s.2 ∧ p ≤ q

/-- both Offsets of a span are at the start -/
def NullSpan (t : JText) (s : JSpan) : Prop := ∀ o, o = s.1 ∨ o = s.2 → o < t.heap.length ∧ (t.off o).offset = 0 ∧ (t.off o).id = 0

/-- the Offsets of a span are those of the table, or the text is empty (for an empty segment the decoder makes two Offsets
at one position, and only the second is in the table) -/
def SpanOk (t : JText) (s : JSpan) : Prop := LiveSpan t s ∨ (t.text = [] ∧ NullSpan t s)

/-- nothing has changed but reference counts -/
structure SameText (t t' : JText) : Prop where
  text : t'.text = t.text
  validating : t'.validating = t.validating
  table : t'.table = t.table
  len : t'.heap.length = t.heap.length
  ids : ∀ o, (t'.off o).id = (t.off o).id
  offs : ∀ o, (t'.off o).offset = (t.off o).offset

theorem SameText.rfl' (t : JText) : SameText t t := ⟨rfl, rfl, rfl, rfl, fun _ => rfl, fun _ => rfl⟩

theorem SameText.trans' {t u v : JText} (h : SameText t u) (g : SameText u v) : SameText t v :=
  ⟨g.text.trans h.text, g.validating.trans h.validating, g.table.trans h.table, g.len.trans h.len, fun o => (g.ids o).trans (h.ids o),
    fun o => (g.offs o).trans (h.offs o)⟩

theorem SameText.inv {t u : JText} (h : SameText t u) (g : JTInv t) : JTInv u :=
  ⟨by rw [h.table]; exact g.keys, fun p o e => by rw [h.table] at e; rw [h.len, h.offs]; exact g.pos p o e,
    fun p o e => by rw [h.table] at e; rw [h.text]; exact g.rng p o e, fun o e => by rw [h.table] at e; rw [h.ids]; exact g.zero o e⟩

theorem off_modify (t : JText) (o : Nat) (f : JOff → JOff) (i : Nat) :
    ({ t with heap := t.heap.modify o f } : JText).off i = if i = o ∧ o < t.heap.length then f (t.off i) else t.off i := by
  unfold JText.off
  simp only [List.getElem?_modify]
  by_cases hi : i < t.heap.length
  · rw [List.getElem?_eq_getElem hi]
    by_cases ho : o = i
    · subst ho; simp [hi]
    · simp [ho, show ¬ i = o from fun e => ho e.symm]
  · rw [List.getElem?_eq_none (by omega)]
    by_cases ho : i = o
    · subst ho; simp [hi]
    · simp [ho]

/-! ### reset and incref -/

theorem resetLoop (l : Dict Int Nat) : ∀ (t : JText), ∃ t' : JText, t' = { t with heap := l.foldl (fun h e => h.modify e.2 fun x => { x with refcount := 0 }) t.heap } ∧
    SameText t t' ∧ (∀ o, (t.off o).refcount = 0 → (t'.off o).refcount = 0) ∧ ∀ e ∈ l, e.2 < t.heap.length → (t'.off e.2).refcount = 0 := by
  induction l with
  | nil => intro t; exact ⟨t, rfl, .rfl' t, fun _ h => h, by simp⟩
  | cons e l ih =>
    intro t
    obtain ⟨t', h1, h2, h3, h4⟩ := ih { t with heap := t.heap.modify e.2 fun x => { x with refcount := 0 } }
    have hs : SameText t { t with heap := t.heap.modify e.2 fun x => { x with refcount := 0 } } := by
      refine ⟨rfl, rfl, rfl, by simp, fun o => ?_, fun o => ?_⟩ <;> rw [off_modify] <;> split <;> rfl
    have hz : ∀ o, (t.off o).refcount = 0 → (({ t with heap := t.heap.modify e.2 fun x => { x with refcount := 0 } } : JText).off o).refcount = 0 := by
      intro o ho
      rw [off_modify]
      split
      · rfl
      · exact ho
    refine ⟨t', by rw [h1, List.foldl_cons], hs.trans' h2, fun o ho => h3 o (hz o ho), ?_⟩
    intro x hx hlt
    rcases List.mem_cons.mp hx with rfl | hx
    · refine h3 _ ?_
      rw [off_modify, if_pos ⟨rfl, hlt⟩]
    · exact h4 x hx (by simpa using hlt)

theorem reset_ok {t : JText} (h : JTInv t) : SameText t t.reset ∧ ∀ p o, dget t.table p = some o → (t.reset.off o).refcount = 0 := by
  obtain ⟨t', h1, h2, -, h4⟩ := resetLoop t.table t
  unfold JText.reset
  rw [← h1]
  exact ⟨h2, fun p o e => h4 (p, o) (dget_mem e) (h.pos p o e).1⟩

/-- how often an Offset occurs in spans -/
def useCount (o : Nat) : List JSpan → Int
  | [] => 0
  | s :: l => (if o = s.1 then 1 else 0) + (if o = s.2 then 1 else 0) + useCount o l

theorem useCount_nonneg (o : Nat) (l : List JSpan) : 0 ≤ useCount o l := by
  induction l with
  | nil => exact Int.le_refl _
  | cons s l ih => unfold useCount; split <;> split <;> omega

theorem useCount_pos {o : Nat} {l : List JSpan} : useCount o l ≠ 0 ↔ ∃ s ∈ l, o = s.1 ∨ o = s.2 := by
  induction l with
  | nil => simp [useCount]
  | cons s l ih =>
    have := useCount_nonneg o l
    unfold useCount
    constructor
    · intro h
      by_cases h1 : o = s.1
      · exact ⟨s, by simp, .inl h1⟩
      by_cases h2 : o = s.2
      · exact ⟨s, by simp, .inr h2⟩
      rw [if_neg h1, if_neg h2] at h
      obtain ⟨u, hu, hh⟩ := ih.mp (by omega)
      exact ⟨u, by simp [hu], hh⟩
    · rintro ⟨u, hu, hh⟩
      rcases List.mem_cons.mp hu with rfl | hu
      · rcases hh with e | e
        · rw [if_pos e]; split <;> omega
        · rw [if_pos e]; split <;> omega
      · have := ih.mpr ⟨u, hu, hh⟩
        split <;> split <;> omega

theorem incref_ok (used : List JSpan) : ∀ (t : JText), (∀ s ∈ used, s.1 < t.heap.length ∧ s.2 < t.heap.length) →
    SameText t (used.foldl incref t) ∧ ∀ o, ((used.foldl incref t).off o).refcount = (t.off o).refcount + useCount o used := by
  induction used with
  | nil => intro t _; exact ⟨.rfl' t, fun o => by simp [useCount]⟩
  | cons s used ih =>
    intro t hu
    have hl := hu s (by simp)
    have hoff : ∀ o, (t.incref s).off o = if o = s.2 then (if o = s.1 then { t.off o with refcount := (t.off o).refcount + 1 + 1 } else { t.off o with refcount := (t.off o).refcount + 1 })
        else if o = s.1 then { t.off o with refcount := (t.off o).refcount + 1 } else t.off o := by
      intro o
      have e : t.incref s = ({ ({ t with heap := t.heap.modify s.1 fun x => { x with refcount := x.refcount + 1 } } : JText) with
        heap := (t.heap.modify s.1 fun x => { x with refcount := x.refcount + 1 }).modify s.2 fun x => { x with refcount := x.refcount + 1 } } : JText) := rfl
      rw [e, off_modify ({ t with heap := t.heap.modify s.1 fun x => { x with refcount := x.refcount + 1 } } : JText) s.2, off_modify]
      simp only [List.length_modify, hl.1, hl.2, and_true]
      by_cases h2 : o = s.2
      · by_cases h1 : o = s.1
        · rw [if_pos h2, if_pos h1, if_pos h2, if_pos h1]
        · rw [if_pos h2, if_neg h1, if_pos h2, if_neg h1]
      · rw [if_neg h2, if_neg h2]
    have hs : SameText t (t.incref s) := by
      refine ⟨rfl, rfl, rfl, by simp [JText.incref], fun o => ?_, fun o => ?_⟩ <;> rw [hoff] <;> split <;> split <;> rfl
    obtain ⟨h1, h2⟩ := ih (t.incref s) (fun u hu' => by rw [hs.len]; exact hu u (by simp [hu']))
    refine ⟨hs.trans' h1, fun o => ?_⟩
    rw [List.foldl_cons, h2, hoff, useCount]
    by_cases h2 : o = s.2
    · by_cases h1 : o = s.1
      · rw [if_pos h2, if_pos h1, if_pos h1, if_pos h2]; simp only; omega
      · rw [if_pos h2, if_neg h1, if_neg h1, if_pos h2]; simp only; omega
    · by_cases h1 : o = s.1
      · rw [if_neg h2, if_pos h1, if_pos h1, if_neg h2]; simp only; omega
      · rw [if_neg h2, if_neg h1, if_neg h1, if_neg h2]; omega

/-! ### the table -/

theorem intern_ok {t : JText} (h : JTInv t) {p : Int} (hp : 0 ≤ p ∧ p ≤ t.text.length) :
    JTInv (t.intern p).1 ∧ dget (t.intern p).1.table p = some (t.intern p).2 ∧ (∀ q o, dget t.table q = some o → dget (t.intern p).1.table q = some o) ∧
    (∀ o, o < t.heap.length → (t.intern p).1.off o = t.off o) ∧ (t.intern p).1.text = t.text ∧ (t.intern p).1.validating = t.validating ∧
    t.heap.length ≤ (t.intern p).1.heap.length ∧ (∀ q, q ∈ dkeys (t.intern p).1.table ↔ q ∈ dkeys t.table ∨ q = p) := by
  unfold JText.intern
  cases hg : dget t.table p with
  | some o =>
    simp only
    refine ⟨h, hg, fun _ _ e => e, fun _ _ => trivial, trivial, trivial, Nat.le_refl _, fun q => ⟨.inl, ?_⟩⟩
    rintro (e | rfl)
    · exact e
    · exact (dget_isSome_iff _ _).mp (by rw [hg]; rfl)
  | none =>
    simp only
    have hk : p ∉ dkeys t.table := (dget_none_iff _ _).mp hg
    have hold : ∀ o, o < t.heap.length → ({ t with heap := t.heap ++ [⟨0, p, 0⟩], table := dset t.table p t.heap.length } : JText).off o = t.off o := by
      intro o ho
      unfold JText.off
      simp only
      rw [List.getElem?_append_left ho]
    have hnew : ({ t with heap := t.heap ++ [⟨0, p, 0⟩], table := dset t.table p t.heap.length } : JText).off t.heap.length = ⟨0, p, 0⟩ := by
      unfold JText.off; simp
    refine ⟨⟨nodup_dset h.keys _ _, ?_, ?_, ?_⟩, ?_, ?_, hold, trivial, trivial, by simp, ?_⟩
    · intro q o e
      simp only [dget_dset] at e
      split at e
      · cases e
        rename_i hq
        exact ⟨by simp, by rw [hnew]; exact hq⟩
      · have := h.pos q o e
        refine ⟨by simp; omega, by rw [hold o this.1]; exact this.2⟩
    · intro q o e
      simp only [dget_dset] at e
      split at e
      · rename_i hq; rw [← hq]; exact hp
      · exact h.rng q o e
    · intro o e
      simp only [dget_dset] at e
      split at e
      · cases e; rw [hnew]
      · rw [hold o (h.pos 0 o e).1]; exact h.zero o e
    · simp [dget_dset]
    · intro q o e
      simp only [dget_dset]
      rw [if_neg (by rintro rfl; rw [hg] at e; cases e)]
      exact e
    · intro q
      simp only [dset_absent _ hk, dkeys, List.map_append, List.map_cons, List.map_nil, List.mem_append, List.mem_singleton]


/-! ### cutting -/

theorem substring_ok (s : JStr) {a b : Int} (h0 : 0 ≤ a) (h1 : a ≤ b) (h2 : b ≤ s.length) : substring s a b = .ok ((s.take b.toNat).drop a.toNat) := by
  unfold substring
  rw [if_neg (by omega)]

theorem slice_append (s : JStr) {a b c : Nat} (h1 : a ≤ b) (h2 : b ≤ c) (h3 : c ≤ s.length) :
    (s.take b).drop a ++ (s.take c).drop b = (s.take c).drop a := by
  have : s.take b = (s.take c).take b := by rw [List.take_take, Nat.min_eq_left h2]
  rw [this]
  generalize hu : s.take c = u
  have hl : u.length = c := by rw [← hu]; simp; omega
  have e : u.drop b = (u.drop a).drop (b - a) := by rw [List.drop_drop]; congr 1; omega
  rw [e, List.drop_take, List.take_append_drop]

theorem setId_off {t : JText} {p id : Int} {o : Nat} (hp : dget t.table p = some o) (hlt : o < t.heap.length) (i : Nat) :
    (t.setId p id).off i = if i = o then { t.off i with id := id } else t.off i := by
  unfold JText.setId
  rw [hp]
  simp only
  rw [off_modify]
  simp [hlt]

theorem setId_same (t : JText) (p id : Int) : (t.setId p id).text = t.text ∧ (t.setId p id).validating = t.validating ∧ (t.setId p id).table = t.table ∧
    (t.setId p id).heap.length = t.heap.length ∧ ∀ o, ((t.setId p id).off o).offset = (t.off o).offset := by
  unfold JText.setId
  cases hp : dget t.table p with
  | none => exact ⟨rfl, rfl, rfl, rfl, fun _ => rfl⟩
  | some o =>
    refine ⟨rfl, rfl, rfl, by simp, fun i => ?_⟩
    simp only
    rw [off_modify]
    split <;> rfl

theorem cut_ok (rest : List Int) : ∀ (t : JText) (id start : Int), (start :: rest).Pairwise (· < ·) → 0 ≤ start →
    (∀ p ∈ rest, p ≤ t.text.length ∧ ∃ o, dget t.table p = some o ∧ o < t.heap.length ∧ (t.off o).offset = p) →
    ∃ t' parts, t.cut id start rest = (t', .ok parts) ∧ parts.length = rest.length ∧
      (∀ (k : Nat) (p : Int), (start :: rest)[k]? = some p → (parts.take k).flatten = (t.text.take p.toNat).drop start.toNat) ∧
      (∀ x ∈ parts, x ≠ []) ∧ t'.text = t.text ∧ t'.validating = t.validating ∧ t'.table = t.table ∧ t'.heap.length = t.heap.length ∧
      (∀ o, (t'.off o).offset = (t.off o).offset) ∧
      (∀ (k : Nat) (p : Int) (o : Nat), rest[k]? = some p → dget t.table p = some o → (t'.off o).id = id + k) ∧
      (∀ o, (∀ p ∈ rest, dget t.table p ≠ some o) → t'.off o = t.off o) := by
  induction rest with
  | nil =>
    intro t id start _ h0 _
    refine ⟨t, [], rfl, rfl, ?_, by simp, rfl, rfl, rfl, rfl, fun _ => rfl, by simp, fun _ _ => rfl⟩
    intro k p hk
    cases k with
    | zero => simp only [List.getElem?_cons_zero, Option.some.injEq] at hk; subst hk; simp [List.drop_take]
    | succ k => simp at hk
  | cons stop rest ih =>
    intro t id start hs h0 hr
    obtain ⟨hle, o, ho, hlt, hoff⟩ := hr stop (by simp)
    have hs2 : (stop :: rest).Pairwise (· < ·) := (List.pairwise_cons.mp hs).2
    have hss : start < stop := (List.pairwise_cons.mp hs).1 stop (by simp)
    obtain ⟨e1, e2, e3, e4, e5⟩ := setId_same t stop id
    obtain ⟨t', parts, h1, h2, h3, h4, h5, h6, h7, h8, h9, h10, h11⟩ := ih (t.setId stop id) (id + 1) stop hs2 (by omega) (by
      intro p hp
      obtain ⟨g1, o', g2, g3, g4⟩ := hr p (by simp [hp])
      exact ⟨by rw [e1]; exact g1, o', by rw [e3]; exact g2, by rw [e4]; exact g3, by rw [e5]; exact g4⟩)
    have hlen : (start.toNat ≤ stop.toNat) ∧ stop.toNat ≤ t.text.length := by omega
    unfold JText.cut
    rw [e1, substring_ok t.text h0 (by omega) hle]
    simp only [h1]
    refine ⟨t', _ :: parts, rfl, by simp [h2], ?_, ?_, h5.trans e1, h6.trans e2, h7.trans e3, h8.trans e4, fun o => (h9 o).trans (e5 o), ?_, ?_⟩
    · intro k p hk
      cases k with
      | zero => simp only [List.getElem?_cons_zero, Option.some.injEq] at hk; subst hk; simp [List.drop_take]
      | succ k =>
        rw [List.getElem?_cons_succ] at hk
        rw [List.take_succ_cons, List.flatten_cons, h3 k p hk, e1]
        have hps : stop ≤ p := by
          cases k with
          | zero => simp only [List.getElem?_cons_zero, Option.some.injEq] at hk; omega
          | succ k =>
            rw [List.getElem?_cons_succ] at hk
            exact Int.le_of_lt ((List.pairwise_cons.mp hs2).1 p (List.mem_of_getElem? hk))
        have hpl : p ≤ t.text.length := (hr p (List.mem_of_getElem? hk)).1
        exact slice_append t.text hlen.1 (by omega) (by omega)
    · intro x hx
      rcases List.mem_cons.mp hx with rfl | hx
      · intro e
        have := congrArg List.length e
        simp at this
        omega
      · exact h4 x hx
    · intro k p o' hk hp
      cases k with
      | zero =>
        simp only [List.getElem?_cons_zero, Option.some.injEq] at hk
        subst hk
        rw [ho] at hp
        cases hp
        have hno : ∀ q ∈ rest, dget (t.setId stop id).table q ≠ some o := by
          intro q hq e
          rw [e3] at e
          obtain ⟨_, o2, g2, _, g4⟩ := hr q (by simp [hq])
          rw [g2] at e
          cases e
          have := (List.pairwise_cons.mp hs2).1 q hq
          omega
        rw [h11 o hno, setId_off ho hlt, if_pos rfl]
        simp
      | succ k =>
        rw [List.getElem?_cons_succ] at hk
        rw [h10 k p o' hk (by rw [e3]; exact hp)]
        omega
    · intro o' hno
      rw [h11 o' (fun p hp => by rw [e3]; exact hno p (by simp [hp])), setId_off ho hlt, if_neg]
      rintro rfl
      exact hno stop (by simp) ho

theorem filter_dget {d : Dict Int Nat} (hn : (dkeys d).Nodup) (f : Int × Nat → Bool) (p : Int) (o : Nat) :
    dget (d.filter f) p = some o ↔ dget d p = some o ∧ f (p, o) = true := by
  have hn' : (dkeys (d.filter f)).Nodup := by
    unfold dkeys
    exact (List.filter_sublist.map _).nodup hn
  constructor
  · intro h
    have := List.mem_filter.mp (dget_mem h)
    exact ⟨dget_of_mem hn this.1, this.2⟩
  · rintro ⟨h1, h2⟩
    exact dget_of_mem hn' (List.mem_filter.mpr ⟨dget_mem h1, h2⟩)

theorem head_last {l : List Int} {n : Int} (hs : l.Pairwise (· < ·)) (h0 : 0 ∈ l) (hn : n ∈ l) (hr : ∀ p ∈ l, 0 ≤ p ∧ p ≤ n) :
    l.head? = some 0 ∧ l.getLast? = some n := by
  constructor
  · cases l with
    | nil => simp at h0
    | cons a l =>
      rcases List.mem_cons.mp h0 with e | e
      · rw [← e]; rfl
      · have h1 := (List.pairwise_cons.mp hs).1 0 e
        have h2 := (hr a (by simp)).1
        omega
  · rcases List.eq_nil_or_concat l with rfl | ⟨l', a, rfl⟩
    · simp at h0
    · rw [List.concat_eq_append] at *
      rw [List.getLast?_concat]
      rw [List.mem_append, List.mem_singleton] at hn
      rcases hn with e | e
      · have h1 := (List.pairwise_append.mp hs).2.2 n e a (by simp)
        have h2 := (hr a (by simp)).2
        omega
      · rw [e]

/-- C84. `compile()`, when the nodes' spans have their Offsets in the table: the parts make up the text and are cut
exactly at the spans' ends; the ids of a span's Offsets are the borders at its start and stop. -/
theorem C84_compile {t : JText} {used : List JSpan} (h : JTInv t) (hu : ∀ s ∈ used, LiveSpan t s) :
    ∃ t' parts, t.compileWith used = (t', .ok parts) ∧ parts.flatten = t.text ∧
      (∀ s ∈ used, Spec.BorderAt parts (t'.off s.1).id (t.start s) ∧ Spec.BorderAt parts (t'.off s.2).id (t.stop s)) ∧
      (∀ k ≤ parts.length, ((parts.take k).flatten.length : Int) = 0 ∨ ((parts.take k).flatten.length : Int) = t.text.length ∨
        ∃ s ∈ used, ((parts.take k).flatten.length : Int) = t.start s ∨ ((parts.take k).flatten.length : Int) = t.stop s) ∧
      (t.text ≠ [] → ∀ x ∈ parts, x ≠ []) ∧
      JTInv t' ∧ (∀ s ∈ used, LiveSpan t' s) ∧ t'.text = t.text ∧ t'.validating = t.validating ∧ t.heap.length ≤ t'.heap.length ∧
      (∀ o, o < t.heap.length → (t'.off o).offset = (t.off o).offset) := by
  obtain ⟨r1, r2⟩ := reset_ok h
  have hlt : ∀ s ∈ used, s.1 < t.heap.length ∧ s.2 < t.heap.length := by
    intro s hs
    obtain ⟨p, q, h1, h2, -⟩ := hu s hs
    exact ⟨(h.pos _ _ h1).1, (h.pos _ _ h2).1⟩
  obtain ⟨i1, i2⟩ := incref_ok used t.reset (fun s hs => by rw [r1.len]; exact hlt s hs)
  have hs1 := r1.trans' i1
  unfold JText.compileWith
  generalize hT : used.foldl incref t.reset = T at *
  have hT1 : JTInv T := hs1.inv h
  -- the table without unused Offsets
  have hdrop : ∀ p o, dget T.dropUnused.table p = some o ↔ dget t.table p = some o ∧ ∃ s ∈ used, o = s.1 ∨ o = s.2 := by
    intro p o
    unfold JText.dropUnused
    simp only
    rw [filter_dget hT1.keys, hs1.table]
    constructor
    · rintro ⟨g1, g2⟩
      refine ⟨g1, useCount_pos.mp ?_⟩
      simp only [Bool.not_eq_true', decide_eq_false_iff_not] at g2
      rw [i2, r2 p o g1] at g2
      omega
    · rintro ⟨g1, g2⟩
      refine ⟨g1, ?_⟩
      simp only [Bool.not_eq_true', decide_eq_false_iff_not]
      rw [i2, r2 p o g1]
      have := useCount_pos.mpr g2
      omega
  have hD : JTInv T.dropUnused := by
    refine ⟨?_, ?_, ?_, ?_⟩
    · exact (List.filter_sublist.map _).nodup hT1.keys
    · intro p o e
      have := (hdrop p o).mp e
      rw [← hs1.table] at this
      exact hT1.pos p o this.1
    · intro p o e
      have := (hdrop p o).mp e
      rw [← hs1.table] at this
      exact hT1.rng p o this.1
    · intro o e
      have := (hdrop 0 o).mp e
      rw [← hs1.table] at this
      exact hT1.zero o this.1
  have hDt : T.dropUnused.text = t.text := hs1.text
  obtain ⟨a1, a2, a3, a4, a5, a6, a7, a8⟩ := intern_ok hD (p := 0) ⟨Int.le_refl _, by omega⟩
  obtain ⟨b1, b2, b3, b4, b5, b6, b7, b8⟩ := intern_ok a1 (p := T.text.length) ⟨by omega, by rw [a5]; exact Int.le_refl _⟩
  unfold JText.compile
  generalize hE : (T.dropUnused.intern 0).1 = E at *
  generalize hF : (E.intern T.text.length).1 = F at *
  simp only [hF]
  have hFt : F.text = t.text := by rw [b5, a5, hDt]
  have hFv : F.validating = t.validating := by rw [b6, a6]; exact hs1.validating
  have hFl : t.heap.length ≤ F.heap.length := by
    have : T.dropUnused.heap.length = t.heap.length := hs1.len
    omega
  have hFoff : ∀ o, o < t.heap.length → (F.off o).offset = (t.off o).offset := by
    intro o ho
    have hTl : T.dropUnused.heap.length = t.heap.length := hs1.len
    rw [b4 o (by omega), a4 o (by omega)]
    exact hs1.offs o
  have hTlen : T.text.length = t.text.length := by rw [hs1.text]
  rw [hTlen] at b8 b2
  have hkeep : ∀ p o, dget t.table p = some o → (∃ s ∈ used, o = s.1 ∨ o = s.2) → dget F.table p = some o :=
    fun p o g1 g2 => b3 _ _ (a3 _ _ ((hdrop p o).mpr ⟨g1, g2⟩))
  have hkeys : ∀ q, q ∈ dkeys F.table ↔ q = 0 ∨ q = t.text.length ∨ ∃ s ∈ used, q = t.start s ∨ q = t.stop s := by
    intro q
    rw [b8, a8]
    have : q ∈ dkeys T.dropUnused.table ↔ ∃ s ∈ used, q = t.start s ∨ q = t.stop s := by
      rw [← dget_isSome_iff, Option.isSome_iff_exists]
      constructor
      · rintro ⟨o, ho⟩
        obtain ⟨g1, s, hs, g2⟩ := (hdrop q o).mp ho
        refine ⟨s, hs, ?_⟩
        have := (h.pos q o g1).2
        rcases g2 with rfl | rfl
        · exact .inl this.symm
        · exact .inr this.symm
      · rintro ⟨s, hs, e⟩
        obtain ⟨p, p', g1, g2, -⟩ := hu s hs
        rcases e with e | e
        · have : p = q := by rw [e]; exact (h.pos _ _ g1).2.symm
          exact ⟨s.1, (hdrop _ _).mpr ⟨by rw [← this]; exact g1, s, hs, .inl rfl⟩⟩
        · have : p' = q := by rw [e]; exact (h.pos _ _ g2).2.symm
          exact ⟨s.2, (hdrop _ _).mpr ⟨by rw [← this]; exact g2, s, hs, .inr rfl⟩⟩
    rw [this]
    constructor
    · rintro ((e | e) | e)
      · exact .inr (.inr e)
      · exact .inl e
      · exact .inr (.inl e)
    · rintro (e | e | e)
      · exact .inl (.inr e)
      · exact .inr e
      · exact .inl (.inl e)
  have hlive : ∀ s ∈ used, LiveSpan F s := by
    intro s hs
    obtain ⟨p, q, g1, g2, g3⟩ := hu s hs
    exact ⟨p, q, hkeep _ _ g1 ⟨s, hs, .inl rfl⟩, hkeep _ _ g2 ⟨s, hs, .inr rfl⟩, g3⟩
  -- the sorted positions
  have hperm := sortedInts_perm (dkeys F.table)
  have hsort : (sortedInts (dkeys F.table)).Pairwise (· < ·) := by
    have h1 := sortedInts_sorted (dkeys F.table)
    have h2 : (sortedInts (dkeys F.table)).Nodup := hperm.nodup_iff.mpr b1.keys
    exact (h1.and h2).imp (fun {a b} e => by have := e.1; have := e.2; omega)
  have hmem : ∀ q, q ∈ sortedInts (dkeys F.table) ↔ q ∈ dkeys F.table := fun q => hperm.mem_iff
  have hrange : ∀ q ∈ sortedInts (dkeys F.table), 0 ≤ q ∧ q ≤ t.text.length := by
    intro q hq
    have := (dget_isSome_iff _ _).mpr ((hmem q).mp hq)
    obtain ⟨o, ho⟩ := Option.isSome_iff_exists.mp this
    rw [← hFt]
    exact b1.rng q o ho
  obtain ⟨hhead, hlast⟩ := head_last (n := t.text.length) hsort ((hmem _).mpr ((hkeys 0).mpr (.inl rfl))) ((hmem _).mpr ((hkeys _).mpr (.inr (.inl rfl)))) hrange
  generalize hS : sortedInts (dkeys F.table) = S at *
  match S, hhead with
  | [z], hz =>
    simp only [List.head?_cons, Option.some.injEq] at hz
    subst hz
    simp only [List.getLast?_singleton, Option.some.injEq] at hlast
    have hnil : t.text = [] := List.eq_nil_of_length_eq_zero (by omega)
    have hall : ∀ q, q ∈ dkeys F.table → q = 0 := fun q hq => by simpa using (hmem q).mpr hq
    refine ⟨F, [[]], rfl, by rw [hnil]; rfl, ?_, ?_, fun e => absurd hnil e, b1, hlive, hFt, hFv, hFl, hFoff⟩
    · intro s hs
      obtain ⟨p, q, g1, g2, -⟩ := hlive s hs
      have hp := hall p ((dget_isSome_iff _ _).mp (by rw [g1]; rfl))
      have hq := hall q ((dget_isSome_iff _ _).mp (by rw [g2]; rfl))
      subst hp hq
      have k1 : t.start s = 0 := by unfold JText.start; rw [← hFoff _ (hlt s hs).1]; exact (b1.pos _ _ g1).2
      have k2 : t.stop s = 0 := by unfold JText.stop; rw [← hFoff _ (hlt s hs).2]; exact (b1.pos _ _ g2).2
      rw [b1.zero _ g1, b1.zero _ g2, k1, k2]
      exact ⟨⟨Int.le_refl _, by simp, by simp⟩, Int.le_refl _, by simp, by simp⟩
    · intro k _
      left
      cases k with
      | zero => rfl
      | succ k => simp
  | z :: stop :: rest, hz =>
    simp only [List.head?_cons, Option.some.injEq] at hz
    subst hz
    simp only
    obtain ⟨e1, e2, e3, e4, e5⟩ := setId_same F 0 0
    obtain ⟨o0, ho0⟩ := Option.isSome_iff_exists.mp ((dget_isSome_iff F.table 0).mpr ((hkeys 0).mpr (.inl rfl)))
    have hsame : ∀ o, (F.setId 0 0).off o = F.off o := by
      intro o
      rw [setId_off ho0 (b1.pos _ _ ho0).1]
      split
      · rename_i e
        subst e
        have := b1.zero _ ho0
        cases hx : F.off o with
        | mk i p r => rw [hx] at this; simp only at this; rw [this]
      · rfl
    obtain ⟨t', parts, c1, c2, c3, c4, c5, c6, c7, c8, c9, c10, c11⟩ := cut_ok (stop :: rest) (F.setId 0 0) 1 0 hsort (Int.le_refl _) (by
      intro p hp
      have hp' : p ∈ dkeys F.table := (hmem p).mp (by simp [hp])
      obtain ⟨o, ho⟩ := Option.isSome_iff_exists.mp ((dget_isSome_iff _ _).mpr hp')
      refine ⟨by rw [e1]; exact (b1.rng p o ho).2, o, by rw [e3]; exact ho, by rw [e4]; exact (b1.pos p o ho).1, by rw [hsame]; exact (b1.pos p o ho).2⟩)
    rw [e1, hFt] at c3
    have hid : ∀ (k : Nat) (p : Int) (o : Nat), ((0 : Int) :: stop :: rest)[k]? = some p → dget F.table p = some o → (t'.off o).id = k := by
      intro k p o hk ho
      cases k with
      | zero =>
        simp only [List.getElem?_cons_zero, Option.some.injEq] at hk
        subst hk
        rw [c11 o, hsame, b1.zero o ho]
        · rfl
        · intro q hq e
          rw [e3] at e
          have h1 := (b1.pos _ _ e).2
          have h2 := (b1.pos _ _ ho).2
          have h3 := (List.pairwise_cons.mp hsort).1 q hq
          omega
      | succ k =>
        rw [List.getElem?_cons_succ] at hk
        rw [c10 k p o hk (by rw [e3]; exact ho)]
        omega
    have hborder : ∀ (k : Nat) (p : Int), ((0 : Int) :: stop :: rest)[k]? = some p → Spec.BorderAt parts k p := by
      intro k p hk
      have hkl := (List.getElem?_eq_some_iff.mp hk).1
      have hpr := hrange p (List.mem_of_getElem? hk)
      refine ⟨by omega, by simp only [List.length_cons] at hkl c2; omega, ?_⟩
      rw [Int.toNat_natCast, c3 k p hk]
      simp
      omega
    have hof : ∀ o p, dget F.table p = some o → Spec.BorderAt parts (t'.off o).id p := by
      intro o p ho
      have hp : p ∈ (0 : Int) :: stop :: rest := (hmem p).mpr ((dget_isSome_iff _ _).mp (by rw [ho]; rfl))
      obtain ⟨k, hk⟩ := List.getElem?_of_mem hp
      rw [hid k p o hk ho]
      exact hborder k p hk
    refine ⟨t', parts, c1, ?_, ?_, ?_, fun _ => c4, ⟨?_, ?_, ?_, ?_⟩, ?_, by rw [c5, e1, hFt], by rw [c6, e2, hFv], by rw [c8, e4]; exact hFl, ?_⟩
    · have hl2 : ((0 : Int) :: stop :: rest)[parts.length]? = some (t.text.length : Int) := by
        rw [← hlast, List.getLast?_eq_getElem?]
        congr 1
      have := c3 _ _ hl2
      rw [List.take_length] at this
      rw [this]
      simp
    · intro s hs
      obtain ⟨p, q, g1, g2, -⟩ := hlive s hs
      have k1 : t.start s = p := by unfold JText.start; rw [← hFoff _ (hlt s hs).1]; exact (b1.pos _ _ g1).2
      have k2 : t.stop s = q := by unfold JText.stop; rw [← hFoff _ (hlt s hs).2]; exact (b1.pos _ _ g2).2
      rw [k1, k2]
      exact ⟨hof _ _ g1, hof _ _ g2⟩
    · intro k hk
      have hkl : k < ((0 : Int) :: stop :: rest).length := by simp only [List.length_cons] at c2 ⊢; omega
      obtain ⟨p, hp⟩ : ∃ p, ((0 : Int) :: stop :: rest)[k]? = some p := ⟨_, List.getElem?_eq_getElem hkl⟩
      have hb := (hborder k p hp).2.2
      rw [Int.toNat_natCast] at hb
      rw [hb]
      exact (hkeys p).mp ((hmem p).mp (List.mem_of_getElem? hp))
    · rw [c7, e3]; exact b1.keys
    · intro p o e
      rw [c7, e3] at e
      rw [c8, e4, c9, e5]
      exact b1.pos p o e
    · intro p o e
      rw [c7, e3] at e
      rw [c5, e1]
      exact b1.rng p o e
    · intro o e
      rw [c7, e3] at e
      have := hid 0 0 o (by simp) e
      exact this
    · intro s hs
      obtain ⟨p, q, g1, g2, g3⟩ := hlive s hs
      exact ⟨p, q, by rw [c7, e3]; exact g1, by rw [c7, e3]; exact g2, g3⟩
    · intro o ho
      rw [c9, e5]
      exact hFoff o ho

theorem SpanOk.null {t : JText} (h : JTInv t) {s : JSpan} (hs : SpanOk t s) (ht : t.text = []) : NullSpan t s := by
  rcases hs with ⟨p, q, h1, h2, -⟩ | ⟨-, hn⟩
  · have key : ∀ {p o}, dget t.table p = some o → o < t.heap.length ∧ (t.off o).offset = 0 ∧ (t.off o).id = 0 := by
      intro p o hp
      have hr := h.rng p o hp
      rw [ht] at hr
      have : p = 0 := by simp at hr; omega
      subst this
      exact ⟨(h.pos 0 o hp).1, (h.pos 0 o hp).2, h.zero o hp⟩
    rintro o (rfl | rfl)
    · exact key h1
    · exact key h2
  · exact hn

theorem SpanOk.heap {t : JText} (h : JTInv t) {s : JSpan} (hs : SpanOk t s) : s.1 < t.heap.length ∧ s.2 < t.heap.length := by
  rcases hs with ⟨p, q, h1, h2, -⟩ | ⟨-, hn⟩
  · exact ⟨(h.pos _ _ h1).1, (h.pos _ _ h2).1⟩
  · exact ⟨(hn _ (.inl rfl)).1, (hn _ (.inr rfl)).1⟩

/-- C84. The same with spans of an empty text. -/
theorem C84_compile_any {t : JText} {used : List JSpan} (h : JTInv t) (hu : ∀ s ∈ used, SpanOk t s) :
    ∃ t' parts, t.compileWith used = (t', .ok parts) ∧ parts.flatten = t.text ∧
      (∀ s ∈ used, Spec.BorderAt parts (t'.off s.1).id (t.start s) ∧ Spec.BorderAt parts (t'.off s.2).id (t.stop s)) ∧
      (∀ k ≤ parts.length, ((parts.take k).flatten.length : Int) = 0 ∨ ((parts.take k).flatten.length : Int) = t.text.length ∨
        ∃ s ∈ used, ((parts.take k).flatten.length : Int) = t.start s ∨ ((parts.take k).flatten.length : Int) = t.stop s) ∧
      (t.text ≠ [] → ∀ x ∈ parts, x ≠ []) ∧
      JTInv t' ∧ (∀ s ∈ used, SpanOk t' s) ∧ t'.text = t.text ∧ t'.validating = t.validating ∧ t.heap.length ≤ t'.heap.length ∧
      (∀ o, o < t.heap.length → (t'.off o).offset = (t.off o).offset) := by
  by_cases ht : t.text = []
  · have hn := fun s hs => (hu s hs).null h ht
    obtain ⟨r1, r2⟩ := reset_ok h
    obtain ⟨i1, i2⟩ := incref_ok used t.reset (fun s hs => by rw [r1.len]; exact (hu s hs).heap h)
    have hs1 := r1.trans' i1
    unfold JText.compileWith
    generalize hT : used.foldl incref t.reset = T at *
    have hT1 : JTInv T := hs1.inv h
    have hTt : T.text = [] := by rw [hs1.text, ht]
    have hD : JTInv T.dropUnused := by
      have hsub : ∀ p o, dget T.dropUnused.table p = some o → dget T.table p = some o := by
        intro p o e
        unfold JText.dropUnused at e
        simp only at e
        rw [filter_dget hT1.keys] at e
        exact e.1
      exact ⟨(List.filter_sublist.map _).nodup hT1.keys, fun p o e => hT1.pos p o (hsub p o e), fun p o e => hT1.rng p o (hsub p o e), fun o e => hT1.zero o (hsub 0 o e)⟩
    obtain ⟨a1, a2, a3, a4, a5, a6, a7, a8⟩ := intern_ok hD (p := 0) ⟨Int.le_refl _, by omega⟩
    unfold JText.compile
    generalize hE : (T.dropUnused.intern 0).1 = E at *
    have hEE : (E.intern ([] : JStr).length).1 = E := by
      unfold JText.intern
      have : dget E.table (([] : JStr).length : Int) = some (T.dropUnused.intern 0).2 := a2
      rw [this]
    have hEt : E.text = [] := by rw [a5]; exact hTt
    have hkeys : dkeys E.table = [0] := by
      have h0 : ∀ q ∈ dkeys E.table, q = 0 := by
        intro q hq
        rw [← dget_isSome_iff, Option.isSome_iff_exists] at hq
        obtain ⟨o, ho⟩ := hq
        have := a1.rng q o ho
        rw [hEt] at this
        simp at this
        omega
      have h1 : (0 : Int) ∈ dkeys E.table := (a8 0).mpr (.inr rfl)
      have hk := a1.keys
      generalize dkeys E.table = l at h0 h1 hk
      match l, h0, h1, hk with
      | [x], h0, _, _ => rw [h0 x (by simp)]
      | x :: y :: l, h0, _, hk =>
        have e1 := h0 x (by simp)
        have e2 := h0 y (by simp)
        rw [e1, e2] at hk
        simp at hk
    have hoff : ∀ o, o < t.heap.length → E.off o = T.off o := by
      intro o ho
      have : T.dropUnused.heap.length = t.heap.length := hs1.len
      exact a4 o (by omega)
    rw [hTt]
    simp only [hEE]
    have hsort : sortedInts (dkeys E.table) = [0] := by rw [hkeys]; rfl
    rw [hsort]
    simp only
    have hid : ∀ s ∈ used, ∀ o, o = s.1 ∨ o = s.2 → o < t.heap.length ∧ (E.off o).offset = 0 ∧ (E.off o).id = 0 := by
      intro s hs o ho
      obtain ⟨n1, n2, n3⟩ := hn s hs o ho
      rw [hoff o n1, hs1.offs, hs1.ids]
      exact ⟨n1, n2, n3⟩
    have hlen : t.heap.length ≤ E.heap.length := by
      have : T.dropUnused.heap.length = t.heap.length := hs1.len
      omega
    refine ⟨E, [[]], rfl, by simp [ht], ?_, ?_, fun hne => absurd ht hne, a1, ?_, by rw [hEt, ht], by rw [a6]; exact hs1.validating, hlen, ?_⟩
    · intro s hs
      obtain ⟨n1, n2, n3⟩ := hid s hs s.1 (.inl rfl)
      obtain ⟨m1, m2, m3⟩ := hid s hs s.2 (.inr rfl)
      have z1 : t.start s = 0 := (hn s hs s.1 (.inl rfl)).2.1
      have z2 : t.stop s = 0 := (hn s hs s.2 (.inr rfl)).2.1
      rw [n3, m3, z1, z2]
      exact ⟨⟨by simp, by simp, by simp⟩, ⟨by simp, by simp, by simp⟩⟩
    · intro k hk
      left
      match k, hk with
      | 0, _ => simp
      | 1, _ => simp
    · intro s hs
      refine .inr ⟨hEt, ?_⟩
      intro o ho
      obtain ⟨n1, n2, n3⟩ := hid s hs o ho
      exact ⟨by omega, n2, n3⟩
    · intro o ho
      rw [hoff o ho, hs1.offs]
  · have hl : ∀ s ∈ used, LiveSpan t s := by
      intro s hs
      rcases hu s hs with h | ⟨h, -⟩
      · exact h
      · exact absurd h ht
    obtain ⟨t', parts, e1, e2, e3, e4, e5, e6, e7, e8⟩ := C84_compile h hl
    exact ⟨t', parts, e1, e2, e3, e4, e5, e6, fun s hs => .inl (e7 s hs), e8⟩

/-- C84. `span(a, b)` of a validating text: accepted exactly for `0 ≤ a ≤ b ≤ length` with `a < length`, and then the
span is `[a, b)`. -/
theorem C84_span {t : JText} (h : JTInv t) (hv : t.validating = true) (a b : Int) :
    if Spec.spanValid t.text.length a b then ∃ t' s, t.span a b = (t', .ok s) ∧ t'.start s = a ∧ t'.stop s = b ∧
      JTInv t' ∧ LiveSpan t' s ∧ t'.text = t.text ∧ t'.validating = true ∧ (∀ u, LiveSpan t u → LiveSpan t' u) ∧ s.1 < t'.heap.length ∧ s.2 < t'.heap.length ∧
      t.heap.length ≤ t'.heap.length ∧ (∀ o, o < t.heap.length → (t'.off o).offset = (t.off o).offset)
    else t.span a b = (t, .error .value) := by
  by_cases hok : Spec.spanValid t.text.length a b = true
  · rw [if_pos hok]
    simp only [Spec.spanValid, decide_eq_true_eq] at hok
    obtain ⟨h1, h2, h3, h4⟩ := hok
    obtain ⟨a1, a2, a3, a4, a5, a6, a7, a8⟩ := intern_ok h (p := a) ⟨h1, by omega⟩
    obtain ⟨b1, b2, b3, b4, b5, b6, b7, b8⟩ := intern_ok a1 (p := b) ⟨by omega, by rw [a5]; omega⟩
    unfold JText.span
    rw [if_neg (by rintro ⟨-, hh⟩; exact hh ⟨⟨h1, h2⟩, ⟨by omega, h4⟩, h3⟩)]
    refine ⟨_, _, rfl, (b1.pos _ _ (b3 _ _ a2)).2, (b1.pos _ _ b2).2, b1, ⟨a, b, b3 _ _ a2, b2, h3⟩, by rw [b5, a5], by rw [b6, a6, hv], ?_,
      (b1.pos _ _ (b3 _ _ a2)).1, (b1.pos _ _ b2).1, by omega, ?_⟩
    · rintro u ⟨p, q, g1, g2, g3⟩
      exact ⟨p, q, b3 _ _ (a3 _ _ g1), b3 _ _ (a3 _ _ g2), g3⟩
    · intro o ho
      rw [b4 o (by omega), a4 o ho]
  · rw [if_neg hok]
    simp only [Spec.spanValid, decide_eq_true_eq] at hok
    unfold JText.span
    rw [if_pos ⟨hv, fun hh => hok ⟨hh.1.1, hh.1.2, hh.2.2, hh.2.1.2⟩⟩]

/-- between calls: the text is as it was, the spans made are at the positions asked for, and the live ones have their
Offsets in the table -/
structure TRun (s0 : JStr) (live : List Nat) (made : List (Int × Int)) (s : TState) : Prop where
  inv : JTInv s.t
  val : s.t.validating = true
  text : s.t.text = s0
  len : s.spans.length = made.length
  at' : ∀ (k : Nat) (u : JSpan) (m : Int × Int), s.spans[k]? = some u → made[k]? = some m →
    s.t.start u = m.1 ∧ s.t.stop u = m.2 ∧ u.1 < s.t.heap.length ∧ u.2 < s.t.heap.length
  live : ∀ k ∈ live, ∀ u, s.spans[k]? = some u → LiveSpan s.t u

theorem run_fresh (s0 : JStr) (os : List TOp) : ∀ (live : List Nat) (made : List (Int × Int)) (s : TState), TRun s0 live made s →
    Spec.FreshSpans s0.length live made.length os → ∃ live', TRun s0 live' (made ++ Spec.madeSpans s0.length os) (s.run os) ∧
    ∀ rest used, os = rest ++ [.compile used] → ∃ parts, (s.run os).parts = .ok parts ∧ parts.flatten = s0 ∧
      ∀ k ∈ used, ∀ u, (s.run os).spans[k]? = some u → Spec.BorderAt parts (((s.run os).t.off u.1).id) ((s.run os).t.start u) ∧
        Spec.BorderAt parts (((s.run os).t.off u.2).id) ((s.run os).t.stop u) := by
  induction os with
  | nil =>
    intro live made s h _
    refine ⟨live, by simpa [Spec.madeSpans, TState.run] using h, ?_⟩
    intro rest used e
    exact absurd (congrArg List.length e) (by simp)
  | cons o os ih =>
    intro live made s h hf
    cases o with
    | span a b =>
      have hc := C84_span h.inv h.val a b
      unfold Spec.FreshSpans at hf
      unfold Spec.madeSpans
      rw [h.text] at hc
      by_cases hv : Spec.spanValid s0.length a b = true
      · rw [if_pos hv] at hc hf ⊢
        obtain ⟨t', u, c1, c2, c3, c4, c5, c6, c7, c8, c9, c10, c11, c12⟩ := hc
        have hop : s.op (.span a b) = { s with t := t', spans := s.spans ++ [u] } := by
          unfold TState.op; simp only [c1]
        have hT : TRun s0 (made.length :: live) (made ++ [(a, b)]) { s with t := t', spans := s.spans ++ [u] } := by
          refine ⟨c4, c7, c6, by simp [h.len], ?_, ?_⟩
          · intro k v m hk hm
            simp only at hk ⊢
            rw [List.getElem?_append] at hk hm
            rw [h.len] at hk
            by_cases hlt : k < made.length
            · rw [if_pos hlt] at hk hm
              obtain ⟨g1, g2, g3, g4⟩ := h.at' k v m hk hm
              unfold JText.start JText.stop at *
              rw [c12 _ g3, c12 _ g4]
              exact ⟨g1, g2, by omega, by omega⟩
            · rw [if_neg hlt] at hk hm
              cases hkk : k - made.length with
              | zero =>
                rw [hkk] at hk hm
                simp only [List.getElem?_cons_zero, Option.some.injEq] at hk hm
                subst hk hm
                exact ⟨c2, c3, c9, c10⟩
              | succ j => rw [hkk] at hk; simp at hk
          · intro k hk v hv'
            simp only at hv'
            rw [List.getElem?_append, h.len] at hv'
            by_cases hlt : k < made.length
            · rw [if_pos hlt] at hv'
              rcases List.mem_cons.mp hk with rfl | hk
              · omega
              · exact c8 v (h.live k hk v hv')
            · rw [if_neg hlt] at hv'
              cases hkk : k - made.length with
              | zero =>
                rw [hkk] at hv'
                simp only [List.getElem?_cons_zero, Option.some.injEq] at hv'
                subst hv'
                exact c5
              | succ j => rw [hkk] at hv'; simp at hv'
        obtain ⟨live', g1, g2⟩ := ih _ _ _ hT (by simpa using hf)
        have hrun : s.run (.span a b :: os) = TState.run { s with t := t', spans := s.spans ++ [u] } os := by
          unfold TState.run; rw [List.foldl_cons, hop]
        rw [hrun]
        refine ⟨live', by simpa using g1, ?_⟩
        intro rest used e
        cases rest with
        | nil => simp at e
        | cons r rest =>
          rw [List.cons_append, List.cons.injEq] at e
          exact g2 rest used e.2
      · rw [if_neg hv] at hc hf ⊢
        have hop : s.op (.span a b) = s := by unfold TState.op; simp only [hc]
        have hrun : s.run (.span a b :: os) = s.run os := by unfold TState.run; rw [List.foldl_cons, hop]
        rw [hrun]
        obtain ⟨live', g1, g2⟩ := ih _ _ _ h hf
        refine ⟨live', g1, ?_⟩
        intro rest used e
        cases rest with
        | nil => simp at e
        | cons r rest =>
          rw [List.cons_append, List.cons.injEq] at e
          exact g2 rest used e.2
    | compile used =>
      unfold Spec.FreshSpans at hf
      unfold Spec.madeSpans
      have hlv : ∀ u ∈ used.filterMap (fun k => s.spans[k]?), LiveSpan s.t u := by
        intro u hu
        obtain ⟨k, hk, hku⟩ := List.mem_filterMap.mp hu
        have hlt : k < made.length := by rw [← h.len]; exact (List.getElem?_eq_some_iff.mp hku).1
        exact h.live k (hf.1 k hk hlt) u hku
      obtain ⟨t', parts, c1, c2, c3, c4, c5, c6, c7, c8, c9, c10, c11⟩ := C84_compile h.inv hlv
      have hop : s.op (.compile used) = { s with t := t', parts := .ok parts } := by
        unfold TState.op; simp only [c1]
      have hT : TRun s0 used made { s with t := t', parts := .ok parts } := by
        refine ⟨c6, by rw [← h.val]; exact c9, by rw [← h.text]; exact c8, h.len, ?_, ?_⟩
        · intro k u m hk hm
          obtain ⟨g1, g2, g3, g4⟩ := h.at' k u m hk hm
          unfold JText.start JText.stop at *
          simp only
          rw [c11 _ g3, c11 _ g4]
          exact ⟨g1, g2, by omega, by omega⟩
        · intro k hk u hu
          exact c7 u (List.mem_filterMap.mpr ⟨k, hk, hu⟩)
      obtain ⟨live', g1, g2⟩ := ih _ _ _ hT hf.2
      have hrun : s.run (.compile used :: os) = TState.run { s with t := t', parts := .ok parts } os := by
        unfold TState.run; rw [List.foldl_cons, hop]
      rw [hrun]
      refine ⟨live', g1, ?_⟩
      intro rest used' e
      cases rest with
      | nil =>
        simp only [List.nil_append, List.cons.injEq, TOp.compile.injEq] at e
        obtain ⟨rfl, rfl⟩ := e
        refine ⟨parts, rfl, by rw [c2, h.text], ?_⟩
        intro k hk u hu
        have hu' : s.spans[k]? = some u := hu
        obtain ⟨q1, q2⟩ := c3 u (List.mem_filterMap.mpr ⟨k, hk, hu'⟩)
        have hlt : k < made.length := by rw [← h.len]; exact (List.getElem?_eq_some_iff.mp hu').1
        obtain ⟨-, -, l1, l2⟩ := h.at' k u _ hu' (List.getElem?_eq_getElem hlt)
        show Spec.BorderAt parts ((t'.off u.1).id) (t'.start u) ∧ Spec.BorderAt parts ((t'.off u.2).id) (t'.stop u)
        unfold JText.start JText.stop at *
        rw [c11 _ l1, c11 _ l2]
        exact ⟨q1, q2⟩
      | cons r rest =>
        rw [List.cons_append, List.cons.injEq] at e
        exact g2 rest used' e.2

/-- a new text -/
def newState (s0 : JStr) : TState := ⟨JText.new s0, [], .ok []⟩

theorem newState_ok (s0 : JStr) : TRun s0 [] [] (newState s0) :=
  ⟨⟨by simp [newState, JText.new, dkeys], by simp [newState, JText.new, dget], by simp [newState, JText.new, dget], by simp [newState, JText.new, dget]⟩,
    rfl, rfl, rfl, by simp [newState], by simp⟩

/-- C84. Whatever spans are made and however often a text is compiled: if every span given to a compile was made after
the compile before or was given to that one too, then at each compile the parts make up the text, and each given span
resolves to the positions it was made with. -/
theorem C84_sequence_partial (s0 : JStr) (os : List TOp) (used : List Nat) (hf : Spec.FreshSpans s0.length [] 0 (os ++ [.compile used])) :
    ∃ parts, ((newState s0).run (os ++ [.compile used])).parts = .ok parts ∧ parts.flatten = s0 ∧
    ∀ k ∈ used, ∀ m, (Spec.madeSpans s0.length os)[k]? = some m → ∃ u, ((newState s0).run (os ++ [.compile used])).spans[k]? = some u ∧
      Spec.BorderAt parts (((newState s0).run (os ++ [.compile used])).t.off u.1).id m.1 ∧
      Spec.BorderAt parts (((newState s0).run (os ++ [.compile used])).t.off u.2).id m.2 := by
  obtain ⟨live, h1, h2⟩ := run_fresh s0 (os ++ [.compile used]) [] [] (newState s0) (newState_ok s0) hf
  obtain ⟨parts, g1, g2, g3⟩ := h2 os used rfl
  refine ⟨parts, g1, g2, ?_⟩
  intro k hk m hm
  have hmade : Spec.madeSpans s0.length (os ++ [.compile used]) = Spec.madeSpans s0.length os := by
    clear h1 h2 g1 g2 g3 hm hf
    induction os with
    | nil => rfl
    | cons o os ih =>
      cases o with
      | span a b => simp only [List.cons_append, Spec.madeSpans, ih]
      | compile u => simp only [List.cons_append, Spec.madeSpans, ih]
  rw [hmade, List.nil_append] at h1
  have hlt : k < ((newState s0).run (os ++ [.compile used])).spans.length := by rw [h1.len]; exact (List.getElem?_eq_some_iff.mp hm).1
  have hu := List.getElem?_eq_getElem hlt
  refine ⟨_, hu, ?_⟩
  obtain ⟨a1, a2, -, -⟩ := h1.at' k _ m hu hm
  have := g3 k hk _ hu
  rw [a1, a2] at this
  exact this

/-- C84, the full statement: without the condition on the spans. -/
def C84_full : Prop := ∀ (s0 : JStr) (os : List TOp) (used : List Nat),
    ∃ parts, ((newState s0).run (os ++ [.compile used])).parts = .ok parts ∧ parts.flatten = s0 ∧
    ∀ k ∈ used, ∀ m, (Spec.madeSpans s0.length os)[k]? = some m → ∃ u, ((newState s0).run (os ++ [.compile used])).spans[k]? = some u ∧
      Spec.BorderAt parts (((newState s0).run (os ++ [.compile used])).t.off u.1).id m.1 ∧
      Spec.BorderAt parts (((newState s0).run (os ++ [.compile used])).t.off u.2).id m.2

/-- a span is made, the document is compiled before a node has the span, then a node gets it and the document is
compiled again: the span is written as the borders 0 and 0 of a single part -/
theorem C84_stale_lost : ((newState [97, 98, 99, 100]).run ([.span 1 2, .compile []] ++ [.compile [0]])).parts = .ok [[97, 98, 99, 100]] ∧
    (((newState [97, 98, 99, 100]).run ([.span 1 2, .compile []] ++ [.compile [0]])).t.off 0).id = 0 ∧
    ((newState [97, 98, 99, 100]).run ([.span 1 2, .compile []] ++ [.compile [0]])).spans = [(0, 1)] := ⟨rfl, by decide, by decide⟩

/-- C84. The full statement is false. -/
theorem C84_full_false : ¬ C84_full := by
  intro h
  obtain ⟨parts, h1, -, h2⟩ := h [97, 98, 99, 100] [.span 1 2, .compile []] [0]
  rw [C84_stale_lost.1] at h1
  cases h1
  obtain ⟨u, g1, g2, -⟩ := h2 0 (by simp) (1, 2) rfl
  rw [C84_stale_lost.2.2] at g1
  simp only [List.getElem?_cons_zero, Option.some.injEq] at g1
  subst g1
  rw [C84_stale_lost.2.1] at g2
  exact absurd g2.2.2 (by decide)

/-- an empty span at the end of a text is refused, and every span of an empty text; the Python library accepts both -/
theorem C84_end_refused_over (n : Nat) (s0 : JStr) (hn : s0.length = n) : (JText.new s0).span n n = (JText.new s0, .error .value) := by
  unfold JText.span JText.new
  rw [if_pos ⟨rfl, by simp; omega⟩]

/-! ### Python offsets -/

theorem utf16_append (a b : Str) : utf16 (a ++ b) = utf16 a ++ utf16 b := by simp [utf16]

theorem utf16_slice (s : Str) {a b : Nat} (h : a ≤ b) :
    ((utf16 s).take (utf16 (s.take b)).length).drop (utf16 (s.take a)).length = utf16 ((s.take b).drop a) := by
  have e1 : utf16 s = utf16 (s.take b) ++ utf16 (s.drop b) := by rw [← utf16_append, List.take_append_drop]
  have e2 : utf16 (s.take b) = utf16 (s.take a) ++ utf16 ((s.take b).drop a) := by
    rw [← utf16_append]
    congr 1
    have : s.take a = (s.take b).take a := by rw [List.take_take, Nat.min_eq_left h]
    rw [this, List.take_append_drop]
  rw [e1, List.take_left, e2, List.drop_left]

/-- C84. Cutting the Java string of a text at the UTF-16 positions of Python's offsets gives the Java strings of what
Python cuts the text into. -/
theorem C84_python (s : Str) (o : Nat) (offs : List Nat) (hs : (o :: offs).Pairwise (· ≤ ·)) (hl : ∀ p ∈ offs, p ≤ s.length) :
    (TextObj.compile ⟨0, [], s⟩ ((o :: offs).map Int.ofNat)).map utf16 =
      ((o :: offs).zip offs).map (fun e => ((utf16 s).take (utf16 (s.take e.2)).length).drop (utf16 (s.take e.1)).length) := by
  induction offs generalizing o with
  | nil => rfl
  | cons b rest ih =>
    have hob : o ≤ b := (List.pairwise_cons.mp hs).1 b (by simp)
    have hi := ih b (List.pairwise_cons.mp hs).2 (fun p hp => hl p (by simp [hp]))
    simp only [List.map_cons, List.zip_cons_cons, TextObj.compile] at hi ⊢
    rw [hi, utf16_slice s hob]
    congr 2
    have hb := hl b (by simp)
    have := between_eq (t := s) (lo := (o : Int)) (hi := (b : Int)) (by omega) (by omega) (by omega)
    simpa [Spec.between] using this

/-- a border inside a pair of surrogates makes parts that are no strings: the Java text of one character above 0xFFFF -/
theorem C84_surrogates_split_lost : utf16 [Char.ofNat 0x1F600] = [0xD83D, 0xDE00] ∧
    ((newState [0xD83D, 0xDE00]).run [.span 0 1, .compile [0]]).parts = .ok [[0xD83D], [0xDE00]] := ⟨by decide, rfl⟩

/-! ### spans -/

/-- C85. The string of a span is its part of the text, and its length is `length()`. -/
theorem C85_str {t : JText} {s : JSpan} (h0 : 0 ≤ t.start s) (h1 : t.start s ≤ t.stop s) (h2 : t.stop s ≤ t.text.length) :
    ∃ x, t.str s = .ok x ∧ x = (t.text.take (t.stop s).toNat).drop (t.start s).toNat ∧ (x.length : Int) = t.length s := by
  refine ⟨_, substring_ok _ h0 h1 h2, rfl, ?_⟩
  unfold JText.length
  simp
  omega

/-- C85. `charAt(i)` is the `i`-th unit of the string for `0 ≤ i < length()`, and raises otherwise. -/
theorem C85_charAt {t : JText} {s : JSpan} {x : JStr} (h0 : 0 ≤ t.start s) (hx : t.str s = .ok x) (i : Int) :
    t.charAt s i = if h : 0 ≤ i ∧ i < x.length then .ok (x[i.toNat]'(by omega)) else .error .index := by
  have hr : ¬ (t.start s < 0 ∨ t.stop s > t.text.length ∨ t.start s > t.stop s) := by
    intro hh
    unfold JText.str substring at hx
    rw [if_pos hh] at hx
    cases hx
  have hxe : x = (t.text.take (t.stop s).toNat).drop (t.start s).toNat := by
    unfold JText.str substring at hx
    rw [if_neg hr] at hx
    cases hx
    rfl
  have hlen : x.length = (t.stop s).toNat - (t.start s).toNat := by rw [hxe]; simp; omega
  unfold JText.charAt
  by_cases hi : 0 ≤ i ∧ i < x.length
  · rw [dif_pos hi, if_neg (by omega), if_neg (by omega)]
    have hlt : (i + t.start s).toNat < t.text.length := by omega
    rw [List.getElem?_eq_getElem hlt]
    simp only [hxe, List.getElem_drop, List.getElem_take]
    congr 2
    omega
  · rw [dif_neg hi, if_pos (by omega)]

/-- C85. `subSequence(a, b)` for a start that is not negative is the substring of the span's string, and raises when
that does. -/
theorem C85_subSequence_partial {t : JText} {s : JSpan} {x : JStr} (hx : t.str s = .ok x) (a b : Int) (ha : 0 ≤ a) :
    t.subSequence s a b = substring x a b := by
  have hr : ¬ (t.start s < 0 ∨ t.stop s > t.text.length ∨ t.start s > t.stop s) := by
    intro hh
    unfold JText.str substring at hx
    rw [if_pos hh] at hx
    cases hx
  have hxe : x = (t.text.take (t.stop s).toNat).drop (t.start s).toNat := by
    unfold JText.str substring at hx
    rw [if_neg hr] at hx
    cases hx
    rfl
  have hlen : x.length = (t.stop s).toNat - (t.start s).toNat := by rw [hxe]; simp; omega
  unfold JText.subSequence substring
  by_cases hb : b + t.start s > t.stop s
  · rw [if_pos hb, if_pos (by omega)]
  · rw [if_neg hb]
    by_cases hc : a + t.start s < 0 ∨ b + t.start s > t.text.length ∨ a + t.start s > b + t.start s
    · rw [if_pos hc, if_pos (by omega)]
    · rw [if_neg hc, if_neg (by omega), hxe]
      congr 1
      rw [List.take_drop, List.drop_drop, List.take_take]
      have e1 : min ((t.start s).toNat + b.toNat) (t.stop s).toNat = (b + t.start s).toNat := by omega
      have e2 : (t.start s).toNat + a.toNat = (a + t.start s).toNat := by omega
      rw [e1, e2]

/-- with a negative start, `subSequence` gives units in front of the span -/
theorem C85_before_given : (⟨[97, 98, 99, 100], true, [⟨0, 2, 0⟩, ⟨0, 3, 0⟩], []⟩ : JText).subSequence (0, 1) (-1) 1 = .ok [98, 99] := by rfl

/-- C85. `covers`: for a span that is not empty, whether all its positions are in this one. -/
theorem C85_covers (t : JText) (s u : JSpan) (hu : t.start u < t.stop u) :
    t.covers s u = true ↔ ∀ p, t.start u ≤ p → p < t.stop u → t.start s ≤ p ∧ p < t.stop s := by
  unfold JText.covers
  simp only [Bool.and_eq_true, decide_eq_true_eq]
  constructor
  · rintro ⟨h1, h2⟩ p h3 h4; omega
  · intro h
    have h1 := h (t.start u) (Int.le_refl _) hu
    have h2 := h (t.stop u - 1) (by omega) (by omega)
    omega

/-- C85. `intersects`: whether a position is in both, or they touch. -/
theorem C85_intersects_partial (t : JText) (s u : JSpan) (hs : t.start s < t.stop s) (hu : t.start u < t.stop u) :
    t.intersects s u = true ↔ (∃ p, (t.start s ≤ p ∧ p < t.stop s) ∧ t.start u ≤ p ∧ p < t.stop u) ∨ t.stop s = t.start u ∨ t.stop u = t.start s := by
  unfold JText.intersects
  simp only [Bool.and_eq_true, decide_eq_true_eq]
  constructor
  · rintro ⟨h1, h2⟩
    by_cases e1 : t.stop s = t.start u
    · exact .inr (.inl e1)
    by_cases e2 : t.stop u = t.start s
    · exact .inr (.inr e2)
    left
    rcases Int.le_total (t.start s) (t.start u) with h | h
    · exact ⟨t.start u, by omega, by omega⟩
    · exact ⟨t.start s, by omega, by omega⟩
  · rintro (⟨p, h1, h2⟩ | h | h) <;> omega

/-- the spans [0, 1) and [1, 2) have no position in common, but are said to intersect; the Python library says that
they do not -/
theorem C85_touching_differs : (⟨[97, 98], true, [⟨0, 0, 0⟩, ⟨0, 1, 0⟩, ⟨0, 2, 0⟩], []⟩ : JText).intersects (0, 1) (1, 2) = true ∧
    TextSpan.intersectedBy ⟨⟨0, [], "ab".toList⟩, 0, 1⟩ ⟨⟨0, [], "ab".toList⟩, 1, 2⟩ = false := ⟨by decide, by decide⟩

/-- C85. `compareTo` is the order by start, then by stop; spans compare as equal exactly if they have the same ends. -/
theorem C85_compareTo (t : JText) (s u : JSpan) :
    (t.compareTo s u < 0 ↔ t.start s < t.start u ∨ (t.start s = t.start u ∧ t.stop s < t.stop u)) ∧
    (t.compareTo s u = 0 ↔ t.start s = t.start u ∧ t.stop s = t.stop u) ∧ t.compareTo s u = - t.compareTo u s := by
  unfold JText.compareTo JText.intCompare
  refine ⟨?_, ?_, ?_⟩
  · repeat' split
    all_goals omega
  · repeat' split
    all_goals omega
  · by_cases h1 : t.start s < t.start u
    · simp [h1, show ¬ t.start u < t.start s by omega, show ¬ t.start u = t.start s by omega]
    · by_cases h2 : t.start s = t.start u
      · by_cases h3 : t.stop s < t.stop u
        · simp [h2, h3, show ¬ t.stop u < t.stop s by omega, show ¬ t.stop u = t.stop s by omega]
        · by_cases h4 : t.stop s = t.stop u
          · simp [h2, h4]
          · simp [h2, h3, h4, show t.stop u < t.stop s by omega]
      · simp [h1, h2, show t.start u < t.start s by omega]

/-- C85. Spans whose Offsets are in the table are equal exactly if they have the same ends. -/
theorem C85_equals_partial {t : JText} (h : JTInv t) {s u : JSpan} (hs : LiveSpan t s) (hu : LiveSpan t u) :
    t.equals s u = true ↔ t.start s = t.start u ∧ t.stop s = t.stop u := by
  obtain ⟨p, q, g1, g2, -⟩ := hs
  obtain ⟨p', q', k1, k2, -⟩ := hu
  unfold JText.equals JText.start JText.stop
  simp only [Bool.and_eq_true, decide_eq_true_eq]
  constructor
  · rintro ⟨h1, h2⟩; exact ⟨h1.2, h2.2⟩
  · rintro ⟨h1, h2⟩
    have e1 : p = p' := by rw [← (h.pos _ _ g1).2, ← (h.pos _ _ k1).2]; exact h1
    have e2 : q = q' := by rw [← (h.pos _ _ g2).2, ← (h.pos _ _ k2).2]; exact h2
    subst e1 e2
    rw [g1] at k1; rw [g2] at k2
    have e : s = u := Prod.ext (Option.some.inj k1) (Option.some.inj k2)
    subst e
    exact ⟨⟨rfl, rfl⟩, rfl, rfl⟩

/-- the span [2, 3) is made and compiled, left out of the next compile and made again: the two spans have the same ends
and are not equal -/
theorem C85_equals_differs : ((newState [97, 98, 99, 100]).run [.span 2 3, .compile [0], .compile [], .span 2 3]).spans = [(0, 1), (6, 7)] ∧
    ((newState [97, 98, 99, 100]).run [.span 2 3, .compile [0], .compile [], .span 2 3]).t.start (0, 1) = 2 ∧
    ((newState [97, 98, 99, 100]).run [.span 2 3, .compile [0], .compile [], .span 2 3]).t.start (6, 7) = 2 ∧
    ((newState [97, 98, 99, 100]).run [.span 2 3, .compile [0], .compile [], .span 2 3]).t.stop (0, 1) = 3 ∧
    ((newState [97, 98, 99, 100]).run [.span 2 3, .compile [0], .compile [], .span 2 3]).t.stop (6, 7) = 3 ∧
    ((newState [97, 98, 99, 100]).run [.span 2 3, .compile [0], .compile [], .span 2 3]).t.equals (0, 1) (6, 7) = false := by decide

/-- C85, the full statement for equality: it is that of the ends. (The full statements for `intersects` and `subSequence`
are those of C85_intersects_partial without touching spans, refuted by C85_touching_differs, and of C85_subSequence_partial
for negative starts, refuted by C85_before_given.) -/
def C85_full : Prop := ∀ (s0 : JStr) (os : List TOp) (u v : JSpan), u ∈ ((newState s0).run os).spans → v ∈ ((newState s0).run os).spans →
  (((newState s0).run os).t.equals u v = true ↔ ((newState s0).run os).t.start u = ((newState s0).run os).t.start v ∧
    ((newState s0).run os).t.stop u = ((newState s0).run os).t.stop v)

/-- C85. The full statement is false. -/
theorem C85_full_false : ¬ C85_full := by
  intro h
  obtain ⟨e1, e2, e3, e4, e5, e6⟩ := C85_equals_differs
  have := (h [97, 98, 99, 100] [.span 2 3, .compile [0], .compile [], .span 2 3] (0, 1) (6, 7) (by rw [e1]; simp) (by rw [e1]; simp)).mpr
    ⟨by rw [e2, e3], by rw [e4, e5]⟩
  rw [e6] at this
  cases this

namespace Ex

/-- calls that keep their spans: "hello world", compiled twice -/
def jtextOps : List TOp := [.span 0 5, .span 6 11, .compile [0, 1], .span 2 8, .span 20 30, .compile [0, 2]]

/-- Non-vacuity of C84_sequence_partial -/
example : Spec.FreshSpans 11 [] 0 jtextOps := by simp [jtextOps, Spec.FreshSpans, Spec.spanValid]

/-- and what the calls give: cut at 2, 5 and 8; the spans are 0..2 and 1..3 -/
example : ((newState (utf16 "hello world".toList)).run jtextOps).parts = .ok (["he".toList, "llo".toList, " wo".toList, "rld".toList].map utf16) ∧
    ((newState (utf16 "hello world".toList)).run jtextOps).spans.map
      (fun s => ((((newState (utf16 "hello world".toList)).run jtextOps).t.off s.1).id, (((newState (utf16 "hello world".toList)).run jtextOps).t.off s.2).id)) =
      [(0, 2), (2, 3), (1, 3)] := by decide +kernel

/-- Non-vacuity of C84_compile, C84_span and C85: a text with a span that is in its table -/
example : ∃ t s, (JText.new (utf16 "hello".toList)).span 1 3 = (t, .ok s) ∧ LiveSpan t s ∧ t.str s = .ok (utf16 "el".toList) ∧
    t.charAt s 1 = .ok 108 ∧ t.subSequence s 1 2 = .ok (utf16 "l".toList) :=
  ⟨⟨utf16 "hello".toList, true, [⟨0, 1, 0⟩, ⟨0, 3, 0⟩], [(1, 0), (3, 1)]⟩, (0, 1), by decide, ⟨1, 3, by decide, by decide, by decide⟩, by decide, by decide, by decide⟩

end Ex

end Verif
