import Verif.Proof.Collections
import Verif.Props.Codec
/-
C67-C69: node lists, documents as containers, schemas; and what C09 and C14 say of node spans.
-/
namespace Verif
set_option linter.unusedSimpArgs false
open World

/-! ### C67 -/

namespace Spec

/-- type `t` is seen for field `f` in the list: on the value of a node of no layer, or declared by the layer of a
node -/
inductive Seen (w : World) (ns : List NodeId) (f : Str) (t : DataType) : Prop
  | value {n v} : n ∈ ns → (w.nodes n).coll = none → dget (w.nodes n).fields f = some v →
      DataTypes.typeOf w v = .ok t → Seen w ns f t
  | layer {n L} : n ∈ ns → (w.nodes n).coll = some L → dget (w.layers L).fields f = some t → Seen w ns f t

/-- the order in which a set is iterated -/
def SetOrder {α : Type} (ord : List α → List α) : Prop := ∀ l, (ord l).Perm l

end Spec

theorem mem_danglingTypes {w : World} (hw : WF w) {ns f t} : (f, t) ∈ danglingTypes w ns ↔
    ∃ n v, n ∈ ns ∧ (w.nodes n).coll = none ∧ dget (w.nodes n).fields f = some v ∧ DataTypes.typeOf w v = .ok t := by
  unfold danglingTypes
  rw [List.mem_flatMap]
  constructor
  · rintro ⟨n, hn, h⟩
    split at h
    · rename_i hc
      unfold valTypes at h
      rw [List.mem_filterMap] at h
      obtain ⟨⟨g, v⟩, hv, he⟩ := h
      split at he
      · rename_i u hu
        simp at he; obtain ⟨rfl, rfl⟩ := he
        exact ⟨n, v, hn, hc, dget_of_mem (hw.nodeKeys n) hv, hu⟩
      · simp at he
    · simp at h
  · rintro ⟨n, v, hn, hc, hv, ht⟩
    refine ⟨n, hn, ?_⟩
    simp only [hc, valTypes, List.mem_filterMap]
    exact ⟨(f, v), dget_mem hv, by simp [ht]⟩


theorem listTypes_collects {w : World} (hw : WF w) {lord tord ns out} (hl : Spec.SetOrder lord)
    (h : w.listTypes lord tord ns = .ok out) :
    ∃ d l, Collects d l ∧ (∀ f t, (f, t) ∈ l ↔ Spec.Seen w ns f t) ∧
      outputTypes (d.map (fun e => (e.1, tord e.1 e.2))) = .ok out := by
  unfold listTypes at h
  split at h
  · simp at h
  · rename_i d ls hs
    split at h
    · simp at h
    · rename_i d' hd
      obtain ⟨h1, h2⟩ := Collects.nil.scan hs
      have h3 := h1.layers hd
      refine ⟨d', _, h3, ?_, h⟩
      intro f t
      simp only [List.nil_append, List.mem_append, List.mem_flatMap, mem_danglingTypes hw]
      constructor
      · rintro (⟨n, v, a, b, c, e⟩ | ⟨L, hL, e⟩)
        · exact .value a b c e
        · have := (hl ls).mem_iff.mp hL
          rw [h2] at this
          simp only [List.not_mem_nil, false_or] at this
          obtain ⟨n, hn, hc⟩ := this
          exact .layer hn hc (dget_of_mem (hw.fieldKeys L) e)
      · rintro (⟨a, b, c, e⟩ | ⟨a, b, c⟩)
        · exact .inl ⟨_, _, a, b, c, e⟩
        · refine .inr ⟨_, (hl ls).mem_iff.mpr ((h2 _).mpr (.inr ⟨_, a, b⟩)), dget_mem c⟩

/-- C67. The field types of a list of nodes, whatever the order in which the sets are iterated: each is a type
seen for the field; the types seen for one field have one name or are all numeric, else the list is
refused; and a field has a type exactly when it is seen, with one type name. -/
theorem C67_types_partial {w : World} (hr : Reachable w) {lord tord ns out} (hl : Spec.SetOrder lord)
    (ht : ∀ f, Spec.SetOrder (tord f)) (h : w.listTypes lord tord ns = .ok out) :
    (∀ f t, dget out f = some t → Spec.Seen w ns f t) ∧
    (∀ f t u, Spec.Seen w ns f t → Spec.Seen w ns f u → t.tname = u.tname ∨ Spec.Numeric t ∧ Spec.Numeric u) ∧
    (∀ f, f ∈ dkeys out ↔ (∃ t, Spec.Seen w ns f t) ∧
      ∀ t u, Spec.Seen w ns f t → Spec.Seen w ns f u → t.tname = u.tname) := by
  obtain ⟨d, l, hc, hs, ho⟩ := listTypes_collects hr.wf hl h
  have hk : (dkeys (d.map (fun e => (e.1, tord e.1 e.2)))).Nodup := by
    have : dkeys (d.map (fun e => (e.1, tord e.1 e.2))) = dkeys d := by simp [dkeys]
    rw [this]; exact hc.keys
  have key : ∀ f, dget out f = none ∧ (∀ t, ¬ Spec.Seen w ns f t) ∨
      ∃ ts, ts ≠ [] ∧ (∀ t ∈ ts, Spec.Seen w ns f t) ∧ (∀ t, Spec.Seen w ns f t → ∃ u ∈ ts, u.tname = t.tname) ∧
        DataType.outputType ts = .ok (dget out f) := by
    intro f
    have hg := outputTypes_get hk ho f
    rw [dget_map_val] at hg
    cases hd : dget d f with
    | none =>
      left
      refine ⟨hg.1 (by simp [hd]), ?_⟩
      intro t hseen
      obtain ⟨ts, h1, -⟩ := hc.complete f t ((hs f t).mpr hseen)
      rw [hd] at h1; simp at h1
    | some ts =>
      right
      obtain ⟨h1, h2⟩ := hc.sound f ts hd
      have hp := ht f ts
      refine ⟨tord f ts, ?_, ?_, ?_, hg.2 _ (by simp [hd])⟩
      · intro he; rw [he] at hp; exact h1 hp.symm.eq_nil
      · intro t hm; exact (hs f t).mp (h2 t (hp.mem_iff.mp hm))
      · intro t hseen
        obtain ⟨ts', h3, u, hu, he⟩ := hc.complete f t ((hs f t).mpr hseen)
        rw [hd] at h3; simp at h3; subst h3
        exact ⟨u, hp.mem_iff.mpr hu, he⟩
  refine ⟨?_, ?_, ?_⟩
  · intro f t hf
    rcases key f with ⟨h1, -⟩ | ⟨ts, -, h2, -, h4⟩
    · rw [h1] at hf; simp at hf
    · rw [hf] at h4; exact h2 t (outputType_some h4).1
  · intro f t u h1 h2
    rcases key f with ⟨-, h3⟩ | ⟨ts, -, -, h3, h4⟩
    · exact absurd h1 (h3 t)
    · obtain ⟨t', ht', e1⟩ := h3 t h1
      obtain ⟨u', hu', e2⟩ := h3 u h2
      cases hf : dget out f with
      | none =>
        rw [hf] at h4
        have := (outputType_none h4).1
        right
        have a := this t' ht'
        have b := this u' hu'
        unfold Spec.Numeric at *
        rw [← e1, ← e2]; exact ⟨a, b⟩
      | some c =>
        rw [hf] at h4
        have := (outputType_some h4).2
        left; rw [← e1, ← e2, this t' ht', this u' hu']
  · intro f
    have hmem : f ∈ dkeys out ↔ dget out f ≠ none := by rw [Ne, dget_none_iff]; simp
    rw [hmem]
    rcases key f with ⟨h1, h2⟩ | ⟨ts, hne, h2, h3, h4⟩
    · constructor
      · intro h; exact absurd h1 h
      · rintro ⟨⟨t, ht⟩, -⟩; exact absurd ht (h2 t)
    · constructor
      · intro hf
        obtain ⟨c, hc'⟩ := Option.ne_none_iff_exists'.mp hf
        rw [hc'] at h4
        obtain ⟨h5, h6⟩ := outputType_some h4
        refine ⟨⟨c, h2 c h5⟩, ?_⟩
        intro t u a b
        obtain ⟨t', ht', e1⟩ := h3 t a
        obtain ⟨u', hu', e2⟩ := h3 u b
        rw [← e1, ← e2, h6 t' ht', h6 u' hu']
      · rintro ⟨-, hall⟩ hf
        rw [hf] at h4
        obtain ⟨-, t, ht, u, hu, hne'⟩ := outputType_none h4
        exact hne' (hall t u (h2 t ht) (h2 u hu))

/-- C67, the whole claim on types: every field seen gets a type. False, see `C67_numeric_type_lost`. -/
def C67_types_full : Prop := ∀ (w : World) (lord : List LayerId → List LayerId) (tord : Str → List DataType → List DataType)
  (ns : List NodeId) (out : Dict Str DataType), Reachable w → Spec.SetOrder lord → (∀ f, Spec.SetOrder (tord f)) →
  w.listTypes lord tord ns = .ok out → ∀ f t, Spec.Seen w ns f t → f ∈ dkeys out

theorem fieldsAdd_ok {t : DataType} (h : t.hashable) (d : Dict Str (List DataType)) (f : Str) : ∃ d', fieldsAdd d f t = .ok d' := by
  unfold fieldsAdd; rw [if_pos h]; exact ⟨_, rfl⟩

theorem fieldsAddAll_ok {l : List (Str × DataType)} (h : ∀ e ∈ l, e.2.hashable) (d : Dict Str (List DataType)) :
    ∃ d', fieldsAddAll d l = .ok d' := by
  induction l generalizing d with
  | nil => exact ⟨d, rfl⟩
  | cons a l ih =>
    obtain ⟨f, t⟩ := a
    obtain ⟨d', hd⟩ := fieldsAdd_ok (h (f, t) (by simp)) d f
    simp only [fieldsAddAll, hd]
    exact ih (fun e he => h e (by simp [he])) d'

theorem addTypesOf_ok {w : World} {vs : Dict Str Value} (h : ∀ e ∈ vs, ∃ t, DataTypes.typeOf w e.2 = .ok t ∧ t.hashable)
    (d : Dict Str (List DataType)) : ∃ d', w.addTypesOf d vs = .ok d' := by
  induction vs generalizing d with
  | nil => exact ⟨d, rfl⟩
  | cons a vs ih =>
    obtain ⟨f, v⟩ := a
    obtain ⟨t, ht, hh⟩ := h (f, v) (by simp)
    obtain ⟨d', hd⟩ := fieldsAdd_ok hh d f
    simp only [addTypesOf, ht, hd]
    exact ih (fun e he => h e (by simp [he])) d'

theorem listScan_ok {w : World} {ns : List NodeId}
    (h : ∀ n ∈ ns, (w.nodes n).coll = none → ∀ e ∈ (w.nodes n).fields, ∃ t, DataTypes.typeOf w e.2 = .ok t ∧ t.hashable)
    (d : Dict Str (List DataType)) (ls : List LayerId) : ∃ r, w.listScan ns d ls = .ok r := by
  induction ns generalizing d ls with
  | nil => exact ⟨_, rfl⟩
  | cons n ns ih =>
    have ih' := ih (fun m hm => h m (by simp [hm]))
    simp only [listScan]
    cases hc : (w.nodes n).coll with
    | none =>
      obtain ⟨d', hd⟩ := addTypesOf_ok (h n (by simp) hc) d
      simp only [hd]; exact ih' _ _
    | some L => exact ih' _ _

theorem addLayerTypes_ok {w : World} {ls : List LayerId} (h : ∀ L ∈ ls, ∀ e ∈ (w.layers L).fields, e.2.hashable)
    (d : Dict Str (List DataType)) : ∃ d', w.addLayerTypes d ls = .ok d' := by
  induction ls generalizing d with
  | nil => exact ⟨d, rfl⟩
  | cons L ls ih =>
    obtain ⟨d', hd⟩ := fieldsAddAll_ok (h L (by simp)) d
    simp only [addLayerTypes, hd]
    exact ih (fun M hM => h M (by simp [hM])) d'

/-- C67. The converse: when every value of the nodes of no layer has a type, the types are hashable, and those of
one field have one name or are all numeric, the list is made. -/
theorem C67_accepts {w : World} (hr : Reachable w) {lord tord ns} (hl : Spec.SetOrder lord)
    (ht : ∀ f, Spec.SetOrder (tord f))
    (hv : ∀ n ∈ ns, (w.nodes n).coll = none → ∀ f v, dget (w.nodes n).fields f = some v → ∃ t, DataTypes.typeOf w v = .ok t)
    (hh : ∀ f t, Spec.Seen w ns f t → t.hashable)
    (hc : ∀ f, (∀ t u, Spec.Seen w ns f t → Spec.Seen w ns f u → t.tname = u.tname) ∨
      ∀ t, Spec.Seen w ns f t → Spec.Numeric t) :
    ∃ out, w.listTypes lord tord ns = .ok out := by
  have hw := hr.wf
  obtain ⟨⟨d, ls⟩, hs⟩ := listScan_ok (w := w) (ns := ns) (by
    intro n hn hcl e he
    obtain ⟨t, ht⟩ := hv n hn hcl e.1 e.2 (dget_of_mem (hw.nodeKeys n) he)
    exact ⟨t, ht, hh e.1 t (.value hn hcl (dget_of_mem (hw.nodeKeys n) he) ht)⟩) [] []
  obtain ⟨h1, h2⟩ := Collects.nil.scan hs
  obtain ⟨d', hd⟩ := addLayerTypes_ok (w := w) (ls := lord ls) (by
    intro L hL e he
    have := (hl ls).mem_iff.mp hL
    rw [h2] at this
    simp only [List.not_mem_nil, false_or] at this
    obtain ⟨n, hn, hc⟩ := this
    exact hh e.1 e.2 (.layer hn hc (dget_of_mem (hw.fieldKeys L) he))) d
  have h3 := h1.layers hd
  have hseen : ∀ f t, (f, t) ∈ ([] ++ danglingTypes w ns ++ (lord ls).flatMap (fun L => (w.layers L).fields)) →
      Spec.Seen w ns f t := by
    intro f t hm
    simp only [List.nil_append, List.mem_append, List.mem_flatMap, mem_danglingTypes hw] at hm
    rcases hm with ⟨n, v, a, b, c, e⟩ | ⟨L, hL, e⟩
    · exact .value a b c e
    · have := (hl ls).mem_iff.mp hL
      rw [h2] at this
      simp only [List.not_mem_nil, false_or] at this
      obtain ⟨n, hn, hc⟩ := this
      exact .layer hn hc (dget_of_mem (hw.fieldKeys L) e)
  unfold listTypes
  simp only [hs, hd]
  apply outputTypes_ok
  intro e he
  rw [List.mem_map] at he
  obtain ⟨⟨f, ts⟩, hm, rfl⟩ := he
  obtain ⟨hne, hall⟩ := h3.sound f ts (dget_of_mem h3.keys hm)
  have hp := ht f ts
  refine outputType_ok ?_ ?_
  · intro h0; simp only at h0; rw [h0] at hp; exact hne hp.symm.eq_nil
  · have hin : ∀ t ∈ tord f ts, Spec.Seen w ns f t := fun t hm => hseen f t (hall t (hp.mem_iff.mp hm))
    rcases hc f with h | h
    · exact .inl (fun t a u b => h t u (hin t a) (hin u b))
    · exact .inr (fun t a => h t (hin t a))

namespace Spec

/-- the element at index `i`, counted from the end when negative -/
def nth {α : Type} (l : List α) (i : Int) : Option α := if i < 0 then l.reverse[(-1 - i).toNat]? else l[i.toNat]?

end Spec

theorem pyIndex_eq_nth {α : Type} (l : List α) (i : Int) :
    pyIndex l i = match Spec.nth l i with | some x => .ok x | none => .error .index := by
  unfold pyIndex Spec.nth
  by_cases h : i < 0
  · simp only [if_pos h]
    by_cases h2 : i + l.length < 0
    · have : l.reverse[(-1 - i).toNat]? = none := by
        rw [List.getElem?_eq_none_iff, List.length_reverse]; omega
      simp [if_pos h2, this]
    · have : l.reverse[(-1 - i).toNat]? = l[(i + l.length).toNat]? := by
        rw [List.getElem?_reverse (by omega)]; congr 1; omega
      rw [this, if_neg h2]; cases l[(i + ↑l.length).toNat]? <;> rfl
  · simp only [if_neg h]; cases l[i.toNat]? <;> rfl

theorem pySlice_getElem {α : Type} (l : List α) (a b : Option Int) (i : Nat) :
    (pySlice l a b)[i]? = if (i : Int) < Spec.upper l.length b - Spec.lower l.length a then l[(Spec.lower l.length a).toNat + i]? else none := by
  have h1 := lower_range l.length a
  have h2 := upper_range l.length b
  simp only [pySlice, sliceIndices_eq, List.getElem?_take, List.getElem?_drop]
  by_cases h : (i : Int) < Spec.upper l.length b - Spec.lower l.length a
  · rw [if_pos (by omega), if_pos h]
  · rw [if_neg (by omega), if_neg h]

/-- C67. The elements of a list: an index gives the node there, counted from the end when negative, IndexError
outside; a slice has the nodes between its bounds, a list of indices the nodes at these, and both have the types of
the list; `first` and `last` are the ends, None for an empty list. -/
theorem C67_elements (l : NList) :
    (∀ i n, l.item i = .ok n ↔ Spec.nth l.elems i = some n) ∧
    (∀ i, Spec.nth l.elems i = none → l.item i = .error .index) ∧
    (∀ a b, (l.slice a b).types = l.types ∧ ∀ i : Nat, (l.slice a b).elems[i]? =
      if (i : Int) < Spec.upper l.elems.length b - Spec.lower l.elems.length a
        then l.elems[(Spec.lower l.elems.length a).toNat + i]? else none) ∧
    (∀ is m, l.pick is = .ok m ↔ m.types = l.types ∧ is.map (Spec.nth l.elems) = m.elems.map some) ∧
    (∀ is, (∃ i ∈ is, Spec.nth l.elems i = none) → l.pick is = .error .index) ∧
    l.first = Spec.nth l.elems 0 ∧ l.last = Spec.nth l.elems (-1) := by
  have hpick : ∀ is ns, mapE (fun i => pyIndex l.elems i) is = .ok ns ↔ is.map (Spec.nth l.elems) = ns.map some := by
    intro is
    induction is with
    | nil => intro ns; simp only [mapE]; cases ns <;> simp
    | cons i is ih =>
      intro ns
      simp only [mapE, pyIndex_eq_nth]
      cases hi : Spec.nth l.elems i with
      | none => cases ns <;> simp [hi]
      | some n =>
        simp only [hi]
        cases ns with
        | nil => simp only [pyIndex_eq_nth] at ih; split <;> simp
        | cons m ns =>
          have := ih ns
          simp only [pyIndex_eq_nth] at this
          simp only [List.map_cons, List.cons.injEq, hi, ← this]
          split <;> rename_i hx <;> simp [hx]
  refine ⟨?_, ?_, ?_, ?_, ?_, ?_, ?_⟩
  · intro i n; simp only [NList.item, pyIndex_eq_nth]; split <;> rename_i hx <;> simp [hx]
  · intro i h; simp only [NList.item, pyIndex_eq_nth, h]
  · intro a b; exact ⟨rfl, fun i => pySlice_getElem _ _ _ _⟩
  · intro is m
    unfold NList.pick
    rw [← hpick]
    split <;> rename_i hx
    · simp [hx]
    · obtain ⟨me, mt⟩ := m
      simp only [hx, Except.ok.injEq, NList.mk.injEq]
      constructor
      · rintro ⟨rfl, rfl⟩; exact ⟨rfl, rfl⟩
      · rintro ⟨rfl, rfl⟩; exact ⟨rfl, rfl⟩
  · rintro is ⟨i, hi, hn⟩
    unfold NList.pick
    have : mapE (fun i => pyIndex l.elems i) is = .error .index := by
      induction is with
      | nil => simp at hi
      | cons j is ih =>
        simp only [mapE]
        cases hj : Spec.nth l.elems j with
        | none => simp [pyIndex_eq_nth, hj]
        | some x =>
          have hi' : i ∈ is := by
            rcases List.mem_cons.mp hi with rfl | h
            · rw [hn] at hj; simp at hj
            · exact h
          rw [ih hi']; simp [pyIndex_eq_nth, hj]
    rw [this]
  · simp [NList.first, Spec.nth, List.head?_eq_getElem?]
  · simp [NList.last, Spec.nth, List.getLast?_eq_head?_reverse, List.head?_eq_getElem?]

/-- C67. The columns: a declared field gives one value per node, None where unset; an undeclared one raises. -/
theorem C67_column (w : World) (l : NList) (f : Str) :
    (f ∈ dkeys l.types → ∃ vs, l.column w f = .ok vs ∧ vs.length = l.elems.length ∧
      ∀ (i : Nat) n, l.elems[i]? = some n → vs[i]? = some ((dget (w.nodes n).fields f).getD .none)) ∧
    (f ∉ dkeys l.types → l.column w f = .error .assertion) := by
  unfold NList.column
  constructor
  · intro h
    rw [if_pos h]
    exact ⟨_, rfl, by simp, fun i n hi => by simp [hi, getField]⟩
  · intro h; rw [if_neg h]

/-- C67. A layer as a list: its nodes in order, with the declared types; its columns are those of the list. -/
theorem C67_layer {w : World} (L : LayerId) (l : List NodeId) (hl : Spec.Holds w L l) :
    w.toList L = .ok ⟨l, (w.layers L).fields⟩ ∧
    ∀ f, w.layerColumn L f = NList.column w ⟨l, (w.layers L).fields⟩ f := by
  have h1 : w.toList L = .ok ⟨l, (w.layers L).fields⟩ := by
    unfold toList; rw [hl]; simp
  refine ⟨h1, ?_⟩
  intro f
  unfold layerColumn NList.column
  rw [h1]
  by_cases hf : f ∈ dkeys (w.layers L).fields
  · simp [hf]
  · simp [hf]

/-! ### C68 -/

/-- C68. Adding a text: the name now gives a new text with these characters, other names give what they gave, and
the texts that spans refer to are not changed, even the one replaced. -/
theorem C68_add_text (w : World) (name text : Str) :
    let w' := (w.addText name text).1
    let T := (w.addText name text).2
    dget w'.dt name = some T ∧ (w'.texts T).name = name ∧ (w'.texts T).text = text ∧
    (∀ k, k ≠ name → dget w'.dt k = dget w.dt k) ∧ (∀ U, U < w.nextT → U ≠ T ∧ w'.texts U = w.texts U) ∧
    (dkeys w'.dt = if name ∈ dkeys w.dt then dkeys w.dt else dkeys w.dt ++ [name]) := by
  refine ⟨by simp [addText, dget_dset], by simp [addText, upd], by simp [addText, upd], ?_, ?_, ?_⟩
  · intro k hk; simp [addText, dget_dset, Ne.symm hk]
  · intro U hU
    have : U ≠ w.nextT := by omega
    simp [addText, upd, this]
  · simp only [addText, dkeys_dset]; split <;> rfl

/-- C68. The main text can be set once: then reading gives it, and setting it again raises and changes nothing. -/
theorem C68_maintext_once (w : World) (text : Str) :
    ("main".toList ∈ dkeys w.dt → w.setMaintext text = (w, .error .assertion)) ∧
    ("main".toList ∉ dkeys w.dt → w.maintext = .error .key ∧
      ∃ w' T, w.setMaintext text = (w', .ok T) ∧ w'.maintext = .ok T ∧ (w'.texts T).text = text ∧
        (w'.texts T).name = "main".toList ∧ ∀ text', w'.setMaintext text' = (w', .error .assertion)) := by
  have hsome : ∀ w : World, "main".toList ∈ dkeys w.dt → (dget w.dt "main".toList).isSome = true := by
    intro w h
    cases hd : dget w.dt "main".toList with
    | none => exact absurd h ((dget_none_iff _ _).mp hd)
    | some T => rfl
  refine ⟨?_, ?_⟩
  · intro h; unfold setMaintext; rw [if_pos (hsome w h)]
  · intro h
    have hn := (dget_none_iff _ _).mpr h
    obtain ⟨a, b, c, -, -, -⟩ := C68_add_text w "main".toList text
    refine ⟨by unfold maintext; rw [hn], _, _, by unfold setMaintext; rw [if_neg (by rw [hn]; simp)], ?_, c, b, ?_⟩
    · unfold maintext; rw [a]
    · intro t; unfold setMaintext; rw [if_pos (by rw [a]; rfl)]

theorem exec_dt (w : World) (op : Op) (h : ∀ name text, op ≠ .addText name text) :
    (w.exec op).1.dt = w.dt ∧ (w.exec op).1.texts = w.texts := by
  cases op with
  | newNode f => exact ⟨rfl, rfl⟩
  | setField n k v => exact ⟨(keeps_setField w n k v).dt, (keeps_setField w n k v).texts⟩
  | delField n k => simp only [exec]; split <;> exact ⟨rfl, rfl⟩
  | add L ns => exact ⟨(keeps_addNodes w L ns).dt, (keeps_addNodes w L ns).texts⟩
  | addNew L kw => simp only [exec, addNew]; split <;> exact ⟨rfl, rfl⟩
  | addMany L ns fill val => exact ⟨(keeps_addMany w L ns fill val).dt, (keeps_addMany w L ns fill val).texts⟩
  | remove L n => exact ⟨(keeps_remove w L n).dt, (keeps_remove w L n).texts⟩
  | removeMany L ns => exact ⟨(keeps_removeMany w L ns).dt, (keeps_removeMany w L ns).texts⟩
  | detach n => exact ⟨(keeps_detach w n).dt, (keeps_detach w n).texts⟩
  | retain L ns => exact ⟨(keeps_retain w L ns).dt, (keeps_retain w L ns).texts⟩
  | sort L le => exact ⟨(keeps_sort w L le).dt, (keeps_sort w L le).texts⟩
  | compact L => exact ⟨(keeps_compact w L).dt, (keeps_compact w L).texts⟩
  | addLayer name f => exact ⟨rfl, rfl⟩
  | addText name t => exact absurd rfl (h name t)
  | setProp k v => exact ⟨rfl, rfl⟩
  | addField L name t init =>
    simp only [exec, addField]
    split
    · exact ⟨rfl, rfl⟩
    · split
      · split
        · exact ⟨rfl, rfl⟩
        · exact ⟨(keeps_setAll _ _ _ _).dt, (keeps_setAll _ _ _ _).texts⟩
      · exact ⟨rfl, rfl⟩
  | removeField L name leave =>
    simp only [exec, removeField]
    split
    · exact ⟨rfl, rfl⟩
    · cases leave
      · exact ⟨(keeps_delAll w name (w.iter L)).dt, (keeps_delAll w name (w.iter L)).texts⟩
      · exact ⟨rfl, rfl⟩
  | removeLayer name c => simp only [exec, removeLayer]; split <;> (try split) <;> (try split) <;> exact ⟨rfl, rfl⟩
  | compile x t => exact ⟨(keeps_compile w x t).dt, (keeps_compile w x t).texts⟩

/-- C68, the whole claim on the main text: no call replaces it. False, see `C68_add_text_replaces_main`. -/
def C68_maintext_full : Prop := ∀ (w : World) (op : Op) (T : TextId), Reachable w → w.Allowed op →
  w.maintext = .ok T → (w.exec op).1.maintext = .ok T

/-- C68, the part that holds: no call but `add_text("main", ...)` replaces the main text, and none changes its
characters. -/
theorem C68_maintext_partial {w : World} (h : Reachable w) (op : Op) (T : TextId) (hm : w.maintext = .ok T)
    (hop : ∀ text, op ≠ .addText "main".toList text) :
    (w.exec op).1.maintext = .ok T ∧ (w.exec op).1.texts T = w.texts T := by
  have hT : dget w.dt "main".toList = some T := by
    unfold maintext at hm; split at hm <;> simp at hm
    subst hm; assumption
  have key : dget (w.exec op).1.dt "main".toList = some T ∧ (w.exec op).1.texts T = w.texts T := by
    by_cases hx : ∃ name text, op = .addText name text
    · obtain ⟨name, text, rfl⟩ := hx
      have hne : name ≠ "main".toList := fun he => hop text (by rw [he])
      obtain ⟨-, -, -, a, b, -⟩ := C68_add_text w name text
      exact ⟨(a _ (Ne.symm hne)).trans hT, (b T (h.wf.dtName _ _ hT).2).2⟩
    · obtain ⟨a, b⟩ := exec_dt w op (fun n t he => hx ⟨n, t, he⟩)
      rw [a, b]; exact ⟨hT, rfl⟩
  refine ⟨?_, key.2⟩
  unfold maintext; rw [key.1]

/-- C68 fails: `add_text` replaces the main text the setter protects, and a span on the old one stays behind. -/
theorem C68_add_text_replaces_main : ∃ w op T U, Reachable w ∧ w.Allowed op ∧ w.maintext = .ok T ∧
    (w.exec op).1.maintext = .ok U ∧ T ≠ U ∧ dget ((w.exec op).1.nodes 0).fields "s".toList = some (.span T 1 3) := by
  refine ⟨World.empty.run (Ex.opsRetext.take 3), .addText "main".toList "other text".toList, 0, 1,
    reachable_run _ (by decide), trivial, by decide, by decide, by decide, by decide⟩

theorem C68_maintext_full_false : ¬ C68_maintext_full := by
  intro hf
  obtain ⟨w, op, T, U, a, b, c, d, e, -⟩ := C68_add_text_replaces_main
  have := hf w op T a b c
  rw [d] at this
  simp at this; exact e this.symm

/-- C68. The layers: a layer added is found under its name, with its schema and no nodes; other names give what
they gave, and layers that exist are not changed, even one replaced. -/
theorem C68_add_layer (w : World) (name : Str) (fields : Dict Str DataType) :
    let w' := (w.addLayer name fields).1
    let L := (w.addLayer name fields).2
    w'.getLayer name = .ok L ∧ w'.hasLayer name = true ∧ (w'.layers L).name = name ∧ (w'.layers L).fields = fields ∧
    w'.iter L = [] ∧ (∀ k, k ≠ name → w'.getLayer k = w.getLayer k ∧ w'.hasLayer k = w.hasLayer k) ∧
    (∀ M, M < w.nextL → M ≠ L ∧ w'.layers M = w.layers M ∧ w'.iter M = w.iter M) := by
  refine ⟨by simp [addLayer, getLayer, dget_dset], by simp [addLayer, hasLayer, dget_dset], by simp [addLayer, upd],
    by simp [addLayer, upd], by simp [addLayer, upd, iter], ?_, ?_⟩
  · intro k hk; simp [addLayer, getLayer, hasLayer, dget_dset, Ne.symm hk]
  · intro M hM
    have : M ≠ w.nextL := by omega
    simp [addLayer, upd, this, iter]

/-- C68. `in` and `[]` agree: a layer is there exactly when reading it does not raise KeyError. -/
theorem C68_contains (w : World) (name : Str) :
    (w.hasLayer name = true ↔ name ∈ dkeys w.dl) ∧ (w.hasLayer name = true ↔ ∃ L, w.getLayer name = .ok L) ∧
    (w.hasLayer name = false → w.getLayer name = .error .key) := by
  unfold hasLayer getLayer
  cases hd : dget w.dl name with
  | none => simp [(dget_none_iff _ _).mp hd]
  | some L => 
    have : name ∈ dkeys w.dl := by
      apply Decidable.byContradiction; intro h; rw [(dget_none_iff _ _).mpr h] at hd; simp at hd
    simp [this]

/-! ### C69 -/

theorem C69_add (fields : Dict Str DataType) (name : Str) (t : DataType) :
    (name ∈ dkeys fields → schemaAdd fields name t = .error .value) ∧
    (name ∉ dkeys fields → schemaAdd fields name t = .ok (fields ++ [(name, t)])) := by
  unfold schemaAdd
  constructor
  · intro h
    rw [if_pos]
    cases hd : dget fields name with
    | none => exact absurd h ((dget_none_iff _ _).mp hd)
    | some _ => rfl
  · intro h
    rw [if_neg (by simp [(dget_none_iff _ _).mpr h]), dset_absent _ h]

/-- C69. Several fields at once: taken in order up to the first name the schema has, which is refused. -/
theorem C69_set (fields new : Dict Str DataType) (hn : (dkeys new).Nodup) :
    ((∀ k ∈ dkeys new, k ∉ dkeys fields) → schemaSet fields new = (fields ++ new, none)) ∧
    (∀ pre k t post, new = pre ++ (k, t) :: post → (∀ j ∈ dkeys pre, j ∉ dkeys fields) → k ∈ dkeys fields →
      schemaSet fields new = (fields ++ pre, some .value)) := by
  induction new generalizing fields with
  | nil => simp [schemaSet]
  | cons a new ih =>
    obtain ⟨k, t⟩ := a
    simp only [dkeys, List.map_cons, List.nodup_cons] at hn
    have step : k ∉ dkeys fields → schemaSet fields ((k, t) :: new) = schemaSet (fields ++ [(k, t)]) new := by
      intro h
      simp only [schemaSet, (dget_none_iff _ _).mpr h, Option.isSome_none, dset_absent _ h]
      simp
    have hk : ∀ j ∈ dkeys new, j ∉ dkeys fields → j ∉ dkeys (fields ++ [(k, t)]) := by
      intro j hj h1 h2
      simp only [dkeys, List.map_append, List.mem_append, List.map_cons, List.map_nil, List.mem_singleton] at h2
      rcases h2 with h2 | rfl
      · exact h1 h2
      · exact hn.1 hj
    have ih' := ih (fields ++ [(k, t)]) hn.2
    constructor
    · intro h
      have h0 := h k (by simp [dkeys])
      rw [step h0, ih'.1 (fun j hj => hk j hj (h j (by simp only [dkeys, List.map_cons, List.mem_cons]; exact .inr hj)))]
      simp
    · intro pre k' t' post he hpre hk'
      cases pre with
      | nil =>
        simp at he
        obtain ⟨⟨rfl, rfl⟩, rfl⟩ := he
        simp only [schemaSet]
        rw [if_pos]
        · simp
        · cases hd : dget fields k with
          | none => exact absurd hk' ((dget_none_iff _ _).mp hd)
          | some _ => rfl
      | cons b pre =>
        simp at he
        obtain ⟨rfl, rfl⟩ := he
        have h0 := hpre k (by simp [dkeys])
        rw [step h0, ih'.2 pre k' t' post rfl (fun j hj => hk j (by simp only [dkeys, List.map_append, List.mem_append]; exact .inl hj)
          (hpre j (by simp only [dkeys, List.map_cons, List.mem_cons]; exact .inr hj))) (by
            simp only [dkeys, List.map_append, List.mem_append]; exact .inl hk')]
        simp

/-! ### NodeSpan -/

/-- C09. The text of a node span runs from the start of its left node's span to the stop of its right node's span. -/
theorem C09_nodespan (w : World) (l r : NodeId) (field : Str) {T a b c d}
    (hl : dget (w.nodes l).fields field = some (.span T a b)) (hr : dget (w.nodes r).fields field = some (.span T c d))
    (hi : Spec.Inside ⟨w.texts T, a, b⟩) (hj : Spec.Inside ⟨w.texts T, c, d⟩) (h : a ≤ d) :
    w.nodeSpanText l r field = .ok (Spec.between (w.texts T).text a d) ∧
    ∃ s, w.nodeSpanTextspan l r field = .ok s ∧ s.text = w.texts T ∧ s.start = a ∧ s.stop = d := by
  obtain ⟨h1, s, h2, h3, h4, h5, -⟩ := C09_span_to ⟨w.texts T, a, b⟩ ⟨w.texts T, c, d⟩ hi hj rfl h
  unfold nodeSpanText nodeSpanTextspan
  simp only [hl, hr, fieldSpan, Option.isNone_some, Bool.false_eq_true, or_self, if_false]
  exact ⟨congrArg Except.ok h1, s, h2, h3, h4, h5⟩

/-- C09. Without a span on either end the text of a node span is refused. -/
theorem C09_nodespan_unset (w : World) (l r : NodeId) (field : Str)
    (h : dget (w.nodes l).fields field = none ∨ dget (w.nodes r).fields field = none) :
    w.nodeSpanText l r field = .error .key ∧ w.nodeSpanTextspan l r field = .error .key := by
  unfold nodeSpanText nodeSpanTextspan
  have : (dget (w.nodes l).fields field).isNone = true ∨ (dget (w.nodes r).fields field).isNone = true := by
    rcases h with h | h <;> simp [h]
  rw [if_pos this, if_pos this]; exact ⟨rfl, rfl⟩

/-- C14. The length of a node span is the number of nodes from the left to the right end. -/
theorem C14_len {w : World} (h : Reachable w) (L : LayerId) (pre mid post : List NodeId) (a b : NodeId)
    (hl : Spec.Holds w L (pre ++ mid ++ post)) (ha : mid.head? = some a) (hb : mid.getLast? = some b) :
    w.nodeSpanLen a b = .ok mid.length := by
  unfold nodeSpanLen
  rw [(C14_nodespan h L pre mid post a b hl ha hb).2.1]



/-! ### Witnesses -/

namespace Ex

/-- a text, a layer of tokens with a number and a span, a layer with another numeric type for the number, and two nodes
of no layer -/
def opsList : List Op := [
  .addText "main".toList "hello there".toList,
  .addLayer "tok".toList [("x".toList, DataTypes.int32 none), ("text".toList, DataTypes.textspan "main".toList)],
  .addNew 0 [("x".toList, .int 1), ("text".toList, .span 0 0 5)],
  .addNew 0 [("x".toList, .int 2)],
  .addNew 0 [("text".toList, .span 0 6 11)],
  .addLayer "num".toList [("x".toList, DataTypes.float64 none)],
  .addNew 1 [("x".toList, .float 0)],
  .newNode [("id".toList, .int 7), ("text".toList, .span 0 0 5)],
  .newNode [("x".toList, .str "s".toList)]]

def wlist : World := World.empty.run opsList

theorem reachList : Reachable wlist := reachable_run _ (by decide)

theorem holdsList : Spec.Holds wlist 0 [0, 1, 2] := by unfold Spec.Holds; decide

theorem idOrder {α : Type} : Spec.SetOrder (id : List α → List α) := fun _ => .refl _

end Ex

/-- C67 fails: with an int32 and a float64 column under one name the list has no column of that name. -/
theorem C67_numeric_type_lost : ∃ w ns out, Reachable w ∧ w.listTypes id (fun _ => id) ns = .ok out ∧
    (∃ t u, Spec.Seen w ns "x".toList t ∧ Spec.Seen w ns "x".toList u ∧ Spec.Numeric t ∧ Spec.Numeric u) ∧
    "x".toList ∉ dkeys out ∧ NList.column w ⟨ns, out⟩ "x".toList = .error .assertion := by
  refine ⟨Ex.wlist, [0, 3], [("text".toList, DataTypes.textspan "main".toList)], Ex.reachList, by decide,
    ⟨DataTypes.int32 none, DataTypes.float64 none, .layer (n := 0) (L := 0) (by decide) (by decide) (by decide),
      .layer (n := 3) (L := 1) (by decide) (by decide) (by decide), rfl, rfl⟩, by decide, by decide⟩

theorem C67_types_full_false : ¬ C67_types_full := by
  intro hf
  obtain ⟨w, ns, out, a, b, ⟨t, u, c, -⟩, d, -⟩ := C67_numeric_type_lost
  exact d (hf w id (fun _ => id) ns out a Ex.idOrder (fun _ => Ex.idOrder) b _ t c)

namespace Ex

/-- nodes of a layer and of none together -/
theorem listed : wlist.listTypes List.reverse (fun _ => List.reverse) [0, 4, 2] =
    .ok [("id".toList, DataTypes.int64 (some 0)), ("text".toList, DataTypes.textspan "main".toList), ("x".toList, DataTypes.int32 none)] := by
  decide

theorem revOrder {α : Type} : Spec.SetOrder (List.reverse : List α → List α) := fun l => List.reverse_perm l

example : "id".toList ∈ dkeys [("id".toList, DataTypes.int64 (some 0)), ("text".toList, DataTypes.textspan "main".toList), ("x".toList, DataTypes.int32 none)] ↔
    (∃ t, Spec.Seen wlist [0, 4, 2] "id".toList t) ∧
      ∀ t u, Spec.Seen wlist [0, 4, 2] "id".toList t → Spec.Seen wlist [0, 4, 2] "id".toList u → t.tname = u.tname :=
  (C67_types_partial reachList revOrder (fun _ => revOrder) listed).2.2 _
/-- a number and a string under one name -/
example : wlist.listTypes id (fun _ => id) [0, 5] = .error .value := by decide

example : ∃ out, wlist.listTypes id (fun _ => id) [1, 2, 3] = .ok out := by
  have hs : ∀ f t, Spec.Seen wlist [1, 2, 3] f t → (f, t) ∈ (wlist.layers 0).fields ∨ (f, t) ∈ (wlist.layers 1).fields := by
    rintro f t (⟨hn, hc, -, -⟩ | ⟨hn, hc, hd⟩)
    · simp at hn; rcases hn with rfl | rfl | rfl <;> exact absurd hc (by decide)
    · simp at hn
      rcases hn with rfl | rfl | rfl
      · have h : (wlist.nodes 1).coll = some 0 := by decide
        rw [h] at hc; simp at hc; subst hc; exact .inl (dget_mem hd)
      · have h : (wlist.nodes 2).coll = some 0 := by decide
        rw [h] at hc; simp at hc; subst hc; exact .inl (dget_mem hd)
      · have h : (wlist.nodes 3).coll = some 1 := by decide
        rw [h] at hc; simp at hc; subst hc; exact .inr (dget_mem hd)
  have h0 : (wlist.layers 0).fields = [("x".toList, DataTypes.int32 none), ("text".toList, DataTypes.textspan "main".toList)] := by decide
  have h1 : (wlist.layers 1).fields = [("x".toList, DataTypes.float64 none)] := by decide
  rw [h0, h1] at hs
  refine C67_accepts reachList idOrder (fun _ => idOrder) ?_ ?_ ?_
  · intro n hn hc
    simp at hn; rcases hn with rfl | rfl | rfl <;> exact absurd hc (by decide)
  · intro f t h
    rcases hs f t h with h | h <;> simp at h
    · rcases h with ⟨rfl, rfl⟩ | ⟨rfl, rfl⟩ <;> decide
    · obtain ⟨rfl, rfl⟩ := h; decide
  · intro f
    by_cases hf : f = "x".toList
    · right
      intro t h
      subst hf
      rcases hs _ t h with h | h <;> simp at h <;> subst h <;> rfl
    · left
      have : ∀ t, Spec.Seen wlist [1, 2, 3] f t → t = DataTypes.textspan "main".toList := by
        intro t h
        rcases hs f t h with h | h <;> simp at h
        · rcases h with ⟨rfl, rfl⟩ | ⟨-, rfl⟩
          · exact absurd rfl hf
          · rfl
        · exact absurd h.1 hf
      intro t u a b; rw [this t a, this u b]

example : NList.item ⟨[7, 8, 9], []⟩ (-2) = .ok 8 ∧ NList.item ⟨[7, 8, 9], []⟩ 3 = .error .index ∧
    NList.slice ⟨[7, 8, 9], []⟩ (some (-2)) none = ⟨[8, 9], []⟩ ∧ NList.pick ⟨[7, 8, 9], []⟩ [2, -3, 2] = .ok ⟨[9, 7, 9], []⟩ ∧
    NList.last ⟨[7, 8, 9], []⟩ = some 9 := by decide
example : Spec.nth [7, 8, 9] (-2) = some 8 ∧ Spec.nth [7, 8, 9] (-4) = none := by decide
example : NList.column wlist ⟨[0, 1, 2], (wlist.layers 0).fields⟩ "x".toList = .ok [.int 1, .int 2, .none] ∧
    wlist.layerColumn 0 "y".toList = .error .assertion := by decide
example : wlist.toList 0 = .ok ⟨[0, 1, 2], (wlist.layers 0).fields⟩ := (C67_layer 0 _ holdsList).1
example : wlist.setMaintext "x".toList = (wlist, .error .assertion) := (C68_maintext_once wlist "x".toList).1 (by decide)
example : (World.empty.setMaintext "x".toList).1.maintext = .ok 0 := by decide
example : (wlist.exec (.addText "title".toList "t".toList)).1.maintext = .ok 0 :=
  (C68_maintext_partial reachList (.addText "title".toList "t".toList) 0 (by decide) (by intro t h; simp at h)).1
example : (wlist.addLayer "tok".toList []).1.getLayer "tok".toList = .ok 2 ∧ wlist.getLayer "tok".toList = .ok 0 ∧
    wlist.getLayer "arc".toList = .error .key := by decide
example : schemaSet [("a".toList, DataTypes.binary)] [("b".toList, DataTypes.binary), ("a".toList, DataTypes.string none), ("c".toList, DataTypes.binary)] =
    ([("a".toList, DataTypes.binary), ("b".toList, DataTypes.binary)], some .value) :=
  (C69_set _ _ (by decide)).2 [("b".toList, DataTypes.binary)] _ _ _ rfl (by decide) (by decide)
example : schemaAdd [("a".toList, DataTypes.binary)] "b".toList (DataTypes.string none) =
    .ok [("a".toList, DataTypes.binary), ("b".toList, DataTypes.string none)] := (C69_add _ _ _).2 (by decide)
example : wlist.nodeSpanText 0 2 "text".toList = .ok "hello there".toList := by
  rw [(C09_nodespan wlist 0 2 "text".toList (T := 0) (a := 0) (b := 5) (c := 6) (d := 11) (by decide) (by decide) (by decide)
    (by decide) (by decide)).1]; decide
example : wlist.nodeSpanText 0 1 "text".toList = .error .key := (C09_nodespan_unset wlist 0 1 _ (.inr (by decide))).1
example : w.nodeSpanLen 0 2 = .ok 2 := C14_len reach 0 [] [0, 2] [4] 0 2 holds0 rfl rfl

end Ex
end Verif
