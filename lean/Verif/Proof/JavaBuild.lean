import Verif.Proof.JavaRead
/-
For C88 and C89: the Java decoder after reading: references, and the document.
-/
set_option linter.unusedSimpArgs false
namespace Verif
open World
open Spec (Both Cell LayerC Content FieldType Good TypeGood CellGood IsRef)

/-! ### references -/

/-- the node at a place -/
def AtPl (places : Dict Str (Nat × Nat)) (s : Str) (i n : Nat) : Prop := ∃ b m, dget places s = some (b, m) ∧ i < m ∧ n = b + i

/-- what a field holds after references are resolved -/
inductive JRes (places : Dict Str (Nat × Nat)) (texts : Dict Str (List Str)) (t : JType) : Option JVal → Option Cell → Prop
  | none : JRes places texts t none none
  | bool {b} : JRes places texts t (some (.bool b)) (some (.bool b))
  | int {i} : JRes places texts t (some (.int i)) (some (.int i))
  | long {i} : JRes places texts t (some (.long i)) (some (.int i))
  | double {x} : JRes places texts t (some (.double x)) (some (.float x))
  | str {s} : JRes places texts t (some (.str s)) (some (.str s))
  | ext {y b} : dget t.args "type".toList = some (.str y) → JRes places texts t (some (.ext y b)) (some (.ext b))
  | span {c parts} {i j a b : Nat} : dget t.args "context".toList = some (.str c) → dget texts c = some parts →
      (segOffsets 0 parts)[i]? = some a → (segOffsets 0 parts)[j]? = some b → JRes places texts t (some (.span c (i, j))) (some (.span a b))
  | node {n s} {i : Nat} : Spec.JTarget t s → AtPl places s i n → JRes places texts t (some (.node n)) (some (.node i))
  | nodes {ns is s} : Spec.JTarget t s → ns ≠ [] → ns.length = is.length →
      (∀ (j : Nat) (n i : Nat), ns[j]? = some n → is[j]? = some i → AtPl places s i n) → JRes places texts t (some (.nodes ns)) (some (.nodes is))
  | nodespan {s l r} {i j : Nat} : Spec.JTarget t s → AtPl places s i l → AtPl places s j r → JRes places texts t (some (.nodespan l r)) (some (.nodespan i j))

/-- the layers of the document have their nodes in `places` -/
def PlOk (c : Content) (places : Dict Str (Nat × Nat)) : Prop :=
  ∀ s l, c.layers s = some l → ∃ b, dget places s = some (b, l.rows.length)

theorem isRef_name {t : TypeWire} {n : JTName} (hn : n.getName = t.name) : IsRef t.name ↔ (n = .node ∨ n = .nodeArray ∨ n = .nodeSpan) := by
  unfold IsRef
  constructor
  · rintro (h | h | h) <;> rw [h] at hn
    · exact .inl (getName_inj (b := .node) hn)
    · exact .inr (.inl (getName_inj (b := .nodeArray) hn))
    · exact .inr (.inr (getName_inj (b := .nodeSpan) hn))
  · rintro (h | h | h) <;> subst h
    · exact .inl hn.symm
    · exact .inr (.inl hn.symm)
    · exact .inr (.inr hn.symm)

theorem jpre_plain {places : Dict Str (Nat × Nat)} {texts : Dict Str (List Str)} {c : Content} {t : TypeWire} {ft : FieldType} {v : Option JVal} {y : Option Cell}
    (ht : TypeR c t ft) (hp : JPre texts (jTypeOf t) v y) (hc : CellIs c ft y) (hr : ¬ IsRef t.name) : JRes places texts (jTypeOf t) v y := by
  have hw := ht.type
  cases hp with
  | none => exact .none
  | bool => exact .bool
  | int => exact .int
  | long => exact .long
  | double => exact .double
  | str => exact .str
  | ext h => exact .ext h
  | span h1 h2 h3 h4 => exact .span h1 h2 h3 h4
  | node => cases hc _ rfl with | node h => exact absurd (Or.inl (hw.1.trans h)) hr
  | nodes => cases hc _ rfl with | nodes h => exact absurd (Or.inr (.inl (hw.1.trans h))) hr
  | nodespan => cases hc _ rfl with | nodespan h => exact absurd (Or.inr (.inr (hw.1.trans h))) hr

theorem nodeAt_ok {b m i : Nat} (h : i < m) : nodeAt (some (b, m)) (i : Int) = .ok (b + i) := by
  unfold nodeAt
  simp only
  rw [if_pos (by omega)]
  simp

theorem mapE_nodeAt {b m : Nat} {is : List Nat} (h : ∀ i ∈ is, i < m) : mapE (nodeAt (some (b, m))) (is.map (fun i : Nat => (i : Int))) = .ok (is.map (fun i => b + i)) := by
  rw [mapE_map]
  apply mapE_ok
  intro i hi
  exact nodeAt_ok (h i hi)

theorem jpre_ref {places : Dict Str (Nat × Nat)} {texts : Dict Str (List Str)} {c : Content} {t : TypeWire} {ft : FieldType} {v : Option JVal} {y : Option Cell}
    (ht : TypeR c t ft) (ha : PlOk c places) (hp : JPre texts (jTypeOf t) v y) (hc : CellIs c ft y) (hr : IsRef t.name) :
    ∃ s b m, (jTypeOf t).arg "layer".toList = .ok s ∧ dget places s = some (b, m) ∧
      ((v = none ∧ JRes places texts (jTypeOf t) none y) ∨
        ∃ v0 v', v = some v0 ∧ jResolveVal (some (b, m)) (jTypeOf t).name v0 = .ok v' ∧ JRes places texts (jTypeOf t) (some v') y) := by
  have hw := ht.type
  obtain ⟨s, l, h1, h2⟩ := ht.good.layer (hw.1 ▸ hr)
  obtain ⟨b, hb⟩ := ha s l h2
  rw [← hw.2] at h1
  have hname : ∀ n : JTName, n.getName = ft.1 → (jTypeOf t).name = n := fun n hn => jCell_name (hn.trans ht.type.1.symm)
  have htg : Spec.JTarget (jTypeOf t) s := jTypeOf_str ht.keys h1
  refine ⟨s, b, _, by unfold JType.arg; rw [jTypeOf_str ht.keys h1], hb, ?_⟩
  cases hp with
  | none => exact .inl ⟨rfl, .none⟩
  | bool => cases hc _ rfl with | bool h => rw [hw.1, h] at hr; exact absurd hr (by unfold IsRef; decide)
  | int => cases hc _ rfl with | int h => rcases h with h | h <;> rw [hw.1, h] at hr <;> exact absurd hr (by unfold IsRef; decide)
  | long => cases hc _ rfl with | int h => rcases h with h | h <;> rw [hw.1, h] at hr <;> exact absurd hr (by unfold IsRef; decide)
  | double => cases hc _ rfl with | float h => rw [hw.1, h] at hr; exact absurd hr (by unfold IsRef; decide)
  | str => cases hc _ rfl with | str h => rw [hw.1, h] at hr; exact absurd hr (by unfold IsRef; decide)
  | ext => cases hc _ rfl with | ext h => rw [hw.1, h] at hr; exact absurd hr (by unfold IsRef; decide)
  | span => cases hc _ rfl with | span h => rw [hw.1, h] at hr; exact absurd hr (by unfold IsRef; decide)
  | @node i =>
    cases hc _ rfl with
    | @node _ s' h h' hi =>
      rw [← hw.2, h1] at h'
      cases h'
      rw [size_of h2] at hi
      refine .inr ⟨_, .node (b + i), rfl, ?_, .node htg ⟨b, _, hb, hi, rfl⟩⟩
      rw [hname .node h.symm]
      simp only [jResolveVal, nodeAt_ok hi]
  | @nodes is =>
    cases hc _ rfl with
    | @nodes _ s' h h' hne hi =>
      rw [← hw.2, h1] at h'
      cases h'
      rw [size_of h2] at hi
      refine .inr ⟨_, .nodes (is.map (fun i => b + i)), rfl, ?_, .nodes htg (by simpa using hne) (by simp) ?_⟩
      · rw [hname .nodeArray h.symm]
        simp only [jResolveVal, mapE_nodeAt hi, jNodeArray]
        rw [if_neg (by simpa using hne)]
      · intro j n i hj hi'
        rw [List.getElem?_map, hi'] at hj
        cases hj
        exact ⟨b, _, hb, hi i (List.mem_of_getElem? hi'), rfl⟩
  | @nodespan i j =>
    cases hc _ rfl with
    | @nodespan _ _ s' h h' hij hj =>
      rw [← hw.2, h1] at h'
      cases h'
      rw [size_of h2] at hj
      refine .inr ⟨_, .nodespan (b + i) (b + j), rfl, ?_, .nodespan htg ⟨b, _, hb, by omega, rfl⟩ ⟨b, _, hb, hj, rfl⟩⟩
      rw [hname .nodeSpan h.symm]
      simp only [jResolveVal, nodeAt_ok hj, nodeAt_ok (show i < l.rows.length by omega)]
      rw [if_neg (by omega)]

/-- a field of the layer -/
def FieldR (c : Content) (lc : LayerC) (e : Str × JType) : Prop :=
  ∃ tw ft, e.2 = jTypeOf tw ∧ TypeR c tw ft ∧ ∀ (i : Nat) row, lc.rows[i]? = some row → CellIs c ft (row e.1)

theorem refs_j {texts : Dict Str (List Str)} {c : Content} {lc : LayerC} {places : Dict Str (Nat × Nat)} (ha : PlOk c places) : ∀ (fs : List (Str × JType))
    {rows : List (Dict Str JVal)} {R : Nat → Str → Option JVal → Prop}, (fs.map (·.1)).Nodup →
    (∀ e ∈ fs, FieldR c lc e) → rows.length = lc.rows.length → RowsAre rows R →
    (∀ e ∈ fs, ∀ i v, R i e.1 v → ∃ row, lc.rows[i]? = some row ∧ JPre texts e.2 v (row e.1)) →
    ∃ rows', jResolve places fs rows = .ok rows' ∧ rows'.length = lc.rows.length ∧
      RowsAre rows' (fun i f v => (∃ e ∈ fs, e.1 = f ∧ ∃ row, lc.rows[i]? = some row ∧ JRes places texts e.2 v (row f)) ∨
        (f ∉ fs.map (·.1) ∧ R i f v)) := by
  intro fs
  induction fs with
  | nil =>
    intro rows R _ _ hl hR _
    exact ⟨rows, rfl, hl, hR.imp (fun i f v _ h => .inr ⟨by simp, h⟩)⟩
  | cons e fs ih =>
    intro rows R hnd hc hl hR hn
    rw [List.map_cons, List.nodup_cons] at hnd
    obtain ⟨tw, ft, he, ht, hcell⟩ := hc e (by simp)
    obtain ⟨n, hn1, -⟩ := jname_good ht.good
    have hnt : n.getName = tw.name := hn1.trans ht.type.1.symm
    have hname : e.2.name = n := by rw [he]; exact jCell_name hnt
    have hone : ∃ r1, jResolve places (e :: fs) rows = jResolve places fs r1 ∧ r1.length = rows.length ∧
        RowsAre r1 (fun i f v => if f = e.1 then (∃ row, lc.rows[i]? = some row ∧ JRes places texts e.2 v (row e.1)) else R i f v) := by
      obtain ⟨f, t⟩ := e
      simp only at *
      subst he
      by_cases hr : IsRef tw.name
      · have hk := (isRef_name hnt).mp hr
        obtain ⟨s, l, h1, h2⟩ := ht.good.layer (ht.type.1 ▸ hr)
        obtain ⟨b, hb⟩ := ha s l h2
        rw [← ht.type.2] at h1
        have harg : (jTypeOf tw).arg "layer".toList = .ok s := by unfold JType.arg; rw [jTypeOf_str ht.keys h1]
        obtain ⟨r1, q1, q2, q3⟩ := mapE_rows (f := f) (step := jResolveRec (dget places s) f (jTypeOf tw).name)
          (Q := fun i v => ∃ row, lc.rows[i]? = some row ∧ JRes places texts (jTypeOf tw) v (row f)) hR (by
          intro i r hi hri
          obtain ⟨row, hrow, hpre⟩ := hn (f, jTypeOf tw) (by simp) i _ hri
          obtain ⟨s', b', m', g1, g2, g3⟩ := jpre_ref ht ha hpre (hcell i row hrow) hr
          rw [harg] at g1; cases g1
          rw [← g2] at g3
          simp only at g3
          unfold jResolveRec
          rcases g3 with ⟨g3, g4⟩ | ⟨v0, v', g3, g4, g5⟩
          · exact ⟨r, by simp only [g3], ⟨row, hrow, by rw [g3]; exact g4⟩, fun _ _ => rfl⟩
          · refine ⟨tput r f v', by simp only [g3, g4], ⟨row, hrow, ?_⟩, ?_⟩
            · rw [dget_tput, if_pos rfl]; exact g5
            · intro f' hf'
              rw [dget_tput, if_neg (fun h => hf' h.symm)])
        refine ⟨r1, ?_, q2, q3⟩
        rw [jResolve, if_pos (by rw [hname]; exact hk), harg]
        simp only [q1]
      · refine ⟨rows, ?_, rfl, hR.imp ?_⟩
        · rw [jResolve, if_neg]
          rw [hname]
          exact fun h => hr ((isRef_name hnt).mpr h)
        · intro i f' v _ h
          by_cases hf : f' = f
          · subst hf
            rw [if_pos rfl]
            obtain ⟨row, hrow, hpre⟩ := hn (f', jTypeOf tw) (by simp) i _ h
            exact ⟨row, hrow, jpre_plain ht hpre (hcell i row hrow) hr⟩
          · rw [if_neg hf]; exact h
    obtain ⟨r1, h1, h2, h3⟩ := hone
    obtain ⟨r2, g1, g2, g3⟩ := ih hnd.2 (fun e' he => hc e' (by simp [he])) (h2.trans hl) h3 (by
      intro e' he' i v hv
      have hne : e'.1 ≠ e.1 := fun h => hnd.1 (by rw [← h]; exact List.mem_map_of_mem he')
      rw [if_neg hne] at hv
      exact hn e' (by simp [he']) i v hv)
    refine ⟨r2, h1.trans g1, g2, ?_⟩
    refine g3.imp ?_
    rintro i f v - (⟨e', he', he, h⟩ | ⟨hf, h⟩)
    · exact .inl ⟨e', by simp [he'], he, h⟩
    · by_cases he : f = e.1
      · rw [if_pos he] at h
        subst he
        exact .inl ⟨e, by simp, rfl, h⟩
      · rw [if_neg he] at h
        exact .inr ⟨by simp only [List.map_cons, List.mem_cons, not_or]; exact ⟨he, hf⟩, h⟩

/-! ### the nodes of the new document -/

/-- a layer as it is read -/
abbrev RawLay := Str × List (Str × JType) × List (Dict Str JVal)

/-- the number of nodes in the layers before -/
def baseJ (ls : List RawLay) (k : Nat) : Nat := ((ls.take k).flatMap (fun l => l.2.2)).length

theorem baseJ_zero (ls : List RawLay) : baseJ ls 0 = 0 := by simp [baseJ]

theorem baseJ_succ (l : RawLay) (ls : List RawLay) (k : Nat) : baseJ (l :: ls) (k + 1) = l.2.2.length + baseJ ls k := by
  simp [baseJ]

theorem dkeys_places (b : Nat) (ls : List RawLay) : dkeys (jPlaces b ls) = ls.map (·.1) := by
  induction ls generalizing b with
  | nil => rfl
  | cons l ls ih =>
    have := ih (b + l.2.2.length)
    simp only [dkeys] at this ⊢
    simp [jPlaces, this]

theorem dkeys_layObjs (b : Nat) (ls : List RawLay) : dkeys (jLayObjs b ls) = ls.map (·.1) := by
  induction ls generalizing b with
  | nil => rfl
  | cons l ls ih =>
    have := ih (b + l.2.2.length)
    simp only [dkeys] at this ⊢
    simp [jLayObjs, this]

theorem places_get {ls : List RawLay} {k : Nat} {l : RawLay} (hn : (ls.map (·.1)).Nodup) (h : ls[k]? = some l) : ∀ b,
    dget (jPlaces b ls) l.1 = some (b + baseJ ls k, l.2.2.length) ∧
    dget (jLayObjs b ls) l.1 = some ⟨tmap l.2.1, (List.range' (b + baseJ ls k) l.2.2.length).map some, l.2.2.length⟩ := by
  induction ls generalizing k with
  | nil => simp at h
  | cons a ls ih =>
    intro b
    rw [List.map_cons, List.nodup_cons] at hn
    cases k with
    | zero =>
      simp only [List.getElem?_cons_zero, Option.some.injEq] at h
      subst h
      simp [jPlaces, jLayObjs, dget, baseJ_zero]
    | succ k =>
      rw [List.getElem?_cons_succ] at h
      have hne : a.1 ≠ l.1 := fun e => hn.1 (by rw [e]; exact List.mem_map_of_mem (List.mem_of_getElem? h))
      obtain ⟨h1, h2⟩ := ih hn.2 h (b + a.2.2.length)
      rw [baseJ_succ]
      simp only [jPlaces, jLayObjs, dget, if_neg hne]
      rw [Nat.add_assoc] at h1 h2
      exact ⟨h1, h2⟩

theorem places_congr {ls ms : List RawLay} (h : ls.map (fun l => (l.1, l.2.2.length)) = ms.map (fun l => (l.1, l.2.2.length))) : ∀ b, jPlaces b ls = jPlaces b ms := by
  induction ls generalizing ms with
  | nil =>
    intro b
    cases ms with
    | nil => rfl
    | cons m ms => simp at h
  | cons l ls ih =>
    intro b
    cases ms with
    | nil => simp at h
    | cons m ms =>
      simp only [List.map_cons, List.cons.injEq, Prod.mk.injEq] at h
      simp only [jPlaces, h.1.1, h.1.2]
      rw [ih h.2]

theorem data_get {ls : List RawLay} {k : Nat} {l : RawLay} (h : ls[k]? = some l) {i : Nat} (hi : i < l.2.2.length) :
    (ls.flatMap (fun l => l.2.2))[baseJ ls k + i]? = l.2.2[i]? := by
  induction ls generalizing k with
  | nil => simp at h
  | cons a ls ih =>
    cases k with
    | zero =>
      simp only [List.getElem?_cons_zero, Option.some.injEq] at h
      subst h
      rw [baseJ_zero, List.flatMap_cons, List.getElem?_append_left (by omega), Nat.zero_add]
    | succ k =>
      rw [List.getElem?_cons_succ] at h
      rw [baseJ_succ, List.flatMap_cons, List.getElem?_append_right (by omega), ← ih h]
      congr 1
      omega

/-! ### texts -/

theorem unit_seg : ∀ (segs : List Str) (pre : Str) (i a : Nat), (segOffsets pre.length segs)[i]? = some a →
    (unitOffsets (utf16 pre).length segs)[i]? = some (((utf16 ((pre ++ segs.flatten).take a)).length : Nat) : Int) ∧ a ≤ (pre ++ segs.flatten).length := by
  intro segs
  induction segs with
  | nil =>
    intro pre i a h
    cases i with
    | zero =>
      simp only [segOffsets, List.getElem?_cons_zero, Option.some.injEq] at h
      subst h
      simp [unitOffsets]
    | succ i => simp [segOffsets] at h
  | cons s segs ih =>
    intro pre i a h
    cases i with
    | zero =>
      simp only [segOffsets, List.getElem?_cons_zero, Option.some.injEq] at h
      subst h
      simp [unitOffsets]
    | succ i =>
      simp only [segOffsets, List.getElem?_cons_succ] at h
      have := ih (pre ++ s) i a (by rw [List.length_append]; exact h)
      have e : utf16 (pre ++ s) = utf16 pre ++ utf16 s := by simp [utf16]
      rw [e, List.length_append, List.append_assoc] at this
      rw [List.flatten_cons]
      exact this

theorem textOf_text (parts : List Str) : (textOf parts).text = utf16 parts.flatten := rfl

theorem textOf_off {parts : List Str} {i a : Nat} (h : (segOffsets 0 parts)[i]? = some a) : Spec.UnitAt parts.flatten ((textOf parts).off i).offset a := by
  obtain ⟨h1, h2⟩ := unit_seg parts [] i a h
  refine ⟨by simpa using h2, ?_⟩
  have : (textOf parts).heap = (unitOffsets 0 parts).map (fun p => (⟨0, p, 0⟩ : JOff)) := by
    simp [textOf, JText.initializeOffsets, JText.new]
  unfold JText.off
  rw [this, List.getElem?_map]
  have h1' : (unitOffsets 0 parts)[i]? = some (((utf16 (parts.flatten.take a)).length : Nat) : Int) := by
    have e : (utf16 ([] : Str)).length = 0 := rfl
    rw [e, List.nil_append] at h1
    exact h1
  rw [h1']
  rfl


/-! ### the decoded document is sound -/

theorem unitOffsets_get {pos : Nat} {parts : List Str} : ∀ {p : Int}, p ∈ unitOffsets pos parts → (pos : Int) ≤ p ∧ p ≤ (pos + (utf16 parts.flatten).length : Nat) := by
  induction parts generalizing pos with
  | nil => intro p h; simp only [unitOffsets, List.mem_singleton] at h; subst h; simp [utf16]
  | cons s r ih =>
    intro p h
    have e : (utf16 (s :: r).flatten).length = (utf16 s).length + (utf16 r.flatten).length := by simp [utf16]
    rw [e]
    rcases List.mem_cons.mp h with h | h
    · subst h; omega
    · have := ih h; omega

theorem utf16_pos {s : Str} (h : s ≠ []) : 0 < (utf16 s).length := by
  cases s with
  | nil => exact absurd rfl h
  | cons c s =>
    have : 0 < (utf16Char c).length := by unfold utf16Char; split <;> simp
    simp only [utf16, List.flatMap_cons, List.length_append]
    omega

theorem unitOffsets_sorted {pos : Nat} {parts : List Str} (h : ∀ s ∈ parts, s ≠ []) : (unitOffsets pos parts).Pairwise (· < ·) := by
  induction parts generalizing pos with
  | nil => simp [unitOffsets]
  | cons s r ih =>
    simp only [unitOffsets, List.pairwise_cons]
    refine ⟨?_, ih (fun x hx => h x (by simp [hx]))⟩
    intro p hp
    have := unitOffsets_get hp
    have := utf16_pos (h s (by simp))
    omega

theorem textOf_heap (parts : List Str) : (textOf parts).heap = (unitOffsets 0 parts).map (fun p => (⟨0, p, 0⟩ : JOff)) := by
  simp [textOf, JText.initializeOffsets, JText.new]

theorem textOf_table (parts : List Str) : (textOf parts).table = dupdate [] ((unitOffsets 0 parts).zipIdx) := by
  simp [textOf, JText.initializeOffsets, JText.new]

/-- what the table holds, of whatever is put into it -/
theorem dupdate_mem {κ ν : Type} [DecidableEq κ] {e : List (κ × ν)} : ∀ {d : Dict κ ν} {k : κ} {v : ν}, dget (dupdate d e) k = some v → (k, v) ∈ e ∨ dget d k = some v := by
  induction e with
  | nil => intro d k v h; exact .inr h
  | cons x e ih =>
    intro d k v h
    have h' : dget (dupdate (dset d x.1 x.2) e) k = some v := h
    rcases ih h' with h | h
    · exact .inl (by simp [h])
    · rw [dget_dset] at h
      split at h
      · rename_i hk
        cases h
        subst hk
        exact .inl (by simp)
      · exact .inr h

theorem textOf_inv (parts : List Str) : JTInv (textOf parts) := by
  have hget : ∀ (p : Int) (o : Nat), dget (textOf parts).table p = some o → (unitOffsets 0 parts)[o]? = some p := by
    intro p o h
    rw [textOf_table] at h
    rcases dupdate_mem h with h | h
    · exact List.mem_zipIdx_iff_getElem?.mp h
    · cases h
  have hoff : ∀ (p : Int) (o : Nat), dget (textOf parts).table p = some o → (textOf parts).off o = ⟨0, p, 0⟩ := by
    intro p o h
    unfold JText.off
    rw [textOf_heap, List.getElem?_map, hget p o h]
    rfl
  refine ⟨?_, ?_, ?_, ?_⟩
  · rw [textOf_table]; exact nodup_dupdate (by simp [dkeys])
  · intro p o h
    refine ⟨?_, by rw [hoff p o h]⟩
    rw [textOf_heap, List.length_map]
    exact (List.getElem?_eq_some_iff.mp (hget p o h)).1
  · intro p o h
    have := unitOffsets_get (List.mem_of_getElem? (hget p o h))
    rw [textOf_text]
    omega
  · intro o h
    rw [hoff 0 o h]

/-- spans of the Offsets that were read -/
theorem textOf_live {parts : List Str} (h : ∀ s ∈ parts, s ≠ []) {i j a b : Nat} (hi : (segOffsets 0 parts)[i]? = some a) (hj : (segOffsets 0 parts)[j]? = some b)
    (hab : a ≤ b) : LiveSpan (textOf parts) (i, j) := by
  have hs := unitOffsets_sorted (pos := 0) h
  have hn : (dkeys (unitOffsets 0 parts).zipIdx).Nodup := by
    simp only [dkeys, List.zipIdx_map_fst]
    exact hs.imp (fun h => by omega)
  have hget : ∀ {i a : Nat}, (segOffsets 0 parts)[i]? = some a → dget (textOf parts).table (((utf16 (parts.flatten.take a)).length : Nat) : Int) = some i := by
    intro i a hi
    have h1 := (unit_seg parts [] i a hi).1
    rw [textOf_table, dget_dupdate _ _ hn]
    have : dget (unitOffsets 0 parts).zipIdx (((utf16 (parts.flatten.take a)).length : Nat) : Int) = some i := by
      apply dget_of_mem hn
      rw [List.mem_zipIdx_iff_getElem?]
      have e : (utf16 ([] : Str)).length = 0 := rfl
      rw [e, List.nil_append] at h1
      exact h1
    rw [this]
    rfl
  refine ⟨_, _, hget hi, hget hj, ?_⟩
  have : (utf16 (parts.flatten.take a)).length ≤ (utf16 (parts.flatten.take b)).length := by
    have e : parts.flatten.take b = parts.flatten.take a ++ (parts.flatten.take b).drop a := by
      conv => lhs; rw [← List.take_append_drop a (parts.flatten.take b)]
      rw [List.take_take, Nat.min_eq_left hab]
    rw [e]
    simp only [utf16, List.flatMap_append, List.length_append]
    omega
  omega

/-- spans of an empty text -/
theorem textOf_null {parts : List Str} (h : parts.flatten = []) {i j a b : Nat} (hi : (segOffsets 0 parts)[i]? = some a) (hj : (segOffsets 0 parts)[j]? = some b) :
    SpanOk (textOf parts) (i, j) := by
  refine .inr ⟨by rw [textOf_text, h]; rfl, ?_⟩
  have key : ∀ {i a : Nat}, (segOffsets 0 parts)[i]? = some a → i < (textOf parts).heap.length ∧ ((textOf parts).off i).offset = 0 ∧ ((textOf parts).off i).id = 0 := by
    intro i a hi
    have h1 := (unit_seg parts [] i a hi).1
    have e : (utf16 ([] : Str)).length = 0 := rfl
    rw [e, List.nil_append, h] at h1
    have h2 : (unitOffsets 0 parts)[i]? = some 0 := by rw [h1]; simp [utf16]
    have h3 : (textOf parts).heap[i]? = some ⟨0, 0, 0⟩ := by rw [textOf_heap, List.getElem?_map, h2]; rfl
    refine ⟨(List.getElem?_eq_some_iff.mp h3).1, ?_, ?_⟩ <;> simp [JText.off, h3]
  rintro o (rfl | rfl)
  · exact key hi
  · exact key hj

theorem layObjs_nodes (b : Nat) (ls : List RawLay) : (jLayObjs b ls).flatMap (fun e => e.2.nodes) = List.range' b (ls.flatMap (fun l => l.2.2)).length := by
  induction ls generalizing b with
  | nil => rfl
  | cons l ls ih =>
    simp only [jLayObjs, List.flatMap_cons, ih, List.length_append]
    rw [List.range'_append_1.symm]
    congr 1
    simp [JLay.nodes, List.filterMap_map, Function.comp_def]

theorem nodup_keys_list {ν : Type} {l : List (Str × ν)} (h : (dkeys l).Nodup) : l.Nodup := by
  unfold dkeys at h
  exact List.Pairwise.of_map _ (fun a b h e => h (by rw [e])) h

theorem tmap_perm {ν : Type} {l : List (Str × ν)} (h : (dkeys l).Nodup) : (tmap l).Perm l := by
  rw [List.perm_ext_iff_of_nodup (nodup_keys_list (inOrder_tmap h).nodup) (nodup_keys_list h)]
  exact fun e => mem_tmap h

theorem mem_layObjs {b : Nat} {ls : List RawLay} {e : Str × JLay} (h : e ∈ jLayObjs b ls) : ∃ l ∈ ls, e.1 = l.1 ∧ e.2.fields = tmap l.2.1 ∧ e.2.storage = e.2.nodes.map some ∧ e.2.size = e.2.nodes.length := by
  induction ls generalizing b with
  | nil => cases h
  | cons l ls ih =>
    rcases List.mem_cons.mp h with h | h
    · subst h
      refine ⟨l, by simp, rfl, rfl, ?_, ?_⟩ <;> simp [JLay.nodes, List.filterMap_map, Function.comp_def]
    · obtain ⟨l', h1, h2⟩ := ih h
      exact ⟨l', by simp [h1], h2⟩

/-- a document that is sound, as the decoder makes it -/
structure JRead (d : JDoc) : Prop where
  sound : Spec.JSound d
  propsOrder : InOrder d.props
  textOrder : InOrder d.texts
  layerOrder : InOrder d.layers
  full : ∀ k L, (k, L) ∈ d.layers → L.storage = L.nodes.map some
  checks : ∀ c t, (c, t) ∈ d.texts → t.validating = true

/-! ### all of it -/

theorem each_rel {α β γ : Type} [Inhabited β] {f : α → P β} {k : γ → α} {g : γ → Except PyErr Bytes} {l : List γ} {Q : γ → β → Prop} {bs : Bytes}
    (h : catL (l.map g) = .ok bs) (hp : ∀ a ∈ l, ∀ b, g a = .ok b → b.length ≤ bs.length → ∃ v, Reads (f (k a)) b v ∧ Q a v) :
    ∃ v : γ → β, Reads (P.each f (l.map k)) bs (l.map v) ∧ ∀ a ∈ l, Q a (v a) := by
  obtain ⟨v, hv⟩ := skolem (l := l) (P := fun a v => (∀ b, g a = .ok b → Reads (f (k a)) b v) ∧ Q a v) (by
    intro a ha
    obtain ⟨b, e, hl⟩ := catL_mem h (List.mem_map_of_mem ha)
    obtain ⟨v, h1, h2⟩ := hp a ha b e hl
    refine ⟨v, ?_, h2⟩
    intro b' hb'
    rw [e] at hb'
    cases hb'
    exact h1)
  exact ⟨v, Reads.each h (fun a ha b hb => (hv a ha).1 b hb), fun a ha => (hv a ha).2⟩

theorem j_read {x : Wire} {c : Content} (hx : WHas x c) (hg : Good c) (hr : Spec.JavaReadable c) {bs : Bytes} (hb : encodeBytes x = .ok bs) (hl : bs.length < 2 ^ 31) :
    ∃ d, (∀ rest, jDecode (bs ++ rest) = .ok d) ∧ (∃ raw, Reads jRead (bs.drop 4) raw) ∧ Spec.JHas d c ∧ (SegsOk x → JRead d) := by
  have hlay : ∀ e ∈ x.layers, ∃ lc, c.layers e.1 = some lc ∧ WLay x e.2 lc := by
    rintro ⟨k, l⟩ he
    have hd := dget_of_mem hx.ok.layers he
    have hb := hx.layers k
    rw [hd] at hb
    exact hb.of_some
  have hsize : ∀ s, c.size s < 2 ^ 31 := by
    intro s
    cases hc : c.layers s with
    | none => simp [Spec.Content.size, hc]
    | some l => rw [size_of hc]; exact hr.sizes s l hc
  have hcol : ∀ e ∈ x.layers, ∀ lc, c.layers e.1 = some lc → ∀ e' ∈ e.2.cols, ∃ ft, lc.fields e'.1 = some ft ∧ ColR x c lc e' ft := by
    intro e he lc hc e' he'
    obtain ⟨lc', hc', hw⟩ := hlay e he
    rw [hc] at hc'; cases hc'
    obtain ⟨ft, h1, h2⟩ := col_of hg hc hw e' he'
    have hty : TypeR c e'.2.1 ft := ⟨h2.type, h2.good, argD_nodup (hx.ok.args e he e' he'), fun a o ho => hr.args _ _ _ _ a o hc h1 ho⟩
    refine ⟨ft, h1, hty, ?_⟩
    obtain ⟨ess, q1, q2, q3⟩ := h2.cells
    refine ⟨ess, q1, q2, ?_⟩
    intro i es row hi hrow
    obtain ⟨w1, w2⟩ := q3 i es row hi hrow
    exact ⟨w1, fun y hy => ⟨w2 y hy, hr.cells _ _ row _ _ y hc (List.mem_of_getElem? hrow) h1 hy⟩⟩
  obtain ⟨p⟩ := parts_of hb
  have hle : bs.length = 4 + (p.propLen.length + p.prop.length + (p.types.length + (p.schema.length + (p.textLen.length + p.text.length + p.layers.length)))) := by
    have := congrArg List.length p.eq
    simp only [List.length_append] at this
    exact this
  have hprop := reads_props p.hProp p.hPropLen (by omega) (by
    rintro ⟨k, o⟩ he
    refine hr.props k o ?_
    rw [← hx.props]
    exact dget_of_mem (keysOk_map hx.ok.props) he)
  have hschema := reads_schema (c := c) p.hTypes p.hSchema (by omega) hx.ok.layers (by
    intro e he
    obtain ⟨lc, hc, hw⟩ := hlay e he
    refine ⟨fields_nodup hw.nodup, fun e' he' => ?_⟩
    obtain ⟨ft, -, h2⟩ := hcol e he lc hc e' he'
    exact ⟨ft, h2.type⟩)
  have htext := reads_texts p.hText p.hTextLen (by omega) hx.ok.texts
  have hsegs : ∀ s parts, dget x.texts s = some parts → parts.length < 2 ^ 31 - 1 := by
    intro s parts hs
    have ht := p.hText
    have ht' : packAt (510 + 2) (.map (x.texts.map (fun e => (e.1, .arr (e.2.map .str))))) = .ok p.text := ht
    rw [packAt_map] at ht'
    obtain ⟨u, v, h1, h2, h3⟩ := cat_ok ht'
    rw [List.map_map] at h2
    obtain ⟨b, e, hbl⟩ := catL_mem h2 (List.mem_map_of_mem (dget_mem hs))
    obtain ⟨b1, b2, g1, g2, rfl⟩ := cat_ok e
    have g2' : packAt (510 + 1) (.arr (parts.map .str)) = .ok b2 := g2
    rw [packAt_arr] at g2'
    obtain ⟨b3, b4, g3, g4, rfl⟩ := cat_ok g2'
    have := catL_length g4 (by
      intro a ha b hb
      obtain ⟨e, -, rfl⟩ := List.mem_map.mp ha
      exact packAt_pos hb)
    simp only [List.length_map] at this
    have h5 := congrArg List.length h3
    simp only [List.length_append] at h5 hbl
    omega
  obtain ⟨R, hR1, hR2⟩ := each_rel (f := jLayer x.texts) (k := fun e : Str × WireLayer => (e.1, jFieldsOf e.2))
    (Q := fun e (v : RawLay) => v.1 = e.1 ∧ v.2.1 = jFieldsOf e.2 ∧ ∀ lc, c.layers e.1 = some lc → v.2.2.length = lc.rows.length ∧
      RowsAre v.2.2 (fun i f v => (∃ e' ∈ e.2.cols, e'.1 = f ∧ ∃ row, lc.rows[i]? = some row ∧ JPre x.texts (jTypeOf e'.2.1) v (row f)) ∨
        (f ∉ e.2.cols.map (·.1) ∧ v = none))) p.hLayers (by
    rintro ⟨k, l⟩ he b hb hbl
    obtain ⟨lc, hc, hw⟩ := hlay _ he
    obtain ⟨body, len, g1, g2, rfl⟩ := sized_ok hb
    obtain ⟨b1, b2, g3, g4, rfl⟩ := cat_ok g1
    simp only [List.length_append] at hbl
    have hsz := hr.sizes k lc hc
    obtain ⟨rows', q1, q2, q3⟩ := cols_j hsize hsegs (lc := lc) l.cols (fields_nodup hw.nodup) (fun e' he' => by
      obtain ⟨ft, -, h⟩ := hcol _ he lc hc e' he'
      exact ⟨ft, h⟩) (rows := List.replicate lc.rows.length []) (by simp) (rows_replicate _) (fun _ _ _ _ h => h) g4 (by omega)
    refine ⟨(k, jFieldsOf l, rows'), ?_, rfl, rfl, ?_⟩
    · unfold jLayer
      simp only
      refine (reads_len g2 (by rw [List.length_append]; omega)).bind ?_
      rw [hw.num] at g3
      refine (reads_len g3 hsz).bind ?_
      refine Reads.bindL (a := lc.rows.length) ?_ (q1.bind0 (Reads.pure _))
      unfold jCount
      rw [if_neg (by omega)]
      simp
    · intro lc' hc'
      simp only at hc'
      rw [hc] at hc'
      cases hc'
      exact ⟨q2, q3⟩)
  have hread : Reads jRead (p.propLen ++ p.prop ++ (p.types ++ p.schema ++ (p.textLen ++ p.text ++ p.layers)))
      ⟨tmap (x.props.map (fun e => (e.1, jVal e.2))), x.texts, x.layers.map R⟩ := by
    unfold jRead
    exact hprop.bind (hschema.bind (htext.bind (hR1.bind0 (Reads.pure _))))
  have hkeys : (x.layers.map R).map (·.1) = dkeys x.layers := by
    rw [List.map_map]
    exact List.map_congr_left (fun e he => (hR2 e he).1)
  have hnd : ((x.layers.map R).map (·.1)).Nodup := by rw [hkeys]; exact hx.ok.layers
  have hidx : ∀ k lc, c.layers k = some lc → ∃ (j : Nat) (l : WireLayer), x.layers[j]? = some (k, l) ∧ WLay x l lc := by
    intro k lc hc
    have hb := hx.layers k
    rw [hc] at hb
    obtain ⟨l, h1, h2⟩ := hb.to_some
    obtain ⟨j, hj⟩ := List.getElem?_of_mem (dget_mem h1)
    exact ⟨j, l, hj, h2⟩
  have hpl : PlOk c (jPlaces 0 (x.layers.map R)) := by
    intro s lc hc
    obtain ⟨j, l, hj, hw⟩ := hidx s lc hc
    have hmem := List.mem_of_getElem? hj
    have hj' : (x.layers.map R)[j]? = some (R (s, l)) := by rw [List.getElem?_map, hj]; rfl
    have := (places_get hnd hj' 0).1
    rw [(hR2 _ hmem).1, ((hR2 _ hmem).2.2 lc hc).1] at this
    exact ⟨_, this⟩
  obtain ⟨S, hS1, hS2⟩ := mapE_ex (f := fun e : Str × WireLayer => jResolveLayer (jPlaces 0 (x.layers.map R)) (R e)) (l := x.layers)
    (P := fun e (v : RawLay) => v.1 = e.1 ∧ v.2.1 = jFieldsOf e.2 ∧ ∀ lc, c.layers e.1 = some lc → v.2.2.length = lc.rows.length ∧
      RowsAre v.2.2 (fun i f v => (∃ e' ∈ e.2.cols, e'.1 = f ∧ ∃ row, lc.rows[i]? = some row ∧ JRes (jPlaces 0 (x.layers.map R)) x.texts (jTypeOf e'.2.1) v (row f)) ∨
        (f ∉ e.2.cols.map (·.1) ∧ v = none))) (by
    rintro ⟨k, l⟩ he
    obtain ⟨lc, hc, hw⟩ := hlay _ he
    obtain ⟨r1, r2, r3⟩ := hR2 _ he
    obtain ⟨r4, r5⟩ := r3 lc hc
    simp only at r1 r2 r4 r5
    have hfn : (dkeys (jFieldsOf l)).Nodup := by
      simp only [jFieldsOf, dkeys, List.map_map, Function.comp_def]
      exact fields_nodup hw.nodup
    have hmem : ∀ e', e' ∈ tmap (jFieldsOf l) ↔ ∃ e'' ∈ l.cols, e' = (e''.1, jTypeOf e''.2.1) := by
      intro e'
      rw [mem_tmap hfn, jFieldsOf, List.mem_map]
      constructor
      · rintro ⟨a, h1, h2⟩; exact ⟨a, h1, h2.symm⟩
      · rintro ⟨a, h1, h2⟩; exact ⟨a, h1, h2.symm⟩
    obtain ⟨rows', q1, q2, q3⟩ := refs_j (texts := x.texts) hpl (lc := lc) (tmap (jFieldsOf l)) (rows := (R (k, l)).2.2) (inOrder_tmap hfn).nodup (by
      intro e' he'
      obtain ⟨e'', h1, rfl⟩ := (hmem e').mp he'
      obtain ⟨ft, -, h2⟩ := hcol _ he lc hc e'' h1
      refine ⟨e''.2.1, ft, rfl, h2.type, ?_⟩
      intro i row hrow
      obtain ⟨ess, w1, w2, w3⟩ := h2.cells
      obtain ⟨es, hes⟩ := getElem?_of_len w1.symm hrow
      exact fun y hy => ((w3 i es row hes hrow).2 y hy).1) r4 r5 (by
      intro e' he' i v hv
      obtain ⟨e'', h1, rfl⟩ := (hmem e').mp he'
      rcases hv with ⟨e3, h3, h4, row, h5, h6⟩ | ⟨h3, -⟩
      · have : e3 = e'' := by
          have hnd3 := fields_nodup hw.nodup
          have d1 : dget (l.cols.map (fun e => (e.1, e))) e3.1 = some e3 := dget_of_mem (by simpa [dkeys, Function.comp_def] using hnd3) (List.mem_map.mpr ⟨e3, h3, rfl⟩)
          have d2 : dget (l.cols.map (fun e => (e.1, e))) e''.1 = some e'' := dget_of_mem (by simpa [dkeys, Function.comp_def] using hnd3) (List.mem_map.mpr ⟨e'', h1, rfl⟩)
          simp only at h4
          rw [h4, d2] at d1
          exact (Option.some.inj d1).symm
        subst this
        exact ⟨row, h5, h6⟩
      · exact absurd (List.mem_map_of_mem h1) h3)
    refine ⟨(k, jFieldsOf l, rows'), ?_, rfl, rfl, ?_⟩
    · unfold jResolveLayer
      rw [r2, q1, r1]
    · intro lc' hc'
      simp only at hc'
      rw [hc] at hc'
      cases hc'
      refine ⟨q2, q3.imp ?_⟩
      rintro i f v hi (⟨e', he', rfl, row, h5, h6⟩ | ⟨h3, h4⟩)
      · obtain ⟨e'', h1, rfl⟩ := (hmem e').mp he'
        exact .inl ⟨e'', h1, rfl, row, h5, h6⟩
      · rcases h4 with ⟨e3, h5, rfl, -⟩ | h4
        · exact absurd (List.mem_map_of_mem ((hmem _).mpr ⟨e3, h5, rfl⟩)) h3
        · exact .inr h4)
  have hS0 : mapE (jResolveLayer (jPlaces 0 (x.layers.map R))) (x.layers.map R) = .ok (x.layers.map S) := by rw [mapE_map]; exact hS1
  have hdec : ∀ rest, jDecode (bs ++ rest) = .ok (jBuild (tmap (x.props.map (fun e => (e.1, jVal e.2)))) x.texts (x.layers.map S)) := by
    intro rest
    have e : bs ++ rest = magic ++ ((p.propLen ++ p.prop ++ (p.types ++ p.schema ++ (p.textLen ++ p.text ++ p.layers))) ++ rest) := by
      have := congrArg (· ++ rest) p.eq
      simp only [List.append_assoc] at this ⊢
      exact this
    unfold jDecode
    rw [e]
    have h4 : magic.length = 4 := rfl
    rw [← h4, if_neg (by rw [List.length_append]; omega), List.take_left', List.drop_left']
    · simp only [ne_eq, not_true_eq_false, if_false]
      rw [hread rest]
      simp only [hS0]
    · rfl
    · rfl
  have hraw : Reads jRead (bs.drop 4) ⟨tmap (x.props.map (fun e => (e.1, jVal e.2))), x.texts, x.layers.map R⟩ := by
    have e : bs.drop 4 = p.propLen ++ p.prop ++ (p.types ++ p.schema ++ (p.textLen ++ p.text ++ p.layers)) := by
      have := congrArg (List.drop 4) p.eq
      simp only [magic, List.cons_append, List.nil_append, List.drop_succ_cons, List.drop_zero, List.append_assoc] at this ⊢
      exact this
    rw [e]
    exact hread
  refine ⟨_, hdec, ⟨_, hraw⟩, ?_⟩
  have hSkeys : (x.layers.map S).map (·.1) = dkeys x.layers := by
    rw [List.map_map]
    exact List.map_congr_left (fun e he => (hS2 e he).1)
  have hSnd : ((x.layers.map S).map (·.1)).Nodup := by rw [hSkeys]; exact hx.ok.layers
  have hsame : ∀ b, jPlaces b (x.layers.map R) = jPlaces b (x.layers.map S) := by
    apply places_congr
    rw [List.map_map, List.map_map]
    apply List.map_congr_left
    intro e he
    obtain ⟨lc, hc, hw⟩ := hlay e he
    simp only [Function.comp_def]
    rw [(hR2 e he).1, (hS2 e he).1, ((hR2 e he).2.2 lc hc).1, ((hS2 e he).2.2 lc hc).1]
  have htk : (dkeys (x.texts.map (fun e => (e.1, textOf e.2)))).Nodup := by rw [dkeys_mapv]; exact hx.ok.texts
  have hlk : (dkeys (jLayObjs 0 (x.layers.map S))).Nodup := by rw [dkeys_layObjs]; exact hSnd
  generalize hd : jBuild (tmap (x.props.map (fun e => (e.1, jVal e.2)))) x.texts (x.layers.map S) = d
  have htexts : ∀ k, dget d.texts k = (dget x.texts k).map textOf := by
    intro k
    rw [← hd]
    simp only [jBuild]
    rw [dget_tmap htk, dget_map]
  have hlayers : ∀ k, dget d.layers k = dget (jLayObjs 0 (x.layers.map S)) k := by
    intro k
    rw [← hd]
    simp only [jBuild]
    rw [dget_tmap hlk]
  have hat : ∀ s i n, AtPl (jPlaces 0 (x.layers.map R)) s i n → Spec.JAt d s i n := by
    rintro s i n ⟨b, m, h1, h2, rfl⟩
    rw [hsame] at h1
    have hk : s ∈ (x.layers.map S).map (·.1) := by
      rw [← dkeys_places 0, ← dget_isSome_iff, h1]; rfl
    obtain ⟨l, hl1, rfl⟩ := List.mem_map.mp hk
    obtain ⟨j, hj⟩ := List.getElem?_of_mem hl1
    obtain ⟨g1, g2⟩ := places_get hSnd hj 0
    rw [h1] at g1
    simp only [Option.some.injEq, Prod.mk.injEq] at g1
    refine ⟨_, (hlayers _).trans g2, ?_⟩
    simp only [JLay.nodes, List.filterMap_map, Function.comp_def, id, List.filterMap_some]
    rw [List.getElem?_range' (by omega)]
    simp only [Option.some.injEq]
    omega
  have hcell : ∀ tw ft v y, TypeR c tw ft → JRes (jPlaces 0 (x.layers.map R)) x.texts (jTypeOf tw) v y → Spec.JCell d (jTypeOf tw) v y := by
    intro tw ft v y ht h
    cases h with
    | none => exact .unset
    | bool => exact .bool
    | int => exact .int
    | long => exact .long
    | double => exact .double
    | str => exact .str
    | ext h => exact .ext h
    | @span s parts i j a b h1 h2 h3 h4 =>
      refine .span (s := parts.flatten) h1 (by rw [htexts, h2]; rfl) (textOf_text parts) ?_ ?_
      · exact textOf_off h3
      · exact textOf_off h4
    | node h1 h2 => exact .node h1 (hat _ _ _ h2)
    | nodes h1 h2 h3 h4 => exact .nodes h1 h2 h3 (fun j n i hj hi => hat _ _ _ (h4 j n i hj hi))
    | nodespan h1 h2 h3 => exact .nodespan h1 (hat _ _ _ h2) (hat _ _ _ h3)
  refine ⟨⟨?_, ?_, ?_⟩, ?_⟩
  · intro k
    rw [← hd]
    simp only [jBuild]
    rw [dget_tmap (by rw [dkeys_mapv]; exact keysOk_map hx.ok.props), dget_map, ← hx.props]
    cases ho : dget x.props k with
    | none => exact .none
    | some o => exact .some (.plain (jVal_plain (hr.props k o (by rw [← hx.props, ho]))))
  · intro k
    rw [htexts, ← hx.texts k]
    cases dget x.texts k with
    | none => exact .none
    | some s => exact .some (textOf_text s)
  · intro k
    have hb := hx.layers k
    cases hc : c.layers k with
    | none =>
      have hn : dget x.layers k = none := (hb.none_iff).mpr hc
      have : dget d.layers k = none := by
        rw [hlayers, dget_none_iff, dkeys_layObjs, hSkeys, ← dget_none_iff]
        exact hn
      rw [this]
      exact .none
    | some lc =>
      obtain ⟨j, l, hj, hw⟩ := hidx k lc hc
      have hmem := List.mem_of_getElem? hj
      have hj' : (x.layers.map S)[j]? = some (S (k, l)) := by rw [List.getElem?_map, hj]; rfl
      obtain ⟨s1, s2, s3⟩ := hS2 _ hmem
      obtain ⟨s4, s5⟩ := s3 lc hc
      simp only at s1 s2 s4 s5
      have hL := (hlayers (S (k, l)).1).trans (places_get hSnd hj' 0).2
      rw [s1] at hL
      rw [hL]
      have hfn : (dkeys (jFieldsOf l)).Nodup := by
        simp only [jFieldsOf, dkeys, List.map_map, Function.comp_def]
        exact fields_nodup hw.nodup
      have hfld : ∀ f, dget (tmap (S (k, l)).2.1) f = (dget l.fields f).map jTypeOf := by
        intro f
        rw [s2, dget_tmap hfn]
        have : jFieldsOf l = l.fields.map (fun e => (e.1, jTypeOf e.2)) := by simp [jFieldsOf, WireLayer.fields]
        rw [this, dget_map]
      have hty : ∀ f t, dget l.fields f = some t → ∃ ft, lc.fields f = some ft ∧ TypeR c t ft := by
        intro f t hf
        obtain ⟨e', he', h⟩ := List.mem_map.mp (dget_mem hf)
        cases h
        obtain ⟨ft, h1, h2⟩ := hcol _ hmem lc hc e' he'
        exact ⟨ft, h1, h2.type⟩
      refine .some ⟨?_, ?_, ?_⟩
      · intro f
        simp only
        rw [hfld]
        have hbf := hw.fields f
        cases hf : dget l.fields f with
        | none =>
          rw [hf] at hbf
          have : lc.fields f = none := hbf.none_iff.mp rfl
          rw [this]
          exact .none
        | some t =>
          obtain ⟨ft, h1, h2⟩ := hty f t hf
          rw [h1]
          exact .some (jTypeOf_has h2.type h2.good h2.keys h2.args)
      · simp only [JLay.nodes, List.filterMap_map, Function.comp_def, id, List.filterMap_some, List.length_range']
        exact s4
      · intro i n row f hn hrow
        have hi : i < (S (k, l)).2.2.length := by rw [s4]; exact (List.getElem?_eq_some_iff.mp hrow).1
        simp only [JLay.nodes, List.filterMap_map, Function.comp_def, id, List.filterMap_some] at hn
        rw [List.getElem?_range' hi] at hn
        simp only [Option.some.injEq, Nat.zero_add, Nat.one_mul] at hn
        have hrec : (S (k, l)).2.2[i]? = some ((S (k, l)).2.2[i]) := List.getElem?_eq_getElem hi
        have hdat : d.data n = (S (k, l)).2.2[i] := by
          rw [← hd, ← hn]
          simp only [jBuild]
          rw [data_get hj' hi, hrec]
          rfl
        rw [hdat]
        simp only
        rw [hfld]
        rcases s5 i _ hrec f with ⟨e', he', rfl, row', h5, h6⟩ | ⟨h3, h4⟩
        · rw [hrow] at h5; cases h5
          have hf : dget l.fields e'.1 = some e'.2.1 := dget_of_mem hw.nodup (by unfold WireLayer.fields; exact List.mem_map.mpr ⟨_, he', rfl⟩)
          rw [hf]
          obtain ⟨ft, h1, h2⟩ := hty _ _ hf
          exact .declared (hcell _ _ _ _ h2 h6)
        · have hf : dget l.fields f = none := by
            rw [dget_none_iff]
            simpa [WireLayer.fields, dkeys, Function.comp_def] using h3
          rw [hf, h4]
          have hrn : row f = none := by
            cases hy : row f with
            | none => rfl
            | some y =>
              obtain ⟨ft, h1, -⟩ := hg.cells k lc row f y hc (List.mem_of_getElem? hrow) hy
              have := hw.fields f
              rw [hf, h1] at this
              cases this
          rw [hrn]
          exact .undeclared
  · intro hsegs'
    have hpo : InOrder d.props := by
      rw [← hd]
      exact inOrder_tmap (by rw [dkeys_mapv]; exact keysOk_map hx.ok.props)
    have hto : InOrder d.texts := by
      rw [← hd]
      exact inOrder_tmap htk
    have hlo : InOrder d.layers := by
      rw [← hd]
      exact inOrder_tmap hlk
    have htx : ∀ k t, (k, t) ∈ d.texts → ∃ parts, (k, parts) ∈ x.texts ∧ t = textOf parts := by
      intro k t hm
      have := dget_of_mem hto.nodup hm
      rw [htexts] at this
      cases hp : dget x.texts k with
      | none => rw [hp] at this; cases this
      | some parts =>
        rw [hp] at this
        cases this
        exact ⟨parts, dget_mem hp, rfl⟩
    have hly : ∀ k L, (k, L) ∈ d.layers → (k, L) ∈ jLayObjs 0 (x.layers.map S) := by
      intro k L hm
      rw [← hd] at hm
      exact (mem_tmap hlk).mp hm
    have hlx : ∀ k L, (k, L) ∈ d.layers → ∃ l, (k, l) ∈ x.layers ∧ L.fields = tmap (jFieldsOf l) ∧ L.storage = L.nodes.map some ∧ L.size = L.nodes.length := by
      intro k L hm
      obtain ⟨l, h1, h2, h3, h4, h5⟩ := mem_layObjs (hly k L hm)
      obtain ⟨⟨k', l'⟩, h6, rfl⟩ := List.mem_map.mp h1
      obtain ⟨s1, s2, -⟩ := hS2 _ h6
      simp only at h2 h3 h4 h5 s1 s2
      rw [s1] at h2
      rw [s2] at h3
      subst h2
      exact ⟨l', h6, h3, h4, h5⟩
    have hfn : ∀ k l, (k, l) ∈ x.layers → (dkeys (jFieldsOf l)).Nodup := by
      intro k l hm
      obtain ⟨lc, hc, hw⟩ := hlay _ hm
      simp only [jFieldsOf, dkeys, List.map_map, Function.comp_def]
      exact fields_nodup hw.nodup
    refine ⟨⟨hpo.nodup, hto.nodup, hlo.nodup, ?_, ?_, ?_, ?_, ?_, ?_⟩, hpo, hto, hlo, ?_, ?_⟩
    · intro k L hm
      obtain ⟨l, h1, h2, -⟩ := hlx k L hm
      rw [h2]
      exact (inOrder_tmap (hfn k l h1)).nodup
    · intro k L f t hm hf
      obtain ⟨l, h1, h2, -⟩ := hlx k L hm
      obtain ⟨lc, hc, hw⟩ := hlay _ h1
      rw [h2, mem_tmap (hfn k l h1)] at hf
      obtain ⟨e', he', h⟩ := List.mem_map.mp hf
      cases h
      obtain ⟨ft, -, h3⟩ := hcol _ h1 lc hc e' he'
      unfold jTypeOf
      refine (inOrder_tmap ?_).nodup
      rw [dkeys_mapv]
      exact h3.type.keys
    · intro k t hm
      obtain ⟨parts, -, rfl⟩ := htx k t hm
      exact textOf_inv parts
    · intro k L hm
      obtain ⟨l, -, -, -, h⟩ := hlx k L hm
      exact h
    · have hperm : d.layers.Perm (jLayObjs 0 (x.layers.map S)) := by rw [← hd]; exact tmap_perm hlk
      refine (hperm.flatMap_right _).nodup_iff.mpr ?_
      rw [layObjs_nodes]
      exact List.nodup_range'
    · intro k L n f t cx s hm hn hf _ hv
      obtain ⟨l, h1, h2, -⟩ := hlx k L hm
      obtain ⟨lc, hc, hw⟩ := hlay _ h1
      have hfm := hf
      rw [h2, mem_tmap (hfn k l h1)] at hf
      obtain ⟨e', he', h⟩ := List.mem_map.mp hf
      cases h
      obtain ⟨j, hj⟩ := List.getElem?_of_mem h1
      have hj' : (x.layers.map S)[j]? = some (S (k, l)) := by rw [List.getElem?_map, hj]; rfl
      obtain ⟨s1, s2, s3⟩ := hS2 _ h1
      obtain ⟨s4, s5⟩ := s3 lc hc
      simp only at s1 s2 s4 s5
      have hL := (hlayers (S (k, l)).1).trans (places_get hSnd hj' 0).2
      rw [s1, dget_of_mem hlo.nodup hm] at hL
      cases hL
      simp only [JLay.nodes, List.filterMap_map, Function.comp_def, id, List.filterMap_some] at hn
      obtain ⟨i, hi, hn'⟩ := List.getElem_of_mem hn
      rw [List.length_range'] at hi
      simp only [List.getElem_range', Nat.zero_add, Nat.one_mul] at hn'
      have hrec : (S (k, l)).2.2[i]? = some ((S (k, l)).2.2[i]) := List.getElem?_eq_getElem hi
      have hdat : d.data n = (S (k, l)).2.2[i] := by
        rw [← hd, ← hn']
        simp only [jBuild]
        rw [data_get hj' hi, hrec]
        rfl
      rw [hdat] at hv
      have hs5 := s5 i _ hrec e'.1
      rw [hv] at hs5
      rcases hs5 with ⟨e2, he2, heq, row, h5, h6⟩ | ⟨h3, h4⟩
      · have he : dget (l.cols.map (fun e => (e.1, e))) e2.1 = some e2 :=
          dget_of_mem (by simpa [dkeys, Function.comp_def] using fields_nodup hw.nodup) (List.mem_map.mpr ⟨e2, he2, rfl⟩)
        have he3 : dget (l.cols.map (fun e => (e.1, e))) e'.1 = some e' :=
          dget_of_mem (by simpa [dkeys, Function.comp_def] using fields_nodup hw.nodup) (List.mem_map.mpr ⟨e', he', rfl⟩)
        rw [heq, he3] at he
        cases he
        obtain ⟨ft, h7, h8⟩ := hcol _ h1 lc hc e' he'
        generalize hy : row e'.1 = y at h6
        cases h6 with
        | @span _ parts i' j' a b g1 g2 g3 g4 =>
          refine ⟨textOf parts, by rw [htexts, g2]; rfl, ?_⟩
          obtain ⟨ess, w1, w2, w3⟩ := h8.cells
          obtain ⟨es, hes⟩ := getElem?_of_len w1.symm h5
          have hgood := ((w3 i es row hes h5).2 _ hy).1
          cases hgood with
          | span q1 q2 q3 q4 =>
            have q5 := q2
            rw [← h8.type.type.2] at q5
            rw [jTypeOf_str h8.type.keys q5] at g1
            cases g1
            rcases hsegs' _ _ (dget_mem g2) with h0 | h0
            · exact .inl (textOf_live h0 g3 g4 q4)
            · exact textOf_null h0 g3 g4
      · cases h4
    · intro k L hm
      obtain ⟨l, -, -, h, -⟩ := hlx k L hm
      exact h
    · intro k t hm
      obtain ⟨parts, -, rfl⟩ := htx k t hm
      rfl

end Verif
