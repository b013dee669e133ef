import Verif.Proof.Rows
import Verif.Proof.JsonCodec
/-
For C87-C89: Python's decoder on data that has a content.
-/
set_option linter.unusedSimpArgs false
namespace Verif
open World
open Spec (Both Cell LayerC Content FieldType Good TypeGood CellGood IsRef)

theorem cols_py {nested : Bytes → Except PyErr Unit} {x : Wire} {c : Content} (hx : WHas x c) {lc : LayerC} : ∀ (cols : List (Str × TypeWire × List Obj))
    {rows : List (Dict Str Value)} {R : Nat → Str → Option Value → Prop}, (cols.map (·.1)).Nodup →
    (∀ e ∈ cols, ∃ ft, ColOk x c lc e ft ∧ ∀ row ∈ lc.rows, ExtOk nested ft (row e.1)) → rows.length = lc.rows.length → RowsAre rows R →
    (∀ e ∈ cols, ∀ i v, R i e.1 v → v = none) →
    ∃ rows', decodeCols nested (textTab x.texts) (cols.map (fun e => (e.1, pyType e.2.1, e.2.2))) rows = .ok rows' ∧ rows'.length = lc.rows.length ∧
      RowsAre rows' (fun i f v => (∃ e ∈ cols, e.1 = f ∧ ∃ row, lc.rows[i]? = some row ∧ PyPre (textTab x.texts) e.2.1 v (row f)) ∨
        (f ∉ cols.map (·.1) ∧ R i f v)) := by
  intro cols
  induction cols with
  | nil =>
    intro rows R _ _ hl hR _
    exact ⟨rows, rfl, hl, hR.imp (fun i f v _ h => .inr ⟨by simp, h⟩)⟩
  | cons e cols ih =>
    intro rows R hnd hc hl hR hn
    rw [List.map_cons, List.nodup_cons] at hnd
    obtain ⟨ft, hft, hex⟩ := hc e (by simp)
    obtain ⟨r1, h1, h2, h3⟩ := col_py hx hft hl hR (hn e (by simp)) hex
    obtain ⟨r2, g1, g2, g3⟩ := ih hnd.2 (fun e' he => hc e' (by simp [he])) (h2.trans hl) h3 (by
      intro e' he' i v hv
      have hne : e'.1 ≠ e.1 := fun h => hnd.1 (by rw [← h]; exact List.mem_map_of_mem he')
      rw [if_neg hne] at hv
      exact hn e' (by simp [he']) i v hv)
    refine ⟨r2, ?_, g2, ?_⟩
    · simp only [List.map_cons, decodeCols, h1]
      exact g1
    · refine g3.imp ?_
      rintro i f v - (⟨e', he', he, h⟩ | ⟨hf, h⟩)
      · exact .inl ⟨e', by simp [he'], he, h⟩
      · by_cases he : f = e.1
        · rw [if_pos he] at h
          subst he
          exact .inl ⟨e, by simp, rfl, h⟩
        · rw [if_neg he] at h
          exact .inr ⟨by simp only [List.map_cons, List.mem_cons, not_or]; exact ⟨he, hf⟩, h⟩

/-! ### references -/

/-- the node at a place, in the new heap -/
def AtAll (all : Dict Str (List NodeId)) (s : Str) (i n : Nat) : Prop := ∃ b m, dget all s = some (List.range' b m) ∧ i < m ∧ n = b + i

/-- what a field holds after references are resolved -/
inductive PyRes (all : Dict Str (List NodeId)) (tab : TextTab) (t : TypeWire) : Option Value → Option Cell → Prop
  | none : PyRes all tab t none none
  | bool {b} : t.name = "i1".toList → PyRes all tab t (some (.bool b)) (some (.bool b))
  | int {i} : PyRes all tab t (some (.int i)) (some (.int i))
  | float {x} : PyRes all tab t (some (.float x)) (some (.float x))
  | str {s} : PyRes all tab t (some (.str s)) (some (.str s))
  | bin {s} : PyRes all tab t (some (.bytes s)) (some (.bin s))
  | ext {b} : PyRes all tab t none (some (.ext b))
  | span {T c offs} {a b : Nat} : dget t.argD "context".toList = some (.str c) → dget tab c = some (T, offs) →
      PyRes all tab t (some (.span T a b)) (some (.span a b))
  | node {n s} {i : Nat} : dget t.argD "layer".toList = some (.str s) → AtAll all s i n → PyRes all tab t (some (.node n)) (some (.node i))
  | nodes {ns is s} : dget t.argD "layer".toList = some (.str s) → ns ≠ [] → ns.length = is.length →
      (∀ (j : Nat) (n i : Nat), ns[j]? = some n → is[j]? = some i → AtAll all s i n) → PyRes all tab t (some (.nodes ns)) (some (.nodes is))
  | nodespan {s l r} {i j : Nat} : dget t.argD "layer".toList = some (.str s) → AtAll all s i l → AtAll all s j r →
      PyRes all tab t (some (.nodespan l r)) (some (.nodespan i j))

theorem size_of {c : Content} {s : Str} {l : LayerC} (h : c.layers s = some l) : c.size s = l.rows.length := by
  unfold Spec.Content.size; rw [h]

theorem pre_plain {all : Dict Str (List NodeId)} {tab : TextTab} {c : Content} {t : TypeWire} {ft : FieldType} {v : Option Value} {y : Option Cell}
    (hw : WType t ft) (hp : PyPre tab t v y) (hc : CellIs c ft y) (hr : ¬ IsRef t.name) : PyRes all tab t v y := by
  cases hp with
  | none => exact .none
  | bool => cases hc _ rfl with | bool h => exact .bool (hw.1.trans h)
  | int => exact .int
  | float => exact .float
  | str => exact .str
  | bin => exact .bin
  | ext => exact .ext
  | span h1 h2 => exact .span h1 h2
  | node => cases hc _ rfl with | node h => exact absurd (Or.inl (hw.1.trans h)) hr
  | nodes => cases hc _ rfl with | nodes h => exact absurd (Or.inr (.inl (hw.1.trans h))) hr
  | nodespan => cases hc _ rfl with | nodespan h => exact absurd (Or.inr (.inr (hw.1.trans h))) hr

theorem ref_kind {t : TypeWire} {n : TName} (hn : n.wire = .ok t.name) : IsRef t.name ↔ (n = .noderef ∨ n = .noderefMany ∨ n = .nodespan) := by
  unfold IsRef
  constructor
  · rintro (h | h | h) <;> rw [h] at hn
    · exact .inl (wire_inj hn rfl)
    · exact .inr (.inl (wire_inj hn rfl))
    · exact .inr (.inr (wire_inj hn rfl))
  · rintro (h | h | h) <;> subst h
    · exact .inl (Except.ok.inj hn).symm
    · exact .inr (.inl (Except.ok.inj hn).symm)
    · exact .inr (.inr (Except.ok.inj hn).symm)

/-- the layers of the document have their nodes in `all` -/
def AllOk (c : Content) (all : Dict Str (List NodeId)) : Prop :=
  ∀ s l, c.layers s = some l → ∃ b, dget all s = some (List.range' b l.rows.length)

theorem mapE_nodes {b m : Nat} : ∀ {is : List Nat}, (∀ i ∈ is, i < m) →
    mapE (targetAt (List.range' b m)) (is.map (fun i : Nat => Obj.int i)) = .ok (is.map (fun i => b + i)) := by
  intro is h
  rw [mapE_map]
  apply mapE_ok
  intro i hi
  exact targetAt_ok (h i hi)

theorem pre_ref {all : Dict Str (List NodeId)} {tab : TextTab} {c : Content} {t : TypeWire} {ft : FieldType} {v : Option Value} {y : Option Cell}
    (hw : WType t ft) (hg : TypeGood c ft) (ha : AllOk c all) (hp : PyPre tab t v y) (hc : CellIs c ft y) (hr : IsRef t.name) :
    ∃ s b m, dget t.argD "layer".toList = some (.str s) ∧ dget all s = some (List.range' b m) ∧
      ((v = none ∧ PyRes all tab t none y) ∨ ∃ v0 v', v = some v0 ∧ resolveCell (List.range' b m) (pyType t).tname v0 = .ok v' ∧ PyRes all tab t (some v') y) := by
  obtain ⟨s, l, h1, h2⟩ := hg.layer (hw.1 ▸ hr)
  obtain ⟨b, hb⟩ := ha s l h2
  rw [← hw.2] at h1
  have hn := (pyType_ok hw hg).2.1
  refine ⟨s, b, _, h1, hb, ?_⟩
  cases hp with
  | none => exact .inl ⟨rfl, .none⟩
  | bool => cases hc _ rfl with | bool h => rw [hw.1, h] at hr; exact absurd hr (by unfold IsRef; decide)
  | int => cases hc _ rfl with | int h => rcases h with h | h <;> rw [hw.1, h] at hr <;> exact absurd hr (by unfold IsRef; decide)
  | float => cases hc _ rfl with | float h => rw [hw.1, h] at hr; exact absurd hr (by unfold IsRef; decide)
  | str => cases hc _ rfl with | str h => rw [hw.1, h] at hr; exact absurd hr (by unfold IsRef; decide)
  | bin => cases hc _ rfl with | bin h => rw [hw.1, h] at hr; exact absurd hr (by unfold IsRef; decide)
  | ext => exact .inl ⟨rfl, .ext⟩
  | span => cases hc _ rfl with | span h => rw [hw.1, h] at hr; exact absurd hr (by unfold IsRef; decide)
  | @node i =>
    cases hc _ rfl with
    | @node _ s' h h' hi =>
      rw [← hw.2, h1] at h'
      cases h'
      rw [size_of h2] at hi
      have : (pyType t).tname = .noderef := wire_inj (by rw [hn, hw.1, h]) rfl
      refine .inr ⟨_, .node (b + i), rfl, ?_, .node h1 ⟨b, _, hb, hi, rfl⟩⟩
      rw [this]
      simp only [resolveCell, targetAt_ok hi]
  | @nodes is =>
    cases hc _ rfl with
    | @nodes _ s' h h' hne hi =>
      rw [← hw.2, h1] at h'
      cases h'
      rw [size_of h2] at hi
      have : (pyType t).tname = .noderefMany := wire_inj (by rw [hn, hw.1, h]) rfl
      refine .inr ⟨_, .nodes (is.map (fun i => b + i)), rfl, ?_, .nodes h1 (by simpa using hne) (by simp) ?_⟩
      · rw [this]
        simp only [resolveCell, mapE_nodes hi]
      · intro j n i hj hi'
        rw [List.getElem?_map, hi'] at hj
        cases hj
        exact ⟨b, _, hb, hi i (List.mem_of_getElem? hi'), rfl⟩
  | @nodespan i j =>
    cases hc _ rfl with
    | @nodespan _ _ s' h h' hij hj =>
      rw [← hw.2, h1] at h'
      cases h'
      rw [size_of h2] at hj
      have : (pyType t).tname = .nodespan := wire_inj (by rw [hn, hw.1, h]) rfl
      refine .inr ⟨_, .nodespan (b + i) (b + j), rfl, ?_, .nodespan h1 ⟨b, _, hb, by omega, rfl⟩ ⟨b, _, hb, hj, rfl⟩⟩
      rw [this]
      have e : (i : Int) + ((j : Int) - i) = (j : Nat) := by omega
      simp only [resolveCell, e, targetAt_ok hj, targetAt_ok (show i < l.rows.length by omega)]
      rw [if_pos (by omega)]

theorem refs_py {x : Wire} {c : Content} {lc : LayerC} {all : Dict Str (List NodeId)} (ha : AllOk c all) : ∀ (cols : List (Str × TypeWire × List Obj))
    {rows : List (Dict Str Value)} {R : Nat → Str → Option Value → Prop}, (cols.map (·.1)).Nodup →
    (∀ e ∈ cols, ∃ ft, ColOk x c lc e ft) → rows.length = lc.rows.length → RowsAre rows R →
    (∀ e ∈ cols, ∀ i v, R i e.1 v → ∃ row, lc.rows[i]? = some row ∧ PyPre (textTab x.texts) e.2.1 v (row e.1)) →
    ∃ rows', resolveCols all (cols.map (fun e => (e.1, pyType e.2.1))) rows = .ok rows' ∧ rows'.length = lc.rows.length ∧
      RowsAre rows' (fun i f v => (∃ e ∈ cols, e.1 = f ∧ ∃ row, lc.rows[i]? = some row ∧ PyRes all (textTab x.texts) e.2.1 v (row f)) ∨
        (f ∉ cols.map (·.1) ∧ R i f v)) := by
  intro cols
  induction cols with
  | nil =>
    intro rows R _ _ hl hR _
    exact ⟨rows, rfl, hl, hR.imp (fun i f v _ h => .inr ⟨by simp, h⟩)⟩
  | cons e cols ih =>
    intro rows R hnd hc hl hR hn
    rw [List.map_cons, List.nodup_cons] at hnd
    obtain ⟨ft, hft⟩ := hc e (by simp)
    have hcell : ∀ (i : Nat) row, lc.rows[i]? = some row → CellIs c ft (row e.1) := by
      intro i row hrow
      obtain ⟨ess, q1, q2, q3⟩ := hft.cells
      obtain ⟨es, hes⟩ := getElem?_of_len q1.symm hrow
      exact (q3 i es row hes hrow).2
    have hone : ∃ r1, resolveCol all e.1 (pyType e.2.1) rows = .ok r1 ∧ r1.length = rows.length ∧
        RowsAre r1 (fun i f v => if f = e.1 then (∃ row, lc.rows[i]? = some row ∧ PyRes all (textTab x.texts) e.2.1 v (row e.1)) else R i f v) := by
      obtain ⟨-, hname, -⟩ := pyType_ok hft.type hft.good
      by_cases hr : IsRef e.2.1.name
      · have hk := (ref_kind hname).mp hr
        obtain ⟨s, l, h1, h2⟩ := hft.good.layer (hft.type.1 ▸ hr)
        obtain ⟨b, hb⟩ := ha s l h2
        rw [← hft.type.2] at h1
        have hcol : resolveCol all e.1 (pyType e.2.1) rows = mapE (fun d => match dget d e.1 with
          | none => .ok d
          | some v =>
            match resolveCell (List.range' b l.rows.length) (pyType e.2.1).tname v with
            | .ok v' => .ok (dset d e.1 v')
            | .error e => .error e) rows := by
          unfold resolveCol
          rcases hk with hk | hk | hk <;> simp only [hk, pyType_opt h1, hb] <;>
          · congr 1
        rw [hcol]
        refine mapE_rows (f := e.1) (Q := fun i v => ∃ row, lc.rows[i]? = some row ∧ PyRes all (textTab x.texts) e.2.1 v (row e.1)) hR ?_
        intro i r hi hri
        obtain ⟨row, hrow, hpre⟩ := hn e (by simp) i _ hri
        obtain ⟨s', b', m', g1, g2, g3⟩ := pre_ref hft.type hft.good ha hpre (hcell i row hrow) hr
        rw [h1] at g1; cases g1
        rw [hb] at g2; simp only [Option.some.injEq] at g2
        rw [← g2] at g3
        rcases g3 with ⟨g3, g4⟩ | ⟨v0, v', g3, g4, g5⟩
        · exact ⟨r, by simp only [g3], ⟨row, hrow, by rw [g3]; exact g4⟩, fun _ _ => rfl⟩
        · refine ⟨dset r e.1 v', by simp only [g3, g4], ⟨row, hrow, ?_⟩, ?_⟩
          · rw [dget_dset, if_pos rfl]; exact g5
          · intro f' hf'
            rw [dget_dset, if_neg (fun h => hf' h.symm)]
      · have hcol : resolveCol all e.1 (pyType e.2.1) rows = .ok rows := by
          have hk := fun h => hr ((ref_kind hname).mpr h)
          unfold resolveCol
          split
          · rename_i h; exact absurd (.inl h) hk
          · rename_i h; exact absurd (.inr (.inl h)) hk
          · rename_i h; exact absurd (.inr (.inr h)) hk
          · rfl
        refine ⟨rows, hcol, rfl, hR.imp ?_⟩
        intro i f v _ h
        by_cases hf : f = e.1
        · subst hf
          rw [if_pos rfl]
          obtain ⟨row, hrow, hpre⟩ := hn e (by simp) i _ h
          exact ⟨row, hrow, pre_plain hft.type hpre (hcell i row hrow) hr⟩
        · rw [if_neg hf]; exact h
    obtain ⟨r1, h1, h2, h3⟩ := hone
    obtain ⟨r2, g1, g2, g3⟩ := ih hnd.2 (fun e' he => hc e' (by simp [he])) (h2.trans hl) h3 (by
      intro e' he' i v hv
      have hne : e'.1 ≠ e.1 := fun h => hnd.1 (by rw [← h]; exact List.mem_map_of_mem he')
      rw [if_neg hne] at hv
      exact hn e' (by simp [he']) i v hv)
    refine ⟨r2, ?_, g2, ?_⟩
    · simp only [List.map_cons, resolveCols, h1]
      exact g1
    · refine g3.imp ?_
      rintro i f v - (⟨e', he', he, h⟩ | ⟨hf, h⟩)
      · exact .inl ⟨e', by simp [he'], he, h⟩
      · by_cases he : f = e.1
        · rw [if_pos he] at h
          subst he
          exact .inl ⟨e, by simp, rfl, h⟩
        · rw [if_neg he] at h
          exact .inr ⟨by simp only [List.map_cons, List.mem_cons, not_or]; exact ⟨he, hf⟩, h⟩

/-! ### the document -/

theorem keysOk_map {l : List (Str × Obj)} (h : (Obj.map l).KeysOk) : (dkeys l).Nodup := by
  simp only [Obj.KeysOk] at h
  exact h.1

theorem col_of {x : Wire} {c : Content} (hg : Good c) {k : Str} {l : WireLayer} {lc : LayerC}
    (hc : c.layers k = some lc) (hw : WLay x l lc) : ∀ e ∈ l.cols, ∃ ft, lc.fields e.1 = some ft ∧ ColOk x c lc e ft := by
  rintro ⟨f, t, data⟩ he
  have hm : dget l.fields f = some t := dget_of_mem hw.nodup (by
    unfold WireLayer.fields
    exact List.mem_map.mpr ⟨_, he, rfl⟩)
  have hb := hw.fields f
  rw [hm] at hb
  obtain ⟨ft, h1, h2⟩ := hb.of_some
  obtain ⟨ess, g1, g2, g3⟩ := hw.cells f t data he
  refine ⟨ft, h1, h2, hg.types k lc f ft hc h1, ess, g1, g2, ?_⟩
  intro i es row hi hr
  refine ⟨g3 i es row hi hr, ?_⟩
  intro y hy
  obtain ⟨ft', q1, q2⟩ := hg.cells k lc row f y hc (List.mem_of_getElem? hr) hy
  rw [h1] at q1
  cases q1
  exact q2

theorem fields_nodup {l : WireLayer} (h : (dkeys l.fields).Nodup) : (l.cols.map (·.1)).Nodup := by
  have : dkeys l.fields = l.cols.map (·.1) := by simp [WireLayer.fields, dkeys, Function.comp_def]
  rw [← this]; exact h

theorem rows_replicate {V : Type} (n : Nat) : RowsAre (List.replicate n ([] : Dict Str V)) (fun _ _ v => v = none) := by
  intro i r hr f
  rw [List.getElem?_replicate] at hr
  split at hr
  · cases hr; rfl
  · cases hr

/-- names of the fields with their types -/
def pyFields (l : WireLayer) : Dict Str DataType := l.cols.map (fun e => (e.1, pyType e.2.1))

theorem pyFields_get (l : WireLayer) (f : Str) : dget (pyFields l) f = (dget l.fields f).map pyType := by
  have : pyFields l = l.fields.map (fun e => (e.1, pyType e.2)) := by simp [pyFields, WireLayer.fields]
  rw [this, dget_map]

/-- a document as the decoder makes it: types that check nothing, and no None in fields -/
structure PyFresh (w : World) : Prop where
  types : ∀ k L f t, dget w.dl k = some L → (f, t) ∈ (w.layers L).fields → t.checked = false ∧ (dkeys t.options).Nodup ∧ ∀ e ∈ t.options, Spec.PlainVal e.2
  props : ∀ k v, (k, v) ∈ w.props → Spec.PlainVal v
  vals : ∀ k L n f, dget w.dl k = some L → some n ∈ w.iter L → dget (w.nodes n).fields f ≠ some .none ∧ dget (w.nodes n).fields f ≠ some (.nodes [])

theorem argD_nodup {t : TypeWire} (h : ∀ d, t.args = some d → (Obj.map d).KeysOk) : (dkeys t.argD).Nodup := by
  unfold TypeWire.argD
  cases ha : t.args with
  | none => simp [dkeys]
  | some d => exact keysOk_map (h d ha)

theorem plain_ofObj {o : Obj} (h : o.KeysOk) : Spec.PlainVal (Value.ofObj o) := by
  cases o <;> first | trivial | exact h

theorem lay_of {x : Wire} {c : Content} (hx : WHas x c) : ∀ e ∈ x.layers, ∃ lc, c.layers e.1 = some lc ∧ WLay x e.2 lc := by
  rintro ⟨k, l⟩ he
  have hd := dget_of_mem hx.ok.layers he
  have hb := hx.layers k
  rw [hd] at hb
  exact hb.of_some

theorem schema_py {x : Wire} {c : Content} (hx : WHas x c) (hg : Good c) :
    mapE decodeSchema x.layers = .ok (x.layers.map (fun e => (e.1, e.2.cols.map (fun e => (e.1, pyType e.2.1, e.2.2)), e.2.num))) := by
  apply mapE_ok
  rintro ⟨k, l⟩ he
  obtain ⟨lc, hc, hw⟩ := lay_of hx _ he
  unfold decodeSchema
  rw [mapE_ok (g := fun e : Str × TypeWire × List Obj => (e.1, pyType e.2.1, e.2.2))]
  · simp only
    rw [if_pos]
    simp only [List.map_map, Function.comp_def]
    exact fields_nodup hw.nodup
  · intro e' he'
    obtain ⟨ft, -, hft⟩ := col_of hg hc hw e' he'
    simp only [(pyType_ok hft.type hft.good).1]

theorem py_readN {nested : Bytes → Except PyErr Unit} {x : Wire} {c : Content} (hx : WHas x c) (hg : Good c)
    (hex : ∀ k lc f ft row, c.layers k = some lc → lc.fields f = some ft → row ∈ lc.rows → ExtOk nested ft (row f)) :
    ∃ w, fromWireN nested x = .ok w ∧ Spec.PyHas w c.strip ∧ PyFresh w := by
  have hlay := lay_of hx
  -- schema
  have h1 := schema_py hx hg
  -- layers
  obtain ⟨g1, h2, h3⟩ := mapE_ex (f := fun e : Str × WireLayer => decodeLayer nested (textTab x.texts) (e.1, e.2.cols.map (fun e => (e.1, pyType e.2.1, e.2.2)), e.2.num))
    (l := x.layers) (P := fun e d => d.name = e.1 ∧ d.fields = pyFields e.2 ∧ ∀ lc, c.layers e.1 = some lc → d.recs.length = lc.rows.length ∧
      RowsAre d.recs (fun i f v => (∃ e' ∈ e.2.cols, e'.1 = f ∧ ∃ row, lc.rows[i]? = some row ∧ PyPre (textTab x.texts) e'.2.1 v (row f)) ∨
        (f ∉ e.2.cols.map (·.1) ∧ v = none))) (by
    rintro ⟨k, l⟩ he
    obtain ⟨lc, hc, hw⟩ := hlay _ he
    have hcols := col_of hg hc hw
    obtain ⟨rows', q1, q2, q3⟩ := cols_py (nested := nested) hx (lc := lc) l.cols (fields_nodup hw.nodup)
      (fun e he => ⟨_, (hcols e he).choose_spec.2, fun row hrow => hex k lc e.1 _ row hc (hcols e he).choose_spec.1 hrow⟩)
      (rows := List.replicate l.num.toNat []) (by rw [List.length_replicate, hw.num]; simp) (rows_replicate _) (fun _ _ _ _ h => h)
    refine ⟨⟨k, pyFields l, rows'⟩, ?_, rfl, rfl, ?_⟩
    · simp only [decodeLayer, q1, List.map_map, Function.comp_def, pyFields]
    · intro lc' hc'
      simp only at hc'
      rw [hc] at hc'
      cases hc'
      exact ⟨q2, q3⟩)
  have hnames1 : (x.layers.map g1).map (·.name) = dkeys x.layers := by
    rw [List.map_map]
    exact List.map_congr_left (fun e he => (h3 e he).1)
  have hall : AllOk c (nodesOf 0 (x.layers.map g1)) := by
    intro s lc hs
    have hb := hx.layers s
    rw [hs] at hb
    obtain ⟨l, hl, -⟩ := hb.to_some
    obtain ⟨i, hi⟩ := List.getElem?_of_mem (dget_mem hl)
    have hp := h3 _ (dget_mem hl)
    have := dget_nodesOf (ls := x.layers.map g1) (by rw [hnames1]; exact hx.ok.layers) (k := i) (l := g1 (s, l)) (by simp [hi]) 0
    rw [hp.1, (hp.2.2 lc hs).1] at this
    exact ⟨_, this⟩
  -- references
  obtain ⟨g2, h4, h5⟩ := mapE_ex (f := fun e => resolveLayer (nodesOf 0 (x.layers.map g1)) (g1 e))
    (l := x.layers) (P := fun e d => d.name = e.1 ∧ d.fields = pyFields e.2 ∧ ∀ lc, c.layers e.1 = some lc → d.recs.length = lc.rows.length ∧
      RowsAre d.recs (fun i f v => (∃ e' ∈ e.2.cols, e'.1 = f ∧ ∃ row, lc.rows[i]? = some row ∧
        PyRes (nodesOf 0 (x.layers.map g1)) (textTab x.texts) e'.2.1 v (row f)) ∨ (f ∉ e.2.cols.map (·.1) ∧ v = none))) (by
    rintro ⟨k, l⟩ he
    obtain ⟨lc, hc, hw⟩ := hlay _ he
    have hcols := col_of hg hc hw
    obtain ⟨p1, p2, p3⟩ := h3 _ he
    obtain ⟨p3, p4⟩ := p3 lc hc
    obtain ⟨rows', q1, q2, q3⟩ := refs_py (x := x) (lc := lc) hall l.cols (fields_nodup hw.nodup) (fun e he => ⟨_, (hcols e he).choose_spec.2⟩)
      p3 p4 (by
        rintro e' he' i v (⟨e2, m1, m2, row, m3, m4⟩ | ⟨m1, -⟩)
        · have : e2 = e' := by
            have hn := fields_nodup hw.nodup
            have a1 : dget (l.cols.map (fun e => (e.1, e))) e2.1 = some e2 := dget_of_mem (by simpa [dkeys, Function.comp_def] using hn) (List.mem_map.mpr ⟨_, m1, rfl⟩)
            have a2 : dget (l.cols.map (fun e => (e.1, e))) e'.1 = some e' := dget_of_mem (by simpa [dkeys, Function.comp_def] using hn) (List.mem_map.mpr ⟨_, he', rfl⟩)
            rw [m2, a2] at a1
            exact (Option.some.inj a1).symm
          subst this
          exact ⟨row, m3, m4⟩
        · exact absurd (List.mem_map_of_mem he') m1)
    refine ⟨⟨k, pyFields l, rows'⟩, ?_, rfl, rfl, ?_⟩
    · have hf : (g1 (k, l)).fields = l.cols.map (fun e => (e.1, pyType e.2.1)) := p2
      unfold resolveLayer
      rw [hf, q1]
      simp only
      rw [show (g1 (k, l)).name = k from p1]
      rfl
    · intro lc' hc'
      simp only at hc'
      rw [hc] at hc'
      cases hc'
      refine ⟨q2, q3.imp ?_⟩
      rintro i f v - (h | ⟨hf, (⟨e2, m1, m2, -⟩ | h)⟩)
      · exact .inl h
      · exact absurd (by rw [← m2]; exact List.mem_map_of_mem m1) hf
      · exact .inr ⟨hf, h.2⟩)
  refine ⟨buildDoc (x.props.map (fun e => (e.1, Value.ofObj e.2))) x.texts (x.layers.map g2), ?_, ?_⟩
  · unfold fromWireN
    rw [if_neg (by simp [hx.ok.layers, hx.ok.texts, keysOk_map hx.ok.props]), h1]
    simp only
    rw [mapE_map, h2]
    simp only
    rw [mapE_map, h4]
  have hnames2 : (x.layers.map g2).map (·.name) = dkeys x.layers := by
    rw [List.map_map]
    exact List.map_congr_left (fun e he => (h5 e he).1)
  have hbase : ∀ k, baseOf (x.layers.map g1) k = baseOf (x.layers.map g2) k := by
    apply baseOf_congr
    rw [List.map_map, List.map_map]
    apply List.map_congr_left
    intro e he
    obtain ⟨lc, hc, -⟩ := hlay e he
    simp only [Function.comp_apply]
    rw [((h3 e he).2.2 lc hc).1, ((h5 e he).2.2 lc hc).1]
  generalize hW : buildDoc (x.props.map (fun e => (e.1, Value.ofObj e.2))) x.texts (x.layers.map g2) = w
  have hat : ∀ {s i n}, AtAll (nodesOf 0 (x.layers.map g1)) s i n → Spec.At w s i n := by
    rintro s i n ⟨b, m, q1, q2, rfl⟩
    rw [← hW, build_at (by rw [hnames2]; exact hx.ok.layers)]
    obtain ⟨k, hk⟩ := List.getElem?_of_mem (dget_mem q1)
    rw [nodesOf_get, List.getElem?_map] at hk
    cases he : x.layers[k]? with
    | none => rw [he] at hk; cases hk
    | some e =>
      rw [he] at hk
      simp only [Option.map_some, Option.some.injEq, Prod.mk.injEq] at hk
      have hm := List.mem_of_getElem? he
      obtain ⟨lc, hc, -⟩ := hlay e hm
      have l1 := ((h3 e hm).2.2 lc hc).1
      have l2 := ((h5 e hm).2.2 lc hc).1
      have hlen : (g1 e).recs.length = m := by
        have := congrArg List.length hk.2
        simpa using this
      have hb : 0 + baseOf (x.layers.map g1) k = b := by
        have := congrArg List.head? hk.2
        rw [List.head?_range', List.head?_range', if_neg (by omega), if_neg (by omega)] at this
        simpa using this
      refine ⟨k, g2 e, by simp [he], ?_, by omega, ?_⟩
      · rw [(h5 e hm).1, ← (h3 e hm).1]; exact hk.1
      · rw [← hbase]; omega
  have hdt : ∀ {s T offs}, dget (textTab x.texts) s = some (T, offs) → dget w.dt s = some T := by
    intro s T offs h
    have hs : ∃ segs, x.texts[T]? = some (s, segs) := by
      have := dget_mem h
      unfold textTab at this
      obtain ⟨⟨⟨s', segs⟩, T'⟩, m1, m2⟩ := List.mem_map.mp this
      simp only [Prod.mk.injEq] at m2
      rw [List.mem_zipIdx_iff_getElem?] at m1
      obtain ⟨rfl, rfl, -⟩ := m2
      exact ⟨segs, m1⟩
    obtain ⟨segs, hs⟩ := hs
    rw [← hW]
    exact (dget_zipIdx hx.ok.texts).mpr (key_idx hs)
  have hcell : ∀ {t : TypeWire} {ft : FieldType} {v y}, WType t ft → TypeGood c ft → PyRes (nodesOf 0 (x.layers.map g1)) (textTab x.texts) t v y →
      Spec.PyCell w (pyType t) v (Spec.unext y) := by
    intro t ft v y hw hgt h
    cases h with
    | none => exact .unset
    | ext => exact .unset
    | bool h => exact .bool (wire_inj (by rw [(pyType_ok hw hgt).2.1, h]) rfl)
    | int => exact .int
    | float => exact .float
    | str => exact .str
    | bin => exact .bytes
    | span q1 q2 => exact .span (pyType_opt q1) (hdt q2)
    | node q1 q2 => exact .node (pyType_opt q1) (hat q2)
    | nodes q1 q2 q3 q4 => exact .nodes (pyType_opt q1) q2 q3 (fun j n i a b => hat (q4 j n i a b))
    | nodespan q1 q2 q3 => exact .nodespan (pyType_opt q1) (hat q2) (hat q3)
  have hdl : ∀ k L, dget w.dl k = some L → ∃ l lc, x.layers[L]? = some (k, l) ∧ c.layers k = some lc ∧ WLay x l lc := by
    intro k L h
    rw [← hW] at h
    have h := (dget_zipIdx (by rw [hnames2]; exact hx.ok.layers)).mp h
    rw [hnames2] at h
    unfold dkeys at h
    rw [List.getElem?_map] at h
    cases he : x.layers[L]? with
    | none => rw [he] at h; cases h
    | some e =>
      rw [he] at h
      obtain ⟨k', l⟩ := e
      cases h
      obtain ⟨lc, h1, h2⟩ := hlay _ (List.mem_of_getElem? he)
      exact ⟨l, lc, rfl, h1, h2⟩
  refine ⟨⟨?_, ?_, ?_⟩, ?_, ?_, ?_⟩
  · intro k
    rw [← hW]
    simp only [buildDoc, dget_map]
    rw [show c.strip.props k = c.props k from rfl, ← hx.props k]
    cases dget x.props k with
    | none => exact .none
    | some o => exact .some (toObj_ofObj o)
  · intro k
    rw [show c.strip.texts k = c.texts k from rfl]
    have ht := hx.texts k
    cases hk : dget x.texts k with
    | none =>
      rw [hk] at ht
      rw [← ht]
      have : dget w.dt k = none := by
        rw [← hW, dget_none_iff]
        rw [dget_none_iff] at hk
        simpa [buildDoc, dkeys] using hk
      rw [this]
      exact .none
    | some segs =>
      rw [hk] at ht
      rw [← ht]
      obtain ⟨T, q1, q2⟩ := tab_get hx.ok hk
      rw [hdt q2]
      refine .some ?_
      rw [← hW]
      simp only [buildDoc, q1]
  · intro k
    have hb := hx.layers k
    cases hk : dget x.layers k with
    | none =>
      rw [hk] at hb
      have : dget w.dl k = none := by
        rw [← hW, dget_none_iff]
        rw [dget_none_iff] at hk
        have e : dkeys (buildDoc (x.props.map (fun e => (e.1, Value.ofObj e.2))) x.texts (x.layers.map g2)).dl = (x.layers.map g2).map (·.name) := by
          simp [buildDoc, dkeys]
        rw [e, hnames2]
        exact hk
      rw [this, show c.strip.layers k = (c.layers k).map Spec.LayerC.strip from rfl, hb.none_iff.mp rfl]
      exact .none
    | some l =>
      rw [hk] at hb
      obtain ⟨lc, hc, hw⟩ := hb.of_some
      obtain ⟨L, hL⟩ := List.getElem?_of_mem (dget_mem hk)
      have hm := dget_mem hk
      have hd : dget w.dl k = some L := by
        rw [← hW]
        refine (dget_zipIdx (by rw [hnames2]; exact hx.ok.layers)).mpr ?_
        rw [hnames2]
        exact key_idx hL
      rw [hd, show c.strip.layers k = (c.layers k).map Spec.LayerC.strip from rfl, hc]
      have hL2 : (x.layers.map g2)[L]? = some (g2 (k, l)) := by simp [hL]
      obtain ⟨p1, p2, p3⟩ := h5 _ hm
      obtain ⟨p3, p4⟩ := p3 lc hc
      have hly := build_layer (props := x.props.map (fun e => (e.1, Value.ofObj e.2))) (texts := x.texts) hL2
      rw [hW] at hly
      have hiter : w.iter L = (List.range' (baseOf (x.layers.map g2) L) (g2 (k, l)).recs.length).map some := by
        have hinv : Inv w := by rw [← hW]; exact build_inv
        rw [hinv.iter_eq, hly]
        simp only [live_map_some]
      refine .some ⟨?_, ?_, ?_⟩
      · intro f
        rw [hly]
        simp only
        rw [p2, pyFields_get]
        have hf := hw.fields f
        simp only [Spec.LayerC.strip]
        cases hlf : dget l.fields f with
        | none => rw [hlf] at hf; rw [hf.none_iff.mp rfl]; exact .none
        | some t =>
          rw [hlf] at hf
          obtain ⟨ft, e1, e2⟩ := hf.of_some
          rw [e1]
          exact .some (pyType_ok e2 (hg.types k lc f ft hc e1)).2.2
      · rw [hiter]; simp [p3, Spec.LayerC.strip]
      · intro i n row1 f hn hrow1
        simp only [Spec.LayerC.strip, List.getElem?_map] at hrow1
        obtain ⟨row, hrow, rfl⟩ := Option.map_eq_some_iff.mp hrow1
        rw [hiter, List.getElem?_map] at hn
        cases hr : (List.range' (baseOf (x.layers.map g2) L) (g2 (k, l)).recs.length)[i]? with
        | none => rw [hr] at hn; cases hn
        | some n' =>
          rw [hr] at hn
          cases hn
          obtain ⟨r1, rfl⟩ := range'_get.mp hr
          have hrec := List.getElem?_eq_getElem r1
          have hnode := build_node (props := x.props.map (fun e => (e.1, Value.ofObj e.2))) (texts := x.texts) hL2 hrec
          rw [hW] at hnode
          rw [hly, hnode]
          simp only
          rw [p2, pyFields_get]
          rcases p4 i _ hrec f with ⟨e', m1, m2, row', m3, m4⟩ | ⟨m1, m2⟩
          · rw [hrow] at m3
            cases m3
            have hm : dget l.fields f = some e'.2.1 := dget_of_mem hw.nodup (by
              unfold WireLayer.fields
              exact List.mem_map.mpr ⟨_, m1, by rw [m2]⟩)
            rw [hm]
            obtain ⟨ft, q1, q2⟩ := col_of hg hc hw e' m1
            exact .declared (hcell q2.type q2.good m4)
          · have hm : dget l.fields f = none := by
              rw [dget_none_iff]
              simpa [WireLayer.fields, dkeys, Function.comp_def] using m1
            rw [hm, m2]
            have hf := hw.fields f
            rw [hm] at hf
            have : row f = none := by
              cases hrf : row f with
              | none => rfl
              | some y =>
                obtain ⟨ft, q1, -⟩ := hg.cells k lc row f y hc (List.mem_of_getElem? hrow) hrf
                rw [hf.none_iff.mp rfl] at q1
                cases q1
            simp only [this]
            exact .undeclared
  · intro k L f t hL hf
    obtain ⟨l, lc, hl, hc, hw⟩ := hdl k L hL
    have hm := List.mem_of_getElem? hl
    have hL2 : (x.layers.map g2)[L]? = some (g2 (k, l)) := by simp [hl]
    have hly := build_layer (props := x.props.map (fun e => (e.1, Value.ofObj e.2))) (texts := x.texts) hL2
    rw [hW] at hly
    rw [hly] at hf
    simp only at hf
    rw [(h5 _ hm).2.1] at hf
    obtain ⟨e', he', h⟩ := List.mem_map.mp hf
    cases h
    have hk := hx.ok.args _ hm e' he'
    refine ⟨rfl, ?_, ?_⟩
    · simp only [pyType]
      rw [dkeys_mapv]
      exact argD_nodup hk
    · intro e he
      obtain ⟨e2, he2, rfl⟩ := List.mem_map.mp he
      refine plain_ofObj ?_
      unfold TypeWire.argD at he2
      cases ha : e'.2.1.args with
      | none => rw [ha] at he2; cases he2
      | some a =>
        rw [ha] at he2
        have := hk a ha
        simp only [Obj.KeysOk] at this
        exact keysM_iff.mp this.2 _ he2
  · intro k v hm
    rw [← hW] at hm
    obtain ⟨e, he, h⟩ := List.mem_map.mp hm
    cases h
    have := hx.ok.props
    simp only [Obj.KeysOk] at this
    exact plain_ofObj (keysM_iff.mp this.2 _ he)
  · intro k L n f hL hn
    obtain ⟨l, lc, hl, hc, hw⟩ := hdl k L hL
    have hm := List.mem_of_getElem? hl
    have hL2 : (x.layers.map g2)[L]? = some (g2 (k, l)) := by simp [hl]
    have hly := build_layer (props := x.props.map (fun e => (e.1, Value.ofObj e.2))) (texts := x.texts) hL2
    rw [hW] at hly
    have hiter : w.iter L = (List.range' (baseOf (x.layers.map g2) L) (g2 (k, l)).recs.length).map some := by
      have hinv : Inv w := by rw [← hW]; exact build_inv
      rw [hinv.iter_eq, hly]
      simp only [live_map_some]
    rw [hiter] at hn
    obtain ⟨n', hn', h⟩ := List.mem_map.mp hn
    cases h
    obtain ⟨i, hi⟩ := List.getElem?_of_mem hn'
    obtain ⟨r1, rfl⟩ := range'_get.mp hi
    have hrec := List.getElem?_eq_getElem r1
    have hnode := build_node (props := x.props.map (fun e => (e.1, Value.ofObj e.2))) (texts := x.texts) hL2 hrec
    rw [hW] at hnode
    rw [hnode]
    simp only
    rcases ((h5 _ hm).2.2 lc hc).2 i _ hrec f with ⟨e', m1, m2, row', m3, m4⟩ | ⟨m1, m2⟩
    · generalize row' f = y at m4
      generalize dget (g2 (k, l)).recs[i] f = v at m4
      cases m4 <;> simp
      assumption
    · rw [m2]; simp

theorem strip_eq {c : Content} (h : Spec.PythonReadable c) : c.strip = c := by
  have : ∀ k, c.strip.layers k = c.layers k := by
    intro k
    simp only [Spec.Content.strip]
    cases hk : c.layers k with
    | none => rfl
    | some l =>
      simp only [Option.map_some, Option.some.injEq]
      have hr : l.rows.map (fun row f => Spec.unext (row f)) = l.rows := by
        rw [List.map_congr_left (g := id), List.map_id]
        intro row hrow
        funext f
        have := h k l row f
        cases hf : row f with
        | none => simp [Spec.unext, hf]
        | some y =>
          cases y <;> simp only [id, hf, Spec.unext]
          exact absurd hf (this _ hk hrow)
      cases l
      simp only [Spec.LayerC.strip] at hr ⊢
      rw [hr]
  cases c
  simp only [Spec.Content.strip] at this ⊢
  rw [funext this]

theorem py_read {x : Wire} {c : Content} (hx : WHas x c) (hg : Good c) (hp : Spec.PythonReadable c) :
    ∃ w, fromWire x = .ok w ∧ Spec.PyHas w c ∧ PyFresh w := by
  have := py_readN (nested := noNest) hx hg (fun k lc f ft row h1 h2 h3 b hb => absurd hb (hp k lc row f b h1 h3))
  rw [strip_eq hp] at this
  exact this

end Verif
