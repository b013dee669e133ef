import Verif.Proof.JavaWrite
import Verif.Proof.JsonCodec
/-
For C87 and C89: the bytes that the Java encoder writes.
-/
set_option linter.unusedSimpArgs false
namespace Verif
open Spec (Both Cell LayerC Content FieldType Good TypeGood CellGood IsRef JHas JSound JCell JField JLayerHas JTypeHas JPlain JProp UnitAt)

/-! ### the compiled document -/

/-- a compacted document after `compile` -/
def fin (d : JDoc) : JDoc := { d with texts := d.texts.map (fun e => (e.1, ctext (docSpans d) e)) }

/-- the parts of its texts -/
def finParts (d : JDoc) : Dict Str (List JStr) := d.texts.map (fun e => (e.1, cparts (docSpans d) e))

theorem dget_mapk {α β : Type} (g : Str × α → β) (d : Dict Str α) (k : Str) : dget (d.map (fun e => (e.1, g e))) k = (dget d k).map (fun v => g (k, v)) := by
  induction d with
  | nil => rfl
  | cons e d ih =>
    obtain ⟨k', v⟩ := e
    simp only [List.map_cons, dget]
    by_cases h : k' = k
    · subst h; simp
    · simp only [if_neg h]; exact ih

theorem dkeys_mapk {α β : Type} (g : Str × α → β) (d : Dict Str α) : dkeys (d.map (fun e => (e.1, g e))) = dkeys d := by
  simp [dkeys, List.map_map, Function.comp_def]

theorem docSpans_fin (d : JDoc) : docSpans (fin d) = docSpans d := rfl

/-- the ids of nodes are their positions -/
def Placed (d : JDoc) : Prop := ∀ k L (i n : Nat), (k, L) ∈ d.layers → L.nodes[i]? = some n → d.ids n = i

theorem compile_ok {d : JDoc} {c : Content} (hs : JSound d) (h : JHas d c) (hg : Good c) : ∃ d1, JSound d1 ∧ JHas d1 c ∧ Placed d1 ∧ d.compile = (fin d1, .ok (finParts d1)) := by
  obtain ⟨ls, ids, h1, h2, -, h4⟩ := compactAll_ok d.layers d.ids (fun e he => hs.size e.1 e.2 he) hs.once
  have s1 := compacted_sound hs (ids' := ids) h2
  have c1 := compacted_has h (ids' := ids) h2
  refine ⟨{ d with layers := ls, ids := ids }, s1, c1, ?_, ?_⟩
  · intro k L i n hm hn
    obtain ⟨M, m1, m2, m3, m4⟩ := layKey_mem h2 hm
    rw [← m3] at hn
    exact h4 (k, M) m1 i n hn
  · unfold JDoc.compile
    rw [h1]
    simp only [allSpans_ok s1 c1 hg]
    rw [mapE_ok (g := fun e => (e.1, ctext (docSpans { d with layers := ls, ids := ids }) e, cparts (docSpans { d with layers := ls, ids := ids }) e))]
    · simp only [List.map_map, Function.comp_def]
      rfl
    · intro e he
      exact (text_done s1 c1 hg (k := e.1) (t := e.2) he).1

section
variable {d : JDoc} {c : Content}

theorem fin_text (hs : JSound d) (h : JHas d c) (hg : Good c) {k : Str} {t : JText} (ht : dget d.texts k = some t) :
    dget (fin d).texts k = some (ctext (docSpans d) (k, t)) ∧ dget (finParts d) k = some (cparts (docSpans d) (k, t)) ∧
    ∃ u, c.texts k = some u ∧ TextDone d k u t (ctext (docSpans d) (k, t)) (cparts (docSpans d) (k, t)) := by
  refine ⟨?_, ?_, (text_done hs h hg (dget_mem ht)).2⟩
  · simp only [fin]; rw [dget_mapk, ht]; rfl
  · simp only [finParts]; rw [dget_mapk, ht]; rfl

theorem fin_has (hs : JSound d) (h : JHas d c) (hg : Good c) : JHas (fin d) c := by
  have hc : ∀ {k L l}, (k, L) ∈ d.layers → c.layers k = some l → JLayerHas d L l → JLayerHas (fin d) L l := by
    intro k L l hm hl hL
    refine ⟨hL.fields, hL.size, ?_⟩
    intro i n row f hn hr
    have hcell := hL.cells i n row f hn hr
    have key : ∀ (t : JType) v x, dget L.fields f = some t → v = dget (d.data n) f → x = row f → JCell d t v x → JCell (fin d) t v x := by
      intro t v x ht hv hx hc
      refine hc.move (fun s i n h => h) ?_
      intro e u p he hu
      obtain ⟨e1, -, u', -, hd⟩ := fin_text hs h hg hu
      have ht' := dget_mem ht
      obtain ⟨ft, -, h2, -, h4⟩ := cell_of hs hg hm hl hL ht'
      obtain ⟨-, h6⟩ := h4 i n row hn hr
      subst he
      have hsp : t.name = .span := by
        cases hc with
        | span => cases h6 _ hx.symm with | span e => exact (span_name h2).mpr e
      have hds : (e, p) ∈ docSpans d := mem_docSpans.mpr ⟨k, L, n, f, t, hm, List.mem_of_getElem? hn, ht', hsp, hv.symm⟩
      exact ⟨_, e1, hd.text, hd.start p hds, hd.stop p hds⟩
    change JField (fin d) (dget L.fields f) (dget (d.data n) f) (row f)
    generalize hot : dget L.fields f = ot at hcell key
    generalize hov : dget (d.data n) f = ov at hcell key
    generalize hox : row f = ox at hcell key
    cases hcell with
    | undeclared => exact .undeclared
    | declared hc => exact .declared (key _ _ _ rfl rfl rfl hc)
  refine ⟨h.props, ?_, ?_⟩
  · intro k
    have := h.texts k
    cases ht : dget d.texts k with
    | none =>
      rw [ht] at this
      rw [this.none_iff.mp rfl]
      simp only [fin]
      rw [dget_mapk, ht]
      exact .none
    | some t =>
      rw [ht] at this
      obtain ⟨u, h1, h2⟩ := this.of_some
      obtain ⟨e1, -, u', h3, hd⟩ := fin_text hs h hg ht
      rw [e1, h1]
      exact .some (hd.text.trans h2)
  · intro k
    have := h.layers k
    change Both (JLayerHas (fin d)) (dget d.layers k) (c.layers k)
    cases hL : dget d.layers k with
    | none => rw [hL] at this; rw [this.none_iff.mp rfl]; exact .none
    | some L =>
      rw [hL] at this
      obtain ⟨l, h1, h2⟩ := this.of_some
      rw [h1]
      exact .some (hc (dget_mem hL) h1 h2)

theorem fin_sound (hs : JSound d) (h : JHas d c) (hg : Good c) : JSound (fin d) := by
  have hk : dkeys (fin d).texts = dkeys d.texts := by simp only [fin]; rw [dkeys_mapk]
  refine ⟨hs.props, by rw [hk]; exact hs.textKeys, hs.layerKeys, hs.fieldKeys, hs.argKeys, ?_, hs.size, hs.once, ?_⟩
  · intro k t hm
    have hd := dget_of_mem (by rw [hk]; exact hs.textKeys) hm
    cases ht : dget d.texts k with
    | none => simp only [fin] at hd; rw [dget_mapk, ht] at hd; cases hd
    | some t0 =>
      obtain ⟨e1, -, u, -, e2⟩ := fin_text hs h hg ht
      rw [hd] at e1
      cases e1
      exact e2.inv
  · intro k L n f t e s m1 m2 m3 m4 m5
    obtain ⟨u, hu, -⟩ := hs.spans k L n f t e s m1 m2 m3 m4 m5
    obtain ⟨e1, -, u', -, e2⟩ := fin_text hs h hg hu
    exact ⟨_, e1, e2.live s (mem_docSpans.mpr ⟨k, L, n, f, t, m1, m2, m3, m4, m5⟩)⟩

end

/-! ### the data -/

/-- a value without references -/
def objJ : JVal → Obj
  | .bool b => .bool b
  | .int i => .int i
  | .long i => .int i
  | .double x => .float x
  | .str s => .str s
  | .bin b => .bin b
  | .ext _ b => .bin b
  | _ => .nil

/-- a value of a field -/
def cellJ (d : JDoc) (t : JType) : JVal → List Obj
  | .null => if t.name = .span then [.nil, .nil] else [.nil]
  | .span c s =>
    match d.spanIds c s with
    | .ok (a, b) => [.int a, .int b]
    | .error _ => []
  | .node n => [.int (d.ids n)]
  | .nodes ns => [.arr (ns.map (fun n => .int (d.ids n)))]
  | .nodespan l r => [.arr [.int (d.ids l), .int (d.ids r - d.ids l)]]
  | v => [objJ v]

/-- a type -/
def typeJ (t : JType) : TypeWire := ⟨t.name.getName, if t.args = [] then none else some (t.args.map (fun a => (a.1, objJ a.2)))⟩

/-- a layer -/
def layJ (d : JDoc) (L : JLay) : WireLayer :=
  ⟨L.size, L.fields.map (fun e => (e.1, typeJ e.2, (L.nodes.map (fun n => cellJ d e.2 (d.getField n e.1))).flatten))⟩

/-- a document -/
def wireJ (d : JDoc) (parts : Dict Str (List JStr)) : Wire where
  props := d.props.map (fun e => (e.1, objJ e.2))
  texts := parts.map (fun e => (e.1, e.2.map ofUtf16))
  layers := d.layers.map (fun e => (e.1, layJ d e.2))

theorem objJ_plain {v : JVal} {o : Obj} (h : JPlain v o) : objJ v = o := by cases h <;> rfl

theorem objJ_prop {v : JVal} {o : Obj} (h : JProp v o) : objJ v = o := by
  cases h with
  | plain h => exact objJ_plain h
  | null => rfl

theorem objJ_keys (v : JVal) : (objJ v).KeysOk := by cases v <;> simp [objJ, Obj.KeysOk]

theorem argD_typeJ (t : JType) : (typeJ t).argD = t.args.map (fun a => (a.1, objJ a.2)) := by
  unfold TypeWire.argD typeJ
  simp only
  split
  · rename_i h; rw [h]; rfl
  · rfl

theorem wtype_typeJ {t : JType} {ft : FieldType} (h : JTypeHas t ft) : WType (typeJ t) ft := by
  refine ⟨h.1, ?_⟩
  intro a
  rw [argD_typeJ, dget_map]
  have := h.2 a
  cases ha : dget t.args a with
  | none => rw [ha] at this; rw [this.none_iff.mp rfl]; rfl
  | some v =>
    rw [ha] at this
    obtain ⟨o, h1, h2⟩ := this.of_some
    rw [h1, Option.map_some, objJ_plain h2]

/-! ### one cell -/

theorem cat_nil (a : Except PyErr Bytes) : cat a (.ok []) = a := by cases a <;> simp [cat]

theorem catL_pair (a b : Except PyErr Bytes) : catL [a, b] = cat a b := by rw [catL, catL, catL, cat_nil]

theorem catL_single (a : Except PyErr Bytes) : catL [a] = a := by rw [catL, catL, cat_nil]

/-- the bytes of a value in a column -/
def JDoc.colVal (d : JDoc) (t : JType) (v : JVal) : Except PyErr Bytes := if t.name = .span then d.writeSpan v else d.writeVal v

structure CellDone (d : JDoc) (x : Wire) (t : JType) (v : JVal) (r : Option Cell) : Prop where
  has : WCell x (typeJ t) (cellJ d t v) r
  bytes : d.colVal t v = catL ((cellJ d t v).map (packAt 511))
  len : (cellJ d t v).length = if t.name = .span then 2 else 1
  keys : ∀ o ∈ cellJ d t v, o.KeysOk

theorem keysOkL_ints (l : List Int) : Obj.KeysOkL (l.map .int) := by
  induction l with
  | nil => simp [Obj.KeysOkL]
  | cons a l ih => simp [Obj.KeysOkL, Obj.KeysOk, ih]

theorem jArrHead_nat (n : Nat) : jArrHead n = packArrHead n := by
  unfold jArrHead
  rw [if_neg (by omega)]
  simp

theorem getName_span {n : JTName} : n.getName = "span".toList ↔ n = .span := by cases n <;> decide

theorem map_ids {is ns : List Nat} {ids : Nat → Int} (hl : ns.length = is.length) (h : ∀ (j : Nat) (n i : Nat), ns[j]? = some n → is[j]? = some i → ids n = i) :
    ns.map (fun n => Obj.int (ids n)) = is.map (fun i : Nat => Obj.int i) := by
  apply List.ext_getElem?
  intro j
  rw [List.getElem?_map, List.getElem?_map]
  cases hn : ns[j]? with
  | none =>
    have : is[j]? = none := by rw [List.getElem?_eq_none_iff] at hn ⊢; omega
    rw [this]; rfl
  | some n =>
    have hj := (List.getElem?_eq_some_iff.mp hn).1
    have hi : is[j]? = some is[j] := List.getElem?_eq_getElem (by omega)
    rw [hi]
    simp only [Option.map_some, h j n _ hn hi]

theorem cell_scalar {d : JDoc} {x : Wire} {t : JType} {v : JVal} {r : Option Cell} {o : Obj} (hn : t.name ≠ .span) (hc : cellJ d t v = [o])
    (hw : WCell x (typeJ t) [o] r) (hb : d.writeVal v = packAt 511 o) (hk : o.KeysOk) : CellDone d x t v r := by
  refine ⟨by rw [hc]; exact hw, ?_, by rw [hc, if_neg hn]; rfl, by rw [hc]; simpa using hk⟩
  rw [hc, List.map_cons, List.map_nil, catL_single, JDoc.colVal, if_neg hn, hb]

section
variable {d : JDoc} {c : Content}

theorem placed_id (hp : Placed d) {s : Str} {i n : Nat} (h : Spec.JAt d s i n) : (fin d).ids n = i := by
  obtain ⟨L, h1, h2⟩ := h
  exact hp s L i n (dget_mem h1) h2

theorem cell_done (hs : JSound d) (h : JHas d c) (hg : Good c) (hp : Placed d) {k : Str} {L : JLay} (hm : (k, L) ∈ d.layers) {l : LayerC}
    (hl : c.layers k = some l) (hL : JLayerHas d L l) {f : Str} {t : JType} (hf : (f, t) ∈ L.fields) {i n : Nat} {row : Str → Option Cell}
    (hn : L.nodes[i]? = some n) (hr : l.rows[i]? = some row) : CellDone (fin d) (wireJ (fin d) (finParts d)) t ((fin d).getField n f) (row f) := by
  obtain ⟨ft, -, h2, h3, h4⟩ := cell_of hs hg hm hl hL hf
  obtain ⟨h5, h6⟩ := h4 i n row hn hr
  have hgf : (fin d).getField n f = (dget (d.data n) f).getD .null := rfl
  rw [hgf]
  have hds : ∀ e p, dget (d.data n) f = some (.span e p) → t.name = .span → (e, p) ∈ docSpans d :=
    fun e p h1 h2 => mem_docSpans.mpr ⟨k, L, n, f, t, hm, List.mem_of_getElem? hn, hf, h2, h1⟩
  have other : ∀ {s : Str}, ft.1 = s → s ≠ "span".toList → t.name ≠ .span := by
    intro s e1 e2 e3
    exact e2 (e1 ▸ (span_name h2).mp e3)
  have nul : t.name ≠ .span → CellDone (fin d) (wireJ (fin d) (finParts d)) t .null none := by
    intro hsp
    refine cell_scalar hsp (by simp only [cellJ]; rw [if_neg hsp]) (.null (fun e => hsp (getName_span.mp e))) (by simp [JDoc.writeVal, pack, packAt]) (by simp [Obj.KeysOk])
  generalize dget (d.data n) f = ov at h5 hds
  generalize row f = ox at h5 h6
  cases h5 with
  | unset =>
    rw [Option.getD_none]
    by_cases hsp : t.name = .span
    · refine ⟨?_, ?_, ?_, ?_⟩
      · simp only [cellJ]; rw [if_pos hsp]; exact .nullSpan (getName_span.mpr hsp)
      · simp only [cellJ, JDoc.colVal]; rw [if_pos hsp, if_pos hsp]
        simp only [JDoc.writeSpan, List.map_cons, List.map_nil, catL_pair]
        simp [pack, packAt]
      · simp only [cellJ]; rw [if_pos hsp, if_pos hsp]; rfl
      · simp only [cellJ]; rw [if_pos hsp]; simp [Obj.KeysOk]
    · exact nul hsp
  | null hsp => exact nul hsp
  | bool =>
    cases h6 _ rfl with
    | bool e => exact cell_scalar (other e (by decide)) rfl .bool (by simp only [JDoc.writeVal, objJ]; rename_i b; cases b <;> rfl) (by simp [Obj.KeysOk, objJ])
  | int =>
    cases h6 _ rfl with
    | int e =>
      have hsp : t.name ≠ .span := by rcases e with e | e <;> exact other e (by decide)
      exact cell_scalar hsp rfl .int (by simp [JDoc.writeVal, jPackInt, objJ, pack, packAt]) (by simp [Obj.KeysOk, objJ])
  | long =>
    cases h6 _ rfl with
    | int e =>
      have hsp : t.name ≠ .span := by rcases e with e | e <;> exact other e (by decide)
      exact cell_scalar hsp rfl .int (by simp [JDoc.writeVal, jPackInt, objJ, pack, packAt]) (by simp [Obj.KeysOk, objJ])
  | double =>
    cases h6 _ rfl with
    | float e => exact cell_scalar (other e (by decide)) rfl .float (by simp [JDoc.writeVal, objJ, pack, packAt]) (by simp [Obj.KeysOk, objJ])
  | str =>
    cases h6 _ rfl with
    | str e => exact cell_scalar (other e (by decide)) rfl .str (by simp [JDoc.writeVal, objJ, pack, packAt]) (by simp [Obj.KeysOk, objJ])
  | bin =>
    cases h6 _ rfl with
    | bin e => exact cell_scalar (other e (by decide)) rfl .bin (by simp [JDoc.writeVal, objJ, pack, packAt]) (by simp [Obj.KeysOk, objJ])
  | ext =>
    cases h6 _ rfl with
    | ext e => exact cell_scalar (other e (by decide)) rfl .ext (by simp [JDoc.writeVal, objJ, pack, packAt]) (by simp [Obj.KeysOk, objJ])
  | @span e u s p a b g1 g2 g3 g4 g5 =>
    have hsp : t.name = .span := by
      cases h6 _ rfl with
      | span e => exact (span_name h2).mpr e
    have hd := hds e p rfl hsp
    obtain ⟨e1, e2, u', e3, e4⟩ := fin_text hs h hg g2
    have hu : u' = s := by
      have := h.texts e
      rw [g2, e3] at this
      cases this with
      | some hx => exact utf16_inj (hx.symm.trans g3)
    subst hu
    obtain ⟨i', j', i1, j1, i2, j2⟩ := e4.ids p a b hd g4 g5
    have hid : (fin d).spanIds e p = .ok ((i' : Int), (j' : Int)) := by
      unfold JDoc.spanIds
      rw [e1]
      simp only [i1, j1]
    have hcj : cellJ (fin d) t (.span e p) = [.int i', .int j'] := by simp only [cellJ, hid]
    rw [Option.getD_some]
    refine ⟨?_, ?_, by rw [hcj, if_pos hsp]; rfl, by rw [hcj]; simp [Obj.KeysOk]⟩
    · rw [hcj]
      refine .span (c := e) (segs := (cparts (docSpans d) (e, u)).map ofUtf16) ?_ ?_ i2 j2
      · rw [argD_typeJ, dget_map, g1]; rfl
      · simp only [wireJ]
        rw [dget_map (fun l : List JStr => l.map ofUtf16), e2]
        rfl
    · rw [hcj, JDoc.colVal, if_pos hsp]
      simp only [JDoc.writeSpan, hid, jPackTwo, List.map_cons, List.map_nil, catL_pair, jPackInt]
      simp [pack, packAt]
  | @node n' s i' g1 g2 =>
    cases h6 _ rfl with
    | node e =>
      have hid := placed_id hp g2
      refine cell_scalar (other e (by decide)) rfl ?_ (by simp [JDoc.writeVal, jPackInt, objJ, pack, packAt]) (by simp [Obj.KeysOk, objJ])
      rw [hid]
      exact .node
  | @nodes ns is s g1 g2 g3 g4 =>
    cases h6 _ rfl with
    | nodes e =>
      have hids := map_ids g3 (ids := (fin d).ids) (fun j n i a b => placed_id hp (g4 j n i a b))
      refine cell_scalar (other e (by decide)) rfl ?_ ?_ ?_
      · rw [hids]; exact .nodes
      · rw [Option.getD_some, JDoc.writeVal, packAt_arr, jArrHead_nat, List.length_map, List.map_map]
        congr 2
      · have := keysOkL_ints (ns.map (fin d).ids)
        rw [List.map_map] at this
        simpa only [Obj.KeysOk, Function.comp_def] using this
  | @nodespan l r i' j' s g1 g2 g3 =>
    cases h6 _ rfl with
    | nodespan e =>
      have hid1 := placed_id hp g2
      have hid2 := placed_id hp g3
      refine cell_scalar (other e (by decide)) rfl ?_ ?_ (by simp [Obj.KeysOk, Obj.KeysOkL])
      · rw [hid1, hid2]; exact .nodespan
      · rw [Option.getD_some, JDoc.writeVal, packAt_arr, show (jArrHead 2) = packArrHead 2 from jArrHead_nat 2]
        simp only [List.map_cons, List.map_nil, catL_pair, jPackInt]
        simp [pack, packAt]

end

/-! ### all of it -/

theorem cat_assoc (a b e : Except PyErr Bytes) : cat (cat a b) e = cat a (cat b e) := by
  cases a with
  | error => rfl
  | ok a =>
    cases b with
    | error => rfl
    | ok b => cases e <;> simp [cat]

theorem pack_arr (l : List Obj) : pack (.arr l) = cat (packArrHead l.length) (catL (l.map (packAt 511))) := packAt_arr

theorem pack_map (l : List (Str × Obj)) : pack (.map l) = cat (packMapHead l.length) (catL (l.map (fun e => cat (pack (.str e.1)) (packAt 511 e.2)))) := packAt_map

theorem writeProp_obj {d : JDoc} {v : JVal} {o : Obj} (h : JProp v o) : d.writeProp v = packAt 511 (objJ v) := by
  cases h with
  | null => rfl
  | plain h =>
    cases h with
    | @bool b => cases b <;> rfl
    | _ => rfl

theorem jArgBytes_obj {v : JVal} {o : Obj} (h : JPlain v o) : jArgBytes v = packAt 511 (objJ v) := by
  cases h with
  | @bool b => cases b <;> rfl
  | _ => rfl

theorem prop_of {d : JDoc} {c : Content} (hs : JSound d) (h : JHas d c) {k : Str} {v : JVal} (hm : (k, v) ∈ d.props) : ∃ o, JProp v o := by
  have := h.props k
  rw [dget_of_mem hs.props hm] at this
  obtain ⟨o, -, h⟩ := this.of_some
  exact ⟨o, h⟩

theorem arg_of {d : JDoc} (hs : JSound d) {k : Str} {L : JLay} (hm : (k, L) ∈ d.layers) {f : Str} {t : JType} (hf : (f, t) ∈ L.fields) {ft : FieldType}
    (ht : JTypeHas t ft) {a : Str} {v : JVal} (ha : (a, v) ∈ t.args) : ∃ o, JPlain v o := by
  have := ht.2 a
  rw [dget_of_mem (hs.argKeys k L f t hm hf) ha] at this
  obtain ⟨o, -, h⟩ := this.of_some
  exact ⟨o, h⟩

section
variable {d : JDoc} {c : Content}

theorem props_bytes (hs : JSound d) (h : JHas d c) (parts : Dict Str (List JStr)) : d.propBytes = sized (pack (.map (wireJ d parts).props)) := by
  unfold JDoc.propBytes
  rw [pack_map]
  simp only [wireJ, List.length_map, List.map_map, Function.comp_def]
  congr 3
  apply List.map_congr_left
  rintro ⟨k, v⟩ hm
  obtain ⟨o, ho⟩ := prop_of hs h hm
  simp only [writeProp_obj ho]

theorem field_bytes (hs : JSound d) {k : Str} {L : JLay} (hm : (k, L) ∈ d.layers) {f : Str} {t : JType} (hf : (f, t) ∈ L.fields) {ft : FieldType}
    (ht : JTypeHas t ft) : jFieldBytes (f, t) = fieldBytes f (typeJ t) := by
  unfold jFieldBytes fieldBytes typeJ
  simp only
  by_cases ha : t.args = []
  · simp only [if_pos ha]
  · simp only [if_neg ha]
    rw [pack_map]
    simp only [List.length_map, List.map_map, Function.comp_def]
    congr 5
    apply List.map_congr_left
    rintro ⟨a, v⟩ hav
    obtain ⟨o, ho⟩ := arg_of hs hm hf ht hav
    simp only [jArgBytes_obj ho]

theorem texts_bytes (parts : Dict Str (List JStr)) : jTextBytes parts = sized (pack (textsObj (wireJ d parts).texts)) := by
  unfold jTextBytes textsObj
  rw [pack_map]
  simp only [wireJ, List.length_map, List.map_map, Function.comp_def]
  congr 3
  apply List.map_congr_left
  rintro ⟨k, l⟩ -
  simp only
  rw [packAt_arr]
  simp only [List.length_map, List.map_map, Function.comp_def]
  rfl

theorem flatten_const {α : Type} {m : Nat} : ∀ (l : List (List α)), (∀ a ∈ l, a.length = m) → l.flatten.length = l.length * m := by
  intro l
  induction l with
  | nil => intro _; simp
  | cons a l ih =>
    intro h
    rw [List.flatten_cons, List.length_append, h a (by simp), ih (fun b hb => h b (by simp [hb])), List.length_cons, Nat.add_mul]
    omega

theorem col_bytes (hs : JSound d) (h : JHas d c) (hg : Good c) (hp : Placed d) {k : Str} {L : JLay} (hm : (k, L) ∈ d.layers) {f : Str} {t : JType} (hf : (f, t) ∈ L.fields) :
    (fin d).colBytes L (f, t) = cat (pack (.bool false)) (pack (.arr (L.nodes.map (fun n => cellJ (fin d) t ((fin d).getField n f))).flatten)) := by
  obtain ⟨l, hl, hL⟩ := layer_of hs h hm
  have hcd : ∀ n ∈ L.nodes, ∃ r, CellDone (fin d) (wireJ (fin d) (finParts d)) t ((fin d).getField n f) r := by
    intro n hn
    obtain ⟨i, hi, hn⟩ := List.getElem_of_mem hn
    have hi' : i < l.rows.length := by rw [← hL.size]; exact hi
    exact ⟨_, cell_done hs h hg hp hm hl hL hf (by rw [List.getElem?_eq_getElem hi, hn]) (List.getElem?_eq_getElem hi')⟩
  have hlen : (L.nodes.map (fun n => cellJ (fin d) t ((fin d).getField n f))).flatten.length = L.nodes.length * (if t.name = .span then 2 else 1) := by
    rw [flatten_const (m := if t.name = .span then 2 else 1), List.length_map]
    intro a ha
    obtain ⟨n, hn, rfl⟩ := List.mem_map.mp ha
    obtain ⟨r, hr⟩ := hcd n hn
    exact hr.len
  have hb : ∀ n ∈ L.nodes, (fin d).colVal t ((fin d).getField n f) = catL ((cellJ (fin d) t ((fin d).getField n f)).map (packAt 511)) := by
    intro n hn
    obtain ⟨r, hr⟩ := hcd n hn
    exact hr.bytes
  unfold JDoc.colBytes
  simp only
  rw [pack_arr, hlen, catL_flatten, List.map_map, hs.size k L hm]
  congr 1
  have hmap : L.nodes.map ((fun es => catL (es.map (packAt 511))) ∘ fun n => cellJ (fin d) t ((fin d).getField n f)) = L.nodes.map (fun n => (fin d).colVal t ((fin d).getField n f)) := by
    apply List.map_congr_left
    intro n hn
    exact (hb n hn).symm
  rw [hmap]
  by_cases hsp : t.name = .span
  · simp only [if_pos hsp, JDoc.colVal]
    rw [show ((L.nodes.length : Int) * 2) = ((L.nodes.length * 2 : Nat) : Int) by omega, jArrHead_nat]
  · simp only [if_neg hsp, JDoc.colVal, Nat.mul_one]
    rw [jArrHead_nat]

theorem doc_bytes (hs : JSound d) (h : JHas d c) (hg : Good c) (hp : Placed d) :
    cat (.ok magic) (cat (fin d).propBytes (cat (fin d).schemaBytes (cat (jTextBytes (finParts d)) (catL ((fin d).layers.map (fun e => (fin d).layerBytes e.2)))))) =
      encodeBytes (wireJ (fin d) (finParts d)) := by
  unfold encodeBytes
  rw [props_bytes (fin_sound hs h hg) (fin_has hs h hg) (finParts d), texts_bytes (d := fin d)]
  unfold JDoc.schemaBytes
  rw [cat_assoc, cat_assoc]
  have e1 : pack (.arr ((dkeys (wireJ (fin d) (finParts d)).layers).map .str)) = cat (packArrHead (fin d).layers.length) (catL ((dkeys (fin d).layers).map (fun k => pack (.str k)))) := by
    rw [pack_arr]
    simp only [wireJ]
    rw [dkeys_mapv]
    simp only [List.length_map, List.map_map, Function.comp_def, dkeys]
    rfl
  rw [e1, cat_assoc]
  have e2 : (fin d).layers.map (fun e => jSchemaBytes e.2) = (wireJ (fin d) (finParts d)).layers.map (fun e => schemaBytes e.2) := by
    simp only [wireJ, List.map_map, Function.comp_def]
    apply List.map_congr_left
    rintro ⟨k, L⟩ hm
    obtain ⟨l, hl, hL⟩ := layer_of hs h hm
    unfold jSchemaBytes schemaBytes
    simp only [layJ, List.length_map, List.map_map, Function.comp_def, jPackInt]
    congr 2
    apply List.map_congr_left
    rintro ⟨f, t⟩ hf
    obtain ⟨ft, -, h2, -, -⟩ := cell_of hs hg hm hl hL hf
    exact field_bytes hs hm hf h2
  have e3 : (fin d).layers.map (fun e => (fin d).layerBytes e.2) = (wireJ (fin d) (finParts d)).layers.map (fun e => layerBytes e.2) := by
    simp only [wireJ, List.map_map, Function.comp_def]
    apply List.map_congr_left
    rintro ⟨k, L⟩ hm
    unfold JDoc.layerBytes layerBytes
    simp only [layJ, List.length_map, List.map_map, Function.comp_def, jPackInt]
    congr 3
    apply List.map_congr_left
    rintro ⟨f, t⟩ hf
    exact col_bytes hs h hg hp hm hf
  rw [e2, e3]

theorem objMap_keys {l : Dict Str JVal} (h : (dkeys l).Nodup) : (Obj.map (l.map (fun e => (e.1, objJ e.2)))).KeysOk := by
  simp only [Obj.KeysOk]
  refine ⟨?_, ?_⟩
  · rw [List.map_map]; exact h
  · rw [keysM_iff]
    intro e he
    obtain ⟨e', -, rfl⟩ := List.mem_map.mp he
    exact objJ_keys _

theorem wire_has (hs : JSound d) (h : JHas d c) (hg : Good c) (hp : Placed d) : WHas (wireJ (fin d) (finParts d)) c := by
  refine ⟨⟨objMap_keys hs.props, ?_, ?_, ?_, ?_⟩, ?_, ?_, ?_⟩
  · simp only [wireJ, finParts]; rw [dkeys_mapv, dkeys_mapk]; exact hs.textKeys
  · simp only [wireJ, fin]; rw [dkeys_mapv]; exact hs.layerKeys
  · intro l hl col hcol a ha
    obtain ⟨⟨k, L⟩, hm, rfl⟩ := List.mem_map.mp hl
    obtain ⟨⟨f, t⟩, hf, rfl⟩ := List.mem_map.mp hcol
    simp only [typeJ] at ha
    split at ha
    · cases ha
    · cases ha
      exact objMap_keys (hs.argKeys k L f t hm hf)
  · intro l hl col hcol
    obtain ⟨⟨k, L⟩, hm, rfl⟩ := List.mem_map.mp hl
    obtain ⟨⟨f, t⟩, hf, rfl⟩ := List.mem_map.mp hcol
    simp only [Obj.KeysOk]
    rw [keysL_iff]
    intro o ho
    obtain ⟨es, hes, ho⟩ := List.mem_flatten.mp ho
    obtain ⟨n, hn, rfl⟩ := List.mem_map.mp hes
    obtain ⟨l, hl', hL⟩ := layer_of hs h hm
    obtain ⟨i, hi, hn⟩ := List.getElem_of_mem hn
    have hi' : i < l.rows.length := by rw [← hL.size]; exact hi
    exact (cell_done hs h hg hp hm hl' hL hf (by rw [List.getElem?_eq_getElem hi, hn]) (List.getElem?_eq_getElem hi')).keys o ho
  · intro k
    simp only [wireJ]
    rw [dget_map]
    have := h.props k
    change Option.map objJ (dget d.props k) = c.props k
    cases hd : dget d.props k with
    | none => rw [hd] at this; rw [this.none_iff.mp rfl]; rfl
    | some v =>
      rw [hd] at this
      obtain ⟨o, h1, h2⟩ := this.of_some
      rw [h1, Option.map_some, objJ_prop h2]
  · intro k
    simp only [wireJ]
    rw [dget_map (fun l : List JStr => l.map ofUtf16)]
    cases ht : dget d.texts k with
    | none =>
      have := h.texts k
      rw [ht] at this
      rw [this.none_iff.mp rfl]
      simp only [finParts]
      rw [dget_mapk, ht]
      rfl
    | some t =>
      obtain ⟨-, e2, u, e3, e4⟩ := fin_text hs h hg ht
      rw [e2, e3]
      simp only [Option.map_some, e4.flat]
  · intro k
    simp only [wireJ]
    rw [dget_map]
    have := h.layers k
    change Both _ (Option.map (layJ (fin d)) (dget d.layers k)) _
    cases hL : dget d.layers k with
    | none => rw [hL] at this; rw [this.none_iff.mp rfl]; exact .none
    | some L =>
      rw [hL] at this
      obtain ⟨l, hl, hLl⟩ := this.of_some
      have hm := dget_mem hL
      rw [hl, Option.map_some]
      have hfl : (layJ (fin d) L).fields = L.fields.map (fun e => (e.1, typeJ e.2)) := by simp [WireLayer.fields, layJ, List.map_map, Function.comp_def]
      refine .some ⟨?_, ?_, ?_, ?_⟩
      · simp only [layJ]; rw [hs.size k L hm, hLl.size]
      · rw [hfl, dkeys_mapv]; exact hs.fieldKeys k L hm
      · intro f
        rw [hfl, dget_map]
        have := hLl.fields f
        cases hf : dget L.fields f with
        | none => rw [hf] at this; rw [this.none_iff.mp rfl]; exact .none
        | some t =>
          rw [hf] at this
          obtain ⟨ft, h1, h2⟩ := this.of_some
          rw [h1]
          exact .some (wtype_typeJ h2)
      · intro f t data hcol
        obtain ⟨⟨f', t'⟩, hf, e⟩ := List.mem_map.mp hcol
        cases e
        refine ⟨_, by rw [List.length_map]; exact hLl.size, rfl, ?_⟩
        intro i es row he hr
        rw [List.getElem?_map] at he
        cases hn : L.nodes[i]? with
        | none => rw [hn] at he; cases he
        | some n =>
          rw [hn] at he
          cases he
          exact (cell_done hs h hg hp hm hl hLl hf hn hr).has

end

theorem validate_ok {d : JDoc} {c : Content} (hs : JSound d) (h : JHas d c) (hg : Good c) : ∃ l, d.validateSchema = .ok l := by
  refine ⟨_, mapE_ok (g := fun e => e.2.fields.map (fun _ => ())) ?_⟩
  rintro ⟨k, L⟩ hm
  obtain ⟨l, hl, hL⟩ := layer_of hs h hm
  refine mapE_ok (g := fun _ => ()) ?_
  rintro ⟨f, t⟩ hf
  obtain ⟨ft, -, h2, h3, -⟩ := cell_of hs hg hm hl hL hf
  unfold JDoc.validateField
  simp only
  split
  · rename_i hsp
    obtain ⟨s, u, e1, e2⟩ := context_arg h2 h3 hsp
    have := h.texts s
    rw [e2] at this
    obtain ⟨t', e3, -⟩ := this.to_some
    simp only [e1, e3]
    rfl
  · split
    · rename_i hr
      obtain ⟨s, l', e1, e2⟩ := h3.layer (by
        rw [← h2.1]
        rcases hr with hr | hr <;> rw [hr] <;> unfold IsRef <;> decide)
      have ha := h2.2 "layer".toList
      rw [e1] at ha
      obtain ⟨v, a1, a2⟩ := ha.to_some
      cases a2
      have := h.layers s
      rw [e2] at this
      obtain ⟨L', e3, -⟩ := this.to_some
      simp only [JType.arg, a1, e3]
      rfl
    · rfl

/-- the Java encoder -/
theorem j_write {d : JDoc} {c : Content} (hs : JSound d) (h : JHas d c) (hg : Good c) :
    ∃ d' x, d.encode = (d', encodeBytes x) ∧ WHas x c ∧ JHas d' c ∧ JSound d' ∧ Placed d' ∧ SegsOk x := by
  obtain ⟨l, hv⟩ := validate_ok hs h hg
  obtain ⟨d1, s1, c1, p1, h1⟩ := compile_ok hs h hg
  refine ⟨fin d1, wireJ (fin d1) (finParts d1), ?_, wire_has s1 c1 hg p1, fin_has s1 c1 hg, fin_sound s1 c1 hg, p1, ?_⟩
  · unfold JDoc.encode
    rw [hv]
    simp only [h1]
    rw [doc_bytes s1 c1 hg p1]
  · intro k parts hm
    simp only [wireJ, finParts, List.mem_map] at hm
    obtain ⟨⟨k', ps⟩, ⟨⟨k2, t⟩, h2, h3⟩, h4⟩ := hm
    simp only [Prod.mk.injEq] at h3 h4
    obtain ⟨rfl, rfl⟩ := h3
    obtain ⟨rfl, rfl⟩ := h4
    obtain ⟨-, u, hu, hd⟩ := text_done s1 c1 hg h2
    by_cases he : u = []
    · exact .inr (hd.flat.trans he)
    · exact .inl (hd.full he)

end Verif
