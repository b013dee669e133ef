import Verif.Proof.RoundTrip
/-
The whole document: encoding, decoding, and comparing the result.
-/
set_option linter.unusedSimpArgs false
namespace Verif
open World

theorem dupdate_append {κ ν} [DecidableEq κ] (l : Dict κ ν) : ∀ acc : Dict κ ν, (dkeys (acc ++ l)).Nodup → dupdate acc l = acc ++ l := by
  induction l with
  | nil => intro acc _; simp [dupdate]
  | cons e l ih =>
    intro acc h
    have h1 : e.1 ∉ dkeys acc := by
      intro hm
      simp only [dkeys, List.map_append, List.map_cons] at h hm
      rw [List.nodup_append] at h
      exact h.2.2 _ hm _ (by simp) rfl
    have : dupdate acc (e :: l) = dupdate (dset acc e.1 e.2) l := rfl
    rw [this, dset_absent _ h1, ih _ (by simpa [dkeys] using h)]
    simp

theorem baseOf_congr {ls : List DLayer} : ∀ {ls' : List DLayer}, ls.map (fun l => l.recs.length) = ls'.map (fun l => l.recs.length) →
    ∀ k, baseOf ls k = baseOf ls' k := by
  induction ls with
  | nil => intro ls' h k; cases ls' with
    | nil => rfl
    | cons _ _ => simp at h
  | cons l ls ih =>
    intro ls' h k
    cases ls' with
    | nil => simp at h
    | cons l' ls' =>
      simp only [List.map_cons, List.cons.injEq] at h
      cases k with
      | zero => rfl
      | succ k => simp only [baseOf, h.1, ih h.2 k]

/-- position of a key -/
def keyIdx {κ} [DecidableEq κ] (l : List κ) (x : κ) : Nat := l.idxOf x

/-! the decoded layers -/

/-- layers before references are resolved -/
def preLayers (w : World) (tp : TextId → TextId) : List DLayer :=
  w.dl.map (fun e => ⟨e.1, bareFields (w.layers e.2).fields,
    (live (w.layers e.2).slots).map (preRec w tp (w.layers e.2).fields)⟩)

/-- layers after references are resolved -/
def finLayers (w : World) (pl : NodeId → NodeId) (tp : TextId → TextId) : List DLayer :=
  w.dl.map (fun e => ⟨e.1, bareFields (w.layers e.2).fields,
    (live (w.layers e.2).slots).map (finRec w pl tp (w.layers e.2).fields)⟩)

/-- texts on the wire -/
def segsOf (w : World) (offs : Dict Str (List Int)) : Dict Str (List Str) :=
  w.dt.map (fun e => (e.1, (w.texts e.2).compile ((dget offs e.1).getD [])))

/-- place of a text among the document's texts -/
def textPlace (w : World) (T : TextId) : TextId := keyIdx (dkeys w.dt) (w.texts T).name

/-- place of a node in the decoded heap -/
def nodePlace (w : World) (n : NodeId) : NodeId :=
  match (w.nodes n).coll with
  | none => 0
  | some L => baseOf (preLayers w (textPlace w)) (keyIdx (dkeys w.dl) (w.layers L).name) + (w.nodes n).id.toNat

theorem nodup_idxOf {κ} [DecidableEq κ] {l : List κ} (hn : l.Nodup) {k : Nat} {x : κ} (h : l[k]? = some x) : keyIdx l x = k := by
  obtain ⟨hk, rfl⟩ := List.getElem?_eq_some_iff.mp h
  exact hn.idxOf_getElem k hk

theorem dict_idx {κ ν} [DecidableEq κ] {d : Dict κ ν} {k : κ} {v : ν} (hn : (dkeys d).Nodup) (h : dget d k = some v) :
    d[keyIdx (dkeys d) k]? = some (k, v) := by
  obtain ⟨i, hi⟩ := List.getElem?_of_mem (dget_mem h)
  have : (dkeys d)[i]? = some k := by simp [dkeys, hi]
  rw [nodup_idxOf hn this]; exact hi

theorem key_idx {κ ν} {d : Dict κ ν} {i : Nat} {k : κ} {v : ν} (h : d[i]? = some (k, v)) :
    (dkeys d)[i]? = some k := by simp only [dkeys, List.getElem?_map, h, Option.map_some]

section
variable {w : World} {offs : Dict Str (List Int)}

theorem encodeTexts_ok (h : Ready w offs) : w.encodeTexts offs = .ok (segsOf w offs) := by
  unfold encodeTexts
  rw [mapE_ok (g := fun e => (e.1, (w.texts e.2).compile ((dget offs e.1).getD [])))]
  · simp only
    rw [dupdate_append]
    · rfl
    · have := h.wf.dtKeys
      simpa [dkeys, Function.comp_def] using this
  · intro e he
    have hT := dget_of_mem h.wf.dtKeys (v := e.2) (k := e.1) he
    obtain ⟨l, hl, -⟩ := h.tab _ _ hT
    simp only [(h.wf.dtName _ _ hT).1, hl, Option.getD_some]

theorem dkeys_segsOf : dkeys (segsOf w offs) = dkeys w.dt := by simp [segsOf, dkeys]

theorem tab_ok (h : Ready w offs) : TabOk w offs (textTab (segsOf w offs)) (textPlace w) := by
  intro c T l hT hl
  obtain ⟨l', hl', h1, h2, h3, -⟩ := h.tab c T hT
  rw [hl] at hl'; cases hl'
  refine ⟨segOffsets 0 ((w.texts T).compile l), ?_, (text_round _ h1 h2 h3).2⟩
  apply dget_of_mem
  · have : dkeys (textTab (segsOf w offs)) = dkeys w.dt := by
      have e : dkeys (textTab (segsOf w offs)) = ((segsOf w offs).zipIdx.map (·.1)).map (·.1) := by
        simp only [textTab, dkeys, List.map_map, Function.comp_def]
      rw [e, List.zipIdx_map_fst]; exact dkeys_segsOf
    rw [this]; exact h.wf.dtKeys
  · have hi := dict_idx h.wf.dtKeys hT
    unfold textTab
    rw [List.mem_map]
    refine ⟨((c, (w.texts T).compile l), textPlace w T), ?_, rfl⟩
    rw [List.mem_zipIdx_iff_getElem?]
    simp only [segsOf, List.getElem?_map, textPlace, (h.wf.dtName c T hT).1, hi, Option.map_some, hl, Option.getD_some]

theorem preLayers_names (tp) : (preLayers w tp).map (·.name) = dkeys w.dl := by
  simp [preLayers, dkeys, Function.comp_def]
theorem finLayers_names (pl tp) : (finLayers w pl tp).map (·.name) = dkeys w.dl := by
  simp [finLayers, dkeys, Function.comp_def]
theorem base_fin (pl tp k) : baseOf (finLayers w pl tp) k = baseOf (preLayers w tp) k := by
  apply baseOf_congr; simp [preLayers, finLayers, Function.comp_def]

theorem dl_get (h : WF w) {s L} (hL : dget w.dl s = some L) : w.dl[keyIdx (dkeys w.dl) s]? = some (s, L) := dict_idx h.dlKeys hL

theorem place_ok (h : Ready w offs) : PlaceOk w (nodesOf 0 (preLayers w (textPlace w))) (nodePlace w) := by
  have key : ∀ s L, dget w.dl s = some L → dget (nodesOf 0 (preLayers w (textPlace w))) s =
      some (List.range' (baseOf (preLayers w (textPlace w)) (keyIdx (dkeys w.dl) s)) (live (w.layers L).slots).length) := by
    intro s L hL
    have hi := dl_get h.wf hL
    have := dget_nodesOf (ls := preLayers w (textPlace w)) (by rw [preLayers_names]; exact h.wf.dlKeys)
      (k := keyIdx (dkeys w.dl) s) (by simp only [preLayers, List.getElem?_map, hi, Option.map_some]; rfl) 0
    simpa using this
  constructor
  · intro s hs
    obtain ⟨L, hL⟩ := Option.isSome_iff_exists.mp ((dget_isSome_iff _ _).mpr hs)
    exact ⟨_, _, key s L hL⟩
  · intro s i n b m ha hb
    obtain ⟨L, hL, hn⟩ := (At.iff h.inv).mp ha
    rw [key s L hL] at hb
    have hb := List.range'_inj.mp (Option.some.inj hb)
    obtain ⟨hi, -⟩ := List.getElem?_eq_some_iff.mp hn
    have hm : n ∈ live (w.layers L).slots := List.mem_of_getElem? hn
    have hc := (h.inv.mem_iff L n).mp hm
    refine ⟨by omega, ?_⟩
    simp only [nodePlace, hc, (h.wf.dlName s L hL).1, (h.id ha).1]
    rcases hb with ⟨e1, e2⟩
    rcases e2 with e2 | e2
    · omega
    · rw [e2]; rfl

instance : Inhabited DLayer := ⟨⟨[], [], []⟩⟩

/-- what decoding yields -/
def decoded (w : World) (offs : Dict Str (List Int)) : World :=
  buildDoc w.props (segsOf w offs) (finLayers w (nodePlace w) (textPlace w))

/-- Encoding and decoding, computed. -/
theorem wire_round (h : Ready w offs) : ∃ wire, w.wireOf offs = .ok wire ∧ fromWire wire = .ok (decoded w offs) := by
  obtain ⟨po, hp1, hp2, hp3⟩ := dict_round h.enc.props
  obtain ⟨g, hg⟩ := skolem (l := w.dl) (P := fun e (wl : WireLayer) => w.encodeLayer offs e.2 = .ok wl ∧
      ∃ cols, decodeSchema (e.1, wl) = .ok cols ∧
      decodeLayer noNest (textTab (segsOf w offs)) cols = .ok ⟨e.1, bareFields (w.layers e.2).fields,
        (live (w.layers e.2).slots).map (preRec w (textPlace w) (w.layers e.2).fields)⟩)
    (fun e he => layer_round h (tab_ok h) (k := e.1) (L := e.2) he)
  refine ⟨⟨po, segsOf w offs, w.dl.map (fun e => (e.1, g e))⟩, ?_, ?_⟩
  · unfold wireOf
    rw [encodeTexts_ok h]
    simp only
    rw [mapE_ok (g := fun e => (e.1, g e)) (fun e he => by simp only [encodeEntry, (hg e he).1])]
    simp only [hp1]
  · unfold fromWire fromWireN
    have hk : dkeys (w.dl.map (fun e => (e.1, g e))) = dkeys w.dl := by simp [dkeys, Function.comp_def]
    simp only [hk, hp3, dkeys_segsOf, h.wf.dlKeys, h.wf.dtKeys, h.wf.propKeys, not_true_eq_false, or_self, if_false, mapE_map]
    obtain ⟨cs, hcs⟩ := skolem (β := Str × List (Str × DataType × List Obj) × Int) (fun e he => (hg e he).2)
    rw [mapE_ok (g := cs) (fun e he => (hcs e he).1)]
    simp only [mapE_map]
    rw [mapE_ok (g := fun (e : Str × LayerId) => (⟨e.1, bareFields (w.layers e.2).fields,
        (live (w.layers e.2).slots).map (preRec w (textPlace w) (w.layers e.2).fields)⟩ : DLayer)) (fun e he => (hcs e he).2)]
    simp only [mapE_map]
    have hpl := place_ok h
    unfold preLayers at hpl
    rw [mapE_ok (g := fun (e : Str × LayerId) => (⟨e.1, bareFields (w.layers e.2).fields,
        (live (w.layers e.2).slots).map (finRec w (nodePlace w) (textPlace w) (w.layers e.2).fields)⟩ : DLayer))]
    · simp only [hp2]; rfl
    · intro e he
      have := resolve_cols h hpl (textPlace w) (k := e.1) (L := e.2) he (w.layers e.2).fields (fun _ h => h)
        (h.wf.fieldKeys e.2) (fun _ => []) (by simp [dkeys])
      simp only [List.nil_append] at this
      simp only [resolveLayer]
      rw [this]

theorem decoded_ok (h : Ready w offs) : DecOk w.props (segsOf w offs) (finLayers w (nodePlace w) (textPlace w)) where
  names := by rw [finLayers_names]; exact h.wf.dlKeys
  texts := by rw [dkeys_segsOf]; exact h.wf.dtKeys
  props := h.wf.propKeys
  fields l hl := by
    simp only [finLayers, List.mem_map] at hl
    obtain ⟨e, he, rfl⟩ := hl
    have := h.wf.fieldKeys e.2
    simpa [bareFields, dkeys, Function.comp_def] using this
  recs l hl d hd := by
    simp only [finLayers, List.mem_map] at hl
    obtain ⟨e, he, rfl⟩ := hl
    simp only [List.mem_map] at hd
    obtain ⟨n, hn, rfl⟩ := hd
    exact nodup_dkeys_filterMap (h.wf.fieldKeys e.2) _

theorem fin_get (hw : WF w) {s L} (hL : dget w.dl s = some L) (pl tp) : (finLayers w pl tp)[keyIdx (dkeys w.dl) s]? =
    some ⟨s, bareFields (w.layers L).fields, (live (w.layers L).slots).map (finRec w pl tp (w.layers L).fields)⟩ := by
  simp only [finLayers, List.getElem?_map, dl_get hw hL, Option.map_some]

theorem decoded_dl (h : Ready w offs) {s L} (hL : dget w.dl s = some L) :
    dget (decoded w offs).dl s = some (keyIdx (dkeys w.dl) s) := by
  have : dget ((finLayers w (nodePlace w) (textPlace w)).map (·.name)).zipIdx s = some (keyIdx (dkeys w.dl) s) := by
    rw [dget_zipIdx (by rw [finLayers_names]; exact h.wf.dlKeys), finLayers_names]
    exact key_idx (dl_get h.wf hL)
  exact this

theorem decoded_layer (h : Ready w offs) {s L} (hL : dget w.dl s = some L) :
    ((decoded w offs).layers (keyIdx (dkeys w.dl) s)).fields = bareFields (w.layers L).fields := by
  unfold decoded
  rw [build_layer (fin_get h.wf hL _ _)]

theorem decoded_at (h : Ready w offs) {s i n'} : Spec.At (decoded w offs) s i n' ↔
    ∃ n, Spec.At w s i n ∧ n' = nodePlace w n := by
  unfold decoded
  rw [build_at (decoded_ok h).names]
  constructor
  · rintro ⟨k, l, h1, rfl, h3, rfl⟩
    simp only [finLayers, List.getElem?_map] at h1
    cases hk : w.dl[k]? with
    | none => simp [hk] at h1
    | some e =>
      simp [hk] at h1; subst h1
      simp only [List.length_map] at h3
      have hL : dget w.dl e.1 = some e.2 := dget_of_mem h.wf.dlKeys (List.mem_of_getElem? hk)
      have ha : Spec.At w e.1 i (live (w.layers e.2).slots)[i] :=
        (At.iff h.inv).mpr ⟨e.2, hL, List.getElem?_eq_getElem h3⟩
      refine ⟨_, ha, ?_⟩
      obtain ⟨L', hL', hc⟩ := (At.attached h.inv h.wf ha).2
      rw [hL] at hL'; cases hL'
      have : (dkeys w.dl)[k]? = some e.1 := by simp [dkeys, hk]
      simp only [nodePlace, hc, (h.wf.dlName _ _ hL).1, (h.id ha).1, base_fin, nodup_idxOf h.wf.dlKeys this]
      simp
  · rintro ⟨n, ha, rfl⟩
    obtain ⟨L, hL, hn⟩ := (At.iff h.inv).mp ha
    obtain ⟨L', hL', hc⟩ := (At.attached h.inv h.wf ha).2
    rw [hL] at hL'; cases hL'
    obtain ⟨hi, -⟩ := List.getElem?_eq_some_iff.mp hn
    refine ⟨_, _, fin_get h.wf hL _ _, rfl, by simpa using hi, ?_⟩
    simp only [nodePlace, hc, (h.wf.dlName _ _ hL).1, (h.id ha).1, base_fin]
    simp

theorem decoded_fields (h : Ready w offs) {s i n L} (ha : Spec.At w s i n) (hL : dget w.dl s = some L) :
    ((decoded w offs).nodes (nodePlace w n)).fields = finRec w (nodePlace w) (textPlace w) (w.layers L).fields n := by
  obtain ⟨L', hL', hn⟩ := (At.iff h.inv).mp ha
  rw [hL] at hL'; cases hL'
  obtain ⟨L', hL', hc⟩ := (At.attached h.inv h.wf ha).2
  rw [hL] at hL'; cases hL'
  have e : nodePlace w n = baseOf (finLayers w (nodePlace w) (textPlace w)) (keyIdx (dkeys w.dl) s) + i := by
    simp only [nodePlace, hc, (h.wf.dlName _ _ hL).1, (h.id ha).1, base_fin]
    simp
  unfold decoded
  conv => lhs; rw [e]
  rw [build_node (fin_get h.wf hL _ _) (d := finRec w (nodePlace w) (textPlace w) (w.layers L).fields n) (by simp [hn])]

theorem decoded_dt (h : Ready w offs) {c T} (hT : dget w.dt c = some T) :
    dget (decoded w offs).dt c = some (textPlace w T) := by
  have : dget (dkeys (segsOf w offs)).zipIdx c = some (textPlace w T) := by
    rw [dkeys_segsOf, dget_zipIdx h.wf.dtKeys]
    simp only [textPlace, (h.wf.dtName c T hT).1]
    exact key_idx (dict_idx h.wf.dtKeys hT)
  exact this

theorem decoded_text (h : Ready w offs) {c T} (hT : dget w.dt c = some T) :
    ((decoded w offs).texts (textPlace w T)).text = (w.texts T).text := by
  obtain ⟨l, hl, h1, h2, h3, -⟩ := h.tab c T hT
  have hi := dict_idx h.wf.dtKeys hT
  have : (segsOf w offs)[textPlace w T]? = some (c, (w.texts T).compile l) := by
    simp only [segsOf, List.getElem?_map, textPlace, (h.wf.dtName c T hT).1, hi, Option.map_some, hl, Option.getD_some]
  simp only [decoded, buildDoc, this, (text_round _ h1 h2 h3).1]

theorem decoded_cell (h : Ready w offs) {t : DataType} {v : Option Value} (hv : ∀ x, v = some x → Spec.CellOk w t x) :
    Spec.SameCell w (decoded w offs) t v (finCell t (nodePlace w) (textPlace w) v) := by
  have hnode : ∀ {s i n}, Spec.At w s i n → Spec.SameNode w (decoded w offs) n (nodePlace w n) :=
    fun ha => ⟨_, _, ha, (decoded_at h).mpr ⟨_, ha, rfl⟩⟩
  cases v with
  | none => exact .unset
  | some x =>
    cases hv x rfl with
    | null => exact .null
    | int => exact .int
    | intBool a =>
      have : t.tname ≠ .bool := by rcases a with a | a <;> rw [a] <;> simp
      simp only [finCell, this, if_false]
      exact .intBool a
    | float => exact .float
    | bool a => simp only [finCell, a, if_true]; exact .bool a
    | str => exact .str
    | bytes => exact .bytes
    | node a b c => exact .node (hnode c)
    | @nodes ns s a b c =>
      cases ns with
      | nil => exact .empty
      | cons n ns =>
        refine .nodes (by simp) (by simp) ?_
        intro j m m' h1 h2
        rw [List.getElem?_map, h1] at h2
        cases h2
        obtain ⟨i, hi⟩ := c m (List.mem_of_getElem? h1)
        exact hnode hi
    | nodespan a b c d e => exact .nodespan (hnode c) (hnode d)
    | span a b c d e f => exact .span ⟨_, c, decoded_dt h c⟩

theorem decoded_same (h : Ready w offs) : Spec.SameDoc w (decoded w offs) where
  props := rfl
  texts := by
    apply List.ext_getElem?
    intro i
    simp only [List.getElem?_map]
    have e1 : (decoded w offs).dt = (dkeys w.dt).zipIdx := by
      have : (decoded w offs).dt = (dkeys (segsOf w offs)).zipIdx := rfl
      rw [this, dkeys_segsOf]
    rw [e1]
    cases hd : w.dt[i]? with
    | none =>
      have : ((dkeys w.dt).zipIdx)[i]? = none := by simp [dkeys] at *; exact hd
      simp [this]
    | some e =>
      have hk : (dkeys w.dt)[i]? = some e.1 := by simp [dkeys, hd]
      have : ((dkeys w.dt).zipIdx)[i]? = some (e.1, i) := by simp [hk]
      have hT : dget w.dt e.1 = some e.2 := dget_of_mem h.wf.dtKeys (List.mem_of_getElem? hd)
      have hi : textPlace w e.2 = i := by
        simp only [textPlace, (h.wf.dtName _ _ hT).1, nodup_idxOf h.wf.dtKeys hk]
      have ht := decoded_text h hT
      rw [hi] at ht
      simp only [this, Option.map_some, ht]
  layers := by
    have : dkeys (decoded w offs).dl = (finLayers w (nodePlace w) (textPlace w)).map (·.name) := by
      simp [decoded, buildDoc, dkeys]
    rw [this, finLayers_names]
  schema k L L' h1 h2 := by
    rw [decoded_dl h h1] at h2; cases h2
    rw [decoded_layer h h1]
    simp [bareFields, DataType.bare, Function.comp_def]
  count k L L' h1 h2 := by
    rw [decoded_dl h h1] at h2; cases h2
    unfold decoded
    rw [h.inv.iter_eq, build_inv.iter_eq]
    rw [build_layer (fin_get h.wf h1 _ _)]
    simp
  cells k L i n n' f t h1 h2 h3 h4 := by
    obtain ⟨m, hm, rfl⟩ := (decoded_at h).mp h3
    obtain ⟨L2, e1, e2⟩ := (At.iff h.inv).mp hm
    obtain ⟨L3, e3, e4⟩ := (At.iff h.inv).mp h2
    rw [e1] at e3; cases e3
    rw [e2] at e4; cases e4
    rw [e1] at h1; cases h1
    rw [decoded_fields h h2 e1]
    unfold finRec
    rw [dget_filterMap (h.wf.fieldKeys L) (fun e => finCell e.2 (nodePlace w) (textPlace w) (dget (w.nodes n).fields e.1)) h4]
    apply decoded_cell h
    intro x hx
    exact h.enc.cells k L n f t x (dget_mem e1) (by rw [h.inv.iter_eq]; simpa using List.mem_of_getElem? e2) h4 hx
  only k L i n' f h1 h2 h3 := by
    obtain ⟨m, hm, rfl⟩ := (decoded_at h).mp h2
    rw [decoded_fields h hm h1] at h3
    exact mem_dkeys_filterMap h3

end
end Verif
