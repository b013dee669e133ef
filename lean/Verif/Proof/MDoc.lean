import Verif.Proof.WireOk
/-
MsgpackDocument on bytes written by encodeBytes.
-/
set_option linter.unusedSimpArgs false
set_option linter.unusedSectionVars false
namespace Verif
open World

/-! ### the parts of a decoded document -/

theorem mapE_to {α β γ : Type} {f : α → Except PyErr β} (g : α → Except PyErr γ) (p : β → γ)
    (hg : ∀ a b, f a = .ok b → g a = .ok (p b)) : ∀ {l : List α} {r}, mapE f l = .ok r → mapE g l = .ok (r.map p) := by
  intro l
  induction l with
  | nil => intro r h; cases h; rfl
  | cons a l ih =>
    intro r h
    simp only [mapE] at h ⊢
    split at h
    · cases h
    rename_i b hb
    split at h
    · cases h
    rename_i bs hbs
    cases h
    simp only [hg a b hb, ih hbs, List.map_cons]

theorem mapE_proj {α β γ : Type} {f : α → Except PyErr β} (q : α → γ) (p : β → γ)
    (hg : ∀ a b, f a = .ok b → p b = q a) : ∀ {l : List α} {r}, mapE f l = .ok r → r.map p = l.map q := by
  intro l
  induction l with
  | nil => intro r h; cases h; rfl
  | cons a l ih =>
    intro r h
    simp only [mapE] at h
    split at h
    · cases h
    rename_i b hb
    split at h
    · cases h
    rename_i bs hbs
    cases h
    simp only [List.map_cons, hg a b hb, ih hbs]

theorem schemaTypes_of {x : Wire} {sch} (h : mapE decodeSchema x.layers = .ok sch) :
    schemaTypes (rawOf x) = .ok (sch.map (fun s => (s.1, s.2.1.map (fun c => (c.1, c.2.1))))) := by
  unfold schemaTypes rawOf
  rw [mapE_map]
  refine mapE_to _ _ ?_ h
  intro l s hs
  unfold decodeSchema at hs
  split at hs
  · cases hs
  rename_i cols hc
  have : mapE schemaField (l.2.cols.map (fun c => (c.1, c.2.1))) = .ok (cols.map (fun c => (c.1, c.2.1))) := by
    rw [mapE_map]
    refine mapE_to _ _ ?_ hc
    intro c d hd
    simp only [schemaField] at hd ⊢
    split at hd
    · rename_i t ht
      cases hd; simp only [ht]
    · cases hd
  unfold schemaLayer
  rw [this]
  simp only
  split at hs
  · rename_i hn
    cases hs
    rw [if_pos]
    simpa [Function.comp_def] using hn
  · cases hs

/-- what the parts of the decoded document are -/
structure PartsOf (x : Wire) (w : World) : Prop where
  props : w.props = x.props.map (fun e => (e.1, Value.ofObj e.2))
  texts : w.dt.map (fun e => (e.1, (w.texts e.2).text)) = x.texts.map (fun e => (e.1, e.2.flatten))
  schema : schemaTypes (rawOf x) = .ok (w.dl.map (fun e => (e.1, (w.layers e.2).fields)))

theorem fromWire_parts {x : Wire} {w} (h : fromWire x = .ok w) : PartsOf x w := by
  unfold fromWire fromWireN at h
  split at h
  · cases h
  split at h
  · cases h
  rename_i sch hs
  split at h
  · cases h
  rename_i ls hl
  split at h
  · cases h
  rename_i ls' hl'
  cases h
  refine ⟨rfl, ?_, ?_⟩
  · show ((dkeys x.texts).zipIdx).map _ = _
    apply List.ext_getElem?
    intro i
    simp only [List.getElem?_map, List.getElem?_zipIdx, dkeys, Option.map_map, Nat.zero_add]
    cases hi : x.texts[i]? with
    | none => rfl
    | some e => simp [buildDoc, hi]
  · rw [schemaTypes_of hs]
    congr 1
    have e1 : ls.map (fun l => (l.name, l.fields)) = sch.map (fun s => (s.1, s.2.1.map (fun c => (c.1, c.2.1)))) :=
      mapE_proj _ _ (fun a b hb => by
        unfold decodeLayer at hb
        split at hb
        · cases hb
        · cases hb; rfl) hl
    have e2 : ls'.map (fun l => (l.name, l.fields)) = ls.map (fun l => (l.name, l.fields)) :=
      mapE_proj _ _ (fun a b hb => by
        unfold resolveLayer at hb
        split at hb
        · cases hb
        · cases hb; rfl) hl'
    rw [← e1, ← e2]
    show _ = ((ls'.map (·.name)).zipIdx).map _
    apply List.ext_getElem?
    intro i
    simp only [List.getElem?_map, List.getElem?_zipIdx, Option.map_map, Nat.zero_add]
    cases hi : ls'[i]? with
    | none => rfl
    | some e => simp [build_layer hi]

/-! ### reading at a place -/

theorem readAt_at {α : Type} {raw pre b rest : Bytes} {p : P α} {a} (hp : Reads p b a) (e : raw = pre ++ (b ++ rest))
    {i : Int} (hi : i = pre.length) : MDoc.readAt raw i p = .ok (a, b.length) := by
  subst e hi
  unfold MDoc.readAt
  rw [if_neg (by omega)]
  simp only [Int.toNat_natCast, List.drop_left, hp rest]
  simp

/-- where the parts lie -/
def Parts.propAt {x bs} (p : Parts x bs) : Nat := p.propLen.length + 4
def Parts.schemaAt {x bs} (p : Parts x bs) : Nat := p.propAt + p.prop.length
def Parts.textAt {x bs} (p : Parts x bs) : Nat := p.schemaAt + (p.types ++ p.schema).length + p.textLen.length

variable {x : Wire} {bs : Bytes}

theorem Parts.split1 (p : Parts x bs) : bs = magic ++ (p.propLen ++ (p.prop ++ (p.types ++ (p.schema ++ (p.textLen ++ (p.text ++ p.layers)))))) := by
  have := p.eq
  simp only [List.append_assoc] at this ⊢
  exact this

theorem Parts.split2 (p : Parts x bs) : bs = (magic ++ p.propLen) ++ (p.prop ++ (p.types ++ (p.schema ++ (p.textLen ++ (p.text ++ p.layers))))) := by
  have := p.eq
  simp only [List.append_assoc] at this ⊢
  exact this

theorem Parts.split3 (p : Parts x bs) : bs = (magic ++ p.propLen ++ p.prop) ++ ((p.types ++ p.schema) ++ (p.textLen ++ (p.text ++ p.layers))) := by
  have := p.eq
  simp only [List.append_assoc] at this ⊢
  exact this

theorem Parts.split4 (p : Parts x bs) : bs = (magic ++ p.propLen ++ p.prop ++ (p.types ++ p.schema)) ++ (p.textLen ++ (p.text ++ p.layers)) := by
  have := p.eq
  simp only [List.append_assoc] at this ⊢
  exact this

theorem Parts.split5 (p : Parts x bs) : bs = (magic ++ p.propLen ++ p.prop ++ (p.types ++ p.schema) ++ p.textLen) ++ (p.text ++ p.layers) := by
  have := p.eq
  simp only [List.append_assoc] at this ⊢
  exact this

theorem Parts.split6 (p : Parts x bs) : bs = (magic ++ p.propLen ++ p.prop ++ (p.types ++ p.schema) ++ p.textLen ++ p.text) ++ p.layers := by
  have := p.eq
  simp only [List.append_assoc] at this ⊢
  exact this

theorem magic_length : magic.length = 4 := rfl

/-- the place of a layer's data: its length has been read, the data follow -/
def LayerAt (raw : Bytes) (l : WireLayer) (a : Nat) (body : Bytes) : Prop :=
  cat (pack (.int l.num)) (catL (l.cols.map (fun c => cat (pack (.bool false)) (pack (.arr c.2.2))))) = .ok body ∧
    ∃ pre rest, raw = pre ++ (body ++ rest) ∧ a = pre.length

/-- the data of one of the layers go on until `stop` -/
def LastAt (raw : Bytes) (ls : Dict Str WireLayer) (d : Dict Str (Nat × Obj)) (stop : Nat) : Prop :=
  ls ≠ [] → ∃ k l a body, (k, l) ∈ ls ∧ dget d k = some (a, .int body.length) ∧ LayerAt raw l a body ∧ a + body.length = stop

theorem layerPlaces_ok {raw : Bytes} : ∀ {ls : Dict Str WireLayer} {b pre rest : Bytes}, (dkeys ls).Nodup →
    catL (ls.map (fun e => layerBytes e.2)) = .ok b → raw = pre ++ (b ++ rest) →
    ∃ d, MDoc.layerPlaces raw pre.length (dkeys ls) = .ok d ∧ LastAt raw ls d (pre.length + b.length) ∧
      (∀ k, (dget d k).isSome = true ↔ k ∈ dkeys ls) ∧
      ∀ k l, (k, l) ∈ ls → ∃ a body, dget d k = some (a, .int body.length) ∧ LayerAt raw l a body := by
  intro ls
  induction ls with
  | nil => intro b pre rest _ _ _; exact ⟨[], rfl, fun h => absurd rfl h, by simp [dget, dkeys], by simp⟩
  | cons e ls ih =>
    intro b pre rest hn hb hraw
    obtain ⟨b1, b2, h1, h2, rfl⟩ := cat_ok hb
    obtain ⟨body, len, h3, h4, rfl⟩ := sized_ok h1
    have hn' : e.1 ∉ dkeys ls ∧ (dkeys ls).Nodup := by simpa [dkeys] using hn
    have r1 := readAt_at (Reads.next h4 trivial) (raw := raw) (pre := pre) (rest := body ++ (b2 ++ rest))
      (i := pre.length) (by rw [hraw]; simp) rfl
    obtain ⟨d, hd1, hd0, hd2, hd3⟩ := ih (b := b2) (pre := pre ++ (len ++ body)) (rest := rest) hn'.2 h2
      (by rw [hraw]; simp)
    have hnone : (dget d e.1).isSome = false := by
      cases h : (dget d e.1).isSome with
      | false => rfl
      | true => exact absurd ((hd2 e.1).mp h) hn'.1
    have hlen : ((pre.length : Int) + (len.length : Nat)).toNat = (pre ++ len).length := by simp; omega
    refine ⟨dset d e.1 ((pre ++ len).length, .int body.length), ?_, ?_, ?_, ?_⟩
    · show MDoc.layerPlaces raw pre.length (e.1 :: dkeys ls) = _
      simp only [MDoc.layerPlaces, r1, hlen, MDoc.addObj]
      rw [if_neg (by omega)]
      have : ((pre ++ len).length : Int) + (body.length : Int) = (pre ++ (len ++ body)).length := by simp; omega
      rw [this, hd1]
      simp [hnone]
    · intro _
      by_cases hls : ls = []
      · subst hls
        cases h2
        exact ⟨e.1, e.2, _, body, by simp, by rw [dget_dset, if_pos rfl], ⟨h3, pre ++ len, rest, by rw [hraw]; simp, rfl⟩, by simp; omega⟩
      · obtain ⟨k, l, a, body', q1, q2, q3, q4⟩ := hd0 hls
        refine ⟨k, l, a, body', by simp [q1], ?_, q3, by rw [q4]; simp; omega⟩
        rw [dget_dset, if_neg, q2]
        rintro rfl
        exact hn'.1 (List.mem_map.mpr ⟨_, q1, rfl⟩)
    · intro k
      rw [dget_dset]
      split
      · rename_i hk; subst hk; simp [dkeys]
      · rename_i hk
        rw [hd2]
        have : k ≠ e.1 := fun e => hk e.symm
        simp [dkeys, this]
    · intro k l hm
      rw [dget_dset]
      split
      · rename_i hk
        have hl : (k, l) = e := by
          rcases List.mem_cons.mp hm with h | h
          · exact h
          · exact absurd (List.mem_map.mpr ⟨_, h, hk.symm⟩) hn'.1
        subst hl
        exact ⟨_, body, rfl, h3, pre ++ len, b2 ++ rest, by rw [hraw]; simp, rfl⟩
      · rename_i hk
        rcases List.mem_cons.mp hm with h | h
        · exact absurd (congrArg Prod.fst h).symm hk
        · exact hd3 k l h

theorem dget_rawOf {k l} (h : dget x.layers k = some l) :
    dget (rawOf x) k = some (l.cols.map (fun c => (c.1, c.2.1))) := by
  unfold rawOf
  revert h
  induction x.layers with
  | nil => intro h; simp [dget] at h
  | cons e ls ih =>
    intro h
    simp only [List.map_cons, dget, List.find?_cons] at h ⊢
    split
    · rename_i hk; simp only [hk] at h; cases h; rfl
    · rename_i hk; simp only [hk] at h; exact ih h

theorem dget_rawOf_none {k} (h : k ∉ dkeys x.layers) : dget (rawOf x) k = none := by
  cases hg : dget (rawOf x) k with
  | none => rfl
  | some v =>
    exfalso
    apply h
    have := (dget_isSome_iff _ k).mp (by rw [hg]; rfl)
    simpa [rawOf, dkeys, Function.comp_def] using this

theorem readLayers_ok (hx : WireOk x) {raw : Bytes} {d : Dict Str (Nat × Obj)}
    (hd : ∀ k l, (k, l) ∈ x.layers → ∃ a body, dget d k = some (a, .int body.length) ∧ LayerAt raw l a body) :
    ∀ {ts : List Str}, (∀ t ∈ ts, t ∈ dkeys x.layers) → ∃ r, MDoc.readLayers raw d (rawOf x) ts = .ok r ∧
      ∀ k, dget r k = if k ∈ ts then dget x.layers k else none := by
  intro ts
  induction ts with
  | nil => intro _; exact ⟨[], rfl, by simp [dget]⟩
  | cons t ts ih =>
    intro h
    obtain ⟨r, h1, h2⟩ := ih (fun t' ht' => h t' (by simp [ht']))
    obtain ⟨l, hl⟩ := Option.isSome_iff_exists.mp ((dget_isSome_iff _ _).mpr (h t (by simp)))
    obtain ⟨a, body, h3, h4, pre, rest, h5, rfl⟩ := hd t l (dget_mem hl)
    refine ⟨dset r t l, ?_, ?_⟩
    · unfold MDoc.readLayers
      rw [h3, dget_rawOf hl]
      simp only
      rw [readAt_at (read_layer (hx.cols (t, l) (dget_mem hl)) h4) h5 rfl]
      simp only [h1]
    · intro k
      rw [dget_dset, h2]
      by_cases hk : t = k
      · subst hk; simp [hl]
      · have : k ≠ t := fun e => hk e.symm
        simp [hk, this]

/-- a layer that is not chosen is missing in commit_layers -/
theorem mapE_missing {r : Dict Str WireLayer} {sch : RawSchema} {k} (h : k ∈ sch.map (·.1)) (hr : dget r k = none) :
    mapE (MDoc.nodesFor r) sch = .error .key := by
  induction sch with
  | nil => simp at h
  | cons e sch ih =>
    simp only [mapE, MDoc.nodesFor]
    cases he : dget r e.1 with
    | none => rfl
    | some wl =>
      simp only
      rw [show mapE _ sch = _ from ih ?_]
      simp only [List.map_cons, List.mem_cons] at h
      rcases h with h | h
      · subst h; rw [hr] at he; cases he
      · exact h

theorem mapE_found {r : Dict Str WireLayer} : ∀ {ls : Dict Str WireLayer}, (∀ k l, (k, l) ∈ ls → dget r k = some l) →
    mapE (MDoc.nodesFor r)
      (ls.map (fun e => (e.1, e.2.cols.map (fun c => (c.1, c.2.1))))) = .ok ls := by
  intro ls
  induction ls with
  | nil => intro _; rfl
  | cons e ls ih =>
    intro h
    simp only [List.map_cons, mapE, MDoc.nodesFor, h e.1 e.2 (by simp), ih (fun k l hm => h k l (by simp [hm]))]

/-! ### the calls -/

/-- the state of a MsgpackDocument over `bs`, whatever was cached -/
def Over (bs : Bytes) (s : MDoc) : Prop := s.raw = bs ∧ s.readState = 0

section
variable (hx : WireOk x) (p : Parts x bs) {s : MDoc} (hs : Over bs s)
include hx p hs

theorem parse1_ok : s.parse1 = ({ s with prop := some (p.propAt, .int p.prop.length) }, .ok ()) := by
  unfold MDoc.parse1
  rw [readAt_at (Reads.next p.hPropLen trivial) (i := 4) (pre := magic) (by rw [hs.1]; exact p.split1) rfl]
  rfl

theorem parse2_ok {sch} (ht : schemaTypes (rawOf x) = .ok sch)
    (h : s.prop = some (p.propAt, .int p.prop.length)) :
    s.parse2 = ({ s with schema := some (rawOf x), texts := some (p.textAt, .int p.text.length) }, .ok ()) := by
  unfold MDoc.parse2
  simp only [h, MDoc.addObj]
  have e1 : ((p.propAt : Int) + (p.prop.length : Int)) = (magic ++ p.propLen ++ p.prop).length := by
    simp [Parts.propAt, magic_length]; omega
  rw [e1, readAt_at (read_schema hx p.hTypes p.hSchema) (by rw [hs.1]; exact p.split3) rfl]
  simp only [ht]
  have e2 : (((magic ++ p.propLen ++ p.prop).length : Int) + ((p.types ++ p.schema).length : Nat)) =
      (magic ++ p.propLen ++ p.prop ++ (p.types ++ p.schema)).length := by
    simp; omega
  rw [e2, readAt_at (Reads.next p.hTextLen trivial) (by rw [hs.1]; exact p.split4) rfl]
  simp only
  have e3 : (((magic ++ p.propLen ++ p.prop ++ (p.types ++ p.schema)).length : Int) + (p.textLen.length : Nat)).toNat = p.textAt := by
    simp [Parts.textAt, Parts.schemaAt, Parts.propAt, magic_length]; omega
  rw [e3]

theorem parse3_ok (h1 : s.schema = some (rawOf x)) (h2 : s.texts = some (p.textAt, .int p.text.length)) :
    ∃ d, s.parse3 = ({ s with layers := some d }, .ok ()) ∧ LastAt bs x.layers d bs.length ∧
      (∀ k, (dget d k).isSome = true ↔ k ∈ dkeys x.layers) ∧
      ∀ k l, (k, l) ∈ x.layers → ∃ a body, dget d k = some (a, .int body.length) ∧ LayerAt bs l a body := by
  obtain ⟨d, hd1, hd0, hd2, hd3⟩ := layerPlaces_ok (raw := bs) (rest := []) hx.layers p.hLayers
    (by rw [List.append_nil]; exact p.split6)
  refine ⟨d, ?_, by rw [congrArg List.length p.split6, List.length_append]; exact hd0, hd2, hd3⟩
  unfold MDoc.parse3
  simp only [h1, h2, MDoc.addObj]
  have e1 : ((p.textAt : Int) + (p.text.length : Int)) =
      (magic ++ p.propLen ++ p.prop ++ (p.types ++ p.schema) ++ p.textLen ++ p.text).length := by
    simp [Parts.textAt, Parts.schemaAt, Parts.propAt, magic_length]; omega
  have e2 : (rawOf x).map (·.1) = dkeys x.layers := by simp [rawOf, dkeys, Function.comp_def]
  rw [e1, e2, hs.1, hd1]

theorem parseState1_ok : s.parseState 1 = ({ s with prop := some (p.propAt, .int p.prop.length) }, .ok ()) := by
  unfold MDoc.parseState
  rw [if_pos ⟨by rw [hs.2]; decide, by decide⟩, parse1_ok hx p hs]
  simp

theorem parseState2_ok {sch} (ht : schemaTypes (rawOf x) = .ok sch) : s.parseState 2 =
    ({ s with prop := some (p.propAt, .int p.prop.length), schema := some (rawOf x), texts := some (p.textAt, .int p.text.length) }, .ok ()) := by
  unfold MDoc.parseState
  rw [if_pos ⟨by rw [hs.2]; decide, by decide⟩, parse1_ok hx p hs]
  simp only
  rw [if_pos ⟨by rw [hs.2]; decide, by decide⟩, parse2_ok hx p (by exact hs) ht rfl]
  simp

theorem parseState3_ok {sch} (ht : schemaTypes (rawOf x) = .ok sch) : ∃ d, s.parseState 3 =
    ({ s with prop := some (p.propAt, .int p.prop.length), schema := some (rawOf x),
              texts := some (p.textAt, .int p.text.length), layers := some d }, .ok ()) ∧ LastAt bs x.layers d bs.length ∧
      (∀ k, (dget d k).isSome = true ↔ k ∈ dkeys x.layers) ∧
      ∀ k l, (k, l) ∈ x.layers → ∃ a body, dget d k = some (a, .int body.length) ∧ LayerAt bs l a body := by
  obtain ⟨d, h1, h2⟩ := parse3_ok hx p (s := { s with prop := some (p.propAt, .int p.prop.length), schema := some (rawOf x), texts := some (p.textAt, .int p.text.length) }) hs rfl rfl
  refine ⟨d, ?_, h2⟩
  unfold MDoc.parseState
  rw [if_pos ⟨by rw [hs.2]; decide, by decide⟩, parse1_ok hx p hs]
  simp only
  rw [if_pos ⟨by rw [hs.2]; decide, by decide⟩, parse2_ok hx p (by exact hs) ht rfl]
  simp only
  rw [if_pos ⟨by rw [hs.2]; decide, by decide⟩, h1]

theorem propAt_eq : ((p.propAt : Nat) : Int) = (magic ++ p.propLen).length := by
  simp [Parts.propAt, magic_length]; omega

theorem textAt_eq : ((p.textAt : Nat) : Int) = (magic ++ p.propLen ++ p.prop ++ (p.types ++ p.schema) ++ p.textLen).length := by
  simp [Parts.textAt, Parts.schemaAt, Parts.propAt, magic_length]; omega

theorem properties_ok : s.properties [] =
    ({ s with prop := some (p.propAt, .int p.prop.length) }, .ok (.map x.props)) := by
  unfold MDoc.properties
  rw [parseState1_ok hx p hs]
  simp only
  rw [readAt_at (p := MDoc.decodeProperty []) (Reads.next p.hProp hx.props) (by rw [hs.1]; exact p.split2) (propAt_eq hx p hs)]

theorem getSchema_ok {sch} (ht : schemaTypes (rawOf x) = .ok sch) : s.getSchema =
    ({ s with prop := some (p.propAt, .int p.prop.length), schema := some (rawOf x), texts := some (p.textAt, .int p.text.length) }, .ok sch) := by
  unfold MDoc.getSchema
  rw [parseState2_ok hx p hs ht]
  simp only [ht]

theorem getTexts_ok {sch} (ht : schemaTypes (rawOf x) = .ok sch) : s.getTexts [] =
    ({ s with prop := some (p.propAt, .int p.prop.length), schema := some (rawOf x), texts := some (p.textAt, .int p.text.length) }, .ok (textsObj x.texts)) := by
  unfold MDoc.getTexts
  rw [parseState2_ok hx p hs ht]
  simp only
  rw [readAt_at (p := MDoc.decodeTexts []) (Reads.next p.hText (keysOk_texts hx.texts)) (by rw [hs.1]; exact p.split5)
    (textAt_eq hx p hs)]

/-- `document(*chosen)`: the state afterwards, and what assembling has to work with -/
theorem document_eq {sch} (ht : schemaTypes (rawOf x) = .ok sch) (chosen : List Str) : ∃ d s', Over bs s' ∧
    s.document chosen = (s', s'.assemble chosen (.map x.props) (textsObj x.texts) (rawOf x) d) ∧ LastAt bs x.layers d bs.length ∧
      (∀ k, (dget d k).isSome = true ↔ k ∈ dkeys x.layers) ∧
      ∀ k l, (k, l) ∈ x.layers → ∃ a body, dget d k = some (a, .int body.length) ∧ LayerAt bs l a body := by
  obtain ⟨d, h1, h2⟩ := parseState3_ok hx p hs ht
  refine ⟨d, { s with prop := some (p.propAt, .int p.prop.length), schema := some (rawOf x), texts := some (p.textAt, .int p.text.length), layers := some d }, hs, ?_, h2⟩
  · unfold MDoc.document
    rw [h1]
    simp only
    rw [properties_ok hx p (by exact hs)]
    simp only
    rw [getSchema_ok hx p (by exact hs) ht]
    simp only
    rw [getTexts_ok hx p (by exact hs) ht]

theorem document_ok {sch} (ht : schemaTypes (rawOf x) = .ok sch) {chosen : List Str}
    (hc : chosen = [] ∨ ∀ k, k ∈ chosen ↔ k ∈ dkeys x.layers) : (s.document chosen).2 = fromWire x := by
  obtain ⟨d, s', hs', h1, -, h2, h3⟩ := document_eq hx p hs ht chosen
  rw [h1]
  unfold MDoc.assemble
  simp only [asProps, asTexts_texts]
  have hsch : (rawOf x).map (·.1) = dkeys x.layers := by simp [rawOf, dkeys, Function.comp_def]
  have hts : ∀ k, k ∈ (if chosen = [] then (rawOf x).map (·.1) else chosen) ↔ k ∈ dkeys x.layers := by
    intro k
    split
    · rw [hsch]
    · rename_i hne; exact (hc.resolve_left hne) k
  obtain ⟨r, hr1, hr2⟩ := readLayers_ok hx (raw := s'.raw) (d := d) (by rw [hs'.1]; exact h3) (fun t ht => (hts t).mp ht)
  rw [hr1]
  simp only
  have : mapE (MDoc.nodesFor r) (rawOf x) = .ok x.layers :=
    mapE_found (fun k l hm => by
      rw [hr2, if_pos ((hts k).mpr (List.mem_map.mpr ⟨_, hm, rfl⟩)), dget_of_mem hx.layers hm])
  rw [this]

/-- choosing some layers but not all: KeyError -/
theorem document_missing {sch} (ht : schemaTypes (rawOf x) = .ok sch) {chosen : List Str} (hne : chosen ≠ [])
    {k} (hk : k ∈ dkeys x.layers) (hm : k ∉ chosen) : (s.document chosen).2 = .error .key := by
  obtain ⟨d, s', hs', h1, -, h2, h3⟩ := document_eq hx p hs ht chosen
  rw [h1]
  unfold MDoc.assemble
  simp only [asProps, asTexts_texts, if_neg hne]
  by_cases hall : ∀ t ∈ chosen, t ∈ dkeys x.layers
  · obtain ⟨r, hr1, hr2⟩ := readLayers_ok hx (raw := s'.raw) (d := d) (by rw [hs'.1]; exact h3) hall
    rw [hr1]
    simp only
    have := mapE_missing (r := r) (sch := rawOf x) (k := k) (by simpa [rawOf, dkeys, Function.comp_def] using hk)
      (by rw [hr2, if_neg hm])
    rw [this]
  · -- a name that is not a layer
    have : MDoc.readLayers s'.raw d (rawOf x) chosen = .error .key := by
      clear hm hne h1
      induction chosen with
      | nil => simp at hall
      | cons t ts ih =>
        unfold MDoc.readLayers
        by_cases htm : t ∈ dkeys x.layers
        · obtain ⟨l, hl⟩ := Option.isSome_iff_exists.mp ((dget_isSome_iff _ _).mpr htm)
          obtain ⟨a, body, g3, g4, pre, rest, g5, rfl⟩ := h3 t l (dget_mem hl)
          rw [g3, dget_rawOf hl]
          simp only
          rw [readAt_at (read_layer (hx.cols (t, l) (dget_mem hl)) g4) (by rw [hs'.1]; exact g5) rfl]
          simp only
          rw [ih]
          intro hc
          apply hall
          intro t' ht'
          rcases List.mem_cons.mp ht' with h | h
          · subst h; exact htm
          · exact hc t' h
        · rw [dget_rawOf_none htm]
          cases dget d t <;> rfl
    rw [this]

end

/-! ### every call keeps the bytes -/

/-- the same bytes, state and reference -/
def Kept (s s' : MDoc) : Prop := s'.raw = s.raw ∧ s'.readState = s.readState ∧ s'.ref = s.ref

theorem Kept.refl (s : MDoc) : Kept s s := ⟨rfl, rfl, rfl⟩
theorem Kept.trans {a b c : MDoc} (h : Kept a b) (g : Kept b c) : Kept a c :=
  ⟨g.1.trans h.1, g.2.1.trans h.2.1, g.2.2.trans h.2.2⟩

theorem parse1_kept (s : MDoc) : Kept s s.parse1.1 := by
  unfold MDoc.parse1; split <;> exact ⟨rfl, rfl, rfl⟩

theorem parse2_kept (s : MDoc) : Kept s s.parse2.1 := by
  unfold MDoc.parse2
  repeat' split
  all_goals exact ⟨rfl, rfl, rfl⟩

theorem parse3_kept (s : MDoc) : Kept s s.parse3.1 := by
  unfold MDoc.parse3
  repeat' split
  all_goals exact ⟨rfl, rfl, rfl⟩

theorem parseState_kept (s : MDoc) (k : Nat) : Kept s (s.parseState k).1 := by
  unfold MDoc.parseState
  have h1 : Kept s (if s.readState < 1 ∧ k > 0 then s.parse1 else (s, .ok ())).1 := by
    split
    · exact parse1_kept s
    · exact .refl s
  generalize (if s.readState < 1 ∧ k > 0 then s.parse1 else (s, .ok ())) = r1 at h1
  obtain ⟨s1, (_ | _)⟩ := r1
  · exact h1
  have h2 : Kept s1 (if s1.readState < 2 ∧ k > 1 then s1.parse2 else (s1, .ok ())).1 := by
    split
    · exact parse2_kept s1
    · exact .refl s1
  simp only
  generalize (if s1.readState < 2 ∧ k > 1 then s1.parse2 else (s1, .ok ())) = r2 at h2
  obtain ⟨s2, (_ | _)⟩ := r2
  · exact h1.trans h2
  refine (h1.trans h2).trans ?_
  simp only
  split
  · exact parse3_kept s2
  · exact .refl s2

theorem properties_kept (s : MDoc) (names) : Kept s (s.properties names).1 := by
  unfold MDoc.properties
  have h := parseState_kept s 1
  generalize s.parseState 1 = r at h
  obtain ⟨s1, (_ | _)⟩ := r
  · exact h
  simp only
  split
  · exact h
  · split <;> exact h

theorem getSchema_kept (s : MDoc) : Kept s s.getSchema.1 := by
  unfold MDoc.getSchema
  have h := parseState_kept s 2
  generalize s.parseState 2 = r at h
  obtain ⟨s1, (_ | _)⟩ := r
  · exact h
  simp only
  split <;> exact h

theorem getTexts_kept (s : MDoc) (names) : Kept s (s.getTexts names).1 := by
  unfold MDoc.getTexts
  have h := parseState_kept s 2
  generalize s.parseState 2 = r at h
  obtain ⟨s1, (_ | _)⟩ := r
  · exact h
  simp only
  split
  · exact h
  · split <;> exact h

theorem document_kept (s : MDoc) (chosen) : Kept s (s.document chosen).1 := by
  unfold MDoc.document
  have h := parseState_kept s 3
  generalize s.parseState 3 = r at h
  obtain ⟨s1, (_ | _)⟩ := r
  · exact h
  simp only
  replace h := h.trans (properties_kept s1 [])
  generalize s1.properties [] = r at h
  obtain ⟨s2, (_ | _)⟩ := r
  · exact h
  simp only
  replace h := h.trans (getSchema_kept s2)
  generalize s2.getSchema = r at h
  obtain ⟨s3, (_ | _)⟩ := r
  · exact h
  simp only
  replace h := h.trans (getTexts_kept s3 [])
  generalize s3.getTexts [] = r at h
  obtain ⟨s4, (_ | _)⟩ := r
  · exact h
  simp only
  split <;> exact h

/-! ### selecting keys -/

theorem Reads.nextAt {o : Obj} {lim b} (h : packAt lim o = .ok b) (hl : lim ≤ 1024) (hk : o.KeysOk) : Reads pnext b o := by
  intro rest
  unfold pnext unpack
  rw [unpackAt_packAt o lim 1024 b rest h hl hk]

theorem Reads.skipAt {o : Obj} {lim b} (h : packAt lim o = .ok b) (hl : lim ≤ 1024) (hk : o.KeysOk) : Reads pskip b () := by
  intro rest
  unfold pskip unpack
  rw [unpackAt_packAt o lim 1024 b rest h hl hk]

theorem select_reads (names : List Str) : ∀ {l : List (Str × Obj)} {b out}, packPairs 511 l = .ok b →
    (l.map (·.1)).Nodup → Obj.KeysOkM l → (∀ e ∈ l, e.1 ∉ dkeys out) →
    Reads (MDoc.pSelect names l.length out) b (out ++ l.filter (fun e => decide (e.1 ∈ names))) := by
  intro l
  induction l with
  | nil => intro b out h _ _ _; cases h; simp only [List.length_nil, List.filter_nil, List.append_nil]; exact Reads.pure _
  | cons e l ih =>
    intro b out h hn hk ho
    obtain ⟨k, v⟩ := e
    simp only [packPairs] at h
    obtain ⟨bk, h1, h⟩ : ∃ bk, packKey 511 k = .ok bk ∧ _ := by
      cases hkk : packKey 511 k with
      | error e => rw [hkk] at h; cases h
      | ok bk => rw [hkk] at h; exact ⟨bk, rfl, h⟩
    obtain ⟨bv, h2, h⟩ : ∃ bv, packAt 511 v = .ok bv ∧ _ := by
      cases hvv : packAt 511 v with
      | error e => rw [hvv] at h; cases h
      | ok bv => rw [hvv] at h; exact ⟨bv, rfl, h⟩
    obtain ⟨bl, h3, h⟩ : ∃ bl, packPairs 511 l = .ok bl ∧ _ := by
      cases hll : packPairs 511 l with
      | error e => rw [hll] at h; cases h
      | ok bl => rw [hll] at h; exact ⟨bl, rfl, h⟩
    cases h
    simp only [List.map_cons, List.nodup_cons, List.mem_map, not_exists, not_and] at hn
    obtain ⟨hk1, hk2⟩ := hk
    simp only [List.length_cons, MDoc.pSelect]
    rw [List.append_assoc]
    refine (Reads.next (o := .str k) h1 trivial).bind ?_
    simp only
    by_cases hm : k ∈ names
    · rw [if_pos hm]
      refine (Reads.nextAt h2 (by decide) hk1).bind ?_
      have hfresh : k ∉ dkeys out := ho (k, v) (by simp)
      have := ih (out := dset out k v) h3 hn.2 hk2 (fun e he => by
        rw [dset_absent v hfresh]
        simp only [dkeys, List.map_append, List.map_cons, List.map_nil, List.mem_append, List.mem_singleton]
        rintro (h | h)
        · exact ho e (by simp [he]) h
        · exact hn.1 e he h)
      rw [dset_absent v hfresh] at this ⊢
      simpa [hm] using this
    · rw [if_neg hm]
      refine (Reads.skipAt h2 (by decide) hk1).bind ?_
      have := ih (out := out) h3 hn.2 hk2 (fun e he => ho e (by simp [he]))
      simpa [hm] using this

/-- reading a map with a selection of keys -/
theorem select_map (names : List Str) {d : Dict Str Obj} {b} (h : pack (.map d) = .ok b) (hk : (Obj.map d).KeysOk) :
    Reads (do let n ← MDoc.pMapHeader; return .map (← MDoc.pSelect names n [])) b
      (Obj.map (d.filter (fun e => decide (e.1 ∈ names)))) := by
  unfold pack at h
  simp only [packAt] at h
  obtain ⟨hd, h1, h⟩ : ∃ hd, packMapHead d.length = .ok hd ∧ _ := by
    cases hh : packMapHead d.length with
    | error e => rw [hh] at h; cases h
    | ok hd => rw [hh] at h; exact ⟨hd, rfl, h⟩
  obtain ⟨bl, h2, h⟩ : ∃ bl, packPairs 511 d = .ok bl ∧ _ := by
    cases hll : packPairs 511 d with
    | error e => rw [hll] at h; cases h
    | ok bl => rw [hll] at h; exact ⟨bl, rfl, h⟩
  cases h
  have hh : Reads MDoc.pMapHeader hd d.length := by
    intro rest
    unfold MDoc.pMapHeader
    rw [P.bind_eq, unpackHead_map h1 rest]
    rfl
  refine hh.bind ?_
  refine Reads.bind0 ?_ (Reads.pure _)
  have := select_reads names (out := []) h2 hk.1 hk.2 (by simp [dkeys])
  simpa using this

end Verif
