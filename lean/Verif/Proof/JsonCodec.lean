import Verif.Model.JsonCodec
import Verif.Proof.WireOk
import Verif.Props.JsonSpec
/-
The JSON object of a document: read back, and what is in it.
-/
set_option linter.unusedSimpArgs false
namespace Verif
open World Spec

theorem keysM_iff {l : List (Str × Obj)} : Obj.KeysOkM l ↔ ∀ e ∈ l, e.2.KeysOk := by
  induction l with
  | nil => simp [Obj.KeysOkM]
  | cons e l ih => obtain ⟨k, o⟩ := e; simp [Obj.KeysOkM, ih]

theorem jsonableM_iff {l : List (Str × Obj)} : JsonableM l ↔ ∀ e ∈ l, Jsonable e.2 := by
  induction l with
  | nil => simp [JsonableM]
  | cons e l ih => obtain ⟨k, o⟩ := e; simp [JsonableM, ih]

theorem jsonableL_iff {l : List Obj} : JsonableL l ↔ ∀ o ∈ l, Jsonable o := by
  induction l with
  | nil => simp [JsonableL]
  | cons o l ih => simp [JsonableL, ih]

theorem hasBytesM_iff {l : List (Str × Obj)} : HasBytesM l ↔ ∃ e ∈ l, HasBytes e.2 := by
  induction l with
  | nil => simp [HasBytesM]
  | cons e l ih => obtain ⟨k, o⟩ := e; simp [HasBytesM, ih]

theorem hasBytesL_iff {l : List Obj} : HasBytesL l ↔ ∃ o ∈ l, HasBytes o := by
  induction l with
  | nil => simp [HasBytesL]
  | cons o l ih => simp [HasBytesL, ih]

theorem mapE_mem {α β : Type} {f : α → Except PyErr β} {l : List α} {r : List β} (h : mapE f l = .ok r) {b : β} (hb : b ∈ r) :
    ∃ a ∈ l, f a = .ok b := by
  obtain ⟨i, hi⟩ := List.getElem?_of_mem hb
  obtain ⟨l1, l2⟩ := mapE_inv h
  obtain ⟨hi1, hi2⟩ := List.getElem?_eq_some_iff.mp hi
  exact ⟨l[i]'(by omega), List.getElem_mem _, by rw [← hi2]; exact l2 i (by omega) hi1⟩

/-- the layers of the data -/
theorem wire_layers {w : World} {offs} {wire} (h : Ready w offs) (hw : w.wireOf offs = .ok wire) :
    wire.texts = segsOf w offs ∧ dictToObj w.props = .ok wire.props ∧
    ∀ l ∈ wire.layers, ∃ L, (l.1, L) ∈ w.dl ∧ mapE (w.encodeField offs L) (w.layers L).fields = .ok l.2.cols := by
  unfold wireOf at hw
  rw [encodeTexts_ok h] at hw
  simp only at hw
  split at hw
  · cases hw
  rename_i lays hl
  split at hw
  · cases hw
  rename_i props hp
  cases hw
  refine ⟨rfl, hp, ?_⟩
  intro l hlm
  obtain ⟨e, hm, he⟩ := mapE_mem hl hlm
  unfold encodeEntry at he
  split at he
  · cases he
  rename_i wl hwl
  cases he
  unfold encodeLayer at hwl
  split at hwl
  · cases hwl
  rename_i cols hcols
  cases hwl
  exact ⟨e.2, hm, hcols⟩

theorem encodeField_name {w : World} {offs L e c} (h : w.encodeField offs L e = .ok c) :
    c.1 = e.1 ∧ e.2.encode = .ok c.2.1 ∧ w.encodeCol offs (w.iter L) e.1 e.2 = .ok c.2.2 := by
  unfold encodeField at h
  split at h
  · cases h
  rename_i tw htw
  split at h
  · cases h
  rename_i col hcol
  cases h
  exact ⟨rfl, htw, hcol⟩

/-- the columns of the data -/
theorem wire_cols {w : World} {offs} {wire} (h : Ready w offs) (hw : w.wireOf offs = .ok wire) :
    ∀ l ∈ wire.layers, (l.2.cols.map (·.1)).Nodup ∧ ∀ c ∈ l.2.cols, ∃ L t, (l.1, L) ∈ w.dl ∧ (c.1, t) ∈ (w.layers L).fields ∧
      t.encode = .ok c.2.1 ∧ w.encodeCol offs (w.iter L) c.1 t = .ok c.2.2 := by
  intro l hl
  obtain ⟨L, hL, hm⟩ := (wire_layers h hw).2.2 l hl
  refine ⟨?_, fun c hc => ?_⟩
  · rw [mapE_names hm (·.1) (·.1) (fun a b hab => (encodeField_name hab).1)]
    exact h.wf.fieldKeys L
  · obtain ⟨e, he, hee⟩ := mapE_mem hm hc
    obtain ⟨h1, h2, h3⟩ := encodeField_name hee
    rw [h1]
    exact ⟨L, e.2, hL, he, h2, h3⟩

/-- the JSON object is read back -/
theorem jsonWire_body {x : Wire} (hx : WireOk x) (hn : ∀ l ∈ x.layers, (l.2.cols.map (·.1)).Nodup) : jsonWire (jsonBody x) = .ok x := by
  have hk : ∀ (g : WireLayer → Obj) e, e ∈ x.layers → (Obj.map (x.layers.map (fun e => (e.1, g e.2)))).idx e.1 = .ok (g e.2) := by
    intro g e he
    have : dget (x.layers.map (fun e => (e.1, g e.2))) e.1 = some (g e.2) :=
      dget_of_mem (by simpa [dkeys, Function.comp_def] using hx.layers) (List.mem_map.mpr ⟨e, he, rfl⟩)
    simp only [Obj.idx, this]
  have hf : ∀ l ∈ x.layers, ∀ c ∈ l.2.cols,
      jsonField (.map (x.layers.map (fun e => (e.1, .map (e.2.cols.map (fun c => (c.1, .arr c.2.2))))))) l.1 (c.1, typeObj c.2.1) = .ok c := by
    intro l hl c hc
    have ht : jsonType (typeObj c.2.1) = .ok c.2.1 := by
      obtain ⟨f, ⟨n, a⟩, col⟩ := c
      cases a with
      | none => rfl
      | some d => rfl
    have hcol : dget (l.2.cols.map (fun c => (c.1, Obj.arr c.2.2))) c.1 = some (.arr c.2.2) :=
      dget_of_mem (by have := hn l hl; simpa [dkeys, Function.comp_def] using this) (List.mem_map.mpr ⟨c, hc, rfl⟩)
    have h1 := hk (fun l => .map (l.cols.map (fun c => (c.1, .arr c.2.2)))) l hl
    have h2 : (Obj.map (l.2.cols.map (fun c => (c.1, Obj.arr c.2.2)))).idx c.1 = .ok (.arr c.2.2) := by simp only [Obj.idx, hcol]
    have h3 : jsonCol (.arr c.2.2) = .ok c.2.2 := rfl
    simp only [jsonField, ht, h1, h2, h3, bind, Except.bind, pure, Except.pure]
  have hl : mapE (jsonLayer (.map (x.layers.map (fun e => (e.1, .int e.2.num))))
      (.map (x.layers.map (fun e => (e.1, .map (e.2.cols.map (fun c => (c.1, .arr c.2.2))))))))
      (x.layers.map (fun e => (e.1, Obj.map (e.2.cols.map (fun c => (c.1, typeObj c.2.1)))))) = .ok x.layers := by
    rw [mapE_map, mapE_ok (g := id)]
    · simp
    · intro l hl
      have h1 := hk (fun l => .int l.num) l hl
      have h2 : mapE (jsonField (.map (x.layers.map (fun e => (e.1, .map (e.2.cols.map (fun c => (c.1, .arr c.2.2))))))) l.1)
          (l.2.cols.map (fun c => (c.1, typeObj c.2.1))) = .ok l.2.cols := by
        rw [mapE_map, mapE_ok (g := id)]
        · simp
        · exact hf l hl
      have h3 : (Obj.map (l.2.cols.map (fun c => (c.1, typeObj c.2.1)))).items = .ok (l.2.cols.map (fun c => (c.1, typeObj c.2.1))) := rfl
      have h4 : asCount (.int l.2.num) = .ok l.2.num := rfl
      simp only [jsonLayer, h3, h2, h1, h4, bind, Except.bind, pure, Except.pure, id]
  have i1 : (jsonBody x).idx "props".toList = .ok (.map x.props) := rfl
  have i2 : (jsonBody x).idx "texts".toList = .ok (textsObj x.texts) := rfl
  have i3 : (jsonBody x).idx "num_nodes".toList = .ok (.map (x.layers.map (fun e => (e.1, .int e.2.num)))) := rfl
  have i4 : (jsonBody x).idx "types".toList = .ok (.map (x.layers.map (fun e => (e.1, .map (e.2.cols.map (fun c => (c.1, .arr c.2.2))))))) := rfl
  have i5 : (jsonBody x).idx "schema".toList = .ok (.map (x.layers.map (fun e => (e.1, Obj.map (e.2.cols.map (fun c => (c.1, typeObj c.2.1))))))) := rfl
  have j1 : asProps (.map x.props) = .ok x.props := rfl
  have j5 : (Obj.map (x.layers.map (fun e => (e.1, Obj.map (e.2.cols.map (fun c => (c.1, typeObj c.2.1))))))).items =
    .ok (x.layers.map (fun e => (e.1, Obj.map (e.2.cols.map (fun c => (c.1, typeObj c.2.1)))))) := rfl
  simp only [jsonWire, i1, i2, i3, i4, i5, j1, j5, asTexts_texts, hl, bind, Except.bind, pure, Except.pure]

/-- the fields of a valid document pass the checks -/
theorem jsonCheck_ok {w : World} {offs} {wire} (h : Ready w offs) (hw : w.wireOf offs = .ok wire) : jsonCheck wire = .ok () := by
  unfold jsonCheck
  rw [mapE_ok (g := fun (l : Str × WireLayer) => l.2.cols.map (fun _ => ()))]
  intro l hl
  rw [mapE_ok]
  intro c hc
  obtain ⟨L, t, hL, ht, he, -⟩ := (wire_cols h hw l hl).2 c hc
  have hok := h.enc.types l.1 L c.1 t hL ht
  obtain ⟨tw, h1, h2⟩ := type_round hok.kind.2 hok.plain hok.names
  rw [he] at h1; cases h1
  unfold jsonColOk
  rw [h2]
  simp only [DataType.bare]
  cases htn : t.tname with
  | span =>
    obtain ⟨s, h3, h4⟩ := hok.text htn
    simp only [h3, (wire_layers h hw).1, dkeys_segsOf, h4, if_true]
  | ext => exact (hok.kind.1 htn).elim
  | _ => rfl

/-- keys of the JSON object are distinct -/
theorem jsonObj_keys {x : Wire} (hx : WireOk x) (hn : ∀ l ∈ x.layers, (l.2.cols.map (·.1)).Nodup) : (jsonObj x).KeysOk := by
  have hl : ∀ g : Str × WireLayer → Obj, (∀ l ∈ x.layers, (g l).KeysOk) → (Obj.map (x.layers.map (fun e => (e.1, g e)))).KeysOk := by
    intro g hg
    refine ⟨by have := hx.layers; simpa [dkeys, Function.comp_def] using this, keysM_iff.mpr ?_⟩
    intro e he
    obtain ⟨l, hl, rfl⟩ := List.mem_map.mp he
    exact hg l hl
  have hc : ∀ (g : Str × TypeWire × List Obj → Obj) l, l ∈ x.layers → (∀ c ∈ l.2.cols, (g c).KeysOk) →
      (Obj.map (l.2.cols.map (fun c => (c.1, g c)))).KeysOk := by
    intro g l hlm hg
    refine ⟨by have := hn l hlm; simpa [dkeys, Function.comp_def] using this, keysM_iff.mpr ?_⟩
    intro e he
    obtain ⟨c, hc, rfl⟩ := List.mem_map.mp he
    exact hg c hc
  have ht : ∀ l ∈ x.layers, ∀ c ∈ l.2.cols, (typeObj c.2.1).KeysOk := by
    intro l hlm c hcm
    have := hx.args l hlm c hcm
    unfold typeObj
    split
    · trivial
    · rename_i d hd
      refine ⟨?_, trivial, this d hd, trivial⟩
      show ["type".toList, "args".toList].Nodup
      decide
  refine ⟨by simp, ⟨?_, hx.props, keysOk_texts hx.texts, hl (fun e => .int e.2.num) (fun _ _ => trivial),
    hl _ (fun l hlm => hc _ l hlm (fun c hcm => hx.cols l hlm c hcm)), hl _ (fun l hlm => hc _ l hlm (ht l hlm)), trivial⟩, trivial⟩
  show ["props".toList, "texts".toList, "num_nodes".toList, "types".toList, "schema".toList].Nodup
  decide

/-- data JSON can carry -/
structure WireJson (x : Wire) : Prop where
  props : JsonableM x.props
  args : ∀ l ∈ x.layers, ∀ c ∈ l.2.cols, ∀ d, c.2.1.args = some d → JsonableM d
  cols : ∀ l ∈ x.layers, ∀ c ∈ l.2.cols, JsonableL c.2.2

theorem textsObj_jsonable (t : Dict Str (List Str)) : Jsonable (textsObj t) := by
  refine jsonableM_iff.mpr ?_
  intro e he
  obtain ⟨a, -, rfl⟩ := List.mem_map.mp he
  refine jsonableL_iff.mpr ?_
  intro o ho
  obtain ⟨s, -, rfl⟩ := List.mem_map.mp ho
  trivial

theorem jsonObj_jsonable {x : Wire} (hx : WireJson x) : Jsonable (jsonObj x) := by
  have hl : ∀ g : Str × WireLayer → Obj, (∀ l ∈ x.layers, Jsonable (g l)) → Jsonable (Obj.map (x.layers.map (fun e => (e.1, g e)))) := by
    intro g hg
    refine jsonableM_iff.mpr ?_
    intro e he
    obtain ⟨l, hl, rfl⟩ := List.mem_map.mp he
    exact hg l hl
  have hc : ∀ (g : Str × TypeWire × List Obj → Obj) (l : Str × WireLayer), (∀ c ∈ l.2.cols, Jsonable (g c)) →
      Jsonable (Obj.map (l.2.cols.map (fun c => (c.1, g c)))) := by
    intro g l hg
    refine jsonableM_iff.mpr ?_
    intro e he
    obtain ⟨c, hc, rfl⟩ := List.mem_map.mp he
    exact hg c hc
  have ht : ∀ l ∈ x.layers, ∀ c ∈ l.2.cols, Jsonable (typeObj c.2.1) := by
    intro l hlm c hcm
    have := hx.args l hlm c hcm
    unfold typeObj
    split
    · trivial
    · rename_i d hd
      exact ⟨trivial, this d hd, trivial⟩
  exact ⟨⟨hx.props, textsObj_jsonable x.texts, hl (fun e => .int e.2.num) (fun _ _ => trivial),
    hl _ (fun l hlm => hc _ l (fun c hcm => hx.cols l hlm c hcm)), hl _ (fun l hlm => hc _ l (ht l hlm)), trivial⟩, trivial⟩

/-- bytes in a column are bytes in the JSON object -/
theorem jsonObj_bytes {x : Wire} {l c} (hl : l ∈ x.layers) (hc : c ∈ l.2.cols) (h : HasBytesL c.2.2) : HasBytes (jsonObj x) := by
  refine .inl (.inr (.inr (.inr (.inl ?_))))
  refine hasBytesM_iff.mpr ⟨_, List.mem_map.mpr ⟨l, hl, rfl⟩, ?_⟩
  exact hasBytesM_iff.mpr ⟨_, List.mem_map.mpr ⟨c, hc, rfl⟩, h⟩

end Verif
