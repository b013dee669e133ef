import Verif.Model.Nested
import Verif.Proof.JavaScalars
/-
For C101: decoding of documents in fields.
-/
set_option linter.unusedSimpArgs false
namespace Verif
open World
open Spec (Both Cell LayerC Content FieldType Good TypeGood CellGood IsRef PyHas)

/-! ### the depth does not matter -/

theorem decodeN_fuel : ∀ (n m : Nat) (data : Bytes), data.length < n → data.length < m → decodeN n data = decodeN m data
  | 0, _, _, h, _ => by omega
  | _, 0, _, _, h => by omega
  | n + 1, m + 1, data, hn, hm => by
    have : shorter data (decodeN n) = shorter data (decodeN m) := by
      funext b
      unfold shorter
      split
      · exact decodeN_fuel n m b (by omega) (by omega)
      · rfl
    simp only [decodeN, this]

theorem decodeDeep_eq (data : Bytes) : decodeDeep data = decodeStep (shorter data decodeDeep) data := by
  have : shorter data (decodeN data.length) = shorter data decodeDeep := by
    funext b
    unfold shorter
    split
    · exact decodeN_fuel _ _ b (by omega) (by omega)
    · rfl
  unfold decodeDeep at *
  rw [decodeN, this]

/-! ### what a decoder that succeeds has met -/

theorem zipSet_inv {α : Type} {f : Str} {g : α → Except PyErr (Option Value)} : ∀ {nodes : List (Dict Str Value)} {data : List α} {r : List (Dict Str Value)},
    zipSet f g nodes data = .ok r → r.length = nodes.length ∧ ∀ o ∈ data.take nodes.length, ∃ v, g o = .ok v
  | [], data, r, h => by
    simp only [zipSet, Except.ok.injEq] at h
    subst h
    simp
  | d :: ds, [], r, h => by
    simp only [zipSet, Except.ok.injEq] at h
    subst h
    simp
  | d :: ds, c :: cs, r, h => by
    simp only [zipSet] at h
    cases hg : g c with
    | error e => rw [hg] at h; cases h
    | ok v =>
      rw [hg] at h
      simp only at h
      cases hz : zipSet f g ds cs with
      | error e => rw [hz] at h; cases h
      | ok rest =>
        rw [hz] at h
        cases h
        obtain ⟨h1, h2⟩ := zipSet_inv hz
        refine ⟨by simp [h1], ?_⟩
        intro o ho
        simp only [List.length_cons, List.take_succ_cons, List.mem_cons] at ho
        rcases ho with rfl | ho
        · exact ⟨v, hg⟩
        · exact h2 o ho

theorem zipSet_congr {α : Type} {f : Str} {g g' : α → Except PyErr (Option Value)} : ∀ {nodes : List (Dict Str Value)} {data : List α},
    (∀ o ∈ data.take nodes.length, g o = g' o) → zipSet f g nodes data = zipSet f g' nodes data
  | [], data, _ => by simp only [zipSet]
  | d :: ds, [], _ => by simp only [zipSet]
  | d :: ds, c :: cs, h => by
    simp only [zipSet]
    rw [h c (by simp), zipSet_congr (nodes := ds) (data := cs) (fun o ho => h o (by simp [ho]))]

/-- bytes in ext columns can be decoded -/
def ColMet (nested : Bytes → Except PyErr Unit) (n : Nat) (c : Str × DataType × List Obj) : Prop :=
  ∀ ty b, c.2.1.tname = .ext → dget c.2.1.options "type".toList = some ty → Obj.bin b ∈ c.2.2.take n → ty = .str "doc".toList ∧ nested b = .ok ()

theorem extCell_bin {nested : Bytes → Except PyErr Unit} {ty : Value} {b : Bytes} {v : Option Value} (h : extCell nested ty (.bin b) = .ok v) :
    ty = .str "doc".toList ∧ nested b = .ok () := by
  simp only [extCell] at h
  split at h
  · rename_i ht
    cases hn : nested b with
    | error e => rw [hn] at h; cases h
    | ok u => exact ⟨ht, rfl⟩
  · cases h

theorem decodeCol_inv {nested : Bytes → Except PyErr Unit} {tab : TextTab} {c : Str × DataType × List Obj} {nodes r : List (Dict Str Value)}
    (h : decodeCol nested tab c.1 c.2.1 c.2.2 nodes = .ok r) : r.length = nodes.length ∧ ColMet nested nodes.length c := by
  unfold decodeCol at h
  split at h
  · rename_i hn
    refine ⟨?_, fun ty b ht => by rw [ht] at hn; cases hn⟩
    split at h
    · cases h
    · cases h
    · split at h
      · cases h; rfl
      · exact (zipSet_inv h).1
    · cases h; rfl
  · rename_i hn
    split at h
    · cases h
    · rename_i ty hty
      obtain ⟨h1, h2⟩ := zipSet_inv h
      refine ⟨h1, ?_⟩
      intro ty' b _ ht hb
      rw [hty] at ht
      cases ht
      obtain ⟨v, hv⟩ := h2 _ hb
      exact extCell_bin hv
  · rename_i h1 h2
    exact ⟨(zipSet_inv h).1, fun ty b ht => absurd ht h2⟩

theorem decodeCols_inv {nested : Bytes → Except PyErr Unit} {tab : TextTab} : ∀ {cols : List (Str × DataType × List Obj)} {nodes r : List (Dict Str Value)},
    decodeCols nested tab cols nodes = .ok r → ∀ c ∈ cols, ColMet nested nodes.length c
  | [], _, _, _ => by simp
  | (f, t, data) :: cols, nodes, r, h => by
    simp only [decodeCols] at h
    cases hc : decodeCol nested tab f t data nodes with
    | error e => rw [hc] at h; cases h
    | ok n1 =>
      rw [hc] at h
      obtain ⟨h1, h2⟩ := decodeCol_inv (c := (f, t, data)) hc
      intro c hm
      rcases List.mem_cons.mp hm with rfl | hm
      · exact h2
      · rw [← h1]
        exact decodeCols_inv h c hm

theorem decodeCol_congr {nested nested' : Bytes → Except PyErr Unit} {tab : TextTab} {c : Str × DataType × List Obj} {nodes : List (Dict Str Value)}
    (h : ColMet nested nodes.length c) (h' : ColMet nested' nodes.length c) :
    decodeCol nested tab c.1 c.2.1 c.2.2 nodes = decodeCol nested' tab c.1 c.2.1 c.2.2 nodes := by
  unfold decodeCol
  cases hn : c.2.1.tname with
  | ext =>
    simp only
    cases hty : dget c.2.1.options "type".toList with
    | none => rfl
    | some ty =>
      simp only
      apply zipSet_congr
      intro o ho
      cases o with
      | bin b =>
        obtain ⟨h1, h2⟩ := h ty b hn hty ho
        obtain ⟨-, h3⟩ := h' ty b hn hty ho
        simp only [extCell, h2, h3]
      | _ => rfl
  | _ => rfl

theorem decodeCols_congr {nested nested' : Bytes → Except PyErr Unit} {tab : TextTab} : ∀ {cols : List (Str × DataType × List Obj)} {nodes r : List (Dict Str Value)},
    decodeCols nested tab cols nodes = .ok r → (∀ c ∈ cols, ColMet nested' nodes.length c) → decodeCols nested' tab cols nodes = .ok r
  | [], _, _, h, _ => h
  | (f, t, data) :: cols, nodes, r, h, h' => by
    simp only [decodeCols] at h ⊢
    cases hc : decodeCol nested tab f t data nodes with
    | error e => rw [hc] at h; cases h
    | ok n1 =>
      rw [hc] at h
      obtain ⟨h1, h2⟩ := decodeCol_inv (c := (f, t, data)) hc
      have := decodeCol_congr (c := (f, t, data)) (tab := tab) h2 (h' _ (by simp))
      simp only at this
      rw [← this, hc]
      exact decodeCols_congr h (fun c hm => by rw [h1]; exact h' c (by simp [hm]))

theorem mapE_each {α β : Type} {f : α → Except PyErr β} {l : List α} {r : List β} (h : mapE f l = .ok r) {a : α} (ha : a ∈ l) : ∃ b ∈ r, f a = .ok b := by
  obtain ⟨h1, h2⟩ := mapE_inv h
  obtain ⟨i, hi, rfl⟩ := List.getElem_of_mem ha
  exact ⟨r[i], List.getElem_mem _, h2 i hi (by omega)⟩

theorem mapE_congr {α β : Type} {f g : α → Except PyErr β} : ∀ {l : List α}, (∀ a ∈ l, f a = g a) → mapE f l = mapE g l
  | [], _ => rfl
  | a :: l, h => by simp only [mapE, h a (by simp), mapE_congr (fun a ha => h a (List.mem_cons_of_mem _ ha))]

theorem mem_extCol {k : Str} {n : Nat} {c : Str × DataType × List Obj} {p : Str × Nat × Str} {ty : Value} {b : Bytes} :
    (p, ty, b) ∈ extCol k n c ↔ c.2.1.tname = .ext ∧ dget c.2.1.options "type".toList = some ty ∧ p.1 = k ∧ p.2.2 = c.1 ∧ p.2.1 < n ∧ c.2.2[p.2.1]? = some (.bin b) := by
  obtain ⟨k', i, f⟩ := p
  unfold extCol
  split
  · rename_i h1
    cases hty : dget c.2.1.options "type".toList with
    | none => simp
    | some ty' =>
      simp only [List.mem_filterMap, Prod.exists, List.mem_zipIdx_iff_getElem?, h1, true_and, Option.some.injEq]
      constructor
      · rintro ⟨o, j, h2, h3⟩
        rw [List.getElem?_take] at h2
        split at h2
        · cases o with
          | bin b' =>
            simp only [binAt, Option.some.injEq, Prod.mk.injEq] at h3
            obtain ⟨⟨rfl, rfl, rfl⟩, rfl, rfl⟩ := h3
            exact ⟨rfl, rfl, rfl, by assumption, h2⟩
          | _ => simp [binAt] at h3
        · cases h2
      · rintro ⟨rfl, rfl, rfl, h4, h5⟩
        exact ⟨.bin b, i, by rw [List.getElem?_take, if_pos h4]; exact h5, rfl⟩
  · rename_i h1
    simp [h1]

theorem mem_extCells {x : Wire} {sch : DSchema} (hs : mapE decodeSchema x.layers = .ok sch) {p : Str × Nat × Str} {ty : Value} {b : Bytes} :
    (p, ty, b) ∈ extCells x ↔ ∃ l ∈ sch, ∃ c ∈ l.2.1, (p, ty, b) ∈ extCol l.1 l.2.2.toNat c := by
  unfold extCells
  rw [hs]
  simp only [List.mem_flatMap]

/-- a decoder that succeeds has decoded all bytes in ext fields -/
theorem fromWireN_inv {nested : Bytes → Except PyErr Unit} {x : Wire} {w : World} (h : fromWireN nested x = .ok w) :
    ∀ p ty b, (p, ty, b) ∈ extCells x → ty = .str "doc".toList ∧ nested b = .ok () := by
  unfold fromWireN at h
  split at h
  · cases h
  · cases hs : mapE decodeSchema x.layers with
    | error e => rw [hs] at h; cases h
    | ok sch =>
      rw [hs] at h
      simp only at h
      cases hl : mapE (decodeLayer nested (textTab x.texts)) sch with
      | error e => rw [hl] at h; cases h
      | ok ls =>
        intro p ty b hp
        obtain ⟨l, hm, c, hc, hp⟩ := (mem_extCells hs).mp hp
        obtain ⟨d, -, hd⟩ := mapE_each hl hm
        unfold decodeLayer at hd
        split at hd
        · cases hd
        · rename_i r hr
          have := decodeCols_inv hr c hc
          rw [List.length_replicate] at this
          obtain ⟨h1, h2, -, -, h5, h6⟩ := mem_extCol.mp hp
          refine this ty b h1 h2 (List.mem_of_getElem? (i := p.2.1) ?_)
          rw [List.getElem?_take, if_pos h5]
          exact h6

/-- other decoders that can decode these bytes give the same document -/
theorem fromWireN_congr {nested nested' : Bytes → Except PyErr Unit} {x : Wire} {w : World} (h : fromWireN nested x = .ok w)
    (h' : ∀ p ty b, (p, ty, b) ∈ extCells x → nested' b = .ok ()) : fromWireN nested' x = .ok w := by
  have hinv := fromWireN_inv h
  unfold fromWireN at h ⊢
  split at h
  · cases h
  · rename_i hk
    rw [if_neg hk]
    cases hs : mapE decodeSchema x.layers with
    | error e => rw [hs] at h; cases h
    | ok sch =>
      rw [hs] at h
      simp only at h ⊢
      cases hl : mapE (decodeLayer nested (textTab x.texts)) sch with
      | error e => rw [hl] at h; cases h
      | ok ls =>
        rw [hl] at h
        have : mapE (decodeLayer nested' (textTab x.texts)) sch = .ok ls := by
          rw [← hl]
          apply mapE_congr
          intro l hm
          obtain ⟨d, -, hd⟩ := mapE_each hl hm
          rw [hd]
          unfold decodeLayer at hd ⊢
          split at hd
          · cases hd
          · rename_i r hr
            rw [decodeCols_congr hr]
            · exact hd
            · intro c hc ty b h1 h2 h3
              rw [List.length_replicate] at h3
              obtain ⟨i, hi⟩ := List.getElem?_of_mem h3
              rw [List.getElem?_take] at hi
              split at hi
              · rename_i hlt
                have hmem := (mem_extCells hs (p := (l.1, i, c.1))).mpr ⟨l, hm, c, hc, mem_extCol.mpr ⟨h1, h2, rfl, rfl, hlt, hi⟩⟩
                exact ⟨(hinv _ _ _ hmem).1, h' _ _ _ hmem⟩
              · cases hi
        rw [this]
        exact h

/-! ### errors -/

theorem zipSet_ok {α : Type} {f : Str} {g : α → Except PyErr (Option Value)} : ∀ {nodes : List (Dict Str Value)} {data : List α},
    (∀ o ∈ data.take nodes.length, ∃ v, g o = .ok v) → ∃ r, zipSet f g nodes data = .ok r
  | [], data, _ => ⟨[], by simp only [zipSet]⟩
  | d :: ds, [], _ => ⟨d :: ds, by simp only [zipSet]⟩
  | d :: ds, c :: cs, h => by
    obtain ⟨v, hv⟩ := h c (by simp)
    obtain ⟨r, hr⟩ := zipSet_ok (f := f) (g := g) (nodes := ds) (data := cs) (fun o ho => h o (by simp [ho]))
    exact ⟨_, by simp only [zipSet, hv, hr]; rfl⟩

theorem zipSet_err {α : Type} {f : Str} {g : α → Except PyErr (Option Value)} : ∀ {nodes : List (Dict Str Value)} {data : List α} {e : PyErr},
    zipSet f g nodes data = .error e → ∃ o ∈ data, g o = .error e
  | [], data, _, h => by simp only [zipSet] at h; cases h
  | d :: ds, [], _, h => by simp only [zipSet] at h; cases h
  | d :: ds, c :: cs, e, h => by
    simp only [zipSet] at h
    cases hg : g c with
    | error e' => rw [hg] at h; cases h; exact ⟨c, by simp, hg⟩
    | ok v =>
      rw [hg] at h
      simp only at h
      cases hz : zipSet f g ds cs with
      | error e' =>
        rw [hz] at h
        cases h
        obtain ⟨o, h1, h2⟩ := zipSet_err hz
        exact ⟨o, by simp [h1], h2⟩
      | ok rest => rw [hz] at h; cases h

theorem decodeCol_any {nested : Bytes → Except PyErr Unit} {tab : TextTab} {f : Str} {t : DataType} {data : List Obj} {nodes nodes' r : List (Dict Str Value)}
    (h : decodeCol nested tab f t data nodes = .ok r) (hl : nodes'.length = nodes.length) : ∃ r', decodeCol nested tab f t data nodes' = .ok r' := by
  unfold decodeCol at h ⊢
  have key : ∀ {α : Type} {g : α → Except PyErr (Option Value)} {l : List α}, zipSet f g nodes l = .ok r → ∃ r', zipSet f g nodes' l = .ok r' := by
    intro α g l h
    apply zipSet_ok
    rw [hl]
    exact (zipSet_inv h).2
  split at h
  · split at h
    · cases h
    · cases h
    · split at h
      · exact ⟨_, rfl⟩
      · exact key h
    · exact ⟨_, rfl⟩
  · split at h
    · cases h
    · exact key h
  · exact key h

/-- columns of extended values of another type than "doc", or values that can be decoded -/
theorem decodeCols_attr {nested : Bytes → Except PyErr Unit} {tab : TextTab} {n : Nat} : ∀ {cols : List (Str × DataType × List Obj)} {nodes : List (Dict Str Value)},
    (∀ c ∈ cols, ∀ nodes : List (Dict Str Value), nodes.length = n → decodeCol nested tab c.1 c.2.1 c.2.2 nodes = .error .attribute ∨
      ∃ r, decodeCol nested tab c.1 c.2.1 c.2.2 nodes = .ok r) → nodes.length = n →
    decodeCols nested tab cols nodes = .error .attribute ∨ ∃ r, decodeCols nested tab cols nodes = .ok r
  | [], nodes, _, _ => .inr ⟨nodes, rfl⟩
  | c :: cols, nodes, h, hl => by
    obtain ⟨f, t, data⟩ := c
    simp only [decodeCols]
    rcases h (f, t, data) (by simp) nodes hl with h1 | ⟨r, h1⟩ <;> rw [h1]
    · exact .inl rfl
    · exact decodeCols_attr (fun c hc => h c (by simp [hc])) ((decodeCol_inv (c := (f, t, data)) h1).1.trans hl)

theorem mapE_attr {α β : Type} {f : α → Except PyErr β} : ∀ {l : List α}, (∀ a ∈ l, f a = .error .attribute ∨ ∃ b, f a = .ok b) →
    mapE f l = .error .attribute ∨ ∃ r, mapE f l = .ok r
  | [], _ => .inr ⟨[], rfl⟩
  | a :: l, h => by
    simp only [mapE]
    rcases h a (by simp) with h1 | ⟨b, h1⟩ <;> rw [h1]
    · exact .inl rfl
    · simp only
      rcases mapE_attr (l := l) (fun a ha => h a (by simp [ha])) with h2 | ⟨r, h2⟩ <;> rw [h2]
      · exact .inl rfl
      · exact .inr ⟨_, rfl⟩

/-! ### data with a content -/

/-- an element of a column of ext fields -/
theorem wcell_ext {x : Wire} {c : Content} {t : TypeWire} {ft : FieldType} {es : List Obj} {y : Option Cell} (h : WCell x t es y) (hw : WType t ft)
    (hg : CellIs c ft y) (hs : t.name = "ext".toList) : (es = [.nil] ∧ y = none) ∨ ∃ b, es = [.bin b] ∧ y = some (.ext b) := by
  have hf : ft.1 = "ext".toList := hw.1.symm.trans hs
  cases h with
  | null => exact .inl ⟨rfl, rfl⟩
  | nullSpan h => rw [hs] at h; exact absurd h (by decide)
  | ext => exact .inr ⟨_, rfl, rfl⟩
  | bool => cases hg _ rfl with | bool e => rw [hf] at e; exact absurd e (by decide)
  | int => cases hg _ rfl with | int e => rw [hf] at e; exact absurd e (by decide)
  | float => cases hg _ rfl with | float e => rw [hf] at e; exact absurd e (by decide)
  | str => cases hg _ rfl with | str e => rw [hf] at e; exact absurd e (by decide)
  | bin => cases hg _ rfl with | bin e => rw [hf] at e; exact absurd e (by decide)
  | span => cases hg _ rfl with | span e => rw [hf] at e; exact absurd e (by decide)
  | node => cases hg _ rfl with | node e => rw [hf] at e; exact absurd e (by decide)
  | nodes => cases hg _ rfl with | nodes e => rw [hf] at e; exact absurd e (by decide)
  | nodespan => cases hg _ rfl with | nodespan e => rw [hf] at e; exact absurd e (by decide)

/-- the column of an ext field: one element for each node -/
theorem ext_col {x : Wire} {c : Content} {lc : LayerC} {e : Str × TypeWire × List Obj} {ft : FieldType} (h : ColOk x c lc e ft) (hs : e.2.1.name = "ext".toList) :
    e.2.2.length = lc.rows.length ∧ ∀ (i : Nat) o row, e.2.2[i]? = some o → lc.rows[i]? = some row →
      (o = .nil ∧ row e.1 = none) ∨ ∃ b, o = .bin b ∧ row e.1 = some (.ext b) := by
  obtain ⟨hw, hg, ess, he1, he2, he3⟩ := h
  have hns : e.2.1.name ≠ "span".toList := by rw [hs]; decide
  obtain ⟨l, hl1, hl2⟩ := ones (ess := ess) (by
    intro es hm
    obtain ⟨i, hi⟩ := List.getElem?_of_mem hm
    obtain ⟨row, hrow⟩ := getElem?_of_len he1 hi
    exact wcell_one (he3 i es row hi hrow).1 hw (he3 i es row hi hrow).2 hns)
  rw [he2, hl2]
  refine ⟨by rw [← he1, hl1, List.length_map], ?_⟩
  intro i o row ho hrow
  obtain ⟨h1, h2⟩ := he3 i [o] row (by rw [hl1, List.getElem?_map, ho]; rfl) hrow
  rcases wcell_ext h1 hw h2 hs with ⟨h3, h4⟩ | ⟨b, h3, h4⟩
  · exact .inl ⟨List.head_eq_of_cons_eq h3, h4⟩
  · exact .inr ⟨b, List.head_eq_of_cons_eq h3, h4⟩

theorem ext_tname {c : Content} {t : TypeWire} {ft : FieldType} (hw : WType t ft) (hg : TypeGood c ft) : (pyType t).tname = .ext ↔ t.name = "ext".toList := by
  obtain ⟨-, h, -⟩ := pyType_ok hw hg
  constructor
  · intro e
    rw [e] at h
    exact (Except.ok.inj h).symm
  · intro e
    exact wire_inj (by rw [h, e]) (b := .ext) rfl

theorem zipSet_attr {α : Type} {f : Str} {g : α → Except PyErr (Option Value)} {nodes : List (Dict Str Value)} {data : List α}
    (h : ∀ o ∈ data, g o = .error .attribute ∨ ∃ v, g o = .ok v) : zipSet f g nodes data = .error .attribute ∨ ∃ r, zipSet f g nodes data = .ok r := by
  cases hz : zipSet f g nodes data with
  | ok r => exact .inr ⟨r, rfl⟩
  | error e =>
    obtain ⟨o, h1, h2⟩ := zipSet_err hz
    rcases h o h1 with h3 | ⟨v, h3⟩
    · rw [h2] at h3
      cases h3
      exact .inl rfl
    · rw [h2] at h3
      cases h3

/-- if all documents in fields can be decoded, all columns can be read, but for those of extended values of other types -/
theorem col_attr {nested : Bytes → Except PyErr Unit} {x : Wire} {c : Content} (hx : WHas x c) {lc : LayerC} {e : Str × TypeWire × List Obj} {ft : FieldType}
    (h : ColOk x c lc e ft)
    (hex : ∀ row ∈ lc.rows, ∀ b, row e.1 = some (.ext b) → ft.2 "type".toList = some (.str "doc".toList) → nested b = .ok ())
    {nodes : List (Dict Str Value)} (hl : nodes.length = lc.rows.length) :
    decodeCol nested (textTab x.texts) e.1 (pyType e.2.1) e.2.2 nodes = .error .attribute ∨ ∃ r, decodeCol nested (textTab x.texts) e.1 (pyType e.2.1) e.2.2 nodes = .ok r := by
  by_cases hs : e.2.1.name = "ext".toList
  · obtain ⟨h1, h2⟩ := ext_col h hs
    have ht : (pyType e.2.1).tname = .ext := (ext_tname h.type h.good).mpr hs
    obtain ⟨s, hty⟩ := h.good.ext (h.type.1.symm.trans hs)
    have ho : dget (pyType e.2.1).options "type".toList = some (.str s) := pyType_opt (by rw [h.type.2]; exact hty)
    unfold decodeCol
    rw [ht]
    simp only [ho]
    apply zipSet_attr
    intro o hm
    obtain ⟨i, hi⟩ := List.getElem?_of_mem hm
    obtain ⟨row, hrow⟩ := getElem?_of_len h1 hi
    rcases h2 i o row hi hrow with ⟨rfl, -⟩ | ⟨b, rfl, hb⟩
    · exact .inr ⟨_, rfl⟩
    · simp only [extCell]
      split
      · rename_i hd
        cases hd
        rw [hex row (List.mem_of_getElem? hrow) b hb hty]
        exact .inr ⟨_, rfl⟩
      · exact .inl rfl
  · obtain ⟨r, h1, -⟩ := col_py (nested := nested) hx h (rows := List.replicate lc.rows.length []) (by simp) (rows_replicate _) (fun _ _ h => h) (by
      intro row hrow b hb
      obtain ⟨i, hi⟩ := List.getElem?_of_mem hrow
      obtain ⟨ess, he1, -, he3⟩ := h.cells
      obtain ⟨es, hes⟩ := getElem?_of_len he1.symm hi
      cases (he3 i es row hes hi).2 _ hb with
      | ext e => exact absurd (h.type.1.trans e) hs)
    exact .inr (decodeCol_any h1 (by rw [hl]; simp))

/-- then reading works, or is an AttributeError -/
theorem fromWireN_attr {nested : Bytes → Except PyErr Unit} {x : Wire} {c : Content} (hx : WHas x c) (hg : Good c)
    (hex : ∀ k lc f ft row b, c.layers k = some lc → lc.fields f = some ft → row ∈ lc.rows → row f = some (.ext b) →
      ft.2 "type".toList = some (.str "doc".toList) → nested b = .ok ()) :
    fromWireN nested x = .error .attribute ∨ ∀ p ty b, (p, ty, b) ∈ extCells x → ty = .str "doc".toList := by
  have h1 := schema_py hx hg
  have hk : ¬ (¬ (dkeys x.layers).Nodup ∨ ¬ (dkeys x.texts).Nodup ∨ ¬ (dkeys x.props).Nodup) := by
    simp [hx.ok.layers, hx.ok.texts, keysOk_map hx.ok.props]
  have h2 := mapE_attr (f := decodeLayer nested (textTab x.texts))
    (l := x.layers.map (fun e => (e.1, e.2.cols.map (fun e => (e.1, pyType e.2.1, e.2.2)), e.2.num))) (by
      intro a ha
      obtain ⟨⟨k, l⟩, he, rfl⟩ := List.mem_map.mp ha
      obtain ⟨lc, hc, hw⟩ := lay_of hx _ he
      have := decodeCols_attr (nested := nested) (tab := textTab x.texts) (n := l.num.toNat) (cols := l.cols.map (fun e => (e.1, pyType e.2.1, e.2.2)))
        (nodes := List.replicate l.num.toNat []) (by
          intro c' hc' nodes hl
          obtain ⟨e, he', rfl⟩ := List.mem_map.mp hc'
          obtain ⟨ft, hft, hco⟩ := col_of hg hc hw e he'
          exact col_attr hx hco (fun row hrow b hb => hex k lc e.1 ft row b hc hft hrow hb) (by rw [hl, hw.num]; simp)) (by simp)
      unfold decodeLayer
      simp only
      rcases this with h | ⟨r, h⟩ <;> rw [h]
      · exact .inl rfl
      · exact .inr ⟨_, rfl⟩)
  rcases h2 with h2 | ⟨ls, h2⟩
  · left
    unfold fromWireN
    rw [if_neg hk, h1]
    simp only
    rw [h2]
  · right
    intro p ty b hp
    obtain ⟨l, hm, cc, hc, hp⟩ := (mem_extCells h1).mp hp
    obtain ⟨d, -, hd⟩ := mapE_each h2 hm
    unfold decodeLayer at hd
    split at hd
    · cases hd
    · rename_i r hr
      have := decodeCols_inv hr cc hc
      rw [List.length_replicate] at this
      obtain ⟨h1, h2, -, -, h5, h6⟩ := mem_extCol.mp hp
      refine (this ty b h1 h2 (List.mem_of_getElem? (i := p.2.1) ?_)).1
      rw [List.getElem?_take, if_pos h5]
      exact h6

/-- bytes in columns are shorter than the file -/
theorem bin_shorter {x : Wire} {bs : Bytes} (h : encodeBytes x = .ok bs) {k l} (hl : (k, l) ∈ x.layers) {e : Str × TypeWire × List Obj} (he : e ∈ l.cols)
    {b : Bytes} (hb : Obj.bin b ∈ e.2.2) : b.length < bs.length := by
  obtain ⟨p⟩ := parts_of h
  obtain ⟨b1, h1, h2⟩ := catL_mem p.hLayers (List.mem_map.mpr ⟨_, hl, rfl⟩)
  simp only at h1
  unfold layerBytes at h1
  obtain ⟨b2, l2, h3, -, rfl⟩ := sized_ok h1
  obtain ⟨b3, b4, -, h4, rfl⟩ := cat_ok h3
  obtain ⟨b5, h5, h6⟩ := catL_mem h4 (List.mem_map.mpr ⟨_, he, rfl⟩)
  obtain ⟨b7, b8, -, h7, rfl⟩ := cat_ok h5
  unfold pack at h7
  rw [show 512 = 511 + 1 from rfl, packAt_arr] at h7
  obtain ⟨b9, b10, -, h8, rfl⟩ := cat_ok h7
  obtain ⟨b11, h9, h10⟩ := catL_mem h8 (List.mem_map.mpr ⟨_, hb, rfl⟩)
  obtain ⟨-, -, -, -, -, h11⟩ := bin_head (d := b) (bs := b11) (by rw [← h9]; rfl)
  have := congrArg List.length p.eq
  simp only [List.length_append] at this h2 h6 h10
  have : magic.length = 4 := rfl
  omega

end Verif
