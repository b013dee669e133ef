import Verif.Proof.Nested
import Verif.Props.JavaHadoop
import Verif.Props.Ext
/-
C101: extended values, and documents inside documents, between the libraries.
-/
set_option linter.unusedSimpArgs false
namespace Verif
open World
open Spec (Both Cell LayerC Content FieldType Good TypeGood CellGood IsRef PyHas JHas JSound JavaReadable)

/-! ### specification -/

namespace Spec

/-- A field of an extended type. `p` is the name of a layer, the place of a node in it, and the name of a field of the node: that
field is declared with the extended type `s` and holds the bytes `b`. -/
def ExtAt (c : Content) (p : Str × Nat × Str) (s : Str) (b : Bytes) : Prop :=
  ∃ l ft row, c.layers p.1 = some l ∧ l.fields p.2.2 = some ft ∧ ft.2 "type".toList = some (.str s) ∧ l.rows[p.2.1]? = some row ∧ row p.2.2 = some (.ext b)

/-- the content of a document, and of the documents inside it, by their bytes (`none` for bytes that are no document) -/
inductive DeepContent
  | none
  | mk (c : Content) (inner : Bytes → DeepContent)

/-- bytes that one of the libraries writes for a document all of whose extended values are of the type "doc" and are, again, such
bytes; the documents inside can be written by either library too -/
inductive DeepWritten : DeepContent → Bytes → Prop
  | mk {c inner bs} : WrittenBy c bs → (∀ p s b, ExtAt c p s b → s = "doc".toList) → (∀ p s b, ExtAt c p s b → DeepWritten (inner b) b) →
      DeepWritten (.mk c inner) bs

/-- What Python has decoded: a document with this content, where the fields of extended types that hold something hold a Document
each, and these have the contents that they should have. -/
inductive DeepHas : Deep → DeepContent → Prop
  | mk {w docs c inner} : PyHas w c.strip → (∀ p, p ∈ docs.map (·.1) ↔ ∃ s b, ExtAt c p s b) →
      (∀ p s b t, ExtAt c p s b → (p, t) ∈ docs → DeepHas t (inner b)) → DeepHas (.mk w docs) (.mk c inner)

end Spec

/-! ### files -/

theorem extCells_iff {x : Wire} {c : Content} (hx : WHas x c) (hg : Good c) {p : Str × Nat × Str} {ty : Value} {b : Bytes} :
    (p, ty, b) ∈ extCells x ↔ ∃ s, ty = .str s ∧ Spec.ExtAt c p s b := by
  obtain ⟨k, i, f⟩ := p
  rw [mem_extCells (schema_py hx hg)]
  constructor
  · rintro ⟨l, hl0, e, he0, hm⟩
    obtain ⟨⟨k', l⟩, hl, rfl⟩ := List.mem_map.mp hl0
    obtain ⟨e, he, rfl⟩ := List.mem_map.mp he0
    obtain ⟨h1, h2, h3, h4, h5, h6⟩ := mem_extCol.mp hm
    simp only at h1 h2 h3 h4 h5 h6
    subst h3
    subst h4
    obtain ⟨lc, hc, hw⟩ := lay_of hx _ hl
    obtain ⟨ft, hft, hco⟩ := col_of hg hc hw e he
    have hs := (ext_tname hco.type hco.good).mp h1
    obtain ⟨s, hty⟩ := hco.good.ext (hco.type.1.symm.trans hs)
    rw [pyType_opt (by rw [hco.type.2]; exact hty)] at h2
    cases h2
    obtain ⟨g1, g2⟩ := ext_col hco hs
    obtain ⟨row, hrow⟩ := getElem?_of_len g1 h6
    rcases g2 i _ row h6 hrow with ⟨h, -⟩ | ⟨b', h, hb⟩
    · cases h
    · cases h
      exact ⟨s, rfl, lc, ft, row, hc, hft, hty, hrow, hb⟩
  · rintro ⟨s, rfl, lc, ft, row, hc, hft, hty, hrow, hb⟩
    simp only at hc hft hrow hb
    have hbo := hx.layers k
    rw [hc] at hbo
    obtain ⟨l, hl, hw⟩ := hbo.to_some
    have hf := hw.fields f
    rw [hft] at hf
    obtain ⟨t, ht, hwt⟩ := hf.to_some
    obtain ⟨e, he, hee⟩ := List.mem_map.mp (dget_mem ht)
    obtain ⟨f', t', data⟩ := e
    simp only [Prod.mk.injEq] at hee
    obtain ⟨rfl, rfl⟩ := hee
    obtain ⟨ft', hft', hco⟩ := col_of hg hc hw _ he
    simp only at hft'
    rw [hft] at hft'
    cases hft'
    obtain ⟨ft', hft', hcg⟩ := hg.cells k lc row f' _ hc (List.mem_of_getElem? hrow) hb
    rw [hft] at hft'
    cases hft'
    have hs : t'.name = "ext".toList := by
      cases hcg with
      | ext e => exact hwt.1.trans e
    obtain ⟨g1, g2⟩ := ext_col hco hs
    obtain ⟨o, ho⟩ := getElem?_of_len g1.symm hrow
    simp only at ho g2
    refine ⟨_, List.mem_map.mpr ⟨_, dget_mem hl, rfl⟩, _, List.mem_map.mpr ⟨_, he, rfl⟩, mem_extCol.mpr ⟨(ext_tname hwt hco.good).mpr hs,
      pyType_opt (by rw [hwt.2]; exact hty), rfl, rfl, ?_, ?_⟩⟩
    · have := (List.getElem?_eq_some_iff.mp hrow).1
      simp only [hw.num]
      omega
    · rcases g2 i o row ho hrow with ⟨-, h⟩ | ⟨b', rfl, h⟩
      · rw [hb] at h
        cases h
      · rw [hb] at h
        cases h
        exact ho

/-- the bytes in fields are shorter than the file -/
theorem ext_shorter {x : Wire} {bs : Bytes} (h : encodeBytes x = .ok bs) {c : Content} (hx : WHas x c) (hg : Good c)
    {p : Str × Nat × Str} {s : Str} {b : Bytes} (hp : Spec.ExtAt c p s b) : b.length < bs.length := by
  obtain ⟨l, hl0, e, he0, hm⟩ := (mem_extCells (schema_py hx hg)).mp ((extCells_iff hx hg).mpr ⟨s, rfl, hp⟩)
  obtain ⟨⟨k', l⟩, hl, rfl⟩ := List.mem_map.mp hl0
  obtain ⟨e, he, rfl⟩ := List.mem_map.mp he0
  obtain ⟨-, -, -, -, -, h6⟩ := mem_extCol.mp hm
  exact bin_shorter h hl he (List.mem_of_getElem? h6)

/-- what decoding a written file does -/
structure Opened (c : Content) (bs : Bytes) (x : Wire) : Prop where
  has : WHas x c
  magic : bs.take 4 = magic
  read : readWire (bs.drop 4) = .ok (x, [])
  short : ∀ p s b, Spec.ExtAt c p s b → b.length < bs.length

theorem opened {c : Content} {bs : Bytes} (h : Spec.WrittenBy c bs) : (∃ x, Opened c bs x) ∧ Good c := by
  obtain ⟨⟨x, h1, h2, h3⟩, hg⟩ := written_wrote h
  refine ⟨⟨x, h1, encode_magic h2, ?_, fun p s b => ext_shorter h2 h1 hg⟩, hg⟩
  obtain ⟨p⟩ := parts_of h2
  have hr := read_wire h1.ok p []
  have : bs.drop 4 = p.propLen ++ (p.prop ++ ((p.types ++ p.schema) ++ (p.textLen ++ (p.text ++ p.layers)))) := by
    refine (congrArg (List.drop 4) p.eq).trans ?_
    simp only [List.append_assoc]
    rfl
  rw [List.append_nil] at hr
  rw [this]
  exact hr

theorem shorter_of {data b : Bytes} {f : Bytes → Except PyErr Deep} (h : b.length < data.length) : shorter data f b = f b := by
  unfold shorter
  rw [if_pos h]

theorem forget_ok {r : Except PyErr Deep} : forget r = .ok () ↔ ∃ t, r = .ok t := by
  cases r <;> simp [forget]

/-- a file whose extended values can all be decoded -/
theorem opens_deep {c : Content} {bs : Bytes} {x : Wire} (ho : Opened c bs x) (hg : Good c) {f : Str × Nat × Str → Bytes → Deep}
    (hd : ∀ p s b, Spec.ExtAt c p s b → s = "doc".toList ∧ decodeDeep b = .ok (f p b)) :
    ∃ w, decodeDeep bs = .ok (.mk w ((extCells x).map (fun e => (e.1, f e.1 e.2.2)))) ∧ PyHas w c.strip := by
  obtain ⟨w, h1, h2, -⟩ := py_readN (nested := fun b => forget (shorter bs decodeDeep b)) ho.has hg (by
    intro k lc g ft row hc hft hrow b hb
    obtain ⟨i, hi⟩ := List.getElem?_of_mem hrow
    obtain ⟨ft', hft', hcg⟩ := hg.cells k lc row g _ hc hrow hb
    rw [hft] at hft'
    cases hft'
    have hn : ft.1 = "ext".toList := by cases hcg with | ext e => exact e
    obtain ⟨s, hs⟩ := (hg.types k lc g ft hc hft).ext hn
    have he : Spec.ExtAt c (k, i, g) s b := ⟨lc, ft, row, hc, hft, hs, hi, hb⟩
    obtain ⟨h3, h4⟩ := hd _ _ _ he
    subst h3
    simp only [shorter_of (ho.short _ _ _ he), h4]
    exact ⟨hs, rfl⟩)
  refine ⟨w, ?_, h2⟩
  rw [decodeDeep_eq]
  unfold decodeStep
  rw [if_neg (by simp [ho.magic]), ho.read]
  simp only
  rw [h1]
  simp only
  rw [mapE_ok (g := fun e => (e.1, f e.1 e.2.2))]
  rintro ⟨p, ty, b⟩ he0
  obtain ⟨s, rfl, he⟩ := (extCells_iff ho.has hg).mp he0
  simp only [shorter_of (ho.short _ _ _ he), (hd _ _ _ he).2, inPlace]

/-! ### theorems -/

/-- C101. A document with documents inside, and these with documents inside, to any depth, each written by either library: Python
reads all of them. -/
theorem C101_nested {D : Spec.DeepContent} {bs : Bytes} (h : Spec.DeepWritten D bs) : ∃ t, decodeDeep bs = .ok t ∧ Spec.DeepHas t D := by
  classical
  induction h with
  | @mk c inner bs hw h1 h2 ih =>
    obtain ⟨⟨x, ho⟩, hg⟩ := opened hw
    obtain ⟨w, h3, h4⟩ := opens_deep (f := fun p b => if h : ∃ s, Spec.ExtAt c p s b then (ih p h.choose b h.choose_spec).choose else .mk .empty []) ho hg (by
      intro p s b he
      refine ⟨h1 _ _ _ he, ?_⟩
      have : ∃ s, Spec.ExtAt c p s b := ⟨s, he⟩
      rw [dif_pos this]
      exact (ih p this.choose b this.choose_spec).choose_spec.1)
    refine ⟨_, h3, h4, ?_, ?_⟩
    · intro p
      rw [List.map_map, List.mem_map]
      constructor
      · rintro ⟨⟨p', ty, b⟩, he, rfl⟩
        obtain ⟨s, -, he⟩ := (extCells_iff ho.has hg).mp he
        exact ⟨s, b, he⟩
      · rintro ⟨s, b, he⟩
        exact ⟨(p, .str s, b), (extCells_iff ho.has hg).mpr ⟨s, rfl, he⟩, rfl⟩
    · intro p s b t he ht
      obtain ⟨⟨p', ty, b'⟩, he', hee⟩ := List.mem_map.mp ht
      simp only [Prod.mk.injEq] at hee
      obtain ⟨rfl, rfl⟩ := hee
      obtain ⟨s', -, he'⟩ := (extCells_iff ho.has hg).mp he'
      have hb : b' = b := by
        obtain ⟨l1, ft1, row1, a1, a2, a3, a4, a5⟩ := he
        obtain ⟨l2, ft2, row2, b1, b2, b3, b4, b5⟩ := he'
        rw [a1] at b1
        cases b1
        rw [a4] at b4
        cases b4
        rw [a5] at b5
        cases b5
        rfl
      subst hb
      have : ∃ s, Spec.ExtAt c p' s b' := ⟨s, he⟩
      rw [dif_pos this]
      exact (ih p' this.choose b' this.choose_spec).choose_spec.2

/-- what C101 would say: Python can read what either library writes for a document with a valid content -/
def C101_full : Prop := ∀ (c : Content) (bs : Bytes), Spec.WrittenBy c bs → ∃ t, decodeDeep bs = .ok t

/-- C101. A file that either library writes for a document with a valid content can be read by Python if, and only if, all values
in extended fields are of the type "doc" and can be read. -/
theorem C101_readable_partial {c : Content} {bs : Bytes} (h : Spec.WrittenBy c bs) :
    (∃ t, decodeDeep bs = .ok t) ↔ ∀ p s b, Spec.ExtAt c p s b → s = "doc".toList ∧ ∃ t, decodeDeep b = .ok t := by
  obtain ⟨⟨x, ho⟩, hg⟩ := opened h
  constructor
  · rintro ⟨t, ht⟩ p s b he
    rw [decodeDeep_eq] at ht
    unfold decodeStep at ht
    rw [if_neg (by simp [ho.magic]), ho.read] at ht
    simp only at ht
    split at ht
    · cases ht
    · rename_i w hw
      obtain ⟨h1, h2⟩ := fromWireN_inv hw _ _ _ ((extCells_iff ho.has hg).mpr ⟨s, rfl, he⟩)
      cases h1
      rw [shorter_of (ho.short _ _ _ he), forget_ok] at h2
      exact ⟨rfl, h2⟩
  · intro hd
    classical
    obtain ⟨w, h1, -⟩ := opens_deep (f := fun _ b => if h : ∃ t, decodeDeep b = .ok t then h.choose else .mk .empty []) ho hg (by
      intro p s b he
      obtain ⟨h1, h2⟩ := hd _ _ _ he
      refine ⟨h1, ?_⟩
      rw [dif_pos h2]
      exact h2.choose_spec)
    exact ⟨_, h1⟩

/-- C101 fails: with one value of any other extended type, reading the document is an AttributeError, also if all values of the type
"doc" can be read. -/
theorem C101_other_types_fail {c : Content} {bs : Bytes} (h : Spec.WrittenBy c bs) {p s b} (he : Spec.ExtAt c p s b) (hs : s ≠ "doc".toList)
    (hd : ∀ p b, Spec.ExtAt c p "doc".toList b → ∃ t, decodeDeep b = .ok t) : decodeDeep bs = .error .attribute := by
  obtain ⟨⟨x, ho⟩, hg⟩ := opened h
  rcases fromWireN_attr (nested := fun b => forget (shorter bs decodeDeep b)) ho.has hg (by
    intro k lc g ft row b hc hft hrow hb hty
    obtain ⟨i, hi⟩ := List.getElem?_of_mem hrow
    have he : Spec.ExtAt c (k, i, g) "doc".toList b := ⟨lc, ft, row, hc, hft, hty, hi, hb⟩
    rw [shorter_of (ho.short _ _ _ he), forget_ok]
    exact hd _ _ he) with h1 | h1
  · rw [decodeDeep_eq]
    unfold decodeStep
    rw [if_neg (by simp [ho.magic]), ho.read]
    simp only
    rw [h1]
  · have := h1 _ _ _ ((extCells_iff ho.has hg).mpr ⟨s, rfl, he⟩)
    cases this
    exact absurd rfl hs

/-- C101. Where C87 and C90 say what Python reads, this is the same, with no documents inside. -/
theorem C101_same {data : Bytes} {w : World} (h : decodeMsgpack data = .ok w) : decodeDeep data = .ok (.mk w []) := by
  rw [decodeDeep_eq]
  unfold decodeMsgpack at h
  unfold decodeStep
  split at h
  · cases h
  · rename_i hm
    rw [if_neg hm]
    split at h
    · cases h
    · rename_i x r hx
      rw [hx]
      simp only
      have h0 : extCells x = [] := by
        apply List.eq_nil_iff_forall_not_mem.mpr
        rintro ⟨p, ty, b⟩ hp
        have := (fromWireN_inv (nested := noNest) h _ _ _ hp).2
        cases this
      rw [fromWireN_congr (nested := noNest) h (by rw [h0]; simp)]
      simp only
      rw [h0]
      rfl

/-- C101. In Java an extended value keeps its type and its bytes when the document is written and read. -/
theorem C101_java_keeps {d d' : JDoc} {c : Content} (hs : JSound d) (h : JHas d c) (hg : Good c) (hr : JavaReadable c) {bs : Bytes}
    (he : d.encode = (d', .ok bs)) (hl : bs.length < 2 ^ 31) :
    ∃ d2, jDecode bs = .ok d2 ∧ ∀ k L (i : Nat) n f y b, dget d.layers k = some L → L.nodes[i]? = some n → dget L.fields f ≠ none → dget (d.data n) f = some (.ext y b) →
      ∃ L2 n2, dget d2.layers k = some L2 ∧ L2.nodes[i]? = some n2 ∧ dget (d2.data n2) f = some (.ext y b) := by
  obtain ⟨d2, h1, h2⟩ := C89_java_to_java_partial hs h hg hr he hl
  refine ⟨d2, by have := h1 []; rwa [List.append_nil] at this, ?_⟩
  intro k L i n f y b hL hn hf hv
  have a1 := h.layers k
  rw [hL] at a1
  obtain ⟨lc, hc, a2⟩ := a1.of_some
  have b1 := h2.layers k
  rw [hc] at b1
  obtain ⟨L2, hL2, b2⟩ := b1.to_some
  obtain ⟨row, hrow⟩ := getElem?_of_len a2.size hn
  obtain ⟨n2, hn2⟩ := getElem?_of_len b2.size.symm hrow
  refine ⟨L2, n2, hL2, hn2, ?_⟩
  have a3 := a2.cells i n row f hn hrow
  have b3 := b2.cells i n2 row f hn2 hrow
  rw [hv] at a3
  cases ht : dget L.fields f with
  | none => exact absurd ht hf
  | some t =>
    rw [ht] at a3
    cases a3 with
    | declared a3 =>
      generalize hrf : row f = cell at a3 b3
      cases a3 with
      | ext hty =>
        have ft1 := a2.fields f
        rw [ht] at ft1
        obtain ⟨ft, hft, ft1⟩ := ft1.of_some
        have ft2 := b2.fields f
        rw [hft] at ft2
        obtain ⟨t2, ht2, ft2⟩ := ft2.to_some
        rw [ht2] at b3
        generalize dget (d2.data n2) f = v at b3
        cases b3 with
        | declared b3 =>
          cases b3 with
          | @ext y2 _ hty2 =>
            have e1 := ft1.2 "type".toList
            have e2 := ft2.2 "type".toList
            rw [hty] at e1
            rw [hty2] at e2
            obtain ⟨o, ho, e1⟩ := e1.of_some
            rw [ho] at e2
            cases e2 with
            | some e2 =>
              cases e1
              cases e2
              rfl

/-- C101 fails in the other direction: a file with an extended field that Python can read (because nothing is in the field) cannot be
written again by Python. -/
theorem C101_not_written_back {c : Content} {bs : Bytes} (h : Spec.WrittenBy c bs) (hp : Spec.PythonReadable c) {k l f t} (hl : c.layers k = some l)
    (hf : l.fields f = some t) (ht : t.1 = "ext".toList) :
    ∃ w, decodeMsgpack bs = .ok w ∧ PyHas w c ∧ ∀ x tv bs', (w.encodeMsgpack x tv).2 ≠ .ok bs' := by
  obtain ⟨⟨x, h1, h2, -⟩, hg⟩ := written_wrote h
  obtain ⟨w, h5, h6, -⟩ := py_read h1 hg hp
  refine ⟨w, by have := decode_encode h1.ok h2 []; rw [List.append_nil] at this; rw [this, h5], h6, ?_⟩
  intro x' tv bs'
  have hb := h6.layers k
  rw [hl] at hb
  obtain ⟨L, hL, hb⟩ := hb.to_some
  have hb := hb.fields f
  rw [hf] at hb
  obtain ⟨t', ht', hb⟩ := hb.to_some
  have htn : t'.tname = .ext := wire_inj (by rw [hb.1, ht]) (b := .ext) rfl
  exact (C71_ext_field_fails (w := w) ⟨w, [], .inr ⟨x, h5⟩, .nil⟩ (dget_mem hL) (dget_mem ht') (.inl htn) x' tv ⟨fun _ => [], fun _ => 0⟩).2.1 bs'

/-! ### examples -/

namespace Ex

/-- a layer with one node, with an extended field -/
def extOps (s : Str) (v : JVal) : List JDOp := [.layer "att".toList [("x".toList, ⟨.ext, [("type".toList, .str s)]⟩)], .insert "att".toList 0 [("x".toList, v)]]

def extContent (s : Str) (v : Dict Str Cell) : Content :=
  ⟨dget [], dget [], dget [("att".toList, ⟨dget [("x".toList, ("ext".toList, dget [("type".toList, .str s)]))], [dget v]⟩)]⟩

def extDoc (s : Str) (v : JVal) : JDoc := (JDState.new.run (extOps s v)).doc

theorem ext_has {s : Str} {b : Bytes} (h : (extDoc s (.ext s b)).layers = [("att".toList, ⟨[("x".toList, ⟨.ext, [("type".toList, .str s)]⟩)], [some 0], 1⟩)])
    (hp : (extDoc s (.ext s b)).props = []) (hx : (extDoc s (.ext s b)).texts = [])
    (hd : (extDoc s (.ext s b)).data 0 = [("x".toList, .ext s b)]) : JHas (extDoc s (.ext s b)) (extContent s [("x".toList, .ext b)]) where
  props := by rw [hp]; exact both_nil
  texts := by rw [hx]; exact both_nil
  layers := by
    rw [h]
    refine both_cons ⟨both_cons ⟨rfl, both_cons .str both_nil⟩ both_nil, rfl, ?_⟩ both_nil
    intro i n row f hn hr
    match i, hn, hr with
    | 0, hn, hr =>
      cases hn; cases hr
      rw [hd]
      by_cases e : f = "x".toList
      · rw [e]; exact .declared (.ext rfl)
      · rw [dget_ne e, dget_ne e, dget_ne e]; exact .undeclared
    | i + 1, hn, _ => simp [JLay.nodes] at hn

theorem ext_good (s : Str) (b : Bytes) : Good (extContent s [("x".toList, .ext b)]) where
  types k l f t hl hf := by
    have := dget_mem hl
    simp only [List.mem_singleton, Prod.mk.injEq] at this
    obtain ⟨-, rfl⟩ := this
    have := dget_mem hf
    simp only [List.mem_singleton, Prod.mk.injEq] at this
    obtain ⟨-, rfl⟩ := this
    exact ⟨.inr (.inr (.inr rfl)), fun h => absurd (show "ext".toList = "span".toList from h) (by decide),
      fun h => absurd (show IsRef "ext".toList from h) (by unfold IsRef; decide), fun _ => ⟨s, rfl⟩, rfl, rfl⟩
  cells k l row f x hl hrow hx := by
    have := dget_mem hl
    simp only [List.mem_singleton, Prod.mk.injEq] at this
    obtain ⟨-, rfl⟩ := this
    simp only [List.mem_singleton] at hrow
    rw [hrow] at hx
    have := dget_mem hx
    simp only [List.mem_singleton, Prod.mk.injEq] at this
    obtain ⟨rfl, rfl⟩ := this
    exact ⟨_, rfl, .ext rfl⟩

theorem ext_at {s : Str} {b : Bytes} {p s' b'} : Spec.ExtAt (extContent s [("x".toList, .ext b)]) p s' b' ↔ p = ("att".toList, 0, "x".toList) ∧ s' = s ∧ b' = b := by
  constructor
  · rintro ⟨l, ft, row, h1, h2, h3, h4, h5⟩
    obtain ⟨k, i, f⟩ := p
    have := dget_mem h1
    simp only [List.mem_singleton, Prod.mk.injEq] at this
    obtain ⟨rfl, rfl⟩ := this
    have := dget_mem h2
    simp only [List.mem_singleton, Prod.mk.injEq] at this
    obtain ⟨rfl, rfl⟩ := this
    cases h3
    cases i with
    | succ i => simp at h4
    | zero =>
      cases h4
      cases h5
      exact ⟨rfl, rfl, rfl⟩
  · rintro ⟨rfl, rfl, rfl⟩
    exact ⟨_, _, _, rfl, rfl, rfl, rfl, rfl⟩

theorem extOps_fresh (s y : Str) (b : Bytes) : Spec.JFresh .new (extOps s (.ext y b)) := by
  refine ⟨⟨by simp [dkeys], by simp [dkeys]⟩, ?_, trivial⟩
  intro f c p h
  have := dget_mem h
  simp at this

/-- a document inside a document -/
def docBytes : Bytes := (bytesOf (extOps "doc".toList (.ext "doc".toList binBytes))).getD []

/-- and this in another one -/
def docBytes2 : Bytes := (bytesOf (extOps "doc".toList (.ext "doc".toList docBytes))).getD []

/-- other bytes -/
def rawBytes : Bytes := (bytesOf (extOps "raw".toList (.ext "raw".toList [1, 2]))).getD []

theorem ext_written {s : Str} {b bs : Bytes} (h : (extDoc s (.ext s b)).layers = [("att".toList, ⟨[("x".toList, ⟨.ext, [("type".toList, .str s)]⟩)], [some 0], 1⟩)])
    (hp : (extDoc s (.ext s b)).props = []) (hx : (extDoc s (.ext s b)).texts = [])
    (hd : (extDoc s (.ext s b)).data 0 = [("x".toList, .ext s b)]) (he : (extDoc s (.ext s b)).encode.2 = .ok bs) :
    Spec.WrittenBy (extContent s [("x".toList, .ext b)]) bs :=
  .java (d := extDoc s (.ext s b)) (d' := (extDoc s (.ext s b)).encode.1) (C86_sound _ (extOps_fresh s s b)) (ext_has h hp hx hd) (ext_good s b) (by rw [← he])

theorem bin_writtenBy : Spec.WrittenBy binContent binBytes := .java (C86_sound _ binOps_fresh) bin_has bin_good binBytes_ok

theorem bin_noExt {p s b} : ¬ Spec.ExtAt binContent p s b := by
  rintro ⟨l, ft, row, h1, h2, h3, -, -⟩
  have := dget_mem h1
  simp only [List.mem_singleton, Prod.mk.injEq] at this
  obtain ⟨-, rfl⟩ := this
  have := dget_mem h2
  simp only [List.mem_singleton, Prod.mk.injEq] at this
  obtain ⟨-, rfl⟩ := this
  cases h3

/-- the content of the document with two others inside -/
def deep0 : Spec.DeepContent := .mk binContent (fun _ => .none)

def deep1 : Spec.DeepContent := .mk (extContent "doc".toList [("x".toList, .ext binBytes)]) (fun b => if b = binBytes then deep0 else .none)

def deep2 : Spec.DeepContent := .mk (extContent "doc".toList [("x".toList, .ext docBytes)]) (fun b => if b = docBytes then deep1 else .none)

theorem doc_writtenBy : Spec.WrittenBy (extContent "doc".toList [("x".toList, .ext binBytes)]) docBytes :=
  ext_written (by decide +kernel) (by decide +kernel) (by decide +kernel) (by decide +kernel) (by decide +kernel)

theorem doc2_writtenBy : Spec.WrittenBy (extContent "doc".toList [("x".toList, .ext docBytes)]) docBytes2 :=
  ext_written (by decide +kernel) (by decide +kernel) (by decide +kernel) (by decide +kernel) (by decide +kernel)

theorem raw_writtenBy : Spec.WrittenBy (extContent "raw".toList [("x".toList, .ext [1, 2])]) rawBytes :=
  ext_written (by decide +kernel) (by decide +kernel) (by decide +kernel) (by decide +kernel) (by decide +kernel)

theorem deep0_written : Spec.DeepWritten deep0 binBytes := .mk bin_writtenBy (fun _ _ _ h => absurd h bin_noExt) (fun _ _ _ h => absurd h bin_noExt)

theorem deep1_written : Spec.DeepWritten deep1 docBytes := by
  refine .mk doc_writtenBy (fun p s b h => (ext_at.mp h).2.1) (fun p s b h => ?_)
  obtain ⟨-, -, rfl⟩ := ext_at.mp h
  rw [if_pos rfl]
  exact deep0_written

theorem deep2_written : Spec.DeepWritten deep2 docBytes2 := by
  refine .mk doc2_writtenBy (fun p s b h => (ext_at.mp h).2.1) (fun p s b h => ?_)
  obtain ⟨-, -, rfl⟩ := ext_at.mp h
  rw [if_pos rfl]
  exact deep1_written

end Ex

/-- C101. A document inside a document inside a document. -/
example : ∃ t, decodeDeep Ex.docBytes2 = .ok t ∧ Spec.DeepHas t Ex.deep2 := C101_nested Ex.deep2_written

/-- a document that has this content has a Document in the field, which has a Document in the field, whose field holds the bytes [1] -/
example {t : Deep} (h : Spec.DeepHas t Ex.deep2) : ∃ w w1 w2 docs2, (∃ docs docs1, t = .mk w docs ∧ (("att".toList, 0, "x".toList), .mk w1 docs1) ∈ docs ∧
    (("att".toList, 0, "x".toList), .mk w2 docs2) ∈ docs1) ∧ PyHas w2 Ex.binContent.strip := by
  cases h with
  | @mk w docs _ _ h1 h2 h3 =>
    have hp := (h2 ("att".toList, 0, "x".toList)).mpr ⟨_, _, Ex.ext_at.mpr ⟨rfl, rfl, rfl⟩⟩
    obtain ⟨⟨p, t1⟩, hm, rfl⟩ := List.mem_map.mp hp
    have h4 := h3 _ _ _ t1 (Ex.ext_at.mpr ⟨rfl, rfl, rfl⟩) hm
    simp only [if_true] at h4
    unfold Ex.deep1 at h4
    cases h4 with
    | @mk w1 docs1 _ _ g1 g2 g3 =>
      have hp := (g2 ("att".toList, 0, "x".toList)).mpr ⟨_, _, Ex.ext_at.mpr ⟨rfl, rfl, rfl⟩⟩
      obtain ⟨⟨p, t2⟩, hm2, hp2⟩ := List.mem_map.mp hp
      simp only at hp2
      subst hp2
      have h5 := g3 _ _ _ t2 (Ex.ext_at.mpr ⟨rfl, rfl, rfl⟩) hm2
      simp only [if_true] at h5
      unfold Ex.deep0 at h5
      cases h5 with
      | @mk w2 docs2 _ _ k1 k2 k3 => exact ⟨w, w1, w2, docs2, ⟨docs, docs1, rfl, hm, hm2⟩, k1⟩

/-- C101. A field of the type "raw": an AttributeError. -/
example : decodeDeep Ex.rawBytes = .error .attribute :=
  C101_other_types_fail Ex.raw_writtenBy (Ex.ext_at.mpr ⟨rfl, rfl, rfl⟩) (by decide) (fun p b h => absurd (Ex.ext_at.mp h).2.1 (by decide))

/-- C101 fails -/
theorem C101_full_false : ¬ C101_full := by
  intro h
  obtain ⟨t, ht⟩ := h _ _ Ex.raw_writtenBy
  rw [C101_other_types_fail Ex.raw_writtenBy (Ex.ext_at.mpr ⟨rfl, rfl, rfl⟩) (by decide) (fun p b h => absurd (Ex.ext_at.mp h).2.1 (by decide))] at ht
  cases ht

namespace Ex

/-- the field of the node that Java reads -/
def jExt (bs : Bytes) : Option JVal := match jDecode bs with
  | .ok d => dget (d.data 0) "x".toList
  | .error _ => none

end Ex

/-- C101. Java reads the value, of the type of the field: a value that was of another type changes it. -/
theorem C101_java_type : Ex.jExt Ex.rawBytes = some (.ext "raw".toList [1, 2]) ∧
    (Ex.bytesOf (Ex.extOps "raw".toList (.ext "other".toList [1, 2]))).bind Ex.jExt = some (.ext "raw".toList [1, 2]) := by decide +kernel

namespace Ex

theorem ext_readable (s : Str) (b : Bytes) : JavaReadable (extContent s [("x".toList, .ext b)]) where
  props k o h := by cases h
  args k l f t a o hl hf ha := by
    have := dget_mem hl
    simp only [List.mem_singleton, Prod.mk.injEq] at this
    obtain ⟨-, rfl⟩ := this
    have := dget_mem hf
    simp only [List.mem_singleton, Prod.mk.injEq] at this
    obtain ⟨-, rfl⟩ := this
    have := dget_mem ha
    simp only [List.mem_singleton, Prod.mk.injEq] at this
    obtain ⟨-, rfl⟩ := this
    exact .str
  cells k l row f t x hl hrow hf hx := by
    have := dget_mem hl
    simp only [List.mem_singleton, Prod.mk.injEq] at this
    obtain ⟨-, rfl⟩ := this
    simp only [List.mem_singleton] at hrow
    rw [hrow] at hx
    have := dget_mem hx
    simp only [List.mem_singleton, Prod.mk.injEq] at this
    obtain ⟨-, rfl⟩ := this
    exact .ext
  sizes k l hl := by
    have := dget_mem hl
    simp only [List.mem_singleton, Prod.mk.injEq] at this
    obtain ⟨-, rfl⟩ := this
    exact Nat.lt_of_lt_of_le (by decide : 1 < 2) (by decide)

/-- a layer with an extended field and no nodes -/
def emptyExtOps : List JDOp := [.layer "att".toList [("x".toList, ⟨.ext, [("type".toList, .str "raw".toList)]⟩)]]

def emptyExtContent : Content := ⟨dget [], dget [], dget [("att".toList, ⟨dget [("x".toList, ("ext".toList, dget [("type".toList, .str "raw".toList)]))], []⟩)]⟩

def emptyExtBytes : Bytes := (bytesOf emptyExtOps).getD []

theorem emptyExt_written : Spec.WrittenBy emptyExtContent emptyExtBytes := by
  refine .java (d := (JDState.new.run emptyExtOps).doc) (d' := (JDState.new.run emptyExtOps).doc.encode.1) (C86_sound _ ⟨⟨by decide, by decide⟩, trivial⟩) ?_ ?_ ?_
  · refine ⟨both_nil, both_nil, ?_⟩
    have h : (JDState.new.run emptyExtOps).doc.layers = [("att".toList, ⟨[("x".toList, ⟨.ext, [("type".toList, .str "raw".toList)]⟩)], [], 0⟩)] := by decide +kernel
    rw [h]
    exact both_cons ⟨both_cons ⟨rfl, both_cons .str both_nil⟩ both_nil, rfl, fun i n row f hn => by simp [JLay.nodes] at hn⟩ both_nil
  · constructor
    · intro k l f t hl hf
      have := dget_mem hl
      simp only [List.mem_singleton, Prod.mk.injEq] at this
      obtain ⟨-, rfl⟩ := this
      have := dget_mem hf
      simp only [List.mem_singleton, Prod.mk.injEq] at this
      obtain ⟨-, rfl⟩ := this
      exact ⟨.inr (.inr (.inr rfl)), fun h => absurd h (by decide), fun h => absurd h (by unfold IsRef; decide), fun _ => ⟨_, rfl⟩, rfl, rfl⟩
    · intro k l row f x hl hrow
      have := dget_mem hl
      simp only [List.mem_singleton, Prod.mk.injEq] at this
      obtain ⟨-, rfl⟩ := this
      simp at hrow
  · have : (JDState.new.run emptyExtOps).doc.encode.2 = .ok emptyExtBytes := by decide +kernel
    rw [← this]

end Ex

/-- C101. The value [1, 2] of the type "raw" is there after Java has written and read the document. -/
example : ∃ d2, jDecode Ex.rawBytes = .ok d2 ∧ ∃ L2 n2, dget d2.layers "att".toList = some L2 ∧ L2.nodes[0]? = some n2 ∧
    dget (d2.data n2) "x".toList = some (.ext "raw".toList [1, 2]) := by
  obtain ⟨d2, h1, h2⟩ := C101_java_keeps (d := Ex.extDoc "raw".toList (.ext "raw".toList [1, 2])) (C86_sound _ (Ex.extOps_fresh _ _ _))
    (Ex.ext_has (by decide +kernel) (by decide +kernel) (by decide +kernel) (by decide +kernel)) (Ex.ext_good _ _) (Ex.ext_readable _ _)
    (d' := (Ex.extDoc "raw".toList (.ext "raw".toList [1, 2])).encode.1) (bs := Ex.rawBytes) (by
      have : (Ex.extDoc "raw".toList (.ext "raw".toList [1, 2])).encode.2 = .ok Ex.rawBytes := by decide +kernel
      rw [← this]) (by decide +kernel)
  exact ⟨d2, h1, h2 "att".toList ⟨[("x".toList, ⟨.ext, [("type".toList, .str "raw".toList)]⟩)], [some 0], 1⟩ 0 0 "x".toList _ _
    (by decide +kernel) (by decide +kernel) (by decide +kernel) (by decide +kernel)⟩

/-- C101. The layer without nodes is read by Python, and cannot be written again. -/
example : ∃ w, decodeMsgpack Ex.emptyExtBytes = .ok w ∧ PyHas w Ex.emptyExtContent ∧ ∀ x tv bs', (w.encodeMsgpack x tv).2 ≠ .ok bs' :=
  C101_not_written_back Ex.emptyExt_written (k := "att".toList) (f := "x".toList) (by
    intro k l row f b hl hrow
    have := dget_mem hl
    simp only [List.mem_singleton, Prod.mk.injEq] at this
    obtain ⟨-, rfl⟩ := this
    simp at hrow) rfl rfl rfl

/-- C101. Documents without extended fields: as before. -/
example : ∃ w, decodeDeep Ex.binBytes = .ok (.mk w []) := by
  cases h : decodeMsgpack Ex.binBytes with
  | ok w => exact ⟨w, C101_same h⟩
  | error e =>
    have : Ex.pyErr Ex.binBytes = none := by decide +kernel
    unfold Ex.pyErr at this
    rw [h] at this
    cases this

end Verif
