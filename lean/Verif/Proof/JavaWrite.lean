import Verif.Proof.JavaBuild
import Verif.Props.JavaLayer
/-
For C87 and C89: the data that the Java encoder writes has the content of the document.
-/
set_option linter.unusedSimpArgs false
namespace Verif
open Spec (Both Cell LayerC Content FieldType Good TypeGood CellGood IsRef JHas JSound JCell JField JLayerHas JTypeHas JPlain JProp UnitAt)

/-! ### cutting a text between characters -/

theorem utf16Char_pos (c : Char) : 1 ≤ (utf16Char c).length := by
  unfold utf16Char
  split <;> simp

theorem utf16_len_mono {s : Str} {a b : Nat} (h : a ≤ b) : (utf16 (s.take a)).length ≤ (utf16 (s.take b)).length := by
  have : s.take b = s.take a ++ (s.take b).drop a := by
    have h2 : s.take a = (s.take b).take a := by rw [List.take_take, Nat.min_eq_left h]
    rw [h2, List.take_append_drop]
  rw [this, utf16_append]
  simp

theorem utf16_len_lt {s : Str} {a b : Nat} (h : a < b) (hb : b ≤ s.length) : (utf16 (s.take a)).length < (utf16 (s.take b)).length := by
  have h1 : (utf16 (s.take (a + 1))).length ≤ (utf16 (s.take b)).length := utf16_len_mono h
  have h2 : s.take (a + 1) = s.take a ++ [s[a]] := by rw [List.take_succ_eq_append_getElem (by omega)]
  rw [h2, utf16_append, List.length_append] at h1
  have h3 := utf16Char_pos s[a]
  have h4 : utf16 [s[a]] = utf16Char s[a] := by simp [utf16]
  rw [h4] at h1
  omega

theorem utf16_len_inj {s : Str} {a b : Nat} (ha : a ≤ s.length) (hb : b ≤ s.length) (h : (utf16 (s.take a)).length = (utf16 (s.take b)).length) : a = b := by
  rcases Nat.lt_trichotomy a b with h1 | h1 | h1
  · have := utf16_len_lt h1 hb; omega
  · exact h1
  · have := utf16_len_lt h1 ha; omega

theorem parts_char : ∀ (parts : List JStr) (u : Str), parts.flatten = utf16 u →
    (∀ k ≤ parts.length, ∃ a ≤ u.length, (parts.take k).flatten.length = (utf16 (u.take a)).length) →
    parts = (parts.map ofUtf16).map utf16 ∧ (parts.map ofUtf16).flatten = u := by
  intro parts
  induction parts with
  | nil =>
    intro u h _
    refine ⟨rfl, ?_⟩
    exact utf16_inj (by simpa [utf16] using h)
  | cons p ps ih =>
    intro u h hk
    obtain ⟨a, ha, e1⟩ := hk 1 (by simp)
    simp only [List.take_succ_cons, List.take_zero, List.flatten_cons, List.flatten_nil, List.append_nil] at e1
    have hu : utf16 u = utf16 (u.take a) ++ utf16 (u.drop a) := by rw [← utf16_append, List.take_append_drop]
    rw [List.flatten_cons, hu] at h
    obtain ⟨h1, h2⟩ := List.append_inj h e1
    have := ih (u.drop a) h2 (by
      intro k hk'
      obtain ⟨b, hb, e2⟩ := hk (k + 1) (by simp; omega)
      rw [List.take_succ_cons, List.flatten_cons, List.length_append, h1] at e2
      have hab : a ≤ b := by
        rcases Nat.lt_or_ge b a with h3 | h3
        · have := utf16_len_lt h3 ha; omega
        · exact h3
      refine ⟨b - a, by simp; omega, ?_⟩
      have : u.take b = u.take a ++ (u.drop a).take (b - a) := by
        rw [← List.take_add]
        congr 1; omega
      rw [this, utf16_append, List.length_append] at e2
      omega)
    refine ⟨?_, ?_⟩
    · rw [List.map_cons, List.map_cons, ← this.1, h1, ofUtf16_utf16]
    · rw [List.map_cons, List.flatten_cons, this.2, h1, ofUtf16_utf16, List.take_append_drop]

theorem segOffsets_get : ∀ (segs : List Str) (pos k : Nat), k ≤ segs.length → (segOffsets pos segs)[k]? = some (pos + (segs.take k).flatten.length) := by
  intro segs
  induction segs with
  | nil => intro pos k hk; simp only [List.length_nil, Nat.le_zero] at hk; subst hk; rfl
  | cons s segs ih =>
    intro pos k hk
    cases k with
    | zero => rfl
    | succ k =>
      rw [segOffsets, List.getElem?_cons_succ, ih _ k (by simpa using hk)]
      simp
      omega

theorem utf16_flatten (segs : List Str) : (segs.map utf16).flatten = utf16 segs.flatten := by
  induction segs with
  | nil => rfl
  | cons s segs ih => simp [utf16_append, ih]

/-- a border between parts is the border between the segments at that character -/
theorem border_seg {segs : List Str} {i p : Int} {a : Nat} (h : Spec.BorderAt (segs.map utf16) i p) (ha : UnitAt segs.flatten p a) :
    ∃ k : Nat, i = k ∧ (segOffsets 0 segs)[k]? = some a := by
  obtain ⟨h1, h2, h3⟩ := h
  obtain ⟨h4, h5⟩ := ha
  refine ⟨i.toNat, by omega, ?_⟩
  have hk : i.toNat ≤ segs.length := by simp at h2; omega
  rw [segOffsets_get _ _ _ hk, Nat.zero_add]
  congr 1
  have e : (segs.take i.toNat).flatten = segs.flatten.take (segs.take i.toNat).flatten.length := by
    have : segs.flatten = (segs.take i.toNat).flatten ++ (segs.drop i.toNat).flatten := by rw [← List.flatten_append, List.take_append_drop]
    rw [this, List.take_left]
  have hl : (segs.take i.toNat).flatten.length ≤ segs.flatten.length := by
    have := congrArg List.length e
    rw [List.length_take] at this
    omega
  apply utf16_len_inj hl h4
  rw [← e]
  rw [← List.map_take, utf16_flatten] at h3
  omega

/-! ### compaction of all layers -/

theorem compact_ids {s : JLayer} (h : (s.storage.filterMap id).Nodup) {n : Nat} (hn : n ∉ s.storage.filterMap id) : s.compact.1.ids n = s.ids n := by
  have := (compactLoop_ids s.storage.length 0 0 s.storage s.ids (by omega) (by omega) (by rw [List.drop_zero]; exact h)).1 n (by rwa [List.drop_zero])
  rw [← this]
  unfold JLayer.compact
  simp only
  split
  · rfl
  · split <;> rfl

/-- what `compact` keeps of a layer -/
def layKey (e : Str × JLay) : Str × Dict Str JType × List Nat × Int := (e.1, e.2.fields, e.2.nodes, e.2.size)

theorem compactAll_ok : ∀ (ls : Dict Str JLay) (ids : Nat → Int), (∀ e ∈ ls, e.2.size = e.2.nodes.length) → (ls.flatMap (fun e => e.2.nodes)).Nodup →
    ∃ ls' ids', JDoc.compactAll ls ids = .ok (ls', ids') ∧ ls'.map layKey = ls.map layKey ∧
      (∀ n, n ∉ ls.flatMap (fun e => e.2.nodes) → ids' n = ids n) ∧ ∀ e ∈ ls, ∀ (i n : Nat), e.2.nodes[i]? = some n → ids' n = i := by
  intro ls
  induction ls with
  | nil => intro ids _ _; exact ⟨[], ids, rfl, rfl, fun _ _ => rfl, by simp⟩
  | cons e ls ih =>
    intro ids hs hn
    obtain ⟨k, L⟩ := e
    rw [List.flatMap_cons, List.nodup_append] at hn
    obtain ⟨hn1, hn2, hn3⟩ := hn
    have hw : JLW (⟨L.storage, L.size, ids, fun n => if n ∈ L.nodes then some 0 else none⟩ : JLayer) L.nodes :=
      ⟨rfl, hn1, hs (k, L) (by simp), by intro n; simp⟩
    have hc := compact_lay (⟨L.storage, L.size, ids, fun n => if n ∈ L.nodes then some 0 else none⟩ : JLayer) (fun _ => none)
    obtain ⟨c1, c2, ⟨m, c3⟩, -⟩ := compact_ok hw
    have c4 : ∀ n, n ∉ L.nodes → _ := fun n hn => compact_ids (s := (⟨L.storage, L.size, ids, fun n => if n ∈ L.nodes then some 0 else none⟩ : JLayer)) hn1 hn
    simp only at hc
    generalize (JLayer.compact ⟨L.storage, L.size, ids, fun n => if n ∈ L.nodes then some 0 else none⟩) = r at *
    obtain ⟨ls', ids', h1, h2, h3, h4⟩ := ih r.1.ids (fun e he => hs e (by simp [he])) hn2
    refine ⟨(k, { L with storage := r.1.storage, size := r.1.size }) :: ls', ids', ?_, ?_, ?_, ?_⟩
    · rw [JDoc.compactAll, hc, c1]
      simp only [h1]
    · simp only [List.map_cons, h2]
      congr 1
      simp only [layKey, JLay.nodes]
      rw [c2.nodes, c2.size, hs (k, L) (by simp)]
      rfl
    · intro n hn'
      rw [List.flatMap_cons, List.mem_append, not_or] at hn'
      rw [h3 n hn'.2, c4 n hn'.1]
    · intro e he i n hi
      rcases List.mem_cons.mp he with rfl | he
      · rw [h3 n (fun hx => hn3 n (List.mem_of_getElem? hi) n hx rfl)]
        apply c2.ids
        rw [c3, List.getElem?_append_left (by simpa using (List.getElem?_eq_some_iff.mp hi).1), List.getElem?_map, hi]
        rfl
      · exact h4 e he i n hi

/-! ### the document after `compact` -/

theorem layKey_get {ls ls' : Dict Str JLay} (h : ls'.map layKey = ls.map layKey) (k : Str) :
    (dget ls' k).map (fun L => (L.fields, L.nodes, L.size)) = (dget ls k).map (fun L => (L.fields, L.nodes, L.size)) := by
  have e : ∀ l : Dict Str JLay, l.map layKey = l.map (fun e => (e.1, (e.2.fields, e.2.nodes, e.2.size))) := fun l => rfl
  rw [← dget_map (fun L : JLay => (L.fields, L.nodes, L.size)), ← dget_map (fun L : JLay => (L.fields, L.nodes, L.size)), ← e, ← e, h]

theorem layKey_mem {ls ls' : Dict Str JLay} (h : ls'.map layKey = ls.map layKey) {k : Str} {L : JLay} (hm : (k, L) ∈ ls') :
    ∃ M, (k, M) ∈ ls ∧ M.fields = L.fields ∧ M.nodes = L.nodes ∧ M.size = L.size := by
  have : layKey (k, L) ∈ ls.map layKey := by rw [← h]; exact List.mem_map_of_mem hm
  obtain ⟨⟨k', M⟩, h1, h2⟩ := List.mem_map.mp this
  simp only [layKey, Prod.mk.injEq] at h2
  obtain ⟨rfl, h3, h4, h5⟩ := h2
  exact ⟨M, h1, h3, h4, h5⟩

theorem Spec.JCell.move {d d' : JDoc} {t : JType} {v : Option JVal} {x : Option Cell} (h : JCell d t v x) (ha : ∀ s i n, Spec.JAt d s i n → Spec.JAt d' s i n)
    (ht : ∀ c u p, v = some (.span c p) → dget d.texts c = some u → ∃ u', dget d'.texts c = some u' ∧ u'.text = u.text ∧ u'.start p = u.start p ∧ u'.stop p = u.stop p) :
    JCell d' t v x := by
  cases h with
  | unset => exact .unset
  | null h => exact .null h
  | bool => exact .bool
  | int => exact .int
  | long => exact .long
  | double => exact .double
  | str => exact .str
  | bin => exact .bin
  | ext h => exact .ext h
  | span h1 h2 h3 h4 h5 =>
    obtain ⟨u', e1, e2, e3, e4⟩ := ht _ _ _ rfl h2
    exact .span h1 e1 (e2.trans h3) (e3 ▸ h4) (e4 ▸ h5)
  | node h1 h2 => exact .node h1 (ha _ _ _ h2)
  | nodes h1 h2 h3 h4 => exact .nodes h1 h2 h3 (fun j n i a b => ha _ _ _ (h4 j n i a b))
  | nodespan h1 h2 h3 => exact .nodespan h1 (ha _ _ _ h2) (ha _ _ _ h3)

theorem compacted_has {d : JDoc} {c : Content} (h : JHas d c) {ls' : Dict Str JLay} {ids' : Nat → Int} (hk : ls'.map layKey = d.layers.map layKey) :
    JHas { d with layers := ls', ids := ids' } c := by
  refine ⟨h.props, h.texts, ?_⟩
  have hat : ∀ s i n, Spec.JAt d s i n → Spec.JAt { d with layers := ls', ids := ids' } s i n := by
    rintro s i n ⟨L, h1, h2⟩
    have := layKey_get hk s
    rw [h1] at this
    cases hL : dget ls' s with
    | none => rw [hL] at this; simp at this
    | some M =>
      rw [hL] at this
      simp only [Option.map_some, Option.some.injEq, Prod.mk.injEq] at this
      exact ⟨M, hL, by rw [this.2.1]; exact h2⟩
  intro k
  have := layKey_get hk k
  simp only
  cases hL : dget d.layers k with
  | none =>
    rw [hL] at this
    have hc := h.layers k
    rw [hL] at hc
    rw [hc.none_iff.mp rfl]
    cases hM : dget ls' k with
    | none => exact .none
    | some M => rw [hM] at this; simp at this
  | some L =>
    rw [hL] at this
    have hc := h.layers k
    rw [hL] at hc
    obtain ⟨l, h1, h2⟩ := hc.of_some
    cases hM : dget ls' k with
    | none => rw [hM] at this; simp at this
    | some M =>
      rw [hM] at this
      simp only [Option.map_some, Option.some.injEq, Prod.mk.injEq] at this
      obtain ⟨e1, e2, e3⟩ := this
      rw [h1]
      refine .some ⟨by rw [e1]; exact h2.fields, by rw [e2]; exact h2.size, ?_⟩
      intro i n row f hn hr
      rw [e2] at hn
      rw [e1]
      have := h2.cells i n row f hn hr
      simp only
      generalize dget L.fields f = ot at this
      generalize dget (d.data n) f = ov at this
      generalize row f = ox at this
      cases this with
      | undeclared => exact .undeclared
      | declared hc => exact .declared (hc.move hat (fun c u p _ hu => ⟨u, hu, rfl, rfl, rfl⟩))

theorem compacted_sound {d : JDoc} (h : JSound d) {ls' : Dict Str JLay} {ids' : Nat → Int} (hk : ls'.map layKey = d.layers.map layKey) :
    JSound { d with layers := ls', ids := ids' } := by
  have e1 : dkeys ls' = dkeys d.layers := by
    have := congrArg (List.map (·.1)) hk
    simpa [List.map_map, dkeys, layKey, Function.comp_def] using this
  have e2 : ls'.flatMap (fun e => e.2.nodes) = d.layers.flatMap (fun e => e.2.nodes) := by
    have := congrArg (List.flatMap (fun e => e.2.2.1)) hk
    simpa [List.flatMap_map, layKey] using this
  refine ⟨h.props, h.textKeys, by rw [e1]; exact h.layerKeys, ?_, ?_, h.texts, ?_, by rw [e2]; exact h.once, ?_⟩
  · intro k L hm
    obtain ⟨M, m1, m2, m3, m4⟩ := layKey_mem hk hm
    rw [← m2]; exact h.fieldKeys k M m1
  · intro k L f t hm
    obtain ⟨M, m1, m2, m3, m4⟩ := layKey_mem hk hm
    rw [← m2]; exact h.argKeys k M f t m1
  · intro k L hm
    obtain ⟨M, m1, m2, m3, m4⟩ := layKey_mem hk hm
    rw [← m3, ← m4]; exact h.size k M m1
  · intro k L n f t c s hm
    obtain ⟨M, m1, m2, m3, m4⟩ := layKey_mem hk hm
    rw [← m2, ← m3]; exact h.spans k M n f t c s m1

/-! ### the spans -/

theorem layer_of {d : JDoc} {c : Content} (hs : JSound d) (h : JHas d c) {k : Str} {L : JLay} (hm : (k, L) ∈ d.layers) :
    ∃ l, c.layers k = some l ∧ JLayerHas d L l := by
  have := h.layers k
  rw [dget_of_mem hs.layerKeys hm] at this
  exact this.of_some

theorem cell_of {d : JDoc} {c : Content} (hs : JSound d) (hg : Good c) {k : Str} {L : JLay} (hm : (k, L) ∈ d.layers) {l : LayerC}
    (hl : c.layers k = some l) (hL : JLayerHas d L l) {f : Str} {t : JType} (hf : (f, t) ∈ L.fields) :
    ∃ ft, l.fields f = some ft ∧ JTypeHas t ft ∧ TypeGood c ft ∧ ∀ (i n : Nat) row, L.nodes[i]? = some n → l.rows[i]? = some row →
      JCell d t (dget (d.data n) f) (row f) ∧ ∀ y, row f = some y → CellGood c ft y := by
  have hd := dget_of_mem (hs.fieldKeys k L hm) hf
  have h1 := hL.fields f
  rw [hd] at h1
  obtain ⟨ft, h2, h3⟩ := h1.of_some
  refine ⟨ft, h2, h3, hg.types k l f ft hl h2, ?_⟩
  intro i n row hn hr
  have h4 := hL.cells i n row f hn hr
  rw [hd] at h4
  refine ⟨?_, ?_⟩
  · cases h4 with
    | declared h => exact h
  · intro y hy
    obtain ⟨ft', h5, h6⟩ := hg.cells k l row f y hl (List.mem_of_getElem? hr) hy
    rw [h2] at h5
    cases h5
    exact h6

theorem span_name {t : JType} {ft : FieldType} (h : JTypeHas t ft) : t.name = .span ↔ ft.1 = "span".toList := by
  rw [← h.1]
  cases t.name <;> decide

theorem span_cell {d : JDoc} {c : Content} {t : JType} {ft : FieldType} {v : Option JVal} {x : Option Cell} (h : JCell d t v x) (ht : JTypeHas t ft)
    (hn : t.name = .span) (hg : ∀ y, x = some y → CellGood c ft y) :
    v = none ∧ x = none ∨ ∃ e s, v = some (.span e s) ∧ (dget d.texts e).isSome := by
  have hn' := (span_name ht).mp hn
  cases h with
  | unset => exact .inl ⟨rfl, rfl⟩
  | null h => exact absurd hn h
  | span h1 h2 h3 h4 h5 => exact .inr ⟨_, _, rfl, by rw [h2]; rfl⟩
  | bool => cases hg _ rfl with | bool e => rw [hn'] at e; exact absurd e (by decide)
  | int => cases hg _ rfl with | int e => rw [hn'] at e; exact absurd e (by decide)
  | long => cases hg _ rfl with | int e => rw [hn'] at e; exact absurd e (by decide)
  | double => cases hg _ rfl with | float e => rw [hn'] at e; exact absurd e (by decide)
  | str => cases hg _ rfl with | str e => rw [hn'] at e; exact absurd e (by decide)
  | bin => cases hg _ rfl with | bin e => rw [hn'] at e; exact absurd e (by decide)
  | ext => cases hg _ rfl with | ext e => rw [hn'] at e; exact absurd e (by decide)
  | node => cases hg _ rfl with | node e => rw [hn'] at e; exact absurd e (by decide)
  | nodes => cases hg _ rfl with | nodes e => rw [hn'] at e; exact absurd e (by decide)
  | nodespan => cases hg _ rfl with | nodespan e => rw [hn'] at e; exact absurd e (by decide)

/-- the span in a field -/
def fspan : Option JVal → List (Str × JSpan)
  | some (.span c s) => [(c, s)]
  | _ => []

/-- the spans of all layers -/
def docSpans (d : JDoc) : List (Str × JSpan) :=
  (d.layers.map (fun e => (e.2.nodes.map (fun n => ((e.2.fields.filter (fun f => decide (f.2.name = .span))).map (fun f => fspan (dget (d.data n) f.1))).flatten)).flatten)).flatten

theorem mem_docSpans {d : JDoc} {c : Str} {s : JSpan} : (c, s) ∈ docSpans d ↔
    ∃ k L n f t, (k, L) ∈ d.layers ∧ n ∈ L.nodes ∧ (f, t) ∈ L.fields ∧ t.name = .span ∧ dget (d.data n) f = some (.span c s) := by
  unfold docSpans
  constructor
  · intro h
    obtain ⟨_, h1, h⟩ := List.mem_flatten.mp h
    obtain ⟨⟨k, L⟩, g1, rfl⟩ := List.mem_map.mp h1
    obtain ⟨_, h2, h⟩ := List.mem_flatten.mp h
    obtain ⟨n, g2, rfl⟩ := List.mem_map.mp h2
    obtain ⟨_, h3, h5⟩ := List.mem_flatten.mp h
    obtain ⟨⟨f, t⟩, h6, rfl⟩ := List.mem_map.mp h3
    rw [List.mem_filter, decide_eq_true_eq] at h6
    refine ⟨k, L, n, f, t, g1, g2, h6.1, h6.2, ?_⟩
    unfold fspan at h5
    split at h5
    · simp only [List.mem_singleton, Prod.mk.injEq] at h5
      rename_i e
      rw [e, h5.1, h5.2]
    · simp at h5
  · rintro ⟨k, L, n, f, t, h1, h2, h3, h4, h5⟩
    refine List.mem_flatten.mpr ⟨_, List.mem_map_of_mem h1, List.mem_flatten.mpr ⟨_, List.mem_map_of_mem h2, List.mem_flatten.mpr ⟨_, List.mem_map_of_mem (a := (f, t)) ?_, ?_⟩⟩⟩
    · rw [List.mem_filter, decide_eq_true_eq]; exact ⟨h3, h4⟩
    · rw [h5]; simp [fspan]

theorem context_arg {c : Content} {t : JType} {ft : FieldType} (ht : JTypeHas t ft) (hg : TypeGood c ft) (hn : t.name = .span) :
    ∃ s u, t.arg "context".toList = .ok s ∧ c.texts s = some u := by
  obtain ⟨s, u, h1, h2⟩ := hg.text ((span_name ht).mp hn)
  refine ⟨s, u, ?_, h2⟩
  have := ht.2 "context".toList
  rw [h1] at this
  obtain ⟨v, h3, h4⟩ := this.to_some
  cases h4
  unfold JType.arg
  rw [h3]

theorem allSpans_ok {d : JDoc} {c : Content} (hs : JSound d) (h : JHas d c) (hg : Good c) : d.allSpans = .ok (docSpans d) := by
  have h1 : mapE (fun e => JDoc.layerSpans d.data e.2) d.layers = .ok (d.layers.map (fun e => (e.2.nodes.map (fun n =>
      ((e.2.fields.filter (fun f => decide (f.2.name = .span))).map (fun f => fspan (dget (d.data n) f.1))).flatten)).flatten)) := by
    apply mapE_ok
    rintro ⟨k, L⟩ hm
    obtain ⟨l, hl, hL⟩ := layer_of hs h hm
    have hf : JDoc.spanFields L = .ok ((L.fields.filter (fun f => decide (f.2.name = .span))).map (·.1)) := by
      unfold JDoc.spanFields
      apply mapE_ok
      rintro ⟨f, t⟩ hf
      rw [List.mem_filter] at hf
      obtain ⟨ft, -, h2, h3, -⟩ := cell_of hs hg hm hl hL hf.1
      obtain ⟨s, u, h4, -⟩ := context_arg h2 h3 (by simpa using hf.2)
      simp only [h4]
    simp only [JDoc.layerSpans, hf]
    rw [mapE_ok (g := fun n => ((L.fields.filter (fun f => decide (f.2.name = .span))).map (fun f => fspan (dget (d.data n) f.1))).flatten)]
    intro n hn
    unfold JDoc.nodeSpans
    rw [mapE_ok (g := fun f => fspan (dget (d.data n) f))]
    · simp only [List.map_map, Function.comp_def]
    · intro f' hf'
      obtain ⟨⟨f, t⟩, hf, rfl⟩ := List.mem_map.mp hf'
      rw [List.mem_filter] at hf
      obtain ⟨ft, -, h2, h3, h4⟩ := cell_of hs hg hm hl hL hf.1
      obtain ⟨i, hi, hn⟩ := List.getElem_of_mem hn
      have hi' : i < l.rows.length := by rw [← hL.size]; exact hi
      obtain ⟨h5, h6⟩ := h4 i n l.rows[i] (by rw [List.getElem?_eq_getElem hi, hn]) (List.getElem?_eq_getElem hi')
      rcases span_cell h5 h2 (by simpa using hf.2) h6 with ⟨e, -⟩ | ⟨c, s, e, -⟩
      · simp only [e]; rfl
      · simp only [e]; rfl
  unfold JDoc.allSpans
  rw [h1]
  simp only
  rw [if_pos]
  · rfl
  · rw [List.all_eq_true]
    rintro ⟨e, s⟩ hes
    obtain ⟨k, L, n, f, t, m1, m2, m3, m4, m5⟩ := mem_docSpans.mp hes
    obtain ⟨u, hu, -⟩ := hs.spans k L n f t e s m1 m2 m3 m4 m5
    rw [hu]; rfl

/-! ### the texts -/

/-- a text after `compile` -/
def ctext (spans : List (Str × JSpan)) (e : Str × JText) : JText := (e.2.compileWith (JDoc.spansFor e.1 spans)).1

/-- the parts of a text -/
def cparts (spans : List (Str × JSpan)) (e : Str × JText) : List JStr :=
  match (e.2.compileWith (JDoc.spansFor e.1 spans)).2 with
  | .ok p => p
  | .error _ => []

/-- what `compile` makes of one text -/
structure TextDone (d : JDoc) (c : Str) (u : Str) (t t' : JText) (parts : List JStr) : Prop where
  text : t'.text = t.text
  inv : JTInv t'
  live : ∀ s, (c, s) ∈ docSpans d → SpanOk t' s
  start : ∀ s, (c, s) ∈ docSpans d → t'.start s = t.start s
  stop : ∀ s, (c, s) ∈ docSpans d → t'.stop s = t.stop s
  units : parts = (parts.map ofUtf16).map utf16
  flat : (parts.map ofUtf16).flatten = u
  full : u ≠ [] → ∀ s ∈ parts.map ofUtf16, s ≠ []
  ids : ∀ s a b, (c, s) ∈ docSpans d → UnitAt u (t.start s) a → UnitAt u (t.stop s) b →
    ∃ i j : Nat, (t'.off s.1).id = i ∧ (t'.off s.2).id = j ∧ (segOffsets 0 (parts.map ofUtf16))[i]? = some a ∧ (segOffsets 0 (parts.map ofUtf16))[j]? = some b

theorem mem_spansFor {c : Str} {s : JSpan} {l : List (Str × JSpan)} : s ∈ JDoc.spansFor c l ↔ (c, s) ∈ l := by
  unfold JDoc.spansFor
  rw [List.mem_map]
  constructor
  · rintro ⟨⟨c', s'⟩, h, rfl⟩
    rw [List.mem_filter, decide_eq_true_eq] at h
    obtain ⟨h1, h2⟩ := h
    simp only at h2
    rw [← h2]; exact h1
  · intro h
    exact ⟨(c, s), by rw [List.mem_filter]; exact ⟨h, by simp⟩, rfl⟩

/-- the borders of a span in a field are between characters -/
theorem span_units {d : JDoc} {c : Content} (hs : JSound d) (h : JHas d c) (hg : Good c) {k : Str} {s : JSpan} (hm : (k, s) ∈ docSpans d) {t : JText} {u : Str}
    (ht : dget d.texts k = some t) (hu : t.text = utf16 u) : ∃ a b, UnitAt u (t.start s) a ∧ UnitAt u (t.stop s) b := by
  obtain ⟨k', L, n, f, ty, m1, m2, m3, m4, m5⟩ := mem_docSpans.mp hm
  obtain ⟨l, hl, hL⟩ := layer_of hs h m1
  obtain ⟨ft, -, h2, h3, h4⟩ := cell_of hs hg m1 hl hL m3
  obtain ⟨i, hi, hn⟩ := List.getElem_of_mem m2
  have hi' : i < l.rows.length := by rw [← hL.size]; exact hi
  obtain ⟨h5, -⟩ := h4 i n l.rows[i] (by rw [List.getElem?_eq_getElem hi, hn]) (List.getElem?_eq_getElem hi')
  rw [m5] at h5
  generalize l.rows[i] f = x at h5
  cases h5 with
  | span e1 e2 e3 e4 e5 =>
    rw [ht] at e2
    cases e2
    rw [hu] at e3
    have := utf16_inj e3
    subst this
    exact ⟨_, _, e4, e5⟩

theorem text_done {d : JDoc} {c : Content} (hs : JSound d) (h : JHas d c) (hg : Good c) {k : Str} {t : JText} (hm : (k, t) ∈ d.texts) :
    JDoc.compileText (docSpans d) (k, t) = .ok (k, ctext (docSpans d) (k, t), cparts (docSpans d) (k, t)) ∧
    ∃ u, c.texts k = some u ∧ TextDone d k u t (ctext (docSpans d) (k, t)) (cparts (docSpans d) (k, t)) := by
  have hd := dget_of_mem hs.textKeys hm
  have hlive : ∀ s ∈ JDoc.spansFor k (docSpans d), SpanOk t s := by
    intro s hsp
    obtain ⟨k', L, n, f, ty, m1, m2, m3, m4, m5⟩ := mem_docSpans.mp (mem_spansFor.mp hsp)
    obtain ⟨u, h1, h2⟩ := hs.spans k' L n f ty k s m1 m2 m3 m4 m5
    rw [hd] at h1
    cases h1
    exact h2
  obtain ⟨t', parts, e1, e2, e3, e4, e5, e6, e7, e8, -, e10, e11⟩ := C84_compile_any (hs.texts k t hm) hlive
  have ht := h.texts k
  rw [hd] at ht
  obtain ⟨u, hu, hut⟩ := ht.of_some
  have c1 : ctext (docSpans d) (k, t) = t' := by simp only [ctext, e1]
  have c2 : cparts (docSpans d) (k, t) = parts := by simp only [cparts, e1]
  rw [c1, c2]
  refine ⟨by simp only [JDoc.compileText, e1], u, hu, ?_⟩
  have hheap : ∀ s ∈ JDoc.spansFor k (docSpans d), s.1 < t.heap.length ∧ s.2 < t.heap.length := by
    intro s hsp
    exact (hlive s hsp).heap (hs.texts k t hm)
  have hpc := parts_char parts u (e2.trans hut) (by
    intro j hj
    have zero : UnitAt u 0 0 := ⟨by omega, by simp [utf16]⟩
    have full : UnitAt u t.text.length u.length := ⟨Nat.le_refl _, by rw [hut, List.take_length]⟩
    have key : ∀ {p : Int} {a : Nat}, UnitAt u p a → ((parts.take j).flatten.length : Int) = p → ∃ a ≤ u.length, (parts.take j).flatten.length = (utf16 (u.take a)).length := by
      intro p a h1 h2
      exact ⟨a, h1.1, by have := h1.2; omega⟩
    rcases e4 j hj with h1 | h1 | ⟨s, hsp, h1⟩
    · exact key zero h1
    · exact key full h1
    · obtain ⟨a, b, ha, hb⟩ := span_units hs h hg (mem_spansFor.mp hsp) hd hut
      rcases h1 with h1 | h1
      · exact key ha h1
      · exact key hb h1)
  refine ⟨e8, e6, fun s hsp => e7 s (mem_spansFor.mpr hsp), fun s hsp => e11 _ (hheap s (mem_spansFor.mpr hsp)).1,
    fun s hsp => e11 _ (hheap s (mem_spansFor.mpr hsp)).2, hpc.1, hpc.2, ?_, ?_⟩
  · intro hu' s hs'
    obtain ⟨p, hp, rfl⟩ := List.mem_map.mp hs'
    intro h0
    have h1 : utf16 (ofUtf16 p) = p := by
      obtain ⟨i, hi, rfl⟩ := List.getElem_of_mem hp
      have := congrArg (fun l : List JStr => l[i]?) hpc.1
      simp only [List.getElem?_map, List.getElem?_eq_getElem hi, Option.map_some, Option.some.injEq] at this
      exact this.symm
    rw [h0] at h1
    refine e5 ?_ p hp h1.symm
    intro h2
    rw [hut] at h2
    have : u = [] := utf16_inj (a := u) (b := []) h2
    exact hu' this
  intro s a b hsp ha hb
  obtain ⟨b1, b2⟩ := e3 s (mem_spansFor.mpr hsp)
  rw [hpc.1] at b1 b2
  rw [← hpc.2] at ha hb
  obtain ⟨i, i1, i2⟩ := border_seg b1 ha
  obtain ⟨j, j1, j2⟩ := border_seg b2 hb
  exact ⟨i, j, i1, j1, i2, j2⟩

end Verif
