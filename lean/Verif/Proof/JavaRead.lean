import Verif.Proof.JavaScalars
/-
For C88 and C89: the Java decoder on data that has a content.
-/
set_option linter.unusedSimpArgs false
namespace Verif
open World
open Spec (Both Cell LayerC Content FieldType Good TypeGood CellGood IsRef)

theorem pbind_assoc {α β γ : Type} (p : P α) (f : α → P β) (g : β → P γ) : ((p >>= f) >>= g) = (p >>= fun x => f x >>= g) := by
  funext bs
  simp only [P.bind_eq]
  cases p bs <;> rfl

/-! ### types -/

/-- the type that the decoder makes -/
def jTypeOf (t : TypeWire) : JType := ⟨(JTName.ofName t.name).getD .null, tmap (t.argD.map (fun e => (e.1, jVal e.2)))⟩

theorem getName_inj {a b : JTName} (h : a.getName = b.getName) : a = b := by
  revert h
  cases a <;> cases b <;> first | (intro _; rfl) | (intro h; exact absurd h (by decide))

theorem ofName_getName (n : JTName) : JTName.ofName n.getName = some n := by cases n <;> decide

/-- the names of good types -/
theorem jname_good {c : Content} {t : FieldType} (h : TypeGood c t) : ∃ n : JTName, n.getName = t.1 ∧ n ≠ .null ∧
    (n = .binary ∨ n = .string ∨ n = .bool ∨ n = .double ∨ n = .int ∨ n = .long ∨ n = .span ∨ IsRef t.1 ∨ n = .ext) := by
  obtain ⟨nm, ar⟩ := t
  have := h.name
  simp only [List.mem_cons, List.not_mem_nil, or_false] at this
  rcases this with (h | h | h | h | h | h) | h | h | h
  · subst h; simp only; exact ⟨.int, by decide, by decide, by simp⟩
  · subst h; simp only; exact ⟨.long, by decide, by decide, by simp⟩
  · subst h; simp only; exact ⟨.double, by decide, by decide, by simp⟩
  · subst h; simp only; exact ⟨.bool, by decide, by decide, by simp⟩
  · subst h; simp only; exact ⟨.string, by decide, by decide, by simp⟩
  · subst h; simp only; exact ⟨.binary, by decide, by decide, by simp⟩
  · subst h; simp only; exact ⟨.span, by decide, by decide, by simp⟩
  · have h' := h
    rcases h with h | h | h <;> subst h
    · exact ⟨.node, by simp only; decide, by decide, by simp only [h', or_true, true_or]⟩
    · exact ⟨.nodeArray, by simp only; decide, by decide, by simp only [h', or_true, true_or]⟩
    · exact ⟨.nodeSpan, by simp only; decide, by decide, by simp only [h', or_true, true_or]⟩
  · subst h; simp only; exact ⟨.ext, by decide, by decide, by simp⟩

theorem jTypeOf_name {t : TypeWire} {n : JTName} (h : n.getName = t.name) : JTName.ofName t.name = some n ∧ (jTypeOf t).name = n := by
  have : JTName.ofName t.name = some n := by rw [← h]; exact ofName_getName n
  exact ⟨this, by simp [jTypeOf, this]⟩

theorem jTypeOf_arg {t : TypeWire} (h : (dkeys t.argD).Nodup) (a : Str) : dget (jTypeOf t).args a = (dget t.argD a).map jVal := by
  simp only [jTypeOf]
  rw [dget_tmap (by rw [dkeys_mapv]; exact h), dget_map]

theorem jTypeOf_str {t : TypeWire} (h : (dkeys t.argD).Nodup) {a s : Str} (hs : dget t.argD a = some (.str s)) : dget (jTypeOf t).args a = some (.str s) := by
  rw [jTypeOf_arg h, hs]; rfl

theorem jTypeOf_has {c : Content} {t : TypeWire} {ft : FieldType} (hw : WType t ft) (hg : TypeGood c ft) (hn : (dkeys t.argD).Nodup)
    (hr : ∀ a o, ft.2 a = some o → Spec.ArgReadable o) : Spec.JTypeHas (jTypeOf t) ft := by
  obtain ⟨n, h1, -⟩ := jname_good hg
  refine ⟨?_, ?_⟩
  · rw [(jTypeOf_name (h1.trans hw.1.symm)).2, h1]
  · intro a
    rw [jTypeOf_arg hn, ← hw.2 a]
    cases ho : dget t.argD a with
    | none => exact .none
    | some o => exact .some (jVal_plain (.arg (hr a o (by rw [← hw.2, ho]))))

/-- a type that the decoder can read -/
structure TypeR (c : Content) (t : TypeWire) (ft : FieldType) : Prop where
  type : WType t ft
  good : TypeGood c ft
  keys : (dkeys t.argD).Nodup
  args : ∀ a o, ft.2 a = some o → Spec.ArgReadable o

theorem reads_field {c : Content} {f : Str} {t : TypeWire} {ft : FieldType} {bs : Bytes} (h : fieldBytes f t = .ok bs) (hl : bs.length < 2 ^ 31)
    (ht : TypeR c t ft) : Reads jField bs (f, jTypeOf t) := by
  obtain ⟨n, h1, h3, h4⟩ := jname_good ht.good
  obtain ⟨hn1, hn2⟩ := jTypeOf_name (h1.trans ht.type.1.symm)
  unfold fieldBytes at h
  obtain ⟨b1, b2, e1, e2, rfl⟩ := cat_ok h
  rw [List.length_append] at hl
  unfold jField
  refine (reads_str e1 (by omega)).bind ?_
  cases ha : t.args with
  | none =>
    rw [ha] at e2
    obtain ⟨b3, b4, e3, e4, rfl⟩ := cat_ok e2
    rw [List.length_append] at hl
    refine (reads_bool e3).bind ((reads_str e4 (by omega)).bind0 ?_)
    simp only [Bool.false_eq_true, if_false]
    have hnone : ∀ a, ft.2 a = none := by
      intro a
      rw [← ht.type.2, TypeWire.argD, ha]; rfl
    refine Reads.bindL (a := jTypeOf t) ?_ (Reads.pure _)
    unfold jTypeBare
    rw [hn1]
    simp only
    rw [if_pos]
    · congr 1
      have : jTypeOf t = ⟨(jTypeOf t).name, (jTypeOf t).args⟩ := rfl
      rw [this, hn2]
      simp [jTypeOf, TypeWire.argD, ha, tmap]
    · rcases h4 with h | h | h | h | h | h | h | h | h
      · simp [h]
      · simp [h]
      · simp [h]
      · simp [h]
      · simp [h]
      · simp [h]
      · subst h
        obtain ⟨s, u, q, -⟩ := ht.good.text h1.symm
        rw [hnone] at q; cases q
      · obtain ⟨s, u, q, -⟩ := ht.good.layer h
        rw [hnone] at q; cases q
      · subst h
        obtain ⟨s, q⟩ := ht.good.ext h1.symm
        rw [hnone] at q; cases q
  | some d =>
    rw [ha] at e2
    obtain ⟨b3, b4, e3, e4, rfl⟩ := cat_ok e2
    obtain ⟨b5, b6, e5, e6, rfl⟩ := cat_ok e4
    simp only [List.length_append] at hl
    have hd : t.argD = d := by simp [TypeWire.argD, ha]
    refine (reads_bool e3).bind ((reads_str e5 (by omega)).bind ?_)
    simp only [if_true]
    have := reads_entries (prop := false) (n := 510) e6 (by omega) (by
      rintro ⟨a, o⟩ he
      simp only [Bool.false_eq_true, if_false]
      exact ht.args a o (by rw [← ht.type.2, hd]; exact dget_of_mem (by rw [← hd]; exact ht.keys) he))
    have h5 : Reads (do
      let args ← (do P.times (jEntry false) (← jMap) : P (List (Str × JVal)))
      return (f, ← P.lift (jTypeWith t.name (tmap args)))) b6 (f, jTypeOf t) := by
      refine this.bind0 (Reads.bindL (a := jTypeOf t) ?_ (Reads.pure _))
      unfold jTypeWith
      rw [hn1]
      have h6 : jTypeOf t = ⟨(jTypeOf t).name, (jTypeOf t).args⟩ := rfl
      rw [h6, hn2]
      simp [jTypeOf, hd]
    intro rest
    have := h5 rest
    simp only [P.bind_eq] at this ⊢
    cases hm : jMap (b6 ++ rest) with
    | error e => rw [hm] at this; exact this
    | ok p =>
      rw [hm] at this
      exact this

/-- all types of a layer -/
def LayR (c : Content) (l : WireLayer) : Prop := (l.cols.map (·.1)).Nodup ∧ ∀ e ∈ l.cols, ∃ ft, TypeR c e.2.1 ft

/-- fields with their types -/
def jFieldsOf (l : WireLayer) : List (Str × JType) := l.cols.map (fun e => (e.1, jTypeOf e.2.1))

theorem reads_layerSchema {c : Content} {k : Str} {l : WireLayer} {bs : Bytes} (h : schemaBytes l = .ok bs) (hl : bs.length < 2 ^ 31) (hc : LayR c l) :
    Reads (jLayerSchema k) bs (k, jFieldsOf l) := by
  unfold schemaBytes at h
  obtain ⟨b1, b2, e1, e2, rfl⟩ := cat_ok h
  rw [List.length_append] at hl
  have hlen : l.cols.length ≤ b2.length := by
    have := catL_length e2 (by
      intro a ha b hb
      obtain ⟨e, -, rfl⟩ := List.mem_map.mp ha
      unfold fieldBytes at hb
      obtain ⟨p, q, g1, g2, rfl⟩ := cat_ok hb
      have := str_pos g1
      simp only [List.length_append]; omega)
    simpa using this
  unfold jLayerSchema
  refine (reads_len e1 (by omega)).bind ?_
  have ht := times_len (p := jField) (v := fun e : Str × TypeWire × List Obj => (e.1, jTypeOf e.2.1)) e2 (by
    intro e he b hb hbl
    obtain ⟨ft, hft⟩ := hc.2 e he
    exact reads_field hb (by omega) hft)
  simp only [Int.toNat_natCast]
  refine ht.bind0 (Reads.bindL (a := jFieldsOf l) ?_ (Reads.pure _))
  unfold jNoRepeat
  rw [if_pos]
  · rfl
  · simpa [Function.comp_def] using hc.1

theorem reads_schema {c : Content} {x : Wire} {b1 b2 : Bytes} (h1 : pack (.arr ((dkeys x.layers).map .str)) = .ok b1)
    (h2 : catL (x.layers.map (fun e => schemaBytes e.2)) = .ok b2) (hl : b1.length + b2.length < 2 ^ 31) (hn : (dkeys x.layers).Nodup)
    (hc : ∀ e ∈ x.layers, LayR c e.2) : Reads jSchema (b1 ++ b2) (x.layers.map (fun e => (e.1, jFieldsOf e.2))) := by
  have hs := reads_strs (n := 510) h1 (by omega)
  have h3 : Reads (do
    let names ← (do P.times jStr (← jArr) : P (List Str))
    if names.Nodup then P.each jLayerSchema names else P.fail .unmodelled) (b1 ++ b2) (x.layers.map (fun e => (e.1, jFieldsOf e.2))) := by
    refine hs.bind ?_
    rw [if_pos hn]
    exact each_len (f := jLayerSchema) (k := Prod.fst) h2 (fun e he b hb hbl => reads_layerSchema hb (by omega) (hc e he))
  intro rest
  have := h3 rest
  unfold jSchema
  simp only [P.bind_eq] at this ⊢
  cases hm : jArr (b1 ++ b2 ++ rest) with
  | error e => rw [hm] at this; exact this
  | ok p =>
    rw [hm] at this
    exact this

theorem reads_texts {t : Dict Str (List Str)} {bs len : Bytes} (h : pack (textsObj t) = .ok bs) (hlen : pack (.int bs.length) = .ok len) (hl : bs.length < 2 ^ 31)
    (hn : (dkeys t).Nodup) : Reads jTexts (len ++ bs) t := by
  unfold textsObj at h
  have h' : packAt (510 + 2) (.map (t.map (fun e => (e.1, .arr (e.2.map .str))))) = .ok bs := h
  rw [packAt_map] at h'
  obtain ⟨x, y, h1, h2, rfl⟩ := cat_ok h'
  rw [List.length_append] at hl
  rw [List.map_map, List.length_map] at *
  unfold jTexts
  refine (reads_len hlen (by rw [List.length_append]; omega)).bind ?_
  have hle : t.length ≤ y.length := by
    have := catL_length h2 (by
      intro a ha b hb
      obtain ⟨e, -, rfl⟩ := List.mem_map.mp ha
      obtain ⟨p, q, g1, g2, rfl⟩ := cat_ok hb
      have := str_pos g1
      simp only [List.length_append]; omega)
    simpa using this
  refine (reads_map h1 (by omega)).bind ?_
  have ht := times_len (p := jText) (v := fun e : Str × List Str => e) h2 (by
    intro e he b hb hbl
    obtain ⟨p, q, g1, g2, rfl⟩ := cat_ok hb
    rw [List.length_append] at hbl
    have h3 : Reads (do
      let c ← jStr
      let ss ← (do P.times jStr (← jArr) : P (List Str))
      return (c, ss)) (p ++ q) e := (reads_str g1 (by omega)).bind ((reads_strs (n := 509) g2 (by omega)).bind0 (Reads.pure _))
    intro rest
    have := h3 rest
    unfold jText
    simp only [P.bind_eq] at this ⊢
    cases hm : jStr (p ++ q ++ rest) with
    | error e => rw [hm] at this; exact this
    | ok u =>
      obtain ⟨u1, u2⟩ := u
      rw [hm] at this
      simp only at this ⊢
      cases hk : jArr u2 with
      | error e => rw [hk] at this; exact this
      | ok w => rw [hk] at this; exact this)
  rw [List.map_id''] at ht
  · refine ht.bind0 (Reads.lift ?_)
    unfold jNoRepeatText
    exact if_pos hn
  · intro e; rfl

theorem reads_props {d : Dict Str Obj} {bs len : Bytes} (h : pack (.map d) = .ok bs) (hlen : pack (.int bs.length) = .ok len) (hl : bs.length < 2 ^ 31)
    (hr : ∀ e ∈ d, Spec.PropReadable e.2) : Reads jProps (len ++ bs) (tmap (d.map (fun e => (e.1, jVal e.2)))) := by
  unfold jProps
  refine (reads_len hlen hl).bind ?_
  have h3 := reads_ret tmap (reads_entries (prop := true) (n := 510) h hl (fun e he => by simpa using hr e he))
  intro rest
  have := h3 rest
  simp only [P.bind_eq] at this ⊢
  cases hm : jMap (bs ++ rest) with
  | error e => rw [hm] at this; exact this
  | ok p => rw [hm] at this; exact this

/-! ### columns -/

/-- what a field holds before references are resolved -/
inductive JPre (texts : Dict Str (List Str)) (t : JType) : Option JVal → Option Cell → Prop
  | none : JPre texts t none none
  | bool {b} : JPre texts t (some (.bool b)) (some (.bool b))
  | int {i} : JPre texts t (some (.int i)) (some (.int i))
  | long {i} : JPre texts t (some (.long i)) (some (.int i))
  | double {x} : JPre texts t (some (.double x)) (some (.float x))
  | str {s} : JPre texts t (some (.str s)) (some (.str s))
  | ext {y b} : dget t.args "type".toList = some (.str y) → JPre texts t (some (.ext y b)) (some (.ext b))
  | span {c parts} {i j a b : Nat} : dget t.args "context".toList = some (.str c) → dget texts c = some parts →
      (segOffsets 0 parts)[i]? = some a → (segOffsets 0 parts)[j]? = some b → JPre texts t (some (.span c (i, j))) (some (.span a b))
  | node {i : Nat} : JPre texts t (some (.int i)) (some (.node i))
  | nodes {is : List Nat} : JPre texts t (some (.idArray (is.map (fun i : Nat => (i : Int))))) (some (.nodes is))
  | nodespan {i j : Nat} : JPre texts t (some (.idSpan i j)) (some (.nodespan i j))

theorem catL_one {a : Except PyErr Bytes} {bs : Bytes} (h : catL [a] = .ok bs) : a = .ok bs := by
  obtain ⟨x, y, h1, h2, rfl⟩ := cat_ok h
  cases h2
  rw [List.append_nil]
  exact h1

theorem catL_two {a b : Except PyErr Bytes} {bs : Bytes} (h : catL [a, b] = .ok bs) : ∃ x y, a = .ok x ∧ b = .ok y ∧ bs = x ++ y := by
  obtain ⟨x, y, h1, h2, rfl⟩ := cat_ok h
  exact ⟨x, y, h1, catL_one h2, rfl⟩

theorem segOffsets_length (pos : Nat) (segs : List Str) : (segOffsets pos segs).length = segs.length + 1 := by
  induction segs generalizing pos with
  | nil => rfl
  | cons s segs ih => simp [segOffsets, ih]

theorem reads_spanCell {c : Str} {parts : List Str} {texts : Dict Str (List Str)} (hp : dget texts c = some parts) {i j : Nat} {x y : Bytes}
    (h1 : pack (.int i) = .ok x) (h2 : pack (.int j) = .ok y) (hi : i < parts.length + 1) (hj : j < parts.length + 1) (hl : parts.length < 2 ^ 31 - 1) :
    Reads (jSpanCell c ((dget texts c).map (fun parts => parts.length + 1))) (x ++ y) (some (.span c (i, j))) := by
  rw [hp]
  have r1 := reads_len h1 (by omega)
  have r2 := reads_len h2 (by omega)
  obtain ⟨b, r, rfl, hb⟩ := int_head h1
  have hrest : Reads (do
    let a ← jInt
    let b ← jInt
    let x ← P.lift (offAt (some (parts.length + 1)) a)
    let y ← P.lift (offAt (some (parts.length + 1)) b)
    return some (JVal.span c (x, y))) (b :: r ++ y) (some (JVal.span c (i, j))) := by
    refine r1.bind (r2.bind0 (Reads.bindL (a := i) ?_ (Reads.bindL (a := j) ?_ (Reads.pure _))))
    · unfold offAt; simp only; rw [if_pos (by omega)]; rfl
    · unfold offAt; simp only; rw [if_pos (by omega)]; rfl
  intro rest
  have := hrest rest
  unfold jSpanCell
  rw [P.bind_eq]
  simp only [List.cons_append, jTryNil_other (show b.toNat ≠ 0xc0 by omega)] at this ⊢
  simp only [Bool.false_eq_true, if_false]
  exact this

theorem reads_spanNil {c : Str} {offs : Option Nat} : Reads (jSpanCell c offs) [0xc0, 0xc0] none := by
  intro rest
  unfold jSpanCell
  rw [P.bind_eq]
  simp only [List.cons_append, List.nil_append, jTryNil_nil, if_true]
  rw [P.bind_eq]
  simp [jNil, P.bind_eq, take_one, ofBe, P.pure_eq]

/-- a cell that the decoder can read -/
def CellR (c : Content) (ft : FieldType) (x : Option Cell) : Prop := ∀ y, x = some y → CellGood c ft y ∧ Spec.CellReadable ft y

theorem jCell_name {t : TypeWire} {n : JTName} (h : n.getName = t.name) : (jTypeOf t).name = n := (jTypeOf_name h).2

theorem reads_cell {x : Wire} {c : Content} {t : TypeWire} {ft : FieldType} {es : List Obj} {y : Option Cell} {bs : Bytes} (hs : ∀ s, c.size s < 2 ^ 31)
    (hx : ∀ s parts, dget x.texts s = some parts → parts.length < 2 ^ 31 - 1) (ht : TypeR c t ft) (hc : CellR c ft y) (hw : WCell x t es y)
    (h : catL (es.map (packAt 511)) = .ok bs) (hl : bs.length < 2 ^ 31) : ∃ v, Reads (jCell x.texts (jTypeOf t)) bs v ∧ JPre x.texts (jTypeOf t) v y := by
  have hname : ∀ n : JTName, n.getName = ft.1 → (jTypeOf t).name = n := fun n hn => jCell_name (hn.trans ht.type.1.symm)
  cases hw with
  | null hns =>
    have h := catL_one h
    cases h
    refine ⟨none, ?_, .none⟩
    obtain ⟨n, h1, h3, h4⟩ := jname_good ht.good
    have hn := hname n h1
    unfold jCell
    rw [hn]
    cases n with
    | ext =>
      obtain ⟨s, q⟩ := ht.good.ext h1.symm
      rw [← ht.type.2] at q
      refine Reads.bindL (a := s) ?_ reads_opt_nil
      unfold JType.arg
      rw [jTypeOf_str ht.keys q]
    | null => exact absurd rfl h3
    | span => exact absurd (ht.type.1.trans h1.symm) hns
    | _ => exact reads_opt_nil
  | nullSpan hsp =>
    obtain ⟨p, q, e1, e2, rfl⟩ := catL_two h
    cases e1; cases e2
    refine ⟨none, ?_, .none⟩
    have hft : ft.1 = "span".toList := ht.type.1.symm.trans hsp
    have hn := hname .span hft.symm
    obtain ⟨s, u, q, -⟩ := ht.good.text hft
    rw [← ht.type.2] at q
    unfold jCell
    rw [hn]
    refine Reads.bindL (a := s) ?_ reads_spanNil
    unfold JType.arg
    rw [jTypeOf_str ht.keys q]
  | @bool b =>
    have h : pack (.bool b) = .ok bs := by have := catL_one h; cases b <;> simpa [pack, packAt] using this
    cases (hc _ rfl).1 with
    | bool hn =>
      have hn := hname .bool hn.symm
      refine ⟨some (.bool b), ?_, .bool⟩
      unfold jCell
      rw [hn]
      have hr := reads_ret JVal.bool (reads_bool h)
      have : ∃ u, bs = [u] ∧ u.toNat ≠ 0xc0 := by cases b <;> (simp only [pack, packAt] at h; cases h; exact ⟨_, rfl, by decide⟩)
      obtain ⟨u, rfl, hu⟩ := this
      exact reads_opt hr hu
  | @int i =>
    have h : pack (.int i) = .ok bs := by have := catL_one h; simpa [pack, packAt] using this
    obtain ⟨b, r, e, hb⟩ := int_head h
    cases (hc _ rfl).2 with
    | int hr1 hr2 =>
      cases (hc _ rfl).1 with
      | int hn =>
        rcases hn with hn | hn
        · have hn' := hname .int hn.symm
          refine ⟨some (.int i), ?_, .int⟩
          unfold jCell
          rw [hn']
          have hr := reads_ret JVal.int (reads_int h (hr1 hn).1 (hr1 hn).2)
          rw [e] at hr ⊢
          exact reads_opt hr (by omega)
        · have hn' := hname .long hn.symm
          refine ⟨some (.long i), ?_, .long⟩
          unfold jCell
          rw [hn']
          have hr := reads_ret JVal.long (reads_long h (hr2 hn).1 (hr2 hn).2)
          rw [e] at hr ⊢
          exact reads_opt hr (by omega)
  | @float f =>
    have h : pack (.float f) = .ok bs := by have := catL_one h; simpa [pack, packAt] using this
    cases (hc _ rfl).1 with
    | float hn =>
      have hn := hname .double hn.symm
      refine ⟨some (.double f), ?_, .double⟩
      unfold jCell
      rw [hn]
      have hr := reads_ret JVal.double (reads_double h)
      simp only [pack, packAt] at h
      cases h
      exact reads_opt hr (by decide)
  | @str s =>
    have h : pack (.str s) = .ok bs := by have := catL_one h; simpa [pack, packAt] using this
    cases (hc _ rfl).1 with
    | str hn =>
      have hn := hname .string hn.symm
      refine ⟨some (.str s), ?_, .str⟩
      unfold jCell
      rw [hn]
      have hr := reads_ret JVal.str (reads_str h hl)
      obtain ⟨b, r, e, hb, -⟩ := str_head h
      rw [e] at hr ⊢
      exact reads_opt hr (by omega)
  | bin => cases (hc _ rfl).2
  | @ext d =>
    have h : pack (.bin d) = .ok bs := by have := catL_one h; simpa [pack, packAt] using this
    cases (hc _ rfl).1 with
    | ext hn =>
      obtain ⟨s, q⟩ := ht.good.ext hn
      rw [← ht.type.2] at q
      have hn := hname .ext hn.symm
      refine ⟨some (.ext s d), ?_, .ext (jTypeOf_str ht.keys q)⟩
      unfold jCell
      rw [hn]
      refine Reads.bindL (a := s) ?_ ?_
      · unfold JType.arg
        rw [jTypeOf_str ht.keys q]
      · have hr := reads_ret (JVal.ext s) (reads_bin h hl)
        obtain ⟨b, r, rfl, hb1, hb2, -⟩ := bin_head h
        refine reads_opt ?_ (by omega)
        intro rest
        have hpk : jPeek (b :: r ++ rest) = .ok (b.toNat, b :: r ++ rest) := rfl
        unfold jExtCell
        simp only [P.bind_eq, hpk]
        rw [if_pos ⟨hb1, hb2⟩]
        exact hr rest
  | @span i j a b s segs h1 h2 h3 h4 =>
    obtain ⟨p, q, e1, e2, rfl⟩ := catL_two h
    cases (hc _ rfl).1 with
    | span hn =>
      have hn := hname .span hn.symm
      refine ⟨some (.span s (i, j)), ?_, .span (jTypeOf_str ht.keys h1) h2 h3 h4⟩
      unfold jCell
      rw [hn]
      refine Reads.bindL (a := s) ?_ ?_
      · unfold JType.arg
        rw [jTypeOf_str ht.keys h1]
      · have hi := (List.getElem?_eq_some_iff.mp h3).1
        have hj := (List.getElem?_eq_some_iff.mp h4).1
        rw [segOffsets_length] at hi hj
        exact reads_spanCell h2 (by simpa [pack, packAt] using e1) (by simpa [pack, packAt] using e2) hi hj (hx s segs h2)
  | @node i =>
    have h : pack (.int i) = .ok bs := by have := catL_one h; simpa [pack, packAt] using this
    obtain ⟨b, r, e, hb⟩ := int_head h
    cases (hc _ rfl).1 with
    | @node _ s hn ha hi =>
      have hn := hname .node hn.symm
      refine ⟨some (.int i), ?_, .node⟩
      unfold jCell
      rw [hn]
      have := hs s
      have hr := reads_ret JVal.int (reads_len h (by omega))
      rw [e] at hr ⊢
      exact reads_opt hr (by omega)
  | @nodes is =>
    have h := catL_one h
    cases (hc _ rfl).1 with
    | @nodes _ s hn ha hne hi =>
      have hn := hname .nodeArray hn.symm
      refine ⟨some (.idArray (is.map (fun i : Nat => (i : Int)))), ?_, .nodes⟩
      unfold jCell
      rw [hn]
      have := hs s
      have hr := reads_ret JVal.idArray (reads_ints (n := 509) h hl (fun i h => by have := hi i h; omega))
      rw [packAt_arr] at h
      obtain ⟨p, q, e1, e2, rfl⟩ := cat_ok h
      obtain ⟨b, r, rfl, hb⟩ := arr_head e1
      rw [pbind_assoc] at hr
      exact reads_opt hr hb
  | @nodespan i j =>
    have h := catL_one h
    cases (hc _ rfl).1 with
    | @nodespan _ _ s hn ha hij hj =>
      have hn := hname .nodeSpan hn.symm
      have := hs s
      refine ⟨some (.idSpan i j), ?_, .nodespan⟩
      unfold jCell
      rw [hn]
      rw [packAt_arr] at h
      obtain ⟨p, q, e1, e2, rfl⟩ := cat_ok h
      obtain ⟨u, v, g1, g2, rfl⟩ := catL_two e2
      have hrd : Reads (do
        let _ ← jArr
        let l ← jInt
        let r ← jInt
        return JVal.idSpan l (r + l)) (p ++ (u ++ v)) (JVal.idSpan i j) := by
        refine (reads_arr e1 (by simp)).bind ?_
        refine (reads_len (n := i) (by simpa [pack, packAt] using g1) (by omega)).bind ?_
        refine (reads_int (i := (j : Int) - i) (by simpa [pack, packAt] using g2) (by omega) (by omega)).bind0 ?_
        have : ((j : Int) - i) + i = j := by omega
        rw [this]
        exact Reads.pure _
      obtain ⟨b, r, rfl, hb⟩ := arr_head e1
      exact reads_opt hrd hb

theorem putCol_rows {f : Str} {Q : Nat → Option JVal → Prop} : ∀ {rows : List (Dict Str JVal)} {vs : List (Option JVal)} {R : Nat → Str → Option JVal → Prop},
    vs.length = rows.length → (∀ (i : Nat) v, vs[i]? = some v → Q i v) → RowsAre rows R → (∀ i v, R i f v → v = none) →
    (putCol f rows vs).length = rows.length ∧ RowsAre (putCol f rows vs) (fun i f' v => if f' = f then Q i v else R i f' v) := by
  intro rows
  revert Q
  induction rows with
  | nil =>
    intro Q vs R hl _ _ _
    cases vs with
    | nil => exact ⟨by simp [putCol], fun i r hr => by simp [putCol] at hr⟩
    | cons c vs => simp at hl
  | cons d rows ih =>
    intro Q vs R hl hg hR hn
    cases vs with
    | nil => simp at hl
    | cons v vs =>
      obtain ⟨h2, h3⟩ := ih (Q := fun i => Q (i + 1)) (vs := vs) (R := fun i => R (i + 1)) (by simpa using hl)
        (fun i c hc => hg (i + 1) c (by simpa using hc)) (fun i r hr => hR (i + 1) r (by simpa using hr)) (fun i v hv => hn (i + 1) v hv)
      have hq := hg 0 v (by simp)
      refine ⟨by simp [putCol, h2], ?_⟩
      intro i r hr f'
      simp only [putCol] at hr
      cases i with
      | zero =>
        simp only [List.getElem?_cons_zero, Option.some.injEq] at hr
        subst hr
        have hd := hR 0 d (by simp)
        have hd0 := hn 0 _ (hd f)
        by_cases hf : f' = f
        · subst hf
          rw [if_pos rfl]
          cases v with
          | none => simp only [hd0]; exact hq
          | some v => simp only [dget_tput, if_true]; exact hq
        · rw [if_neg hf]
          cases v with
          | none => exact hd f'
          | some v => simp only [dget_tput]; rw [if_neg (fun e => hf e.symm)]; exact hd f'
      | succ i => exact h3 i r (by simpa using hr) f'

/-- a column that the decoder can read -/
structure ColR (x : Wire) (c : Content) (lc : LayerC) (e : Str × TypeWire × List Obj) (ft : FieldType) : Prop where
  type : TypeR c e.2.1 ft
  cells : ∃ ess : List (List Obj), ess.length = lc.rows.length ∧ e.2.2 = ess.flatten ∧
    ∀ (i : Nat) es row, ess[i]? = some es → lc.rows[i]? = some row → WCell x e.2.1 es (row e.1) ∧ CellR c ft (row e.1)

theorem needArg_ok {c : Content} {t : TypeWire} {ft : FieldType} (ht : TypeR c t ft) : needArg (jTypeOf t) = .ok () := by
  obtain ⟨n, h1, h3, -⟩ := jname_good ht.good
  have hn : (jTypeOf t).name = n := jCell_name (h1.trans ht.type.1.symm)
  unfold needArg
  rw [hn]
  by_cases hs : n = .span
  · subst hs
    obtain ⟨s, u, q, -⟩ := ht.good.text h1.symm
    rw [← ht.type.2] at q
    simp only [if_true, JType.arg, jTypeOf_str ht.keys q]
  · by_cases he : n = .ext
    · subst he
      obtain ⟨s, q⟩ := ht.good.ext h1.symm
      rw [← ht.type.2] at q
      simp only [hs, if_false, if_true, JType.arg, jTypeOf_str ht.keys q]
    · simp only [hs, he, h3, if_false]

theorem flatten_len {ess : List (List Obj)} (h : ∀ es ∈ ess, es ≠ []) : ess.length ≤ ess.flatten.length := by
  induction ess with
  | nil => simp
  | cons e ess ih =>
    have := ih (fun e he => h e (by simp [he]))
    have := List.length_pos_iff.mpr (h e (by simp))
    simp only [List.flatten_cons, List.length_append, List.length_cons]
    omega

theorem cols_j {x : Wire} {c : Content} (hs : ∀ s, c.size s < 2 ^ 31)
    (hx : ∀ s parts, dget x.texts s = some parts → parts.length < 2 ^ 31 - 1) {lc : LayerC} : ∀ (cols : List (Str × TypeWire × List Obj))
    {rows : List (Dict Str JVal)} {R : Nat → Str → Option JVal → Prop} {bs : Bytes}, (cols.map (·.1)).Nodup →
    (∀ e ∈ cols, ∃ ft, ColR x c lc e ft) → rows.length = lc.rows.length → RowsAre rows R → (∀ e ∈ cols, ∀ i v, R i e.1 v → v = none) →
    catL (cols.map (fun c => cat (pack (.bool false)) (pack (.arr c.2.2)))) = .ok bs → bs.length < 2 ^ 31 →
    ∃ rows', Reads (jCols x.texts lc.rows.length (cols.map (fun e => (e.1, jTypeOf e.2.1))) rows) bs rows' ∧ rows'.length = lc.rows.length ∧
      RowsAre rows' (fun i f v => (∃ e ∈ cols, e.1 = f ∧ ∃ row, lc.rows[i]? = some row ∧ JPre x.texts (jTypeOf e.2.1) v (row f)) ∨
        (f ∉ cols.map (·.1) ∧ R i f v)) := by
  intro cols
  induction cols with
  | nil =>
    intro rows R bs _ _ hl hR _ hb _
    cases hb
    exact ⟨rows, Reads.pure _, hl, hR.imp (fun i f v _ h => .inr ⟨by simp, h⟩)⟩
  | cons e cols ih =>
    intro rows R bs hnd hc hl hR hn hb hbl
    rw [List.map_cons, List.nodup_cons] at hnd
    obtain ⟨ft, hft⟩ := hc e (by simp)
    obtain ⟨b1, b2, e1, e2, rfl⟩ := cat_ok hb
    obtain ⟨b3, b4, e3, e4, rfl⟩ := cat_ok e1
    simp only [List.length_append] at hbl
    obtain ⟨ess, q1, q2, q3⟩ := hft.cells
    have e4' : packAt (511 + 1) (.arr e.2.2) = .ok b4 := e4
    rw [packAt_arr] at e4'
    obtain ⟨b5, b6, e5, e6, rfl⟩ := cat_ok e4'
    simp only [List.length_append] at hbl
    have hlen : e.2.2.length ≤ b6.length := by
      have := catL_length e6 (by
        intro a ha b hb
        obtain ⟨o, -, rfl⟩ := List.mem_map.mp ha
        exact packAt_pos hb)
      simpa using this
    rw [q2, catL_flatten] at e6
    obtain ⟨vs, v1, v2, v3⟩ := times_rel (p := jCell x.texts (jTypeOf e.2.1)) (Q := fun i v => ∃ row, lc.rows[i]? = some row ∧ JPre x.texts (jTypeOf e.2.1) v (row e.1)) e6 (by
      intro i es b hes hb hble
      obtain ⟨row, hrow⟩ := getElem?_of_len q1 hes
      obtain ⟨w1, w2⟩ := q3 i es row hes hrow
      obtain ⟨v, hv1, hv2⟩ := reads_cell hs hx hft.type w2 w1 hb (by omega)
      exact ⟨v, hv1, row, hrow, hv2⟩)
    obtain ⟨p1, p2⟩ := putCol_rows (f := e.1) (rows := rows) (vs := vs) (by omega) v3 hR (hn e (by simp))
    obtain ⟨r2, g1, g2, g3⟩ := ih hnd.2 (fun e' he => hc e' (by simp [he])) (p1.trans hl) p2 (by
      intro e' he' i v hv
      have hne : e'.1 ≠ e.1 := fun h => hnd.1 (by rw [← h]; exact List.mem_map_of_mem he')
      rw [if_neg hne] at hv
      exact hn e' (by simp [he']) i v hv) e2 (by omega)
    refine ⟨r2, ?_, g2, ?_⟩
    · simp only [List.map_cons, jCols]
      rw [List.append_assoc, List.append_assoc]
      refine (reads_bool e3).bind ?_
      simp only [Bool.false_eq_true, if_false]
      refine (reads_arr e5 (by omega)).bind (Reads.bindL (needArg_ok hft.type) ?_)
      rw [← q1]
      refine v2.bind ?_
      rw [q1]
      exact g1
    · refine g3.imp ?_
      rintro i f v - (⟨e', he', he, h⟩ | ⟨hf, h⟩)
      · exact .inl ⟨e', by simp [he'], he, h⟩
      · by_cases he : f = e.1
        · rw [if_pos he] at h
          subst he
          exact .inl ⟨e, by simp, rfl, h⟩
        · rw [if_neg he] at h
          exact .inr ⟨by simp only [List.map_cons, List.mem_cons, not_or]; exact ⟨he, hf⟩, h⟩

end Verif
