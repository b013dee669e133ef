import Verif.Props.JavaCodecSpec
import Verif.Proof.TreeMap
import Verif.Proof.DocRound
import Verif.Proof.MsgpackCodec
/-
For C87-C89: when the data of the format has a content, and what Python's decoder makes of it.
-/
set_option linter.unusedSimpArgs false
namespace Verif
open World
open Spec (Both Cell LayerC Content FieldType Good TypeGood CellGood IsRef)

/-! ### data that has a content -/

/-- the arguments of a type -/
def TypeWire.argD (t : TypeWire) : Dict Str Obj := t.args.getD []

/-- the entries of a column for one node -/
inductive WCell (x : Wire) (t : TypeWire) : List Obj → Option Cell → Prop
  | null : t.name ≠ "span".toList → WCell x t [.nil] none
  | nullSpan : t.name = "span".toList → WCell x t [.nil, .nil] none
  | bool {b} : WCell x t [.bool b] (some (.bool b))
  | int {i} : WCell x t [.int i] (some (.int i))
  | float {f} : WCell x t [.float f] (some (.float f))
  | str {s} : WCell x t [.str s] (some (.str s))
  | bin {b} : WCell x t [.bin b] (some (.bin b))
  | ext {b} : WCell x t [.bin b] (some (.ext b))
  | span {i j a b : Nat} {c segs} : dget t.argD "context".toList = some (.str c) → dget x.texts c = some segs →
      (segOffsets 0 segs)[i]? = some a → (segOffsets 0 segs)[j]? = some b → WCell x t [.int i, .int j] (some (.span a b))
  | node {i : Nat} : WCell x t [.int i] (some (.node i))
  | nodes {is : List Nat} : WCell x t [.arr (is.map (fun i : Nat => .int i))] (some (.nodes is))
  | nodespan {i j : Nat} : WCell x t [.arr [.int i, .int ((j : Int) - i)]] (some (.nodespan i j))

/-- a type -/
def WType (t : TypeWire) (ft : FieldType) : Prop := t.name = ft.1 ∧ ∀ a, dget t.argD a = ft.2 a

/-- names and types of the columns -/
def WireLayer.fields (l : WireLayer) : Dict Str TypeWire := l.cols.map (fun c => (c.1, c.2.1))

/-- a layer -/
structure WLay (x : Wire) (l : WireLayer) (lc : LayerC) : Prop where
  num : l.num = lc.rows.length
  nodup : (dkeys l.fields).Nodup
  fields : ∀ f, Both WType (dget l.fields f) (lc.fields f)
  cells : ∀ f t data, (f, t, data) ∈ l.cols → ∃ ess : List (List Obj), ess.length = lc.rows.length ∧ data = ess.flatten ∧
    ∀ (i : Nat) es row, ess[i]? = some es → lc.rows[i]? = some row → WCell x t es (row f)

/-- data of the format that has this content -/
structure WHas (x : Wire) (c : Content) : Prop where
  ok : WireOk x
  props : ∀ k, dget x.props k = c.props k
  texts : ∀ k, (dget x.texts k).map List.flatten = c.texts k
  layers : ∀ k, Both (WLay x) (dget x.layers k) (c.layers k)

/-- the segments of texts that are not empty are not empty -/
def SegsOk (x : Wire) : Prop := ∀ k parts, (k, parts) ∈ x.texts → (∀ s ∈ parts, s ≠ []) ∨ parts.flatten = []

theorem Spec.Both.none_iff {α β : Type} {R : α → β → Prop} {a : Option α} {b : Option β} (h : Both R a b) : a = Option.none ↔ b = Option.none := by
  cases h <;> simp

theorem Spec.Both.of_some {α β : Type} {R : α → β → Prop} {x : α} {b : Option β} (h : Both R (Option.some x) b) : ∃ y, b = Option.some y ∧ R x y := by
  cases h with
  | some h => exact ⟨_, rfl, h⟩

theorem Spec.Both.to_some {α β : Type} {R : α → β → Prop} {a : Option α} {y : β} (h : Both R a (Option.some y)) : ∃ x, a = Option.some x ∧ R x y := by
  cases h with
  | some h => exact ⟨_, rfl, h⟩

/-! ### records -/

/-- the fields of the records satisfy `R` -/
def RowsAre {V : Type} (rows : List (Dict Str V)) (R : Nat → Str → Option V → Prop) : Prop :=
  ∀ (i : Nat) r, rows[i]? = some r → ∀ f, R i f (dget r f)

theorem RowsAre.imp {V : Type} {rows : List (Dict Str V)} {R S : Nat → Str → Option V → Prop} (h : RowsAre rows R)
    (hs : ∀ i f v, i < rows.length → R i f v → S i f v) : RowsAre rows S := by
  intro i r hr f
  exact hs i f _ (List.getElem?_eq_some_iff.mp hr).1 (h i r hr f)

theorem zipSet_rows {α : Type} {f : Str} {g : α → Except PyErr (Option Value)} {Q : Nat → Option Value → Prop} :
    ∀ {rows : List (Dict Str Value)} {cs : List α} {R : Nat → Str → Option Value → Prop}, cs.length = rows.length →
    (∀ (i : Nat) c, cs[i]? = some c → ∃ v, g c = .ok v ∧ Q i v) → RowsAre rows R → (∀ i v, R i f v → v = none) →
    ∃ rows', zipSet f g rows cs = .ok rows' ∧ rows'.length = rows.length ∧ RowsAre rows' (fun i f' v => if f' = f then Q i v else R i f' v) := by
  intro rows
  revert Q
  induction rows with
  | nil =>
    intro Q cs R hl _ _ _
    cases cs with
    | nil => exact ⟨[], by simp [zipSet], rfl, fun i r hr => by simp at hr⟩
    | cons c cs => simp at hl
  | cons d rows ih =>
    intro Q cs R hl hg hR hn
    cases cs with
    | nil => simp at hl
    | cons c cs =>
      obtain ⟨v, hv, hq⟩ := hg 0 c (by simp)
      obtain ⟨rows', h1, h2, h3⟩ := ih (Q := fun i => Q (i + 1)) (cs := cs) (R := fun i => R (i + 1)) (by simpa using hl)
        (fun i c hc => hg (i + 1) c (by simpa using hc)) (fun i r hr => hR (i + 1) r (by simpa using hr)) (fun i v hv => hn (i + 1) v hv)
      refine ⟨(match v with | none => d | some v => dset d f v) :: rows', ?_, by simp [h2], ?_⟩
      · simp only [zipSet, hv, h1]
        cases v <;> rfl
      · intro i r hr f'
        cases i with
        | zero =>
          simp only [List.getElem?_cons_zero, Option.some.injEq] at hr
          subst hr
          have hd := hR 0 d (by simp)
          have hd0 := hn 0 _ (hd f)
          by_cases hf : f' = f
          · subst hf
            rw [if_pos rfl]
            cases v with
            | none => simp only [hd0]; exact hq
            | some v => simp only [dget_dset, if_true]; exact hq
          · rw [if_neg hf]
            cases v with
            | none => exact hd f'
            | some v => simp only [dget_dset]; rw [if_neg (fun e => hf e.symm)]; exact hd f'
        | succ i => exact h3 i r (by simpa using hr) f'

theorem mapE_rows {V : Type} {f : Str} {step : Dict Str V → Except PyErr (Dict Str V)} {Q : Nat → Option V → Prop} :
    ∀ {rows : List (Dict Str V)} {R : Nat → Str → Option V → Prop}, RowsAre rows R →
    (∀ i r, i < rows.length → R i f (dget r f) → ∃ r', step r = .ok r' ∧ Q i (dget r' f) ∧ ∀ f', f' ≠ f → dget r' f' = dget r f') →
    ∃ rows', mapE step rows = .ok rows' ∧ rows'.length = rows.length ∧ RowsAre rows' (fun i f' v => if f' = f then Q i v else R i f' v) := by
  intro rows
  revert Q
  induction rows with
  | nil => intro Q R _ _; exact ⟨[], rfl, rfl, fun i r hr => by simp at hr⟩
  | cons d rows ih =>
    intro Q R hR hs
    have hd := hR 0 d (by simp)
    obtain ⟨r', e1, e2, e3⟩ := hs 0 d (by simp) (hd f)
    obtain ⟨rows', h1, h2, h3⟩ := ih (Q := fun i => Q (i + 1)) (R := fun i => R (i + 1)) (fun i r hr => hR (i + 1) r (by simpa using hr))
      (fun i r hi hr => hs (i + 1) r (by simpa using hi) hr)
    refine ⟨r' :: rows', by simp only [mapE, e1, h1], by simp [h2], ?_⟩
    intro i r hr f'
    cases i with
    | zero =>
      simp only [List.getElem?_cons_zero, Option.some.injEq] at hr
      subst hr
      by_cases hf : f' = f
      · subst hf; rw [if_pos rfl]; exact e2
      · rw [if_neg hf, e3 f' hf]; exact hd f'
    | succ i => exact h3 i r (by simpa using hr) f'

/-! ### types -/

theorem ofWire_good {c : Content} {t : FieldType} (h : TypeGood c t) : ∃ n, TName.ofWire t.1 = .ok n ∧ n.wire = .ok t.1 ∧ n ≠ .unknown := by
  obtain ⟨nm, ar⟩ := t
  have := h.name
  simp only [List.mem_cons, List.not_mem_nil, or_false, IsRef] at this
  rcases this with (h | h | h | h | h | h) | h | (h | h | h) | h <;> subst h <;> simp only
  · exact ⟨.i32, by decide⟩
  · exact ⟨.i64, by decide⟩
  · exact ⟨.f64, by decide⟩
  · exact ⟨.bool, by decide⟩
  · exact ⟨.string, by decide⟩
  · exact ⟨.binary, by decide⟩
  · exact ⟨.span, by decide⟩
  · exact ⟨.noderef, by decide⟩
  · exact ⟨.noderefMany, by decide⟩
  · exact ⟨.nodespan, by decide⟩
  · exact ⟨.ext, by decide⟩

theorem wire_inj {a b : TName} {s : Str} (ha : a.wire = .ok s) (hb : b.wire = .ok s) : a = b := by
  rw [← hb] at ha
  revert ha
  cases a <;> cases b <;> first | (intro _; rfl) | (intro h; exact absurd h (by decide))

theorem dget_map {α β : Type} (f : α → β) (d : Dict Str α) (k : Str) : dget (d.map (fun e => (e.1, f e.2))) k = (dget d k).map f := by
  induction d with
  | nil => rfl
  | cons e d ih =>
    obtain ⟨a, b⟩ := e
    simp only [List.map_cons, dget]
    split
    · rfl
    · exact ih

theorem dkeys_mapv {α β : Type} (f : α → β) (d : Dict Str α) : dkeys (d.map (fun e => (e.1, f e.2))) = dkeys d := by
  simp [dkeys, Function.comp_def]

/-- the type that Python's decoder makes -/
def pyType (t : TypeWire) : DataType :=
  ⟨(match TName.ofWire t.name with | .ok n => n | .error _ => .unknown), false, t.argD.map (fun e => (e.1, Value.ofObj e.2))⟩

theorem toObj_ofObj (o : Obj) : (Value.ofObj o).toObj = .ok o := by cases o <;> rfl

theorem pyType_ok {c : Content} {t : TypeWire} {ft : FieldType} (hw : WType t ft) (hg : TypeGood c ft) :
    t.decode = .ok (pyType t) ∧ (pyType t).tname.wire = .ok t.name ∧ Spec.PyType (pyType t) ft := by
  obtain ⟨n, h1, h2, h4⟩ := ofWire_good hg
  rw [← hw.1] at h1 h2
  have hp : pyType t = ⟨n, false, t.argD.map (fun e => (e.1, Value.ofObj e.2))⟩ := by unfold pyType; rw [h1]
  refine ⟨?_, ?_, ?_, ?_⟩
  · unfold TypeWire.decode
    rw [h1, hp]
    simp only
    cases ha : t.args with
    | none => simp [TypeWire.argD, ha]
    | some d =>
      have hs := hg.args
      rw [← hw.2, ← hw.2] at hs
      simp only [TypeWire.argD, ha, Option.getD_some] at hs ⊢
      rw [if_neg (by rintro (e | e); exact (dget_none_iff _ _).mp hs.1 e; exact (dget_none_iff _ _).mp hs.2 e)]
  · rw [hp]; exact h2
  · rw [hp, ← hw.1]; exact h2
  · intro a
    rw [hp, ← hw.2 a]
    simp only [dget_map]
    cases dget t.argD a with
    | none => exact .none
    | some o => exact .some (toObj_ofObj o)

theorem pyType_opt {t : TypeWire} {a : Str} {s : Str} (h : dget t.argD a = some (.str s)) : dget (pyType t).options a = some (.str s) := by
  unfold pyType
  simp only [dget_map, h]
  rfl

/-! ### columns -/

/-- what a field holds before references are resolved -/
inductive PyPre (tab : TextTab) (t : TypeWire) : Option Value → Option Cell → Prop
  | none : PyPre tab t none none
  | bool {b} : PyPre tab t (some (.bool b)) (some (.bool b))
  | int {i} : PyPre tab t (some (.int i)) (some (.int i))
  | float {x} : PyPre tab t (some (.float x)) (some (.float x))
  | str {s} : PyPre tab t (some (.str s)) (some (.str s))
  | bin {s} : PyPre tab t (some (.bytes s)) (some (.bin s))
  | ext {b} : PyPre tab t none (some (.ext b))
  | span {T c offs} {a b : Nat} : dget t.argD "context".toList = some (.str c) → dget tab c = some (T, offs) →
      PyPre tab t (some (.span T a b)) (some (.span a b))
  | node {i : Nat} : PyPre tab t (some (.int i)) (some (.node i))
  | nodes {is : List Nat} : PyPre tab t (some (.data (.arr (is.map (fun i : Nat => .int i))))) (some (.nodes is))
  | nodespan {i j : Nat} : PyPre tab t (some (.data (.arr [.int i, .int ((j : Int) - i)]))) (some (.nodespan i j))

/-- the cell is valid -/
def CellIs (c : Content) (ft : FieldType) (x : Option Cell) : Prop := ∀ y, x = some y → CellGood c ft y

theorem span_ne {c : Content} {ft : FieldType} {y : Cell} (h : CellGood c ft y) (hs : ft.1 = "span".toList) : ∃ a b, y = .span a b := by
  cases h with
  | span => exact ⟨_, _, rfl⟩
  | int h => rcases h with h | h <;> rw [hs] at h <;> exact absurd h (by decide)
  | bool h => rw [hs] at h; exact absurd h (by decide)
  | float h => rw [hs] at h; exact absurd h (by decide)
  | str h => rw [hs] at h; exact absurd h (by decide)
  | bin h => rw [hs] at h; exact absurd h (by decide)
  | ext h => rw [hs] at h; exact absurd h (by decide)
  | node h => rw [hs] at h; exact absurd h (by decide)
  | nodes h => rw [hs] at h; exact absurd h (by decide)
  | nodespan h => rw [hs] at h; exact absurd h (by decide)

theorem ext_ne {c : Content} {ft : FieldType} {y : Cell} (h : CellGood c ft y) (hs : ft.1 = "ext".toList) : ∃ b, y = .ext b := by
  cases h with
  | ext => exact ⟨_, rfl⟩
  | int h => rcases h with h | h <;> rw [hs] at h <;> exact absurd h (by decide)
  | bool h => rw [hs] at h; exact absurd h (by decide)
  | float h => rw [hs] at h; exact absurd h (by decide)
  | str h => rw [hs] at h; exact absurd h (by decide)
  | bin h => rw [hs] at h; exact absurd h (by decide)
  | span h => rw [hs] at h; exact absurd h (by decide)
  | node h => rw [hs] at h; exact absurd h (by decide)
  | nodes h => rw [hs] at h; exact absurd h (by decide)
  | nodespan h => rw [hs] at h; exact absurd h (by decide)

theorem wcell_one {x : Wire} {c : Content} {t : TypeWire} {ft : FieldType} {es : List Obj} {y : Option Cell} (h : WCell x t es y) (hw : WType t ft)
    (hg : CellIs c ft y) (hs : t.name ≠ "span".toList) : ∃ o, es = [o] := by
  cases h with
  | nullSpan h => exact absurd h hs
  | span =>
    cases hg _ rfl with
    | span h => exact absurd (hw.1.trans h) hs
  | _ => exact ⟨_, rfl⟩

theorem wcell_two {x : Wire} {c : Content} {t : TypeWire} {ft : FieldType} {es : List Obj} {y : Option Cell} (h : WCell x t es y) (hw : WType t ft)
    (hg : CellIs c ft y) (hs : t.name = "span".toList) : ∃ a b, es = [a, b] := by
  have hft : ft.1 = "span".toList := hw.1.symm.trans hs
  cases h with
  | null h => exact absurd hs h
  | nullSpan => exact ⟨_, _, rfl⟩
  | span => exact ⟨_, _, rfl⟩
  | _ => obtain ⟨a, b, e⟩ := span_ne (hg _ rfl) hft; cases e

theorem ones {ess : List (List Obj)} (h : ∀ es ∈ ess, ∃ o, es = [o]) : ∃ l : List Obj, ess = l.map (fun o => [o]) ∧ ess.flatten = l := by
  refine ⟨ess.map (fun es => es.headD .nil), ?_, ?_⟩
  · rw [List.map_map]
    induction ess with
    | nil => rfl
    | cons e ess ih =>
      obtain ⟨o, rfl⟩ := h e (by simp)
      rw [List.map_cons, ← ih (fun e he => h e (by simp [he]))]
      rfl
  · induction ess with
    | nil => rfl
    | cons e ess ih =>
      obtain ⟨o, rfl⟩ := h e (by simp)
      simp [ih (fun e he => h e (by simp [he]))]

theorem twos {ess : List (List Obj)} (h : ∀ es ∈ ess, ∃ a b, es = [a, b]) : ∃ l : List (Obj × Obj), ess = l.map (fun p => [p.1, p.2]) ∧ pairsOf ess.flatten = l := by
  have : ∃ l : List (Obj × Obj), ess = l.map (fun p => [p.1, p.2]) := by
    induction ess with
    | nil => exact ⟨[], rfl⟩
    | cons e ess ih =>
      obtain ⟨a, b, rfl⟩ := h e (by simp)
      obtain ⟨l, rfl⟩ := ih (fun e he => h e (by simp [he]))
      exact ⟨(a, b) :: l, rfl⟩
  obtain ⟨l, rfl⟩ := this
  exact ⟨l, rfl, pairsOf_flatten l⟩

theorem tab_get {x : Wire} (hx : WireOk x) {c : Str} {segs : List Str} (h : dget x.texts c = some segs) :
    ∃ T : Nat, x.texts[T]? = some (c, segs) ∧ dget (textTab x.texts) c = some (T, segOffsets 0 segs) := by
  obtain ⟨T, hT⟩ := List.getElem?_of_mem (dget_mem h)
  refine ⟨T, hT, dget_of_mem ?_ ?_⟩
  · have e : dkeys (textTab x.texts) = (x.texts.zipIdx.map (·.1)).map (·.1) := by
      simp only [textTab, dkeys, List.map_map, Function.comp_def]
    rw [e, List.zipIdx_map_fst]
    exact hx.texts
  · unfold textTab
    rw [List.mem_map]
    exact ⟨((c, segs), T), by rw [List.mem_zipIdx_iff_getElem?]; exact hT, rfl⟩

/-- a column of a layer with its content -/
structure ColOk (x : Wire) (c : Content) (lc : LayerC) (e : Str × TypeWire × List Obj) (ft : FieldType) : Prop where
  type : WType e.2.1 ft
  good : TypeGood c ft
  cells : ∃ ess : List (List Obj), ess.length = lc.rows.length ∧ e.2.2 = ess.flatten ∧
    ∀ (i : Nat) es row, ess[i]? = some es → lc.rows[i]? = some row → WCell x e.2.1 es (row e.1) ∧ CellIs c ft (row e.1)

theorem getElem?_of_len {α β : Type} {l : List α} {m : List β} (h : l.length = m.length) {i : Nat} {a : α} (ha : l[i]? = some a) : ∃ b, m[i]? = some b := by
  have := (List.getElem?_eq_some_iff.mp ha).1
  exact ⟨m[i], List.getElem?_eq_getElem (by omega)⟩

/-- documents in extended fields can be decoded, and there is nothing else in extended fields -/
def ExtOk (nested : Bytes → Except PyErr Unit) (ft : FieldType) (y : Option Cell) : Prop :=
  ∀ b, y = some (.ext b) → ft.2 "type".toList = some (.str "doc".toList) ∧ nested b = .ok ()

theorem col_py {nested : Bytes → Except PyErr Unit} {x : Wire} {c : Content} (hx : WHas x c) {lc : LayerC} {e : Str × TypeWire × List Obj} {ft : FieldType} (h : ColOk x c lc e ft)
    {rows : List (Dict Str Value)} {R : Nat → Str → Option Value → Prop} (hl : rows.length = lc.rows.length) (hR : RowsAre rows R)
    (hn : ∀ i v, R i e.1 v → v = none) (hex : ∀ row ∈ lc.rows, ExtOk nested ft (row e.1)) : ∃ rows', decodeCol nested (textTab x.texts) e.1 (pyType e.2.1) e.2.2 rows = .ok rows' ∧ rows'.length = rows.length ∧
      RowsAre rows' (fun i f v => if f = e.1 then (∃ row, lc.rows[i]? = some row ∧ PyPre (textTab x.texts) e.2.1 v (row e.1)) else R i f v) := by
  obtain ⟨f, t, data⟩ := e
  obtain ⟨hw, hg, ess, he1, he2, he3⟩ := h
  simp only at *
  obtain ⟨-, hname, -⟩ := pyType_ok hw hg
  by_cases hs : t.name = "span".toList
  · have htn : (pyType t).tname = .span := wire_inj (by rw [hname, hs]) (b := .span) rfl
    obtain ⟨s, u, ha, hu⟩ := hg.text (hw.1.symm.trans hs)
    rw [← hw.2] at ha
    have hseg := hx.texts s
    rw [hu] at hseg
    cases hsg : dget x.texts s with
    | none => rw [hsg] at hseg; cases hseg
    | some segs =>
      obtain ⟨T, hT1, hT2⟩ := tab_get hx.ok hsg
      have hall : ∀ es ∈ ess, ∃ a b, es = [a, b] := by
        intro es hm
        obtain ⟨i, hi⟩ := List.getElem?_of_mem hm
        obtain ⟨row, hrow⟩ := getElem?_of_len he1 hi
        exact wcell_two (he3 i es row hi hrow).1 hw (he3 i es row hi hrow).2 hs
      obtain ⟨l, hl1, hl2⟩ := twos hall
      unfold decodeCol
      rw [htn]
      simp only [pyType_opt ha, hT2, he2, hl2]
      refine zipSet_rows ?_ ?_ hR hn
      · rw [hl, ← he1, hl1]; simp
      · intro i p hp
        have hes : ess[i]? = some [p.1, p.2] := by rw [hl1, List.getElem?_map, hp]; rfl
        obtain ⟨row, hrow⟩ := getElem?_of_len he1 hes
        obtain ⟨h1, h2⟩ := he3 i _ row hes hrow
        obtain ⟨p1, p2⟩ := p
        simp only at h1
        generalize hy : row f = y at h1 h2
        have key : ∃ v, spanCell T (segOffsets 0 segs) (p1, p2) = .ok v ∧ PyPre (textTab x.texts) t v y := by
          cases h1 with
          | nullSpan => exact ⟨none, rfl, .none⟩
          | @span i j a b c' segs' g1 g2 g3 g4 =>
            rw [ha] at g1
            cases g1
            rw [hsg] at g2
            cases g2
            have hab : a ≤ b := by
              cases h2 _ rfl with
              | span _ _ _ h _ => exact h
            refine ⟨some (.span T a b), ?_, .span ha hT2⟩
            simp only [spanCell, offsetAt, Int.toNat_natCast, g3, g4]
            simp
            exact hab
        obtain ⟨v, g1, g2⟩ := key
        exact ⟨v, g1, row, hrow, by rw [hy]; exact g2⟩
  · have htn : (pyType t).tname ≠ .span := by
      intro e
      rw [e] at hname
      exact hs (Except.ok.inj hname).symm
    have hall : ∀ es ∈ ess, ∃ o, es = [o] := by
      intro es hm
      obtain ⟨i, hi⟩ := List.getElem?_of_mem hm
      obtain ⟨row, hrow⟩ := getElem?_of_len he1 hi
      exact wcell_one (he3 i es row hi hrow).1 hw (he3 i es row hi hrow).2 hs
    obtain ⟨l, hl1, hl2⟩ := ones hall
    have htt : ∀ n : TName, (pyType t).tname = n → n.wire = .ok ft.1 := by
      intro n e
      rw [← hw.1, ← e]; exact hname
    by_cases hxt : (pyType t).tname = .ext
    · have hxf : ft.1 = "ext".toList := (Except.ok.inj (htt _ hxt)).symm
      obtain ⟨s, ha⟩ := hg.ext hxf
      have ha' := ha
      rw [← hw.2] at ha'
      have hcol : decodeCol nested (textTab x.texts) f (pyType t) data rows = zipSet f (extCell nested (.str s)) rows data := by
        unfold decodeCol
        rw [hxt]
        simp only [pyType_opt ha']
      rw [hcol, he2, hl2]
      refine zipSet_rows ?_ ?_ hR hn
      · rw [hl, ← he1, hl1]; simp
      · intro i o ho
        have hes : ess[i]? = some [o] := by rw [hl1, List.getElem?_map, ho]; rfl
        obtain ⟨row, hrow⟩ := getElem?_of_len he1 hes
        obtain ⟨h1, h2⟩ := he3 i _ row hes hrow
        have h3 := hex row (List.mem_of_getElem? hrow)
        generalize hy : row f = y at h1 h2 h3
        have key : ∃ v, extCell nested (.str s) o = .ok v ∧ PyPre (textTab x.texts) t v y := by
          cases h1 with
          | null => exact ⟨_, rfl, .none⟩
          | ext =>
            obtain ⟨e1, e2⟩ := h3 _ rfl
            rw [ha] at e1
            cases e1
            exact ⟨none, by simp [extCell, e2], .ext⟩
          | _ => obtain ⟨b, e⟩ := ext_ne (h2 _ rfl) hxf; cases e
        obtain ⟨v, g1, g2⟩ := key
        exact ⟨v, g1, row, hrow, by rw [hy]; exact g2⟩
    · have hcol : decodeCol nested (textTab x.texts) f (pyType t) data rows = zipSet f simpleCell rows data := by
        unfold decodeCol
        split
        · rename_i h; exact absurd h htn
        · rename_i h; exact absurd h hxt
        · rfl
      rw [hcol, he2, hl2]
      refine zipSet_rows ?_ ?_ hR hn
      · rw [hl, ← he1, hl1]; simp
      · intro i o ho
        have hes : ess[i]? = some [o] := by rw [hl1, List.getElem?_map, ho]; rfl
        obtain ⟨row, hrow⟩ := getElem?_of_len he1 hes
        obtain ⟨h1, h2⟩ := he3 i _ row hes hrow
        generalize hy : row f = y at h1 h2
        have key : ∃ v, simpleCell o = .ok v ∧ PyPre (textTab x.texts) t v y := by
          cases h1 with
          | null => exact ⟨_, rfl, .none⟩
          | bool => exact ⟨_, rfl, .bool⟩
          | int => exact ⟨_, rfl, .int⟩
          | float => exact ⟨_, rfl, .float⟩
          | str => exact ⟨_, rfl, .str⟩
          | bin => exact ⟨_, rfl, .bin⟩
          | ext =>
            cases h2 _ rfl with
            | ext h => exact absurd (wire_inj (hname.trans (by rw [hw.1, h])) (b := .ext) rfl) hxt
          | node => exact ⟨_, rfl, .node⟩
          | nodes => exact ⟨_, rfl, .nodes⟩
          | nodespan => exact ⟨_, rfl, .nodespan⟩
        obtain ⟨v, g1, g2⟩ := key
        exact ⟨v, g1, row, hrow, by rw [hy]; exact g2⟩

end Verif
