import Verif.Proof.PyRead
import Verif.Proof.WireOk
import Verif.Proof.JsonCodec
import Verif.Proof.Stable
/-
For C88: what Python's encoder writes has the content of the document.
-/
set_option linter.unusedSimpArgs false
namespace Verif
open World
open Spec (Both Cell LayerC Content FieldType Good TypeGood CellGood IsRef PyHas PyCell CellOk)

/-- a value as data -/
def objOf (v : Value) : Option Obj := match v.toObj with | .ok o => some o | .error _ => none

/-- a type as content -/
def typeC (t : DataType) : FieldType := ((match t.tname.wire with | .ok s => s | .error _ => []), fun a => (dget t.options a).bind objOf)

/-- a value of a field as content -/
def cellOf (w : World) (t : DataType) : Value → Option Cell
  | .int i => some (.int i)
  | .bool b => if t.tname = .bool then some (.bool b) else some (.int (if b then 1 else 0))
  | .float x => some (.float x)
  | .str s => some (.str s)
  | .bytes b => some (.bin b)
  | .node n => some (.node (w.nodes n).id.toNat)
  | .nodes [] => none
  | .nodes ns => some (.nodes (ns.map (fun n => (w.nodes n).id.toNat)))
  | .nodespan l r => some (.nodespan (w.nodes l).id.toNat (w.nodes r).id.toNat)
  | .span _ a b => some (.span a.toNat b.toNat)
  | _ => none

/-- the content of a layer -/
def layerC (w : World) (L : LayerId) : LayerC where
  fields f := (dget (w.layers L).fields f).map typeC
  rows := (live (w.layers L).slots).map (fun n f => match dget (w.layers L).fields f with
    | some t => (dget (w.nodes n).fields f).bind (cellOf w t)
    | none => none)

/-- the content of a compacted document -/
def contentOf (w : World) : Content where
  props k := (dget w.props k).bind objOf
  texts k := (dget w.dt k).map (fun T => (w.texts T).text)
  layers k := (dget w.dl k).map (layerC w)

theorem plain_obj {v : Value} (h : Spec.PlainVal v) : ∃ o, v.toObj = .ok o ∧ objOf v = some o := by
  obtain ⟨o, h1, -⟩ := plain_round h
  exact ⟨o, h1, by unfold objOf; rw [h1]⟩

theorem both_plain {d : Dict Str Value} (h : ∀ k v, (k, v) ∈ d → Spec.PlainVal v) (k : Str) : Both Spec.PyPlain (dget d k) ((dget d k).bind objOf) := by
  cases hd : dget d k with
  | none => exact .none
  | some v =>
    obtain ⟨o, h1, h2⟩ := plain_obj (h k v (dget_mem hd))
    rw [Option.bind_some, h2]
    exact .some h1

theorem mapE_dget {α β : Type} {f : Str × α → Except PyErr (Str × β)} (hf : ∀ e y, f e = .ok y → y.1 = e.1) :
    ∀ {d : Dict Str α} {r : Dict Str β}, mapE f d = .ok r → ∀ k, Both (fun v y => f (k, v) = .ok (k, y)) (dget d k) (dget r k) := by
  intro d
  induction d with
  | nil => intro r h k; cases h; exact .none
  | cons e d ih =>
    intro r h k
    simp only [mapE] at h
    split at h
    · cases h
    rename_i y hy
    split at h
    · cases h
    rename_i r' hr
    cases h
    have he := hf e y hy
    obtain ⟨a, b⟩ := e
    obtain ⟨a', b'⟩ := y
    simp only at he
    subst he
    simp only [dget]
    by_cases hk : a' = k
    · subst hk
      simp only [if_true]
      exact .some hy
    · simp only [if_neg hk]
      exact ih hr k

theorem dictToObj_get {d : Dict Str Value} {o : Dict Str Obj} (h : dictToObj d = .ok o) (k : Str) : dget o k = (dget d k).bind objOf := by
  unfold dictToObj at h
  have := mapE_dget (f := fun (e : Str × Value) => match e.2.toObj with | .ok o => .ok (e.1, o) | .error x => .error x) (by
    intro e y hy
    split at hy
    · cases hy; rfl
    · cases hy) h k
  cases hd : dget d k with
  | none => rw [hd] at this; rw [this.none_iff.mp rfl]; rfl
  | some v =>
    rw [hd] at this
    obtain ⟨y, h1, h2⟩ := this.of_some
    rw [h1, Option.bind_some]
    unfold objOf
    split at h2
    · rename_i o' ho; simp only at ho; rw [ho]; cases h2; rfl
    · cases h2

theorem encode_type {t : DataType} {tw : TypeWire} (h : t.encode = .ok tw) : WType tw (typeC t) ∧ t.tname.wire = .ok tw.name := by
  unfold DataType.encode at h
  split at h
  · cases h
  rename_i s hs
  split at h
  · rename_i ho
    cases h
    refine ⟨⟨by simp only [typeC, hs], ?_⟩, hs⟩
    intro a
    simp only [TypeWire.argD, typeC, ho, Option.getD_none]
    rfl
  · split at h
    · rename_i d hd
      cases h
      refine ⟨⟨by simp only [typeC, hs], ?_⟩, hs⟩
      intro a
      simp only [TypeWire.argD, typeC, Option.getD_some]
      exact dictToObj_get hd a
    · cases h

section
variable {w : World} {offs : Dict Str (List Int)}

theorem type_good (h : Ready w offs) {t : DataType} (ht : Spec.TypeOk w t) : TypeGood (contentOf w) (typeC t) ∧ Spec.PyType t (typeC t) := by
  have hw : t.tname.wire = .ok (typeC t).1 := by
    obtain ⟨k1, k2⟩ := ht.kind
    unfold typeC
    simp only
    cases hn : t.tname <;> first | rfl | exact absurd hn k2
  have hs : ∀ n : TName, n.wire = .ok (typeC t).1 → t.tname = n := fun n hn => wire_inj hw hn
  refine ⟨⟨?_, ?_, ?_, ?_, ?_⟩, hw, both_plain ht.plain⟩
  · unfold typeC IsRef
    simp only
    obtain ⟨k1, k2⟩ := ht.kind
    cases hn : t.tname <;> first | exact absurd hn k1 | exact absurd hn k2 | decide
  · intro e
    obtain ⟨c, h1, h2⟩ := ht.text (hs .span (by rw [e]; rfl))
    obtain ⟨T, hT⟩ := Option.isSome_iff_exists.mp ((dget_isSome_iff w.dt c).mpr h2)
    exact ⟨c, (w.texts T).text, by simp only [typeC, h1]; rfl, by simp only [contentOf, hT]; rfl⟩
  · intro e
    obtain ⟨s, h1, h2⟩ := ht.layer (by
      rcases e with e | e | e
      · exact .inl (hs .noderef (by rw [e]; rfl))
      · exact .inr (.inl (hs .noderefMany (by rw [e]; rfl)))
      · exact .inr (.inr (hs .nodespan (by rw [e]; rfl))))
    obtain ⟨L, hL⟩ := Option.isSome_iff_exists.mp ((dget_isSome_iff w.dl s).mpr h2)
    exact ⟨s, layerC w L, by simp only [typeC, h1]; rfl, by simp only [contentOf, hL]; rfl⟩
  · intro e
    exact absurd (hs .ext (by rw [e]; rfl)) ht.kind.1
  · simp only [typeC, (dget_none_iff _ _).mpr ht.names.1, (dget_none_iff _ _).mpr ht.names.2]
    exact ⟨rfl, rfl⟩

theorem at_size (h : Ready w offs) {s i n} (ha : Spec.At w s i n) : (w.nodes n).id.toNat = i ∧ i < (contentOf w).size s ∧ Spec.At w s (w.nodes n).id.toNat n := by
  have hi := (h.id ha).1
  obtain ⟨L, h1, h2⟩ := (At.iff h.inv).mp ha
  refine ⟨by rw [hi]; simp, ?_, by rw [hi]; simpa using ha⟩
  have := (List.getElem?_eq_some_iff.mp h2).1
  simp only [Spec.Content.size, contentOf, h1, Option.map_some, layerC, List.length_map]
  exact this

theorem typeC_layer {t : DataType} {s : Str} (h : dget t.options "layer".toList = some (.str s)) : (typeC t).2 "layer".toList = some (.str s) := by
  simp only [typeC, h]; rfl

theorem typeC_ctx {t : DataType} {s : Str} (h : dget t.options "context".toList = some (.str s)) : (typeC t).2 "context".toList = some (.str s) := by
  simp only [typeC, h]; rfl

theorem typeC_name {t : DataType} {n : TName} {s : Str} (h : t.tname = n) (hs : n.wire = .ok s) : (typeC t).1 = s := by
  simp only [typeC, h, hs]

theorem cell_good (h : Ready w offs) {t : DataType} {v : Value} (hv : CellOk w t v) : CellIs (contentOf w) (typeC t) (cellOf w t v) ∧
    PyCell w t (some v) (cellOf w t v) := by
  unfold CellIs
  cases hv with
  | null => exact ⟨fun y hy => by simp [cellOf] at hy, .null⟩
  | int a b =>
    refine ⟨fun y hy => ?_, .int⟩
    cases hy
    exact .int (a.imp (fun a => typeC_name a rfl) (fun a => typeC_name a rfl))
  | @intBool b a =>
    have hb : t.tname ≠ .bool := by rcases a with a | a <;> rw [a] <;> decide
    have : cellOf w t (.bool b) = some (.int (if b then 1 else 0)) := by simp only [cellOf, if_neg hb]
    rw [this]
    refine ⟨fun y hy => ?_, .intBool a⟩
    cases hy
    exact .int (a.imp (fun a => typeC_name a rfl) (fun a => typeC_name a rfl))
  | float a => exact ⟨fun y hy => by cases hy; exact .float (typeC_name a rfl), .float⟩
  | @bool b a =>
    have : cellOf w t (.bool b) = some (.bool b) := by simp only [cellOf, if_pos a]
    rw [this]
    exact ⟨fun y hy => by cases hy; exact .bool (typeC_name a rfl), .bool a⟩
  | str a => exact ⟨fun y hy => by cases hy; exact .str (typeC_name a rfl), .str⟩
  | bytes a => exact ⟨fun y hy => by cases hy; exact .bin (typeC_name a rfl), .bytes⟩
  | node a b c =>
    obtain ⟨e1, e2, e3⟩ := at_size h c
    exact ⟨fun y hy => by cases hy; rw [e1]; exact .node (typeC_name a rfl) (typeC_layer b) e2, .node b e3⟩
  | @nodes ns s a b c =>
    cases ns with
    | nil => exact ⟨fun y hy => by simp [cellOf] at hy, .empty⟩
    | cons n ns =>
      refine ⟨fun y hy => ?_, .nodes b (by simp) (by simp) ?_⟩
      · cases hy
        refine .nodes (typeC_name a rfl) (typeC_layer b) (by simp) ?_
        intro i hi
        obtain ⟨m, hm, rfl⟩ := List.mem_map.mp hi
        obtain ⟨j, hj⟩ := c m hm
        obtain ⟨e1, e2, e3⟩ := at_size h hj
        rw [e1]; exact e2
      · intro j m i hj hi
        rw [List.getElem?_map, hj] at hi
        cases hi
        obtain ⟨j', hj'⟩ := c m (List.mem_of_getElem? hj)
        exact (at_size h hj').2.2
  | nodespan a b c d e =>
    obtain ⟨e1, e2, e3⟩ := at_size h c
    obtain ⟨g1, g2, g3⟩ := at_size h d
    exact ⟨fun y hy => by cases hy; rw [e1, g1]; exact .nodespan (typeC_name a rfl) (typeC_layer b) e g2, .nodespan b e3 g3⟩
  | @span T c x y a b d e f g =>
    have ex : x = (x.toNat : Int) := by omega
    have ey : y = (y.toNat : Int) := by omega
    refine ⟨fun z hz => ?_, ?_⟩
    · cases hz
      refine .span (typeC_name a rfl) (typeC_ctx b) (u := (w.texts T).text) (by simp only [contentOf, d]; rfl) (by omega) (by omega)
    · have : PyCell w t (some (.span T (x.toNat : Int) (y.toNat : Int))) (some (.span x.toNat y.toNat)) := .span b d
      rw [← ex, ← ey] at this
      exact this

theorem content_good (h : Ready w offs) : Good (contentOf w) := by
  have hlay : ∀ k l, (contentOf w).layers k = some l → ∃ L, dget w.dl k = some L ∧ l = layerC w L := by
    intro k l hl
    simp only [contentOf] at hl
    cases hd : dget w.dl k with
    | none => rw [hd] at hl; cases hl
    | some L => rw [hd] at hl; cases hl; exact ⟨L, rfl, rfl⟩
  refine ⟨?_, ?_⟩
  · intro k l f t hl hf
    obtain ⟨L, hL, rfl⟩ := hlay k l hl
    simp only [layerC] at hf
    cases hd : dget (w.layers L).fields f with
    | none => rw [hd] at hf; cases hf
    | some t' =>
      rw [hd] at hf; cases hf
      exact (type_good h (h.enc.types k L f t' (dget_mem hL) (dget_mem hd))).1
  · intro k l row f y hl hr hy
    obtain ⟨L, hL, rfl⟩ := hlay k l hl
    simp only [layerC, List.mem_map] at hr
    obtain ⟨n, hn, rfl⟩ := hr
    simp only at hy
    cases hd : dget (w.layers L).fields f with
    | none => rw [hd] at hy; cases hy
    | some t =>
      rw [hd] at hy
      simp only at hy
      cases hv : dget (w.nodes n).fields f with
      | none => rw [hv] at hy; cases hy
      | some v =>
        rw [hv, Option.bind_some] at hy
        refine ⟨typeC t, by simp only [layerC, hd, Option.map_some], ?_⟩
        exact (cell_good h (h.enc.cells k L n f t v (dget_mem hL) (by rw [h.inv.iter_eq]; simpa using hn) (dget_mem hd) hv)).1 y hy

theorem content_has (h : Ready w offs) : PyHas w (contentOf w) := by
  refine ⟨both_plain h.enc.props, ?_, ?_⟩
  · intro k
    simp only [contentOf]
    cases dget w.dt k with
    | none => exact .none
    | some T => exact .some rfl
  · intro k
    simp only [contentOf]
    cases hL : dget w.dl k with
    | none => exact .none
    | some L =>
      refine .some ⟨?_, ?_, ?_⟩
      · intro f
        simp only [layerC]
        cases hd : dget (w.layers L).fields f with
        | none => exact .none
        | some t => exact .some (type_good h (h.enc.types k L f t (dget_mem hL) (dget_mem hd))).2
      · rw [h.inv.iter_eq]; simp [layerC]
      · intro i n row f hn hr
        rw [h.inv.iter_eq, List.getElem?_map] at hn
        simp only [layerC, List.getElem?_map] at hr
        cases hm : (live (w.layers L).slots)[i]? with
        | none => rw [hm] at hn; cases hn
        | some m =>
          rw [hm] at hn hr
          cases hn
          cases hr
          have hmem : some n ∈ w.iter L := by rw [h.inv.iter_eq]; simpa using List.mem_of_getElem? hm
          cases hd : dget (w.layers L).fields f with
          | none =>
            have : dget (w.nodes n).fields f = none := by
              rw [dget_none_iff]
              intro hf
              exact (dget_none_iff _ _).mp hd (h.enc.declared k L n f (dget_mem hL) hmem hf)
            rw [this]
            simp only [hd]
            exact .undeclared
          | some t =>
            simp only [hd]
            refine .declared ?_
            cases hv : dget (w.nodes n).fields f with
            | none => exact .unset
            | some v =>
              rw [Option.bind_some]
              exact (cell_good h (h.enc.cells k L n f t v (dget_mem hL) hmem (dget_mem hd) hv)).2

theorem nodeIs_eq (h : Ready w offs) {s} {ns : List NodeId} (hn : ∀ n ∈ ns, ∃ i, Spec.At w s i n) :
    w.nodeIs ns = .ok ((ns.map (fun n => (w.nodes n).id.toNat)).map (fun i : Nat => .int i)) := by
  rw [List.map_map]
  apply mapE_ok
  intro n hm
  obtain ⟨i, hi⟩ := hn n hm
  obtain ⟨e1, e2⟩ := h.id hi
  simp only [e2, e1, Function.comp_apply]
  simp

/-- what the encoder appends to the column has the content of the field -/
theorem cell_wire (h : Ready w offs) {x : Wire} (hx : x.texts = segsOf w offs) {t : DataType} {tw : TypeWire} (ht : Spec.TypeOk w t)
    (htw : t.encode = .ok tw) {idx : Dict Int Nat} (hidx : (if t.tname = .span then spanIndex offs t else .ok []) = .ok idx)
    {v : Option Value} (hv : ∀ y, v = some y → CellOk w t y) {es : List Obj} (he : w.encodeCell idx t.tname (v.getD .none) = .ok es) :
    WCell x tw es (v.bind (cellOf w t)) := by
  obtain ⟨hw, hname⟩ := encode_type htw
  have hnull : w.encodeCell idx t.tname .none = .ok es → WCell x tw es none := by
    intro he
    by_cases hs : t.tname = .span
    · rw [hs] at he hname
      cases he
      exact .nullSpan (Except.ok.inj hname).symm
    · have : es = [.nil] := by
        revert he hs
        obtain ⟨k1, k2⟩ := ht.kind
        cases hn : t.tname <;> first | exact absurd hn k1 | exact absurd hn k2 | (intro he _; cases he; rfl) | (intro _ hs; exact absurd rfl hs)
      rw [this]
      refine .null (fun e => hs ?_)
      exact wire_inj hname (by rw [e]; rfl)
  cases v with
  | none => exact hnull he
  | some v =>
    rw [Option.bind_some]
    rw [Option.getD_some] at he
    cases hv v rfl with
    | null => exact hnull he
    | int a b => rcases a with a | a <;> rw [a] at he <;> cases he <;> exact .int
    | @intBool b a =>
      have hb : t.tname ≠ .bool := by rcases a with a | a <;> rw [a] <;> decide
      simp only [cellOf, if_neg hb]
      rcases a with a | a <;> rw [a] at he <;> cases he <;> exact .int
    | float a => rw [a] at he; cases he; exact .float
    | bool a => simp only [cellOf, if_pos a]; rw [a] at he; cases he; exact .bool
    | str a => rw [a] at he; cases he; exact .str
    | bytes a => rw [a] at he; cases he; exact .bin
    | node a b c =>
      rw [a] at he
      obtain ⟨e1, e2⟩ := h.id c
      simp only [encodeCell, e2] at he
      cases he
      simp only [cellOf, e1, Int.toNat_natCast]
      exact .node
    | @nodes ns s a b c =>
      rw [a] at he
      cases ns with
      | nil => exact hnull (by rw [a]; exact he)
      | cons n ns =>
        simp only [encodeCell, nodeIs_eq h c] at he
        cases he
        exact .nodes
    | nodespan a b c d e =>
      rw [a] at he
      obtain ⟨e1, e2⟩ := h.id c
      obtain ⟨e3, e4⟩ := h.id d
      simp only [encodeCell, e2, e4] at he
      cases he
      simp only [cellOf, e1, e3, Int.toNat_natCast]
      exact .nodespan
    | @span T c p q a b d e f g =>
      rw [if_pos a] at hidx
      obtain ⟨l, hl, l1, l2, l3, -⟩ := h.tab c T d
      simp only [spanIndex, b, hl] at hidx
      cases hidx
      rw [a] at he
      simp only [encodeCell] at he
      split at he
      · rename_i i j hi hj
        cases he
        have hsegs : dget x.texts c = some ((w.texts T).compile l) := by
          rw [hx]
          refine dget_of_mem (by rw [dkeys_segsOf]; exact h.wf.dtKeys) ?_
          exact List.mem_map.mpr ⟨(c, T), dget_mem d, by simp only [hl, Option.getD_some]⟩
        have hoff : ∀ {i : Nat} {z : Int}, l[i]? = some z → (segOffsets 0 ((w.texts T).compile l))[i]? = some z.toNat := by
          intro i z hz
          rw [← (text_round (w.texts T) l1 l2 l3).2, List.getElem?_map] at hz
          cases hq : (segOffsets 0 ((w.texts T).compile l))[i]? with
          | none => rw [hq] at hz; cases hz
          | some u => rw [hq] at hz; cases hz; simp
        have hctx : dget tw.argD "context".toList = some (.str c) := by rw [hw.2]; exact typeC_ctx b
        exact .span hctx hsegs (hoff ((C27_inverse l l1 _ _).mp hi)) (hoff ((C27_inverse l l1 _ _).mp hj))
      · cases he

theorem encodeCol_inv {ns : List (Option NodeId)} {f : Str} {t : DataType} {data : List Obj} (h : w.encodeCol offs ns f t = .ok data) :
    ∃ (idx : Dict Int Nat) (ess : List (List Obj)), (if t.tname = .span then spanIndex offs t else .ok []) = .ok idx ∧ data = ess.flatten ∧ ess.length = ns.length ∧
      ∀ (i : Nat) es n, ess[i]? = some es → ns[i]? = some (some n) → w.encodeCell idx t.tname ((dget (w.nodes n).fields f).getD .none) = .ok es := by
  unfold encodeCol at h
  split at h
  · cases h
  split at h
  · cases h
  rename_i idx hidx
  split at h
  · cases h
  rename_i ess hess
  cases h
  obtain ⟨h1, h2⟩ := mapE_inv hess
  refine ⟨idx, ess, hidx, rfl, h1, ?_⟩
  intro i es n hi hn
  obtain ⟨i1, i2⟩ := List.getElem?_eq_some_iff.mp hi
  obtain ⟨n1, n2⟩ := List.getElem?_eq_some_iff.mp hn
  have := h2 i n1 i1
  rw [n2, i2] at this
  exact this

theorem py_write (h : Ready w offs) {x : Wire} (hx : w.wireOf offs = .ok x) : WHas x (contentOf w) := by
  have hok := wire_ok h hx
  obtain ⟨htx, hpx, -⟩ := wire_layers h hx
  have hlx : mapE (w.encodeEntry offs) w.dl = .ok x.layers := by
    unfold wireOf at hx
    split at hx
    · cases hx
    split at hx
    · cases hx
    rename_i layers hl
    split at hx
    · cases hx
    cases hx
    exact hl
  refine ⟨hok, ?_, ?_, ?_⟩
  · intro k; exact dictToObj_get hpx k
  · intro k
    rw [htx]
    simp only [contentOf]
    have hk := @dkeys_segsOf w offs
    cases hd : dget w.dt k with
    | none =>
      have : dget (segsOf w offs) k = none := by
        rw [dget_none_iff, hk, ← dget_none_iff]; exact hd
      rw [this]; rfl
    | some T =>
      obtain ⟨l, hl, l1, l2, l3, -⟩ := h.tab k T hd
      have : dget (segsOf w offs) k = some ((w.texts T).compile l) := by
        refine dget_of_mem (by rw [hk]; exact h.wf.dtKeys) ?_
        exact List.mem_map.mpr ⟨(k, T), dget_mem hd, by simp only [hl, Option.getD_some]⟩
      rw [this]
      simp only [Option.map_some, (text_round (w.texts T) l1 l2 l3).1]
  · intro k
    have hb := mapE_dget (f := w.encodeEntry offs) (by
      intro e y hy
      unfold encodeEntry at hy
      split at hy
      · cases hy
      · cases hy; rfl) hlx k
    simp only [contentOf]
    cases hL : dget w.dl k with
    | none => rw [hL] at hb; rw [hb.none_iff.mp rfl]; exact .none
    | some L =>
      rw [hL] at hb
      obtain ⟨wl, h1, h2⟩ := hb.of_some
      rw [h1]
      have h3 : w.encodeLayer offs L = .ok wl := by
        unfold encodeEntry at h2
        split at h2
        · cases h2
        · rename_i wl' hwl; simp only at hwl; rw [hwl]; cases h2; rfl
      have hmem := dget_mem hL
      unfold encodeLayer at h3
      split at h3
      · cases h3
      rename_i cols hcols
      cases h3
      have hfn : ∀ e y, w.encodeField offs L e = .ok y → y.1 = e.1 := fun e y hy => (encodeField_name hy).1
      have hnames : cols.map (·.1) = dkeys (w.layers L).fields := mapE_names hcols (·.1) (·.1) hfn
      have hnodup : (cols.map (·.1)).Nodup := by rw [hnames]; exact h.wf.fieldKeys L
      refine .some ⟨?_, ?_, ?_, ?_⟩
      · simp only [layerC, List.length_map]
        exact h.inv.num L
      · simpa [WireLayer.fields, dkeys, Function.comp_def] using hnodup
      · intro f
        have hb := mapE_dget (r := cols) hfn hcols f
        have hg : dget (WireLayer.fields ⟨(w.layers L).num, cols⟩) f = (dget (ν := TypeWire × List Obj) cols f).map (·.1) := dget_map _ _ _
        rw [hg]
        simp only [layerC]
        cases hd : dget (w.layers L).fields f with
        | none => rw [hd] at hb; rw [hb.none_iff.mp rfl]; exact .none
        | some t =>
          rw [hd] at hb
          obtain ⟨y, y1, y2⟩ := hb.of_some
          rw [y1]
          exact .some (encode_type (encodeField_name y2).2.1).1
      · intro f tw data hm
        obtain ⟨e, he, hee⟩ := mapE_mem hcols hm
        obtain ⟨e1, e2, e3⟩ := encodeField_name hee
        simp only at e1 e2 e3
        obtain ⟨f', t⟩ := e
        simp only at e1 e2 e3
        subst e1
        have ht := dget_of_mem (h.wf.fieldKeys L) he
        obtain ⟨idx, ess, q1, q2, q3, q4⟩ := encodeCol_inv e3
        rw [h.inv.iter_eq] at q3 q4
        refine ⟨ess, by rw [q3]; simp [layerC], q2, ?_⟩
        intro i es row hi hr
        simp only [layerC, List.getElem?_map] at hr
        cases hn : (live (w.layers L).slots)[i]? with
        | none => rw [hn] at hr; cases hr
        | some n =>
          rw [hn] at hr
          cases hr
          simp only [ht]
          have henc := q4 i es n hi (by rw [List.getElem?_map, hn]; rfl)
          refine cell_wire h htx (h.enc.types k L f t hmem he) e2 q1 ?_ henc
          intro y hy
          exact h.enc.cells k L n f t y hmem (by rw [h.inv.iter_eq]; simpa using List.mem_of_getElem? hn) he hy

end

theorem sameObs_has {w w1 : World} (so : SameObs w w1) (hi : Inv w) (hi1 : Inv w1) {c : Content} (h : PyHas w1 c) : PyHas w c := by
  have hc : ∀ {t v y}, PyCell w1 t v y → PyCell w t v y := by
    intro t v y hp
    have at' : ∀ {s i n}, Spec.At w1 s i n → Spec.At w s i n := fun ha => (SameObs.at so hi hi1).mp ha
    cases hp with
    | unset => exact .unset
    | null => exact .null
    | empty => exact .empty
    | int => exact .int
    | intBool a => exact .intBool a
    | float => exact .float
    | bool a => exact .bool a
    | str => exact .str
    | bytes => exact .bytes
    | node a b => exact .node a (at' b)
    | nodes a b c d => exact .nodes a b c (fun j n i x y => at' (d j n i x y))
    | nodespan a b c => exact .nodespan a (at' b) (at' c)
    | span a b => exact .span a (by rw [← so.dt]; exact b)
  refine ⟨?_, ?_, ?_⟩
  · intro k; have := h.props k; rw [so.props] at this; exact this
  · intro k; have := h.texts k; rw [so.dt, so.texts] at this; exact this
  · intro k
    have hb := h.layers k
    rw [so.dl] at hb
    cases hL : dget w.dl k with
    | none => rw [hL] at hb; rw [hb.none_iff.mp rfl]; exact .none
    | some L =>
      rw [hL] at hb
      obtain ⟨lc, h1, h2⟩ := hb.of_some
      rw [h1]
      have hit := World.SameObs.iter so hi hi1 (L := L)
      refine .some ⟨?_, ?_, ?_⟩
      · intro f; have := h2.fields f; rw [(so.attrs L).2.1] at this; exact this
      · rw [← hit]; exact h2.size
      · intro i n row f hn hr
        have := h2.cells i n row f (by rw [hit]; exact hn) hr
        rw [(so.attrs L).2.1, (so.node n).2] at this
        generalize dget (w.layers L).fields f = t at this ⊢
        generalize dget (w.nodes n).fields f = v at this ⊢
        generalize row f = y at this ⊢
        cases this with
        | undeclared => exact .undeclared
        | declared a => exact .declared (hc a)

theorem segs_full : ∀ {segs : List Str} {pos : Nat}, (segOffsets pos segs).Pairwise (· < ·) → ∀ s ∈ segs, s ≠ [] := by
  intro segs
  induction segs with
  | nil => intro pos _ s hs; cases hs
  | cons x segs ih =>
    intro pos h s hs
    simp only [segOffsets, List.pairwise_cons] at h
    rcases List.mem_cons.mp hs with rfl | hs
    · intro e
      subst e
      have : pos ∈ segOffsets (pos + ([] : Str).length) segs := by cases segs <;> simp [segOffsets]
      have := h.1 _ this
      omega
    · exact ih h.2 s hs

/-- the segments that the Python encoder writes are not empty -/
theorem py_segs (h : Ready w offs) {x : Wire} (hx : w.wireOf offs = .ok x) : SegsOk x := by
  obtain ⟨htx, -⟩ := wire_layers h hx
  intro k parts hm
  left
  rw [htx] at hm
  obtain ⟨⟨k', T⟩, h1, h2⟩ := List.mem_map.mp hm
  cases h2
  obtain ⟨l, hl, l1, l2, l3, -⟩ := h.tab _ T (dget_of_mem h.wf.dtKeys h1)
  simp only [hl, Option.getD_some]
  refine segs_full (pos := 0) ?_
  have := (text_round (w.texts T) l1 l2 l3).2
  rw [← this, List.pairwise_map] at l1
  exact l1.imp (fun h => by omega)

end Verif
