import Verif.Model.MsgpackCodec
import Verif.Proof.Msgpack
/-
Reading back what encodeBytes wrote.
-/
set_option linter.unusedSimpArgs false
namespace Verif

theorem cat_ok {a b : Except PyErr Bytes} {bs} (h : cat a b = .ok bs) : ∃ x y, a = .ok x ∧ b = .ok y ∧ bs = x ++ y := by
  unfold cat at h
  split at h
  · cases h
  · split at h
    · cases h
    · cases h; exact ⟨_, _, rfl, rfl, rfl⟩

theorem sized_ok {a : Except PyErr Bytes} {bs} (h : sized a = .ok bs) :
    ∃ x l, a = .ok x ∧ pack (.int x.length) = .ok l ∧ bs = l ++ x := by
  unfold sized at h
  split at h
  · cases h
  · obtain ⟨l, y, h1, h2, rfl⟩ := cat_ok h
    cases h2
    exact ⟨_, l, rfl, h1, rfl⟩

/-- `p` reads `bs` as `a` and stops there -/
def Reads {α : Type} (p : P α) (bs : Bytes) (a : α) : Prop := ∀ rest, p (bs ++ rest) = .ok (a, rest)

namespace Reads
variable {α β : Type}

theorem pure (a : α) : Reads (pure a) [] a := fun _ => rfl

theorem bind {p : P α} {f : α → P β} {b1 b2 a v} (h1 : Reads p b1 a) (h2 : Reads (f a) b2 v) :
    Reads (p >>= f) (b1 ++ b2) v := by
  intro rest
  rw [P.bind_eq, List.append_assoc, h1]
  exact h2 rest

theorem bind0 {p : P α} {f : α → P β} {b a v} (h1 : Reads p b a) (h2 : Reads (f a) [] v) :
    Reads (p >>= f) b v := by
  have := h1.bind h2
  rwa [List.append_nil] at this

theorem lift {x : Except PyErr α} {a} (h : x = .ok a) : Reads (P.lift x) [] a := by
  subst h; intro rest; rfl

theorem bindL {x : Except PyErr α} {a : α} {f : α → P β} {b v} (h : x = .ok a) (h2 : Reads (f a) b v) :
    Reads (P.lift x >>= f) b v := by
  have := (lift h).bind h2
  rwa [List.nil_append] at this

theorem next {o : Obj} {bs} (h : pack o = .ok bs) (hk : o.KeysOk) : Reads pnext bs o := by
  intro rest
  unfold pnext
  rw [unpack_pack h hk rest]

theorem skip {o : Obj} {bs} (h : pack o = .ok bs) (hk : o.KeysOk) : Reads pskip bs () := by
  intro rest
  unfold pskip
  rw [unpack_pack h hk rest]

theorem times {γ : Type} {p : P β} {g : γ → Except PyErr Bytes} {v : γ → β} : ∀ {l : List γ} {bs},
    catL (l.map g) = .ok bs → (∀ a ∈ l, ∀ b, g a = .ok b → Reads p b (v a)) →
    Reads (P.times p l.length) bs (l.map v) := by
  intro l
  induction l with
  | nil => intro bs h _; cases h; exact pure _
  | cons a l ih =>
    intro bs h hp
    obtain ⟨x, y, h1, h2, rfl⟩ := cat_ok h
    exact (hp a (by simp) x h1).bind ((ih h2 (fun a ha => hp a (by simp [ha]))).bind0 (pure _))

theorem each {γ : Type} {f : α → P β} {k : γ → α} {g : γ → Except PyErr Bytes} {v : γ → β} : ∀ {l : List γ} {bs},
    catL (l.map g) = .ok bs → (∀ a ∈ l, ∀ b, g a = .ok b → Reads (f (k a)) b (v a)) →
    Reads (P.each f (l.map k)) bs (l.map v) := by
  intro l
  induction l with
  | nil => intro bs h _; cases h; exact pure _
  | cons a l ih =>
    intro bs h hp
    obtain ⟨x, y, h1, h2, rfl⟩ := cat_ok h
    exact (hp a (by simp) x h1).bind ((ih h2 (fun a ha => hp a (by simp [ha]))).bind0 (pure _))

end Reads

/-- data whose dicts have distinct keys, as Python dicts always do -/
structure WireOk (x : Wire) : Prop where
  props : (Obj.map x.props).KeysOk
  texts : (dkeys x.texts).Nodup
  layers : (dkeys x.layers).Nodup
  args : ∀ l ∈ x.layers, ∀ c ∈ l.2.cols, ∀ d, c.2.1.args = some d → (Obj.map d).KeysOk
  cols : ∀ l ∈ x.layers, ∀ c ∈ l.2.cols, (Obj.arr c.2.2).KeysOk

theorem read_field {f : Str} {t : TypeWire} {bs} (h : fieldBytes f t = .ok bs)
    (hk : ∀ d, t.args = some d → (Obj.map d).KeysOk) : Reads pField bs (f, t) := by
  obtain ⟨n, a⟩ := t
  obtain ⟨b1, b2, h1, h2, rfl⟩ := cat_ok h
  unfold pField
  cases a with
  | none =>
    obtain ⟨b3, b4, h3, h4, rfl⟩ := cat_ok h2
    refine (Reads.next h1 trivial).bind ((Reads.next h3 trivial).bind ((Reads.next h4 trivial).bind0 ?_))
    exact Reads.bindL rfl (Reads.bindL rfl (Reads.bindL rfl (Reads.pure _)))
  | some d =>
    obtain ⟨b3, b4, h3, h4, rfl⟩ := cat_ok h2
    obtain ⟨b5, b6, h5, h6, rfl⟩ := cat_ok h4
    refine (Reads.next h1 trivial).bind ((Reads.next h3 trivial).bind ((Reads.next h5 trivial).bind ?_))
    refine Reads.bindL rfl (Reads.bindL rfl (Reads.bindL rfl ?_))
    exact (Reads.next h6 (hk d rfl)).bind0 (Reads.pure _)

/-- the schema part of the wire data -/
def rawOf (x : Wire) : RawSchema := x.layers.map (fun e => (e.1, e.2.cols.map (fun c => (c.1, c.2.1))))

theorem read_layerSchema {name : Str} {l : WireLayer} {bs} (h : schemaBytes l = .ok bs)
    (hk : ∀ c ∈ l.cols, ∀ d, c.2.1.args = some d → (Obj.map d).KeysOk) :
    Reads (pLayerSchema name) bs (name, l.cols.map (fun c => (c.1, c.2.1))) := by
  obtain ⟨b1, b2, h1, h2, rfl⟩ := cat_ok h
  unfold pLayerSchema
  refine (Reads.next h1 trivial).bind (Reads.bindL rfl ?_)
  refine Reads.bind0 (a := l.cols.map (fun c => (c.1, c.2.1))) ?_ (Reads.pure _)
  have := Reads.times (p := pField) (v := fun (c : Str × TypeWire × List Obj) => (c.1, c.2.1)) h2
    (fun c hc b hb => read_field hb (hk c hc))
  simpa using this

theorem mapE_asStr (l : List Str) : mapE asStr (l.map .str) = .ok l := by
  induction l with
  | nil => rfl
  | cons s l ih => simp only [List.map_cons, mapE, asStr, ih]

theorem keysOkL_str (l : List Str) : Obj.KeysOkL (l.map .str) := by
  induction l with
  | nil => trivial
  | cons s l ih => exact ⟨trivial, ih⟩

theorem keysOk_texts {t : Dict Str (List Str)} (h : (dkeys t).Nodup) : (textsObj t).KeysOk := by
  refine ⟨by simpa [dkeys, Function.comp_def] using h, ?_⟩
  clear h
  induction t with
  | nil => trivial
  | cons e t ih => exact ⟨keysOkL_str _, ih⟩

theorem read_schema {x : Wire} (hx : WireOk x) {b1 b2} (h1 : pack (.arr ((dkeys x.layers).map .str)) = .ok b1)
    (h2 : catL (x.layers.map (fun e => schemaBytes e.2)) = .ok b2) : Reads pSchema (b1 ++ b2) (rawOf x) := by
  unfold pSchema
  have ht : Reads pTypes b1 (dkeys x.layers) := by
    unfold pTypes
    exact (Reads.next h1 (keysOkL_str _)).bind0 (Reads.lift (mapE_asStr _))
  exact ht.bind (Reads.each (f := pLayerSchema) (k := Prod.fst) h2
    (fun e he b hb => read_layerSchema hb (hx.args e he)))

theorem asTexts_texts (t : Dict Str (List Str)) : asTexts (textsObj t) = .ok t := by
  unfold asTexts textsObj
  simp only
  induction t with
  | nil => rfl
  | cons e t ih =>
    have : asSegs (.arr (e.2.map .str)) = .ok e.2 := mapE_asStr _
    simp only [List.map_cons, mapE, this, ih]

theorem read_layer {name : Str} {l : WireLayer} {body} (hk : ∀ c ∈ l.cols, (Obj.arr c.2.2).KeysOk)
    (h : cat (pack (.int l.num)) (catL (l.cols.map (fun c => cat (pack (.bool false)) (pack (.arr c.2.2))))) = .ok body) :
    Reads (pLayer (name, l.cols.map (fun c => (c.1, c.2.1)))) body (name, l) := by
  obtain ⟨b1, b2, h1, h2, rfl⟩ := cat_ok h
  unfold pLayer
  refine (Reads.next h1 trivial).bind (Reads.bindL rfl ?_)
  refine Reads.bind0 (a := l.cols) ?_ (Reads.pure _)
  have := Reads.each (f := fun (c : Str × TypeWire) => do
    let data ← pCol
    Pure.pure (c.1, c.2, data)) (k := fun (c : Str × TypeWire × List Obj) => (c.1, c.2.1)) (v := fun c => c) h2
    (fun c hc b hb => by
      obtain ⟨b3, b4, h3, h4, rfl⟩ := cat_ok hb
      refine Reads.bind0 (a := c.2.2) ?_ (Reads.pure _)
      unfold pCol
      refine (Reads.next h3 trivial).bind (Reads.bindL rfl ?_)
      exact (Reads.next h4 (hk c hc)).bind0 (Reads.pure _))
  simpa using this

theorem read_sizedLayer {e : Str × WireLayer} {bs} (hk : ∀ c ∈ e.2.cols, (Obj.arr c.2.2).KeysOk) (h : layerBytes e.2 = .ok bs) :
    Reads (do pskip; pLayer (e.1, e.2.cols.map (fun c => (c.1, c.2.1)))) bs e := by
  obtain ⟨x, l, h1, h2, rfl⟩ := sized_ok h
  exact (Reads.skip h2 trivial).bind (read_layer hk h1)

/-- the bytes, part by part -/
structure Parts (x : Wire) (bs : Bytes) where
  propLen : Bytes
  prop : Bytes
  types : Bytes
  schema : Bytes
  textLen : Bytes
  text : Bytes
  layers : Bytes
  eq : bs = magic ++ (propLen ++ prop ++ (types ++ (schema ++ (textLen ++ text ++ layers))))
  hProp : pack (.map x.props) = .ok prop
  hPropLen : pack (.int prop.length) = .ok propLen
  hTypes : pack (.arr ((dkeys x.layers).map .str)) = .ok types
  hSchema : catL (x.layers.map (fun e => schemaBytes e.2)) = .ok schema
  hText : pack (textsObj x.texts) = .ok text
  hTextLen : pack (.int text.length) = .ok textLen
  hLayers : catL (x.layers.map (fun e => layerBytes e.2)) = .ok layers

theorem parts_of {x : Wire} {bs} (h : encodeBytes x = .ok bs) : Nonempty (Parts x bs) := by
  unfold encodeBytes at h
  obtain ⟨m, r0, h0, g0, rfl⟩ := cat_ok h
  cases h0
  obtain ⟨sp, r1, h1, g1, rfl⟩ := cat_ok g0
  obtain ⟨pb, pl, hp1, hp2, rfl⟩ := sized_ok h1
  obtain ⟨ty, r2, h2, g2, rfl⟩ := cat_ok g1
  obtain ⟨sc, r3, h3, g3, rfl⟩ := cat_ok g2
  obtain ⟨st, r4, h4, g4, rfl⟩ := cat_ok g3
  obtain ⟨tb, tl, ht1, ht2, rfl⟩ := sized_ok h4
  exact ⟨⟨pl, pb, ty, sc, tl, tb, r4, rfl, hp1, hp2, h2, h3, ht1, ht2, g4⟩⟩

theorem read_wire {x : Wire} (hx : WireOk x) {bs} (p : Parts x bs) :
    Reads readWire (p.propLen ++ (p.prop ++ ((p.types ++ p.schema) ++ (p.textLen ++ (p.text ++ p.layers))))) x := by
  unfold readWire
  refine (Reads.skip p.hPropLen trivial).bind ?_
  refine (Reads.next p.hProp hx.props).bind (Reads.bindL rfl ?_)
  refine (read_schema hx p.hTypes p.hSchema).bind ?_
  refine (Reads.skip p.hTextLen trivial).bind ?_
  refine (Reads.next p.hText (keysOk_texts hx.texts)).bind (Reads.bindL (asTexts_texts _) ?_)
  refine Reads.bind0 (a := x.layers) ?_ (Reads.pure _)
  have := Reads.each (f := fun (l : Str × List (Str × TypeWire)) => do pskip; pLayer l)
    (k := fun (e : Str × WireLayer) => (e.1, e.2.cols.map (fun c => (c.1, c.2.1)))) (v := fun e => e) p.hLayers
    (fun e he b hb => read_sizedLayer (hx.cols e he) hb)
  simpa [rawOf] using this

theorem decode_encode {x : Wire} (hx : WireOk x) {bs} (h : encodeBytes x = .ok bs) (rest : Bytes) :
    decodeMsgpack (bs ++ rest) = fromWire x := by
  obtain ⟨p⟩ := parts_of h
  have hr := read_wire hx p rest
  have e : bs ++ rest = magic ++ ((p.propLen ++ (p.prop ++ ((p.types ++ p.schema) ++ (p.textLen ++ (p.text ++ p.layers))))) ++ rest) := by
    have := congrArg (· ++ rest) p.eq
    simp only [List.append_assoc] at this ⊢
    exact this
  unfold decodeMsgpack
  rw [e]
  have h4 : magic.length = 4 := rfl
  rw [← h4, List.take_left', List.drop_left']
  · simp only [ne_eq, not_true_eq_false, if_false]
    rw [hr]
  · rfl
  · rfl

end Verif
