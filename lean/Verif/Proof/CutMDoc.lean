import Verif.Proof.Cut
import Verif.Proof.MDoc
/-
MsgpackDocument over data that were cut short.
-/
set_option linter.unusedSimpArgs false
namespace Verif

/-- the same MsgpackDocument, with more data -/
def MDoc.more (s : MDoc) (t : Bytes) : MDoc := { s with raw := s.raw ++ t }

/-- `x` is what `y` is, unless it is an exception for the end of the data -/
def Until {α : Type} (x y : Except PyErr α) : Prop := (∃ e : PyErr, e.isEnd ∧ x = .error e) ∨ y = x

/-- what a call gives with `x`, it also gives with more data -/
def Until2 {α : Type} (t : Bytes) (x y : MDoc × Except PyErr α) : Prop :=
  (∃ e : PyErr, e.isEnd ∧ x.2 = .error e) ∨ y = (x.1.more t, x.2)

theorem Until.refl {α : Type} (x : Except PyErr α) : Until x x := .inr rfl

/-- a reader that reads at least something -/
def Eats {α : Type} (p : P α) : Prop := ∃ e : PyErr, e.isEnd ∧ p [] = .error e

theorem eats_unpack : unpack [] = .error .outOfData := rfl

theorem Eats.bind {α β : Type} {p : P α} {f : α → P β} (h : Eats p) : Eats (p >>= f) := by
  obtain ⟨e, h1, h2⟩ := h
  exact ⟨e, h1, by rw [P.bind_eq, h2]⟩

theorem eats_pnext : Eats pnext := ⟨.stopIteration, .inr rfl, rfl⟩
theorem eats_pSchema : Eats pSchema := Eats.bind (Eats.bind eats_pnext)
theorem eats_pLayer (l : Str × List (Str × TypeWire)) : Eats (pLayer l) := Eats.bind eats_pnext
theorem eats_pMapHeader : Eats MDoc.pMapHeader := Eats.bind ⟨.outOfData, .inl rfl, rfl⟩

theorem eats_decodeProperty (ns : List Str) : Eats (MDoc.decodeProperty ns) := by
  unfold MDoc.decodeProperty
  split
  · exact eats_pnext
  · exact eats_pMapHeader.bind

theorem eats_decodeTexts (ns : List Str) : Eats (MDoc.decodeTexts ns) := by
  unfold MDoc.decodeTexts
  split
  · exact eats_pnext
  · exact eats_pMapHeader.bind

theorem Grows.pMapHeader : Grows MDoc.pMapHeader := by
  refine (Grows.ofLoc Loc.unpackHead).bind fun h => ?_
  split
  · exact Grows.pure _
  · exact Grows.fail _

theorem Grows.pSelect (ns : List Str) : ∀ n out, Grows (MDoc.pSelect ns n out)
  | 0, _ => Grows.pure _
  | n + 1, out => by
    refine Grows.pnext.bind fun o => ?_
    split
    · exact Grows.ite (Grows.pnext.bind fun _ => Grows.pSelect ns n _) (Grows.pskip.bind fun _ => Grows.pSelect ns n _)
    · exact Grows.fail _
    · exact Grows.fail _
    · exact Grows.pskip.bind fun _ => Grows.pSelect ns n _

theorem Grows.decodeProperty (ns : List Str) : Grows (MDoc.decodeProperty ns) :=
  Grows.ite Grows.pnext (Grows.pMapHeader.bind fun _ => (Grows.pSelect ns _ _).bind fun _ => Grows.pure _)

theorem Grows.decodeTexts (ns : List Str) : Grows (MDoc.decodeTexts ns) :=
  Grows.ite Grows.pnext (Grows.pMapHeader.bind fun _ => (Grows.pSelect [] _ _).bind fun _ => Grows.pure _)

theorem readAt_until {α : Type} {p : P α} (hp : Grows p) (he : Eats p) (raw t : Bytes) (pos : Int) :
    Until (MDoc.readAt raw pos p) (MDoc.readAt (raw ++ t) pos p) := by
  unfold MDoc.readAt
  by_cases hn : pos < 0
  · rw [if_pos hn, if_pos hn]; exact .refl _
  rw [if_neg hn, if_neg hn]
  by_cases hl : pos.toNat ≤ raw.length
  · rw [List.drop_append_of_le_length hl]
    cases h : p (raw.drop pos.toNat) with
    | ok ar =>
      obtain ⟨a, r⟩ := ar
      rw [hp.ok _ _ _ h t]
      refine .inr ?_
      simp only [List.length_append]
      congr 2
      omega
    | error e =>
      by_cases hend : e.isEnd
      · exact .inl ⟨e, hend, rfl⟩
      · rw [hp.err _ _ h hend t]; exact .inr rfl
  · obtain ⟨e, h1, h2⟩ := he
    rw [List.drop_eq_nil_of_le (by omega : raw.length ≤ pos.toNat), h2]
    exact .inl ⟨e, h1, rfl⟩

namespace MDoc
variable (s : MDoc) (t : Bytes)

theorem more_readState : (s.more t).readState = s.readState := rfl
theorem more_prop : (s.more t).prop = s.prop := rfl
theorem more_schema : (s.more t).schema = s.schema := rfl
theorem more_texts : (s.more t).texts = s.texts := rfl
theorem more_layers : (s.more t).layers = s.layers := rfl

theorem parse1_until : Until2 t s.parse1 (s.more t).parse1 := by
  unfold parse1
  show Until2 t _ (match readAt (s.raw ++ t) 4 pnext with | .error e => (s.more t, .error e) | .ok (sz, n) => ({ s.more t with prop := some (n + 4, sz) }, .ok ()))
  rcases readAt_until Grows.pnext eats_pnext s.raw t 4 with ⟨e, h1, h2⟩ | h
  · rw [h2]; exact .inl ⟨e, h1, rfl⟩
  · rw [h]
    cases readAt s.raw 4 pnext <;> exact .inr rfl

theorem parse2_until : Until2 t s.parse2 (s.more t).parse2 := by
  obtain ⟨raw, ref, rs, prop, schema, texts, layers⟩ := s
  unfold parse2
  simp only [more]
  cases prop with
  | none => exact .inr rfl
  | some ab =>
    obtain ⟨a, b⟩ := ab
    simp only
    cases addObj a b with
    | error e => exact .inr rfl
    | ok start =>
      simp only
      rcases readAt_until Grows.pSchema eats_pSchema raw t start with ⟨e, h1, h2⟩ | h
      · rw [h2]; exact .inl ⟨e, h1, rfl⟩
      · rw [h]
        cases readAt raw start pSchema with
        | error e => exact .inr rfl
        | ok r =>
          obtain ⟨sch, n⟩ := r
          simp only
          cases schemaTypes sch with
          | error e => exact .inr rfl
          | ok ty =>
            simp only
            rcases readAt_until Grows.pnext eats_pnext raw t (start + n) with ⟨e, h1, h2⟩ | h
            · rw [h2]; exact .inl ⟨e, h1, rfl⟩
            · rw [h]
              cases readAt raw (start + n) pnext <;> exact .inr rfl

theorem layerPlaces_until (raw t : Bytes) : ∀ (ts : List Str) (start : Int),
    Until (layerPlaces raw start ts) (layerPlaces (raw ++ t) start ts)
  | [], _ => .inr rfl
  | k :: ts, start => by
    unfold layerPlaces
    rcases readAt_until Grows.pnext eats_pnext raw t start with ⟨e, h1, h2⟩ | h
    · rw [h2]; exact .inl ⟨e, h1, rfl⟩
    · rw [h]
      cases readAt raw start pnext with
      | error e => exact .inr rfl
      | ok r =>
        obtain ⟨len, n⟩ := r
        simp only
        cases addObj (start + n).toNat len with
        | error e => exact .inr rfl
        | ok next =>
          simp only
          split
          · exact .inr rfl
          · rcases layerPlaces_until raw t ts next with ⟨e, h1, h2⟩ | h
            · rw [h2]; exact .inl ⟨e, h1, rfl⟩
            · rw [h]; exact .inr rfl

theorem parse3_until : Until2 t s.parse3 (s.more t).parse3 := by
  obtain ⟨raw, ref, rs, prop, schema, texts, layers⟩ := s
  unfold parse3
  simp only [more]
  cases texts with
  | none => exact .inr rfl
  | some ab =>
    obtain ⟨a, b⟩ := ab
    cases schema with
    | none => exact .inr rfl
    | some sch =>
      simp only
      cases addObj a b with
      | error e => exact .inr rfl
      | ok start =>
        simp only
        rcases layerPlaces_until raw t (sch.map (·.1)) start with ⟨e, h1, h2⟩ | h
        · rw [h2]; exact .inl ⟨e, h1, rfl⟩
        · rw [h]
          cases layerPlaces raw start (sch.map (·.1)) <;> exact .inr rfl

/-- what a call can come to -/
theorem until_cases {α : Type} {t : Bytes} {x y : MDoc × Except PyErr α} (h : Until2 t x y) :
    (∃ s e, PyErr.isEnd e ∧ x = (s, .error e)) ∨ (∃ s e, x = (s, .error e) ∧ y = (s.more t, .error e)) ∨
      ∃ s a, x = (s, .ok a) ∧ y = (s.more t, .ok a) := by
  obtain ⟨s, r⟩ := x
  rcases h with ⟨e, h1, h2⟩ | rfl
  · simp only at h2
    subst h2
    exact .inl ⟨s, e, h1, rfl⟩
  · cases r with
    | error e => exact .inr (.inl ⟨s, e, rfl, rfl⟩)
    | ok a => exact .inr (.inr ⟨s, a, rfl, rfl⟩)

theorem until_if {α : Type} {c : Prop} [Decidable c] {t : Bytes} {x y : MDoc × Except PyErr α} {a b : MDoc × Except PyErr α}
    (h : Until2 t x y) (h' : Until2 t a b) : Until2 t (if c then x else a) (if c then y else b) := by
  split <;> assumption

theorem parseState_until (k : Nat) : Until2 t (s.parseState k) ((s.more t).parseState k) := by
  unfold parseState
  have H : Until2 t (if s.readState < 1 ∧ k > 0 then s.parse1 else (s, .ok ()))
      (if (s.more t).readState < 1 ∧ k > 0 then (s.more t).parse1 else (s.more t, .ok ())) :=
    until_if (c := s.readState < 1 ∧ k > 0) (parse1_until s t) (.inr rfl)
  rcases until_cases H with ⟨s, e, h1, h2⟩ | ⟨s, e, h1, h2⟩ | ⟨s, _, h1, h2⟩
  · rw [h2]; exact .inl ⟨e, h1, rfl⟩
  · rw [h1, h2]; exact .inr rfl
  rw [h1, h2]
  simp only
  have H : Until2 t (if s.readState < 2 ∧ k > 1 then s.parse2 else (s, .ok ()))
      (if (s.more t).readState < 2 ∧ k > 1 then (s.more t).parse2 else (s.more t, .ok ())) :=
    until_if (c := s.readState < 2 ∧ k > 1) (parse2_until s t) (.inr rfl)
  rcases until_cases H with ⟨s, e, h1, h2⟩ | ⟨s, e, h1, h2⟩ | ⟨s, _, h1, h2⟩
  · rw [h2]; exact .inl ⟨e, h1, rfl⟩
  · rw [h1, h2]; exact .inr rfl
  rw [h1, h2]
  simp only
  exact until_if (c := s.readState < 3 ∧ k > 2) (parse3_until s t) (.inr rfl)

theorem properties_until (ns : List Str) : Until2 t (s.properties ns) ((s.more t).properties ns) := by
  unfold properties
  rcases until_cases (parseState_until s t 1) with ⟨s, e, h1, h2⟩ | ⟨s, e, h1, h2⟩ | ⟨s, _, h1, h2⟩
  · rw [h2]; exact .inl ⟨e, h1, rfl⟩
  · rw [h1, h2]; exact .inr rfl
  rw [h1, h2]
  simp only
  rw [more_prop]
  cases s.prop with
  | none => exact .inr rfl
  | some ab =>
    obtain ⟨a, b⟩ := ab
    simp only
    rcases readAt_until (Grows.decodeProperty ns) (eats_decodeProperty ns) s.raw t a with ⟨e, h1, h2⟩ | h
    · rw [h2]; exact .inl ⟨e, h1, rfl⟩
    · have h' : readAt (s.more t).raw a (decodeProperty ns) = _ := h
      rw [h']
      cases readAt s.raw a (decodeProperty ns) <;> exact .inr rfl

theorem getSchema_until : Until2 t s.getSchema (s.more t).getSchema := by
  unfold getSchema
  rcases until_cases (parseState_until s t 2) with ⟨s, e, h1, h2⟩ | ⟨s, e, h1, h2⟩ | ⟨s, _, h1, h2⟩
  · rw [h2]; exact .inl ⟨e, h1, rfl⟩
  · rw [h1, h2]; exact .inr rfl
  rw [h1, h2]
  simp only
  rw [more_schema]
  cases s.schema <;> exact .inr rfl

theorem getTexts_until (ns : List Str) : Until2 t (s.getTexts ns) ((s.more t).getTexts ns) := by
  unfold getTexts
  rcases until_cases (parseState_until s t 2) with ⟨s, e, h1, h2⟩ | ⟨s, e, h1, h2⟩ | ⟨s, _, h1, h2⟩
  · rw [h2]; exact .inl ⟨e, h1, rfl⟩
  · rw [h1, h2]; exact .inr rfl
  rw [h1, h2]
  simp only
  rw [more_texts]
  cases s.texts with
  | none => exact .inr rfl
  | some ab =>
    obtain ⟨a, b⟩ := ab
    simp only
    rcases readAt_until (Grows.decodeTexts ns) (eats_decodeTexts ns) s.raw t a with ⟨e, h1, h2⟩ | h
    · rw [h2]; exact .inl ⟨e, h1, rfl⟩
    · have h' : readAt (s.more t).raw a (decodeTexts ns) = _ := h
      rw [h']
      cases readAt s.raw a (decodeTexts ns) <;> exact .inr rfl

theorem readLayers_until (raw t : Bytes) (places : Dict Str (Nat × Obj)) (sch : RawSchema) : ∀ ts : List Str,
    Until (readLayers raw places sch ts) (readLayers (raw ++ t) places sch ts)
  | [] => .inr rfl
  | k :: ts => by
    unfold readLayers
    cases dget places k with
    | none => exact .inr rfl
    | some ab =>
      obtain ⟨a, b⟩ := ab
      cases dget sch k with
      | none => exact .inr rfl
      | some fs =>
        simp only
        rcases readAt_until (Grows.pLayer (k, fs)) (eats_pLayer _) raw t a with ⟨e, h1, h2⟩ | h
        · rw [h2]; exact .inl ⟨e, h1, rfl⟩
        · rw [h]
          cases readAt raw a (pLayer (k, fs)) with
          | error e => exact .inr rfl
          | ok r =>
            simp only
            rcases readLayers_until raw t places sch ts with ⟨e, h1, h2⟩ | h
            · rw [h2]; exact .inl ⟨e, h1, rfl⟩
            · rw [h]; exact .inr rfl

theorem assemble_until (chosen : List Str) (props texts : Obj) (sch : RawSchema) (places : Dict Str (Nat × Obj)) :
    Until (s.assemble chosen props texts sch places) ((s.more t).assemble chosen props texts sch places) := by
  unfold assemble
  cases asProps props with
  | error e => exact .inr rfl
  | ok props =>
    cases asTexts texts with
    | error e => exact .inr rfl
    | ok texts =>
      simp only
      rcases readLayers_until s.raw t places sch (if chosen = [] then sch.map (·.1) else chosen) with ⟨e, h1, h2⟩ | h
      · rw [h2]; exact .inl ⟨e, h1, rfl⟩
      · show Until _ (match readLayers (s.raw ++ t) places sch (if chosen = [] then sch.map (·.1) else chosen) with | .error e => .error e | .ok d => _)
        rw [h]; exact .inr rfl

theorem document_until (chosen : List Str) : Until2 t (s.document chosen) ((s.more t).document chosen) := by
  unfold document
  rcases until_cases (parseState_until s t 3) with ⟨s, e, h1, h2⟩ | ⟨s, e, h1, h2⟩ | ⟨s, _, h1, h2⟩
  · rw [h2]; exact .inl ⟨e, h1, rfl⟩
  · rw [h1, h2]; exact .inr rfl
  rw [h1, h2]
  simp only
  rcases until_cases (properties_until s t []) with ⟨s, e, h1, h2⟩ | ⟨s, e, h1, h2⟩ | ⟨s, props, h1, h2⟩
  · rw [h2]; exact .inl ⟨e, h1, rfl⟩
  · rw [h1, h2]; exact .inr rfl
  rw [h1, h2]
  simp only
  rcases until_cases (getSchema_until s t) with ⟨s, e, h1, h2⟩ | ⟨s, e, h1, h2⟩ | ⟨s, _, h1, h2⟩
  · rw [h2]; exact .inl ⟨e, h1, rfl⟩
  · rw [h1, h2]; exact .inr rfl
  rw [h1, h2]
  simp only
  rcases until_cases (getTexts_until s t []) with ⟨s, e, h1, h2⟩ | ⟨s, e, h1, h2⟩ | ⟨s, texts, h1, h2⟩
  · rw [h2]; exact .inl ⟨e, h1, rfl⟩
  · rw [h1, h2]; exact .inr rfl
  rw [h1, h2]
  simp only
  rw [more_schema, more_layers]
  cases s.schema with
  | none => exact .inr rfl
  | some sch =>
    cases s.layers with
    | none => exact .inr rfl
    | some places =>
      rcases assemble_until s t chosen props texts sch places with ⟨e, h1, h2⟩ | h
      · exact .inl ⟨e, h1, h2⟩
      · exact .inr (congrArg _ h)

/-- readLayers that succeeds has read each of the layers -/
theorem readLayers_each {raw : Bytes} {places : Dict Str (Nat × Obj)} {sch : RawSchema} : ∀ {ts : List Str} {r : Dict Str WireLayer},
    readLayers raw places sch ts = .ok r → (∀ k, (dget r k).isSome = true → k ∈ ts) ∧
      ∀ k ∈ ts, ∃ a b fs v, dget places k = some (a, b) ∧ dget sch k = some fs ∧ readAt raw a (pLayer (k, fs)) = .ok v
  | [], r, h => by
    cases h
    exact ⟨by simp [dget], by simp⟩
  | t :: ts, r, h => by
    unfold readLayers at h
    cases hp : dget places t with
    | none => rw [hp] at h; cases h
    | some ab =>
      obtain ⟨a, b⟩ := ab
      cases hq : dget sch t with
      | none => rw [hp, hq] at h; cases h
      | some fs =>
        rw [hp, hq] at h
        simp only at h
        cases hr : readAt raw a (pLayer (t, fs)) with
        | error e => rw [hr] at h; cases h
        | ok v =>
          rw [hr] at h
          simp only at h
          cases hd : readLayers raw places sch ts with
          | error e => rw [hd] at h; cases h
          | ok d =>
            rw [hd] at h
            simp only [Except.ok.injEq] at h
            subst h
            obtain ⟨g1, g2⟩ := readLayers_each hd
            refine ⟨fun k hk => ?_, fun k hk => ?_⟩
            · rw [dget_dset] at hk
              split at hk
              · rename_i he; simp [he]
              · simp [g1 k hk]
            · rcases List.mem_cons.mp hk with rfl | hk
              · exact ⟨a, b, fs, v, hp, hq, hr⟩
              · exact g2 k hk

end MDoc

/-- reading what is not all there -/
theorem readAt_cut {α : Type} {p : P α} (hp : Grows p) (he : Eats p) {bs pre body rest : Bytes} {a : α} (hr : Reads p body a)
    (hb : bs = pre ++ (body ++ rest)) {k : Nat} (hk : k < pre.length + body.length) {i : Int} (hi : i = pre.length) :
    ∃ e : PyErr, e.isEnd ∧ MDoc.readAt (bs.take k) i p = .error e := by
  subst hi
  unfold MDoc.readAt
  rw [if_neg (by omega)]
  simp only [Int.toNat_natCast]
  by_cases hl : k ≤ pre.length
  · obtain ⟨e, h1, h2⟩ := he
    rw [List.drop_eq_nil_of_le (by simp; omega), h2]
    exact ⟨e, h1, rfl⟩
  · have : (bs.take k).drop pre.length = body.take (k - pre.length) := by
      rw [List.drop_take, hb, List.drop_left, List.take_append_of_le_length (by omega)]
    rw [this]
    obtain ⟨e, h1, h2⟩ := hp.cut hr (k := k - pre.length) (by omega)
    exact ⟨e, h1, by rw [h2]⟩

section
variable {x : Wire} {bs : Bytes} (hx : WireOk x) (p : Parts x bs) {s : MDoc} {k : Nat} (hs : Over (bs.take k) s)
include hs

theorem over_more : Over bs (s.more (bs.drop k)) := by
  refine ⟨?_, hs.2⟩
  show s.raw ++ _ = _
  rw [hs.1, List.take_append_drop]

include hx p

/-- the texts are not all there -/
theorem getTexts_cut {sch} (ht : schemaTypes (rawOf x) = .ok sch) (hk : k < p.textAt + p.text.length) (o : Obj) :
    (s.getTexts []).2 ≠ .ok o := by
  intro h
  have h2 := parseState2_ok hx p (over_more hs) ht
  unfold MDoc.getTexts at h
  rcases MDoc.until_cases (MDoc.parseState_until s (bs.drop k) 2) with ⟨s1, e, g1, g2⟩ | ⟨s1, e, g1, g2⟩ | ⟨s1, u, g1, g2⟩
  · rw [g2] at h; cases h
  · rw [g1] at h; cases h
  · rw [g1] at h
    simp only at h
    rw [h2] at g2
    simp only [Prod.mk.injEq] at g2
    have e1 : s1.texts = some (p.textAt, .int p.text.length) := (congrArg MDoc.texts g2.1).symm
    have e2 : s1.raw ++ bs.drop k = bs := ((congrArg MDoc.raw g2.1).symm).trans (over_more hs).1
    have e3 : s1.raw = bs.take k := by
      have := e2.trans (List.take_append_drop k bs).symm
      exact List.append_cancel_right this
    rw [e1] at h
    simp only at h
    obtain ⟨e, -, he⟩ := readAt_cut (Grows.decodeTexts []) (eats_decodeTexts []) (Reads.next p.hText (keysOk_texts hx.texts)) p.split5 (k := k)
      (by have := textAt_eq hx p (over_more hs); omega) (textAt_eq hx p (over_more hs))
    rw [e3, he] at h
    cases h

theorem document_cut {sch} (ht : schemaTypes (rawOf x) = .ok sch) (hk : k < bs.length) (chosen : List Str) (w : World) :
    (s.document chosen).2 ≠ .ok w := by
  intro h
  have hm := over_more hs
  generalize ht' : bs.drop k = t at hm
  unfold MDoc.document at h
  obtain ⟨d, q1, hlast, h2, h3⟩ := parseState3_ok hx p hm ht
  rcases MDoc.until_cases (MDoc.parseState_until s t 3) with ⟨s1, e, g1, g2⟩ | ⟨s1, e, g1, g2⟩ | ⟨s1, u, g1, g2⟩
  · rw [g2] at h; cases h
  · rw [g1] at h; cases h
  rw [g1] at h
  simp only at h
  rw [q1] at g2
  simp only [Prod.mk.injEq] at g2
  have m1 : Over bs (s1.more t) := by rw [← g2.1]; exact hm
  have l1 : s1.layers = some d := (congrArg MDoc.layers g2.1).symm
  have q2 := properties_ok hx p m1
  rcases MDoc.until_cases (MDoc.properties_until s1 t []) with ⟨s2, e, f1, f2⟩ | ⟨s2, e, f1, f2⟩ | ⟨s2, props, f1, f2⟩
  · rw [f2] at h; cases h
  · rw [f1] at h; cases h
  rw [f1] at h
  simp only at h
  rw [q2] at f2
  simp only [Prod.mk.injEq] at f2
  have m2 : Over bs (s2.more t) := by rw [← f2.1]; exact m1
  have l2 : s2.layers = some d := (congrArg MDoc.layers f2.1).symm.trans l1
  have q3 := getSchema_ok hx p m2 ht
  rcases MDoc.until_cases (MDoc.getSchema_until s2 t) with ⟨s3, e, j1, j2⟩ | ⟨s3, e, j1, j2⟩ | ⟨s3, sc, j1, j2⟩
  · rw [j2] at h; cases h
  · rw [j1] at h; cases h
  rw [j1] at h
  simp only at h
  rw [q3] at j2
  simp only [Prod.mk.injEq] at j2
  have m3 : Over bs (s3.more t) := by rw [← j2.1]; exact m2
  have l3 : s3.layers = some d := (congrArg MDoc.layers j2.1).symm.trans l2
  have raw3 : Over (bs.take k) s3 := by
    refine ⟨?_, m3.2⟩
    have h1 : s3.raw ++ t = bs := m3.1
    have h2 := List.take_append_drop k bs
    rw [ht'] at h2
    exact List.append_cancel_right (h1.trans h2.symm)
  have q4 := getTexts_ok hx p m3 ht
  rcases MDoc.until_cases (MDoc.getTexts_until s3 t []) with ⟨s4, e, i1, i2⟩ | ⟨s4, e, i1, i2⟩ | ⟨s4, tx, i1, i2⟩
  · rw [i2] at h; cases h
  · rw [i1] at h; cases h
  by_cases hls : x.layers = []
  · have hl := p.hLayers
    rw [hls] at hl
    have hl' : p.layers = [] := (Except.ok.inj (show (Except.ok [] : Except PyErr Bytes) = .ok p.layers from hl)).symm
    have hlen := congrArg List.length p.split5
    rw [hl', List.append_nil, List.length_append] at hlen
    have := textAt_eq hx p m3
    exact getTexts_cut hx p raw3 ht (by omega) tx (by rw [i1])
  rw [i1] at h
  simp only at h
  rw [q4] at i2
  simp only [Prod.mk.injEq] at i2
  have m4 : Over bs (s4.more t) := by rw [← i2.1]; exact m3
  have l4 : s4.layers = some d := (congrArg MDoc.layers i2.1).symm.trans l3
  have c4 : s4.schema = some (rawOf x) := (congrArg MDoc.schema i2.1).symm
  have raw4 : s4.raw = bs.take k := by
    have h1 : s4.raw ++ t = bs := m4.1
    have h2 := List.take_append_drop k bs
    rw [ht'] at h2
    exact List.append_cancel_right (h1.trans h2.symm)
  rw [l4, c4] at h
  simp only at h
  unfold MDoc.assemble at h
  cases hp : asProps props with
  | error e => rw [hp] at h; cases h
  | ok pr =>
    cases hq : asTexts tx with
    | error e => rw [hp, hq] at h; cases h
    | ok txs =>
      rw [hp, hq] at h
      simp only at h
      cases hr : MDoc.readLayers s4.raw d (rawOf x) (if chosen = [] then (rawOf x).map (·.1) else chosen) with
      | error e => rw [hr] at h; cases h
      | ok r =>
        rw [hr] at h
        simp only at h
        obtain ⟨r1, r2⟩ := MDoc.readLayers_each hr
        obtain ⟨key, l, a, body, z1, z2, z3, z4⟩ := hlast hls
        have hkey : key ∈ (rawOf x).map (·.1) := by
          simp only [rawOf, List.map_map, List.mem_map]
          exact ⟨_, z1, rfl⟩
        cases hg : dget r key with
        | none =>
          rw [mapE_missing hkey hg] at h
          cases h
        | some v =>
          obtain ⟨a', b', fs, v', y1, y2, y3⟩ := r2 key (r1 key (by rw [hg]; rfl))
          rw [z2] at y1
          simp only [Option.some.injEq, Prod.mk.injEq] at y1
          rw [dget_rawOf (dget_of_mem hx.layers z1)] at y2
          cases y2
          obtain ⟨z5, pre, rest, z6, z7⟩ := z3
          obtain ⟨e, -, he⟩ := readAt_cut (Grows.pLayer (key, l.cols.map (fun c => (c.1, c.2.1)))) (eats_pLayer _)
            (read_layer (hx.cols (key, l) z1) z5) z6 (k := k) (by omega) (i := a') (by rw [← y1.1, z7])
          rw [raw4, he] at y3
          cases y3

end
end Verif
