import Verif.Model.JavaMdoc
import Verif.Props.JavaAgain
import Verif.Props.JavaCodecEx
import Verif.Props.JavaGroup
/-
C93: the compartments of MsgpackDocument of the Java library.
-/
set_option linter.unusedSimpArgs false
namespace Verif
open World
open Spec (Both Cell LayerC Content FieldType Good TypeGood CellGood IsRef PyHas JHas JSound JavaReadable)

/-! ### specification -/

namespace Spec

/-- a file that one of the libraries writes for a document with a valid content -/
inductive WrittenBy (c : Content) (bs : Bytes) : Prop
  | python {w w' : World} {x t : Bool} : Reachable w → Encodable w → PyHas w c → w.encodeMsgpack x t = (w', .ok bs) → WrittenBy c bs
  | java {d d' : JDoc} : JSound d → JHas d c → Good c → d.encode = (d', .ok bs) → WrittenBy c bs

/-- the Schema of a document -/
def schemaOf (d : JDoc) : JSchema := d.layers.map (fun e => (e.1, e.2.fields))

/-- what the getters of a MsgpackDocument say, in any order and however often: the object is in one of two states -/
structure Says (m m' : JMsg) (props schema text layers : Except PyErr Bytes) : Prop where
  props : m.propPart = (m', props) ∧ m'.propPart = (m', props)
  schema : m.schemaPart = (m', schema) ∧ m'.schemaPart = (m', schema)
  text : m.textPart = (m', text) ∧ m'.textPart = (m', text)
  layers : m.layersPart = (m', layers) ∧ m'.layersPart = (m', layers)

end Spec

/-! ### reading at a position -/

theorem readAt_reads {α : Type} {m : JMsg} {p : P α} {pre b rest : Bytes} {a : α} (hr : Reads p b a) (hd : m.data = pre ++ (b ++ rest)) :
    m.readAt p pre.length = .ok (a, pre.length + b.length) := by
  unfold JMsg.readAt
  rw [hd, List.drop_left', hr rest]
  · simp only [List.length_append, Except.ok.injEq, Prod.mk.injEq, true_and]
    omega
  · rfl

theorem reads_skip {len body : Bytes} (h : pack (.int body.length) = .ok len) (hl : body.length < 2 ^ 31) : Reads JMsg.skipSized (len ++ body) () := by
  unfold JMsg.skipSized
  refine (reads_len h hl).bind ?_
  rw [if_neg (by omega)]
  simp only [Int.toNat_natCast]
  refine Reads.bind0 (a := body) ?_ (Reads.pure _)
  intro rest
  simp [P.take]

/-! ### what the decoder makes of the same bytes -/

theorem p_bind_ok {α β : Type} {p : P α} {f : α → P β} {bs r : Bytes} {b : β} (h : (p >>= f) bs = .ok (b, r)) :
    ∃ a r1, p bs = .ok (a, r1) ∧ f a r1 = .ok (b, r) := by
  rw [P.bind_eq] at h
  cases hp : p bs with
  | error e => rw [hp] at h; cases h
  | ok x => obtain ⟨a, r1⟩ := x; rw [hp] at h; exact ⟨a, r1, rfl, h⟩

theorem p_pure_ok {α : Type} {a b : α} {bs r : Bytes} (h : (pure a : P α) bs = .ok (b, r)) : b = a ∧ r = bs := by
  have := Prod.mk.inj (Except.ok.inj h)
  exact ⟨this.1.symm, this.2.symm⟩

theorem jLayer_names {t : List (Str × List Str)} {s : Str × List (Str × JType)} {bs r : Bytes} {l} (h : jLayer t s bs = .ok (l, r)) : (l.1, l.2.1) = s := by
  unfold jLayer at h
  obtain ⟨_, _, _, h⟩ := p_bind_ok h
  obtain ⟨_, _, _, h⟩ := p_bind_ok h
  obtain ⟨_, _, _, h⟩ := p_bind_ok h
  obtain ⟨_, _, _, h⟩ := p_bind_ok h
  rw [(p_pure_ok h).1]

theorem each_layers {t : List (Str × List Str)} : ∀ {s : List (Str × List (Str × JType))} {bs r : Bytes} {ls}, P.each (jLayer t) s bs = .ok (ls, r) →
    ls.map (fun l => (l.1, l.2.1)) = s
  | [], bs, r, ls, h => by rw [(p_pure_ok h).1]; rfl
  | e :: s, bs, r, ls, h => by
    unfold P.each at h
    obtain ⟨l, _, h1, h⟩ := p_bind_ok h
    obtain ⟨ls', _, h2, h⟩ := p_bind_ok h
    rw [(p_pure_ok h).1, List.map_cons, jLayer_names h1, each_layers h2]

theorem resolve_names {pl : Dict Str (Nat × Nat)} : ∀ {ls ls'}, mapE (jResolveLayer pl) ls = .ok ls' → ls'.map (fun l => (l.1, l.2.1)) = ls.map (fun l => (l.1, l.2.1))
  | [], ls', h => by cases h; rfl
  | l :: ls, ls', h => by
    unfold mapE at h
    split at h
    · cases h
    · rename_i y hy
      split at h
      · cases h
      · rename_i ys hys
        cases h
        rw [List.map_cons, List.map_cons, resolve_names hys]
        unfold jResolveLayer at hy
        split at hy
        · cases hy
        · cases hy; rfl

theorem tput_map {α β : Type} (g : α → β) : ∀ (d : Dict Str α) (k : Str) (v : α), (tput d k v).map (fun e => (e.1, g e.2)) = tput (d.map (fun e => (e.1, g e.2))) k (g v)
  | [], k, v => rfl
  | (k', v') :: d, k, v => by
    simp only [tput, List.map_cons]
    split
    · rfl
    · split
      · rfl
      · rw [List.map_cons, tput_map g d k v]

theorem tmap_map {α β : Type} (g : α → β) (l : List (Str × α)) : (tmap l).map (fun e => (e.1, g e.2)) = tmap (l.map (fun e => (e.1, g e.2))) := by
  have : ∀ (l : List (Str × α)) (d : Dict Str α), (l.foldl (fun d e => tput d e.1 e.2) d).map (fun e => (e.1, g e.2)) =
      (l.map (fun e => (e.1, g e.2))).foldl (fun d e => tput d e.1 e.2) (d.map (fun e => (e.1, g e.2))) := by
    intro l
    induction l with
    | nil => intro d; rfl
    | cons e l ih => intro d; rw [List.foldl_cons, ih, tput_map]; rfl
  exact this l []

theorem length_tput {α : Type} {d : Dict Str α} {k : Str} {v : α} (h : k ∉ dkeys d) : (tput d k v).length = d.length + 1 := by
  induction d with
  | nil => rfl
  | cons e d ih =>
    obtain ⟨k', v'⟩ := e
    simp only [dkeys, List.map_cons, List.mem_cons, not_or] at h
    simp only [tput, if_neg h.1]
    split
    · rfl
    · rw [List.length_cons, ih h.2, List.length_cons]

theorem length_tmap {α : Type} {l : List (Str × α)} (h : (dkeys l).Nodup) : (tmap l).length = l.length := by
  have : ∀ (l : List (Str × α)) (d : Dict Str α), (dkeys l).Nodup → (∀ k ∈ dkeys l, k ∉ dkeys d) →
      (l.foldl (fun d e => tput d e.1 e.2) d).length = d.length + l.length := by
    intro l
    induction l with
    | nil => intro d _ _; rfl
    | cons e l ih =>
      intro d h1 h2
      simp only [dkeys, List.map_cons, List.nodup_cons] at h1
      rw [List.foldl_cons, ih _ h1.2, length_tput (h2 e.1 (by simp [dkeys])), List.length_cons]
      · omega
      · intro k hk hk'
        rcases mem_dkeys_tput.mp hk' with rfl | hk'
        · exact h1.1 hk
        · exact h2 k (by simp only [dkeys, List.map_cons, List.mem_cons]; exact .inr hk) hk'
  have := this l [] h (by simp [dkeys])
  simpa [tmap] using this

theorem layObjs_fields : ∀ (ls : List (Str × List (Str × JType) × List (Dict Str JVal))) (b : Nat),
    (jLayObjs b ls).map (fun e => (e.1, e.2.fields)) = (ls.map (fun l => (l.1, l.2.1))).map (fun e => (e.1, tmap e.2))
  | [], _ => rfl
  | l :: ls, b => by simp only [jLayObjs, List.map_cons, layObjs_fields ls]

theorem decode_heads {bs : Bytes} {d : JDoc} (h : jDecode bs = .ok d) : ∃ s r1 r2, jProps (bs.drop 4) = .ok (d.props, r1) ∧ jSchema r1 = .ok (s, r2) ∧
    jSchemaOf s = Spec.schemaOf d := by
  unfold jDecode at h
  split at h
  · cases h
  · split at h
    · cases h
    · cases hr : jRead (bs.drop 4) with
      | error e => rw [hr] at h; cases h
      | ok y =>
        obtain ⟨x, r⟩ := y
        rw [hr] at h
        simp only at h
        split at h
        · cases h
        · rename_i ls hls
          unfold jRead at hr
          obtain ⟨props, r1, h1, hr⟩ := p_bind_ok hr
          obtain ⟨s, r2, h2, hr⟩ := p_bind_ok hr
          obtain ⟨t, r3, h3, hr⟩ := p_bind_ok hr
          obtain ⟨l, r4, h4, hr⟩ := p_bind_ok hr
          obtain ⟨rfl, -⟩ := p_pure_ok hr
          have := Except.ok.inj h
          subst this
          refine ⟨s, r1, r2, h1, h2, ?_⟩
          unfold jSchemaOf Spec.schemaOf jBuild
          simp only
          rw [tmap_map, layObjs_fields, resolve_names hls, each_layers h4]

/-! ### the parts of a written file -/

theorem int_one {i : Int} {r : Bytes} (h : pack (.int i) = .ok (0x44 :: r)) : r = [] := by
  simp only [pack, packAt] at h
  unfold packInt at h
  simp only at h
  repeat' split at h
  all_goals first | (cases h; done) | skip
  all_goals exact (List.cons.inj (Except.ok.inj h)).2.symm

theorem map_head {n : Nat} {bs : Bytes} (h : packMapHead n = .ok bs) : ∃ b r, bs = b :: r ∧ 0x80 ≤ b.toNat := by
  unfold packMapHead at h
  repeat' split at h
  all_goals cases h
  all_goals refine ⟨_, _, rfl, ?_⟩
  all_goals first | decide | (rw [u8 (by omega)]; omega)

/-- the compartments of a file, and the bytes of the other layers -/
structure CutAs (bs p s t : Bytes) (ls : List Bytes) (props : Dict Str JVal) (sch : List (Str × List (Str × JType))) : Prop where
  eq : bs = magic ++ (p ++ (s ++ (t ++ ls.flatten)))
  len : ls.length = sch.length
  nodup : (dkeys sch).Nodup
  prop : Reads JMsg.skipSized p () ∧ Reads jProps p props
  schema : Reads jSchema s sch
  text : Reads JMsg.skipSized t ()
  lays : ∀ l ∈ ls, Reads JMsg.skipSized l () ∧ l ≠ []
  head : ∃ (b : UInt8) (r : Bytes), p = b :: r ∧ (b = 0x44 → ∃ b' r', r = b' :: r' ∧ b' ≠ 0x4d)
  short : 1 ≤ p.length ∧ 1 ≤ s.length ∧ 2 ≤ t.length
  room : ls ≠ [] → 4 ≤ s.length + t.length

theorem wrote_cut {c : Content} {bs : Bytes} (hw : Wrote c bs) (hg : Good c) (hr : JavaReadable c) (hl : bs.length < 2 ^ 31) :
    ∃ p s t ls props sch, CutAs bs p s t ls props sch := by
  obtain ⟨x, hx, hb, -⟩ := hw
  have hlay : ∀ e ∈ x.layers, ∃ lc, c.layers e.1 = some lc ∧ WLay x e.2 lc := by
    rintro ⟨k, l⟩ he
    have hd := dget_of_mem hx.ok.layers he
    have hb := hx.layers k
    rw [hd] at hb
    exact hb.of_some
  obtain ⟨p⟩ := parts_of hb
  have hle : bs.length = 4 + (p.propLen.length + p.prop.length + (p.types.length + (p.schema.length + (p.textLen.length + p.text.length + p.layers.length)))) := by
    have := congrArg List.length p.eq
    simp only [List.length_append] at this
    exact this
  have hprop := reads_props p.hProp p.hPropLen (by omega) (by
    rintro ⟨k, o⟩ he
    refine hr.props k o ?_
    rw [← hx.props]
    exact dget_of_mem (keysOk_map hx.ok.props) he)
  have hschema := reads_schema (c := c) p.hTypes p.hSchema (by omega) hx.ok.layers (by
    intro e he
    obtain ⟨lc, hc, hw⟩ := hlay e he
    refine ⟨fields_nodup hw.nodup, fun e' he' => ?_⟩
    obtain ⟨ft, h1, h2⟩ := col_of hg hc hw e' he'
    exact ⟨ft, h2.type, h2.good, argD_nodup (hx.ok.args e he e' he'), fun a o ho => hr.args _ _ _ _ a o hc h1 ho⟩)
  have hlays : ∃ ls : List Bytes, p.layers = ls.flatten ∧ ls.length = x.layers.length ∧ ∀ l ∈ ls, Reads JMsg.skipSized l () ∧ l ≠ [] := by
    have : ∀ (L : List (Str × WireLayer)) (b : Bytes), catL (L.map (fun e => layerBytes e.2)) = .ok b → b.length < 2 ^ 31 →
        ∃ ls : List Bytes, b = ls.flatten ∧ ls.length = L.length ∧ ∀ l ∈ ls, Reads JMsg.skipSized l () ∧ l ≠ [] := by
      intro L
      induction L with
      | nil => intro b hb _; cases hb; exact ⟨[], rfl, rfl, by simp⟩
      | cons e L ih =>
        intro b hb hbl
        obtain ⟨b1, b2, e1, e2, rfl⟩ := cat_ok hb
        rw [List.length_append] at hbl
        obtain ⟨ls, h1, h2, h3⟩ := ih b2 e2 (by omega)
        obtain ⟨body, len, g1, g2, rfl⟩ := sized_ok e1
        have hpos : 1 ≤ len.length := packAt_pos (n := 512) g2
        refine ⟨(len ++ body) :: ls, by rw [h1]; rfl, by simp [h2], ?_⟩
        intro l hm
        rcases List.mem_cons.mp hm with rfl | hm
        · rw [List.length_append] at hbl
          refine ⟨reads_skip g2 (by omega), ?_⟩
          intro h
          rw [List.append_eq_nil_iff] at h
          rw [h.1] at hpos
          simp at hpos
        · exact h3 l hm
    exact this _ _ p.hLayers (by omega)
  obtain ⟨ls, l1, l2, l3⟩ := hlays
  have hp1 : 1 ≤ p.propLen.length := packAt_pos (n := 512) p.hPropLen
  have hp2 : 1 ≤ p.prop.length := packAt_pos (n := 512) p.hProp
  have hp3 : 1 ≤ p.types.length := packAt_pos (n := 512) p.hTypes
  have hp4 : 1 ≤ p.text.length := packAt_pos (n := 512) p.hText
  have hp5 : 1 ≤ p.textLen.length := packAt_pos (n := 512) p.hTextLen
  refine ⟨p.propLen ++ p.prop, p.types ++ p.schema, p.textLen ++ p.text, ls, _, _, ?_, by rw [l2, List.length_map], by rw [dkeys_mapk (g := fun e : Str × WireLayer => jFieldsOf e.2)]; exact hx.ok.layers, ⟨reads_skip p.hPropLen (by omega), hprop⟩, hschema,
    reads_skip p.hTextLen (by omega), l3, ?_, ?_, ?_⟩
  · rw [← l1]
    have := p.eq
    simp only [List.append_assoc] at this ⊢
    exact this
  · obtain ⟨b, r, h1, -⟩ := int_head p.hPropLen
    refine ⟨b, r ++ p.prop, by rw [h1]; rfl, ?_⟩
    rintro rfl
    have h2 := p.hPropLen
    rw [h1] at h2
    rw [int_one h2]
    have h3 : packAt (511 + 1) (.map x.props) = .ok p.prop := p.hProp
    rw [packAt_map] at h3
    obtain ⟨u, v, h4, -, h6⟩ := cat_ok h3
    obtain ⟨b', r', rfl, h7⟩ := map_head h4
    refine ⟨b', r' ++ v, by rw [h6]; rfl, ?_⟩
    rintro rfl
    exact absurd h7 (by decide)
  · simp only [List.length_append]; omega
  · intro hne
    have hn : x.layers ≠ [] := by
      intro h
      rw [h] at l2
      exact hne (List.length_eq_zero_iff.mp l2)
    have hs := p.hSchema
    obtain ⟨e, L, he⟩ := List.exists_cons_of_ne_nil hn
    rw [he] at hs
    obtain ⟨b1, b2, e1, -, e3⟩ := cat_ok hs
    obtain ⟨b3, b4, e4, -, e5⟩ := cat_ok e1
    have h3 : 1 ≤ b3.length := packAt_pos (n := 512) e4
    have := congrArg List.length e3
    have := congrArg List.length e5
    simp only [List.length_append] at *
    omega

theorem written_wrote {c : Content} {bs : Bytes} (h : Spec.WrittenBy c bs) : Wrote c bs ∧ Good c := by
  cases h with
  | python h1 h2 h3 h4 => exact wrote_python h1.inv h1.wf h2 h3 h4
  | java h1 h2 h3 h4 => exact ⟨wrote_java h1 h2 h3 h4, h3⟩

theorem first4_magic {r : Bytes} : JMsg.first4 (magic ++ r) = magic := by
  unfold JMsg.first4
  have : 4 - (magic ++ r).length = 0 := by simp [magic]
  rw [this]
  rfl

/-- the positions of compartments of these lengths -/
def posOf (p s t l : Nat) : JPos := ⟨4, 4 + p, 4 + p, 4 + p + s, 4 + p + s, 4 + p + s + t, 4 + p + s + t, 4 + p + s + t + l⟩

section
variable {bs p s t l rest : Bytes} {props : Dict Str JVal} {sch : List (Str × List (Str × JType))}

theorem determine_cut (he : bs = magic ++ (p ++ (s ++ (t ++ (l ++ rest))))) (h1 : Reads JMsg.skipSized p ()) (h2 : Reads jSchema s sch)
    (h3 : Reads JMsg.skipSized t ()) (h4 : Reads JMsg.skipSized l ()) :
    (⟨bs, none, none⟩ : JMsg).determine = (⟨bs, some (jSchemaOf sch), some (posOf p.length s.length t.length l.length)⟩, .ok (posOf p.length s.length t.length l.length)) := by
  have e1 : (⟨bs, none, none⟩ : JMsg).readAt JMsg.skipSized 4 = .ok ((), 4 + p.length) :=
    readAt_reads (pre := magic) (b := p) (rest := s ++ (t ++ (l ++ rest))) h1 he
  have e2 : (⟨bs, none, none⟩ : JMsg).readAt jSchema (4 + p.length) = .ok (sch, 4 + p.length + s.length) := by
    have := readAt_reads (m := ⟨bs, none, none⟩) (pre := magic ++ p) (b := s) (rest := t ++ (l ++ rest)) h2 (by rw [he]; simp)
    simpa [magic, Nat.add_comm, Nat.add_left_comm, Nat.add_assoc] using this
  have e3 : (⟨bs, none, none⟩ : JMsg).readAt JMsg.skipSized (4 + p.length + s.length) = .ok ((), 4 + p.length + s.length + t.length) := by
    have := readAt_reads (m := ⟨bs, none, none⟩) (pre := magic ++ p ++ s) (b := t) (rest := l ++ rest) h3 (by rw [he]; simp)
    simpa [magic, Nat.add_comm, Nat.add_left_comm, Nat.add_assoc] using this
  have e4 : (⟨bs, none, none⟩ : JMsg).readAt JMsg.skipSized (4 + p.length + s.length + t.length) = .ok ((), 4 + p.length + s.length + t.length + l.length) := by
    have := readAt_reads (m := ⟨bs, none, none⟩) (pre := magic ++ p ++ s ++ t) (b := l) (rest := rest) h4 (by rw [he]; simp)
    simpa [magic, Nat.add_comm, Nat.add_left_comm, Nat.add_assoc] using this
  unfold JMsg.determine
  simp only
  rw [if_neg (by rw [he]; simp [magic])]
  simp only [e1, e2, e3, e4, posOf]

theorem copy_part {pre b rest : Bytes} (he : bs = pre ++ (b ++ rest)) : JMsg.copyOfRange bs pre.length (pre.length + b.length) = .ok b := by
  have hlen : bs.length = pre.length + (b.length + rest.length) := by rw [he]; simp
  unfold JMsg.copyOfRange
  rw [if_neg (by omega), if_neg (by omega), he, List.drop_left' rfl, Nat.add_sub_cancel_left, List.take_left' rfl]
  have : pre.length + b.length - (pre ++ (b ++ rest)).length = 0 := by simp
  rw [this]
  simp

theorem copy_parts (he : bs = magic ++ (p ++ (s ++ (t ++ (l ++ rest))))) : JMsg.copyOfRange bs 4 (4 + p.length) = .ok p ∧
    JMsg.copyOfRange bs (4 + p.length) (4 + p.length + s.length) = .ok s ∧ JMsg.copyOfRange bs (4 + p.length + s.length) (4 + p.length + s.length + t.length) = .ok t ∧
    JMsg.copyOfRange bs (4 + p.length + s.length + t.length) (4 + p.length + s.length + t.length + l.length) = .ok l := by
  refine ⟨copy_part (pre := magic) he, ?_, ?_, ?_⟩
  · have := copy_part (bs := bs) (pre := magic ++ p) (b := s) (rest := t ++ (l ++ rest)) (by rw [he]; simp)
    simpa [magic, Nat.add_comm, Nat.add_left_comm, Nat.add_assoc] using this
  · have := copy_part (bs := bs) (pre := magic ++ p ++ s) (b := t) (rest := l ++ rest) (by rw [he]; simp)
    simpa [magic, Nat.add_comm, Nat.add_left_comm, Nat.add_assoc] using this
  · have := copy_part (bs := bs) (pre := magic ++ p ++ s ++ t) (b := l) (rest := rest) (by rw [he]; simp)
    simpa [magic, Nat.add_comm, Nat.add_left_comm, Nat.add_assoc] using this

end

/-- C93. A MsgpackDocument can be made of the bytes that begin with the header, and of no others. -/
theorem C93_header (bs : Bytes) : (∃ r, bs = magic ++ r) ∧ JMsg.ofBytes bs = .ok ⟨bs, none, none⟩ ∨ (¬ ∃ r, bs = magic ++ r) ∧ JMsg.ofBytes bs = .error .io := by
  by_cases h : ∃ r, bs = magic ++ r
  · obtain ⟨r, rfl⟩ := h
    refine .inl ⟨⟨r, rfl⟩, ?_⟩
    unfold JMsg.ofBytes
    rw [first4_magic]
    simp
  · refine .inr ⟨h, ?_⟩
    unfold JMsg.ofBytes
    rw [if_pos]
    intro h4
    apply h
    unfold JMsg.first4 at h4
    match bs, h4 with
    | [], h4 => exact absurd h4 (by decide)
    | [a], h4 => simp [magic] at h4
    | [a, b], h4 => simp [magic] at h4
    | [a, b, c], h4 => simp [magic] at h4
    | a :: b :: c :: d :: r, h4 =>
      refine ⟨r, ?_⟩
      simp [magic] at h4 ⊢
      exact h4

theorem cut_decode {bs p s t : Bytes} {ls : List Bytes} {props : Dict Str JVal} {sch : List (Str × List (Str × JType))} (hc : CutAs bs p s t ls props sch) {d : JDoc}
    (hd : jDecode bs = .ok d) : props = d.props ∧ jSchemaOf sch = Spec.schemaOf d ∧ ls.length = d.layers.length := by
  obtain ⟨s', r1, r2, d1, d2, d3⟩ := decode_heads hd
  have hb : bs.drop 4 = p ++ (s ++ (t ++ ls.flatten)) := by rw [hc.eq]; rfl
  rw [hb, hc.prop.2] at d1
  obtain ⟨rfl, rfl⟩ := Prod.mk.inj (Except.ok.inj d1)
  rw [hc.schema] at d2
  obtain ⟨rfl, rfl⟩ := Prod.mk.inj (Except.ok.inj d2)
  refine ⟨rfl, d3, ?_⟩
  have h1 := congrArg List.length d3
  unfold jSchemaOf Spec.schemaOf at h1
  rw [length_tmap (by rw [dkeys_mapk (g := fun e : Str × List (Str × JType) => tmap e.2)]; exact hc.nodup)] at h1
  simp only [List.length_map] at h1
  rw [hc.len, h1]

theorem says_cut {bs p s t l : Bytes} {ls : List Bytes} {props : Dict Str JVal} {sch : List (Str × List (Str × JType))} (hc : CutAs bs p s t (l :: ls) props sch) :
    Spec.Says ⟨bs, none, none⟩ ⟨bs, some (jSchemaOf sch), some (posOf p.length s.length t.length l.length)⟩ (.ok p) (.ok s) (.ok t) (.ok l) := by
  have he : bs = magic ++ (p ++ (s ++ (t ++ (l ++ ls.flatten)))) := hc.eq
  have hdet := determine_cut he hc.prop.1 hc.schema hc.text (hc.lays l (by simp)).1
  obtain ⟨c1, c2, c3, c4⟩ := copy_parts he
  refine ⟨⟨?_, ?_⟩, ⟨?_, ?_⟩, ⟨?_, ?_⟩, ⟨?_, ?_⟩⟩
  · unfold JMsg.propPart JMsg.withPos; rw [hdet]; simp only [posOf, c1]
  · simp only [JMsg.propPart, JMsg.withPos, JMsg.determine, posOf, c1]
  · unfold JMsg.schemaPart JMsg.withPos; rw [hdet]; simp only [posOf, c2]
  · simp only [JMsg.schemaPart, JMsg.withPos, JMsg.determine, posOf, c2]
  · unfold JMsg.textPart JMsg.withPos; rw [hdet]; simp only [posOf, c3]
  · simp only [JMsg.textPart, JMsg.withPos, JMsg.determine, posOf, c3]
  · unfold JMsg.layersPart JMsg.withPos; rw [hdet]; simp only [posOf, c4]
  · simp only [JMsg.layersPart, JMsg.withPos, JMsg.determine, posOf, c4]

/-- what C93 would say: the four compartments of a file are the file without its header -/
def C93_full : Prop := ∀ (c : Content) (bs : Bytes), Spec.WrittenBy c bs → JavaReadable c → bs.length < 2 ^ 31 →
  ∃ m m' p s t l, JMsg.ofBytes bs = .ok m ∧ Spec.Says m m' (.ok p) (.ok s) (.ok t) (.ok l) ∧ bs = magic ++ (p ++ (s ++ (t ++ l)))

/-- C93. For a file of a document with layers, in any order of calls: the compartments follow each other behind the header,
`properties()` and `document()` are what the decoder makes of the file, `schema()` is null before and the schema of that
document after the first call, the properties and the schema can be parsed from their compartments. The rest of the file
are the layers but the first: there is none iff the document has one layer. -/
theorem C93_compartments_partial {c : Content} {bs : Bytes} (h : Spec.WrittenBy c bs) (hr : JavaReadable c) (hl : bs.length < 2 ^ 31) {d : JDoc} (hd : jDecode bs = .ok d)
    (hn : d.layers ≠ []) : ∃ m m' p s t l rest, JMsg.ofBytes bs = .ok m ∧ Spec.Says m m' (.ok p) (.ok s) (.ok t) (.ok l) ∧
      bs = magic ++ (p ++ (s ++ (t ++ (l ++ rest)))) ∧ (rest = [] ↔ d.layers.length = 1) ∧
      m.properties = (m', .ok d.props) ∧ m'.properties = (m', .ok d.props) ∧ m.schema = none ∧ m'.schema = some (Spec.schemaOf d) ∧
      m.document = .ok d ∧ m'.document = .ok d ∧
      (∀ b, JMsg.parseProps (p ++ b) = .ok d.props) ∧ (∀ b, JMsg.parseSchema (s ++ b) = .ok (Spec.schemaOf d)) := by
  obtain ⟨hw, hg⟩ := written_wrote h
  obtain ⟨p, s, t, ls, props, sch, hc⟩ := wrote_cut hw hg hr hl
  obtain ⟨rfl, d3, hlen⟩ := cut_decode hc hd
  have hb : bs.drop 4 = p ++ (s ++ (t ++ ls.flatten)) := by rw [hc.eq]; rfl
  obtain ⟨l, ls, rfl⟩ : ∃ l ls', ls = l :: ls' := List.exists_cons_of_ne_nil (by
    rintro rfl
    exact hn (List.length_eq_zero_iff.mp hlen.symm))
  have he : bs = magic ++ (p ++ (s ++ (t ++ (l ++ ls.flatten)))) := hc.eq
  have hdet := determine_cut he hc.prop.1 hc.schema hc.text (hc.lays l (by simp)).1
  have hroom := hc.room (by simp)
  have hprops : (if bs.length < 4 + (4 + p.length) then .error .unmodelled else JMsg.parseProps ((bs.drop 4).take (4 + p.length))) = .ok d.props := by
    rw [if_neg (by rw [he]; simp only [List.length_append]; have : magic.length = 4 := rfl; omega), hb]
    have : List.take (4 + p.length) (p ++ (s ++ (t ++ (l :: ls).flatten))) = p ++ List.take 4 (s ++ (t ++ (l :: ls).flatten)) := by
      rw [List.take_append]
      congr 1
      · exact List.take_of_length_le (by omega)
      · congr 1; omega
    rw [this]
    unfold JMsg.parseProps
    rw [hc.prop.2]
  refine ⟨⟨bs, none, none⟩, ⟨bs, some (jSchemaOf sch), some (posOf p.length s.length t.length l.length)⟩, p, s, t, l, ls.flatten, ?_, ?_, he, ?_, ?_, ?_, rfl, by rw [d3], hd, hd, ?_, ?_⟩
  · rcases C93_header bs with h | h
    · exact h.2
    · exact absurd ⟨_, he⟩ h.1
  · exact says_cut hc
  · rw [← hlen]
    simp only [List.length_cons]
    constructor
    · intro h
      cases ls with
      | nil => rfl
      | cons a ls => exact absurd (List.append_eq_nil_iff.mp h).1 (hc.lays a (by simp)).2
    · intro h
      rw [List.length_eq_zero_iff.mp (by omega : ls.length = 0)]
      rfl
  · unfold JMsg.properties JMsg.withPos
    rw [hdet]
    exact congrArg (Prod.mk _) hprops
  · exact congrArg (Prod.mk _) hprops
  · intro b
    unfold JMsg.parseProps
    rw [hc.prop.2]
  · intro b
    unfold JMsg.parseSchema
    rw [hc.schema]
    simp only [d3]

/-- C93. For a file of a document without layers the first call of each getter fails; the next calls have the other
compartments, which make up the file. -/
theorem C93_no_layers {c : Content} {bs : Bytes} (h : Spec.WrittenBy c bs) (hr : JavaReadable c) (hl : bs.length < 2 ^ 31) {d : JDoc} (hd : jDecode bs = .ok d)
    (hn : d.layers = []) : ∃ m m' p s t, JMsg.ofBytes bs = .ok m ∧ bs = magic ++ (p ++ (s ++ t)) ∧
      m.propPart = (m', .error .outOfData) ∧ m.schemaPart = (m', .error .outOfData) ∧ m.textPart = (m', .error .outOfData) ∧ m.layersPart = (m', .error .outOfData) ∧
      m.properties = (m', .error .outOfData) ∧
      Spec.Says m' m' (.ok p) (.ok s) (.ok t) (.error .value) ∧ m'.schema = some [] ∧ m.document = .ok d ∧ JMsg.parseProps p = .ok d.props := by
  obtain ⟨hw, hg⟩ := written_wrote h
  obtain ⟨p, s, t, ls, props, sch, hc⟩ := wrote_cut hw hg hr hl
  obtain ⟨rfl, d3, hlen⟩ := cut_decode hc hd
  rw [hn, List.length_nil] at hlen
  have hls := List.length_eq_zero_iff.mp hlen
  subst hls
  have he : bs = magic ++ (p ++ (s ++ (t ++ ([] ++ [])))) := hc.eq
  obtain ⟨c1, c2, c3, -⟩ := copy_parts he
  have e1 : (⟨bs, none, none⟩ : JMsg).readAt JMsg.skipSized 4 = .ok ((), 4 + p.length) :=
    readAt_reads (pre := magic) (b := p) (rest := s ++ (t ++ ([] ++ []))) hc.prop.1 he
  have e2 : (⟨bs, none, none⟩ : JMsg).readAt jSchema (4 + p.length) = .ok (sch, 4 + p.length + s.length) := by
    have := readAt_reads (m := ⟨bs, none, none⟩) (pre := magic ++ p) (b := s) (rest := t) hc.schema (by rw [he]; simp)
    simpa [magic, Nat.add_comm, Nat.add_left_comm, Nat.add_assoc] using this
  have e3 : (⟨bs, none, none⟩ : JMsg).readAt JMsg.skipSized (4 + p.length + s.length) = .ok ((), 4 + p.length + s.length + t.length) := by
    have := readAt_reads (m := ⟨bs, none, none⟩) (pre := magic ++ p ++ s) (b := t) (rest := []) hc.text (by rw [he]; simp)
    simpa [magic, Nat.add_comm, Nat.add_left_comm, Nat.add_assoc] using this
  have hbl : bs.length = 4 + p.length + s.length + t.length := by
    rw [he]; simp [magic]; omega
  have e4 : (⟨bs, none, none⟩ : JMsg).readAt JMsg.skipSized (4 + p.length + s.length + t.length) = .error .outOfData := by
    unfold JMsg.readAt
    simp only
    rw [List.drop_of_length_le (by omega)]
    rfl
  have hdet : (⟨bs, none, none⟩ : JMsg).determine = (⟨bs, some (jSchemaOf sch), some ⟨4, 4 + p.length, 4 + p.length, 4 + p.length + s.length,
      4 + p.length + s.length, 4 + p.length + s.length + t.length, 4 + p.length + s.length + t.length, 0⟩⟩, .error .outOfData) := by
    unfold JMsg.determine
    simp only
    rw [if_neg (by omega)]
    simp only [e1, e2, e3, e4]
  have c4 : JMsg.copyOfRange bs (4 + p.length + s.length + t.length) 0 = .error .value := by
    unfold JMsg.copyOfRange
    rw [if_neg (by omega), if_pos (by omega)]
  refine ⟨⟨bs, none, none⟩, ⟨bs, some (jSchemaOf sch), some ⟨4, 4 + p.length, 4 + p.length, 4 + p.length + s.length,
    4 + p.length + s.length, 4 + p.length + s.length + t.length, 4 + p.length + s.length + t.length, 0⟩⟩, p, s, t, ?_, by rw [he]; simp, ?_, ?_, ?_, ?_, ?_, ⟨⟨?_, ?_⟩, ⟨?_, ?_⟩, ⟨?_, ?_⟩, ⟨?_, ?_⟩⟩, ?_, hd, ?_⟩
  · rcases C93_header bs with h | h
    · exact h.2
    · exact absurd ⟨_, he⟩ h.1
  · unfold JMsg.propPart JMsg.withPos; rw [hdet]
  · unfold JMsg.schemaPart JMsg.withPos; rw [hdet]
  · unfold JMsg.textPart JMsg.withPos; rw [hdet]
  · unfold JMsg.layersPart JMsg.withPos; rw [hdet]
  · unfold JMsg.properties JMsg.withPos; rw [hdet]
  · exact congrArg (Prod.mk _) c1
  · exact congrArg (Prod.mk _) c1
  · exact congrArg (Prod.mk _) c2
  · exact congrArg (Prod.mk _) c2
  · exact congrArg (Prod.mk _) c3
  · exact congrArg (Prod.mk _) c3
  · exact congrArg (Prod.mk _) c4
  · exact congrArg (Prod.mk _) c4
  · simp only [d3, Spec.schemaOf, hn, List.map_nil]
  · unfold JMsg.parseProps
    have := hc.prop.2 []
    rw [List.append_nil] at this
    rw [this]

/-- C93. The constructor with four compartments leaves the header out: what it makes of the compartments of a file is no
document, and its bytes are no MsgpackDocument. With the header and one layer it is the document. -/
theorem C93_rebuilt_unreadable {c : Content} {bs : Bytes} (h : Spec.WrittenBy c bs) (hr : JavaReadable c) (hl : bs.length < 2 ^ 31) {d : JDoc} (hd : jDecode bs = .ok d)
    (hn : d.layers ≠ []) {m m' : JMsg} {p s t l : Bytes} (hm : JMsg.ofBytes bs = .ok m) (hsay : Spec.Says m m' (.ok p) (.ok s) (.ok t) (.ok l)) :
    (JMsg.ofParts p s t l).document = .error .io ∧ JMsg.ofBytes (JMsg.ofParts p s t l).data = .error .io ∧
    (d.layers.length = 1 → jDecode (magic ++ (JMsg.ofParts p s t l).data) = .ok d) := by
  obtain ⟨hw, hg⟩ := written_wrote h
  obtain ⟨p1, s1, t1, ls, props, sch, hc⟩ := wrote_cut hw hg hr hl
  have he : bs = magic ++ (p1 ++ (s1 ++ (t1 ++ ls.flatten))) := hc.eq
  rcases C93_header bs with ⟨-, hh⟩ | ⟨hh, -⟩
  rotate_left
  · exact absurd ⟨_, he⟩ hh
  rw [hm] at hh
  have := Except.ok.inj hh
  subst this
  obtain ⟨-, -, hlen⟩ := cut_decode hc hd
  obtain ⟨l1, ls, rfl⟩ : ∃ l ls', ls = l :: ls' := List.exists_cons_of_ne_nil (by
    rintro rfl
    exact hn (List.length_eq_zero_iff.mp hlen.symm))
  have hs1 := says_cut hc
  have ep : p1 = p ∧ s1 = s ∧ t1 = t ∧ l1 = l := by
    have h1 := hsay.props.1
    rw [hs1.props.1] at h1
    have h2 := hsay.schema.1
    rw [hs1.schema.1] at h2
    have h3 := hsay.text.1
    rw [hs1.text.1] at h3
    have h4 := hsay.layers.1
    rw [hs1.layers.1] at h4
    exact ⟨Except.ok.inj (Prod.mk.inj h1).2, Except.ok.inj (Prod.mk.inj h2).2, Except.ok.inj (Prod.mk.inj h3).2, Except.ok.inj (Prod.mk.inj h4).2⟩
  obtain ⟨rfl, rfl, rfl, rfl⟩ := ep
  have hne : ¬ ∃ r, p1 ++ (s1 ++ (t1 ++ l1)) = magic ++ r := by
    rintro ⟨r, hr⟩
    obtain ⟨b, r1, rfl, hb⟩ := hc.head
    have h1 := (List.cons.inj hr).1
    obtain ⟨b', r2, rfl, hb'⟩ := hb h1
    exact hb' (List.cons.inj (List.cons.inj hr).2).1
  have hlen4 : 4 ≤ (p1 ++ (s1 ++ (t1 ++ l1))).length := by
    have := hc.room (by simp)
    simp only [List.length_append]
    omega
  have hne' : (p1 ++ (s1 ++ (t1 ++ l1))).take 4 ≠ magic := by
    intro h4
    exact hne ⟨_, by rw [← h4]; exact (List.take_append_drop 4 _).symm⟩
  refine ⟨?_, ?_, ?_⟩
  · unfold JMsg.document JMsg.ofParts jDecode
    simp only
    rw [if_neg (by omega), if_pos hne']
  · rcases C93_header (JMsg.ofParts p1 s1 t1 l1).data with h | h
    · exact absurd h.1 hne
    · exact h.2
  · intro h1
    rw [← hlen, List.length_cons] at h1
    have hls := List.length_eq_zero_iff.mp (by omega : ls.length = 0)
    subst hls
    have : magic ++ (JMsg.ofParts p1 s1 t1 l1).data = bs := by
      rw [he]; simp [JMsg.ofParts]
    rw [this, hd]

/-- C93. A fault in the file is reported once: after an exception the getters use the positions found so far. -/
theorem C93_error_once {m m' : JMsg} {e : PyErr} (hp : m.pos = none) (hl : 4 ≤ m.data.length) (h : m.determine = (m', .error e)) :
    ∃ q, m'.determine = (m', .ok q) ∧ q.propStart = 4 ∧ q.layersEnd = 0 := by
  have key : ∃ q, m'.pos = some q ∧ q.propStart = 4 ∧ q.layersEnd = 0 := by
    unfold JMsg.determine at h
    rw [hp] at h
    simp only at h
    rw [if_neg (by omega)] at h
    repeat' split at h
    all_goals (have h1 := (Prod.mk.inj h).1; have h2 := (Prod.mk.inj h).2)
    all_goals first | (cases h2; done) | skip
    all_goals (subst h1; exact ⟨_, rfl, rfl, rfl⟩)
  obtain ⟨q, h1, h2, h3⟩ := key
  refine ⟨q, ?_, h2, h3⟩
  unfold JMsg.determine
  rw [h1]

/-! ### examples -/

namespace Ex

/-- the number of layers the decoder reads -/
def jLays (bs : Bytes) : Option Nat := match jDecode bs with
  | .ok d => some d.layers.length
  | .error _ => none

theorem jLays_ok {bs : Bytes} {n : Nat} (h : jLays bs = some n) : ∃ d, jDecode bs = .ok d ∧ d.layers.length = n := by
  unfold jLays at h
  split at h
  · rename_i d hd
    exact ⟨d, hd, Option.some.inj h⟩
  · cases h

theorem bjava_written : ∃ c, Spec.WrittenBy c bjava ∧ JavaReadable c := by
  obtain ⟨c, hc, -, -⟩ := C88_content wjava_reachable wjava_encodable
  exact ⟨c, .python (x := false) (t := true) (w' := (wjava.encodeMsgpack false true).1) wjava_reachable wjava_encodable hc (by rw [← bjava_ok]), C88_readable wjava_reachable wjava_readable hc⟩

/-- an empty Python document -/
def bnone : Bytes := [68, 77, 95, 49, 1, 128, 144, 1, 128]

theorem bnone_written : ∃ c, Spec.WrittenBy c bnone ∧ JavaReadable c := by
  have h1 : Reachable (World.empty.run []) := reachable_run _ (by decide)
  have h2 : Spec.Encodable (World.empty.run []) := Check.doc_ok (by decide)
  obtain ⟨c, hc, -, -⟩ := C88_content h1 h2
  refine ⟨c, .python (x := false) (t := true) (w' := ((World.empty.run []).encodeMsgpack false true).1) h1 h2 hc ?_, C88_readable h1 (pyReadable_ok (by decide +kernel)) hc⟩
  have : ((World.empty.run []).encodeMsgpack false true).2 = .ok bnone := by decide +kernel
  rw [← this]

end Ex

-- C93_compartments_partial, C93_rebuilt_unreadable: the document of the Java library with one layer; its compartments make up the file
example : ∃ m m' p s t l d, JMsg.ofBytes Ex.jbytes = .ok m ∧ Spec.Says m m' (.ok p) (.ok s) (.ok t) (.ok l) ∧ Ex.jbytes = magic ++ (p ++ (s ++ (t ++ l))) ∧
    jDecode Ex.jbytes = .ok d ∧ m.properties = (m', .ok d.props) ∧ d.props = [("lang".toList, .str "en".toList)] ∧
    (JMsg.ofParts p s t l).document = .error .io ∧ jDecode (magic ++ (JMsg.ofParts p s t l).data) = .ok d := by
  have hw : Spec.WrittenBy Ex.jcontent Ex.jbytes := .java Ex.jdoc_sound Ex.jdoc_has Ex.jcontent_good Ex.jbytes_ok
  obtain ⟨d, hd, h1⟩ := Ex.jLays_ok (bs := Ex.jbytes) (n := 1) (by decide +kernel)
  have hl : Ex.jbytes.length < 2 ^ 31 := by decide +kernel
  have hn : d.layers ≠ [] := by intro h; rw [h] at h1; cases h1
  obtain ⟨m, m', p, s, t, l, rest, g1, g2, g3, g4, g5, -⟩ := C93_compartments_partial hw Ex.jcontent_readable hl hd hn
  obtain ⟨q1, -, q2⟩ := C93_rebuilt_unreadable hw Ex.jcontent_readable hl hd hn g1 g2
  have hrest := g4.mpr h1
  subst hrest
  rw [List.append_nil] at g3
  have hp : (match jDecode Ex.jbytes with | .ok d => d.props | .error _ => []) = [("lang".toList, .str "en".toList)] := by decide +kernel
  rw [hd] at hp
  exact ⟨m, m', p, s, t, l, d, g1, g2, g3, hd, g5, hp, q1, q2 h1⟩

/-- C93. The compartments leave out the layers behind the first one. -/
theorem C93_full_false : ¬ C93_full := by
  intro h
  obtain ⟨c, hw, hr⟩ := Ex.bjava_written
  have hl : Ex.bjava.length < 2 ^ 31 := by decide +kernel
  obtain ⟨d, hd, h2⟩ := Ex.jLays_ok (bs := Ex.bjava) (n := 2) (by decide +kernel)
  have hn : d.layers ≠ [] := by intro h; rw [h] at h2; cases h2
  obtain ⟨m, m', p, s, t, l, g1, g2, g3⟩ := h c Ex.bjava hw hr hl
  obtain ⟨m1, m1', p1, s1, t1, l1, rest, f1, f2, f3, f4, -⟩ := C93_compartments_partial hw hr hl hd hn
  rw [g1] at f1
  have := Except.ok.inj f1
  subst this
  have h1 := g2.props.1
  rw [f2.props.1] at h1
  have h3 := g2.schema.1
  rw [f2.schema.1] at h3
  have h4 := g2.text.1
  rw [f2.text.1] at h4
  have h5 := g2.layers.1
  rw [f2.layers.1] at h5
  have e1 := Except.ok.inj (Prod.mk.inj h1).2
  have e2 := Except.ok.inj (Prod.mk.inj h3).2
  have e3 := Except.ok.inj (Prod.mk.inj h4).2
  have e4 := Except.ok.inj (Prod.mk.inj h5).2
  subst e1 e2 e3 e4
  rw [f3] at g3
  have : rest = [] := by
    have := congrArg List.length g3
    simp only [List.length_append] at this
    exact List.length_eq_zero_iff.mp (by omega)
  have := f4.mp this
  omega

-- C93_no_layers, C93_error_once: an empty document
example : ∃ m m', JMsg.ofBytes Ex.bnone = .ok m ∧ m.propPart = (m', .error .outOfData) ∧ m'.propPart = (m', .ok [1, 128]) ∧ m'.layersPart = (m', .error .value) := by
  obtain ⟨c, hw, hr⟩ := Ex.bnone_written
  obtain ⟨d, hd, h0⟩ := Ex.jLays_ok (bs := Ex.bnone) (n := 0) (by decide +kernel)
  obtain ⟨m, m', p, s, t, g1, g2, g3, -, -, -, -, g4, -⟩ := C93_no_layers hw hr (by decide) hd (List.length_eq_zero_iff.mp h0)
  refine ⟨m, m', g1, g3, ?_, g4.layers.1⟩
  rcases C93_header Ex.bnone with ⟨-, h⟩ | ⟨-, h⟩
  · rw [h] at g1
    have := Except.ok.inj g1
    subst this
    have e : m' = (⟨Ex.bnone, none, none⟩ : JMsg).propPart.1 := by rw [g3]
    subst e
    decide +kernel
  · rw [h] at g1; cases g1

end Verif
