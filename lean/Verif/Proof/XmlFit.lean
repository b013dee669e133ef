import Verif.Proof.XmlProper
set_option linter.unusedSimpArgs false
/-
When the tree of an export is one that XML can have (C108).
-/
namespace Verif
open World Spec.XmlText

namespace Spec
namespace XmlText

/-- a string of characters that XML allows -/
def Chars (s : Str) : Prop := ∀ c ∈ s, Spec.Xml.Allowed c

/-- A document that can be written as XML: fields whose values are written as attributes have names that XML allows
for attributes, and all strings that are exported as they are have only characters that XML allows. (Values of
string fields are cleaned, C62.) -/
structure Exportable (w : World) (p : PyStr) (docId : Str) : Prop where
  attrs : ∀ k L f t, (k, L) ∈ w.dl → (f, t) ∈ (w.layers L).fields → t.tname ≠ .span → t.tname ≠ .nodespan →
    t.tname ≠ .noderefMany → ncName f = true ∧ f ≠ "xmlns".toList
  fields : ∀ k L f t, (k, L) ∈ w.dl → (f, t) ∈ (w.layers L).fields → Chars f
  options : ∀ k L f t a v, (k, L) ∈ w.dl → (f, t) ∈ (w.layers L).fields → (a, v) ∈ t.options → Chars a ∧ Chars (p.str v)
  layers : ∀ k L, (k, L) ∈ w.dl → Chars k
  texts : ∀ c T, (c, T) ∈ w.dt → Chars c ∧ Chars (w.texts T).text
  props : ∀ k v, (k, v) ∈ w.props → Chars k ∧ Chars (p.str v)
  floats : ∀ x, Chars (p.float x)
  docId : Chars docId

end XmlText
end Spec

theorem mapE_from {α β : Type} {f : α → Except PyErr β} {l : List α} : ∀ {r}, mapE f l = .ok r → ∀ b ∈ r, ∃ a ∈ l, f a = .ok b := by
  induction l with
  | nil => intro r h b hb; cases h; cases hb
  | cons a l ih =>
    intro r h b hb
    simp only [mapE] at h
    split at h
    · cases h
    · rename_i y hy
      split at h
      · cases h
      · rename_i ys hys
        cases h
        rcases List.mem_cons.mp hb with rfl | hb
        · exact ⟨a, by simp, hy⟩
        · obtain ⟨a', h1, h2⟩ := ih hys b hb
          exact ⟨a', by simp [h1], h2⟩

theorem mem_dset_or {κ ν : Type} [DecidableEq κ] {d : Dict κ ν} {k : κ} {v : ν} {e : κ × ν} (h : e ∈ dset d k v) : e = (k, v) ∨ e ∈ d := by
  induction d with
  | nil => simpa [dset] using h
  | cons x d ih =>
    obtain ⟨a, b⟩ := x
    simp only [dset] at h
    split at h
    · rename_i hk
      rcases List.mem_cons.mp h with h | h
      · exact .inl (by rw [h, hk])
      · exact .inr (by simp [h])
    · rcases List.mem_cons.mp h with h | h
      · exact .inr (by simp [h])
      · exact (ih h).imp id (by intro h; simp [h])

theorem chars_app {a b : Str} (ha : Chars a) (hb : Chars b) : Chars (a ++ b) := by
  intro c hc
  rcases List.mem_append.mp hc with hc | hc
  · exact ha c hc
  · exact hb c hc

theorem chars_lit {s : Str} (h : s.all allowed = true) : Chars s := fun c hc => (allowed_iff c).mp (List.all_eq_true.mp h c hc)

theorem chars_nat (n : Nat) : Chars (natStr n) := by
  intro c hc
  have := natStr_digits hc
  rw [← allowed_iff]
  have h : c.toNat ≥ 48 ∧ c.toNat ≤ 57 := by
    simp only [Char.isDigit, Bool.and_eq_true, decide_eq_true_eq, ge_iff_le, UInt32.le_iff_toNat_le] at this
    exact this
  simp only [allowed, Bool.or_eq_true, Bool.and_eq_true, decide_eq_true_eq]
  omega

theorem chars_int (i : Int) : Chars (intStr i) := by
  unfold intStr
  split
  · exact chars_app (a := ['-']) (chars_lit (by decide)) (chars_nat _)
  · exact chars_nat _

theorem chars_bool (b : Bool) : Chars (boolStr b) := by
  cases b <;> exact chars_lit (by decide)

theorem wire_chars {t : TName} {s : Str} (h : t.wire = .ok s) : Chars s := by
  cases t <;> (first | (simp only [TName.wire] at h; cases h; exact chars_lit (by decide)) | cases h)

theorem fitEl {t : Str} {a : Dict Str Str} {c : List Xml} (h1 : ncName t = true) (h2 : ∀ e ∈ a, AttrName e.1 ∧ Chars e.2)
    (h3 : (dkeys a).Nodup) (h4 : EveryL FitTag c) : Fit (.el t a c) := ⟨⟨h1, h2, h3⟩, h4⟩

theorem everyL_mem {P : Str → Dict Str Str → Prop} : ∀ {l : List Xml}, (∀ x ∈ l, Every P x) → EveryL P l
  | [], _ => trivial
  | x :: xs, h => ⟨h x (by simp), everyL_mem (fun y hy => h y (by simp [hy]))⟩

theorem everyL_append {P : Str → Dict Str Str → Prop} : ∀ {a b : List Xml}, EveryL P a → EveryL P b → EveryL P (a ++ b)
  | [], _, _, h => h
  | _ :: _, _, h, h' => ⟨h.1, everyL_append h.2 h'⟩

theorem everyL_map {α : Type} {P : Str → Dict Str Str → Prop} {l : List α} {g : α → Xml} (h : ∀ a ∈ l, Every P (g a)) : EveryL P (l.map g) :=
  everyL_mem (fun x hx => by obtain ⟨a, ha, rfl⟩ := List.mem_map.mp hx; exact h a ha)

theorem attr_lit {k : Str} (h : ncName k = true) (h' : k ≠ "xmlns".toList) : AttrName k := .inl ⟨h, h'⟩

theorem attrs1 {k v : Str} (h : ncName k = true) (h' : k ≠ "xmlns".toList) (hv : Chars v) :
    ∀ e ∈ [(k, v)], AttrName e.1 ∧ Chars e.2 := by
  intro e he
  simp only [List.mem_singleton] at he
  subst he
  exact ⟨.inl ⟨h, h'⟩, hv⟩

theorem attrs2 {k v k' v' : Str} (h : ncName k = true ∧ k ≠ "xmlns".toList) (hv : Chars v) (h' : ncName k' = true ∧ k' ≠ "xmlns".toList)
    (hv' : Chars v') : ∀ e ∈ [(k, v), (k', v')], AttrName e.1 ∧ Chars e.2 := by
  intro e he
  simp only [List.mem_cons, List.not_mem_nil, or_false] at he
  rcases he with rfl | rfl
  · exact ⟨.inl h, hv⟩
  · exact ⟨.inl h', hv'⟩

theorem attrs3 {k v k' v' k2 v2 : Str} (h : ncName k = true ∧ k ≠ "xmlns".toList) (hv : Chars v)
    (h' : ncName k' = true ∧ k' ≠ "xmlns".toList) (hv' : Chars v') (h2 : ncName k2 = true ∧ k2 ≠ "xmlns".toList) (hv2 : Chars v2) :
    ∀ e ∈ [(k, v), (k', v'), (k2, v2)], AttrName e.1 ∧ Chars e.2 := by
  intro e he
  simp only [List.mem_cons, List.not_mem_nil, or_false] at he
  rcases he with rfl | rfl | rfl
  · exact ⟨.inl h, hv⟩
  · exact ⟨.inl h', hv'⟩
  · exact ⟨.inl h2, hv2⟩

/-! ### nodes -/

/-- a value of the intermediate form that gives allowed strings -/
def ValFit (w : World) (e : Str × XVal) : Prop := Chars e.1 ∧
  match e.2 with
  | .str s => ncName e.1 = true ∧ e.1 ≠ "xmlns".toList ∧ Chars s
  | .list l => ∀ s ∈ l, Chars s
  | .nodespan l _ => ∀ k, w.collName l = some k → Chars k
  | _ => True

/-- what is collected of a node gives allowed elements -/
structure EntriesFit (x : XEntries) : Prop where
  simple : ∀ e ∈ x.simple, AttrName e.1 ∧ Chars e.2
  keys : (dkeys x.simple).Nodup
  embedded : EveryL FitTag x.embedded
  arrays : ∀ e ∈ x.arrays, Chars e.1 ∧ ∀ s ∈ e.2, Chars s

theorem xmlEntry_fit {w : World} {vs : Bool} {x y : XEntries} {e : Str × XVal} (h : w.xmlEntry vs x e = .ok y) (hx : EntriesFit x)
    (he : ValFit w e) : EntriesFit y := by
  obtain ⟨hf, he⟩ := he
  unfold xmlEntry at h
  split at h
  · split at h
    · split at h
      · cases h
      · cases h
        refine ⟨hx.simple, hx.keys, everyL_append hx.embedded ⟨fitEl (by decide) ?_ (by simp [dkeys]) trivial, trivial⟩, hx.arrays⟩
        exact attrs3 (by decide) hf (by decide) (chars_nat _) (by decide) (chars_nat _)
    · cases h
  · cases h
  · split at h
    · cases h
    · rename_i k hk
      split at h
      · cases h
        have hk' := he k hk
        have hc : ∀ i : Int, Chars (k ++ ".".toList ++ intStr i) := fun i => chars_app (chars_app hk' (chars_lit (by decide))) (chars_int i)
        refine ⟨hx.simple, hx.keys, everyL_append hx.embedded ⟨fitEl (by decide) ?_ (by simp [dkeys]) trivial, trivial⟩, hx.arrays⟩
        exact attrs3 (by decide) hf (by decide) (hc _) (by decide) (hc _)
      · cases h
      · cases h
  · cases h
    refine ⟨hx.simple, hx.keys, hx.embedded, fun e hm => ?_⟩
    rcases mem_dset_or hm with rfl | hm
    · exact ⟨hf, he⟩
    · exact hx.arrays e hm
  · cases h
    refine ⟨fun e hm => ?_, nodup_dset hx.keys _ _, hx.embedded, hx.arrays⟩
    rcases mem_dset_or hm with rfl | hm
    · exact ⟨.inl ⟨he.1, he.2.1⟩, he.2.2⟩
    · exact hx.simple e hm
  · cases h

theorem xmlEntries_fit {w : World} {vs : Bool} (l : List (Str × XVal)) : ∀ {x y : XEntries}, w.xmlEntries vs x l = .ok y →
    EntriesFit x → (∀ e ∈ l, ValFit w e) → EntriesFit y := by
  induction l with
  | nil => intro x y h hx _; simp [xmlEntries] at h; subst h; exact hx
  | cons e l ih =>
    intro x y h hx hl
    simp only [xmlEntries] at h
    split at h
    · cases h
    · exact ih h (xmlEntry_fit ‹_› hx (hl e (by simp))) (fun e he => hl e (by simp [he]))

theorem xmlNodeEl_fit {w : World} {vs : Bool} {ident : Str} {l : List (Str × XVal)} {x : Xml} (h : w.xmlNodeEl vs ident l = .ok x)
    (hi : Chars ident) (hl : ∀ e ∈ l, ValFit w e) : Fit x := by
  unfold xmlNodeEl at h
  split at h
  · cases h
  · rename_i y hy
    cases h
    have hf := xmlEntries_fit l hy ⟨by simp, by simp [dkeys], trivial, by simp⟩ hl
    refine fitEl (by decide) (fun e hm => ?_) (nodup_dset hf.keys _ _) (everyL_append hf.embedded (everyL_map (fun a ha => ?_)))
    · rcases mem_dset_or hm with rfl | hm
      · exact ⟨.inr rfl, hi⟩
      · exact hf.simple e hm
    · obtain ⟨h1, h2⟩ := hf.arrays a ha
      refine fitEl (by decide) (attrs1 (by decide) (by decide) h1) (by simp [dkeys]) (everyL_map (fun s hs => ?_))
      exact fitEl (by decide) (attrs1 (by decide) (by decide) (h2 s hs)) (by simp [dkeys]) trivial

theorem xmlNodeEls_fit {w : World} {vs : Bool} {pre : Str} (hp : Chars pre) (l : List (List (Str × XVal))) : ∀ {b xs},
    w.xmlNodeEls vs pre b l = .ok xs → (∀ vs ∈ l, ∀ e ∈ vs, ValFit w e) → EveryL FitTag xs := by
  induction l with
  | nil => intro b xs h _; simp [xmlNodeEls] at h; subst h; trivial
  | cons e l ih =>
    intro b xs h hl
    simp only [xmlNodeEls] at h
    split at h
    · cases h
    · split at h
      · cases h
      · cases h
        exact ⟨xmlNodeEl_fit ‹_› (chars_app (chars_app hp (chars_lit (by decide))) (chars_nat _)) (hl e (by simp)),
          ih ‹_› (fun v hv => hl v (by simp [hv]))⟩

theorem xmlCell_fit {w : World} {p : PyStr} (hp : ∀ x, Chars (p.float x)) {idx : Dict Int Nat} {tn : TName} {v : Value} {x : XVal}
    (h : w.xmlCell p idx tn v = .ok x) {f : Str} (hf : Chars f) (hn : tn ≠ .span → tn ≠ .nodespan → tn ≠ .noderefMany →
      ncName f = true ∧ f ≠ "xmlns".toList) (hs : ∀ l r k, v = .nodespan l r → w.collName l = some k → Chars k) : ValFit w (f, x) := by
  refine ⟨hf, ?_⟩
  unfold xmlCell at h
  split at h <;> first | cases h | skip
  · exact ⟨(hn (by decide) (by decide) (by decide)).1, (hn (by decide) (by decide) (by decide)).2, chars_int _⟩
  · exact ⟨(hn (by decide) (by decide) (by decide)).1, (hn (by decide) (by decide) (by decide)).2, chars_int _⟩
  · exact ⟨(hn (by decide) (by decide) (by decide)).1, (hn (by decide) (by decide) (by decide)).2, chars_int _⟩
  · exact ⟨(hn (by decide) (by decide) (by decide)).1, (hn (by decide) (by decide) (by decide)).2, chars_int _⟩
  · exact ⟨(hn (by decide) (by decide) (by decide)).1, (hn (by decide) (by decide) (by decide)).2, hp _⟩
  · exact ⟨(hn (by decide) (by decide) (by decide)).1, (hn (by decide) (by decide) (by decide)).2, chars_bool _⟩
  · exact ⟨(hn (by decide) (by decide) (by decide)).1, (hn (by decide) (by decide) (by decide)).2, C62_allowed _⟩
  · trivial
  · exact ⟨(hn (by decide) (by decide) (by decide)).1, (hn (by decide) (by decide) (by decide)).2, chars_int _⟩
  · intro s hs'
    obtain ⟨n, -, rfl⟩ := List.mem_map.mp hs'
    exact chars_int _
  · exact fun k hk => hs _ _ k rfl hk
  · trivial
  · trivial
  · trivial

/-! ### the document -/

theorem xmlNode_fit {w : World} {p : PyStr} (hp : ∀ x, Chars (p.float x)) {fs : List (Str × XField)} {n : NodeId} {vs : List (Str × XVal)}
    (h : w.xmlNode p fs (some n) = .ok vs) (hf : ∀ e ∈ fs, Chars e.1 ∧ (e.2.tname ≠ .span → e.2.tname ≠ .nodespan →
      e.2.tname ≠ .noderefMany → ncName e.1 = true ∧ e.1 ≠ "xmlns".toList))
    (hs : ∀ e ∈ fs, ∀ l r k, dget (w.nodes n).fields e.1 = some (.nodespan l r) → w.collName l = some k → Chars k) :
    ∀ e ∈ vs, ValFit w e := by
  simp only [xmlNode] at h
  split at h
  · cases h
  · rename_i ll hll
    cases h
    intro e he
    obtain ⟨vs, hvs, he⟩ := List.mem_flatten.mp he
    obtain ⟨a, ha, h1⟩ := mapE_from hll vs hvs
    split at h1
    · cases h1; cases he
    · rename_i hne
      split at h1
      · rename_i x hx
        cases h1
        simp only [List.mem_singleton] at he
        subst he
        refine xmlCell_fit hp hx (hf a ha).1 (hf a ha).2 (fun l r k hv hk => hs a ha l r k ?_ hk)
        cases hg : dget (w.nodes n).fields a.1 with
        | none => rw [hg] at hv; cases hv
        | some v => rw [hg] at hv; simp only [Option.getD_some] at hv; rw [hv]
      · cases h1

theorem xmlField_from {offs : Dict Str (List Int)} {e : Str × DataType} {r : Str × XField} (h : xmlField offs e = .ok r) :
    r.1 = e.1 ∧ r.2.tname = e.2.tname ∧ r.2.args = e.2.options ∧ Chars r.2.type := by
  unfold xmlField at h
  split at h
  · cases h
  · rename_i s hs
    split at h
    · cases h
    · split at h
      · cases h
      · cases h; exact ⟨rfl, rfl, rfl, wire_chars hs⟩

theorem compile_chars {t : TextObj} (h : Chars t.text) : ∀ l : List Int, ∀ s ∈ t.compile l, Chars s
  | [], s, hs => by simp [TextObj.compile] at hs
  | [_], s, hs => by simp [TextObj.compile] at hs
  | a :: b :: rest, s, hs => by
    simp only [TextObj.compile, List.mem_cons] at hs
    rcases hs with rfl | hs
    · exact fun c hc => h c (pySlice_mem hc)
    · exact compile_chars h (b :: rest) s hs

theorem mem_dupdate_or {κ ν : Type} [DecidableEq κ] {l : Dict κ ν} : ∀ {d : Dict κ ν} {e : κ × ν}, e ∈ dupdate d l → e ∈ l ∨ e ∈ d := by
  induction l with
  | nil => intro d e h; exact .inr h
  | cons x l ih =>
    intro d e h
    rcases ih (d := dset d x.1 x.2) h with h | h
    · exact .inl (by simp [h])
    · rcases mem_dset_or h with rfl | h
      · exact .inl (by simp)
      · exact .inr h

theorem xmlSegs_fit (verbose : Bool) (l : List Str) : ∀ i pos, (∀ s ∈ l, Chars s) → EveryL FitTag (xmlSegs verbose i pos l) := by
  induction l with
  | nil => intro i pos _; trivial
  | cons s l ih =>
    intro i pos h
    refine ⟨?_, ih _ _ (fun t ht => h t (by simp [ht]))⟩
    have hs := h s (by simp)
    cases verbose with
    | false => exact fitEl (by decide) (attrs1 (by decide) (by decide) hs) (by simp [dkeys]) trivial
    | true =>
      refine fitEl (by decide) ?_ (by simp [dkeys]) trivial
      simp only [if_true, List.mem_cons, List.not_mem_nil, or_false]
      rintro e (rfl | rfl | rfl | rfl)
      · exact ⟨attr_lit (k := "v".toList) (by decide) (by decide), hs⟩
      · exact ⟨attr_lit (k := "id".toList) (by decide) (by decide), chars_nat _⟩
      · exact ⟨attr_lit (k := "start".toList) (by decide) (by decide), chars_nat _⟩
      · exact ⟨attr_lit (k := "stop".toList) (by decide) (by decide), chars_nat _⟩

/-- **the tree of an export**: whatever export succeeds, of a document that can be written as XML, the tree is one
that XML can have -/
theorem xmlTree_fit {w w' : World} (h : Reachable w) {p : PyStr} {verbose vs : Bool} {docId : Str} {x t : Bool} {e : Xml}
    (he : w.xmlTree p verbose vs docId x t = (w', .ok e)) (hx : Exportable w p docId)
    (hspan : ∀ k L n f l r s, (k, L) ∈ w.dl → some n ∈ w.iter L → dget (w.nodes n).fields f = some (.nodespan l r) →
      w.collName l = some s → Chars s) : Fit e := by
  unfold xmlTree at he
  split at he
  · cases he
  · rename_i w1 offs hc
    split at he
    · cases he
    · rename_i texts ls hin
      have hb : w1.xmlBuild p verbose vs docId texts ls = .ok e := (Prod.mk.inj he).2
      have so := C28_compile_pure h x t
      rw [hc] at so
      obtain ⟨sdl, sdt, stexts, sprops, sattrs, siter, snode, -⟩ := so
      simp only at sdl sdt stexts sprops sattrs siter snode
      unfold xmlInter at hin
      split at hin
      · cases hin
      · rename_i tt htt
        split at hin
        · cases hin
        · rename_i ls' hls
          cases hin
          -- texts
          have ht : ∀ e ∈ texts, Chars e.1 ∧ ∀ s ∈ e.2, Chars s := by
            unfold encodeTexts at htt
            split at htt
            · cases htt
            · rename_i tl htl
              cases htt
              intro e hm
              rcases mem_dupdate_or hm with hm | hm
              · obtain ⟨⟨c, T⟩, ha, h1⟩ := mapE_from htl e hm
                rw [sdt] at ha
                obtain ⟨k1, k2⟩ := hx.texts c T ha
                split at h1
                · cases h1
                  have := (h.wf.dtName c T (dget_of_mem h.wf.dtKeys ha)).1
                  rw [stexts]
                  refine ⟨by simp only [this]; exact k1, compile_chars k2 _⟩
                · cases h1
              · cases hm
          -- layers
          have hl : ∀ e ∈ ls, Chars e.1 ∧ (∀ f ∈ e.2.1, Chars f.1 ∧ Chars f.2.type ∧ ∀ a ∈ f.2.args, Chars a.1 ∧ Chars (p.str a.2)) ∧
              ∀ vs ∈ e.2.2, ∀ v ∈ vs, ValFit w1 v := by
            intro e hm
            obtain ⟨⟨k, L⟩, ha, h1⟩ := mapE_from hls e hm
            rw [sdl] at ha
            unfold xmlLayer at h1
            split at h1
            · cases h1
            · rename_i fs hfs
              split at h1
              · cases h1
              · rename_i ns hns
                cases h1
                have hfs' : ∀ f ∈ fs, ∃ t, (f.1, t) ∈ (w.layers L).fields ∧ f.2.tname = t.tname ∧ f.2.args = t.options ∧ Chars f.2.type := by
                  intro f hf
                  obtain ⟨⟨g, t⟩, hg, h2⟩ := mapE_from hfs f hf
                  obtain ⟨a1, a2, a3, a4⟩ := xmlField_from h2
                  simp only at hg
                  rw [(sattrs L).2.1] at hg
                  exact ⟨t, by rw [a1]; exact hg, a2, a3, a4⟩
                refine ⟨hx.layers k L ha, fun f hf => ?_, fun vs' hvs => ?_⟩
                · obtain ⟨t, b1, b2, b3, b4⟩ := hfs' f hf
                  exact ⟨hx.fields k L f.1 t ha b1, b4, fun a hm => hx.options k L f.1 t a.1 a.2 ha b1 (by rw [← b3]; exact hm)⟩
                · obtain ⟨n, hn, h2⟩ := mapE_from hns vs' hvs
                  cases n with
                  | none => cases h2
                  | some n =>
                    refine xmlNode_fit hx.floats h2 (fun f hf => ?_) (fun f hf l r s hv hk => ?_)
                    · obtain ⟨t, b1, b2, b3, b4⟩ := hfs' f hf
                      exact ⟨hx.fields k L f.1 t ha b1, fun c1 c2 c3 => hx.attrs k L f.1 t ha b1 (b2 ▸ c1) (b2 ▸ c2) (b2 ▸ c3)⟩
                    · refine hspan k L n f.1 l r s ha ?_ (by rw [← (snode n).1]; exact hv) ?_
                      · rw [← (siter L).1]; exact hn
                      · simp only [collName, (snode l).2] at hk ⊢
                        rw [← hk]
                        cases (w.nodes l).coll with
                        | none => rfl
                        | some K => simp only [Option.map_some, (sattrs K).1]
          have hpre : Chars (if docId = [] then [] else docId ++ ".".toList) := by
            split
            · exact chars_lit (by decide)
            · exact chars_app hx.docId (chars_lit (by decide))
          unfold xmlBuild at hb
          split at hb
          · cases hb
          · rename_i lels hle
            cases hb
            refine fitEl (by decide) ?_ ?_ ⟨?_, ?_, ?_, ?_, trivial⟩
            · intro e hm
              split at hm
              · cases hm
              · simp only [List.mem_singleton] at hm
                subst hm
                exact ⟨.inr rfl, hx.docId⟩
            · split <;> simp [dkeys]
            · refine fitEl (by decide) (by simp) (by simp [dkeys]) (everyL_map (fun a ha => ?_))
              rw [sprops] at ha
              obtain ⟨h1, h2⟩ := hx.props a.1 a.2 ha
              exact fitEl (by decide) (attrs2 (by decide) h1 (by decide) h2) (by simp [dkeys]) trivial
            · refine fitEl (by decide) (by simp) (by simp [dkeys]) (everyL_map (fun a ha => ?_))
              obtain ⟨h1, h2, -⟩ := hl a ha
              refine fitEl (by decide) (attrs1 (by decide) (by decide) h1) (by simp [dkeys]) (everyL_map (fun f hf => ?_))
              obtain ⟨k1, k2, k3⟩ := h2 f hf
              refine fitEl (by decide) (attrs2 (by decide) k1 (by decide) k2) (by simp [dkeys]) (everyL_map (fun a ha => ?_))
              exact fitEl (by decide) (attrs2 (by decide) (k3 a ha).1 (by decide) (k3 a ha).2) (by simp [dkeys]) trivial
            · refine fitEl (by decide) (by simp) (by simp [dkeys]) (everyL_map (fun a ha => ?_))
              obtain ⟨h1, h2⟩ := ht a ha
              refine fitEl (by decide) (attrs1 (by decide) (by decide) h1) (by simp [dkeys]) ⟨?_, ?_⟩
              · exact fitEl (by decide) (by simp) (by simp [dkeys]) (xmlSegs_fit _ _ _ _ h2)
              · split
                · refine ⟨fitEl (by decide) (attrs1 (by decide) (by decide) ?_) (by simp [dkeys]) trivial, trivial⟩
                  intro c hc
                  obtain ⟨s, hs, hc⟩ := List.mem_flatten.mp hc
                  exact h2 s hs c hc
                · trivial
            · refine fitEl (by decide) (by simp) (by simp [dkeys]) (everyL_mem (fun y hy => ?_))
              obtain ⟨a, ha, h1⟩ := mapE_from hle y hy
              obtain ⟨k1, -, k3⟩ := hl a ha
              unfold xmlLayerEl at h1
              split at h1
              · cases h1
              · rename_i ns hns
                cases h1
                exact fitEl (by decide) (attrs1 (by decide) (by decide) k1) (by simp [dkeys])
                  (xmlNodeEls_fit (chars_app hpre k1) _ hns k3)

end Verif
