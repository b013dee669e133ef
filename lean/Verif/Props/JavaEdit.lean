import Verif.Model.JavaEdit
import Verif.Proof.JavaWire
/-
C86: editing documents of the Java library.
-/
set_option linter.unusedSimpArgs false
namespace Verif
open Spec (JSound)

namespace Spec

/-- spans that are put into fields were made since the document was last encoded; the fields of a schema are distinct, and
so are the arguments of a type -/
def JUses (made : List (Str × JSpan)) : JDOp → Prop
  | .insert _ _ r => ∀ f c p, dget r f = some (.span c p) → (c, p) ∈ made
  | .put _ _ v => ∀ c p, v = .span c p → (c, p) ∈ made
  | .layer _ fields => (dkeys fields).Nodup ∧ ∀ e ∈ fields, (dkeys e.2.args).Nodup
  | _ => True

/-- so it is for all calls -/
def JFresh (s : JDState) : List JDOp → Prop
  | [] => True
  | o :: os => JUses s.made o ∧ JFresh (s.op o) os

end Spec

/-- what holds of a document between calls -/
structure JDInv (s : JDState) : Prop where
  sound : JSound s.doc
  propsOrder : InOrder s.doc.props
  textOrder : InOrder s.doc.texts
  layerOrder : InOrder s.doc.layers
  full : ∀ k L, (k, L) ∈ s.doc.layers → L.storage = L.nodes.map some
  checks : ∀ c t, (c, t) ∈ s.doc.texts → t.validating = true
  made : ∀ c p, (c, p) ∈ s.made → ∃ u, dget s.doc.texts c = some u ∧ SpanOk u p

theorem mem_tput {ν : Type} {d : Dict Str ν} {k : Str} {v : ν} {e : Str × ν} (h : e ∈ tput d k v) : e = (k, v) ∨ e ∈ d := by
  induction d with
  | nil => simp only [tput, List.mem_singleton] at h; exact .inl h
  | cons x d ih =>
    obtain ⟨k', v'⟩ := x
    simp only [tput] at h
    split at h
    · rcases List.mem_cons.mp h with h | h
      · exact .inl h
      · exact .inr (by simp [h])
    · split at h
      · rcases List.mem_cons.mp h with h | h
        · exact .inl h
        · exact .inr h
      · rcases List.mem_cons.mp h with h | h
        · exact .inr (by simp [h])
        · rcases ih h with h | h
          · exact .inl h
          · exact .inr (by simp [h])

theorem mem_dset {ν : Type} {d : Dict Str ν} {k : Str} {v : ν} {e : Str × ν} (h : e ∈ dset d k v) : e = (k, v) ∨ e ∈ d := by
  induction d with
  | nil => simp only [dset, List.mem_singleton] at h; exact .inl h
  | cons x d ih =>
    obtain ⟨k', v'⟩ := x
    simp only [dset] at h
    split at h
    · rename_i hk
      rcases List.mem_cons.mp h with h | h
      · rw [h, hk]; exact .inl rfl
      · exact .inr (by simp [h])
    · rcases List.mem_cons.mp h with h | h
      · exact .inr (by simp [h])
      · rcases ih h with h | h
        · exact .inl h
        · exact .inr (by simp [h])

theorem dkeys_dset_there {ν : Type} {d : Dict Str ν} {k : Str} {v w : ν} (h : dget d k = some w) : dkeys (dset d k v) = dkeys d := by
  rw [dkeys_dset, if_pos ((dget_isSome_iff d k).mp (by rw [h]; rfl))]

theorem tput_nodes (ls : Dict Str JLay) (k : Str) (L : JLay) (h : L.nodes = []) : ((tput ls k L).flatMap (fun e => e.2.nodes)).Sublist (ls.flatMap (fun e => e.2.nodes)) := by
  induction ls with
  | nil => simp [tput, h]
  | cons e ls ih =>
    obtain ⟨k', L'⟩ := e
    simp only [tput]
    split
    · simp only [List.flatMap_cons, h, List.nil_append]
      exact List.sublist_append_right ..
    · split
      · simp only [List.flatMap_cons, h, List.nil_append]
        exact List.Sublist.refl _
      · simp only [List.flatMap_cons]
        exact List.Sublist.append (List.Sublist.refl _) ih

theorem dset_nodes {k : Str} {L L' : JLay} {n : Nat} (hL' : L'.nodes = L.nodes ++ [n]) : ∀ {ls : Dict Str JLay}, dget ls k = some L →
    ((dset ls k L').flatMap (fun e => e.2.nodes)).Perm (n :: ls.flatMap (fun e => e.2.nodes)) := by
  intro ls
  induction ls with
  | nil => intro h; cases h
  | cons e ls ih =>
    obtain ⟨k', M⟩ := e
    intro h
    simp only [dget] at h
    simp only [dset]
    split at h
    · rename_i hk
      cases h
      rw [if_pos hk]
      simp only [List.flatMap_cons, hL', List.append_assoc]
      exact List.perm_middle
    · rename_i hk
      rw [if_neg hk]
      simp only [List.flatMap_cons]
      exact (List.Perm.append_left _ (ih h)).trans List.perm_middle

theorem inOrder_keys {ν μ : Type} {d : Dict Str ν} {e : Dict Str μ} (h : InOrder d) (hk : dkeys e = dkeys d) : InOrder e := by
  unfold InOrder at h ⊢
  rw [hk]; exact h

/-! ### encoding -/

theorem mapE_eq {α β : Type} {f : α → Except PyErr β} {g : α → β} : ∀ {l : List α} {r : List β}, mapE f l = .ok r →
    (∀ x ∈ l, ∀ y, f x = .ok y → y = g x) → r = l.map g := by
  intro l
  induction l with
  | nil => intro r h _; cases h; rfl
  | cons a l ih =>
    intro r h hf
    simp only [mapE] at h
    split at h
    · cases h
    rename_i y hy
    split at h
    · cases h
    rename_i r' hr
    cases h
    rw [List.map_cons, hf a (by simp) y hy, ih hr (fun x hx => hf x (by simp [hx]))]

theorem allSpans_eq {d : JDoc} {l : List (Str × JSpan)} (h : d.allSpans = .ok l) : l = docSpans d := by
  unfold JDoc.allSpans at h
  split at h
  · cases h
  rename_i r hr
  split at h
  · cases h
    unfold docSpans
    congr 1
    refine mapE_eq hr ?_
    rintro ⟨k, L⟩ - y hy
    simp only [JDoc.layerSpans] at hy
    split at hy
    · cases hy
    rename_i fs hfs
    split at hy
    · cases hy
    rename_i q hq
    cases hy
    have e1 : fs = (L.fields.filter (fun e => decide (e.2.name = .span))).map (·.1) := by
      refine mapE_eq hfs ?_
      intro e _ y hy
      split at hy
      · cases hy
      · cases hy; rfl
    simp only
    congr 1
    refine mapE_eq hq ?_
    intro n _ y hy
    unfold JDoc.nodeSpans at hy
    split at hy
    · cases hy
    rename_i z hz
    cases hy
    congr 1
    have := mapE_eq (g := fun f => fspan (dget (d.data n) f)) hz (by
      intro f _ y hy
      unfold JDoc.fieldSpan at hy
      unfold fspan
      split at hy
      · rename_i e; rw [e]; cases hy; rfl
      · rename_i e; rw [e]; cases hy; rfl
      · cases hy
      · cases hy)
    rw [this, e1, List.map_map]
    rfl
  · cases h

/-- what `compile` makes of one text, for a sound document -/
theorem ctext_ok {d : JDoc} (hs : JSound d) {k : Str} {t : JText} (hm : (k, t) ∈ d.texts) :
    JDoc.compileText (docSpans d) (k, t) = .ok (k, ctext (docSpans d) (k, t), cparts (docSpans d) (k, t)) ∧
    JTInv (ctext (docSpans d) (k, t)) ∧ (∀ s, (k, s) ∈ docSpans d → SpanOk (ctext (docSpans d) (k, t)) s) ∧
    (ctext (docSpans d) (k, t)).text = t.text ∧ (ctext (docSpans d) (k, t)).validating = t.validating := by
  have hd := dget_of_mem hs.textKeys hm
  have hlive : ∀ s ∈ JDoc.spansFor k (docSpans d), SpanOk t s := by
    intro s hsp
    obtain ⟨k', L, n, f, ty, m1, m2, m3, m4, m5⟩ := mem_docSpans.mp (mem_spansFor.mp hsp)
    obtain ⟨u, h1, h2⟩ := hs.spans k' L n f ty k s m1 m2 m3 m4 m5
    rw [hd] at h1
    cases h1
    exact h2
  obtain ⟨t', parts, e1, -, -, -, -, e6, e7, e8, e9, -⟩ := C84_compile_any (hs.texts k t hm) hlive
  have c1 : ctext (docSpans d) (k, t) = t' := by simp only [ctext, e1]
  have c2 : cparts (docSpans d) (k, t) = parts := by simp only [cparts, e1]
  rw [c1, c2]
  exact ⟨by simp only [JDoc.compileText, e1], e6, fun s hsp => e7 s (mem_spansFor.mpr hsp), e8, e9⟩

theorem fin_sound' {d : JDoc} (hs : JSound d) : JSound (fin d) := by
  have hk : dkeys (fin d).texts = dkeys d.texts := by simp only [fin]; rw [dkeys_mapk]
  refine ⟨hs.props, by rw [hk]; exact hs.textKeys, hs.layerKeys, hs.fieldKeys, hs.argKeys, ?_, hs.size, hs.once, ?_⟩
  · intro k t hm
    obtain ⟨⟨k', t'⟩, hm', e⟩ := List.mem_map.mp hm
    cases e
    exact (ctext_ok hs hm').2.1
  · intro k L n f t e s m1 m2 m3 m4 m5
    obtain ⟨u, hu, -⟩ := hs.spans k L n f t e s m1 m2 m3 m4 m5
    refine ⟨ctext (docSpans d) (e, u), ?_, ?_⟩
    · simp only [fin]; rw [dget_mapk, hu]; rfl
    · exact (ctext_ok hs (dget_mem hu)).2.2.1 s (mem_docSpans.mpr ⟨k, L, n, f, t, m1, m2, m3, m4, m5⟩)

/-- compaction of layers without holes -/
theorem compactAll_full : ∀ {ls ls' : Dict Str JLay} {ids ids' : Nat → Int}, JDoc.compactAll ls ids = .ok (ls', ids') →
    (∀ e ∈ ls, e.2.storage = e.2.nodes.map some ∧ e.2.size = e.2.nodes.length ∧ e.2.nodes.Nodup) → ∀ e ∈ ls', e.2.storage = e.2.nodes.map some := by
  intro ls
  induction ls with
  | nil => intro ls' ids ids' h _ e he; cases h; simp at he
  | cons x ls ih =>
    intro ls' ids ids' h hf e he
    obtain ⟨k, L⟩ := x
    obtain ⟨f1, f2, f3⟩ := hf (k, L) (by simp)
    simp only at f1 f2 f3
    rw [JDoc.compactAll] at h
    split at h
    · cases h
    rename_i s hs
    split at h
    · cases h
    rename_i r' ids1 hr
    cases h
    rcases List.mem_cons.mp he with rfl | he
    · simp only [JLay.nodes]
      have hw : JLW (⟨L.storage, L.size, ids, fun n => if n ∈ L.nodes then some 0 else none⟩ : JLayer) L.nodes := ⟨rfl, f3, f2, by intro n; simp⟩
      have hc := compact_lay (⟨L.storage, L.size, ids, fun n => if n ∈ L.nodes then some 0 else none⟩ : JLayer) (fun _ => none)
      obtain ⟨c1, c2, ⟨m, c3⟩, -⟩ := compact_ok hw
      simp only at hc
      rw [hs] at hc
      simp only [Prod.mk.injEq] at hc
      have e1 : s.storage = _ := congrArg JLayer.storage hc.1
      simp only at e1
      rw [← e1] at c3
      have hlen : s.storage.length ≤ L.storage.length := by
        rw [e1]
        have := compactLoop_storage L.storage.length 0 0 L.storage ids (by omega) (by omega)
        unfold JLayer.compact
        simp only [this]
        simp only [List.drop_zero, List.take_zero, List.nil_append, Nat.zero_add]
        have e2 : L.storage.filterMap id = L.nodes := rfl
        rw [e2, f1, f2]
        simp only [List.drop_append, List.length_map, List.drop_eq_nil_of_le, List.append_nil]
        repeat' split
        all_goals simp
        all_goals omega
      have hm : m = 0 := by
        rw [c3] at hlen
        rw [f1] at hlen
        simp at hlen
        omega
      rw [hm, List.replicate_zero, List.append_nil] at c3
      rw [c3, filterMap_some]
    · exact ih hr (fun e he => hf e (by simp [he])) e he

theorem inv_encode {s : JDState} (h : JDInv s) : JDInv ⟨s.doc.encode.1, []⟩ := by
  obtain ⟨d, made⟩ := s
  have keep : JDInv ⟨d, []⟩ := ⟨h.sound, h.propsOrder, h.textOrder, h.layerOrder, h.full, h.checks, fun _ _ h => by simp at h⟩
  have hs := h.sound
  simp only at hs
  have hc : d.compile.1 = d ∨ ∃ ls ids, JDoc.compactAll d.layers d.ids = .ok (ls, ids) ∧ ls.map layKey = d.layers.map layKey ∧ d.compile.1 = fin { d with layers := ls, ids := ids } := by
    obtain ⟨ls, ids, h1, h2, -, -⟩ := compactAll_ok d.layers d.ids (fun e he => hs.size e.1 e.2 he) hs.once
    have s1 := compacted_sound hs (ids' := ids) h2
    unfold JDoc.compile
    rw [h1]
    simp only
    split
    · exact .inl rfl
    · rename_i spans hsp
      have := allSpans_eq hsp
      subst this
      refine .inr ⟨ls, ids, rfl, h2, ?_⟩
      rw [mapE_ok (g := fun e => (e.1, ctext (docSpans { d with layers := ls, ids := ids }) e, cparts (docSpans { d with layers := ls, ids := ids }) e))]
      · simp only [List.map_map, Function.comp_def]
        rfl
      · intro e he
        exact (ctext_ok s1 (k := e.1) (t := e.2) he).1
  have he : d.encode.1 = d ∨ d.encode.1 = d.compile.1 := by
    unfold JDoc.encode
    split
    · exact .inl rfl
    · split
      · rename_i e; rw [e]; exact .inr rfl
      · rename_i e; rw [e]; exact .inr rfl
  simp only
  rcases he with he | he
  · rw [he]; exact keep
  rw [he]
  rcases hc with hc | ⟨ls, ids, h1, h2, hc⟩
  · rw [hc]; exact keep
  rw [hc]
  have s1 := compacted_sound hs (ids' := ids) h2
  have ek : dkeys ls = dkeys d.layers := by
    have := congrArg (List.map (·.1)) h2
    simpa [List.map_map, dkeys, layKey, Function.comp_def] using this
  refine ⟨fin_sound' s1, h.propsOrder, ?_, ?_, ?_, ?_, fun _ _ h => by simp at h⟩
  · refine inOrder_keys h.textOrder ?_
    simp only [fin]; rw [dkeys_mapk]
  · exact inOrder_keys h.layerOrder ek
  · intro k L hm
    refine compactAll_full h1 ?_ (k, L) hm
    rintro ⟨k, L⟩ hm
    refine ⟨h.full k L hm, hs.size k L hm, ?_⟩
    have := hs.once
    exact (List.pairwise_flatMap.mp this).1 (k, L) hm
  · intro c t hm
    obtain ⟨⟨k', t'⟩, hm', e⟩ := List.mem_map.mp hm
    cases e
    rw [(ctext_ok s1 hm').2.2.2.2]
    exact h.checks _ _ hm'

theorem add_full {L : JLay} {ids : Nat → Int} {n : Nat} {lay : Nat → Option Nat} (hl : lay n = none) (hf : L.storage = L.nodes.map some) (hs : L.size = L.nodes.length) :
    (⟨L.storage, L.size, ids, lay⟩ : JLayer).add n =
      (⟨L.storage ++ [some n], L.size + 1, JLayer.upd ids n L.storage.length, JLayer.upd lay n (some 0)⟩, .ok ()) := by
  have hlen : L.storage.length = L.nodes.length := by rw [hf, List.length_map]
  unfold JLayer.add
  simp only [hl]
  rw [if_neg (by simp), if_neg (by omega)]

theorem attached_iff {d : JDoc} {n : Nat} : d.attached n = true ↔ n ∈ d.layers.flatMap (fun e => e.2.nodes) := by
  unfold JDoc.attached
  rw [List.any_eq_true]
  simp only [decide_eq_true_eq, List.mem_flatMap]

/-- inserting a new node into a layer without holes -/
theorem insert_full {d : JDoc} {k : Str} {L : JLay} {n : Nat} (r : Dict Str JVal) (hL : dget d.layers k = some L) (hn : d.attached n = false) (hf : L.storage = L.nodes.map some)
    (hs : L.size = L.nodes.length) : d.insert k n r =
      ({ d with
        layers := dset d.layers k { L with storage := L.storage ++ [some n], size := L.size + 1 }
        ids := JLayer.upd d.ids n L.storage.length
        data := fun m => if m = n then r else d.data m }, .ok ()) := by
  unfold JDoc.insert
  rw [hL]
  simp only
  rw [add_full (by simp [hn]) hf hs]

theorem insert_attached {d : JDoc} {k : Str} {n : Nat} (r : Dict Str JVal) (hn : d.attached n = true) : (d.insert k n r).1 = d := by
  unfold JDoc.insert
  split
  · rfl
  · unfold JLayer.add
    simp only [hn, if_true]
    rw [if_pos (by simp)]

/-- fields that hold live spans, after an edit of texts that keeps spans live -/
theorem inv_op {s : JDState} (h : JDInv s) (o : JDOp) (hu : Spec.JUses s.made o) : JDInv (s.op o) := by
  obtain ⟨d, made⟩ := s
  have hs : JSound d := h.sound
  cases o with
  | text name t =>
    simp only [JDState.op, JDoc.addText]
    split
    · exact h
    · rename_i hn
      have hn' : dget d.texts name = none := by simpa using hn
      have hord := inOrder_tput h.textOrder name (JText.new t)
      have old : ∀ {c u}, dget d.texts c = some u → dget (tput d.texts name (JText.new t)) c = some u := by
        intro c u hc
        rw [dget_tput, if_neg]
        · exact hc
        · intro e; subst e; rw [hn'] at hc; cases hc
      refine ⟨⟨hs.props, hord.nodup, hs.layerKeys, hs.fieldKeys, hs.argKeys, ?_, hs.size, hs.once, ?_⟩, h.propsOrder, hord, h.layerOrder, h.full, ?_, ?_⟩
      · intro c u hm
        rcases mem_tput hm with e | e
        · cases e
          exact ⟨by simp [JText.new, dkeys], by simp [JText.new, dget], by simp [JText.new, dget], by simp [JText.new, dget]⟩
        · exact hs.texts c u e
      · intro k L n f ty c p m1 m2 m3 m4 m5
        obtain ⟨u, h1, h2⟩ := hs.spans k L n f ty c p m1 m2 m3 m4 m5
        exact ⟨u, old h1, h2⟩
      · intro c u hm
        rcases mem_tput hm with e | e
        · cases e; rfl
        · exact h.checks c u e
      · intro c p hm
        obtain ⟨u, h1, h2⟩ := h.made c p hm
        exact ⟨u, old h1, h2⟩
  | layer name fields =>
    obtain ⟨hu1, hu2⟩ := hu
    have hord := inOrder_tput h.layerOrder name (⟨tmap fields, [], 0⟩ : JLay)
    refine ⟨⟨hs.props, hs.textKeys, hord.nodup, ?_, ?_, hs.texts, ?_, ?_, ?_⟩, h.propsOrder, h.textOrder, hord, ?_, h.checks, h.made⟩
    · intro k L hm
      rcases mem_tput hm with e | e
      · cases e; exact (inOrder_tmap hu1).nodup
      · exact hs.fieldKeys k L e
    · intro k L f t hm hf
      rcases mem_tput hm with e | e
      · cases e
        exact hu2 (f, t) ((mem_tmap hu1).mp hf)
      · exact hs.argKeys k L f t e hf
    · intro k L hm
      rcases mem_tput hm with e | e
      · cases e; rfl
      · exact hs.size k L e
    · exact (tput_nodes d.layers name ⟨tmap fields, [], 0⟩ rfl).nodup hs.once
    · intro k L n f t c p hm hn
      rcases mem_tput hm with e | e
      · cases e; simp [JLay.nodes] at hn
      · exact hs.spans k L n f t c p e hn
    · intro k L hm
      rcases mem_tput hm with e | e
      · cases e; rfl
      · exact h.full k L e
  | prop k v =>
    have hord := inOrder_tput h.propsOrder k v
    exact ⟨⟨hord.nodup, hs.textKeys, hs.layerKeys, hs.fieldKeys, hs.argKeys, hs.texts, hs.size, hs.once, hs.spans⟩, hord, h.textOrder, h.layerOrder, h.full, h.checks, h.made⟩
  | insert k n r =>
    simp only [JDState.op]
    cases hn : d.attached n with
    | true => rw [insert_attached r hn]; exact h
    | false =>
      cases hL : dget d.layers k with
      | none =>
        have : (d.insert k n r).1 = d := by unfold JDoc.insert; rw [hL]
        rw [this]; exact h
      | some L =>
        have hm := dget_mem hL
        rw [insert_full r hL hn (h.full k L hm) (hs.size k L hm)]
        have hnm : n ∉ d.layers.flatMap (fun e => e.2.nodes) := by
          rw [← attached_iff, hn]; simp
        have hnd : ({ L with storage := L.storage ++ [some n], size := L.size + 1 } : JLay).nodes = L.nodes ++ [n] := by
          simp [JLay.nodes, List.filterMap_append]
        have hperm := dset_nodes hnd hL
        have ek : ∀ L' : JLay, dkeys (dset d.layers k L') = dkeys d.layers := fun L' => dkeys_dset_there hL
        refine ⟨⟨hs.props, hs.textKeys, by rw [ek]; exact hs.layerKeys, ?_, ?_, hs.texts, ?_, ?_, ?_⟩, h.propsOrder, h.textOrder, inOrder_keys h.layerOrder (ek _), ?_, h.checks, h.made⟩
        · intro k' L' hm'
          rcases mem_dset hm' with e | e
          · cases e; exact hs.fieldKeys k L hm
          · exact hs.fieldKeys k' L' e
        · intro k' L' f t hm'
          rcases mem_dset hm' with e | e
          · cases e; exact hs.argKeys k L f t hm
          · exact hs.argKeys k' L' f t e
        · intro k' L' hm'
          rcases mem_dset hm' with e | e
          · cases e
            rw [hnd]
            simp only [hs.size k L hm, List.length_append, List.length_singleton]
            omega
          · exact hs.size k' L' e
        · exact hperm.nodup_iff.mpr (List.nodup_cons.mpr ⟨hnm, hs.once⟩)
        · intro k' L' m f t c p hm' hmn hft hsp hd
          simp only at hd
          split at hd
          · exact h.made c p (hu f c p hd)
          · rename_i hne
            rcases mem_dset hm' with e | e
            · cases e
              rw [hnd] at hmn
              simp only [List.mem_append, List.mem_singleton] at hmn
              rcases hmn with hmn | hmn
              · exact hs.spans k L m f t c p hm hmn hft hsp hd
              · exact absurd hmn hne
            · exact hs.spans k' L' m f t c p e hmn hft hsp hd
        · intro k' L' hm'
          rcases mem_dset hm' with e | e
          · cases e
            rw [hnd, List.map_append, ← h.full k L hm]
            rfl
          · exact h.full k' L' e
  | put n f v =>
    refine ⟨⟨hs.props, hs.textKeys, hs.layerKeys, hs.fieldKeys, hs.argKeys, hs.texts, hs.size, hs.once, ?_⟩, h.propsOrder, h.textOrder, h.layerOrder, h.full, h.checks, h.made⟩
    intro k L m f' t c p m1 m2 m3 m4 hd
    simp only [JDState.op, JDoc.put] at hd
    split at hd
    · rename_i e
      subst e
      rw [dget_tput] at hd
      split at hd
      · exact h.made c p (hu c p (Option.some.inj hd))
      · exact hs.spans k L m f' t c p m1 m2 m3 m4 hd
    · exact hs.spans k L m f' t c p m1 m2 m3 m4 hd
  | span c a b =>
    simp only [JDState.op]
    cases ht : dget d.texts c with
    | none =>
      have : d.span c a b = (d, .error .attribute) := by unfold JDoc.span; rw [ht]
      rw [this]; exact h
    | some t =>
      have hm := dget_mem ht
      have hsp := C84_span (hs.texts c t hm) (h.checks c t hm) a b
      have ek : ∀ t' : JText, dkeys (dset d.texts c t') = dkeys d.texts := fun t' => dkeys_dset_there ht
      split at hsp
      · rename_i hok
        have hne : t.text ≠ [] := by
          intro h0
          rw [h0] at hok
          simp [Spec.spanValid] at hok
          omega
        obtain ⟨t', p, e1, -, -, e4, e5, e6, e7, e8, -⟩ := hsp
        have : d.span c a b = ({ d with texts := dset d.texts c t' }, .ok p) := by unfold JDoc.span; rw [ht]; simp only [e1]
        rw [this]
        have old : ∀ {c' u p'}, dget d.texts c' = some u → SpanOk u p' → ∃ u', dget (dset d.texts c t') c' = some u' ∧ SpanOk u' p' := by
          intro c' u p' hc hl
          rw [dget_dset]
          split
          · rename_i e; subst e; rw [ht] at hc; cases hc; exact ⟨t', rfl, hl.elim (fun hl => .inl (e8 _ hl)) (fun hl => absurd hl.1 hne)⟩
          · exact ⟨u, hc, hl⟩
        refine ⟨⟨hs.props, by rw [ek]; exact hs.textKeys, hs.layerKeys, hs.fieldKeys, hs.argKeys, ?_, hs.size, hs.once, ?_⟩, h.propsOrder, inOrder_keys h.textOrder (ek _), h.layerOrder, h.full, ?_, ?_⟩
        · intro c' u hm'
          rcases mem_dset hm' with e | e
          · cases e; exact e4
          · exact hs.texts c' u e
        · intro k L n f ty c' p' m1 m2 m3 m4 m5
          obtain ⟨u, h1, h2⟩ := hs.spans k L n f ty c' p' m1 m2 m3 m4 m5
          exact old h1 h2
        · intro c' u hm'
          rcases mem_dset hm' with e | e
          · cases e; exact e7
          · exact h.checks c' u e
        · intro c' p' hm'
          rcases List.mem_cons.mp hm' with e | e
          · cases e
            exact ⟨t', by rw [dget_dset]; simp, .inl e5⟩
          · obtain ⟨u, h1, h2⟩ := h.made c' p' e
            exact old h1 h2
      · have : d.span c a b = ({ d with texts := dset d.texts c t }, .error .value) := by unfold JDoc.span; rw [ht]; simp only [hsp]
        rw [this]
        have same : dset d.texts c t = d.texts := by
          clear h this hsp ek hs hm
          generalize d.texts = l at ht
          induction l with
          | nil => cases ht
          | cons e l ih =>
            obtain ⟨k', v⟩ := e
            simp only [dget] at ht
            simp only [dset]
            split at ht
            · rename_i e; cases ht; rw [if_pos e]
            · rename_i e; rw [if_neg e, ih ht]
        simp only [same]
        exact h
  | encode => exact inv_encode h

theorem inv_new : JDInv .new := by
  refine ⟨⟨?_, ?_, ?_, ?_, ?_, ?_, ?_, ?_, ?_⟩, ?_, ?_, ?_, ?_, ?_, ?_⟩ <;> simp [JDState.new, JDoc.new, dkeys, InOrder]

theorem inv_run (os : List JDOp) : ∀ {s : JDState}, JDInv s → Spec.JFresh s os → JDInv (s.run os) := by
  induction os with
  | nil => intro s h _; exact h
  | cons o os ih => intro s h hf; exact ih (inv_op h o hf.1) hf.2

/-- C86. Whatever texts, layers, properties, nodes, fields and spans are made, and however often the document is encoded in
between: if spans are put into fields before the next encoding, the document is sound. -/
theorem C86_sound (os : List JDOp) (hf : Spec.JFresh .new os) : JSound (JDState.new.run os).doc := (inv_run os inv_new hf).sound

/-- C86. Adding a text: one with that name is refused, otherwise it is there and nothing else changes. -/
theorem C86_add_text (d : JDoc) (name : Str) (t : JText) :
    if (dget d.texts name).isSome then d.addText name t = (d, .error .value)
    else (d.addText name t).2 = .ok () ∧ (∀ k, dget (d.addText name t).1.texts k = if name = k then some t else dget d.texts k) ∧
      (d.addText name t).1.layers = d.layers ∧ (d.addText name t).1.data = d.data ∧ (d.addText name t).1.props = d.props := by
  unfold JDoc.addText
  split
  · rfl
  · exact ⟨rfl, fun k => dget_tput .., rfl, rfl, rfl⟩

/-- C86. A new node is put at the end of its layer with its fields; other layers and nodes stay as they are. -/
theorem C86_insert (os : List JDOp) (hf : Spec.JFresh .new os) {d : JDoc} (hd : d = (JDState.new.run os).doc) {k : Str} {L : JLay} (hL : dget d.layers k = some L) {n : Nat}
    (hn : ∀ k' L', dget d.layers k' = some L' → n ∉ L'.nodes) (r : Dict Str JVal) : ∃ d' L', d.insert k n r = (d', .ok ()) ∧ dget d'.layers k = some L' ∧
      L'.nodes = L.nodes ++ [n] ∧ L'.fields = L.fields ∧ (∀ k', k' ≠ k → dget d'.layers k' = dget d.layers k') ∧ d'.data n = r ∧ (∀ m, m ≠ n → d'.data m = d.data m) ∧
      d'.texts = d.texts ∧ d'.props = d.props := by
  have h := inv_run os inv_new hf
  have hm : (k, L) ∈ (JDState.new.run os).doc.layers := by rw [← hd]; exact dget_mem hL
  have hna : d.attached n = false := by
    rw [Bool.eq_false_iff]
    intro ha
    rw [attached_iff, List.mem_flatMap] at ha
    obtain ⟨⟨k', L'⟩, h1, h2⟩ := ha
    exact hn k' L' (dget_of_mem (by rw [hd]; exact h.sound.layerKeys) h1) h2
  refine ⟨_, { L with storage := L.storage ++ [some n], size := L.size + 1 }, insert_full r hL hna (h.full k L hm) (h.sound.size k L hm), by rw [dget_dset, if_pos rfl], ?_, rfl, ?_, by simp, ?_, rfl, rfl⟩
  · simp [JLay.nodes, List.filterMap_append]
  · intro k' hk
    rw [dget_dset, if_neg (fun e => hk e.symm)]
  · intro m hm'
    simp [hm']

/-! ### removing texts -/

namespace Spec

/-- a field of spans of this text -/
def IsSpanOf (name : Str) (t : JType) : Bool := decide (t.name = .span) && decide (dget t.args "context".toList = some (.str name))

end Spec

theorem spanOf_eq {name : Str} {t : JType} {b : Bool} (h : JDoc.spanOf name t = .ok b) : b = Spec.IsSpanOf name t := by
  unfold JDoc.spanOf JType.arg at h
  unfold Spec.IsSpanOf
  split at h
  · rename_i ht
    split at h
    · cases h
    · rename_i c hc
      cases h
      split at hc
      · cases hc
      · rename_i s hs; cases hc; rw [hs]; simp [ht]
      · cases hc
  · rename_i ht; cases h; simp [ht]

theorem filterE_ok {α : Type} {f : α → Except PyErr Bool} {g : α → Bool} : ∀ {l r : List α}, JDoc.filterE f l = .ok r → (∀ a ∈ l, ∀ b, f a = .ok b → b = g a) →
    r = l.filter g := by
  intro l
  induction l with
  | nil => intro r h _; cases h; rfl
  | cons a l ih =>
    intro r h hg
    simp only [JDoc.filterE] at h
    split at h
    · cases h
    rename_i b hb
    split at h
    · cases h
    rename_i r' hr
    cases h
    have e1 := hg a (by simp) b hb
    have e2 := ih hr (fun x hx => hg x (by simp [hx]))
    subst e1 e2
    rw [List.filter_cons]

/-- what is left of the fields -/
def restFields (fs : List (Str × JType)) (m : Dict Str JType) : Dict Str JType := fs.foldl (fun m e => ddel m e.1) m

theorem if_cons_none {α β : Type} {f : Str} {e : Str × β} {fs : List (Str × β)} {x : Option α} :
    (if f ∈ dkeys fs then none else if e.1 = f then none else x) = if f ∈ dkeys (e :: fs) then none else x := by
  have hm : f ∈ dkeys (e :: fs) ↔ f = e.1 ∨ f ∈ dkeys fs := by simp [dkeys]
  by_cases h2 : f ∈ dkeys fs
  · rw [if_pos h2, if_pos (hm.mpr (.inr h2))]
  · rw [if_neg h2]
    by_cases h1 : e.1 = f
    · rw [if_pos h1, if_pos (hm.mpr (.inl h1.symm))]
    · rw [if_neg h1, if_neg (fun h => (hm.mp h).elim (fun e => h1 e.symm) h2)]

theorem flatMap_sub {α β : Type} {f : α → List β} {l l' : List α} (h : l.Sublist l') : (l.flatMap f).Sublist (l'.flatMap f) := by
  induction h with
  | slnil => exact List.Sublist.refl _
  | cons a _ ih => rw [List.flatMap_cons]; exact ih.trans (List.sublist_append_right _ _)
  | cons_cons a _ ih => rw [List.flatMap_cons, List.flatMap_cons]; exact (List.Sublist.refl _).append ih

theorem flatMap_one {α β : Type} {f : α → List β} {x : β} : ∀ {l : List α}, (l.flatMap f).Nodup → ∀ {a b : α}, a ∈ l → b ∈ l → x ∈ f a → x ∈ f b → a = b := by
  intro l
  induction l with
  | nil => intro _ a b ha; cases ha
  | cons c l ih =>
    intro h a b ha hb hxa hxb
    rw [List.flatMap_cons, List.nodup_append] at h
    obtain ⟨_, h2, h3⟩ := h
    rcases List.mem_cons.mp ha with e1 | ha' <;> rcases List.mem_cons.mp hb with e2 | hb'
    · rw [e1, e2]
    · exact absurd rfl (h3 x (e1 ▸ hxa) x (List.mem_flatMap.mpr ⟨_, hb', hxb⟩))
    · exact absurd rfl (h3 x (e2 ▸ hxb) x (List.mem_flatMap.mpr ⟨_, ha', hxa⟩))
    · exact ih h2 ha' hb' hxa hxb

theorem dget_restFields {f : Str} : ∀ {fs : List (Str × JType)} {m : Dict Str JType}, dget (restFields fs m) f = if f ∈ dkeys fs then none else dget m f := by
  intro fs
  induction fs with
  | nil => intro m; simp [restFields, dkeys]
  | cons e fs ih =>
    intro m
    have : restFields (e :: fs) m = restFields fs (ddel m e.1) := rfl
    rw [this, ih, dget_ddel, if_cons_none]

theorem removeFields_layer {k : Str} : ∀ {fs : List (Str × JType)} {d : JDoc} {L : JLay}, dget d.layers k = some L → (dkeys fs).Nodup →
    (∀ e ∈ fs, (dget L.fields e.1).isSome) → ∃ d1, d1 = fs.foldl (fun d e => d.removeField k e.1) d ∧
      dget d1.layers k = some { L with fields := restFields fs L.fields } ∧ (∀ k', k' ≠ k → dget d1.layers k' = dget d.layers k') ∧
      (∀ n ∈ L.nodes, ∀ f, dget (d1.data n) f = if f ∈ dkeys fs then none else dget (d.data n) f) ∧ (∀ n, n ∉ L.nodes → d1.data n = d.data n) ∧
      d1.texts = d.texts ∧ d1.props = d.props ∧ dkeys d1.layers = dkeys d.layers := by
  intro fs
  induction fs with
  | nil => intro d L hL _ _; exact ⟨d, rfl, hL, fun _ _ => rfl, fun n _ f => by simp [dkeys], fun _ _ => rfl, rfl, rfl, rfl⟩
  | cons e fs ih =>
    intro d L hL hn hs
    have hn' := List.nodup_cons.mp hn
    have he := hs e (by simp)
    have hd : d.removeField k e.1 = { d with
        layers := dset d.layers k { L with fields := ddel L.fields e.1 }
        data := fun n => if n ∈ L.nodes then ddel (d.data n) e.1 else d.data n } := by
      unfold JDoc.removeField
      rw [hL]
      simp only [he, if_true]
    obtain ⟨d1, h1, h2, h3, h4, h5, h6, h7, h8⟩ := ih (d := d.removeField k e.1) (L := { L with fields := ddel L.fields e.1 }) (by rw [hd]; simp only; rw [dget_dset, if_pos rfl]) hn'.2 (by
      intro e' he'
      have := hs e' (by simp [he'])
      simp only
      rw [dget_ddel, if_neg]
      · exact this
      · intro ee
        exact hn'.1 (by simp only [dkeys]; rw [ee]; exact List.mem_map_of_mem he'))
    have hnodes : ({ L with fields := ddel L.fields e.1 } : JLay).nodes = L.nodes := rfl
    refine ⟨d1, h1, h2, ?_, ?_, ?_, by rw [h6, hd], by rw [h7, hd], ?_⟩
    · intro k' hk'
      rw [h3 k' hk', hd]
      simp only
      rw [dget_dset, if_neg (fun e => hk' e.symm)]
    · intro n hnn f
      rw [h4 n hnn f, hd]
      simp only [if_pos hnn]
      rw [dget_ddel, if_cons_none]
    · intro n hnn
      rw [h5 n hnn, hd]
      simp only [if_neg hnn]
    · rw [h8, hd]
      simp only
      rw [dkeys_dset_there hL]

/-- what `removeFields` leaves of one layer -/
structure Removed (sel : JType → Bool) (d d' : JDoc) (k : Str) (L : JLay) : Prop where
  there : ∃ L', dget d'.layers k = some L' ∧ L'.nodes = L.nodes ∧ ∀ f, dget L'.fields f = (dget L.fields f).filter (fun t => !sel t)
  data : ∀ n ∈ L.nodes, ∀ f, dget (d'.data n) f = if (dget L.fields f).any sel then none else dget (d.data n) f

theorem filter_key {fs : Dict Str JType} (hn : (dkeys fs).Nodup) {sel : JType → Bool} {f : Str} :
    f ∈ dkeys (fs.filter (fun e => sel e.2)) ↔ (dget fs f).any sel = true := by
  constructor
  · intro h
    obtain ⟨⟨f', t⟩, h1, rfl⟩ := List.mem_map.mp h
    rw [List.mem_filter] at h1
    rw [dget_of_mem hn h1.1]
    simpa using h1.2
  · intro h
    cases hd : dget fs f with
    | none => rw [hd] at h; simp at h
    | some t =>
      rw [hd] at h
      exact List.mem_map.mpr ⟨(f, t), List.mem_filter.mpr ⟨dget_mem hd, by simpa using h⟩, rfl⟩

theorem removeFields_ok {sel : JType → Except PyErr Bool} {g : JType → Bool} (hg : ∀ t b, sel t = .ok b → b = g t) :
    ∀ {ls : List (Str × JLay)} {d d' : JDoc}, d.removeFields sel ls = (d', .ok ()) → (dkeys ls).Nodup → (∀ k L, (k, L) ∈ ls → dget d.layers k = some L ∧ (dkeys L.fields).Nodup) →
      (ls.flatMap (fun e => e.2.nodes)).Nodup →
      (∀ k L, (k, L) ∈ ls → Removed g d d' k L) ∧ (∀ k, k ∉ dkeys ls → dget d'.layers k = dget d.layers k) ∧
      (∀ n, n ∉ ls.flatMap (fun e => e.2.nodes) → d'.data n = d.data n) := by
  intro ls
  induction ls with
  | nil => intro d d' h _ _ _; cases h; exact ⟨by simp, fun _ _ => rfl, fun _ _ => rfl⟩
  | cons e ls ih =>
    intro d d' h hn hL hnn
    obtain ⟨k, L⟩ := e
    have hn' := List.nodup_cons.mp hn
    rw [JDoc.removeFields] at h
    split at h
    · simp at h
    rename_i fs hfs
    have hfs' := filterE_ok (g := fun e : Str × JType => g e.2) hfs (fun a _ b hb => hg a.2 b hb)
    obtain ⟨hLd, hLn⟩ := hL k L (by simp)
    have hsub : (dkeys fs).Nodup := by
      rw [hfs']
      unfold dkeys at hLn ⊢
      exact (List.Sublist.map _ List.filter_sublist).nodup hLn
    obtain ⟨d1, g1, g2, g3, g4, g5, g6, g7, g8⟩ := removeFields_layer hLd hsub (by
      intro e he
      rw [hfs', List.mem_filter] at he
      rw [dget_of_mem hLn he.1]; rfl)
    rw [← g1] at h
    rw [List.flatMap_cons, List.nodup_append] at hnn
    obtain ⟨n1, n2, n3⟩ := hnn
    have hne : ∀ k' L', (k', L') ∈ ls → k' ≠ k := by
      intro k' L' hm e
      subst e
      exact hn'.1 (List.mem_map.mpr ⟨_, hm, rfl⟩)
    obtain ⟨i1, i2, i3⟩ := ih h hn'.2 (fun k' L' hm => ⟨by rw [g3 k' (hne k' L' hm)]; exact (hL k' L' (by simp [hm])).1, (hL k' L' (by simp [hm])).2⟩) n2
    refine ⟨?_, ?_, ?_⟩
    · intro k' L' hm
      rcases List.mem_cons.mp hm with e | hm
      · cases e
        refine ⟨⟨{ L with fields := restFields fs L.fields }, by rw [i2 k hn'.1]; exact g2, rfl, ?_⟩, ?_⟩
        · intro f
          simp only
          rw [dget_restFields, hfs']
          by_cases hf : f ∈ dkeys (L.fields.filter (fun e => g e.2))
          · rw [if_pos hf]
            have := (filter_key hLn).mp hf
            cases hd : dget L.fields f with
            | none => rfl
            | some t =>
              rw [hd] at this
              have h' : _ := this
              rw [Option.any_some] at h'
              rw [Option.filter_some]; simp [h']
          · rw [if_neg hf]
            have := (not_congr (filter_key hLn)).mp hf
            cases hd : dget L.fields f with
            | none => rfl
            | some t =>
              rw [hd] at this
              have h' : _ := this
              rw [Option.any_some] at h'
              rw [Option.filter_some]; simp [h']
        · intro n hnL f
          rw [i3 n (fun hx => n3 n hnL n hx rfl), g4 n hnL f, hfs']
          by_cases hf : f ∈ dkeys (L.fields.filter (fun e => g e.2))
          · rw [if_pos hf, if_pos ((filter_key hLn).mp hf)]
          · rw [if_neg hf, if_neg ((not_congr (filter_key hLn)).mp hf)]
      · have := i1 k' L' hm
        refine ⟨this.there, ?_⟩
        intro n hnL f
        rw [this.data n hnL f, g5 n (fun hx => n3 n hx n (List.mem_flatMap.mpr ⟨_, hm, hnL⟩) rfl)]
    · intro k' hk'
      simp only [dkeys, List.map_cons, List.mem_cons, not_or] at hk'
      rw [i2 k' hk'.2, g3 k' hk'.1]
    · intro n hnx
      rw [List.flatMap_cons, List.mem_append, not_or] at hnx
      rw [i3 n hnx.2, g5 n hnx.1]

theorem removeFields_texts {sel : JType → Except PyErr Bool} : ∀ {ls : List (Str × JLay)} {d : JDoc}, (d.removeFields sel ls).1.texts = d.texts ∧
    (d.removeFields sel ls).1.props = d.props ∧ dkeys (d.removeFields sel ls).1.layers = dkeys d.layers := by
  have one : ∀ (d : JDoc) (k f : Str), (d.removeField k f).texts = d.texts ∧ (d.removeField k f).props = d.props ∧ dkeys (d.removeField k f).layers = dkeys d.layers := by
    intro d k f
    unfold JDoc.removeField
    split
    · exact ⟨rfl, rfl, rfl⟩
    · rename_i L hL
      split
      · exact ⟨rfl, rfl, dkeys_dset_there hL⟩
      · exact ⟨rfl, rfl, rfl⟩
  have many : ∀ (k : Str) (fs : List (Str × JType)) (d : JDoc), (fs.foldl (fun d e => d.removeField k e.1) d).texts = d.texts ∧
      (fs.foldl (fun d e => d.removeField k e.1) d).props = d.props ∧ dkeys (fs.foldl (fun d e => d.removeField k e.1) d).layers = dkeys d.layers := by
    intro k fs
    induction fs with
    | nil => intro d; exact ⟨rfl, rfl, rfl⟩
    | cons e fs ih =>
      intro d
      obtain ⟨a, b, c⟩ := ih (d.removeField k e.1)
      obtain ⟨a', b', c'⟩ := one d k e.1
      exact ⟨a.trans a', b.trans b', c.trans c'⟩
  intro ls
  induction ls with
  | nil => intro d; exact ⟨rfl, rfl, rfl⟩
  | cons e ls ih =>
    intro d
    obtain ⟨k, L⟩ := e
    rw [JDoc.removeFields]
    split
    · exact ⟨rfl, rfl, rfl⟩
    · rename_i fs _
      obtain ⟨a, b, c⟩ := ih (d := fs.foldl (fun d e => d.removeField k e.1) d)
      obtain ⟨a', b', c'⟩ := many k fs d
      exact ⟨a.trans a', b.trans b', c.trans c'⟩

/-- what C86 would say of removing: the text, or the layer, is not in the document any more -/
def C86_remove_full : Prop := (∀ (d d' : JDoc) (name : Str) (b : Bool), d.removeText name b = (d', .ok ()) → dget d'.texts name = none) ∧
  ∀ (d d' : JDoc) (name : Str) (b : Bool), d.removeLayer name b = (d', .ok ()) → dget d'.layers name = none

/-- removing texts or layers leaves every text and layer in the document -/
theorem C86_remove_kept (d : JDoc) (name : Str) (b : Bool) : ((d.removeText name b).1.texts = d.texts ∧ dkeys (d.removeText name b).1.layers = dkeys d.layers) ∧
    (d.removeLayer name b).1.texts = d.texts ∧ dkeys (d.removeLayer name b).1.layers = dkeys d.layers := by
  unfold JDoc.removeText JDoc.removeLayer
  constructor
  · split
    · exact ⟨rfl, rfl⟩
    · split
      · exact ⟨rfl, rfl⟩
      · split
        · exact ⟨removeFields_texts.1, removeFields_texts.2.2⟩
        · exact ⟨rfl, rfl⟩
  · split
    · exact ⟨rfl, rfl⟩
    · split
      · exact ⟨rfl, rfl⟩
      · split
        · exact ⟨removeFields_texts.1, removeFields_texts.2.2⟩
        · exact ⟨rfl, rfl⟩

theorem C86_remove_full_false : ¬ C86_remove_full := by
  intro h
  have := h.1 { JDoc.new with texts := [([], .new [])] } _ [] true rfl
  revert this
  decide

/-- C86. `remove(text, true)` removes from each layer the fields of spans of the text, with their values, and no others. -/
theorem C86_remove_text_partial {d d' : JDoc} (hs : JSound d) {name : Str} (h : d.removeText name true = (d', .ok ())) {k : Str} {L : JLay} (hL : dget d.layers k = some L) :
    (∃ L', dget d'.layers k = some L' ∧ L'.nodes = L.nodes ∧ ∀ f, dget L'.fields f = (dget L.fields f).filter (fun t => !Spec.IsSpanOf name t)) ∧
    ∀ n ∈ L.nodes, ∀ f, dget (d'.data n) f = if (dget L.fields f).any (Spec.IsSpanOf name) then none else dget (d.data n) f := by
  unfold JDoc.removeText at h
  split at h
  · simp at h
  rename_i ls hls
  rw [if_neg (by simp), if_pos rfl] at h
  have hls' := filterE_ok (g := fun e : Str × JLay => decide (e.2.fields.filter (fun f => Spec.IsSpanOf name f.2) ≠ [])) hls (by
    rintro ⟨k, L⟩ - b hb
    simp only [JDoc.anySpanOf] at hb
    split at hb
    · cases hb
    · rename_i l hl
      cases hb
      rw [filterE_ok (g := fun f : Str × JType => Spec.IsSpanOf name f.2) hl (fun a _ b hb => spanOf_eq hb)])
  have hsub : ls.Sublist d.layers := by rw [hls']; exact List.filter_sublist
  have hmem : ∀ k L, (k, L) ∈ ls → (k, L) ∈ d.layers := fun k L hm => hsub.mem hm
  have hmL := dget_mem hL
  obtain ⟨r1, r2, r3⟩ := removeFields_ok (g := Spec.IsSpanOf name) (fun t b hb => spanOf_eq hb) h ((hsub.map _).nodup hs.layerKeys)
    (fun k L hm => ⟨dget_of_mem hs.layerKeys (hmem k L hm), hs.fieldKeys k L (hmem k L hm)⟩) ((flatMap_sub hsub).nodup hs.once)
  by_cases hk : (k, L) ∈ ls
  · exact ⟨(r1 k L hk).there, (r1 k L hk).data⟩
  · have hno : ∀ f, (dget L.fields f).any (Spec.IsSpanOf name) = false := by
      intro f
      rw [Bool.eq_false_iff]
      intro hf
      apply hk
      rw [hls', List.mem_filter]
      refine ⟨hmL, ?_⟩
      rw [decide_eq_true_eq]
      intro he
      have := (filter_key (hs.fieldKeys k L hmL)).mpr hf
      rw [he] at this
      simp [dkeys] at this
    have hkk : k ∉ dkeys ls := by
      intro hm
      obtain ⟨⟨k', L'⟩, hm', rfl⟩ := List.mem_map.mp hm
      have := dget_of_mem hs.layerKeys (hmem _ _ hm')
      rw [hL] at this
      cases this
      exact hk hm'
    refine ⟨⟨L, by rw [r2 k hkk]; exact hL, rfl, ?_⟩, ?_⟩
    · intro f
      have := hno f
      cases hd : dget L.fields f with
      | none => rfl
      | some t =>
              rw [hd] at this
              have h' : _ := this
              rw [Option.any_some] at h'
              rw [Option.filter_some]; simp [h']
    · intro n hn f
      rw [hno f, r3 n]
      · simp
      · intro hx
        obtain ⟨⟨k', L'⟩, hm', hn'⟩ := List.mem_flatMap.mp hx
        have hk' : (k', L') ≠ (k, L) := by rintro e; cases e; exact hk hm'
        exact hk' (flatMap_one hs.once (hmem _ _ hm') hmL hn' hn)

/-- without `fieldcascade`, it is refused if there are such fields -/
theorem C86_remove_text_refused {d d' : JDoc} {name : Str} {k f : Str} {L : JLay} {t : JType} (hL : (k, L) ∈ d.layers) (hf : (f, t) ∈ L.fields)
    (ht : Spec.IsSpanOf name t = true) : d.removeText name false ≠ (d', .ok ()) := by
  intro h
  unfold JDoc.removeText at h
  split at h
  · simp at h
  rename_i ls hls
  have hls' := filterE_ok (g := fun e : Str × JLay => decide (e.2.fields.filter (fun f => Spec.IsSpanOf name f.2) ≠ [])) hls (by
    rintro ⟨k, L⟩ - b hb
    simp only [JDoc.anySpanOf] at hb
    split at hb
    · cases hb
    · rename_i l hl
      cases hb
      rw [filterE_ok (g := fun f : Str × JType => Spec.IsSpanOf name f.2) hl (fun a _ b hb => spanOf_eq hb)])
  rw [if_pos] at h
  · simp at h
  · refine ⟨rfl, ?_⟩
    intro e
    have : (k, L) ∈ ls := by
      rw [hls', List.mem_filter, decide_eq_true_eq]
      refine ⟨hL, fun e => ?_⟩
      have : (f, t) ∈ L.fields.filter (fun f => Spec.IsSpanOf name f.2) := List.mem_filter.mpr ⟨hf, ht⟩
      rw [e] at this
      simp at this
    rw [e] at this
    simp at this

/-! ### validateSchema -/

/-- what C86 would say of `validateSchema()`: it passes just if every field that refers to a text or layer refers to one that
is there -/
def C86_validate_full : Prop := ∀ d : JDoc, (∃ r, d.validateSchema = .ok r) ↔ ∀ k L f t, (k, L) ∈ d.layers → (f, t) ∈ L.fields →
  (t.name = .span → ∃ c u, dget t.args "context".toList = some (.str c) ∧ dget d.texts c = some u) ∧
  (t.name = .node ∨ t.name = .nodeArray ∨ t.name = .nodeSpan → ∃ c M, dget t.args "layer".toList = some (.str c) ∧ dget d.layers c = some M)

theorem mapE_iff {α β : Type} {f : α → Except PyErr β} : ∀ {l : List α}, (∃ r, mapE f l = .ok r) ↔ ∀ a ∈ l, ∃ b, f a = .ok b := by
  intro l
  induction l with
  | nil => exact ⟨fun _ _ h => (by cases h), fun _ => ⟨[], rfl⟩⟩
  | cons a l ih =>
    constructor
    · rintro ⟨r, h⟩ x hx
      simp only [mapE] at h
      split at h
      · cases h
      rename_i y hy
      split at h
      · cases h
      rename_i ys hys
      rcases List.mem_cons.mp hx with rfl | hx
      · exact ⟨y, hy⟩
      · exact ih.mp ⟨ys, hys⟩ x hx
    · intro h
      obtain ⟨b, hb⟩ := h a (by simp)
      obtain ⟨r, hr⟩ := ih.mpr (fun x hx => h x (by simp [hx]))
      exact ⟨b :: r, by simp only [mapE, hb, hr]⟩

theorem arg_iff {t : JType} {k : Str} {P : Str → Prop} : (∃ c, t.arg k = .ok c ∧ P c) ↔ ∃ c, dget t.args k = some (.str c) ∧ P c := by
  unfold JType.arg
  cases h : dget t.args k with
  | none => simp
  | some v => cases v <;> simp

/-- C86. `validateSchema()` passes just if the fields of spans, nodes and node arrays refer to a text or layer of the
document. Fields of node spans are not looked at. -/
theorem C86_validate_partial (d : JDoc) : (∃ r, d.validateSchema = .ok r) ↔ ∀ k L f t, (k, L) ∈ d.layers → (f, t) ∈ L.fields →
    (t.name = .span → ∃ c u, dget t.args "context".toList = some (.str c) ∧ dget d.texts c = some u) ∧
    (t.name = .node ∨ t.name = .nodeArray → ∃ c M, dget t.args "layer".toList = some (.str c) ∧ dget d.layers c = some M) := by
  have field : ∀ t : JType, (∃ b, d.validateField t = .ok b) ↔
      (t.name = .span → ∃ c u, dget t.args "context".toList = some (.str c) ∧ dget d.texts c = some u) ∧
      (t.name = .node ∨ t.name = .nodeArray → ∃ c M, dget t.args "layer".toList = some (.str c) ∧ dget d.layers c = some M) := by
    intro t
    have one : ∀ {α : Type} (k : Str) (m : Dict Str α), (∃ b, (match t.arg k with
        | .error e => .error e
        | .ok c => if (dget m c).isSome then .ok () else .error .data : Except PyErr Unit) = .ok b) ↔ ∃ c u, dget t.args k = some (.str c) ∧ dget m c = some u := by
      intro α k m
      have e := arg_iff (t := t) (k := k) (P := fun c => ∃ u, dget m c = some u)
      simp only [exists_and_left] at e ⊢
      rw [← e]
      cases h : t.arg k with
      | error e => simp
      | ok c => cases h2 : dget m c <;> simp [h2]
    unfold JDoc.validateField
    by_cases h1 : t.name = .span
    · simp only [h1, if_true, true_implies]
      refine Iff.trans (one "context".toList d.texts) ?_
      simp
    · rw [if_neg h1]
      by_cases h2 : t.name = .node ∨ t.name = .nodeArray
      · simp only [if_pos h2]
        refine Iff.trans (one "layer".toList d.layers) ?_
        exact ⟨fun h => ⟨fun e => absurd e h1, fun _ => h⟩, fun h => h.2 h2⟩
      · rw [if_neg h2]
        exact ⟨fun _ => ⟨fun e => absurd e h1, fun e => absurd e h2⟩, fun _ => ⟨(), rfl⟩⟩
  unfold JDoc.validateSchema JDoc.validateLayer
  rw [mapE_iff]
  constructor
  · intro h k L f t hL hf
    exact (field t).mp (mapE_iff.mp (h (k, L) hL) (f, t) hf)
  · rintro h ⟨k, L⟩ hL
    refine mapE_iff.mpr ?_
    rintro ⟨f, t⟩ hf
    exact (field t).mpr (h k L f t hL hf)

theorem C86_validate_full_false : ¬ C86_validate_full := by
  intro h
  have h := (h ((JDoc.new).addSchema [] [([], ⟨.nodeSpan, []⟩)])).mp ⟨[[()]], rfl⟩ [] _ [] _ (List.mem_singleton.mpr rfl) (List.mem_singleton.mpr rfl)
  obtain ⟨c, M, h, -⟩ := h.2 (by decide)
  cases h

end Verif
