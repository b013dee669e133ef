import Verif.Proof.DocRound
/-
Two observably equal documents encode alike.
-/
set_option linter.unusedSimpArgs false
namespace Verif
open World

theorem SameObs.used {w w1 : World} (s : SameObs w w1) (hi : Inv w) (hi1 : Inv w1) {c y} :
    Spec.UsedOffset w1 c y ↔ Spec.UsedOffset w c y := by
  unfold Spec.UsedOffset
  constructor
  · rintro ⟨k, L, f, t, n, T, a, b, h1, h2, h3, h4, h5, h6, h7⟩
    rw [s.dl] at h1; rw [(s.attrs L).2.1] at h2; rw [World.SameObs.iter s hi hi1] at h5; rw [(s.node n).2] at h6
    exact ⟨k, L, f, t, n, T, a, b, h1, h2, h3, h4, h5, h6, h7⟩
  · rintro ⟨k, L, f, t, n, T, a, b, h1, h2, h3, h4, h5, h6, h7⟩
    refine ⟨k, L, f, t, n, T, a, b, by rw [s.dl]; exact h1, by rw [(s.attrs L).2.1]; exact h2, h3, h4,
      by rw [World.SameObs.iter s hi hi1]; exact h5, by rw [(s.node n).2]; exact h6, h7⟩

theorem Encodable.used {w : World} (he : Spec.Encodable w) {c y T} (hT : dget w.dt c = some T) (hu : Spec.UsedOffset w c y) :
    0 ≤ y ∧ y ≤ (w.texts T).text.length := by
  obtain ⟨k, L, f, t, n, T', a, b, h1, h2, h3, h4, h5, h6, h7⟩ := hu
  have := he.cells k L n f t _ h1 h5 h2 h6
  cases this with
  | span e1 e2 e3 e4 e5 e6 =>
    rw [h4] at e2; cases e2
    rw [hT] at e3; cases e3
    rcases h7 with rfl | rfl <;> omega

/-- A valid document compiles to one ready to be encoded. -/
theorem ready_of {w : World} (hi : Inv w) (hw : WF w) (he : Spec.Encodable w) (x t : Bool) :
    ∃ w1 offs, w.compile x t = (w1, .ok offs) ∧ SameObs w w1 ∧ Ready w1 offs := by
  obtain ⟨w1, offs, hc, i1, w1f, so, hcmp⟩ := compile_encodable hi hw he x t
  refine ⟨w1, offs, hc, so, i1, w1f, SameObs.encodable so hi i1 he, hcmp, ?_⟩
  intro c T hT
  rw [so.dt] at hT
  obtain ⟨l, h1, h2, h3⟩ := compile_offsets hi (Encodable.complete he) x t hc c T hT
  obtain ⟨l', h1', h4, h5⟩ := compile_ends hi (Encodable.complete he) x t hc c T hT (fun y hy => Encodable.used he hT hy)
  rw [h1] at h1'; cases h1'
  refine ⟨l, h1, h2, h4, by rw [so.texts]; exact h5, fun y => ?_⟩
  rw [SameObs.used so hi i1, so.texts]; exact h3 y

theorem SameObs.sameDoc {w w1 w2 : World} (s : SameObs w w1) (hi : Inv w) (hi1 : Inv w1) (h : Spec.SameDoc w1 w2) :
    Spec.SameDoc w w2 where
  props := by rw [h.props, s.props]
  texts := by rw [h.texts, s.dt, s.texts]
  layers := by rw [h.layers, s.dl]
  schema k L L' h1 h2 := by rw [h.schema k L L' (by rw [s.dl]; exact h1) h2, (s.attrs L).2.1]
  count k L L' h1 h2 := by rw [h.count k L L' (by rw [s.dl]; exact h1) h2, World.SameObs.iter s hi hi1]
  cells k L i n n' f t h1 h2 h3 h4 := by
    have := h.cells k L i n n' f t (by rw [s.dl]; exact h1) ((SameObs.at s hi hi1).mpr h2) h3 (by rw [(s.attrs L).2.1]; exact h4)
    rw [(s.node n).2] at this
    have hn : ∀ {a b}, Spec.SameNode w1 w2 a b → Spec.SameNode w w2 a b := by
      rintro a b ⟨k, i, h1, h2⟩
      exact ⟨k, i, (SameObs.at s hi hi1).mp h1, h2⟩
    generalize dget (w.nodes n).fields f = v at *
    generalize dget (w2.nodes n').fields f = v' at *
    cases this with
    | unset => exact .unset
    | null => exact .null
    | empty => exact .empty
    | int => exact .int
    | intBool a => exact .intBool a
    | float => exact .float
    | bool a => exact .bool a
    | str => exact .str
    | bytes => exact .bytes
    | node a => exact .node (hn a)
    | nodes a b c => exact .nodes a b (fun j n n' h1 h2 => hn (c j n n' h1 h2))
    | nodespan a b => exact .nodespan (hn a) (hn b)
    | span a =>
      obtain ⟨c, h1, h2⟩ := a
      exact .span ⟨c, by rw [s.dt] at h1; exact h1, h2⟩
  only k L i n' f h1 h2 h3 := by
    have := h.only k L i n' f (by rw [s.dl]; exact h1) h2 h3
    rw [(s.attrs L).2.1] at this; exact this

/-! ### at most one place -/

theorem At.unique {w : World} (hi : Inv w) (hw : WF w) {s s' i i' n} (h : Spec.At w s i n) (h' : Spec.At w s' i' n) :
    s = s' ∧ i = i' := by
  obtain ⟨L, a1, a2⟩ := (At.iff hi).mp h
  obtain ⟨L', b1, b2⟩ := (At.iff hi).mp h'
  have c1 := (hi.mem_iff L n).mp (List.mem_of_getElem? a2)
  have c2 := (hi.mem_iff L' n).mp (List.mem_of_getElem? b2)
  rw [c1] at c2; cases c2
  refine ⟨(hw.dlName _ _ a1).1.symm.trans (hw.dlName _ _ b1).1, ?_⟩
  obtain ⟨h1, e1⟩ := List.getElem?_eq_some_iff.mp a2
  obtain ⟨h2, e2⟩ := List.getElem?_eq_some_iff.mp b2
  have hnd := List.pairwise_iff_getElem.mp (hi.nodup L)
  rcases Nat.lt_trichotomy i i' with h3 | h3 | h3
  · exact absurd (e1.trans e2.symm) (hnd i i' h1 h2 h3)
  · exact h3
  · exact absurd (e2.trans e1.symm) (hnd i' i h2 h1 h3)

theorem At.functional {w : World} {s i n n'} (h : Spec.At w s i n) (h' : Spec.At w s i n') : n = n' := by
  obtain ⟨L, a1, a2⟩ := h
  obtain ⟨L', b1, b2⟩ := h'
  rw [a1] at b1; cases b1
  rw [a2] at b2; cases b2; rfl

section
variable {w w' : World}

theorem SameDoc.keys (s : Spec.SameDoc w w') : dkeys w'.dt = dkeys w.dt := by
  have := congrArg (List.map (·.1)) s.texts
  simpa [dkeys, Function.comp_def] using this

theorem SameDoc.layer (s : Spec.SameDoc w w') {k L} (h : dget w.dl k = some L) : ∃ L', dget w'.dl k = some L' := by
  apply Option.isSome_iff_exists.mp
  rw [dget_isSome_iff, s.layers, ← dget_isSome_iff, h]; rfl

theorem SameDoc.layer' (s : Spec.SameDoc w w') {k L'} (h : dget w'.dl k = some L') : ∃ L, dget w.dl k = some L := by
  apply Option.isSome_iff_exists.mp
  rw [dget_isSome_iff, ← s.layers, ← dget_isSome_iff, h]; rfl

theorem SameDoc.text (s : Spec.SameDoc w w') (hw : WF w) (hw' : WF w') {c T T'} (h : dget w.dt c = some T)
    (h' : dget w'.dt c = some T') : (w'.texts T').text = (w.texts T).text := by
  have e := s.texts
  have h1 : (c, (w.texts T).text) ∈ w.dt.map (fun e => (e.1, (w.texts e.2).text)) :=
    List.mem_map.mpr ⟨(c, T), dget_mem h, rfl⟩
  rw [← e] at h1
  obtain ⟨⟨c2, T2⟩, h2, h3⟩ := List.mem_map.mp h1
  simp only [Prod.mk.injEq] at h3
  obtain ⟨rfl, h3⟩ := h3
  have := dget_of_mem hw'.dtKeys h2
  rw [h'] at this; cases this
  exact h3

theorem SameDoc.node (s : Spec.SameDoc w w') (hi : Inv w) (hi' : Inv w') {k i n} (h : Spec.At w k i n) :
    ∃ n', Spec.At w' k i n' := by
  obtain ⟨L, h1, h2⟩ := h
  obtain ⟨L', h3⟩ := SameDoc.layer s h1
  have hc := s.count k L L' h1 h3
  obtain ⟨hl, -⟩ := List.getElem?_eq_some_iff.mp h2
  have hl' : i < (live (w'.layers L').slots).length := by
    have : (w'.iter L').length = (live (w'.layers L').slots).length := by rw [hi'.iter_eq]; simp
    omega
  exact ⟨_, (At.iff hi').mpr ⟨L', h3, List.getElem?_eq_getElem hl'⟩⟩

theorem SameDoc.node' (s : Spec.SameDoc w w') (hi : Inv w) (hi' : Inv w') {k i n'} (h : Spec.At w' k i n') :
    ∃ n, Spec.At w k i n := by
  obtain ⟨L', h1, h2⟩ := h
  obtain ⟨L, h3⟩ := SameDoc.layer' s h1
  have hc := s.count k L L' h3 h1
  obtain ⟨hl, -⟩ := List.getElem?_eq_some_iff.mp h2
  have hl' : i < (live (w.layers L).slots).length := by
    have : (w.iter L).length = (live (w.layers L).slots).length := by rw [hi.iter_eq]; simp
    omega
  exact ⟨_, (At.iff hi).mpr ⟨L, h3, List.getElem?_eq_getElem hl'⟩⟩

/-- fields of the two schemas, position by position -/
theorem SameDoc.field (s : Spec.SameDoc w w') {k L L'} (h : dget w.dl k = some L) (h' : dget w'.dl k = some L') {f t}
    (hf : (f, t) ∈ (w.layers L).fields) : ∃ t', (f, t') ∈ (w'.layers L').fields ∧ t'.tname = t.tname ∧ t'.options = t.options := by
  have e := s.schema k L L' h h'
  have : (f, t.tname, t.options) ∈ (w.layers L).fields.map (fun e => (e.1, e.2.tname, e.2.options)) :=
    List.mem_map.mpr ⟨(f, t), hf, rfl⟩
  rw [← e] at this
  obtain ⟨⟨f2, t2⟩, h1, h2⟩ := List.mem_map.mp this
  simp only [Prod.mk.injEq] at h2
  obtain ⟨rfl, h3, h4⟩ := h2
  exact ⟨t2, h1, h3, h4⟩

theorem SameDoc.field' (s : Spec.SameDoc w w') {k L L'} (h : dget w.dl k = some L) (h' : dget w'.dl k = some L') {f t'}
    (hf : (f, t') ∈ (w'.layers L').fields) : ∃ t, (f, t) ∈ (w.layers L).fields ∧ t'.tname = t.tname ∧ t'.options = t.options := by
  have e := s.schema k L L' h h'
  have : (f, t'.tname, t'.options) ∈ (w'.layers L').fields.map (fun e => (e.1, e.2.tname, e.2.options)) :=
    List.mem_map.mpr ⟨(f, t'), hf, rfl⟩
  rw [e] at this
  obtain ⟨⟨f2, t2⟩, h1, h2⟩ := List.mem_map.mp this
  simp only [Prod.mk.injEq] at h2
  obtain ⟨rfl, h3, h4⟩ := h2
  exact ⟨t2, h1, h3.symm, h4.symm⟩

theorem iter_at (hi : Inv w) {k L n} (h : dget w.dl k = some L) (hn : some n ∈ w.iter L) : ∃ i, Spec.At w k i n := by
  rw [hi.iter_eq] at hn
  have hn : n ∈ live (w.layers L).slots := by simpa using hn
  obtain ⟨i, hi'⟩ := List.getElem?_of_mem hn
  exact ⟨i, (At.iff hi).mpr ⟨L, h, hi'⟩⟩

theorem at_iter {k i n L} (h : dget w.dl k = some L) (ha : Spec.At w k i n) : some n ∈ w.iter L := by
  obtain ⟨L', h1, h2⟩ := ha
  rw [h] at h1; cases h1
  exact List.mem_of_getElem? h2

/-- Same as a valid document, and types that do not check: valid too. -/
theorem SameDoc.encodable (s : Spec.SameDoc w w') (hi : Inv w) (hi' : Inv w') (hw : WF w) (hw' : WF w')
    (he : Spec.Encodable w) (hun : ∀ k L f t, (k, L) ∈ w'.dl → (f, t) ∈ (w'.layers L).fields → t.checked = false) :
    Spec.Encodable w' where
  types k L' f t' h1 h2 := by
    have h1' := dget_of_mem hw'.dlKeys h1
    obtain ⟨L, hL⟩ := SameDoc.layer' s h1'
    obtain ⟨t, ht, e1, e2⟩ := SameDoc.field' s hL h1' h2
    have := he.types k L f t (dget_mem hL) ht
    exact ⟨by rw [e1]; exact this.kind, by rw [e2]; exact this.plain, by rw [e2]; exact this.keys,
      by rw [e2]; exact this.names, by rw [e1, e2, s.layers]; exact this.layer, by rw [e1, e2, SameDoc.keys s]; exact this.text⟩
  cells k L' n' f t' v' h1 h2 h3 h4 := by
    have hck := hun k L' f t' h1 h3
    have h1' := dget_of_mem hw'.dlKeys h1
    obtain ⟨L, hL⟩ := SameDoc.layer' s h1'
    obtain ⟨t, ht, e1, e2⟩ := SameDoc.field' s hL h1' h3
    obtain ⟨i, ha'⟩ := iter_at hi' h1' h2
    obtain ⟨n, ha⟩ := SameDoc.node' s hi hi' ha'
    have hc := s.cells k L i n n' f t hL ha ha' ht
    rw [h4] at hc
    have hv := he.cells k L n f t
    generalize dget (w.nodes n).fields f = ov at *
    have hn : ∀ {n n' s0 i}, Spec.SameNode w w' n n' → Spec.At w s0 i n → Spec.At w' s0 i n' := by
      rintro n n' s0 i ⟨k, j, g1, g2⟩ g3
      obtain ⟨rfl, rfl⟩ := At.unique hi hw g1 g3
      exact g2
    have hok : ∀ v, ov = some v → Spec.CellOk w t v := fun v hv' => hv v (dget_mem hL) (at_iter hL ha) ht hv'
    cases ov with
    | none => cases hc
    | some v =>
      have hcell := hok v rfl
      cases hc with
      | int => cases hcell with | int a b => exact .int (by rw [e1]; exact a) (fun h => by rw [hck] at h; cases h)
      | intBool a => exact .int (by rw [e1]; exact a) (fun h => by rw [hck] at h; cases h)
      | float => cases hcell with | float a => exact .float (by rw [e1]; exact a)
      | bool a => exact .bool (by rw [e1]; exact a)
      | str => cases hcell with | str a b => exact .str (by rw [e1]; exact a) (fun h => by rw [hck] at h; cases h)
      | bytes => cases hcell with | bytes a b => exact .bytes (by rw [e1]; exact a) (fun h => by rw [hck] at h; cases h)
      | node g => cases hcell with
        | node a b c => exact .node (by rw [e1]; exact a) (by rw [e2]; exact b) (hn g c)
      | nodes g1 g2 g3 => cases hcell with
        | nodes a b c =>
          refine .nodes (by rw [e1]; exact a) (by rw [e2]; exact b) (fun m' hm' => ?_)
          obtain ⟨j, hj, rfl⟩ := List.getElem_of_mem hm'
          obtain ⟨i, hi2⟩ := c _ (List.getElem_mem (by omega : j < _))
          exact ⟨i, hn (g3 j _ _ (List.getElem?_eq_getElem (by omega)) (List.getElem?_eq_getElem hj)) hi2⟩
      | nodespan g1 g2 => cases hcell with
        | nodespan a b c d e => exact .nodespan (by rw [e1]; exact a) (by rw [e2]; exact b) (hn g1 c) (hn g2 d) e
      | span g => cases hcell with
        | span a b c d e f =>
          obtain ⟨c', g1, g2⟩ := g
          have : c' = _ := (hw.dtName _ _ g1).1.symm.trans (hw.dtName _ _ c).1
          subst this
          exact .span (by rw [e1]; exact a) (by rw [e2]; exact b) g2 d e (by rw [SameDoc.text s hw hw' g1 g2]; exact f)
  declared k L' n' f h1 h2 h3 := by
    have h1' := dget_of_mem hw'.dlKeys h1
    obtain ⟨L, hL⟩ := SameDoc.layer' s h1'
    obtain ⟨i, ha'⟩ := iter_at hi' h1' h2
    have := s.only k L i n' f hL ha' h3
    have e := congrArg (List.map (·.1)) (s.schema k L L' hL h1')
    simp only [List.map_map, Function.comp_def] at e
    unfold dkeys at this ⊢
    rw [e]; exact this
  props k v h := by rw [s.props] at h; exact he.props k v h

/-! ### same wire -/

theorem mapE_congr2 {α α' β : Type} {f : α → Except PyErr β} {f' : α' → Except PyErr β} {l : List α} :
    ∀ {l' : List α'}, l'.length = l.length → (∀ (i : Nat) x x', l[i]? = some x → l'[i]? = some x' → f x = f' x') →
    mapE f l = mapE f' l' := by
  induction l with
  | nil => intro l' h _; cases l' with
    | nil => rfl
    | cons _ _ => simp at h
  | cons x l ih =>
    intro l' h hf
    cases l' with
    | nil => simp at h
    | cons x' l' =>
      simp only [mapE]
      rw [hf 0 x x' rfl rfl, ih (by simpa using h) (fun i y y' h1 h2 => hf (i + 1) y y' (by simpa using h1) (by simpa using h2))]

theorem cell_same {offs offs'} (h : Ready w offs) (h' : Ready w' offs') {t : DataType} {v : Value} {v' : Option Value}
    (hv : Spec.CellOk w t v) (hs : Spec.SameCell w w' t (some v) v') (idx) :
    w.encodeCell idx t.tname v = w'.encodeCell idx t.tname (v'.getD .none) := by
  have hn : ∀ {n n'}, Spec.SameNode w w' n n' → w.nodeI n = w'.nodeI n' := by
    rintro n n' ⟨k, i, h1, h2⟩
    rw [(h.id h1).2, (h'.id h2).2]
  obtain ⟨tn, ck, op⟩ := t
  cases hs with
  | null => cases tn <;> rfl
  | empty => cases hv with
    | nodes a b c => cases a; rfl
  | int => cases tn <;> rfl
  | intBool a => rcases a with a | a <;> cases a <;> rfl
  | float => cases tn <;> rfl
  | bool => cases tn <;> rfl
  | str => cases tn <;> rfl
  | bytes => cases tn <;> rfl
  | node g => cases hv with
    | node a b c => cases a; simp only [encodeCell, Option.getD_some, hn g]
  | @nodes ns ns' g1 g2 g3 => cases hv with
    | nodes a b c =>
      cases a
      have : w.nodeIs ns = w'.nodeIs ns' := by
        unfold nodeIs
        apply mapE_congr2 g2.symm
        intro i x x' h1 h2
        rw [hn (g3 i x x' h1 h2)]
      cases ns with
      | nil => exact (g1 rfl).elim
      | cons n ns => cases ns' with
        | nil => simp at g2
        | cons n' ns' => simp only [encodeCell, Option.getD_some, this]
  | nodespan g1 g2 => cases hv with
    | nodespan a => cases a; simp only [encodeCell, Option.getD_some, hn g1, hn g2]
  | span g => cases hv with
    | span a => cases a; simp only [encodeCell, Option.getD_some]

theorem SameDoc.used (s : Spec.SameDoc w w') (hi : Inv w) (hi' : Inv w') (hw : WF w) (hw' : WF w') {c y} :
    (Spec.UsedOffset w c y ↔ Spec.UsedOffset w' c y) := by
  unfold Spec.UsedOffset
  constructor
  · rintro ⟨k, L, f, t, n, T, a, b, h1, h2, h3, h4, h5, h6, h7⟩
    have hL := dget_of_mem hw.dlKeys h1
    obtain ⟨L', hL'⟩ := SameDoc.layer s hL
    obtain ⟨t', ht', e1, e2⟩ := SameDoc.field s hL hL' h2
    obtain ⟨i, ha⟩ := iter_at hi hL h5
    obtain ⟨n', ha'⟩ := SameDoc.node s hi hi' ha
    have hc := s.cells k L i n n' f t hL ha ha' h2
    rw [h6] at hc
    generalize hv : dget (w'.nodes n').fields f = v' at hc
    cases hc with
    | span g => exact ⟨k, L', f, t', n', _, a, b, dget_mem hL', ht', by rw [e1]; exact h3, by rw [e2]; exact h4, at_iter hL' ha', hv, h7⟩
  · rintro ⟨k, L', f, t', n', T, a, b, h1, h2, h3, h4, h5, h6, h7⟩
    have hL' := dget_of_mem hw'.dlKeys h1
    obtain ⟨L, hL⟩ := SameDoc.layer' s hL'
    obtain ⟨t, ht, e1, e2⟩ := SameDoc.field' s hL hL' h2
    obtain ⟨i, ha'⟩ := iter_at hi' hL' h5
    obtain ⟨n, ha⟩ := SameDoc.node' s hi hi' ha'
    have hc := s.cells k L i n n' f t hL ha ha' ht
    rw [h6] at hc
    generalize hv : dget (w.nodes n).fields f = v at hc
    cases hc with
    | span g => exact ⟨k, L, f, t, n, _, a, b, dget_mem hL, ht, by rw [← e1]; exact h3, by rw [← e2]; exact h4, at_iter hL ha, hv, h7⟩

theorem strict_ext {l : List Int} : ∀ {l' : List Int}, l.Pairwise (· < ·) → l'.Pairwise (· < ·) → (∀ y, y ∈ l ↔ y ∈ l') → l = l' := by
  induction l with
  | nil => intro l' _ _ h; cases l' with
    | nil => rfl
    | cons a _ => have := (h a).mpr (by simp); simp at this
  | cons a l ih =>
    intro l' h1 h2 h
    cases l' with
    | nil => have := (h a).mp (by simp); simp at this
    | cons b l' =>
      rw [List.pairwise_cons] at h1 h2
      have hab : a = b := by
        have ha := (h a).mp (by simp)
        have hb := (h b).mpr (by simp)
        simp only [List.mem_cons] at ha hb
        rcases ha with ha | ha
        · exact ha
        · rcases hb with hb | hb
          · exact hb.symm
          · have := h1.1 b hb; have := h2.1 a ha; omega
      subst hab
      rw [ih h1.2 h2.2]
      intro y
      have := h y
      simp only [List.mem_cons] at this
      constructor
      · intro hy
        have := this.mp (.inr hy)
        rcases this with rfl | hh
        · have := h1.1 _ hy; omega
        · exact hh
      · intro hy
        have := this.mpr (.inr hy)
        rcases this with rfl | hh
        · have := h2.1 _ hy; omega
        · exact hh

theorem offs_same {offs offs'} (h : Ready w offs) (h' : Ready w' offs') (s : Spec.SameDoc w w') {c} (hc : c ∈ dkeys w.dt) :
    dget offs c = dget offs' c := by
  obtain ⟨T, hT⟩ := Option.isSome_iff_exists.mp ((dget_isSome_iff _ _).mpr hc)
  obtain ⟨T', hT'⟩ := Option.isSome_iff_exists.mp ((dget_isSome_iff w'.dt c).mpr (by rw [SameDoc.keys s]; exact hc))
  obtain ⟨l, h1, h2, -, -, h3⟩ := h.tab c T hT
  obtain ⟨l', h1', h2', -, -, h3'⟩ := h'.tab c T' hT'
  have : l = l' := strict_ext h2 h2' (fun y => by
    rw [h3, h3', SameDoc.text s h.wf h'.wf hT hT', SameDoc.used s h.inv h'.inv h.wf h'.wf])
  rw [h1, h1', this]

theorem compile_congr {t t' : TextObj} (h : t.text = t'.text) (l : List Int) : t.compile l = t'.compile l := by
  induction l with
  | nil => rfl
  | cons a l ih => cases l with
    | nil => rfl
    | cons b l => simp only [TextObj.compile, h]; rw [ih]

theorem keys_get {κ ν ν'} {d : Dict κ ν} {d' : Dict κ ν'} (h : dkeys d' = dkeys d) {i : Nat} {e e'}
    (h1 : d[i]? = some e) (h2 : d'[i]? = some e') : e'.1 = e.1 := by
  have a : (dkeys d)[i]? = some e.1 := by simp only [dkeys, List.getElem?_map, h1, Option.map_some]
  have b : (dkeys d')[i]? = some e'.1 := by simp only [dkeys, List.getElem?_map, h2, Option.map_some]
  rw [h, a] at b; exact (Option.some.inj b).symm

theorem keys_length {κ ν ν'} {d : Dict κ ν} {d' : Dict κ ν'} (h : dkeys d' = dkeys d) : d'.length = d.length := by
  have := congrArg List.length h; simpa [dkeys] using this

theorem layer_same {offs offs'} (h : Ready w offs) (h' : Ready w' offs') (s : Spec.SameDoc w w') {k L L'}
    (hL : dget w.dl k = some L) (hL' : dget w'.dl k = some L') : w.encodeLayer offs L = w'.encodeLayer offs' L' := by
  have hs := s.schema k L L' hL hL'
  have hnum : (w.layers L).num = (w'.layers L').num := by
    have hc := s.count k L L' hL hL'
    rw [h.inv.iter_eq, h'.inv.iter_eq] at hc
    rw [h.inv.num, h'.inv.num]; simp at hc; omega
  unfold encodeLayer
  rw [hnum]
  have : mapE (w.encodeField offs L) (w.layers L).fields = mapE (w'.encodeField offs' L') (w'.layers L').fields := by
    apply mapE_congr2
    · have := congrArg List.length hs; simpa using this
    · rintro i ⟨f, t⟩ ⟨f', t'⟩ h1 h2
      have e : some (f', t'.tname, t'.options) = some (f, t.tname, t.options) := by
        have a : ((w'.layers L').fields.map (fun e => (e.1, e.2.tname, e.2.options)))[i]? = some (f', t'.tname, t'.options) := by
          simp [List.getElem?_map, h2]
        have b : ((w.layers L).fields.map (fun e => (e.1, e.2.tname, e.2.options)))[i]? = some (f, t.tname, t.options) := by
          simp [List.getElem?_map, h1]
        rw [← a, ← b, hs]
      simp only [Option.some.injEq, Prod.mk.injEq] at e
      obtain ⟨rfl, e1, e2⟩ := e
      have hf : (f', t) ∈ (w.layers L).fields := List.mem_of_getElem? h1
      have e3 : t.encode = t'.encode := by unfold DataType.encode; rw [e1, e2]
      have e4 : w.encodeCol offs (w.iter L) f' t = w'.encodeCol offs' (w'.iter L') f' t' := by
        unfold encodeCol
        rw [e1]
        have ht := h.enc.types k L f' t (dget_mem hL) hf
        have e5 : (if t.tname = .span then spanIndex offs t else .ok []) = (if t.tname = .span then spanIndex offs' t' else .ok []) := by
          split
          · rename_i hsp
            obtain ⟨c, hc, hm⟩ := ht.text hsp
            unfold spanIndex
            rw [e2, hc]
            simp only [offs_same h h' s hm]
          · rfl
        rw [e5]
        split
        · rfl
        · split
          · rfl
          · rename_i idx _
            rw [h.inv.iter_eq, h'.inv.iter_eq, mapE_map, mapE_map]
            have : mapE (fun n => w.encodeCell idx t.tname ((dget (w.nodes n).fields f').getD .none)) (live (w.layers L).slots) =
                mapE (fun n => w'.encodeCell idx t.tname ((dget (w'.nodes n).fields f').getD .none)) (live (w'.layers L').slots) := by
              apply mapE_congr2
              · have := s.count k L L' hL hL'
                rw [h.inv.iter_eq, h'.inv.iter_eq] at this
                simpa using this
              · intro i n n' g1 g2
                have a1 : Spec.At w k i n := (At.iff h.inv).mpr ⟨L, hL, g1⟩
                have a2 : Spec.At w' k i n' := (At.iff h'.inv).mpr ⟨L', hL', g2⟩
                have hc := s.cells k L i n n' f' t hL a1 a2 hf
                have hv := h.enc.cells k L n f' t
                generalize dget (w.nodes n).fields f' = v at *
                generalize dget (w'.nodes n').fields f' = v' at *
                cases v with
                | none =>
                  cases hc
                  obtain ⟨tn, ck, op⟩ := t
                  cases tn <;> rfl
                | some v => exact cell_same h h' (hv v (dget_mem hL) (at_iter hL a1) hf rfl) hc idx
            simp only [this]
      simp only [encodeField, e3, e4]
  rw [this]

/-- Observably equal documents, ready to be encoded, give the same data. -/
theorem wire_same {offs offs'} (h : Ready w offs) (h' : Ready w' offs') (s : Spec.SameDoc w w') :
    w.wireOf offs = w'.wireOf offs' := by
  unfold wireOf
  rw [encodeTexts_ok h, encodeTexts_ok h', s.props]
  have e1 : segsOf w offs = segsOf w' offs' := by
    apply List.ext_getElem?
    intro i
    simp only [segsOf, List.getElem?_map]
    cases hd : w.dt[i]? with
    | none =>
      have : w'.dt[i]? = none := by
        have := keys_length (SameDoc.keys s)
        rw [List.getElem?_eq_none_iff] at hd ⊢; omega
      simp [this]
    | some e =>
      have hlen : i < w'.dt.length := by
        have := keys_length (SameDoc.keys s)
        obtain ⟨hl, -⟩ := List.getElem?_eq_some_iff.mp hd; omega
      have hd' := List.getElem?_eq_getElem hlen
      generalize w'.dt[i] = e' at hd'
      have hk := keys_get (SameDoc.keys s) hd hd'
      have hT : dget w.dt e.1 = some e.2 := dget_of_mem h.wf.dtKeys (List.mem_of_getElem? hd)
      have hT' : dget w'.dt e'.1 = some e'.2 := dget_of_mem h'.wf.dtKeys (List.mem_of_getElem? hd')
      rw [hk] at hT'
      have ht := SameDoc.text s h.wf h'.wf hT hT'
      have ho := offs_same h h' s (c := e.1) ((dget_isSome_iff _ _).mp (by rw [hT]; rfl))
      simp only [hd', Option.map_some, hk, ← ho, compile_congr ht]
  have e2 : mapE (w.encodeEntry offs) w.dl = mapE (w'.encodeEntry offs') w'.dl := by
    apply mapE_congr2 (keys_length s.layers)
    intro i e e' h1 h2
    have hk := keys_get s.layers h1 h2
    have hL : dget w.dl e.1 = some e.2 := dget_of_mem h.wf.dlKeys (List.mem_of_getElem? h1)
    have hL' : dget w'.dl e'.1 = some e'.2 := dget_of_mem h'.wf.dlKeys (List.mem_of_getElem? h2)
    rw [hk] at hL'
    unfold encodeEntry
    rw [layer_same h h' s hL hL', hk]
  simp only [e1, e2]

end
end Verif
