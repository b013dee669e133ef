import Verif.Props.CodecSpec
import Verif.Props.Compile
/-
Compiling a valid document succeeds and leaves every layer of the document compact.
-/
set_option linter.unusedSimpArgs false
namespace Verif
open World

/-- no gaps -/
def Compacted (w : World) (L : LayerId) : Prop := (w.layers L).slots = (live (w.layers L).slots).map some

theorem At.iff {w : World} (hi : Inv w) {k i n} : Spec.At w k i n ↔
    ∃ L, dget w.dl k = some L ∧ (live (w.layers L).slots)[i]? = some n := by
  unfold Spec.At
  constructor
  · rintro ⟨L, h1, h2⟩
    refine ⟨L, h1, ?_⟩
    rw [hi.iter_eq, List.getElem?_map] at h2
    cases hh : (live (w.layers L).slots)[i]? with
    | none => simp [hh] at h2
    | some m => simp [hh] at h2; rw [h2]
  · rintro ⟨L, h1, h2⟩
    refine ⟨L, h1, ?_⟩
    rw [hi.iter_eq, List.getElem?_map, h2]; rfl

theorem SameObs.at {w w' : World} (s : SameObs w w') (hi : Inv w) (hi' : Inv w') {k i n} :
    Spec.At w' k i n ↔ Spec.At w k i n := by
  unfold Spec.At
  simp only [s.dl, World.SameObs.iter s hi hi']

theorem SameObs.cellOk {w w' : World} (s : SameObs w w') (hi : Inv w) (hi' : Inv w') {t v}
    (h : Spec.CellOk w t v) : Spec.CellOk w' t v := by
  cases h with
  | null a b => exact .null a b
  | int a b => exact .int a b
  | intBool a => exact .intBool a
  | float a => exact .float a
  | bool a => exact .bool a
  | str a b => exact .str a b
  | bytes a b => exact .bytes a b
  | node a b c => exact .node a b ((SameObs.at s hi hi').mpr c)
  | nodes a b c =>
    refine .nodes a b (fun n hn => ?_)
    obtain ⟨i, h⟩ := c n hn
    exact ⟨i, (SameObs.at s hi hi').mpr h⟩
  | nodespan a b c d e => exact .nodespan a b ((SameObs.at s hi hi').mpr c) ((SameObs.at s hi hi').mpr d) e
  | span a b c d e f => exact .span a b (by rw [s.dt]; exact c) d e (by rw [s.texts]; exact f)

theorem SameObs.typeOk {w w' : World} (s : SameObs w w') {t} (h : Spec.TypeOk w t) : Spec.TypeOk w' t :=
  ⟨h.kind, h.plain, h.keys, h.names, by rw [s.dl]; exact h.layer, by rw [s.dt]; exact h.text⟩

theorem SameObs.encodable {w w' : World} (s : SameObs w w') (hi : Inv w) (hi' : Inv w')
    (h : Spec.Encodable w) : Spec.Encodable w' where
  types k L f t h1 h2 := by
    rw [s.dl] at h1; rw [(s.attrs L).2.1] at h2
    exact SameObs.typeOk s (h.types k L f t h1 h2)
  cells k L n f t v h1 h2 h3 h4 := by
    rw [s.dl] at h1; rw [(s.attrs L).2.1] at h3; rw [World.SameObs.iter s hi hi'] at h2; rw [(s.node n).2] at h4
    exact SameObs.cellOk s hi hi' (h.cells k L n f t v h1 h2 h3 h4)
  declared k L n f h1 h2 h3 := by
    rw [s.dl] at h1; rw [World.SameObs.iter s hi hi'] at h2; rw [(s.node n).2] at h3
    rw [(s.attrs L).2.1]
    exact h.declared k L n f h1 h2 h3
  props k v hm := by rw [s.props] at hm; exact h.props k v hm

theorem At.attached {w : World} (hi : Inv w) (hw : WF w) {k i n} (h : Spec.At w k i n) :
    Spec.AttachedTo w n k ∧ ∃ L, dget w.dl k = some L ∧ (w.nodes n).coll = some L := by
  obtain ⟨L, h1, h2⟩ := (At.iff hi).mp h
  have hm : n ∈ live (w.layers L).slots := List.mem_of_getElem? h2
  have hc := (hi.mem_iff L n).mp hm
  exact ⟨⟨L, hc, (hw.dlName k L h1).1⟩, L, h1, hc⟩

/-- positions in iteration order and `_id`s are ordered alike -/
theorem At.id_le {w : World} (hi : Inv w) {k i j l r} (h1 : Spec.At w k i l) (h2 : Spec.At w k j r) (hij : i ≤ j) :
    (w.nodes l).id ≤ (w.nodes r).id := by
  obtain ⟨L, a1, a2⟩ := (At.iff hi).mp h1
  obtain ⟨L', b1, b2⟩ := (At.iff hi).mp h2
  rw [a1] at b1; cases b1
  -- ids are strictly increasing along the live nodes
  have key : ∀ (s : List (Option NodeId)) (k0 : Nat), (∀ (i : Nat) n, s[i]? = some (some n) → (w.nodes n).id = ((k0 + i : Nat) : Int)) →
      (live s).Pairwise (fun a b => (w.nodes a).id < (w.nodes b).id) ∧ ∀ n ∈ live s, (k0 : Int) ≤ (w.nodes n).id := by
    intro s
    induction s with
    | nil => intro k0 _; simp [live]
    | cons x s ih =>
      intro k0 hs
      have hs' : ∀ (i : Nat) n, s[i]? = some (some n) → (w.nodes n).id = ((k0 + 1 + i : Nat) : Int) := by
        intro i n hn
        rw [hs (i + 1) n (by simpa using hn)]; congr 1; omega
      obtain ⟨p1, p2⟩ := ih (k0 + 1) hs'
      cases x with
      | none =>
        refine ⟨by simpa [live] using p1, fun n hn => ?_⟩
        have := p2 n (by simpa [live] using hn); omega
      | some m =>
        have hm := hs 0 m (by simp)
        have e : live (some m :: s) = m :: live s := by simp [live]
        rw [e]
        refine ⟨List.pairwise_cons.mpr ⟨fun n hn => ?_, p1⟩, fun n hn => ?_⟩
        · have := p2 n hn; omega
        · simp only [List.mem_cons] at hn
          rcases hn with rfl | hn
          · omega
          · have := p2 n hn; omega
  obtain ⟨p1, -⟩ := key (w.layers L).slots 0 (fun i n hn => by rw [(hi.slot L i n hn).2]; congr 1; omega)
  rcases Nat.lt_or_ge i j with hlt | hge
  · rw [List.pairwise_iff_getElem] at p1
    obtain ⟨hi1, e1⟩ := List.getElem?_eq_some_iff.mp a2
    obtain ⟨hj1, e2⟩ := List.getElem?_eq_some_iff.mp b2
    have := p1 i j hi1 hj1 hlt
    rw [e1, e2] at this; omega
  · have : i = j := by omega
    subst this
    rw [a2] at b2; cases b2; exact Int.le_refl _

theorem cell_valid {w : World} (hi : Inv w) (hw : WF w) {t v} (h : Spec.CellOk w t v) : t.isValid w v = .ok true := by
  unfold DataType.isValid
  split
  · rfl
  · rename_i hck
    have hck : t.checked = true := by simpa using hck
    cases h with
    | null a b => rw [a] at hck; cases hck
    | int a b =>
      rcases a with a | a <;> rw [a]
      · have := (b hck).1 a; simp [DataType.asInt]; omega
      · have := (b hck).2 a; simp [DataType.asInt]; omega
    | @intBool b a => rcases a with a | a <;> rw [a] <;> cases b <;> simp [DataType.asInt]
    | float a => rw [a]
    | bool a => rw [a]
    | str a b => rw [a]; have := b hck; simp; omega
    | bytes a b => rw [a]; have := b hck; simp; omega
    | node a b c =>
      obtain ⟨h1, L, h2, h3⟩ := At.attached hi hw c
      rw [a]; simp only [h3, Option.isNone_some, Bool.false_eq_true, if_false, opt_ok b]
      have := boundTo_iff.mpr h1
      simp [bind, Except.bind, this, pure, Except.pure]
    | @nodes ns s a b c =>
      rw [a]; simp only [opt_ok b, bind, Except.bind, pure, Except.pure]
      congr 1
      rw [List.all_eq_true]
      intro n hn
      obtain ⟨i, hat⟩ := c n hn
      exact boundTo_iff.mpr (At.attached hi hw hat).1
    | @nodespan l r s i j a b c d e =>
      obtain ⟨h1, L, h2, h3⟩ := At.attached hi hw c
      obtain ⟨g1, L', g2, g3⟩ := At.attached hi hw d
      have hid : ∀ n K, (w.nodes n).coll = some K → w.nodeI n = .ok (w.nodes n).id := by
        intro n K hc
        obtain ⟨i, h1, -⟩ := hi.bound n K hc
        rw [hi.nodeI_ok h1, h1]
      rw [a]; simp only [h3, g3, Option.isNone_some, Bool.or_self, Bool.false_eq_true, if_false, opt_ok b]
      simp [bind, Except.bind, boundTo_iff.mpr h1, boundTo_iff.mpr g1, pure, Except.pure, hid _ _ h3, hid _ _ g3,
        At.id_le hi c d e]
    | span a b c =>
      rw [a]; simp only [opt_ok b, bind, Except.bind, pure, Except.pure, (hw.dtName _ _ c).1]
      simp

theorem layer_validate {w : World} (hi : Inv w) (hw : WF w) (he : Spec.Encodable w) {k L n} (hL : (k, L) ∈ w.dl)
    (hn : some n ∈ w.iter L) : w.validate L n = .ok () := by
  have : ∀ fs : Dict Str DataType, (∀ f t, (f, t) ∈ fs → (f, t) ∈ (w.layers L).fields) →
      validateFields w (w.nodes n).fields fs = .ok () := by
    intro fs
    induction fs with
    | nil => intro _; rfl
    | cons e fs ih =>
      intro h
      obtain ⟨f, t⟩ := e
      have ih := ih (fun f t hm => h f t (by simp [hm]))
      simp only [validateFields]
      split
      · exact ih
      · rename_i v hv
        rw [cell_valid hi hw (he.cells k L n f t v hL hn (h f t (by simp)) hv)]
        exact ih
  exact this _ (fun _ _ h => h)

theorem layerOffsets_ok {w : World} (hi : Inv w) (L : LayerId) (fs : Dict Str DataType) :
    ∀ offs : Dict Str (List Int),
    (∀ f t, (f, t) ∈ fs → t.tname = .span → ∃ c, dget t.options "context".toList = some (.str c) ∧ (dget offs c).isSome) →
    (∀ f t n v, (f, t) ∈ fs → t.tname = .span → some n ∈ w.iter L → dget (w.nodes n).fields f = some v →
      ∃ T a b, v = .span T a b) →
    ∃ offs', w.layerOffsets L fs offs = .ok offs' := by
  induction fs with
  | nil => intro offs _ _; exact ⟨offs, rfl⟩
  | cons e fs ih =>
    intro offs h1 h2
    obtain ⟨f, t⟩ := e
    simp only [layerOffsets]
    split
    · rename_i hs
      obtain ⟨c, hc, ho⟩ := h1 f t (by simp) hs
      obtain ⟨s, hs'⟩ := Option.isSome_iff_exists.mp ho
      rw [hc]; simp only [hs']
      obtain ⟨-, -, p3⟩ := spanOffsets_spec w f (live (w.layers L).slots) s
      obtain ⟨s', hs''⟩ := p3 (fun n hn v hv => h2 f t n v (by simp) hs (by rw [hi.iter_eq]; simpa using hn) hv)
      rw [hi.iter_eq, hs'']
      refine ih _ (fun f' t' hm hsp => ?_) (fun f' t' n v hm => h2 f' t' n v (by simp [hm]))
      obtain ⟨c', hc', ho'⟩ := h1 f' t' (by simp [hm]) hsp
      refine ⟨c', hc', ?_⟩
      rw [dget_dset]; split
      · rfl
      · exact ho'
    · exact ih _ (fun f' t' hm => h1 f' t' (by simp [hm])) (fun f' t' n v hm => h2 f' t' n v (by simp [hm]))

theorem compact_compacted {w : World} (h : Inv w) (L K : LayerId) (hK : K = L ∨ Compacted w K) :
    Compacted (w.compact L) K := by
  have hn := (inv_compact h L)
  have hab := abs_compact h L K
  unfold Compacted
  rw [hab]
  rw [compact_eq h]
  by_cases hKL : K = L
  · subst hKL; simp [upd]
  · simp only [upd, hKL, if_false]
    rcases hK with hK | hK
    · exact absurd hK hKL
    · exact hK

theorem compileLayers_ok (x t : Bool) {w0 : World} (he : Spec.Encodable w0) (hi0 : Inv w0) (d : Dict Str LayerId) :
    ∀ {w : World} (_ : Inv w) (_ : WF w) (_ : SameObs w0 w) (offs),
    (∀ k L, (k, L) ∈ d → (k, L) ∈ w0.dl) → (∀ c, c ∈ dkeys w0.dt → (dget offs c).isSome) →
    (∃ offs', (compileLayers x t w offs d).2 = .ok offs') ∧
      (∀ K, Compacted w K ∨ (∃ k, (k, K) ∈ d) → Compacted (compileLayers x t w offs d).1 K) ∧
      WF (compileLayers x t w offs d).1 := by
  induction d with
  | nil =>
    intro w hi hw so offs _ _
    exact ⟨⟨offs, rfl⟩, fun K hK => by rcases hK with h | ⟨_, h⟩; exact h; simp at h, hw⟩
  | cons e d ih =>
    intro w hi hw so offs h1 h2
    obtain ⟨k, L⟩ := e
    simp only [compileLayers]
    rw [compileIds_eq hi]
    have i1 := inv_compact hi L
    have s1 := so.trans (sameObs_compact hi L)
    have w1 : WF (w.compact L) := (keeps_compact w L).wf hw
    have hcmp := compact_compacted hi L
    generalize w.compact L = u at *
    have eu := SameObs.encodable s1 hi0 i1 he
    have hkL : (k, L) ∈ u.dl := by rw [s1.dl]; exact h1 k L (by simp)
    have hval : (if t && !x then u.compileValidate L (u.iter L) else .ok ()) = .ok () := by
      split
      · obtain ⟨v1, -⟩ := compileValidate_spec u L (live (u.layers L).slots)
        rw [i1.iter_eq, v1]
        intro n hn
        have hn' : some n ∈ u.iter L := by rw [i1.iter_eq]; simpa using hn
        exact ⟨layer_validate i1 w1 eu hkL hn', fun f hf => eu.declared k L n f hkL hn' hf⟩
      · rfl
    rw [hval]
    simp only
    obtain ⟨o1, ho1⟩ := layerOffsets_ok i1 L (u.layers L).fields offs
      (fun f t hm hs => by
        obtain ⟨c, hc, hm⟩ := (eu.types k L f t hkL hm).text hs
        rw [s1.dt] at hm
        exact ⟨c, hc, h2 c hm⟩)
      (fun f t n v hm hs hn hv => by
        have := eu.cells k L n f t v hkL hn hm hv
        cases this <;> simp_all)
    have ho1' := (layerOffsets_spec i1 L (u.layers L).fields offs).2 o1 ho1
    rw [ho1]
    simp only
    obtain ⟨r1, r2, r3⟩ := ih i1 w1 s1 o1 (fun k' L' hm => h1 k' L' (by simp [hm])) (fun c hc => by
      rw [ho1'.1]; exact h2 c hc)
    refine ⟨r1, fun K hK => r2 K ?_, r3⟩
    rcases hK with hK | ⟨k', hK⟩
    · exact .inl (hcmp K (.inr hK))
    · simp only [List.mem_cons, Prod.mk.injEq] at hK
      rcases hK with ⟨-, rfl⟩ | hK
      · exact .inl (hcmp K (.inl rfl))
      · exact .inr ⟨k', hK⟩

theorem Encodable.complete {w : World} (he : Spec.Encodable w) : Spec.TypesComplete w := by
  intro k L f t h1 h2
  have ht := he.types k L f t h1 h2
  refine ⟨fun hl => ?_, fun hs => ?_⟩
  · obtain ⟨s, hs, -⟩ := ht.layer hl; rw [hs]; rfl
  · obtain ⟨s, hs, -⟩ := ht.text hs; rw [hs]; rfl

theorem Encodable.resolved {w : World} (he : Spec.Encodable w) : ¬ Spec.Unresolved w := by
  rintro ⟨k, L, f, t, h1, h2, hd | hd⟩
  · obtain ⟨s, hs, hm⟩ := (he.types k L f t h1 h2).layer hd.1; exact hd.2 s hs hm
  · obtain ⟨s, hs, hm⟩ := (he.types k L f t h1 h2).text hd.1; exact hd.2 s hs hm

/-- Compiling a valid document succeeds. -/
theorem compile_encodable {w : World} (hi : Inv w) (hw : WF w) (he : Spec.Encodable w) (x t : Bool) :
    ∃ w1 offs, w.compile x t = (w1, .ok offs) ∧ Inv w1 ∧ WF w1 ∧ SameObs w w1 ∧
      (∀ k L, (k, L) ∈ w1.dl → Compacted w1 L) := by
  rcases compile_cases w x t (Encodable.complete he) with ⟨hu, -⟩ | ⟨-, hc⟩
  · exact absurd hu (Encodable.resolved he)
  · obtain ⟨⟨offs, h1⟩, h2, h3⟩ := compileLayers_ok x t he hi w.dl hi hw (.refl w) (w.dt.map (fun e => (e.1, [])))
      (fun _ _ h => h) (fun c hc => by
        rw [dget_isSome_iff]
        simpa [dkeys] using hc)
    obtain ⟨hs1, hs2⟩ := compileLayers_spec x t w.dl hi (w.dt.map (fun e => (e.1, [])))
    rw [hc, compileRest]
    generalize compileLayers x t w (w.dt.map (fun e => (e.1, []))) w.dl = r at *
    obtain ⟨w1, r2⟩ := r
    simp only at h1 h2 h3 hs1 hs2
    subst h1
    refine ⟨w1, _, rfl, hs1, h3, hs2, fun k L hm => h2 L (.inr ⟨k, ?_⟩)⟩
    rw [hs2.dl] at hm; exact hm

end Verif
