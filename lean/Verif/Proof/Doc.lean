import Verif.Model.Doc
import Verif.Proof.Layer
/-
Preservation of the heap invariant by schema changes and compile.
-/
set_option linter.unusedSimpArgs false
namespace Verif
namespace World

/-- only node fields differ -/
structure SameButFields (w w' : World) : Prop where
  layers : w'.layers = w.layers
  dl : w'.dl = w.dl
  dt : w'.dt = w.dt
  texts : w'.texts = w.texts
  props : w'.props = w.props
  nextN : w'.nextN = w.nextN
  nextL : w'.nextL = w.nextL
  nextT : w'.nextT = w.nextT
  coll : ∀ n, (w'.nodes n).coll = (w.nodes n).coll
  id : ∀ n, (w'.nodes n).id = (w.nodes n).id

theorem SameButFields.refl (w : World) : SameButFields w w :=
  ⟨rfl, rfl, rfl, rfl, rfl, rfl, rfl, rfl, fun _ => rfl, fun _ => rfl⟩

theorem SameButFields.trans {a b c : World} (h : SameButFields a b) (k : SameButFields b c) :
    SameButFields a c :=
  ⟨k.layers.trans h.layers, k.dl.trans h.dl, k.dt.trans h.dt, k.texts.trans h.texts, k.props.trans h.props,
   k.nextN.trans h.nextN, k.nextL.trans h.nextL, k.nextT.trans h.nextT,
   fun n => (k.coll n).trans (h.coll n), fun n => (k.id n).trans (h.id n)⟩

theorem SameButFields.inv {w w' : World} (s : SameButFields w w') (h : Inv w) : Inv w' :=
  inv_of_fields h s.layers (fun n => ⟨s.coll n, s.id n⟩) (Nat.le_of_eq s.nextN.symm) s.nextL

theorem same_modFields (w : World) (n : NodeId) (f : Dict Str Value → Dict Str Value) :
    SameButFields w (w.modNode n (fun r => { r with fields := f r.fields })) := by
  refine ⟨rfl, rfl, rfl, rfl, rfl, rfl, rfl, rfl, ?_, ?_⟩ <;>
    (intro m; simp only [modNode, upd]; split <;> simp_all)

theorem same_setField (w : World) (n k v) : SameButFields w (w.setField n k v) :=
  same_modFields w n (fun d => dset d k v)
theorem same_delField (w : World) (n k) : SameButFields w (w.delField n k) :=
  same_modFields w n (fun d => ddel d k)

theorem same_setAll (w : World) (k v s) : SameButFields w (w.setAll k v s) := by
  induction s generalizing w with
  | nil => exact .refl w
  | cons a s ih => cases a with
    | none => exact ih w
    | some n => exact (same_setField w n k v).trans (ih _)

theorem same_delAll (w : World) (k s) : SameButFields w (w.delAll k s) := by
  induction s generalizing w with
  | nil => exact .refl w
  | cons a s ih => cases a with
    | none => exact ih w
    | some n => exact (same_delField w n k).trans (ih _)

theorem setAll_fields (w : World) (k v) (l : List NodeId) (m : NodeId) :
    ((w.setAll k v (l.map some)).nodes m).fields =
      if m ∈ l then dset (w.nodes m).fields k v else (w.nodes m).fields := by
  induction l generalizing w with
  | nil => rfl
  | cons n l ih =>
    simp only [List.map_cons, setAll, ih, setField, modNode]
    by_cases hmn : m = n
    · subst hmn
      have hd : ∀ d : Dict Str Value, dset (dset d k v) k v = dset d k v := by
        intro d; induction d with
        | nil => simp [dset]
        | cons e d ihd =>
          obtain ⟨a, b⟩ := e
          simp only [dset]; split
          · simp [dset, *]
          · simp only [dset, *, if_false]
      simp only [upd_same, hd, List.mem_cons, true_or, if_true]; split <;> rfl
    · simp only [upd_ne _ _ hmn, List.mem_cons, hmn, false_or]

theorem ddel_ddel {κ ν} [DecidableEq κ] (d : Dict κ ν) (k : κ) : ddel (ddel d k) k = ddel d k := by
  apply ddel_absent
  intro h
  exact (mem_dkeys_ddel.mp h).2 rfl

theorem delAll_fields (w : World) (k) (l : List NodeId) (m : NodeId) :
    ((w.delAll k (l.map some)).nodes m).fields =
      if m ∈ l then ddel (w.nodes m).fields k else (w.nodes m).fields := by
  induction l generalizing w with
  | nil => rfl
  | cons n l ih =>
    simp only [List.map_cons, delAll, ih, delField, modNode]
    by_cases hmn : m = n
    · subst hmn
      simp only [upd_same, ddel_ddel, List.mem_cons, true_or, if_true]; split <;> rfl
    · simp only [upd_ne _ _ hmn, List.mem_cons, hmn, false_or]

theorem inv_modLayer {w : World} (h : Inv w) (L : LayerId) (f : LayerObj → LayerObj)
    (h1 : (f (w.layers L)).slots = (w.layers L).slots) (h2 : (f (w.layers L)).num = (w.layers L).num) :
    Inv (w.modLayer L f) ∧ ∀ K, ((w.modLayer L f).layers K).slots = (w.layers K).slots := by
  have hs : ∀ K, ((w.modLayer L f).layers K).slots = (w.layers K).slots := by
    intro K; simp only [modLayer, upd]; split
    · subst_vars; exact h1
    · rfl
  have hn : ∀ K, ((w.modLayer L f).layers K).num = (w.layers K).num := by
    intro K; simp only [modLayer, upd]; split
    · subst_vars; exact h2
    · rfl
  refine ⟨?_, hs⟩
  constructor
  · intro K i n hh; rw [hs] at hh; exact h.slot K i n hh
  · intro n K hh; rw [hs]; exact h.bound n K hh
  · intro K; rw [hs, hn]; exact h.num K
  · exact h.fresh
  · intro K hK; rw [hs]; exact h.freshL K hK

theorem addField_spec {w : World} (h : Inv w) (L name t init) :
    Inv (w.addField L name t init).1 ∧
    ∀ K, ((w.addField L name t init).1.layers K).slots = (w.layers K).slots := by
  unfold addField
  split
  · exact ⟨h, fun _ => rfl⟩
  · obtain ⟨i1, i2⟩ := inv_modLayer h L (fun l =>
      { l with fields := dset l.fields name t, defaults := computeDefaults (dset l.fields name t) }) rfl rfl
    dsimp only
    split
    · split
      · exact ⟨i1, i2⟩
      · have s := same_setAll (w.modLayer L (fun l =>
          { l with fields := dset l.fields name t, defaults := computeDefaults (dset l.fields name t) })) name
          ‹Value› (iter (w.modLayer L (fun l =>
          { l with fields := dset l.fields name t, defaults := computeDefaults (dset l.fields name t) })) L)
        exact ⟨s.inv i1, fun K => by rw [s.layers]; exact i2 K⟩
    · exact ⟨i1, i2⟩

theorem removeField_spec {w : World} (h : Inv w) (L name leave) :
    Inv (w.removeField L name leave).1 ∧
    ∀ K, ((w.removeField L name leave).1.layers K).slots = (w.layers K).slots := by
  unfold removeField
  split
  · exact ⟨h, fun _ => rfl⟩
  · dsimp only
    split
    · exact inv_modLayer h L _ rfl rfl
    · have s := same_delAll w name (w.iter L)
      obtain ⟨i1, i2⟩ := inv_modLayer (s.inv h) L (fun l =>
        { l with fields := ddel l.fields name, defaults := computeDefaults (ddel l.fields name) }) rfl rfl
      exact ⟨i1, fun K => by rw [i2 K, s.layers]⟩

theorem assignIds_idem (nodes : NodeId → NodeRec) (l : List NodeId) (hn : l.Nodup) :
    assignIds (assignIds nodes 0 (l.map some)) 0 (l.map some) = assignIds nodes 0 (l.map some) := by
  apply assignIds_self
  intro j n hj
  simp only [List.getElem?_map, Option.map_eq_some_iff, Option.some.injEq] at hj
  obtain ⟨a, ha, rfl⟩ := hj
  exact assignIds_getElem _ _ hn 0 j _ ha

theorem iter_take_len {w : World} (h : Inv w) (L) :
    (w.iter L).take (w.len L).toNat = (live (w.layers L).slots).map some := by
  rw [h.iter_eq, len, h.num L]
  rw [List.take_of_length_le]; simp

/-- `compileIds` is `compact` -/
theorem compileIds_eq {w : World} (h : Inv w) (L) : w.compileIds L = w.compact L := by
  have hn := h.nodup L
  unfold compileIds
  rw [iter_take_len h]
  dsimp only
  rw [compact_eq h]
  unfold compact
  dsimp only
  split
  · rename_i he
    rw [h.num L] at he
    rw [map_some_live (s := (w.layers L).slots) (by omega)]
    simp
  · have := compactLoop_eq L (w.layers L).slots (w.layers L).slots.length 0 []
      { w with nodes := assignIds w.nodes 0 ((live (w.layers L).slots).map some) } (by omega) (by simp) (by simp)
    rw [← List.range_eq_range'] at this
    simp only [List.length_nil] at this
    rw [this]
    simp only [List.nil_append, List.drop_zero, compacted, setSlots, modLayer, upd_upd, upd_same,
      List.length_nil]
    rw [List.take_left' (by simp)]
    have e := assignIds_idem w.nodes _ hn
    simp only [Int.cast_ofNat_Int] at e ⊢
    rw [e]

/-- what compile can change: only `_id`s and slot layout -/
structure SameObs (w w' : World) : Prop where
  live : ∀ K, World.live (w'.layers K).slots = World.live (w.layers K).slots
  attrs : ∀ K, (w'.layers K).name = (w.layers K).name ∧ (w'.layers K).fields = (w.layers K).fields ∧
    (w'.layers K).defaults = (w.layers K).defaults ∧ (w'.layers K).num = (w.layers K).num
  dl : w'.dl = w.dl
  dt : w'.dt = w.dt
  texts : w'.texts = w.texts
  props : w'.props = w.props
  nextN : w'.nextN = w.nextN
  nextL : w'.nextL = w.nextL
  nextT : w'.nextT = w.nextT
  node : ∀ n, (w'.nodes n).coll = (w.nodes n).coll ∧ (w'.nodes n).fields = (w.nodes n).fields

theorem SameObs.refl (w : World) : SameObs w w :=
  ⟨fun _ => rfl, fun _ => ⟨rfl, rfl, rfl, rfl⟩, rfl, rfl, rfl, rfl, rfl, rfl, rfl, fun _ => ⟨rfl, rfl⟩⟩

theorem SameObs.trans {a b c : World} (h : SameObs a b) (k : SameObs b c) : SameObs a c where
  live K := (k.live K).trans (h.live K)
  attrs K := ⟨(k.attrs K).1.trans (h.attrs K).1, (k.attrs K).2.1.trans (h.attrs K).2.1,
    (k.attrs K).2.2.1.trans (h.attrs K).2.2.1, (k.attrs K).2.2.2.trans (h.attrs K).2.2.2⟩
  dl := k.dl.trans h.dl
  dt := k.dt.trans h.dt
  texts := k.texts.trans h.texts
  props := k.props.trans h.props
  nextN := k.nextN.trans h.nextN
  nextL := k.nextL.trans h.nextL
  nextT := k.nextT.trans h.nextT
  node n := ⟨(k.node n).1.trans (h.node n).1, (k.node n).2.trans (h.node n).2⟩

theorem sameObs_compact {w : World} (h : Inv w) (L) : SameObs w (w.compact L) := by
  have hl := abs_compact h L
  rw [compact_eq h] at hl ⊢
  refine ⟨hl, ?_, rfl, rfl, rfl, rfl, rfl, rfl, rfl, fun n => assignIds_coll _ _ _ _⟩
  intro K; simp only [upd]; split
  · subst_vars; exact ⟨rfl, rfl, rfl, rfl⟩
  · exact ⟨rfl, rfl, rfl, rfl⟩

theorem compileLayers_spec (x t : Bool) (d : Dict Str LayerId) : ∀ {w : World} (_ : Inv w) (offs),
    Inv (compileLayers x t w offs d).1 ∧ SameObs w (compileLayers x t w offs d).1 := by
  induction d with
  | nil => intro w h offs; exact ⟨h, .refl w⟩
  | cons e d ih =>
    intro w h offs
    obtain ⟨k, L⟩ := e
    simp only [compileLayers]
    rw [compileIds_eq h]
    have i1 := inv_compact h L
    have s1 := sameObs_compact h L
    split
    · exact ⟨i1, s1⟩
    · split
      · exact ⟨i1, s1⟩
      · obtain ⟨a, b⟩ := ih i1 ‹_›
        exact ⟨a, s1.trans b⟩

theorem compile_spec {w : World} (h : Inv w) (x t : Bool) :
    Inv (w.compile x t).1 ∧ SameObs w (w.compile x t).1 := by
  unfold compile
  split
  · exact ⟨h, .refl w⟩
  · split
    · exact ⟨h, .refl w⟩
    · split
      · exact ⟨h, .refl w⟩
      · have := compileLayers_spec x t w.dl h (w.dt.map (fun e => (e.1, [])))
        split <;> (rename_i he; rw [he] at this; exact this)

end World
end Verif
