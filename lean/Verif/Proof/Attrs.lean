import Verif.Model.History
import Verif.Proof.Doc
/-
Well-formedness of names, schemas and dicts in reachable heaps.
-/
set_option linter.unusedSimpArgs false
namespace Verif
namespace World

/-- names, schemas and document entries are the same; node dicts stay dicts -/
structure Keeps (w w' : World) : Prop where
  attrs : ∀ K, (w'.layers K).name = (w.layers K).name ∧ (w'.layers K).fields = (w.layers K).fields ∧
    (w'.layers K).defaults = (w.layers K).defaults
  dl : w'.dl = w.dl
  dt : w'.dt = w.dt
  texts : w'.texts = w.texts
  props : w'.props = w.props
  nextN : w'.nextN = w.nextN
  nextL : w'.nextL = w.nextL
  nextT : w'.nextT = w.nextT
  nk : (∀ n, (dkeys (w.nodes n).fields).Nodup) → ∀ n, (dkeys (w'.nodes n).fields).Nodup

theorem Keeps.refl (w : World) : Keeps w w :=
  ⟨fun _ => ⟨rfl, rfl, rfl⟩, rfl, rfl, rfl, rfl, rfl, rfl, rfl, fun h => h⟩

theorem Keeps.trans {a b c : World} (h : Keeps a b) (k : Keeps b c) : Keeps a c where
  attrs K := ⟨(k.attrs K).1.trans (h.attrs K).1, (k.attrs K).2.1.trans (h.attrs K).2.1,
    (k.attrs K).2.2.trans (h.attrs K).2.2⟩
  dl := k.dl.trans h.dl
  dt := k.dt.trans h.dt
  texts := k.texts.trans h.texts
  props := k.props.trans h.props
  nextN := k.nextN.trans h.nextN
  nextL := k.nextL.trans h.nextL
  nextT := k.nextT.trans h.nextT
  nk h0 := k.nk (h.nk h0)

theorem keeps_modNode (w : World) (n : NodeId) (f : NodeRec → NodeRec)
    (hf : (dkeys (w.nodes n).fields).Nodup → (dkeys (f (w.nodes n)).fields).Nodup) :
    Keeps w (w.modNode n f) where
  attrs K := ⟨rfl, rfl, rfl⟩
  dl := rfl
  dt := rfl
  texts := rfl
  props := rfl
  nextN := rfl
  nextL := rfl
  nextT := rfl
  nk h m := by
    simp only [modNode, upd]; split
    · exact hf (h n)
    · exact h m

theorem keeps_modLayer (w : World) (L : LayerId) (f : LayerObj → LayerObj)
    (hf : (f (w.layers L)).name = (w.layers L).name ∧ (f (w.layers L)).fields = (w.layers L).fields ∧
      (f (w.layers L)).defaults = (w.layers L).defaults) : Keeps w (w.modLayer L f) where
  attrs K := by
    simp only [modLayer, upd]; split
    · subst_vars; exact hf
    · exact ⟨rfl, rfl, rfl⟩
  dl := rfl
  dt := rfl
  texts := rfl
  props := rfl
  nextN := rfl
  nextL := rfl
  nextT := rfl
  nk h := h

theorem keeps_setId (w : World) (n i) : Keeps w (w.setId n i) := keeps_modNode _ _ _ (fun h => h)
theorem keeps_setColl (w : World) (n c) : Keeps w (w.setColl n c) := keeps_modNode _ _ _ (fun h => h)
theorem keeps_setSlots (w : World) (L s) : Keeps w (w.setSlots L s) := keeps_modLayer _ _ _ ⟨rfl, rfl, rfl⟩
theorem keeps_setNum (w : World) (L k) : Keeps w (w.setNum L k) := keeps_modLayer _ _ _ ⟨rfl, rfl, rfl⟩

theorem keeps_setField (w : World) (n k v) : Keeps w (w.setField n k v) :=
  keeps_modNode w n (fun r => { r with fields := dset r.fields k v }) (fun h => nodup_dset h _ _)
theorem keeps_delField (w : World) (n k) : Keeps w (w.delField n k) :=
  keeps_modNode w n (fun r => { r with fields := ddel r.fields k }) (fun h => nodup_ddel h _)

theorem keeps_appendNode (w : World) (L n) : Keeps w (w.appendNode L n) := by
  unfold appendNode
  exact (((keeps_setId _ _ _).trans (keeps_setColl _ _ _)).trans (keeps_setSlots _ _ _)).trans (keeps_setNum _ _ _)

theorem keeps_addNodes (w : World) (L ns) : Keeps w (w.addNodes L ns) := by
  induction ns generalizing w with
  | nil => exact .refl w
  | cons n ns ih => exact (keeps_appendNode w L n).trans (ih _)

theorem keeps_addManyLoop (w : World) (L ns) : Keeps w (w.addManyLoop L ns).1 := by
  induction ns generalizing w with
  | nil => exact .refl w
  | cons n ns ih =>
    simp only [addManyLoop]; split
    · exact .refl w
    · exact (keeps_appendNode w L n).trans (ih _)

theorem nodup_fillMissing (f d : Dict Str Value) (h : (dkeys f).Nodup) : (dkeys (fillMissing f d)).Nodup := by
  unfold fillMissing
  induction d generalizing f with
  | nil => exact h
  | cons e d ih =>
    simp only [List.foldl_cons]
    apply ih
    split
    · exact h
    · exact nodup_dset h _ _

theorem keeps_fillLoop (w : World) (d s) : Keeps w (w.fillLoop d s) := by
  induction s generalizing w with
  | nil => exact .refl w
  | cons a s ih =>
    cases a with
    | none => exact ih w
    | some n => exact (keeps_modNode w n (fun r => { r with fields := fillMissing r.fields d })
        (nodup_fillMissing _ _)).trans (ih _)

theorem keeps_addMany (w : World) (L ns fill val) : Keeps w (w.addMany L ns fill val).1 := by
  have h := keeps_addManyLoop w L ns
  simp only [addMany]
  split
  · rename_i he; rw [he] at h; exact h
  · rename_i he; rw [he] at h
    split
    · exact h
    · split
      · exact h.trans (keeps_fillLoop _ _ _)
      · exact h

theorem keeps_compactLoop (L ks) : ∀ (i : Nat) (w : World), Keeps w (compactLoop L ks i w).1 := by
  induction ks with
  | nil => intro i w; exact .refl w
  | cons k ks ih =>
    intro i w
    simp only [compactLoop]; split
    · exact ((keeps_setSlots _ _ _).trans (keeps_setId _ _ _)).trans (ih _ _)
    · exact ih _ _

theorem keeps_compact (w : World) (L) : Keeps w (w.compact L) := by
  unfold compact; split
  · exact .refl w
  · exact (keeps_compactLoop _ _ _ _).trans (keeps_setSlots _ _ _)

theorem keeps_assignIds (w : World) (i s) : Keeps w { w with nodes := assignIds w.nodes i s } where
  attrs K := ⟨rfl, rfl, rfl⟩
  dl := rfl
  dt := rfl
  texts := rfl
  props := rfl
  nextN := rfl
  nextL := rfl
  nextT := rfl
  nk h n := by
    show (dkeys (assignIds w.nodes i s n).fields).Nodup
    rw [(assignIds_coll _ _ _ _).2]; exact h n

theorem keeps_sort (w : World) (L le) : Keeps w (w.sort L le).1 := by
  unfold sort
  dsimp only
  split
  · exact ((keeps_compact w L).trans (keeps_setSlots _ _ _)).trans (keeps_assignIds _ _ _)
  · exact keeps_compact w L

theorem keeps_removeCore (w : World) (L n) : Keeps w (w.removeCore L n).1 := by
  unfold removeCore; split
  · exact .refl w
  · split
    · exact .refl w
    · exact ((keeps_setSlots _ _ _).trans (keeps_setNum _ _ _)).trans (keeps_setColl _ _ _)

theorem keeps_autoCompact (w : World) (L) : Keeps w (w.autoCompact L) := by
  unfold autoCompact; split
  · exact keeps_compact w L
  · exact .refl w

theorem keeps_remove (w : World) (L n) : Keeps w (w.remove L n).1 := by
  have h := keeps_removeCore w L n
  simp only [remove]; split <;> (rename_i he; rw [he] at h)
  · exact h
  · exact h.trans (keeps_autoCompact _ _)

theorem keeps_removeLoop (w : World) (L ns) : Keeps w (w.removeLoop L ns).1 := by
  induction ns generalizing w with
  | nil => exact .refl w
  | cons a ns ih =>
    cases a with
    | none => exact ih w
    | some n =>
      have h := keeps_removeCore w L n
      simp only [removeLoop]; split <;> (rename_i he; rw [he] at h)
      · exact h
      · exact h.trans (ih _)

theorem keeps_removeMany (w : World) (L ns) : Keeps w (w.removeMany L ns).1 := by
  have h := keeps_removeLoop w L ns
  simp only [removeMany]; split <;> (rename_i he; rw [he] at h)
  · exact h
  · exact h.trans (keeps_autoCompact _ _)

theorem keeps_detach (w : World) (n) : Keeps w (w.detach n).1 := by
  unfold detach; split
  · exact .refl w
  · exact keeps_remove _ _ _

theorem keeps_retainMark (w : World) (L ns) : Keeps w (w.retainMark L ns).1 := by
  induction ns generalizing w with
  | nil => exact .refl w
  | cons n ns ih =>
    simp only [retainMark]; split
    · exact .refl w
    · split
      · exact (keeps_setId _ _ _).trans (ih _)
      · exact ih w

theorem keeps_retainLoop (L is) : ∀ (k : Nat) (w : World), Keeps w (retainLoop L is k w).1.1 := by
  induction is with
  | nil => intro k w; exact .refl w
  | cons i is ih =>
    intro k w
    simp only [retainLoop]; split
    · split
      · exact ((keeps_setColl _ _ _).trans (keeps_setNum _ _ _)).trans (ih _ _)
      · exact ((keeps_setSlots _ _ _).trans (keeps_setId _ _ _)).trans (ih _ _)
    · exact .refl w
    · exact .refl w

theorem keeps_retain (w : World) (L ns) : Keeps w (w.retain L ns).1 := by
  have h := keeps_retainMark w L ns
  unfold retain; split <;> (rename_i he; rw [he] at h)
  · exact h
  · rename_i w1
    have h2 := keeps_retainLoop L (List.range (w1.layers L).slots.length) 0 w1
    split <;> (rename_i he2; rw [he2] at h2)
    · exact h.trans h2
    · exact (h.trans h2).trans (keeps_setSlots _ _ _)

theorem keeps_compileLayers (x t : Bool) (d) : ∀ (w : World) (offs), Keeps w (compileLayers x t w offs d).1 := by
  induction d with
  | nil => intro w offs; exact .refl w
  | cons e d ih =>
    intro w offs
    obtain ⟨k, L⟩ := e
    have h1 : Keeps w (w.compileIds L) := by
      unfold compileIds; exact (keeps_assignIds _ _ _).trans (keeps_compact _ _)
    simp only [compileLayers]
    split
    · exact h1
    · split
      · exact h1
      · exact h1.trans (ih _ _)

theorem keeps_compile (w : World) (x t) : Keeps w (w.compile x t).1 := by
  unfold compile
  split
  · exact .refl w
  · split
    · exact .refl w
    · split
      · exact .refl w
      · have := keeps_compileLayers x t w.dl w (w.dt.map (fun e => (e.1, [])))
        split <;> (rename_i he; rw [he] at this; exact this)

theorem keeps_setAll (w : World) (k v s) : Keeps w (w.setAll k v s) := by
  induction s generalizing w with
  | nil => exact .refl w
  | cons a s ih => cases a with
    | none => exact ih w
    | some n => exact (keeps_modNode w n _ (fun h => nodup_dset h _ _)).trans (ih _)

theorem keeps_delAll (w : World) (k s) : Keeps w (w.delAll k s) := by
  induction s generalizing w with
  | nil => exact .refl w
  | cons a s ih => cases a with
    | none => exact ih w
    | some n => exact (keeps_modNode w n _ (fun h => nodup_ddel h _)).trans (ih _)

/-- schema and name consistency -/
structure WF (w : World) : Prop where
  defaults : ∀ L, (w.layers L).defaults = computeDefaults (w.layers L).fields
  dlName : ∀ k L, dget w.dl k = some L → (w.layers L).name = k ∧ L < w.nextL
  dtName : ∀ k T, dget w.dt k = some T → (w.texts T).name = k ∧ T < w.nextT
  oid : ∀ T, (w.texts T).oid = T
  dlKeys : (dkeys w.dl).Nodup
  dtKeys : (dkeys w.dt).Nodup
  propKeys : (dkeys w.props).Nodup
  fieldKeys : ∀ L, (dkeys (w.layers L).fields).Nodup
  nodeKeys : ∀ n, (dkeys (w.nodes n).fields).Nodup

theorem wf_empty : WF World.empty := by
  constructor <;> simp [World.empty, computeDefaults, dget, dkeys]

theorem Keeps.wf {w w' : World} (k : Keeps w w') (h : WF w) : WF w' where
  defaults L := by rw [(k.attrs L).2.1, (k.attrs L).2.2]; exact h.defaults L
  dlName x L hx := by rw [k.dl] at hx; rw [(k.attrs L).1, k.nextL]; exact h.dlName x L hx
  dtName x T hx := by rw [k.dt] at hx; rw [k.texts, k.nextT]; exact h.dtName x T hx
  oid T := by rw [k.texts]; exact h.oid T
  dlKeys := by rw [k.dl]; exact h.dlKeys
  dtKeys := by rw [k.dt]; exact h.dtKeys
  propKeys := by rw [k.props]; exact h.propKeys
  fieldKeys L := by rw [(k.attrs L).2.1]; exact h.fieldKeys L
  nodeKeys := k.nk h.nodeKeys

theorem nodup_computeDefaults {f : Dict Str DataType} (h : (dkeys f).Nodup) : (dkeys (computeDefaults f)).Nodup := by
  have : (dkeys (computeDefaults f)).Sublist (dkeys f) := by
    induction f with
    | nil => exact .slnil
    | cons e f ih =>
      have := ih (by simp only [dkeys, List.map_cons, List.nodup_cons] at h; exact h.2)
      simp only [computeDefaults, List.filterMap_cons, dkeys] at this ⊢
      cases e.2.default? with
      | none => simp; exact this.cons _
      | some v => simp; exact this
  exact this.nodup h

theorem mem_dkeys_computeDefaults {f : Dict Str DataType} {k} (h : k ∈ dkeys (computeDefaults f)) : k ∈ dkeys f := by
  simp only [computeDefaults, dkeys, List.mem_map, List.mem_filterMap] at h ⊢
  obtain ⟨e, ⟨x, hx, hv⟩, rfl⟩ := h
  refine ⟨x, hx, ?_⟩
  cases hd : x.2.default? with
  | none => simp [hd] at hv
  | some v => simp [hd] at hv; rw [← hv]

theorem dget_computeDefaults (f : Dict Str DataType) (h : (dkeys f).Nodup) (k : Str) :
    dget (computeDefaults f) k = (dget f k).bind DataType.default? := by
  induction f with
  | nil => rfl
  | cons e f ih =>
    obtain ⟨a, t⟩ := e
    simp only [dkeys, List.map_cons, List.nodup_cons] at h
    have ih := ih h.2
    simp only [computeDefaults, List.filterMap_cons] at ih ⊢
    cases hd : t.default? with
    | none =>
      simp only [Option.map_none, ih, dget]
      split
      · subst_vars
        have : dget f a = none := (dget_none_iff f a).mpr h.1
        simp [this, hd]
      · rfl
    | some v =>
      simp only [Option.map_some, dget, ih]
      split <;> simp [hd]

theorem wf_step {w : World} (h : WF w) (op : Op) (ha : w.Allowed op) : WF (w.exec op).1 := by
  cases op with
  | newNode f =>
    refine { h with nodeKeys := ?_ }
    intro n; simp only [exec, newNode, upd]; split
    · exact ha
    · exact h.nodeKeys n
  | setField n k v => exact (keeps_setField w n k v).wf h
  | delField n k =>
    simp only [exec]; split
    · exact (keeps_delField w n k).wf h
    · exact h
  | add L ns => exact (keeps_addNodes w L ns).wf h
  | addNew L kw =>
    simp only [exec, addNew, newNode]
    split
    · exact h
    · have h1 : WF (w.newNode (dupdate (w.layers L).defaults kw)).1 := by
        refine { h with nodeKeys := ?_ }
        intro n; simp only [newNode, upd]; split
        · apply nodup_dupdate; rw [h.defaults]; exact nodup_computeDefaults (h.fieldKeys L)
        · exact h.nodeKeys n
      exact ((((keeps_setId _ _ _).trans (keeps_setColl _ _ _)).trans (keeps_setSlots _ _ _)).trans
        (keeps_setNum _ _ _)).wf h1
  | addMany L ns fill val => exact (keeps_addMany w L ns fill val).wf h
  | remove L n => exact (keeps_remove w L n).wf h
  | removeMany L ns => exact (keeps_removeMany w L ns).wf h
  | detach n => exact (keeps_detach w n).wf h
  | retain L ns => exact (keeps_retain w L ns).wf h
  | sort L le => exact (keeps_sort w L le).wf h
  | compact L => exact (keeps_compact w L).wf h
  | addLayer name f =>
    constructor <;> simp only [exec, addLayer]
    · intro L; simp only [upd]; split
      · rfl
      · exact h.defaults L
    · intro k L hk
      rw [dget_dset] at hk
      split at hk
      · simp at hk; subst hk; simp [*]
      · have := h.dlName k L hk
        rw [upd_ne _ _ (by omega)]; exact ⟨this.1, by omega⟩
    · exact h.dtName
    · exact h.oid
    · exact nodup_dset h.dlKeys _ _
    · exact h.dtKeys
    · exact h.propKeys
    · intro L; simp only [upd]; split
      · exact ha
      · exact h.fieldKeys L
    · exact h.nodeKeys
  | addText name t =>
    constructor <;> simp only [exec, addText]
    · exact h.defaults
    · exact h.dlName
    · intro k T hk
      rw [dget_dset] at hk
      split at hk
      · simp at hk; subst hk; simp [*]
      · have := h.dtName k T hk
        rw [upd_ne _ _ (by omega)]; exact ⟨this.1, by omega⟩
    · intro T; simp only [upd]; split
      · simp [*]
      · exact h.oid T
    · exact h.dlKeys
    · exact nodup_dset h.dtKeys _ _
    · exact h.propKeys
    · exact h.fieldKeys
    · exact h.nodeKeys
  | setProp k v =>
    exact { h with propKeys := nodup_dset h.propKeys _ _ }
  | addField L name t init =>
    simp only [exec, addField]
    split
    · exact h
    · have h1 : WF (w.modLayer L (fun l =>
          { l with fields := dset l.fields name t, defaults := computeDefaults (dset l.fields name t) })) := by
        constructor <;> simp only [modLayer]
        · intro K; simp only [upd]; split
          · rfl
          · exact h.defaults K
        · intro k K hk
          have := h.dlName k K hk
          simp only [upd]; split
          · subst_vars; exact this
          · exact this
        · exact h.dtName
        · exact h.oid
        · exact h.dlKeys
        · exact h.dtKeys
        · exact h.propKeys
        · intro K; simp only [upd]; split
          · exact nodup_dset (h.fieldKeys _) _ _
          · exact h.fieldKeys K
        · exact h.nodeKeys
      split
      · split
        · exact h1
        · exact (keeps_setAll _ _ _ _).wf h1
      · exact h1
  | removeField L name leave =>
    simp only [exec, removeField]
    split
    · exact h
    · have key : ∀ {u : World}, WF u → WF (u.modLayer L (fun l =>
          { l with fields := ddel l.fields name, defaults := computeDefaults (ddel l.fields name) })) := by
        intro u h
        constructor <;> simp only [modLayer]
        · intro K; simp only [upd]; split
          · rfl
          · exact h.defaults K
        · intro k K hk
          have := h.dlName k K hk
          simp only [upd]; split
          · subst_vars; exact this
          · exact this
        · exact h.dtName
        · exact h.oid
        · exact h.dlKeys
        · exact h.dtKeys
        · exact h.propKeys
        · intro K; simp only [upd]; split
          · exact nodup_ddel (h.fieldKeys _) _
          · exact h.fieldKeys K
        · exact h.nodeKeys
      dsimp only
      split
      · exact key h
      · exact key ((keeps_delAll _ _ _).wf h)
  | removeLayer name c =>
    simp only [exec, removeLayer]
    split
    · exact h
    · split
      · exact h
      · split
        · exact h
        · refine { h with dlName := ?_, dlKeys := nodup_ddel h.dlKeys _ }
          intro k L hk
          simp only [dget_ddel] at hk
          split at hk
          · simp at hk
          · exact h.dlName k L hk
  | compile x t => exact (keeps_compile w x t).wf h

end World
end Verif
