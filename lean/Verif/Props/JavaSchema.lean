import Verif.Model.JavaSchema
import Verif.Proof.TreeMap
import Verif.Props.JavaEdit
/-
C100: schemas and their builders in the Java library.
-/
set_option linter.unusedSimpArgs false

namespace Verif

namespace Spec
open JSchemas

/-- the objects a call is about exist -/
def Refers (w : JSchemas) : JSchOp → Prop
  | .newType _ | .builder _ | .newSchema | .newDoc => True
  | .addArg b _ _ | .buildType b => b < w.nTB
  | .addField b _ t => b < w.nB ∧ t < w.nT
  | .build b => b < w.nB
  | .slAdd l _ t => l < w.nS ∧ t < w.nT
  | .slRemove l _ | .newLayer l => l < w.nS
  | .copySchema s | .docOf s => s < w.nSch
  | .schemaAdd s l => s < w.nSch ∧ l < w.nS
  | .docAdd d l => d < w.nD ∧ l < w.nS
  | .docAddLayer d y => d < w.nD ∧ y < w.nL
  | .layAddField y _ t => y < w.nL ∧ t < w.nT
  | .layRemoveField y _ | .node y _ => y < w.nL

/-- all calls of a sequence are about objects that exist -/
def Runs (w : JSchemas) : List JSchOp → Prop
  | [] => True
  | o :: os => Refers w o ∧ Runs (w.step o).1 os

/-- a state that calls lead to -/
def Made (w : JSchemas) : Prop := ∃ os, Runs {} os ∧ w = ({} : JSchemas).run os

/-- the builder of a Schema.Layer, and of that of a Layer, is where its fields come from. The one whose fields a call is to change: -/
def target (w : JSchemas) : JSchOp → Option Nat
  | .addField b _ _ => some b
  | .slAdd l _ _ | .slRemove l _ => some (w.sfrom l)
  | .layAddField y _ _ | .layRemoveField y _ => some (w.sfrom (w.schema y))
  | _ => none

/-- no call is about fields of things of this builder -/
def Elsewhere (b : Nat) (w : JSchemas) : List JSchOp → Prop
  | [] => True
  | o :: os => target w o ≠ some b ∧ Elsewhere b (w.step o).1 os

/-- no call adds arguments to this builder of types -/
def NoArgs (b : Nat) (os : List JSchOp) : Prop := ∀ k v, JSchOp.addArg b k v ∉ os

end Spec

/-- what is never changed -/
structure SchKeeps (w w' : JSchemas) : Prop where
  nTB : w.nTB ≤ w'.nTB
  nT : w.nT ≤ w'.nT
  nB : w.nB ≤ w'.nB
  nS : w.nS ≤ w'.nS
  nSch : w.nSch ≤ w'.nSch
  nL : w.nL ≤ w'.nL
  nD : w.nD ≤ w'.nD
  nN : w.nN ≤ w'.nN
  tname : ∀ i < w.nTB, w'.tname i = w.tname i
  tfrom : ∀ i < w.nT, w'.tfrom i = w.tfrom i
  bname : ∀ i < w.nB, w'.bname i = w.bname i
  sname : ∀ i < w.nS, w'.sname i = w.sname i
  sfrom : ∀ i < w.nS, w'.sfrom i = w.sfrom i
  schema : ∀ i < w.nL, w'.schema i = w.schema i
  dschema : ∀ i < w.nD, w'.dschema i = w.dschema i

theorem SchKeeps.refl (w : JSchemas) : SchKeeps w w := by constructor <;> intros <;> first | rfl | exact Nat.le_refl _

theorem SchKeeps.trans {u v w : JSchemas} (h : SchKeeps u v) (g : SchKeeps v w) : SchKeeps u w where
  nTB := Nat.le_trans h.nTB g.nTB
  nT := Nat.le_trans h.nT g.nT
  nB := Nat.le_trans h.nB g.nB
  nS := Nat.le_trans h.nS g.nS
  nSch := Nat.le_trans h.nSch g.nSch
  nL := Nat.le_trans h.nL g.nL
  nD := Nat.le_trans h.nD g.nD
  nN := Nat.le_trans h.nN g.nN
  tname i hi := (g.tname i (Nat.lt_of_lt_of_le hi h.nTB)).trans (h.tname i hi)
  tfrom i hi := (g.tfrom i (Nat.lt_of_lt_of_le hi h.nT)).trans (h.tfrom i hi)
  bname i hi := (g.bname i (Nat.lt_of_lt_of_le hi h.nB)).trans (h.bname i hi)
  sname i hi := (g.sname i (Nat.lt_of_lt_of_le hi h.nS)).trans (h.sname i hi)
  sfrom i hi := (g.sfrom i (Nat.lt_of_lt_of_le hi h.nS)).trans (h.sfrom i hi)
  schema i hi := (g.schema i (Nat.lt_of_lt_of_le hi h.nL)).trans (h.schema i hi)
  dschema i hi := (g.dschema i (Nat.lt_of_lt_of_le hi h.nD)).trans (h.dschema i hi)

theorem at1_lt {α : Type} (f : Nat → α) {i j : Nat} (a : α) (h : j < i) : JSchemas.at1 f i a j = f j := if_neg (by omega)
theorem at1_ne {α : Type} (f : Nat → α) {i j : Nat} (a : α) (h : j ≠ i) : JSchemas.at1 f i a j = f j := if_neg h
theorem at1_eq {α : Type} (f : Nat → α) (i : Nat) (a : α) : JSchemas.at1 f i a i = a := if_pos rfl

theorem docLayers_keeps : ∀ (r : List (Str × Nat)) (w : JSchemas) (d : Nat), SchKeeps w (w.docLayers d r) ∧
    (w.docLayers d r).fields = w.fields ∧ (w.docLayers d r).args = w.args ∧ (w.docLayers d r).lschema = w.lschema ∧ (w.docLayers d r).data = w.data ∧
    (w.docLayers d r).nN = w.nN ∧ (w.docLayers d r).nSch = w.nSch ∧ (w.docLayers d r).nD = w.nD ∧ (w.docLayers d r).dschema = w.dschema ∧
    (∀ e, e ≠ d → (w.docLayers d r).layers e = w.layers e) ∧ (∀ y < w.nL, (w.docLayers d r).nodes y = w.nodes y) := by
  intro r
  induction r with
  | nil => intro w d; exact ⟨.refl w, rfl, rfl, rfl, rfl, rfl, rfl, rfl, rfl, fun _ _ => rfl, fun _ _ => rfl⟩
  | cons e r ih =>
    intro w d
    obtain ⟨k, l⟩ := e
    obtain ⟨h1, h2, h3, h4, h5, h6, h7, h8, h9, h10, h11⟩ := ih { w.newLayer l with layers := JSchemas.at1 w.layers d (tput (w.layers d) (w.sname l) w.nL) } d
    rw [JSchemas.docLayers]
    refine ⟨SchKeeps.trans ?_ h1, h2, h3, h4, h5, h6, h7, h8, h9, ?_, ?_⟩
    · constructor <;> intros <;> simp only [JSchemas.newLayer] <;> first | rfl | exact Nat.le_refl _ | exact Nat.le_succ _ | skip
      rename_i i hi; exact at1_lt _ _ hi
    · intro e he; rw [h10 e he]; exact at1_ne _ _ he
    · intro y hy; rw [h11 y (Nat.lt_succ_of_lt hy)]; exact at1_lt _ _ hy

theorem schStep_keeps (w : JSchemas) (o : JSchOp) : SchKeeps w (w.step o).1 := by
  cases o
  case docOf s =>
    refine SchKeeps.trans ?_ (docLayers_keeps _ _ _).1
    constructor <;> intros <;> simp only [JSchemas.copySchema] <;> first | rfl | exact Nat.le_refl _ | exact Nat.le_succ _ | (apply at1_lt; assumption)
  all_goals
    simp only [JSchemas.step, JSchemas.newType, JSchemas.addArg, JSchemas.buildType, JSchemas.builder, JSchemas.addField, JSchemas.putField, JSchemas.build, JSchemas.slAdd,
      JSchemas.slRemove, JSchemas.newSchema, JSchemas.copySchema, JSchemas.schemaAdd, JSchemas.newLayer, JSchemas.newDoc, JSchemas.docAdd, JSchemas.docAddLayer,
      JSchemas.layAddField, JSchemas.layRemoveField, JSchemas.node]
    (repeat' split) <;> constructor <;> intros <;> first | rfl | exact Nat.le_refl _ | exact Nat.le_succ _ | (apply at1_lt; assumption)

theorem schRun_keeps : ∀ (os : List JSchOp) (w : JSchemas), SchKeeps w (w.run os) := by
  intro os
  induction os with
  | nil => intro w; exact .refl w
  | cons o os ih => intro w; exact (schStep_keeps w o).trans (ih _)

/-- what the calls do to the fields of a builder's map -/
theorem schStep_fields (w : JSchemas) (o : JSchOp) {b : Nat} (hb : b < w.nB) : (w.step o).1.fields b =
    match o with
    | .addField b' f t => if b' = b ∧ (dget (w.fields b) f).isNone then tput (w.fields b) f t else w.fields b
    | .slAdd l f t => if w.sfrom l = b ∧ (dget (w.fields b) f).isNone then tput (w.fields b) f t else w.fields b
    | .slRemove l f => if w.sfrom l = b then ddel (w.fields b) f else w.fields b
    | .layAddField y f t => if w.sfrom (w.schema y) = b ∧ (dget (w.fields b) f).isNone then tput (w.fields b) f t else w.fields b
    | .layRemoveField y f => if w.sfrom (w.schema y) = b ∧ (dget (w.fields b) f).isSome then ddel (w.fields b) f else w.fields b
    | _ => w.fields b := by
  have hput : ∀ (c : Nat) (f : Str) (t : Nat), (w.putField c f t).1.fields b = if c = b ∧ (dget (w.fields b) f).isNone then tput (w.fields b) f t else w.fields b := by
    intro c f t
    unfold JSchemas.putField
    by_cases hc : c = b
    · subst hc
      cases hd : dget (w.fields c) f <;> simp [JSchemas.at1]
    · split
      · simp [hc]
      · simp only [JSchemas.at1, hc, false_and, if_false]; rw [if_neg (fun q => hc q.symm)]
  cases o
  case addField b' f t => exact hput b' f t
  case slAdd l f t => exact hput _ f t
  case layAddField y f t =>
    show (w.layAddField y f t).1.fields b = _
    unfold JSchemas.layAddField
    split
    · rename_i h
      simp only
      rw [if_neg]
      rintro ⟨rfl, h2⟩
      cases hd : dget (w.fields (w.sfrom (w.schema y))) f <;> rw [hd] at h h2 <;> simp at h h2
    · exact hput _ f t
  case slRemove l f =>
    simp only [JSchemas.step, JSchemas.slRemove, JSchemas.at1]
    by_cases h : w.sfrom l = b
    · subst h; simp
    · rw [if_neg (fun q => h q.symm), if_neg h]
  case layRemoveField y f =>
    simp only [JSchemas.step, JSchemas.layRemoveField]
    split
    · rename_i hs
      simp only [JSchemas.slRemove, JSchemas.at1]
      by_cases h : b = w.sfrom (w.schema y)
      · subst h; rw [if_pos rfl, if_pos ⟨rfl, hs⟩]
      · rw [if_neg h, if_neg (fun q => h q.1.symm)]
    · rename_i hs
      rw [if_neg]
      rintro ⟨rfl, h⟩
      exact hs h
  case docOf s => exact congrFun (docLayers_keeps _ _ _).2.1 b
  case builder n => exact at1_lt _ _ hb
  all_goals
    simp only [JSchemas.step, JSchemas.newType, JSchemas.addArg, JSchemas.buildType, JSchemas.build,
      JSchemas.newSchema, JSchemas.copySchema, JSchemas.schemaAdd, JSchemas.newLayer, JSchemas.newDoc, JSchemas.docAdd, JSchemas.docAddLayer, JSchemas.node]
    try (split <;> rfl)

/-- C100. Names, and which builder a thing was made by, never change: all that was built by one builder, by it and by every layer
of a document that it is in, has the same fields at all times. -/
theorem C100_shared (w : JSchemas) (os : List JSchOp) {l m : Nat} (hl : l < w.nS) (hm : m < w.nS) (h : w.sfrom l = w.sfrom m) :
    (w.run os).slFields l = (w.run os).slFields m ∧ (w.run os).sname l = w.sname l ∧
    (∀ f, (w.run os).fieldType l f = dget ((w.run os).fields (w.sfrom l)) f) ∧
    (∀ y < w.nL, w.schema y = l → (w.run os).slFields ((w.run os).schema y) = (w.run os).slFields m) := by
  have k := schRun_keeps os w
  have e : (w.run os).slFields l = (w.run os).slFields m := by
    unfold JSchemas.slFields
    rw [k.sfrom l hl, k.sfrom m hm, h]
  refine ⟨e, k.sname l hl, fun f => ?_, fun y hy he => ?_⟩
  · unfold JSchemas.fieldType; rw [k.sfrom l hl]
  · rw [k.schema y hy, he, e]

theorem fields_elsewhere : ∀ (os : List JSchOp) (w : JSchemas) {b : Nat}, b < w.nB → Spec.Elsewhere b w os → (w.run os).fields b = w.fields b := by
  intro os
  induction os with
  | nil => intros; rfl
  | cons o os ih =>
    intro w b hb h
    rw [JSchemas.run, ih _ (Nat.lt_of_lt_of_le hb (schStep_keeps w o).nB) h.2, schStep_fields w o hb]
    have h1 := h.1
    cases o <;> simp only [Spec.target, ne_eq, Option.some.injEq] at h1 <;> simp [h1]

theorem args_elsewhere : ∀ (os : List JSchOp) (w : JSchemas) {b : Nat}, b < w.nTB → Spec.NoArgs b os → (w.run os).args b = w.args b := by
  intro os
  induction os with
  | nil => intros; rfl
  | cons o os ih =>
    intro w b hb h
    rw [JSchemas.run, ih _ (Nat.lt_of_lt_of_le hb (schStep_keeps w o).nTB) (fun k v hm => h k v (List.mem_cons_of_mem _ hm))]
    cases o
    case addArg c k v =>
      have hc : b ≠ c := by rintro rfl; exact h k v List.mem_cons_self
      simp only [JSchemas.step, JSchemas.addArg]
      split
      · rfl
      · exact at1_ne _ _ hc
    case docOf s => exact congrFun (docLayers_keeps _ _ _).2.2.1 b
    case newType n => exact at1_lt _ _ hb
    all_goals
      simp only [JSchemas.step, JSchemas.buildType, JSchemas.builder, JSchemas.addField, JSchemas.putField, JSchemas.build, JSchemas.slAdd,
        JSchemas.slRemove, JSchemas.newSchema, JSchemas.copySchema, JSchemas.schemaAdd, JSchemas.newLayer, JSchemas.newDoc, JSchemas.docAdd, JSchemas.docAddLayer,
        JSchemas.layAddField, JSchemas.layRemoveField, JSchemas.node]
      try (split <;> try split) <;> rfl

/-- what holds of all states -/
structure SchInv (w : JSchemas) : Prop where
  tfrom : ∀ t < w.nT, w.tfrom t < w.nTB
  fields : ∀ b < w.nB, ∀ f t, (f, t) ∈ w.fields b → t < w.nT
  forder : ∀ b < w.nB, InOrder (w.fields b)
  aorder : ∀ b < w.nTB, InOrder (w.args b)
  sfrom : ∀ l < w.nS, w.sfrom l < w.nB
  lschema : ∀ s < w.nSch, ∀ k l, (k, l) ∈ w.lschema s → l < w.nS ∧ k = w.sname l
  lorder : ∀ s < w.nSch, InOrder (w.lschema s)
  schema : ∀ y < w.nL, w.schema y < w.nS
  layers : ∀ d < w.nD, ∀ k y, (k, y) ∈ w.layers d → y < w.nL ∧ k = w.sname (w.schema y)
  order : ∀ d < w.nD, InOrder (w.layers d)
  dschema : ∀ d < w.nD, w.dschema d < w.nSch
  own : ∀ d < w.nD, ∀ e < w.nD, w.dschema d = w.dschema e → d = e
  nodes : ∀ y < w.nL, ∀ n ∈ w.nodes y, n < w.nN
  once : ∀ y < w.nL, ∀ z < w.nL, ∀ n, n ∈ w.nodes y → n ∈ w.nodes z → y = z

theorem inOrder_ddel {ν : Type} {d : Dict Str ν} (h : InOrder d) (k : Str) : InOrder (ddel d k) := by
  unfold InOrder dkeys at *
  exact List.Pairwise.sublist (List.filter_sublist.map _) h

theorem putField_inv {w : JSchemas} (h : SchInv w) {b t : Nat} (ht : t < w.nT) (f : Str) : SchInv (w.putField b f t).1 := by
  unfold JSchemas.putField
  split
  · exact h
  · refine { h with fields := ?_, forder := ?_ }
    · intro c hc g u hm
      simp only [JSchemas.at1] at hm
      split at hm
      · rename_i he
        rcases mem_tput hm with e | hm
        · cases e; exact ht
        · exact h.fields c hc g u (he ▸ hm)
      · exact h.fields c hc g u hm
    · intro c hc
      simp only [JSchemas.at1]
      split
      · rename_i he; exact inOrder_tput (he ▸ h.forder c hc) _ _
      · exact h.forder c hc

theorem schLayer_inv {w : JSchemas} (h : SchInv w) {l : Nat} (hl : l < w.nS) : SchInv (w.newLayer l) := by
  refine { h with schema := ?_, layers := ?_, nodes := ?_, once := ?_ }
  · intro y hy
    show JSchemas.at1 w.schema w.nL l y < w.nS
    unfold JSchemas.at1
    split
    · exact hl
    · exact h.schema y (by have : y < w.nL + 1 := hy; omega)
  · intro d hd k y hm
    obtain ⟨h1, h2⟩ := h.layers d hd k y hm
    refine ⟨Nat.lt_succ_of_lt h1, ?_⟩
    show k = w.sname (JSchemas.at1 w.schema w.nL l y)
    rw [at1_lt _ _ h1]; exact h2
  · intro y hy n hn
    simp only [JSchemas.newLayer, JSchemas.at1] at hn
    split at hn
    · cases hn
    · exact h.nodes y (by have : y < w.nL + 1 := hy; omega) n hn
  · intro y hy z hz n hn hm
    simp only [JSchemas.newLayer, JSchemas.at1] at hn hm
    split at hn
    · cases hn
    split at hm
    · cases hm
    exact h.once y (by have : y < w.nL + 1 := hy; omega) z (by have : z < w.nL + 1 := hz; omega) n hn hm

/-- a layer put into a document -/
theorem putLayer_inv {w : JSchemas} (h : SchInv w) {d y : Nat} (hy : y < w.nL) :
    SchInv { w with layers := JSchemas.at1 w.layers d (tput (w.layers d) (w.sname (w.schema y)) y) } := by
  refine { h with layers := ?_, order := ?_ }
  · intro e he k z hm
    simp only [JSchemas.at1] at hm
    split at hm
    · rename_i hed
      rcases mem_tput hm with q | hm
      · cases q; exact ⟨hy, rfl⟩
      · exact h.layers e he k z (hed ▸ hm)
    · exact h.layers e he k z hm
  · intro e he
    simp only [JSchemas.at1]
    split
    · rename_i hed; exact inOrder_tput (hed ▸ h.order e he) _ _
    · exact h.order e he

theorem docLayers_inv : ∀ (r : List (Str × Nat)) (w : JSchemas) (d : Nat), SchInv w → (∀ k l, (k, l) ∈ r → l < w.nS) → SchInv (w.docLayers d r) := by
  intro r
  induction r with
  | nil => intro w d h _; exact h
  | cons e r ih =>
    intro w d h hr
    obtain ⟨k, l⟩ := e
    rw [JSchemas.docLayers]
    have h1 := schLayer_inv h (hr k l List.mem_cons_self)
    have h2 := putLayer_inv h1 (d := d) (y := w.nL) (Nat.lt_succ_self _)
    have e : (w.newLayer l).sname ((w.newLayer l).schema w.nL) = w.sname l := by
      show w.sname (JSchemas.at1 w.schema w.nL l w.nL) = _
      rw [at1_eq]
    rw [e] at h2
    exact ih _ d h2 (fun k l hm => hr k l (List.mem_cons_of_mem _ hm))

theorem schemaAdd_inv {w : JSchemas} (h : SchInv w) {s l : Nat} (hl : l < w.nS) : SchInv (w.schemaAdd s l) := by
  refine { h with lschema := ?_, lorder := ?_ }
  · intro e he k z hm
    simp only [JSchemas.schemaAdd, JSchemas.at1] at hm
    split at hm
    · rename_i hed
      rcases mem_tput hm with q | hm
      · cases q; exact ⟨hl, rfl⟩
      · exact h.lschema e he k z (hed ▸ hm)
    · exact h.lschema e he k z hm
  · intro e he
    simp only [JSchemas.schemaAdd, JSchemas.at1]
    split
    · rename_i hed; exact inOrder_tput (hed ▸ h.lorder e he) _ _
    · exact h.lorder e he

theorem inOrder_nil {ν : Type} : InOrder ([] : Dict Str ν) := List.Pairwise.nil

/-- a new Schema with these layers, and a document that has it -/
theorem schSchema_inv {w : JSchemas} (h : SchInv w) {x : Dict Str Nat} (hx : ∀ k l, (k, l) ∈ x → l < w.nS ∧ k = w.sname l) (ho : InOrder x) :
    SchInv { w with lschema := JSchemas.at1 w.lschema w.nSch x, nSch := w.nSch + 1 } := by
  refine { h with lschema := ?_, lorder := ?_, dschema := fun d hd => Nat.lt_succ_of_lt (h.dschema d hd) }
  · intro s hs k l hm
    simp only [JSchemas.at1] at hm
    split at hm
    · exact hx k l hm
    · exact h.lschema s (by have : s < w.nSch + 1 := hs; omega) k l hm
  · intro s hs
    simp only [JSchemas.at1]
    split
    · exact ho
    · exact h.lorder s (by have : s < w.nSch + 1 := hs; omega)

theorem schDoc_inv {w : JSchemas} (h : SchInv w) {x : Dict Str Nat} (hx : ∀ k l, (k, l) ∈ x → l < w.nS ∧ k = w.sname l) (ho : InOrder x) :
    SchInv { w with lschema := JSchemas.at1 w.lschema w.nSch x, nSch := w.nSch + 1,
                    dschema := JSchemas.at1 w.dschema w.nD w.nSch, layers := JSchemas.at1 w.layers w.nD [], nD := w.nD + 1 } := by
  have h1 := schSchema_inv h hx ho
  refine { h1 with layers := ?_, order := ?_, dschema := ?_, own := ?_ }
  · intro d hd k y hm
    simp only [JSchemas.at1] at hm
    split at hm
    · cases hm
    · exact h.layers d (by have : d < w.nD + 1 := hd; omega) k y hm
  · intro d hd
    simp only [JSchemas.at1]
    split
    · exact inOrder_nil
    · exact h.order d (by have : d < w.nD + 1 := hd; omega)
  · intro d hd
    simp only [JSchemas.at1]
    split
    · exact Nat.lt_succ_self _
    · exact Nat.lt_succ_of_lt (h.dschema d (by have : d < w.nD + 1 := hd; omega))
  · intro d hd e he
    have hd : d < w.nD + 1 := hd
    have he : e < w.nD + 1 := he
    simp only [JSchemas.at1]
    split <;> split
    · intros; omega
    · intro q; have := h.dschema e (by omega); omega
    · intro q; have := h.dschema d (by omega); omega
    · exact h.own d (by omega) e (by omega)

theorem schStep_inv {w : JSchemas} (h : SchInv w) {o : JSchOp} (ho : Spec.Refers w o) : SchInv (w.step o).1 := by
  cases o
  case newType n =>
    refine { h with tfrom := fun t ht => Nat.lt_succ_of_lt (h.tfrom t ht), aorder := ?_ }
    intro b hb
    simp only [JSchemas.step, JSchemas.newType, JSchemas.at1]
    split
    · exact inOrder_nil
    · exact h.aorder b (by have : b < w.nTB + 1 := hb; omega)
  case addArg c k v =>
    simp only [JSchemas.step, JSchemas.addArg]
    split
    · exact h
    · refine { h with aorder := ?_ }
      intro b hb
      simp only [JSchemas.at1]
      split
      · rename_i e; exact inOrder_tput (e ▸ h.aorder b hb) _ _
      · exact h.aorder b hb
  case buildType b =>
    refine { h with tfrom := ?_, fields := fun b hb f t hm => Nat.lt_succ_of_lt (h.fields b hb f t hm) }
    intro t ht
    simp only [JSchemas.step, JSchemas.buildType, JSchemas.at1]
    split
    · exact ho
    · exact h.tfrom t (by have : t < w.nT + 1 := ht; omega)
  case builder n =>
    refine { h with fields := ?_, forder := ?_, sfrom := fun l hl => Nat.lt_succ_of_lt (h.sfrom l hl) }
    · intro b hb f t hm
      simp only [JSchemas.step, JSchemas.builder, JSchemas.at1] at hm
      split at hm
      · cases hm
      · exact h.fields b (by have : b < w.nB + 1 := hb; omega) f t hm
    · intro b hb
      simp only [JSchemas.step, JSchemas.builder, JSchemas.at1]
      split
      · exact inOrder_nil
      · exact h.forder b (by have : b < w.nB + 1 := hb; omega)
  case addField b f t => exact putField_inv h ho.2 f
  case build b =>
    refine { h with sfrom := ?_, lschema := ?_, schema := fun y hy => Nat.lt_succ_of_lt (h.schema y hy), layers := ?_ }
    · intro l hl
      simp only [JSchemas.step, JSchemas.build, JSchemas.at1]
      split
      · exact ho
      · exact h.sfrom l (by have : l < w.nS + 1 := hl; omega)
    · intro s hs k l hm
      obtain ⟨h1, h2⟩ := h.lschema s hs k l hm
      refine ⟨Nat.lt_succ_of_lt h1, ?_⟩
      simp only [JSchemas.step, JSchemas.build]
      rw [at1_lt _ _ h1]; exact h2
    · intro d hd k y hm
      obtain ⟨h1, h2⟩ := h.layers d hd k y hm
      refine ⟨h1, ?_⟩
      simp only [JSchemas.step, JSchemas.build]
      rw [at1_lt _ _ (h.schema y h1)]; exact h2
  case slAdd l f t => exact putField_inv h ho.2 f
  case slRemove l f =>
    refine { h with fields := ?_, forder := ?_ }
    · intro b hb g t hm
      simp only [JSchemas.step, JSchemas.slRemove, JSchemas.at1] at hm
      split at hm
      · rename_i e; exact h.fields b hb g t (e ▸ (List.mem_filter.mp hm).1)
      · exact h.fields b hb g t hm
    · intro b hb
      simp only [JSchemas.step, JSchemas.slRemove, JSchemas.at1]
      split
      · rename_i e; exact inOrder_ddel (e ▸ h.forder b hb) _
      · exact h.forder b hb
  case newSchema => exact schSchema_inv h (by simp) inOrder_nil
  case copySchema s => exact schSchema_inv h (h.lschema s ho) (h.lorder s ho)
  case schemaAdd s l => exact schemaAdd_inv h ho.2
  case newLayer l => exact schLayer_inv h ho
  case newDoc => exact schDoc_inv h (by simp) inOrder_nil
  case docOf s => exact docLayers_inv _ _ _ (schDoc_inv h (h.lschema s ho) (h.lorder s ho)) (fun k l hm => (h.lschema s ho k l hm).1)
  case docAdd d l =>
    have h1 := schemaAdd_inv (s := w.dschema d) (schLayer_inv h ho.2) (l := l) ho.2
    have h2 := putLayer_inv h1 (d := d) (y := w.nL) (Nat.lt_succ_self _)
    have e : ((w.newLayer l).schemaAdd (w.dschema d) l).sname (((w.newLayer l).schemaAdd (w.dschema d) l).schema w.nL) = w.sname l := by
      show w.sname (JSchemas.at1 w.schema w.nL l w.nL) = _
      rw [at1_eq]
    rw [e] at h2
    exact h2
  case docAddLayer d y =>
    simp only [JSchemas.step, JSchemas.docAddLayer]
    split
    · exact h
    · exact putLayer_inv h ho.2
  case layAddField y f t =>
    simp only [JSchemas.step, JSchemas.layAddField]
    split
    · exact h
    · exact putField_inv h ho.2 f
  case layRemoveField y f =>
    simp only [JSchemas.step, JSchemas.layRemoveField]
    split
    · refine { h with fields := ?_, forder := ?_ }
      · intro b hb g t hm
        simp only [JSchemas.slRemove, JSchemas.at1] at hm
        split at hm
        · rename_i e; exact h.fields b hb g t (e ▸ (List.mem_filter.mp hm).1)
        · exact h.fields b hb g t hm
      · intro b hb
        simp only [JSchemas.slRemove, JSchemas.at1]
        split
        · rename_i e; exact inOrder_ddel (e ▸ h.forder b hb) _
        · exact h.forder b hb
    · exact h
  case node y vs =>
    refine { h with nodes := ?_, once := ?_ }
    · intro z hz n hn
      simp only [JSchemas.step, JSchemas.node, JSchemas.at1] at hn
      split at hn
      · rename_i e
        rcases List.mem_append.mp hn with hn | hn
        · exact Nat.lt_succ_of_lt (h.nodes z hz n (e ▸ hn))
        · rw [List.mem_singleton.mp hn]; exact Nat.lt_succ_self _
      · exact Nat.lt_succ_of_lt (h.nodes z hz n hn)
    · intro a ha b hb n hn hm
      have na := h.nodes a ha n
      have nb := h.nodes b hb n
      have hh := h.once a ha b hb n
      simp only [JSchemas.step, JSchemas.node, JSchemas.at1] at hn hm
      split at hn <;> split at hm
      · omega
      · rename_i e _
        subst e
        rcases List.mem_append.mp hn with hn | hn
        · exact hh hn hm
        · have := List.mem_singleton.mp hn; have := nb hm; omega
      · rename_i _ e
        subst e
        rcases List.mem_append.mp hm with hm | hm
        · exact hh hn hm
        · have := List.mem_singleton.mp hm; have := na hn; omega
      · exact hh hn hm

theorem schRun_inv : ∀ (os : List JSchOp) {w : JSchemas}, SchInv w → Spec.Runs w os → SchInv (w.run os) := by
  intro os
  induction os with
  | nil => intro w h _; exact h
  | cons o os ih => intro w h ho; exact ih (schStep_inv h ho.1) ho.2

theorem schNew_inv : SchInv {} where
  tfrom _ h := absurd h (Nat.not_lt_zero _)
  fields _ h := absurd h (Nat.not_lt_zero _)
  forder _ h := absurd h (Nat.not_lt_zero _)
  aorder _ h := absurd h (Nat.not_lt_zero _)
  sfrom _ h := absurd h (Nat.not_lt_zero _)
  lschema _ h := absurd h (Nat.not_lt_zero _)
  lorder _ h := absurd h (Nat.not_lt_zero _)
  schema _ h := absurd h (Nat.not_lt_zero _)
  layers _ h := absurd h (Nat.not_lt_zero _)
  order _ h := absurd h (Nat.not_lt_zero _)
  dschema _ h := absurd h (Nat.not_lt_zero _)
  own _ h := absurd h (Nat.not_lt_zero _)
  nodes _ h := absurd h (Nat.not_lt_zero _)
  once _ h := absurd h (Nat.not_lt_zero _)

theorem made_inv {w : JSchemas} (h : Spec.Made w) : SchInv w := by
  obtain ⟨os, h, rfl⟩ := h
  exact schRun_inv os schNew_inv h

/-! ### builders -/

/-- C100. A builder refuses a field (of a type, an argument) that it has, and so do Schema.Layers and Layers. -/
theorem C100_refused (w : JSchemas) : (∀ b k v, (w.step (.addArg b k v)) = if k ∈ dkeys (w.args b) then (w, .error .value) else ((w.step (.addArg b k v)).1, .ok ())) ∧
    (∀ b f t, (w.step (.addField b f t)) = if f ∈ dkeys (w.fields b) then (w, .error .value) else ((w.step (.addField b f t)).1, .ok ())) ∧
    (∀ l f t, (w.step (.slAdd l f t)) = if (w.fieldType l f).isSome then (w, .error .value) else ((w.step (.slAdd l f t)).1, .ok ())) ∧
    (∀ y f t, (w.step (.layAddField y f t)) = if (w.fieldType (w.schema y) f).isSome then (w, .error .value) else ((w.step (.layAddField y f t)).1, .ok ())) := by
  refine ⟨fun b k v => ?_, fun b f t => ?_, fun l f t => ?_, fun y f t => ?_⟩
  · simp only [JSchemas.step, JSchemas.addArg]
    by_cases h : k ∈ dkeys (w.args b)
    · rw [if_pos h, if_pos ((dget_isSome_iff _ _).mpr h)]
    · rw [if_neg h, if_neg (fun q => h ((dget_isSome_iff _ _).mp q))]
  · simp only [JSchemas.step, JSchemas.addField, JSchemas.putField]
    by_cases h : f ∈ dkeys (w.fields b)
    · rw [if_pos h, if_pos ((dget_isSome_iff _ _).mpr h)]
    · rw [if_neg h, if_neg (fun q => h ((dget_isSome_iff _ _).mp q))]
  · simp only [JSchemas.step, JSchemas.slAdd, JSchemas.putField, JSchemas.fieldType]
    split <;> rfl
  · simp only [JSchemas.step, JSchemas.layAddField, JSchemas.slAdd, JSchemas.putField, JSchemas.fieldType]
    split <;> simp_all

theorem schRun_append : ∀ (os ps : List JSchOp) (w : JSchemas), w.run (os ++ ps) = (w.run os).run ps := by
  intro os
  induction os with
  | nil => intros; rfl
  | cons o os ih => intro ps w; exact ih ps _

theorem run_addFields : ∀ (fs : Dict Str Nat) (w : JSchemas) (b : Nat), b < w.nB → (dkeys fs).Nodup → (∀ f ∈ dkeys fs, f ∉ dkeys (w.fields b)) →
    let w' := w.run (fs.map fun e => .addField b e.1 e.2)
    (∀ f, dget (w'.fields b) f = (dget fs f).or (dget (w.fields b) f)) ∧ w'.nS = w.nS ∧ w'.nB = w.nB ∧ w'.bname = w.bname := by
  intro fs
  induction fs with
  | nil => intro w b _ _ _; exact ⟨fun f => by simp [dget, JSchemas.run], rfl, rfl, rfl⟩
  | cons e fs ih =>
    intro w b hb hn hd
    obtain ⟨k, t⟩ := e
    have hk : k ∉ dkeys (w.fields b) := hd k (by simp [dkeys])
    have hs : (w.step (.addField b k t)).1 = { w with fields := JSchemas.at1 w.fields b (tput (w.fields b) k t) } := by
      simp only [JSchemas.step, JSchemas.addField, JSchemas.putField]
      rw [if_neg (fun q => hk ((dget_isSome_iff _ _).mp q))]
    have hn' := List.nodup_cons.mp hn
    obtain ⟨h1, h2, h3, h4⟩ := ih (w.step (.addField b k t)).1 b (by rw [hs]; exact hb) hn'.2 (by
      intro f hf
      rw [hs]
      simp only [at1_eq]
      rw [mem_dkeys_tput]
      rintro (rfl | h)
      · exact hn'.1 hf
      · exact hd f (List.mem_cons_of_mem _ hf) h)
    simp only [List.map_cons, JSchemas.run]
    refine ⟨fun f => ?_, by rw [h2, hs], by rw [h3, hs], by rw [h4, hs]⟩
    rw [h1, hs]
    simp only [at1_eq, dget_tput, dget]
    by_cases hf : k = f
    · subst hf
      have : dget fs k = none := (dget_none_iff _ _).mpr hn'.1
      simp [this]
    · simp [hf]

/-- C100. A Schema.Layer built from a new builder has its name and the fields that were added, in the order of their names. -/
theorem C100_built {w : JSchemas} (hm : Spec.Made w) (n : Str) (fs : Dict Str Nat) (hn : (dkeys fs).Nodup) (ht : ∀ e ∈ fs, e.2 < w.nT) :
    let w' := w.run (.builder n :: (fs.map fun e => .addField w.nB e.1 e.2) ++ [.build w.nB])
    w'.sname w.nS = n ∧ (∀ f, w'.fieldType w.nS f = dget fs f) ∧ w'.nS = w.nS + 1 ∧ InOrder (w'.fields (w'.sfrom w.nS)) := by
  intro w'
  have hw := made_inv hm
  have hw1 : (w.step (.builder n)).1 = w.builder n := rfl
  have hb : w.nB < (w.builder n).nB := Nat.lt_succ_self _
  have hf0 : (w.builder n).fields w.nB = [] := at1_eq _ _ _
  obtain ⟨h1, h2, h3, h4⟩ := run_addFields fs (w.builder n) w.nB hb hn (by rw [hf0]; simp [dkeys])
  have e : w' = ((w.builder n).run (fs.map fun e => .addField w.nB e.1 e.2)).build w.nB := by
    show (w.run ((JSchOp.builder n :: (fs.map fun e => .addField w.nB e.1 e.2)) ++ [.build w.nB])) = _
    rw [schRun_append]; rfl
  have hruns : ∀ (fs : Dict Str Nat) (u : JSchemas), w.nB < u.nB → (∀ e ∈ fs, e.2 < u.nT) → Spec.Runs u (fs.map fun e => .addField w.nB e.1 e.2) := by
    intro fs
    induction fs with
    | nil => intros; trivial
    | cons x fs ih =>
      intro u hu hx
      have k := schStep_keeps u (.addField w.nB x.1 x.2)
      exact ⟨⟨hu, hx x List.mem_cons_self⟩, ih _ (Nat.lt_of_lt_of_le hu k.nB) (fun e he => Nat.lt_of_lt_of_le (hx e (List.mem_cons_of_mem _ he)) k.nT)⟩
  have hi : SchInv ((w.builder n).run (fs.map fun e => .addField w.nB e.1 e.2)) :=
    schRun_inv _ (schStep_inv (o := .builder n) hw trivial) (hruns fs _ hb ht)
  have hi' : SchInv w' := by
    rw [e]; exact schStep_inv (o := .build w.nB) hi (by show w.nB < _; rw [h3]; exact hb)
  have hfrom : w'.sfrom w.nS = w.nB := by
    rw [e]; simp only [JSchemas.build]; rw [h2]; exact at1_eq _ _ _
  have hS : w'.nS = w.nS + 1 := by rw [e]; simp only [JSchemas.build]; rw [h2]; rfl
  refine ⟨?_, fun f => ?_, hS, hi'.forder _ (hi'.sfrom _ (by omega))⟩
  · rw [e]; simp only [JSchemas.build]; rw [h2, show (w.builder n).nS = w.nS from rfl, at1_eq, h4]; exact at1_eq _ _ _
  · unfold JSchemas.fieldType
    rw [hfrom, e]
    simp only [JSchemas.build]
    rw [h1, hf0]
    simp [dget]

theorem run_addArgs : ∀ (as : Dict Str JVal) (w : JSchemas) (b : Nat), (dkeys as).Nodup → (∀ f ∈ dkeys as, f ∉ dkeys (w.args b)) →
    let w' := w.run (as.map fun e => .addArg b e.1 e.2)
    (∀ f, dget (w'.args b) f = (dget as f).or (dget (w.args b) f)) ∧ w'.nT = w.nT ∧ w'.tname = w.tname := by
  intro fs
  induction fs with
  | nil => intro w b _ _; exact ⟨fun f => by simp [dget, JSchemas.run], rfl, rfl⟩
  | cons e fs ih =>
    intro w b hn hd
    obtain ⟨k, t⟩ := e
    have hk : k ∉ dkeys (w.args b) := hd k (by simp [dkeys])
    have hs : (w.step (.addArg b k t)).1 = { w with args := JSchemas.at1 w.args b (tput (w.args b) k t) } := by
      simp only [JSchemas.step, JSchemas.addArg]
      rw [if_neg (fun q => hk ((dget_isSome_iff _ _).mp q))]
    have hn' := List.nodup_cons.mp hn
    obtain ⟨h1, h2, h3⟩ := ih (w.step (.addArg b k t)).1 b hn'.2 (by
      intro f hf
      rw [hs]
      simp only [at1_eq]
      rw [mem_dkeys_tput]
      rintro (rfl | h)
      · exact hn'.1 hf
      · exact hd f (List.mem_cons_of_mem _ hf) h)
    simp only [List.map_cons, JSchemas.run]
    refine ⟨fun f => ?_, by rw [h2, hs], by rw [h3, hs]⟩
    rw [h1, hs]
    simp only [at1_eq, dget_tput, dget]
    by_cases hf : k = f
    · subst hf
      have : dget fs k = none := (dget_none_iff _ _).mpr hn'.1
      simp [this]
    · simp [hf]

/-- C100. A DataType built from a new builder has its name and the arguments that were added. -/
theorem C100_built_type (w : JSchemas) (n : JTName) (as : Dict Str JVal) (hn : (dkeys as).Nodup) :
    let w' := w.run (.newType n :: (as.map fun e => .addArg w.nTB e.1 e.2) ++ [.buildType w.nTB])
    (w'.type w.nT).name = n ∧ (∀ k, dget (w'.type w.nT).args k = dget as k) ∧ w'.nT = w.nT + 1 := by
  intro w'
  have hf0 : (w.newType n).args w.nTB = [] := at1_eq _ _ _
  obtain ⟨h1, h2, h3⟩ := run_addArgs as (w.newType n) w.nTB hn (by rw [hf0]; simp [dkeys])
  have e : w' = ((w.newType n).run (as.map fun e => .addArg w.nTB e.1 e.2)).buildType w.nTB := by
    show (w.run ((JSchOp.newType n :: (as.map fun e => .addArg w.nTB e.1 e.2)) ++ [.buildType w.nTB])) = _
    rw [schRun_append]; rfl
  have hfrom : w'.tfrom w.nT = w.nTB := by
    rw [e]; simp only [JSchemas.buildType]; rw [h2]; exact at1_eq _ _ _
  have hargs : w'.args = ((w.newType n).run (as.map fun e => .addArg w.nTB e.1 e.2)).args := by rw [e]; rfl
  have hname : w'.tname = (w.newType n).tname := by rw [e]; exact h3
  refine ⟨?_, fun k => ?_, by rw [e]; simp only [JSchemas.buildType]; rw [h2]; rfl⟩
  · simp only [JSchemas.type]; rw [hfrom, hname]; exact at1_eq _ _ _
  · simp only [JSchemas.type]; rw [hfrom, hargs, h1, hf0]; simp [dget]

/-! ### independence -/

/-- C100. What is in no way about the fields of things from a Schema.Layer's builder, or the arguments of its types, does not
change its fields. -/
theorem C100_apart_partial {w : JSchemas} (hm : Spec.Made w) (os : List JSchOp) {l : Nat} (hl : l < w.nS) (h : Spec.Elsewhere (w.sfrom l) w os)
    (ha : ∀ f t, w.fieldType l f = some t → Spec.NoArgs (w.tfrom t) os) : (w.run os).slFields l = w.slFields l := by
  have hw := made_inv hm
  have k := schRun_keeps os w
  unfold JSchemas.slFields
  rw [k.sfrom l hl, fields_elsewhere os w (hw.sfrom l hl) h]
  apply List.map_congr_left
  rintro ⟨f, t⟩ hm
  have ht := hw.fields _ (hw.sfrom l hl) f t hm
  have hft : w.fieldType l f = some t := dget_of_mem (hw.forder _ (hw.sfrom l hl)).nodup hm
  have htb := hw.tfrom t ht
  simp only [JSchemas.type]
  rw [k.tfrom t ht, k.tname _ htb, args_elsewhere os w htb (ha f t hft)]

/-- C100. Each call changes the fields of what was built by one builder, in the way its name says; and what is said of the builder
holds for all that it built. -/
theorem C100_fields {w : JSchemas} (hm : Spec.Made w) (o : JSchOp) {l : Nat} (hl : l < w.nS) (g : Str) :
    (w.step o).1.fieldType l g =
      match o with
      | .addField b f t => if b = w.sfrom l ∧ f = g then (w.fieldType l f).or (some t) else w.fieldType l g
      | .slAdd m f t => if w.sfrom m = w.sfrom l ∧ f = g then (w.fieldType l f).or (some t) else w.fieldType l g
      | .slRemove m f => if w.sfrom m = w.sfrom l ∧ f = g then none else w.fieldType l g
      | .layAddField y f t => if w.sfrom (w.schema y) = w.sfrom l ∧ f = g then (w.fieldType l f).or (some t) else w.fieldType l g
      | .layRemoveField y f => if w.sfrom (w.schema y) = w.sfrom l ∧ f = g then none else w.fieldType l g
      | _ => w.fieldType l g := by
  have hw := made_inv hm
  have hb := hw.sfrom l hl
  have k := (schStep_keeps w o).sfrom l hl
  unfold JSchemas.fieldType
  rw [k, schStep_fields w o hb]
  have hput : ∀ (c : Nat) (f : Str) (t : Nat), dget (if c = w.sfrom l ∧ (dget (w.fields (w.sfrom l)) f).isNone then tput (w.fields (w.sfrom l)) f t else w.fields (w.sfrom l)) g =
      if c = w.sfrom l ∧ f = g then (dget (w.fields (w.sfrom l)) f).or (some t) else dget (w.fields (w.sfrom l)) g := by
    intro c f t
    by_cases hc : c = w.sfrom l
    · cases hd : dget (w.fields (w.sfrom l)) f with
      | none =>
        simp only [hc, true_and, Option.isNone_none, if_true, dget_tput, Option.none_or]
      | some x =>
        simp only [hc, true_and, Option.isNone_some, Bool.false_eq_true, if_false, Option.some_or]
        split
        · rename_i e; rw [← e, hd]
        · rfl
    · simp [hc]
  cases o
  case addField b f t => exact hput b f t
  case slAdd m f t => exact hput _ f t
  case layAddField y f t => exact hput _ f t
  case slRemove m f =>
    simp only
    by_cases hc : w.sfrom m = w.sfrom l
    · simp only [hc, true_and, if_true, dget_ddel]
    · simp [hc]
  case layRemoveField y f =>
    simp only
    by_cases hc : w.sfrom (w.schema y) = w.sfrom l
    · cases hd : dget (w.fields (w.sfrom l)) f with
      | none =>
        simp only [hc, true_and, Option.isSome_none, Bool.false_eq_true, if_false]
        split
        · rename_i e; rw [← e, hd]
        · rfl
      | some x =>
        simp only [hc, true_and, Option.isSome_some, if_true, dget_ddel]
    · simp [hc]
  all_goals rfl

/-! ### documents -/

theorem docLayers_layers : ∀ (r : List (Str × Nat)) (w : JSchemas) (d : Nat), (dkeys r).Nodup → (∀ k l, (k, l) ∈ r → k = w.sname l) →
    let w' := w.docLayers d r
    (∀ k, (dget r k = none → dget (w'.layers d) k = dget (w.layers d) k) ∧
      ∀ l, dget r k = some l → ∃ y, dget (w'.layers d) k = some y ∧ w.nL ≤ y ∧ y < w'.nL ∧ w'.schema y = l ∧ w'.nodes y = []) := by
  intro r
  induction r with
  | nil => intro w d _ _ w' k; exact ⟨fun _ => rfl, fun l h => by cases h⟩
  | cons e r ih =>
    obtain ⟨k0, l0⟩ := e
    intro w d hn hr w' k
    have hn' := List.nodup_cons.mp hn
    have hk0 : k0 = w.sname l0 := hr k0 l0 List.mem_cons_self
    let u : JSchemas := { w.newLayer l0 with layers := JSchemas.at1 w.layers d (tput (w.layers d) (w.sname l0) w.nL) }
    have hw' : w' = u.docLayers d r := rfl
    have hu : u.layers d = tput (w.layers d) k0 w.nL := by rw [hk0]; exact at1_eq _ _ _
    obtain ⟨kk, -, -, -, -, -, -, -, -, -, hnodes⟩ := docLayers_keeps r u d
    obtain ⟨h1, h2⟩ := ih u d hn'.2 (fun k l hm => hr k l (List.mem_cons_of_mem _ hm)) k
    rw [← hw'] at h1 h2 kk hnodes
    have hlt : w.nL < u.nL := Nat.lt_succ_self _
    simp only [dget]
    by_cases hk : k0 = k
    · subst hk
      have hr0 : dget r k0 = none := (dget_none_iff _ _).mpr hn'.1
      rw [if_pos rfl]
      refine ⟨fun h => absurd h (by simp), fun l hl => ?_⟩
      have hl := Option.some.inj hl
      subst hl
      refine ⟨w.nL, ?_, Nat.le_refl _, Nat.lt_of_lt_of_le hlt kk.nL, ?_, ?_⟩
      · rw [h1 hr0, hu, dget_tput, if_pos rfl]
      · rw [kk.schema _ hlt]; exact at1_eq _ _ _
      · rw [hnodes _ hlt]; exact at1_eq _ _ _
    · rw [if_neg hk]
      refine ⟨fun h => by rw [h1 h, hu, dget_tput, if_neg hk], fun l hl => ?_⟩
      obtain ⟨y, q1, q2, q3⟩ := h2 l hl
      exact ⟨y, q1, Nat.le_trans (Nat.le_of_lt hlt) q2, q3⟩

namespace Spec

/-- the Schema of a document has just the schemas of its layers -/
def Agrees (w : JSchemas) (d : Nat) : Prop := ∀ k, dget (w.lschema (w.dschema d)) k = (dget (w.layers d) k).map w.schema

/-- calls that leave the document's Schema and its map of layers to `Document.add(Schema.Layer)` -/
def Orderly (w : JSchemas) (d : Nat) (os : List JSchOp) : Prop := (∀ l, JSchOp.schemaAdd (w.dschema d) l ∉ os) ∧ (∀ y, JSchOp.docAddLayer d y ∉ os)

end Spec

/-- C100. `new Document(schema)` has a new layer without nodes for each layer of the schema, with its schema, and no others; its own
Schema has the same layers. Other documents and Schemas stay as they are. -/
theorem C100_document {w : JSchemas} (hm : Spec.Made w) {s : Nat} (hs : s < w.nSch) :
    let w' := (w.step (.docOf s)).1
    w'.nD = w.nD + 1 ∧ Spec.Agrees w' w.nD ∧ w'.lschema (w'.dschema w.nD) = w.lschema s ∧ w'.dschema w.nD = w.nSch ∧
    (∀ k, dget (w'.layers w.nD) k = none ↔ dget (w.lschema s) k = none) ∧
    (∀ k l, dget (w.lschema s) k = some l → ∃ y, dget (w'.layers w.nD) k = some y ∧ w.nL ≤ y ∧ y < w'.nL ∧ w'.schema y = l ∧ w'.nodes y = []) ∧
    (∀ d < w.nD, w'.layers d = w.layers d) ∧ (∀ s < w.nSch, w'.lschema s = w.lschema s) ∧ (∀ y < w.nL, w'.nodes y = w.nodes y) ∧ w'.data = w.data := by
  intro w'
  have hw := made_inv hm
  let u : JSchemas := { w.copySchema s with dschema := JSchemas.at1 w.dschema w.nD w.nSch, layers := JSchemas.at1 w.layers w.nD [], nD := w.nD + 1 }
  have hw' : w' = u.docLayers w.nD (w.lschema s) := rfl
  obtain ⟨kk, -, -, h4, h5, -, -, h8, h9, h10, h11⟩ := docLayers_keeps (w.lschema s) u w.nD
  rw [← hw'] at kk h4 h5 h8 h9 h10 h11
  have hL := docLayers_layers (w.lschema s) u w.nD (hw.lorder s hs).nodup (fun k l hm => (hw.lschema s hs k l hm).2)
  rw [← hw'] at hL
  have hu0 : u.layers w.nD = [] := at1_eq _ _ _
  have hds : w'.dschema w.nD = w.nSch := by rw [h9]; exact at1_eq _ _ _
  have hls : w'.lschema (w'.dschema w.nD) = w.lschema s := by rw [hds, h4]; exact at1_eq _ _ _
  refine ⟨h8, ?_, hls, hds, ?_, fun k l h => (hL k).2 l h, ?_, ?_, ?_, h5⟩
  · intro k
    rw [hls]
    cases hd : dget (w.lschema s) k with
    | none => rw [(hL k).1 hd, hu0]; rfl
    | some l =>
      obtain ⟨y, q1, -, -, q4, -⟩ := (hL k).2 l hd
      rw [q1, Option.map_some, q4]
  · intro k
    constructor
    · intro h
      cases hd : dget (w.lschema s) k with
      | none => rfl
      | some l =>
        obtain ⟨y, q1, -⟩ := (hL k).2 l hd
        rw [h] at q1; cases q1
    · intro h; rw [(hL k).1 h, hu0]; rfl
  · intro d hd
    rw [h10 d (by omega)]; exact at1_lt _ _ hd
  · intro t ht
    rw [h4]; exact at1_lt _ _ ht
  · intro y hy
    rw [h11 y hy]; rfl

/-- what a call does to the layers of a document and to a Schema -/
theorem schStep_doc {w : JSchemas} (hw : SchInv w) {o : JSchOp} (ho : Spec.Refers w o) {d : Nat} (hd : d < w.nD)
    (hn1 : ∀ l, o ≠ .schemaAdd (w.dschema d) l) (hn2 : ∀ y, o ≠ .docAddLayer d y) (hadd : ∀ l, o ≠ .docAdd d l) :
    (w.step o).1.layers d = w.layers d ∧ (w.step o).1.lschema (w.dschema d) = w.lschema (w.dschema d) := by
  have hs := hw.dschema d hd
  cases o
  case docOf s =>
    obtain ⟨-, -, -, h4, -, -, -, -, -, h10, -⟩ := docLayers_keeps (w.lschema s) ({ w.copySchema s with dschema := JSchemas.at1 w.dschema w.nD w.nSch, layers := JSchemas.at1 w.layers w.nD [], nD := w.nD + 1 } : JSchemas) w.nD
    refine ⟨(h10 d (by omega)).trans (at1_lt _ _ hd), ?_⟩
    exact (congrFun h4 _).trans (at1_lt _ _ hs)
  case newDoc => exact ⟨at1_lt _ _ hd, at1_lt _ _ hs⟩
  case newSchema => exact ⟨rfl, at1_lt _ _ hs⟩
  case copySchema s => exact ⟨rfl, at1_lt _ _ hs⟩
  case schemaAdd s l =>
    exact ⟨rfl, at1_ne _ _ (fun e => hn1 l (by rw [e]))⟩
  case docAdd e l =>
    have hde : d ≠ e := fun q => hadd l (by rw [q])
    refine ⟨at1_ne _ _ hde, ?_⟩
    exact at1_ne _ _ (fun q => hde (hw.own d hd e ho.1 q))
  case docAddLayer e y =>
    have hde : d ≠ e := fun q => hn2 y (by rw [q])
    simp only [JSchemas.step, JSchemas.docAddLayer]
    split
    · exact ⟨rfl, rfl⟩
    · exact ⟨at1_ne _ _ hde, rfl⟩
  all_goals
    simp only [JSchemas.step, JSchemas.newType, JSchemas.addArg, JSchemas.buildType, JSchemas.builder, JSchemas.addField, JSchemas.putField, JSchemas.build, JSchemas.slAdd,
      JSchemas.slRemove, JSchemas.newLayer, JSchemas.layAddField, JSchemas.layRemoveField, JSchemas.node]
    first | exact ⟨trivial, trivial⟩ | (split <;> first | exact ⟨rfl, rfl⟩ | (split <;> exact ⟨rfl, rfl⟩))

theorem agrees_step {w : JSchemas} (hw : SchInv w) {o : JSchOp} (ho : Spec.Refers w o) {d : Nat} (hd : d < w.nD) (h : Spec.Agrees w d)
    (hn1 : ∀ l, o ≠ .schemaAdd (w.dschema d) l) (hn2 : ∀ y, o ≠ .docAddLayer d y) : Spec.Agrees (w.step o).1 d := by
  have k := schStep_keeps w o
  intro x
  by_cases hadd : ∃ l, o = .docAdd d l
  · obtain ⟨l, rfl⟩ := hadd
    have e1 : (w.step (.docAdd d l)).1.layers d = tput (w.layers d) (w.sname l) w.nL := at1_eq _ _ _
    have e2 : (w.step (.docAdd d l)).1.lschema (w.dschema d) = tput (w.lschema (w.dschema d)) (w.sname l) l := at1_eq _ _ _
    rw [k.dschema d hd, e1, e2, dget_tput, dget_tput]
    split
    · rw [Option.map_some]; exact (congrArg some (at1_eq w.schema w.nL l)).symm
    · rw [h x]
      cases hy : dget (w.layers d) x with
      | none => rfl
      | some y => rw [Option.map_some, Option.map_some, k.schema y (hw.layers d hd x y (dget_mem hy)).1]
  · obtain ⟨e1, e2⟩ := schStep_doc hw ho hd hn1 hn2 (fun l q => hadd ⟨l, q⟩)
    rw [k.dschema d hd, e1, e2, h x]
    cases hy : dget (w.layers d) x with
    | none => rfl
    | some y => rw [Option.map_some, Option.map_some, k.schema y (hw.layers d hd x y (dget_mem hy)).1]

/-- C100. A document's Schema has just the layers of the document, as long as layers are added with `add(Schema.Layer)`. -/
theorem C100_schema_partial : ∀ (os : List JSchOp) {w : JSchemas}, Spec.Made w → ∀ {d : Nat}, d < w.nD → Spec.Agrees w d → Spec.Runs w os → Spec.Orderly w d os →
    Spec.Agrees (w.run os) d := by
  have key : ∀ (os : List JSchOp) {w : JSchemas}, SchInv w → ∀ {d : Nat}, d < w.nD → Spec.Agrees w d → Spec.Runs w os → Spec.Orderly w d os → Spec.Agrees (w.run os) d := by
    intro os
    induction os with
    | nil => intro w _ d _ h _ _; exact h
    | cons o os ih =>
      intro w hw d hd h hr ho
      have k := schStep_keeps w o
      refine ih (schStep_inv hw hr.1) (Nat.lt_of_lt_of_le hd k.nD) (agrees_step hw hr.1 hd h ?_ ?_) hr.2 ⟨?_, ?_⟩
      · rintro l rfl; exact ho.1 l List.mem_cons_self
      · rintro y rfl; exact ho.2 y List.mem_cons_self
      · intro l hm; rw [k.dschema d hd] at hm; exact ho.1 l (List.mem_cons_of_mem _ hm)
      · intro y hm; exact ho.2 y (List.mem_cons_of_mem _ hm)
  intro os w hm d
  exact key os (made_inv hm)

/-- C100. What the calls do to the layers a Schema has: one is added, in place of one with its name, by `Schema.add` and by `Document.add(Schema.Layer)` for
the Schema of that document; copies are not affected. -/
theorem C100_schemas (w : JSchemas) (o : JSchOp) {s : Nat} (hs : s < w.nSch) (k : Str) : dget ((w.step o).1.lschema s) k =
    match o with
    | .schemaAdd s' l => if s' = s ∧ w.sname l = k then some l else dget (w.lschema s) k
    | .docAdd d l => if w.dschema d = s ∧ w.sname l = k then some l else dget (w.lschema s) k
    | _ => dget (w.lschema s) k := by
  have hput : ∀ s' l, dget (JSchemas.at1 w.lschema s' (tput (w.lschema s') (w.sname l) l) s) k = if s' = s ∧ w.sname l = k then some l else dget (w.lschema s) k := by
    intro s' l
    by_cases h : s' = s
    · subst h; rw [at1_eq, dget_tput]; simp
    · rw [at1_ne _ _ (Ne.symm h)]; simp [h]
  cases o
  case schemaAdd s' l => exact hput s' l
  case docAdd d l => exact hput (w.dschema d) l
  case docOf x =>
    have h := (docLayers_keeps (w.lschema x) ({ w.copySchema x with dschema := JSchemas.at1 w.dschema w.nD w.nSch, layers := JSchemas.at1 w.layers w.nD [], nD := w.nD + 1 } : JSchemas) w.nD).2.2.2.1
    have : (w.step (.docOf x)).1.lschema s = w.lschema s := (congrFun h s).trans (at1_lt _ _ hs)
    rw [this]
  case newDoc => exact congrArg (dget · k) (at1_lt _ _ hs)
  case newSchema => exact congrArg (dget · k) (at1_lt _ _ hs)
  case copySchema x => exact congrArg (dget · k) (at1_lt _ _ hs)
  all_goals
    simp only [JSchemas.step, JSchemas.newType, JSchemas.addArg, JSchemas.buildType, JSchemas.builder, JSchemas.addField, JSchemas.putField, JSchemas.build, JSchemas.slAdd,
      JSchemas.slRemove, JSchemas.newLayer, JSchemas.layAddField, JSchemas.layRemoveField, JSchemas.node, JSchemas.docAddLayer]
    try (split <;> first | rfl | (split <;> rfl))

/-- C100. `new Schema(schema)` has the layers the other has then. -/
theorem C100_copy (w : JSchemas) (s : Nat) : (w.step (.copySchema s)).1.lschema w.nSch = w.lschema s ∧ (w.step (.copySchema s)).1.nSch = w.nSch + 1 :=
  ⟨at1_eq _ _ _, rfl⟩

/-- C100. `Document.add(Schema.Layer)` gives a new layer, without nodes, in place of one with that name. -/
theorem C100_add (w : JSchemas) (d l : Nat) : let w' := (w.step (.docAdd d l)).1
    (∀ k, dget (w'.layers d) k = if w.sname l = k then some w.nL else dget (w.layers d) k) ∧ w'.schema w.nL = l ∧ w'.nodes w.nL = [] ∧
    (∀ e, e ≠ d → w'.layers e = w.layers e) ∧ (∀ y < w.nL, w'.nodes y = w.nodes y) ∧ w'.data = w.data := by
  refine ⟨fun k => ?_, at1_eq _ _ _, at1_eq _ _ _, fun e he => at1_ne _ _ he, fun y hy => at1_lt _ _ hy, rfl⟩
  have : (w.step (.docAdd d l)).1.layers d = tput (w.layers d) (w.sname l) w.nL := at1_eq _ _ _
  rw [this, dget_tput]

/-- C100. `Document.add(Layer)` refuses a name that is taken, and else adds it. -/
theorem C100_add_layer (w : JSchemas) (d y : Nat) : let n := w.sname (w.schema y)
    (n ∈ dkeys (w.layers d) → w.step (.docAddLayer d y) = (w, .error .value)) ∧
    (n ∉ dkeys (w.layers d) → ∃ w', w.step (.docAddLayer d y) = (w', .ok ()) ∧ (∀ k, dget (w'.layers d) k = if n = k then some y else dget (w.layers d) k) ∧
      w'.lschema = w.lschema ∧ ∀ e, e ≠ d → w'.layers e = w.layers e) := by
  intro n
  simp only [JSchemas.step, JSchemas.docAddLayer]
  constructor
  · intro h; rw [if_pos ((dget_isSome_iff _ _).mpr h)]
  · intro h
    rw [if_neg (fun q => h ((dget_isSome_iff _ _).mp q))]
    refine ⟨_, rfl, fun k => ?_, rfl, fun e he => at1_ne _ _ he⟩
    simp only [at1_eq, dget_tput, n]

/-- but the Schema of the document does not have it -/
theorem C100_schema_fails {w w' : JSchemas} {d y : Nat} (h : Spec.Agrees w d) (hs : w.step (.docAddLayer d y) = (w', .ok ())) : ¬ Spec.Agrees w' d := by
  intro h'
  obtain ⟨h1, h2⟩ := C100_add_layer w d y
  by_cases hn : w.sname (w.schema y) ∈ dkeys (w.layers d)
  · rw [h1 hn] at hs; cases (Prod.mk.inj hs).2
  · obtain ⟨u, q1, q2, q3, -⟩ := h2 hn
    rw [hs] at q1
    cases (Prod.mk.inj q1).1
    have e1 := h (w.sname (w.schema y))
    rw [(dget_none_iff _ _).mpr hn, Option.map_none] at e1
    have e2 := h' (w.sname (w.schema y))
    have e3 : w'.dschema = w.dschema := by
      have := congrArg (fun x => x.1.dschema) hs
      simp only [JSchemas.step, JSchemas.docAddLayer] at this
      split at this <;> exact this.symm
    rw [q2, if_pos rfl, q3, e3, e1, Option.map_some] at e2
    cases e2

/-- C100. `removeField` takes a field from the layer, and its values from the nodes of the layer and no others. -/
theorem C100_remove_field_partial {w : JSchemas} (hm : Spec.Made w) {y : Nat} (hy : y < w.nL) (f : Str) : let w' := (w.step (.layRemoveField y f)).1
    w'.fieldType (w.schema y) f = none ∧ (∀ g, g ≠ f → w'.fieldType (w.schema y) g = w.fieldType (w.schema y) g) ∧ w'.nodes = w.nodes ∧
    (∀ n, n ∉ w.nodes y → w'.data n = w.data n) ∧
    ((w.fieldType (w.schema y) f).isSome → ∀ n ∈ w.nodes y, ∀ g, dget (w'.data n) g = if f = g then none else dget (w.data n) g) := by
  intro w'
  have hl := (made_inv hm).schema y hy
  have hf := fun g => C100_fields hm (.layRemoveField y f) hl g
  simp only [true_and] at hf
  refine ⟨by rw [hf f, if_pos rfl], fun g hg => by rw [hf g, if_neg (Ne.symm hg)], ?_, ?_, ?_⟩
  · simp only [w', JSchemas.step, JSchemas.layRemoveField]
    split <;> rfl
  · intro n hn
    simp only [w', JSchemas.step, JSchemas.layRemoveField]
    split
    · exact if_neg hn
    · rfl
  · intro hs n hn g
    have hs' : (dget (w.fields (w.sfrom (w.schema y))) f).isSome = true := hs
    simp only [w', JSchemas.step, JSchemas.layRemoveField]
    rw [if_pos hs']
    simp only
    rw [if_pos hn, dget_ddel]

/-- but in a layer of another document of that schema the field is gone as well, and there the nodes keep their values -/
theorem C100_values_left {w : JSchemas} (hm : Spec.Made w) {y z : Nat} (hy : y < w.nL) (hz : z < w.nL) (hne : y ≠ z) (h : w.sfrom (w.schema y) = w.sfrom (w.schema z))
    {n : Nat} (hn : n ∈ w.nodes z) (f : Str) : let w' := (w.step (.layRemoveField y f)).1
    w'.fieldType (w'.schema z) f = none ∧ n ∈ w'.nodes z ∧ w'.data n = w.data n := by
  have hw := made_inv hm
  obtain ⟨-, -, h3, h4, -⟩ := C100_remove_field_partial hm hy f
  have hf := C100_fields hm (.layRemoveField y f) (hw.schema z hz) f
  simp only [h, and_self, if_true] at hf
  refine ⟨?_, by rw [h3]; exact hn, h4 n (fun q => hne (hw.once y hy z hz n q hn))⟩
  rw [(schStep_keeps w (.layRemoveField y f)).schema z hz]
  exact hf

/-- a field added to a builder after `build`, to a Schema.Layer, or to a layer of a document, is there in all that was built by
that builder -/
theorem C100_late_fails {w : JSchemas} (hm : Spec.Made w) {l : Nat} (hl : l < w.nS) {f : Str} (hf : w.fieldType l f = none) (t : Nat) :
    (w.step (.addField (w.sfrom l) f t)).1.fieldType l f = some t ∧
    (∀ m, w.sfrom m = w.sfrom l → (w.step (.slAdd m f t)).1.fieldType l f = some t) ∧
    (∀ y, w.sfrom (w.schema y) = w.sfrom l → (w.step (.layAddField y f t)).1.fieldType l f = some t) := by
  have h1 := C100_fields hm (.addField (w.sfrom l) f t) hl f
  have h2 := fun m => C100_fields hm (.slAdd m f t) hl f
  have h3 := fun y => C100_fields hm (.layAddField y f t) hl f
  simp only [hf, and_self, if_true, Option.none_or, and_true] at h1 h2 h3
  exact ⟨h1, fun m e => by rw [h2, if_pos e], fun y e => by rw [h3, if_pos e]⟩

/-- an argument added to a builder after `build` is one of the types that were built -/
theorem C100_argument_fails (w : JSchemas) (t : Nat) {k : Str} (hk : k ∉ dkeys (w.type t).args) (v : JVal) :
    dget ((w.step (.addArg (w.tfrom t) k v)).1.type t).args k = some v := by
  have hk' : ¬ (dget (w.args (w.tfrom t)) k).isSome = true := fun q => hk ((dget_isSome_iff _ _).mp q)
  simp only [JSchemas.step, JSchemas.addArg]
  rw [if_neg hk']
  simp only [JSchemas.type, at1_eq, dget_tput, if_true]

/-- what C100 would say: the fields of a layer are changed by calls on the layer only, and the Schema of a document has the schemas
of its layers -/
def C100_full : Prop := (∀ w, Spec.Made w → ∀ o, Spec.Refers w o → ∀ y < w.nL, (∀ f t, o ≠ .layAddField y f t) → (∀ f, o ≠ .layRemoveField y f) →
    (w.step o).1.slFields ((w.step o).1.schema y) = w.slFields (w.schema y)) ∧
  (∀ w, Spec.Made w → ∀ d < w.nD, Spec.Agrees w d)

namespace Ex

/-- a schema with a layer "a" with one field, and two documents of it; each has a node with a value -/
def schOps : List JSchOp := [.newType .int, .buildType 0, .builder "a".toList, .addField 0 "f".toList 0, .build 0, .newSchema, .schemaAdd 0 0, .docOf 0, .docOf 0,
  .node 0 [("f".toList, .int 1)], .node 1 [("f".toList, .int 2)]]

def sch : JSchemas := ({} : JSchemas).run schOps

theorem sch_made : Spec.Made sch := ⟨schOps, by simp [schOps, Spec.Runs, Spec.Refers, JSchemas.step, JSchemas.newType, JSchemas.buildType, JSchemas.builder, JSchemas.addField,
  JSchemas.putField, JSchemas.build, JSchemas.newSchema, JSchemas.schemaAdd, JSchemas.docOf, JSchemas.docLayers, JSchemas.copySchema, JSchemas.newLayer, JSchemas.node, JSchemas.at1, dget, tput], rfl⟩

end Ex

theorem C100_full_false : ¬ C100_full := by
  intro h
  have := h.1 Ex.sch Ex.sch_made (.layAddField 0 "g".toList 0) ⟨by decide, by decide⟩ 1 (by decide) (by simp) (by simp)
  revert this
  decide

/-! ### cases -/

-- C100_built, C100_built_type: a type with an argument, a builder with two fields
example : let w := ({} : JSchemas).run ([.newType .span, .addArg 0 "context".toList (.str "main".toList), .buildType 0, .builder "tok".toList] ++
      [.addField 0 "b".toList 0, .addField 0 "a".toList 0, .build 0])
    w.slFields 0 = [("a".toList, ⟨.span, [("context".toList, .str "main".toList)]⟩), ("b".toList, ⟨.span, [("context".toList, .str "main".toList)]⟩)] ∧ w.sname 0 = "tok".toList := by
  decide

-- C100_document, C100_shared, C100_values_left: the documents share their schema
example : (Ex.sch.step (.layRemoveField 0 "f".toList)).1.fieldType (Ex.sch.schema 1) "f".toList = none ∧
    (Ex.sch.step (.layRemoveField 0 "f".toList)).1.data 1 = [("f".toList, .int 2)] ∧ (Ex.sch.step (.layRemoveField 0 "f".toList)).1.data 0 = [] := by
  decide

example : (Ex.sch.step (.layRemoveField 0 "f".toList)).1.data 1 = Ex.sch.data 1 :=
  (C100_values_left Ex.sch_made (y := 0) (z := 1) (by decide) (by decide) (by decide) (by decide) (n := 1) (by decide) "f".toList).2.2

-- C100_apart_partial: a second builder
example : (Ex.sch.run [.builder "b".toList, .addField 1 "f".toList 0, .build 1, .slAdd 1 "h".toList 0]).slFields 0 = Ex.sch.slFields 0 :=
  C100_apart_partial Ex.sch_made _ (by decide) (by refine ⟨?_, ?_, ?_, ?_, trivial⟩ <;> decide) (by intro f t _ k v; simp)

-- C100_schema_partial, C100_schema_fails: a layer added to the first document is not in its Schema
example : Spec.Agrees Ex.sch 0 := by
  intro k
  by_cases h : "a".toList = k
  · subst h; decide
  · have e1 : Ex.sch.lschema (Ex.sch.dschema 0) = [("a".toList, 0)] := by decide
    have e2 : Ex.sch.layers 0 = [("a".toList, 0)] := by decide
    rw [e1, e2, dget, if_neg h]
    rfl

example : (Ex.sch.run [.builder "b".toList, .build 1, .newLayer 1, .docAddLayer 0 2]).layers 0 = [("a".toList, 0), ("b".toList, 2)] ∧
    (Ex.sch.run [.builder "b".toList, .build 1, .newLayer 1, .docAddLayer 0 2]).lschema 1 = [("a".toList, 0)] ∧
    (Ex.sch.run [.builder "b".toList, .build 1, .docAdd 0 1]).lschema 1 = [("a".toList, 0), ("b".toList, 1)] := by
  refine ⟨by decide, by decide, by decide⟩

-- C100_argument_fails: the type of the field gets an argument
example : (Ex.sch.step (.addArg 0 "x".toList (.int 3))).1.slFields 0 = [("f".toList, ⟨.int, [("x".toList, .int 3)]⟩)] := by decide

end Verif
