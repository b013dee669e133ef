import Verif.Proof.Convert
import Verif.Proof.MsgpackCodec
import Verif.Props.Codec
/-
The data of a valid document has dicts with distinct keys only.
-/
set_option linter.unusedSimpArgs false
namespace Verif
open World

theorem plain_keys {v : Value} {o : Obj} (h : Spec.PlainVal v) (ho : v.toObj = .ok o) : o.KeysOk := by
  cases v with
  | data o' => cases ho; cases o <;> first | exact h | exact h.elim
  | _ => first | (cases ho; trivial) | exact h.elim

theorem dict_keys {d : Dict Str Value} (h : ∀ k v, (k, v) ∈ d → Spec.PlainVal v) :
    ∀ {o}, dictToObj d = .ok o → dkeys o = dkeys d ∧ Obj.KeysOkM o := by
  induction d with
  | nil => intro o ho; cases ho; exact ⟨rfl, trivial⟩
  | cons e d ih =>
    intro o ho
    simp only [dictToObj, mapE] at ho
    obtain ⟨ov, hov, -⟩ := plain_round (h e.1 e.2 (by simp))
    rw [hov] at ho
    simp only at ho
    split at ho
    · cases ho
    · rename_i ys hys
      cases ho
      obtain ⟨i1, i2⟩ := ih (fun k v hm => h k v (by simp [hm])) hys
      exact ⟨by simp only [dkeys, List.map_cons]; congr 1, plain_keys (h e.1 e.2 (by simp)) hov, i2⟩

theorem nodeIs_keys {w : World} {ns : List NodeId} : ∀ {l}, w.nodeIs ns = .ok l → Obj.KeysOkL l := by
  induction ns with
  | nil => intro l h; cases h; trivial
  | cons n ns ih =>
    intro l h
    simp only [nodeIs, mapE] at h
    split at h
    · cases h
    · rename_i y hy
      split at hy
      · cases hy
        split at h
        · cases h
        · rename_i ys hys
          cases h; exact ⟨trivial, ih hys⟩
      · cases hy

theorem keysL_iff {l : List Obj} : Obj.KeysOkL l ↔ ∀ o ∈ l, o.KeysOk := by
  induction l with
  | nil => simp [Obj.KeysOkL]
  | cons o l ih => simp [Obj.KeysOkL, ih]

theorem cell_keys {w : World} {idx t v l} (h : w.encodeCell idx t v = .ok l) : Obj.KeysOkL l := by
  refine keysL_iff.mpr fun o ho => ?_
  cases encodeCell_kind h o ho <;> try (simp [Obj.KeysOk, Obj.KeysOkL]; done)
  rename_i is
  simp only [Obj.KeysOk]
  refine keysL_iff.mpr fun o ho => ?_
  obtain ⟨i, -, rfl⟩ := List.mem_map.mp ho
  trivial

theorem col_keys {w : World} {offs ns f t col} (h : w.encodeCol offs ns f t = .ok col) : Obj.KeysOkL col := by
  unfold encodeCol at h
  split at h
  · cases h
  split at h
  · cases h
  split at h
  · cases h
  rename_i cells hc
  cases h
  rw [keysL_iff]
  intro o ho
  rw [List.mem_flatten] at ho
  obtain ⟨c, hcm, hoc⟩ := ho
  have : ∀ c ∈ cells, Obj.KeysOkL c := mapE_forall hc (fun n _ c hcc => by
    split at hcc
    · cases hcc
    · exact cell_keys hcc)
  exact keysL_iff.mp (this c hcm) o hoc

theorem wire_ok {w : World} {offs} (h : Ready w offs) {wire} (hw : w.wireOf offs = .ok wire) : WireOk wire := by
  unfold wireOf at hw
  rw [encodeTexts_ok h] at hw
  simp only at hw
  split at hw
  · cases hw
  rename_i lays hl
  split at hw
  · cases hw
  rename_i props hp
  cases hw
  have hlay : ∀ l ∈ lays, ∃ e ∈ w.dl, w.encodeEntry offs e = .ok l := by
    intro l hlm
    obtain ⟨i, hi⟩ := List.getElem?_of_mem hlm
    obtain ⟨l1, l2⟩ := mapE_inv hl
    obtain ⟨hi1, hi2⟩ := List.getElem?_eq_some_iff.mp hi
    exact ⟨w.dl[i]'(by omega), List.getElem_mem _, by rw [l2 i (by omega) hi1, hi2]⟩
  have hcol : ∀ l ∈ lays, ∀ c ∈ l.2.cols, ∃ k L f t, (k, L) ∈ w.dl ∧ (f, t) ∈ (w.layers L).fields ∧
      w.encodeField offs L (f, t) = .ok c := by
    intro l hlm c hc
    obtain ⟨e, he, hee⟩ := hlay l hlm
    unfold encodeEntry at hee
    split at hee
    · cases hee
    rename_i wl hwl
    cases hee
    unfold encodeLayer at hwl
    split at hwl
    · cases hwl
    rename_i cols hcols
    cases hwl
    simp only at hc
    obtain ⟨i, hi⟩ := List.getElem?_of_mem hc
    obtain ⟨l1, l2⟩ := mapE_inv hcols
    obtain ⟨hi1, hi2⟩ := List.getElem?_eq_some_iff.mp hi
    have hi3 : i < (w.layers e.2).fields.length := by omega
    exact ⟨e.1, e.2, ((w.layers e.2).fields[i]'hi3).1, ((w.layers e.2).fields[i]'hi3).2, he, List.getElem_mem hi3,
      by rw [← hi2]; exact l2 i hi3 hi1⟩
  constructor
  · obtain ⟨h1, h2⟩ := dict_keys h.enc.props hp
    exact ⟨by have := h.wf.propKeys; rw [← h1] at this; exact this, h2⟩
  · rw [dkeys_segsOf]; exact h.wf.dtKeys
  · have : lays.map (·.1) = w.dl.map (·.1) := mapE_names hl (·.1) (·.1) (fun a b hab => by
      unfold encodeEntry at hab; split at hab <;> cases hab; rfl)
    show (lays.map (·.1)).Nodup
    rw [this]; exact h.wf.dlKeys
  · intro l hlm c hc d hd
    obtain ⟨k, L, f, t, h1, h2, h3⟩ := hcol l hlm c hc
    unfold encodeField at h3
    split at h3
    · cases h3
    rename_i tw htw
    split at h3
    · cases h3
    cases h3
    simp only at htw hd
    unfold DataType.encode at htw
    split at htw
    · cases htw
    split at htw
    · cases htw; simp at hd
    split at htw
    · rename_i d' hd'
      cases htw
      simp at hd; subst hd
      have ht := h.enc.types k L f t h1 h2
      obtain ⟨a, b⟩ := dict_keys ht.plain hd'
      exact ⟨by have := ht.keys; rw [← a] at this; exact this, b⟩
    · cases htw
  · intro l hlm c hc
    obtain ⟨k, L, f, t, h1, h2, h3⟩ := hcol l hlm c hc
    unfold encodeField at h3
    split at h3
    · cases h3
    split at h3
    · cases h3
    rename_i col hcc
    cases h3
    exact col_keys hcc

end Verif
