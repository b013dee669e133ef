import Verif.Proof.Attrs
import Verif.Model.Codec
/-
The heap of a decoded document: where its nodes, layers and texts lie, and that it satisfies the
invariants of documents built through the API.
-/
set_option linter.unusedSimpArgs false
namespace Verif
open World

/-- first heap place of the nodes of layer `k` -/
def baseOf : List DLayer → Nat → Nat
  | [], _ => 0
  | _ :: _, 0 => 0
  | l :: ls, k + 1 => l.recs.length + baseOf ls k

theorem layerObjs_get (ls : List DLayer) : ∀ (base k : Nat), (layerObjs base ls)[k]? = ls[k]?.map (fun l =>
    { name := l.name, fields := l.fields, slots := (List.range' (base + baseOf ls k) l.recs.length).map some,
      num := l.recs.length, defaults := World.computeDefaults l.fields }) := by
  induction ls with
  | nil => intro base k; simp [layerObjs]
  | cons l ls ih =>
    intro base k
    cases k with
    | zero => simp [layerObjs, baseOf]
    | succ k => simp [layerObjs, baseOf, ih, Nat.add_assoc]

theorem nodesOf_get (ls : List DLayer) : ∀ (base k : Nat), (nodesOf base ls)[k]? = ls[k]?.map (fun l =>
    (l.name, List.range' (base + baseOf ls k) l.recs.length)) := by
  induction ls with
  | nil => intro base k; simp [nodesOf]
  | cons l ls ih =>
    intro base k
    cases k with
    | zero => simp [nodesOf, baseOf]
    | succ k => simp [nodesOf, baseOf, ih, Nat.add_assoc]

theorem dkeys_nodesOf (ls : List DLayer) : ∀ base, dkeys (nodesOf base ls) = ls.map (·.name) := by
  induction ls with
  | nil => intro; rfl
  | cons l ls ih => intro b; simpa [nodesOf, dkeys] using ih _

theorem dget_nodesOf {ls : List DLayer} (hn : (ls.map (·.name)).Nodup) {k : Nat} {l : DLayer} (h : ls[k]? = some l)
    (base : Nat) : dget (nodesOf base ls) l.name = some (List.range' (base + baseOf ls k) l.recs.length) := by
  apply dget_of_mem
  · rw [dkeys_nodesOf]; exact hn
  · have := nodesOf_get ls base k
    rw [h] at this
    exact List.mem_of_getElem? this

theorem nodeObjs_get (ls : List DLayer) : ∀ (K k i : Nat) (l : DLayer) (d : Dict Str Value), ls[k]? = some l → l.recs[i]? = some d →
    (nodeObjs K ls)[baseOf ls k + i]? = some { id := (i : Int), coll := some (K + k), fields := d } := by
  induction ls with
  | nil => intro K k i l d h; simp at h
  | cons l ls ih =>
    intro K k i l' d h1 h2
    cases k with
    | zero =>
      simp at h1; subst h1
      obtain ⟨hi, -⟩ := List.getElem?_eq_some_iff.mp h2
      simp only [nodeObjs, baseOf, Nat.zero_add]
      rw [List.getElem?_append_left (by simpa using hi)]
      simp [h2]
    | succ k =>
      simp only [List.getElem?_cons_succ] at h1
      simp only [nodeObjs, baseOf]
      rw [List.getElem?_append_right (by simp; omega)]
      simp only [List.length_map, List.length_zipIdx]
      rw [show l.recs.length + baseOf ls k + i - l.recs.length = baseOf ls k + i by omega, ih (K + 1) k i l' d h1 h2]
      simp; omega

theorem nodeObjs_cases (ls : List DLayer) : ∀ (K n : Nat) (r : NodeRec), (nodeObjs K ls)[n]? = some r →
    ∃ (k i : Nat) (l : DLayer) (d : Dict Str Value), ls[k]? = some l ∧ l.recs[i]? = some d ∧ n = baseOf ls k + i ∧
      r = { id := (i : Int), coll := some (K + k), fields := d } := by
  induction ls with
  | nil => intro K n r h; simp [nodeObjs] at h
  | cons l ls ih =>
    intro K n r h
    simp only [nodeObjs] at h
    by_cases hn : n < l.recs.length
    · rw [List.getElem?_append_left (by simpa using hn)] at h
      refine ⟨0, n, l, l.recs[n], rfl, by simp [hn], by simp [baseOf], ?_⟩
      simp [hn] at h
      simp [← h]
    · rw [List.getElem?_append_right (by simp; omega)] at h
      obtain ⟨k, i, l', d, h1, h2, h3, h4⟩ := ih _ _ _ h
      refine ⟨k + 1, i, l', d, by simpa using h1, h2, ?_, ?_⟩
      · simp at h3; simp [baseOf]; omega
      · rw [h4]; simp; omega

theorem range'_get {b m i n : Nat} : (List.range' b m)[i]? = some n ↔ i < m ∧ n = b + i := by
  by_cases h : i < m
  · rw [List.getElem?_range' h]; simp [h]; omega
  · rw [List.getElem?_eq_none (by simp; omega)]; simp [h]

theorem dget_zipIdx {κ} [DecidableEq κ] {l : List κ} (hn : l.Nodup) {k : κ} {i : Nat} :
    dget l.zipIdx k = some i ↔ l[i]? = some k := by
  have hk : dkeys l.zipIdx = l := by simp [dkeys]
  constructor
  · intro h
    have := dget_mem h
    simpa [List.mem_zipIdx_iff_getElem?] using this
  · intro h
    apply dget_of_mem (by rw [hk]; exact hn)
    simpa [List.mem_zipIdx_iff_getElem?] using h

/-- what makes the heap of a decoded document well-formed -/
structure DecOk (props : Dict Str Value) (texts : Dict Str (List Str)) (ls : List DLayer) : Prop where
  names : (ls.map (·.name)).Nodup
  texts : (dkeys texts).Nodup
  props : (dkeys props).Nodup
  fields : ∀ l ∈ ls, (dkeys l.fields).Nodup
  recs : ∀ l ∈ ls, ∀ d ∈ l.recs, (dkeys d).Nodup

section
variable {props : Dict Str Value} {texts : Dict Str (List Str)} {ls : List DLayer}

theorem build_layer {k : Nat} {l : DLayer} (h : ls[k]? = some l) : (buildDoc props texts ls).layers k =
    { name := l.name, fields := l.fields, slots := (List.range' (baseOf ls k) l.recs.length).map some,
      num := l.recs.length, defaults := World.computeDefaults l.fields } := by
  simp [buildDoc, layerObjs_get, h]

theorem build_layer_none {k : Nat} (h : ls[k]? = none) : (buildDoc props texts ls).layers k = {} := by
  simp [buildDoc, layerObjs_get, h]

theorem build_node {k i : Nat} {l : DLayer} {d : Dict Str Value} (h1 : ls[k]? = some l) (h2 : l.recs[i]? = some d) :
    (buildDoc props texts ls).nodes (baseOf ls k + i) = { id := (i : Int), coll := some k, fields := d } := by
  simp [buildDoc, nodeObjs_get ls 0 k i l d h1 h2]

theorem build_node_cases (n : NodeId) : ((buildDoc props texts ls).nodes n = {} ∧ (nodeObjs 0 ls).length ≤ n) ∨
    ∃ (k i : Nat) (l : DLayer) (d : Dict Str Value), ls[k]? = some l ∧ l.recs[i]? = some d ∧ n = baseOf ls k + i ∧
      (buildDoc props texts ls).nodes n = { id := (i : Int), coll := some k, fields := d } := by
  cases h : (nodeObjs 0 ls)[n]? with
  | none => left; simp only [buildDoc, h]; exact ⟨rfl, by simpa using h⟩
  | some r =>
    right
    obtain ⟨k, i, l, d, h1, h2, h3, h4⟩ := nodeObjs_cases ls 0 n r h
    exact ⟨k, i, l, d, h1, h2, h3, by rw [h3]; exact build_node h1 h2⟩

theorem build_inv : Inv (buildDoc props texts ls) where
  slot L i n h := by
    cases hl : ls[L]? with
    | none => rw [build_layer_none hl] at h; simp at h
    | some l =>
      rw [build_layer hl] at h
      simp only [List.getElem?_map] at h
      cases hr : (List.range' (baseOf ls L) l.recs.length)[i]? with
      | none => simp [hr] at h
      | some m =>
        simp [hr] at h; subst h
        obtain ⟨hi, rfl⟩ := range'_get.mp hr
        rw [build_node hl (List.getElem?_eq_getElem hi)]
        simp
  bound n L h := by
    rcases build_node_cases (props := props) (texts := texts) (ls := ls) n with ⟨h1, -⟩ | ⟨k, i, l, d, h1, h2, h3, h4⟩
    · rw [h1] at h; cases h
    · rw [h4] at h; simp at h; subst h
      refine ⟨i, by rw [h4], ?_⟩
      rw [build_layer h1]
      obtain ⟨hi, -⟩ := List.getElem?_eq_some_iff.mp h2
      simp [List.getElem?_map, List.getElem?_range', hi, h3]
  num L := by
    cases hl : ls[L]? with
    | none => rw [build_layer_none hl]; rfl
    | some l => rw [build_layer hl]; simp
  fresh n h := by
    rcases build_node_cases (props := props) (texts := texts) (ls := ls) n with ⟨h1, -⟩ | ⟨k, i, l, d, h1, h2, h3, h4⟩
    · rw [h1]
    · have h5 := nodeObjs_get ls 0 k i l d h1 h2
      obtain ⟨hi, -⟩ := List.getElem?_eq_some_iff.mp h5
      simp only [buildDoc] at h; omega
  freshL L h := by
    have : ls[L]? = none := by simpa [buildDoc] using h
    rw [build_layer_none this]

theorem build_wf (h : DecOk props texts ls) : WF (buildDoc props texts ls) where
  defaults L := by
    cases hl : ls[L]? with
    | none => rw [build_layer_none hl]; rfl
    | some l => rw [build_layer hl]
  dlName k L hk := by
    have hk : (ls.map (·.name))[L]? = some k := (dget_zipIdx h.names).mp hk
    rw [List.getElem?_map] at hk
    cases hl : ls[L]? with
    | none => simp [hl] at hk
    | some l =>
      simp [hl] at hk
      obtain ⟨hi, -⟩ := List.getElem?_eq_some_iff.mp hl
      exact ⟨by rw [build_layer hl]; exact hk, hi⟩
  dtName k T hk := by
    have hk : (dkeys texts)[T]? = some k := (dget_zipIdx h.texts).mp hk
    simp only [dkeys, List.getElem?_map] at hk
    cases hl : texts[T]? with
    | none => simp [hl] at hk
    | some l =>
      simp [hl] at hk
      obtain ⟨hi, -⟩ := List.getElem?_eq_some_iff.mp hl
      exact ⟨by simp [buildDoc, hl, hk], hi⟩
  oid T := by simp only [buildDoc]; split <;> rfl
  dlKeys := by simpa [buildDoc, dkeys] using h.names
  dtKeys := by have := h.texts; simpa [buildDoc, dkeys] using this
  propKeys := h.props
  fieldKeys L := by
    cases hl : ls[L]? with
    | none => rw [build_layer_none hl]; simp [dkeys]
    | some l => rw [build_layer hl]; exact h.fields l (List.mem_of_getElem? hl)
  nodeKeys n := by
    rcases build_node_cases (props := props) (texts := texts) (ls := ls) n with ⟨h1, -⟩ | ⟨k, i, l, d, h1, h2, h3, h4⟩
    · rw [h1]; simp [dkeys]
    · rw [h4]; exact h.recs l (List.mem_of_getElem? h1) d (List.mem_of_getElem? h2)

end
end Verif
