import Verif.Model.Access
import Verif.Props.View
import Verif.Props.Schema
import Verif.Props.Codec
import Verif.Props.Xml
import Verif.Props.Table
import Verif.Props.Json
/-
C73-C75: accessors, layers as data frames, printing documents.
-/
namespace Verif
set_option linter.unusedSimpArgs false
open World

/-! ### C73 -/

namespace Spec

/-- every declared field that is set on `n` has a value of its type -/
def ValidIn (w : World) (L : LayerId) (n : NodeId) : Prop :=
  ∀ f t v, (f, t) ∈ (w.layers L).fields → dget (w.nodes n).fields f = some v → t.isValid w v = .ok true

/-- nothing of the wrong kind in a field for nodes or node spans, and no type that cannot be checked -/
def Checkable (w : World) (L : LayerId) (n : NodeId) : Prop :=
  ∀ f t v, (f, t) ∈ (w.layers L).fields → dget (w.nodes n).fields f = some v →
    (∃ b, t.isValid w v = .ok b) ∧ (t.tname = .noderef → ∃ m, v = .node m) ∧
      (t.tname = .nodespan → ∃ l r, v = .nodespan l r)

/-- apply functions one after the other -/
inductive Through {α : Type} : List (α → Except PyErr α) → α → α → Prop
  | nil {x} : Through [] x x
  | cons {f fs x y z} : f x = .ok y → Through fs y z → Through (f :: fs) x z

end Spec

/-- C73. get_prop gives the value of the field, or the default if it is not set: also when the value is None. -/
theorem C73_get_prop (w : World) (p : Str) (d : Value) (n : NodeId) :
    (∀ v, dget (w.nodes n).fields p = some v → w.getProp p d n = v) ∧
    (p ∉ dkeys (w.nodes n).fields → w.getProp p d n = d) := by
  refine ⟨fun v hv => by simp [getProp, hv], fun hv => ?_⟩
  rw [getProp, (dget_none_iff _ _).2 hv]

/-- C73. chain applies the functions from the left, each to the result of the one before. -/
theorem C73_chain {α : Type} (fs : List (α → Except PyErr α)) (x y : α) :
    chainFns fs x = .ok y ↔ Spec.Through fs x y := by
  induction fs generalizing x with
  | nil =>
    simp only [chainFns, Except.ok.injEq]
    exact ⟨fun h => h ▸ .nil, fun h => by cases h; rfl⟩
  | cons f fs ih =>
    simp only [chainFns]
    cases hf : f x with
    | error e => exact ⟨fun h => by simp at h, fun h => by cases h; simp_all⟩
    | ok z =>
      simp only [ih]
      exact ⟨fun h => .cons hf h, fun h => by cases h; simp_all⟩

/-- C73. The first function that raises decides. -/
theorem C73_chain_raises {α : Type} (fs gs : List (α → Except PyErr α)) (f : α → Except PyErr α) (x y : α) (e : PyErr)
    (h : Spec.Through fs x y) (hf : f y = .error e) : chainFns (fs ++ f :: gs) x = .error e := by
  induction h with
  | nil => simp [chainFns, hf]
  | cons h1 _ ih => simp [chainFns, h1, ih hf]

/-- C73. node.fld reads, writes and deletes the fields of the node and no others; a field that is not set reads as
None, and cannot be deleted. -/
theorem C73_fld (builtin : Str → Bool) (w : World) (n : NodeId) (k : Str) (v : Value) (hk : k ≠ "__data__".toList)
    (hb : builtin k = false) :
    (w.fldSet n k v).fldGet builtin n k = .ok v ∧
    (∀ j, j ≠ k → dget ((w.fldSet n k v).nodes n).fields j = dget (w.nodes n).fields j) ∧
    (∀ m, m ≠ n → (w.fldSet n k v).nodes m = w.nodes m) ∧
    (∀ x, dget (w.nodes n).fields k = some x → w.fldGet builtin n k = .ok x ∧ (w.fldDel n k).2 = none ∧
      dget ((w.fldDel n k).1.nodes n).fields k = none ∧
      ∀ j, j ≠ k → dget ((w.fldDel n k).1.nodes n).fields j = dget (w.nodes n).fields j) ∧
    (dget (w.nodes n).fields k = none → w.fldGet builtin n k = .ok .none ∧ w.fldDel n k = (w, some .key)) := by
  have e : w.fldSet n k v = w.setField n k v := if_neg hk
  rw [e]
  clear e hk
  refine ⟨?_, fun j hj => ?_, fun m hm => ?_, fun x hx => ⟨?_, ?_, ?_, fun j hj => ?_⟩, fun hx => ⟨?_, ?_⟩⟩
  · simp [fldGet, hb, getField, setField, modNode, upd, dget_dset]
  · simp [setField, modNode, upd, dget_dset, Ne.symm hj]
  · simp [setField, modNode, upd, hm]
  · simp [fldGet, hb, getField, hx]
  · simp [fldDel, hx]
  · simp [fldDel, hx, delField, modNode, upd, dget_ddel]
  · simp [fldDel, hx, delField, modNode, upd, dget_ddel, Ne.symm hj]
  · simp [fldGet, hb, getField, hx]
  · simp [fldDel, hx]

theorem validIn_iff (w : World) (L : LayerId) (n : NodeId) : w.validate L n = .ok () ↔ Spec.ValidIn w L n := by
  unfold validate
  rw [validateFields_iff]
  exact ⟨fun h f t v hf hv => h (f, t) hf v hv, fun h e he v hv => h e.1 e.2 v he hv⟩

/-- C73. is_valid answers True exactly for the nodes of a layer whose declared fields all hold values of their types;
with noexcept=False it answers nothing else. -/
theorem C73_is_valid {w : World} (h : Reachable w) (n : NodeId) (noexcept : Bool) :
    (w.nodeIsValid n noexcept = .ok true ↔ ∃ L, some n ∈ w.iter L ∧ Spec.ValidIn w L n) ∧
    w.nodeIsValid n false ≠ .ok false := by
  have hm : ∀ L, some n ∈ w.iter L ↔ (w.nodes n).coll = some L := by
    intro L; rw [h.inv.iter_eq]; simp [h.inv.mem_iff]
  simp only [hm]
  unfold nodeIsValid
  cases hc : (w.nodes n).coll with
  | none => simp
  | some L =>
    simp only [Option.some.injEq, exists_eq_left', ← validIn_iff]
    cases hv : w.validate L n with
    | ok u => simp
    | error e =>
      simp only [reduceCtorEq, iff_false, Bool.false_and]
      refine ⟨?_, by simp⟩
      split <;> simp

theorem validateFields_assert {w : World} {d : Dict Str Value} {e : PyErr} : ∀ {fs : Dict Str DataType},
    (∀ f t v, (f, t) ∈ fs → dget d f = some v → (∃ b, t.isValid w v = .ok b) ∧
      (t.tname = .noderef → ∃ m, v = .node m) ∧ (t.tname = .nodespan → ∃ l r, v = .nodespan l r)) →
    validateFields w d fs = .error e → e = .assertion := by
  intro fs
  induction fs with
  | nil => intro _ h; simp [validateFields] at h
  | cons x fs ih =>
    obtain ⟨f, t⟩ := x
    intro hc h
    have ih' := ih (fun f t v hf => hc f t v (by simp [hf]))
    simp only [validateFields] at h
    cases hd : dget d f with
    | none => rw [hd] at h; exact ih' h
    | some v =>
      obtain ⟨⟨b, hb⟩, h1, h2⟩ := hc f t v (by simp) hd
      simp only [hd, hb] at h
      cases b with
      | true => exact ih' h
      | false =>
        simp only [Except.error.injEq] at h
        rw [← h]
        unfold refusal
        split <;> simp_all

/-- C73, for nodes of a layer that hold nothing of the wrong kind where nodes and node spans are declared: is_valid
answers. -/
theorem C73_is_valid_partial {w : World} {n : NodeId} {L : LayerId} (hn : (w.nodes n).coll = some L)
    (hc : Spec.Checkable w L n) : (w.nodeIsValid n true = .ok false ↔ ¬ Spec.ValidIn w L n) ∧
      (¬ Spec.ValidIn w L n → w.nodeIsValid n false = .error .assertion) := by
  rw [← validIn_iff]
  unfold nodeIsValid
  simp only [hn]
  cases hv : w.validate L n with
  | ok u => simp
  | error e =>
    have := validateFields_assert hc hv
    subst this
    simp

/-- C73. layer[node] is the node if the layer holds it, and DataValidationError otherwise. -/
theorem C73_layer_getitem {w : World} (h : Reachable w) (L : LayerId) (n : NodeId) :
    (some n ∈ w.iter L → w.layerGetNode L n = .ok n) ∧ (some n ∉ w.iter L → w.layerGetNode L n = .error .dataValidation) := by
  have hm : some n ∈ w.iter L ↔ (w.nodes n).coll = some L := by rw [h.inv.iter_eq]; simp [h.inv.mem_iff]
  rw [hm, layerGetNode]
  exact ⟨fun h => by simp [h], fun h => by simp [h]⟩

/-- C73. query[name], for a query of a layer, is the field collection of a declared field and None for other names. -/
theorem C73_query_field_partial (w : World) (L : LayerId) (f : Str) :
    (f ∈ dkeys (w.layers L).fields → w.queryField (.layer L) f = .ok (some f)) ∧
    (f ∉ dkeys (w.layers L).fields → w.queryField (.layer L) f = .ok none) := by
  constructor <;> intro h <;> simp [queryField, h]

/-- C73 fails for a query of anything but a layer. -/
theorem C73_query_of_query_fails (w : World) (f : Str) :
    (∀ q, w.queryField (.query q) f = .error .attribute) ∧ (∀ ns, w.queryField (.list ns) f = .error .attribute) ∧
    (∀ l r, w.queryField (.span l r) f = .error .attribute) := ⟨fun _ => rfl, fun _ => rfl, fun _ _ => rfl⟩

/-- C73 in full: is_valid() answers for every node -/
def C73_full : Prop := ∀ w n, Reachable w → n < w.nextN → ∃ b, w.nodeIsValid n true = .ok b

namespace Ex

/-- a layer with an int and a reference; node 0 in it, valid; node 1 with a str for the int; node 2 with an int for the
reference; node 3 in no layer -/
def opsAcc : List Op := [.addLayer "a".toList [("p".toList, DataTypes.int32 none), ("r".toList, DataTypes.noderef "a".toList)],
  .addNew 0 [("p".toList, .int 1)], .addNew 0 [("p".toList, .int 2)], .addNew 0 [("p".toList, .int 3)],
  .newNode [("p".toList, .int 1)], .setField 1 "p".toList (.str "x".toList), .setField 2 "r".toList (.int 7)]
def wacc : World := World.empty.run opsAcc
theorem wacc_reachable : Reachable wacc := reachable_run _ (by decide)

example : wacc.nodeIsValid 0 true = .ok true ∧ wacc.nodeIsValid 1 true = .ok false ∧
    wacc.nodeIsValid 1 false = .error .assertion := by decide
example : wacc.layerGetNode 0 1 = .ok 1 ∧ wacc.layerGetNode 0 3 = .error .dataValidation := by decide
example : wacc.queryField (.layer 0) "p".toList = .ok (some "p".toList) ∧ wacc.queryField (.layer 0) "q".toList = .ok none := by
  decide
example : wacc.getProp "p".toList .none 1 = .str "x".toList ∧ wacc.getProp "q".toList (.int 9) 1 = .int 9 := by decide
/-- the hypotheses of C73_is_valid_partial for node 1 -/
example : Spec.Checkable wacc 0 1 ∧ (wacc.nodes 1).coll = some 0 := by
  refine ⟨fun f t v hf hv => ?_, by decide⟩
  have e : (wacc.layers 0).fields = [("p".toList, DataTypes.int32 none), ("r".toList, DataTypes.noderef "a".toList)] := by decide
  rw [e] at hf
  simp only [List.mem_cons, Prod.mk.injEq, List.not_mem_nil, or_false] at hf
  rcases hf with ⟨rfl, rfl⟩ | ⟨rfl, rfl⟩
  · have : v = .str "x".toList := by
      have e2 : dget (wacc.nodes 1).fields "p".toList = some (.str "x".toList) := by decide
      rw [e2] at hv; simpa using hv.symm
    subst this
    exact ⟨⟨false, by decide⟩, (fun h => by cases h), (fun h => by cases h)⟩
  · have e2 : dget (wacc.nodes 1).fields "r".toList = none := by decide
    rw [e2] at hv; simp at hv

end Ex

/-- C73 fails: is_valid raises AttributeError for a node of no layer, and for a node with an int where a node is declared. -/
theorem C73_full_false : ¬ C73_full := by
  intro h
  obtain ⟨b, hb⟩ := h Ex.wacc 3 Ex.wacc_reachable (by decide)
  have : Ex.wacc.nodeIsValid 3 true = .error .attribute := by decide
  rw [this] at hb; simp at hb

theorem C73_wrong_kind_raises : Ex.wacc.nodeIsValid 2 true = .error .attribute := by decide

/-! ### C74 -/

namespace Spec

/-- what the data frame shows for field `k` of type `t` of node `n`: the value or None; the text of a span, if asked for -/
inductive Shown (w : World) (mat : Bool) (k : Str) (t : DataType) (n : NodeId) : Value → Prop
  | unset : dget (w.nodes n).fields k = none → Shown w mat k t n .none
  | value {v} : (mat = false ∨ t.tname ≠ .span) → dget (w.nodes n).fields k = some v → Shown w mat k t n v
  | text {T a b} : mat = true → t.tname = .span → dget (w.nodes n).fields k = some (.span T a b) →
      Shown w mat k t n (.str (w.spanStr T a b))

/-- span fields hold spans -/
def SpansIn (w : World) (ns : List NodeId) (fs : Dict Str DataType) : Prop :=
  ∀ n ∈ ns, ∀ k t v, (k, t) ∈ fs → t.tname = .span → dget (w.nodes n).fields k = some v → ∃ T a b, v = .span T a b

end Spec

theorem pandasColumn_ok {R : Reprs} {w : World} {L : LayerId} {mat : Bool} {ns : List NodeId} {k : Str} {t : DataType}
    (hns : (w.layers L).slots.filterMap id = ns)
    (hs : mat = true → t.tname = .span → ∀ n ∈ ns, ∀ v, dget (w.nodes n).fields k = some v → ∃ T a b, v = .span T a b) :
    ∃ l, w.pandasColumn R L mat (k, t) = .ok (k, l) ∧ Each (fun n v => Spec.Shown w mat k t n v) ns l := by
  unfold pandasColumn
  simp only [hns]
  by_cases hm : mat = true ∧ t.tname = .span
  · have hcell : ∀ n ∈ ns, ∃ v, w.spanCell R k n = .ok v ∧ Spec.Shown w mat k t n v := by
      intro n hn
      unfold World.spanCell
      cases hv : dget (w.nodes n).fields k with
      | none => exact ⟨_, rfl, .unset hv⟩
      | some v =>
        obtain ⟨T, a, b, rfl⟩ := hs hm.1 hm.2 n hn v hv
        exact ⟨_, rfl, .text hm.1 hm.2 hv⟩
    obtain ⟨l, hl⟩ := mapE_total (f := w.spanCell R k) (l := ns) (fun n hn => (hcell n hn).imp (fun _ h => h.1))
    refine ⟨l, by simp [hm.1, hm.2, hl], each_of_get (mapE_inv hl).1 (fun i n hi => ?_)⟩
    obtain ⟨v, h1, h2⟩ := mapE_get hl hi
    obtain ⟨u, h3, h4⟩ := hcell n (List.mem_of_getElem? hi)
    rw [h1] at h3
    cases h3
    exact ⟨_, h2, h4⟩
  · have e : (mat && decide (t.tname = .span)) = false := by
      cases mat <;> simp_all
    refine ⟨_, by rw [e]; rfl, each_map_fn _ _ (fun n _ => ?_)⟩
    unfold getField
    cases hv : dget (w.nodes n).fields k with
    | none => exact .unset hv
    | some v =>
      refine .value ?_ hv
      cases mat <;> simp_all

theorem pandasColumns_ok {R : Reprs} {w : World} {L : LayerId} {mat : Bool} {ns : List NodeId}
    (hns : (w.layers L).slots.filterMap id = ns) : ∀ {fs : Dict Str DataType}, (mat = true → Spec.SpansIn w ns fs) →
    ∃ cols, mapE (w.pandasColumn R L mat) fs = .ok cols ∧
      Each (fun (e : Str × DataType) (c : Str × List Value) => c.1 = e.1 ∧ Each (Spec.Shown w mat e.1 e.2) ns c.2) fs cols := by
  intro fs
  induction fs with
  | nil => intro _; exact ⟨[], rfl, .nil⟩
  | cons e fs ih =>
    intro hs
    obtain ⟨cols, h1, h2⟩ := ih (fun hm n hn k t v hk => hs hm n hn k t v (by simp [hk]))
    obtain ⟨l, h3, h4⟩ := pandasColumn_ok (R := R) (mat := mat) (k := e.1) (t := e.2) hns
      (fun hm ht n hn v hv => hs hm n hn e.1 e.2 v (by simp) ht hv)
    exact ⟨(e.1, l) :: cols, by simp [mapE, h3, h1], .cons ⟨rfl, h4⟩ h2⟩

theorem each_keys {α γ : Type} {Q : Str × α → Str × γ → Prop} {fs : Dict Str α} {cols : Dict Str γ}
    (h : Each (fun (e : Str × α) (c : Str × γ) => c.1 = e.1 ∧ Q e c) fs cols) : dkeys cols = dkeys fs := by
  induction h with
  | nil => rfl
  | cons h _ ih => simp only [dkeys, List.map_cons] at ih ⊢; rw [h.1, ih]

theorem pandasFields_ok {w : World} {L : LayerId} {names : List Str} (hd : ∀ k ∈ names, k ∈ dkeys (w.layers L).fields) :
    ∃ fs, w.pandasFields L (some names) = .ok fs ∧ dkeys fs = names ∧ ∀ e ∈ fs, e ∈ (w.layers L).fields := by
  unfold pandasFields
  induction names with
  | nil => exact ⟨[], rfl, rfl, by simp⟩
  | cons k names ih =>
    obtain ⟨fs, h1, h2, h3⟩ := ih (fun k hk => hd k (by simp [hk]))
    cases ht : dget (w.layers L).fields k with
    | none => exact absurd (hd k (by simp)) ((dget_none_iff _ _).1 ht)
    | some t =>
      refine ⟨(k, t) :: fs, ?_, ?_, ?_⟩
      · simp only [mapE, ht, h1]
      · simp only [dkeys, List.map_cons] at h2 ⊢; rw [h2]
      · simp only [List.forall_mem_cons]; exact ⟨dget_mem ht, h3⟩

/-- C74. The data frame of a layer has a column for each field that is asked for, by default all, in that order, with one
value for every node of the layer in order; and the column `__ref` with the nodes. No field may be called `__ref`, and
where spans are to become texts, span fields hold spans. -/
theorem C74_frame_partial (R : Reprs) {w : World} (h : Reachable w) {L : LayerId} {ns : List NodeId} (hl : Spec.Holds w L ns)
    (ask : Option (List Str)) (mat ref : Bool) (hd : ∀ names, ask = some names → names.Nodup ∧ ∀ k ∈ names, k ∈ dkeys (w.layers L).fields)
    (hs : mat = true → Spec.SpansIn w ns (w.layers L).fields)
    (hr : ref = true → "__ref".toList ∉ ask.getD (dkeys (w.layers L).fields)) :
    ∃ cols, w.toPandas R L ask mat ref = .ok (cols ++ if ref then [("__ref".toList, ns.map .node)] else []) ∧
      Each (fun k (c : Str × List Value) => c.1 = k ∧ ∃ t, dget (w.layers L).fields k = some t ∧
        Each (Spec.Shown w mat k t) ns c.2) (ask.getD (dkeys (w.layers L).fields)) cols := by
  have hns : (w.layers L).slots.filterMap id = ns := ((holds_iff h.inv).1 hl).symm
  have hfs : ∃ fs, w.pandasFields L ask = .ok fs ∧ dkeys fs = ask.getD (dkeys (w.layers L).fields) ∧
      (∀ e ∈ fs, e ∈ (w.layers L).fields) ∧ (dkeys fs).Nodup := by
    cases ask with
    | none => exact ⟨_, rfl, rfl, fun _ h => h, h.wf.fieldKeys L⟩
    | some names =>
      obtain ⟨hn, hk⟩ := hd names rfl
      obtain ⟨fs, h1, h2, h3⟩ := pandasFields_ok hk
      exact ⟨fs, h1, h2, h3, h2 ▸ hn⟩
  obtain ⟨fs, h1, h2, h3, h4⟩ := hfs
  obtain ⟨cols, h5, h6⟩ := pandasColumns_ok (R := R) (mat := mat) (fs := fs) hns (fun hm n hn k t v hk => hs hm n hn k t v (h3 _ hk))
  have hk := each_keys h6
  have hdu : dupdate [] cols = cols := by
    have := dupdate_append cols [] (by simpa [hk] using h4)
    simpa using this
  refine ⟨cols, ?_, ?_⟩
  · simp only [toPandas, h1, h5, hdu, hns]
    cases ref with
    | false => simp
    | true =>
      rw [if_pos rfl, dset_absent]
      · rfl
      · rw [hk, h2]; exact hr rfl
  · rw [← h2]
    clear h1 h2 h4 h5 hk hdu hr hd
    induction h6 with
    | nil => exact .nil
    | @cons e c es cs hc _ ih =>
      exact .cons ⟨hc.1, e.2, dget_of_mem (h.wf.fieldKeys L) (h3 e (by simp)), hc.2⟩ (ih (fun e he => h3 e (by simp [he])))

/-- C74. A field that is not declared is a KeyError. -/
theorem C74_unknown (R : Reprs) (w : World) (L : LayerId) (names : List Str) (mat ref : Bool) {k : Str} (hk : k ∈ names)
    (hn : k ∉ dkeys (w.layers L).fields) : w.toPandas R L (some names) mat ref = .error .key := by
  have : w.pandasFields L (some names) = .error .key := by
    unfold pandasFields
    induction names with
    | nil => simp at hk
    | cons j names ih =>
      cases hj : dget (w.layers L).fields j with
      | none => simp only [mapE, hj]
      | some t =>
        have hjk : k ≠ j := by
          rintro rfl; rw [(dget_none_iff _ _).2 hn] at hj; simp at hj
        simp only [mapE, hj, ih (by simpa [hjk] using hk)]
  simp only [toPandas, this]

/-- C74 in full: every declared field is a column with its values -/
def C74_full : Prop := ∀ (R : Reprs) w L ns mat, Reachable w → Spec.Holds w L ns → (∀ n ∈ ns, Spec.ValidIn w L n) →
  ∃ d, w.toPandas R L none mat true = .ok d ∧ ∀ k t, dget (w.layers L).fields k = some t →
    ∃ c, dget d k = some c ∧ Each (Spec.Shown w mat k t) ns c

namespace Ex

/-- a text, a layer with a span field, a str field and a field called `__ref`; the second node has None for the span -/
def opsPd : List Op := [.addText "main".toList "a bc".toList,
  .addLayer "t".toList [("s".toList, DataTypes.textspan "main".toList), ("p".toList, DataTypes.string none)],
  .newNode [("s".toList, .span 0 2 4), ("p".toList, .str "NN".toList)], .newNode [("p".toList, .str "DT".toList)],
  .add 0 [0, 1], .addLayer "u".toList [("__ref".toList, DataTypes.int32 none)], .addNew 1 [("__ref".toList, .int 5)],
  .addLayer "v".toList [("s".toList, DataTypes.textspan "main".toList)], .addNew 2 [], .setField 3 "s".toList .none]
def wpd : World := World.empty.run opsPd

theorem wpd_reachable : Reachable wpd := reachable_run _ (by decide)
theorem wpd_holds : Spec.Holds wpd 0 [0, 1] ∧ Spec.Holds wpd 1 [2] ∧ Spec.Holds wpd 2 [3] := by unfold Spec.Holds; decide

/-- spans as texts -/
example : wpd.toPandas reprs 0 none true true = .ok [("s".toList, [.str "bc".toList, .none]),
    ("p".toList, [.str "NN".toList, .str "DT".toList]), ("__ref".toList, [.node 0, .node 1])] := by decide +kernel
example : wpd.toPandas reprs 0 (some ["p".toList]) false false = .ok [("p".toList, [.str "NN".toList, .str "DT".toList])] := by
  decide +kernel
example : wpd.toPandas reprs 0 (some ["p".toList, "q".toList]) false false = .error .key := by decide +kernel
/-- the hypotheses of C74 for the first layer -/
example : Spec.SpansIn wpd [0, 1] (wpd.layers 0).fields ∧ "__ref".toList ∉ dkeys (wpd.layers 0).fields := by
  refine ⟨fun n hn k t v hk ht hv => ?_, by decide⟩
  have e : (wpd.layers 0).fields = [("s".toList, DataTypes.textspan "main".toList), ("p".toList, DataTypes.string none)] := by
    decide +kernel
  rw [e] at hk
  simp only [List.mem_cons, Prod.mk.injEq, List.not_mem_nil, or_false] at hk hn
  rcases hk with ⟨rfl, rfl⟩ | ⟨rfl, rfl⟩
  · rcases hn with rfl | rfl
    · have e2 : dget (wpd.nodes 0).fields "s".toList = some (.span 0 2 4) := by decide +kernel
      rw [e2] at hv; exact ⟨0, 2, 4, by simpa using hv.symm⟩
    · have e2 : dget (wpd.nodes 1).fields "s".toList = none := by decide +kernel
      rw [e2] at hv; simp at hv
  · cases ht

end Ex

/-- C74 fails: the values of a field called `__ref` are lost. -/
theorem C74_ref_lost : Ex.wpd.toPandas Ex.reprs 1 none false true = .ok [("__ref".toList, [.node 2])] ∧
    dget (Ex.wpd.nodes 2).fields "__ref".toList = some (.int 5) := by decide +kernel

/-- C74 fails: a span field that holds None reads "None", the text, where one that is not set reads None. -/
theorem C74_none_is_text : Ex.wpd.toPandas Ex.reprs 2 (some ["s".toList]) true false = .ok [("s".toList, [.str "None".toList])] ∧
    dget (Ex.wpd.nodes 3).fields "s".toList = some .none := by decide +kernel

theorem C74_full_false : ¬ C74_full := by
  intro h
  obtain ⟨d, h1, h2⟩ := h Ex.reprs Ex.wpd 1 [2] false Ex.wpd_reachable Ex.wpd_holds.2.1 (by
    intro n hn f t v hf hv
    simp only [List.mem_cons, List.not_mem_nil, or_false] at hn
    subst hn
    have hv' := (validIn_iff Ex.wpd 1 2).1 (by decide +kernel)
    exact hv' f t v hf hv)
  rw [C74_ref_lost.1] at h1
  cases h1
  obtain ⟨c, h3, h4⟩ := h2 "__ref".toList (DataTypes.int32 none) (by decide +kernel)
  have e : dget [("__ref".toList, [Value.node 2])] "__ref".toList = some [Value.node 2] := by decide
  rw [e] at h3
  cases h3
  cases h4 with
  | cons h5 _ =>
    cases h5 with
    | value _ hv => rw [C74_ref_lost.2] at hv; simp at hv

/-! ### C75 -/

namespace Spec

/-- `k=v` for every entry, values as str() gives them -/
def Entries (R : Reprs) (w : World) (d : Dict Str Value) (l : List Str) : Prop :=
  Each (fun (e : Str × Value) s => ∃ v, w.valueStr R e.2 = .ok v ∧ s = e.1 ++ "=".toList ++ v) d l

/-- str() of every value is known -/
def StrKnown (R : Reprs) (w : World) (d : Dict Str Value) : Prop := ∀ e ∈ d, ∃ s, w.valueStr R e.2 = .ok s

/-- the line of a field, its name filled with blanks up to `width` -/
def FieldLine (R : Reprs) (w : World) (width : Nat) (e : Str × DataType) (line : Str) : Prop :=
  ∃ t opts, e.2.tname.wire = .ok t ∧ Entries R w e.2.options opts ∧
    line = " * ".toList ++ e.1 ++ List.replicate (width - e.1.length) ' ' ++ " : ".toList ++ t ++
      (if e.2.options = [] then [] else "[".toList ++ Verif.pyJoin ", ".toList opts ++ "]".toList)

/-- the section of a layer: its name, a line for every field, all names as wide as the widest, an empty line -/
def Section (R : Reprs) (w : World) (k : Str) (L : LayerId) (sec : List Str) : Prop :=
  ∃ width lines, sec = ("[".toList ++ k ++ "]".toList) :: lines ++ [[]] ∧
    (∀ f ∈ dkeys (w.layers L).fields, f.length ≤ width) ∧
    (width = 0 ∨ ∃ f ∈ dkeys (w.layers L).fields, f.length = width) ∧
    Each (FieldLine R w width) (w.layers L).fields lines

/-- the lines of a table whose rows are those of `t`, cut as the options say and aligned (C58-C60) -/
def Laid (o : Printout.Options) (t : Printout.Table) (ls : List Str) : Prop :=
  ∃ hs rows cap ws bl, Printout.compile o (Printout.formatText o) t = .ok (hs, rows) ∧
    (∀ c, t.caption = some c → ∃ s, Printout.truncate o c = .ok s ∧ cap = some s) ∧
    Print.AreWidths t hs rows ws ∧ Print.Consecutive hs.length 1 bl ∧
    ls = bl.flatMap (fun ab => Print.blockText t cap hs rows ws ab.1 ab.2) ++ [[]]

end Spec

theorem keyVals_ok {R : Reprs} {w : World} {d : Dict Str Value} (h : Spec.StrKnown R w d) :
    ∃ l, w.keyVals R d = .ok l ∧ Spec.Entries R w d l := by
  unfold keyVals Spec.Entries
  induction d with
  | nil => exact ⟨[], rfl, .nil⟩
  | cons e d ih =>
    obtain ⟨l, h1, h2⟩ := ih (fun e he => h e (by simp [he]))
    obtain ⟨v, hv⟩ := h e (by simp)
    exact ⟨(e.1 ++ "=".toList ++ v) :: l, by simp only [mapE, hv, h1], .cons ⟨v, hv, rfl⟩ h2⟩

/-- C75. repr(doc) counts the layers and the texts and lists the properties in their order. -/
theorem C75_repr (R : Reprs) (w : World) (h : Spec.StrKnown R w w.props) :
    ∃ l, Spec.Entries R w w.props l ∧ w.docRepr R = .ok ("Document(".toList ++ natStr (dkeys w.dl).length ++
      " layers, ".toList ++ natStr (dkeys w.dt).length ++ " texts".toList ++
      (if w.props = [] then [] else ", ".toList ++ Verif.pyJoin ", ".toList l) ++ ")".toList) := by
  obtain ⟨l, h1, h2⟩ := keyVals_ok h
  refine ⟨l, h2, ?_⟩
  unfold docRepr
  rw [h1]
  cases hp : w.props with
  | nil => simp only [dkeys, List.length_map, List.length_nil, Nat.lt_irrefl, gt_iff_lt, if_false, if_true]
  | cons e d => simp only [dkeys, List.length_map, List.length_cons, Nat.zero_lt_succ, gt_iff_lt, if_true, reduceCtorEq, if_false]

theorem schemaLine_ok {R : Reprs} {w : World} {width : Nat} {e : Str × DataType} (hp : Spec.StrKnown R w e.2.options)
    (ht : e.2.tname ≠ .unknown) : ∃ l, w.schemaLine R width e = .ok l ∧ Spec.FieldLine R w width e l := by
  obtain ⟨opts, h1, h2⟩ := keyVals_ok hp
  have hw : ∃ t, e.2.tname.wire = .ok t := by
    cases h : e.2.tname <;> first | exact absurd h ht | exact ⟨_, rfl⟩
  obtain ⟨t, hw⟩ := hw
  unfold schemaLine
  rw [hw]; simp only [h1]
  refine ⟨_, rfl, t, opts, hw, h2, ?_⟩
  cases ho : e.2.options <;> simp only [ljust, List.length_nil, List.length_cons, if_true, Nat.add_one_ne_zero, reduceCtorEq,
    if_false, List.append_assoc]

theorem schemaLines_ok {R : Reprs} {w : World} {k : Str} {L : LayerId}
    (h : ∀ e ∈ (w.layers L).fields, Spec.StrKnown R w e.2.options ∧ e.2.tname ≠ .unknown) :
    ∃ sec, w.schemaLines R (k, L) = .ok sec ∧ Spec.Section R w k L sec := by
  unfold schemaLines
  simp only
  generalize hN : Printout.maxNat ((w.layers L).fields.map (fun f => f.1.length)) = N
  obtain ⟨ls, hls⟩ := mapE_total (f := w.schemaLine R N) (l := (w.layers L).fields)
    (fun e he => (schemaLine_ok (h e he).1 (h e he).2).imp (fun _ x => x.1))
  rw [hls]
  obtain ⟨h1, h2⟩ := maxNat_spec ((w.layers L).fields.map (fun f => f.1.length))
  rw [hN] at h1 h2
  refine ⟨_, rfl, N, ls, rfl, fun f hf => ?_, ?_, each_of_get (mapE_inv hls).1 (fun i e hi => ?_)⟩
  · obtain ⟨e, he, rfl⟩ := List.mem_map.1 hf
    exact h1 _ (List.mem_map.2 ⟨e, he, rfl⟩)
  · refine h2.imp id (fun h => ?_)
    obtain ⟨e, he, hl⟩ := List.mem_map.1 h
    exact ⟨e.1, List.mem_map.2 ⟨e, he, rfl⟩, hl⟩
  · obtain ⟨l, h3, h4⟩ := mapE_get hls hi
    obtain ⟨l', h5, h6⟩ := schemaLine_ok (width := N) (h e (List.mem_of_getElem? hi)).1 (h e (List.mem_of_getElem? hi)).2
    rw [h3] at h5; cases h5
    exact ⟨l, h4, h6⟩

theorem dkeys_sortEntries {α : Type} (d : Dict Str α) : dkeys (sortEntries d) = sortNames (dkeys d) := by
  have : ∀ l : List Str, (∀ k ∈ l, k ∈ dkeys d) → dkeys (l.filterMap (fun k => (dget d k).map (fun v => (k, v)))) = l := by
    intro l
    induction l with
    | nil => intro _; rfl
    | cons k l ih =>
      intro h
      cases hk : dget d k with
      | none => exact absurd (h k (by simp)) ((dget_none_iff _ _).1 hk)
      | some v =>
        rw [List.filterMap_cons, hk]
        simp only [Option.map_some, dkeys, List.map_cons]
        exact congrArg _ (ih (fun j hj => h j (by simp [hj])))
  exact this _ (fun k hk => (sortNames_perm _).mem_iff.1 hk)

theorem mem_sortEntries {α : Type} {d : Dict Str α} {e : Str × α} (h : e ∈ sortEntries d) : dget d e.1 = some e.2 := by
  obtain ⟨k, _, he⟩ := List.mem_filterMap.1 h
  cases hk : dget d k with
  | none => simp [hk] at he
  | some v => simp [hk] at he; subst he; exact hk

/-- C75. printschema prints a section for every layer, in alphabetical order of their names. -/
theorem C75_printschema (R : Reprs) {w : World} (h : Reachable w)
    (hp : ∀ k L, dget w.dl k = some L → ∀ e ∈ (w.layers L).fields, Spec.StrKnown R w e.2.options ∧ e.2.tname ≠ .unknown) :
    ∃ names secs, names.Perm (dkeys w.dl) ∧ names.Pairwise Spec.Query.Before ∧ w.printschema R = .ok secs.flatten ∧
      Each (fun k sec => ∃ L, dget w.dl k = some L ∧ Spec.Section R w k L sec) names secs := by
  have hcol := sortNames_columns h.wf.dlKeys
  have hsec : ∀ e ∈ sortEntries w.dl, ∃ sec, w.schemaLines R e = .ok sec ∧ Spec.Section R w e.1 e.2 sec :=
    fun e he => schemaLines_ok (hp e.1 e.2 (mem_sortEntries he))
  obtain ⟨secs, hs⟩ := mapE_total (fun e he => (hsec e he).imp (fun _ x => x.1))
  refine ⟨_, secs, hcol.1, hcol.2, by simp only [printschema, hs], ?_⟩
  rw [← dkeys_sortEntries]
  refine each_of_get (by rw [(mapE_inv hs).1]; simp [dkeys]) (fun i k hi => ?_)
  simp only [dkeys, List.getElem?_map] at hi
  cases he : (sortEntries w.dl)[i]? with
  | none => simp [he] at hi
  | some e =>
    simp [he] at hi; subst hi
    obtain ⟨sec, h1, h2⟩ := mapE_get hs he
    obtain ⟨sec', h3, h4⟩ := hsec e (List.mem_of_getElem? he)
    rw [h1] at h3; cases h3
    exact ⟨sec, h2, e.2, mem_sortEntries (List.mem_of_getElem? he), h4⟩

/-- C75. A layer with a field of unknown type: the schema does not print. -/
theorem C75_unknown_type (R : Reprs) (w : World) {k L f t} (hk : dget w.dl k = some L) (hf : (f, t) ∈ (w.layers L).fields)
    (ht : t.tname = .unknown) : ∀ ls, w.printschema R ≠ .ok ls := by
  intro ls h
  unfold printschema at h
  split at h
  · simp at h
  rename_i secs hs
  have hmem : (k, L) ∈ sortEntries w.dl := by
    refine List.mem_filterMap.2 ⟨k, (sortNames_perm _).mem_iff.2 ?_, by simp [hk]⟩
    exact List.mem_map.2 ⟨_, dget_mem hk, rfl⟩
  obtain ⟨sec, hsec⟩ := mapE_all hs hmem
  unfold schemaLines at hsec
  simp only at hsec
  split at hsec
  · simp at hsec
  rename_i l hl
  obtain ⟨b, hb⟩ := mapE_all hl hf
  unfold schemaLine at hb
  simp [ht, TName.wire] at hb

theorem pyJoin_append {sep : Str} {a b : List Str} (ha : a ≠ []) (hb : b ≠ []) :
    Verif.pyJoin sep (a ++ b) = Verif.pyJoin sep a ++ sep ++ Verif.pyJoin sep b := by
  induction a with
  | nil => exact absurd rfl ha
  | cons x a ih =>
    cases a with
    | nil =>
      cases b with
      | nil => exact absurd rfl hb
      | cons y b => simp [Verif.pyJoin]
    | cons z a =>
      have := ih (by simp)
      simp only [List.cons_append, Verif.pyJoin] at this ⊢
      rw [this]; simp [List.append_assoc]

theorem truncate_total {o : Printout.Options} (hd : o.maxDisplayWidth = none → o.maxColumnWidth = none) (s : Str) :
    ∃ t, Printout.truncate o s = .ok t := by
  unfold Printout.truncate
  split
  · exact ⟨_, rfl⟩
  · split
    · rename_i h1 _ h2; rw [hd h2] at h1; simp at h1
    · dsimp only; split <;> exact ⟨_, rfl⟩

theorem laid_of {ops : List Printout.SetOp} {o : Printout.Options} (ho : Spec.Print.Settable ops o)
    (hd : o.maxDisplayWidth = none → o.maxColumnWidth = none) {t : Printout.Table} (hf : Spec.Print.Full t) :
    ∃ ls, Printout.textLines o t = .ok ls ∧ Spec.Laid o t ls := by
  have hfmt : ∀ (r : Printout.Row) i, ∃ cs, Printout.formatText o r i = .ok cs := by
    intro r i
    unfold Printout.formatText
    obtain ⟨cs, hcs⟩ := mapRow_total (f := Printout.cellText o) (l := r.elems) (fun e _ => by
      cases e <;> exact truncate_total hd _)
    exact ⟨_, by rw [hcs]⟩
  obtain ⟨h, hh, _⟩ := id hf
  obtain ⟨hs, h1⟩ := hfmt h 0
  obtain ⟨rows, h2⟩ := C59_succeeds o (Printout.formatText o) t.body (fun r _ i => hfmt r i)
  have hc : Printout.compile o (Printout.formatText o) t = .ok (hs, rows) := by simp only [Printout.compile, hh, h1, h2]
  have hcap : ∃ cap, (∀ c, t.caption = some c → ∃ s, Printout.truncate o c = .ok s ∧ cap = some s) ∧ (t.caption = none → cap = none) := by
    cases hc : t.caption with
    | none => exact ⟨none, by simp, by simp⟩
    | some c =>
      obtain ⟨s, hs⟩ := truncate_total hd c
      exact ⟨some s, fun c' e => by cases e; exact ⟨s, hs, rfl⟩, by simp⟩
  obtain ⟨cap, hcap, hcap0⟩ := hcap
  obtain ⟨ws, bl, a1, a2, a3, -, -⟩ := C60_columns_partial ops o ho t (hf.shown o) hs rows hc cap hcap hcap0
  exact ⟨_, a3, hs, rows, cap, ws, bl, hc, hcap, a1, a2, rfl⟩

/-- C75. str(doc) is the line `== Document ==` and two tables: the texts, each with its name and its text in quotes, and
the layers, each with its name and how many nodes it holds; for all options but a column width without display width. -/
theorem C75_str_partial (R : Reprs) {w : World} (h : Reachable w) (ops : List Printout.SetOp) (o : Printout.Options)
    (ho : Spec.Print.Settable ops o) (hd : o.maxDisplayWidth = none → o.maxColumnWidth = none) :
    ∃ tt tl lt ll, w.docStr R o = .ok (Verif.pyJoin ['\n'] ("== Document ==".toList :: (lt ++ ll))) ∧
      Spec.Laid o tt lt ∧ Spec.Laid o tl ll ∧ tt.caption = some "Texts".toList ∧ tl.caption = some "Layers".toList ∧
      (tt.hideHeader ∧ tt.hideIndex ∧ tl.hideHeader ∧ tl.hideIndex) ∧
      Each (fun (e : Str × TextId) (r : Printout.Row) =>
        r.elems = [.str e.1, .str (strRepr R.printable (w.texts e.2).text)]) w.dt tt.body ∧
      Each (fun (e : Str × LayerId) (r : Printout.Row) =>
        r.elems = [.str e.1, .str ("N=".toList ++ intStr (w.iter e.2).length)]) w.dl tl.body := by
  obtain ⟨lt, h1, h2⟩ := laid_of ho hd (t := w.textsTable R) ⟨_, rfl, fun r hr => by
    obtain ⟨e, _, rfl⟩ := List.mem_map.1 hr; simp⟩
  obtain ⟨ll, h3, h4⟩ := laid_of ho hd (t := w.layersTable) ⟨_, rfl, fun r hr => by
    obtain ⟨e, _, rfl⟩ := List.mem_map.1 hr; simp⟩
  refine ⟨_, _, lt, ll, ?_, h2, h4, rfl, rfl, ⟨rfl, rfl, rfl, rfl⟩, each_map_fn _ _ (fun e _ => rfl),
    each_map_fn _ _ (fun e _ => by rw [C11_len h])⟩
  have n1 : lt ≠ [] := by obtain ⟨_, _, _, _, _, _, _, _, _, e⟩ := h2; simp [e]
  have n2 : ll ≠ [] := by obtain ⟨_, _, _, _, _, _, _, _, _, e⟩ := h4; simp [e]
  unfold docStr Printout.renderText
  rw [h1, h3]
  simp only [Verif.pyJoin]
  rw [show "== Document ==".toList :: (lt ++ ll) = ["== Document ==".toList] ++ (lt ++ ll) from rfl,
    pyJoin_append (by simp) (by simp [n1]), pyJoin_append n1 n2]
  simp only [Verif.pyJoin, List.append_assoc]

/-- C75 fails when a column width but no display width is set, whatever the document. -/
theorem C75_str_fails (R : Reprs) (w : World) : ∃ ops o, Spec.Print.Settable ops o ∧ w.docStr R o = .error .type :=
  ⟨[.displayWidth none], _, rfl, rfl⟩

namespace Ex
/-- what `str`, `repr` and `printschema` give for the document of C74 -/
example : (wpd.docRepr reprs) = .ok "Document(3 layers, 1 texts)".toList := by decide +kernel
example : wpd.printschema reprs = .ok ["[t]".toList, " * s : span[context=main]".toList, " * p : str".toList, [],
    "[u]".toList, " * __ref : i32".toList, [], "[v]".toList, " * s : span[context=main]".toList, []] := by decide +kernel
example : wpd.docStr reprs {} = .ok ("== Document ==\n      Texts       \n\n  main    'a bc'  \n\n   Layers   \n\n".toList ++
    "  t    N=2  \n  u    N=1  \n  v    N=1  \n".toList) := by decide +kernel
/-- the hypotheses of C75 for this document -/
example : Spec.StrKnown reprs wpd wpd.props ∧ Spec.Print.Settable [] {} ∧
    (∀ e ∈ (wpd.layers 0).fields, Spec.StrKnown reprs wpd e.2.options ∧ e.2.tname ≠ .unknown) := by
  refine ⟨?_, rfl, ?_⟩
  · have : wpd.props = [] := by decide +kernel
    rw [this]; intro e he; simp at he
  · have e : (wpd.layers 0).fields = [("s".toList, DataTypes.textspan "main".toList), ("p".toList, DataTypes.string none)] := by
      decide +kernel
    rw [e]
    intro x hx
    simp only [List.mem_cons, List.not_mem_nil, or_false] at hx
    rcases hx with rfl | rfl
    · refine ⟨fun o ho => ?_, by decide⟩
      have : o = ("context".toList, .str "main".toList) := by simpa [DataTypes.textspan, DataTypes.opts] using ho
      subst this; exact ⟨_, rfl⟩
    · refine ⟨fun o ho => ?_, by decide⟩
      simp [DataTypes.string, DataTypes.opts] at ho
end Ex

end Verif
