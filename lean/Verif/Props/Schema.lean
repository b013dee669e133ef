import Verif.Model.Types
import Verif.Proof.Attrs
import Verif.Props.Layer
/-
C20-C25: validation, defaults, schema changes, type merging, removing layers.
-/
set_option linter.unusedSimpArgs false
namespace Verif
open World

namespace Spec

/-- `n` is attached to a layer of this name -/
def AttachedTo (w : World) (n : NodeId) (name : Str) : Prop :=
  ∃ L, (w.nodes n).coll = some L ∧ (w.layers L).name = name

/-- The values a field of the given factory type should accept. Python's `True`/`False` are the integers
1/0. -/
inductive InDomain (w : World) : DataType → Value → Prop
  | bool {o b} : InDomain w ⟨.bool, true, o⟩ (.bool b)
  | i32 {o i} : -2 ^ 31 ≤ i → i < 2 ^ 31 → InDomain w ⟨.i32, true, o⟩ (.int i)
  | i32b {o b} : InDomain w ⟨.i32, true, o⟩ (.bool b)
  | i64 {o i} : -2 ^ 63 ≤ i → i < 2 ^ 63 → InDomain w ⟨.i64, true, o⟩ (.int i)
  | i64b {o b} : InDomain w ⟨.i64, true, o⟩ (.bool b)
  | f64 {o x} : InDomain w ⟨.f64, true, o⟩ (.float x)
  | str {o s} : s.length < 2 ^ 31 → InDomain w ⟨.string, true, o⟩ (.str s)
  | bin {o s} : s.length < 2 ^ 31 → InDomain w ⟨.binary, true, o⟩ (.bytes s)
  | span {t a b} : InDomain w (DataTypes.textspan (w.texts t).name) (.span t a b)
  | node {n name} : AttachedTo w n name → InDomain w (DataTypes.noderef name) (.node n)
  | nodes {ns name} : (∀ n ∈ ns, AttachedTo w n name) → InDomain w (DataTypes.noderefMany name) (.nodes ns)
  | nodespan {l r name} : AttachedTo w l name → AttachedTo w r name → (w.nodes l).id ≤ (w.nodes r).id →
      InDomain w (DataTypes.nodespan name) (.nodespan l r)

/-- types the property quantifies over -/
def Factory (t : DataType) : Prop :=
  t.checked = true ∧ (t.tname = .bool ∨ t.tname = .i32 ∨ t.tname = .i64 ∨ t.tname = .f64 ∨
    t.tname = .string ∨ t.tname = .binary ∨ (∃ c, t = DataTypes.textspan c) ∨ (∃ l, t = DataTypes.noderef l) ∨
    (∃ l, t = DataTypes.noderefMany l) ∨ (∃ l, t = DataTypes.nodespan l))

end Spec

theorem boundTo_iff {w : World} {n : NodeId} {name : Str} :
    DataType.boundTo w n (.str name) = true ↔ Spec.AttachedTo w n name := by
  unfold DataType.boundTo collName Spec.AttachedTo
  cases hc : (w.nodes n).coll with
  | none => simp
  | some L => simp

/-- C23. A field accepts exactly the values of its domain. For `noderef_many` fields the values that are
NodeSpans are left out (see DESIGN.md). -/
theorem C23_valid_iff_partial {w : World} (h : Reachable w) (t : DataType) (ht : Spec.Factory t) (v : Value)
    (hv : t.tname = .noderefMany → ∀ l r, v ≠ .nodespan l r) :
    t.isValid w v = .ok true ↔ Spec.InDomain w t v := by
  have hi := h.inv
  obtain ⟨tn, ck, op⟩ := t
  obtain ⟨hck, ht⟩ := ht
  simp only at hck; subst hck
  have hid : ∀ n name, Spec.AttachedTo w n name → w.nodeI n = .ok (w.nodes n).id := by
    rintro n name ⟨L, hc, -⟩
    obtain ⟨i, h1, -⟩ := hi.bound n L hc
    rw [hi.nodeI_ok h1, h1]
  rcases ht with ht | ht | ht | ht | ht | ht | ⟨c, ht⟩ | ⟨c, ht⟩ | ⟨c, ht⟩ | ⟨c, ht⟩
  · simp only at ht; subst ht
    constructor
    · intro hh; cases v <;> simp_all [DataType.isValid]; exact .bool
    · intro hh; cases hh; simp [DataType.isValid]
  · simp only at ht; subst ht
    constructor
    · intro hh
      cases v <;> simp_all [DataType.isValid, DataType.asInt]
      · exact .i32b
      · exact .i32 (by omega) (by omega)
    · intro hh; cases hh with
      | i32 h1 h2 => simp [DataType.isValid, DataType.asInt]; omega
      | i32b => rename_i b; cases b <;> simp [DataType.isValid, DataType.asInt]
  · simp only at ht; subst ht
    constructor
    · intro hh
      cases v <;> simp_all [DataType.isValid, DataType.asInt]
      · exact .i64b
      · exact .i64 (by omega) (by omega)
    · intro hh; cases hh with
      | i64 h1 h2 => simp [DataType.isValid, DataType.asInt]; omega
      | i64b => rename_i b; cases b <;> simp [DataType.isValid, DataType.asInt]
  · simp only at ht; subst ht
    constructor
    · intro hh; cases v <;> simp_all [DataType.isValid]; exact .f64
    · intro hh; cases hh; simp [DataType.isValid]
  · simp only at ht; subst ht
    constructor
    · intro hh; cases v <;> simp_all [DataType.isValid]; exact .str (by omega)
    · intro hh; cases hh; simp [DataType.isValid]; omega
  · simp only at ht; subst ht
    constructor
    · intro hh; cases v <;> simp_all [DataType.isValid]; exact .bin (by omega)
    · intro hh; cases hh; simp [DataType.isValid]; omega
  · rw [ht]
    constructor
    · intro hh
      cases v <;> simp_all [DataType.isValid, DataTypes.textspan, DataType.opt, DataTypes.opts, dget, bind, pure,
        Except.bind, Except.pure]
      subst hh; exact .span
    · intro hh
      generalize hg : DataTypes.textspan c = T at hh
      cases hh <;> simp_all [DataTypes.textspan, DataTypes.noderef, DataTypes.noderefMany, DataTypes.nodespan]
      simp [DataType.isValid, DataTypes.textspan, DataType.opt, DataTypes.opts, dget, bind, pure, Except.bind, Except.pure]
  · rw [ht]
    constructor
    · intro hh
      cases v <;> simp_all [DataType.isValid, DataTypes.noderef]
      rename_i n
      split at hh
      · simp at hh
      · simp [DataType.opt, DataTypes.opts, dget, bind, pure, Except.bind, Except.pure, Functor.map, Except.map] at hh
        exact .node (boundTo_iff.mp hh)
    · intro hh
      generalize hg : DataTypes.noderef c = T at hh
      cases hh <;> simp_all [DataTypes.textspan, DataTypes.noderef, DataTypes.noderefMany, DataTypes.nodespan, DataTypes.opts]
      rename_i hat
      simp [DataType.isValid, DataType.opt, dget, bind, pure, Except.bind, Except.pure]
      rw [boundTo_iff.mpr hat]
      obtain ⟨L, hL, -⟩ := hat
      simp [hL]
  · rw [ht]
    constructor
    · intro hh
      cases v <;> simp_all [DataType.isValid, DataTypes.noderefMany, DataType.opt, DataTypes.opts, dget, bind, pure,
        Except.bind, Except.pure]
      exact .nodes (fun n hn => boundTo_iff.mp (hh n hn))
    · intro hh
      generalize hg : DataTypes.noderefMany c = T at hh
      cases hh <;> simp_all [DataTypes.textspan, DataTypes.noderef, DataTypes.noderefMany, DataTypes.nodespan, DataTypes.opts]
      rename_i hat
      simp [DataType.isValid, DataType.opt, dget, bind, pure, Except.bind, Except.pure]
      intro n hn; exact boundTo_iff.mpr (hat n hn)
  · rw [ht]
    constructor
    · intro hh
      cases v <;> simp_all [DataType.isValid, DataTypes.nodespan]
      rename_i l r
      split at hh
      · simp at hh
      · simp only [DataType.opt, DataTypes.opts, dget, bind, pure, Except.bind, Except.pure, if_true] at hh
        split at hh
        · simp at hh
        · rename_i hb
          simp at hb
          have h1 := boundTo_iff.mp hb.1
          have h2 := boundTo_iff.mp hb.2
          rw [hid l c h1, hid r c h2] at hh
          simp [Functor.map, Except.map] at hh
          exact .nodespan h1 h2 hh
    · intro hh
      generalize hg : DataTypes.nodespan c = T at hh
      cases hh <;> simp_all [DataTypes.textspan, DataTypes.noderef, DataTypes.noderefMany, DataTypes.nodespan, DataTypes.opts]
      rename_i hl hr hle
      have n1 := hid _ _ hl
      have n2 := hid _ _ hr
      simp [DataType.isValid, DataType.opt, DataTypes.opts, dget, bind, pure, Except.bind, Except.pure, n1, n2]
      rw [boundTo_iff.mpr hl, boundTo_iff.mpr hr]
      obtain ⟨L, hL, -⟩ := hl
      obtain ⟨R, hR, -⟩ := hr
      simp [hL, hR, hle]


/-! ### C20 -/

theorem validateFields_iff (w : World) (d : Dict Str Value) (fs : Dict Str DataType) :
    validateFields w d fs = .ok () ↔ ∀ e ∈ fs, ∀ v, dget d e.1 = some v → e.2.isValid w v = .ok true := by
  induction fs with
  | nil => simp [validateFields]
  | cons e fs ih =>
    obtain ⟨f, t⟩ := e
    simp only [validateFields, List.forall_mem_cons]
    cases hd : dget d f with
    | none => simp [ih]
    | some v =>
      simp only [Option.some.injEq, forall_eq']
      cases hv : t.isValid w v with
      | error e => simp
      | ok b => cases b <;> simp [ih]

/-- `is_valid` looks only at attachment, indices and names -/
theorem isValid_congr {w w' : World} (h1 : ∀ n, (w'.nodes n).coll = (w.nodes n).coll ∧ (w'.nodes n).id = (w.nodes n).id)
    (h2 : ∀ L, (w'.layers L).name = (w.layers L).name) (h3 : w'.texts = w.texts) (t : DataType) (v : Value) :
    t.isValid w' v = t.isValid w v := by
  have hb : ∀ n x, DataType.boundTo w' n x = DataType.boundTo w n x := by
    intro n x; simp only [DataType.boundTo, collName, (h1 n).1, h2]
  have hn : ∀ n, w'.nodeI n = w.nodeI n := by intro n; simp only [nodeI, (h1 n).2]
  unfold DataType.isValid
  simp only [h1, hb, hn, h3]

/-- the default a type declares: its option "default", unless that is None -/
def Spec.default (t : DataType) : Option Value := (dget t.options "default".toList).filter (fun v => decide (v ≠ .none))

theorem default_eq : DataType.default? = Spec.default := by
  funext t
  unfold DataType.default? Spec.default
  cases dget t.options "default".toList with
  | none => rfl
  | some v => cases v <;> rfl

/-- C20. `layer.add(**kw)` raises and changes nothing, or appends one new node whose fields are the
defaults overridden by `kw` and whose declared fields are all valid. -/
theorem C20_add {w : World} (h : Reachable w) (L : LayerId) (hL : L < w.nextL) (kw : Dict Str Value)
    (hkw : (dkeys kw).Nodup) :
    (∃ e, w.addNew L kw = (w, .error e)) ∨
    ∃ w' n, w.addNew L kw = (w', .ok n) ∧ (∀ K, some n ∉ w.iter K) ∧ w'.iter L = w.iter L ++ [some n] ∧
      (∀ K, K ≠ L → w'.iter K = w.iter K) ∧
      (∀ k, dget (w'.nodes n).fields k = (dget kw k).or ((dget (w.layers L).fields k).bind Spec.default)) ∧
      (∀ m, m ≠ n → w'.nodes m = w.nodes m) ∧
      (∀ f t v, dget (w.layers L).fields f = some t → dget (w'.nodes n).fields f = some v →
        t.isValid w' v = .ok true) := by
  rw [← default_eq]
  have hi := h.inv
  have hwf := h.wf
  rcases addNew_spec hi L hL kw with ⟨e, he⟩ | ⟨w', he, i, -, b, f, o⟩
  · exact .inl ⟨e, he⟩
  · refine .inr ⟨w', w.nextN, he, ?_, ?_, ?_, ?_, o, ?_⟩
    · intro K hm
      rw [hi.iter_eq] at hm
      simp at hm
      rw [hi.mem_iff, hi.fresh _ (Nat.le_refl _)] at hm; simp at hm
    · rw [hi.iter_eq, i.iter_eq, b L]; simp
    · intro K hK; rw [hi.iter_eq, i.iter_eq, b K, if_neg hK]
    · intro k
      rw [f, dget_dupdate _ _ hkw, hwf.defaults]
      congr 1
      exact dget_computeDefaults _ (hwf.fieldKeys L) k
    · intro fl t v hf hv
      unfold addNew at he
      simp only [newNode] at he
      split at he
      · simp at he
      · rename_i hval
        simp only [Prod.mk.injEq] at he
        have hval' := (validateFields_iff _ _ _).mp hval (fl, t) (by
          have := dget_mem hf
          simpa [setColl, setId, modNode] using this) v (by
            rw [← he.1] at hv; simpa [setNum, setSlots, modLayer, setColl, setId, modNode] using hv)
        rw [← hval']
        apply isValid_congr
        · intro n; rw [← he.1]; simp [setNum, setSlots, modLayer, setColl, setId, modNode]
        · intro K; rw [← he.1]
          simp only [setNum, setSlots, modLayer, setColl, setId, modNode, upd_upd, upd_same]
          simp only [upd]; split <;> simp_all
        · rw [← he.1]; simp [setNum, setSlots, modLayer, setColl, setId, modNode]

/-- C20. Conversely, `add` accepts when every declared field given or defaulted is valid in the heap with
the new node attached. -/
theorem C20_accepts {w : World} (L : LayerId) (kw : Dict Str Value)
    (hval : ∀ w' : World, (∀ n, n ≠ w.nextN → w'.nodes n = w.nodes n) → w'.texts = w.texts →
      (∀ K, (w'.layers K).name = (w.layers K).name) →
      ∀ f t v, (f, t) ∈ (w.layers L).fields → dget (dupdate (w.layers L).defaults kw) f = some v →
      t.isValid w' v = .ok true) :
    ∃ w', w.addNew L kw = (w', .ok w.nextN) := by
  have hv : (((w.newNode (dupdate (w.layers L).defaults kw)).1.setId w.nextN
      (w.layers L).slots.length).setColl w.nextN (some L)).validate L w.nextN = .ok () := by
    refine (validateFields_iff _ _ _).mpr ?_
    intro e he v hd
    refine hval _ ?_ ?_ ?_ e.1 e.2 v he ?_
    · intro n hn; simp [setColl, setId, modNode, newNode, upd, hn]
    · rfl
    · intro K; rfl
    · simpa [setColl, setId, modNode, newNode] using hd
  unfold addNew
  simp only [newNode] at hv ⊢
  rw [hv]
  exact ⟨_, rfl⟩

/-- C20 fails for defaults: a layer with a `float64()` field refuses `layer.add()`, because the default
is the int 0. -/
theorem C20_float_default_rejected : ∃ (w : World) (L : LayerId), Reachable w ∧ L < w.nextL ∧
    (w.layers L).fields = [("p".toList, DataTypes.float64 (some 0))] ∧
    (w.addNew L []).2 = .error .assertion :=
  ⟨World.empty.run [.addLayer "tok".toList [("p".toList, DataTypes.float64 (some 0))]], 0,
    reachable_run _ (by decide), by decide, by decide, by decide⟩

namespace Spec
/-- a default that is a value of the type itself -/
inductive GoodDefault : DataType → Prop
  | none {t} : t.default? = none → GoodDefault t
  | unchecked {t} : t.checked = false → GoodDefault t
  | i32 {i} : -2 ^ 31 ≤ i → i < 2 ^ 31 → GoodDefault (DataTypes.int32 (some i))
  | i64 {i} : -2 ^ 63 ≤ i → i < 2 ^ 63 → GoodDefault (DataTypes.int64 (some i))
  | str : GoodDefault (DataTypes.string (some []))
  | f64 {b} : DataTypes.isZero b = false → GoodDefault (DataTypes.float64 (some b))
end Spec

theorem goodDefault_valid {t : DataType} (h : Spec.GoodDefault t) (w : World) (v : Value)
    (hv : t.default? = some v) : t.isValid w v = .ok true := by
  cases h with
  | none h => rw [h] at hv; simp at hv
  | unchecked h => simp [DataType.isValid, h]
  | i32 h1 h2 =>
    simp [DataTypes.int32, DataType.default?, DataTypes.opts, dget] at hv
    subst hv
    simp [DataTypes.int32, DataType.isValid, DataType.asInt]; omega
  | i64 h1 h2 =>
    simp [DataTypes.int64, DataType.default?, DataTypes.opts, dget] at hv
    subst hv
    simp [DataTypes.int64, DataType.isValid, DataType.asInt]; omega
  | str =>
    simp [DataTypes.string, DataType.default?, DataTypes.opts, dget] at hv
    subst hv
    simp [DataTypes.string, DataType.isValid]
  | f64 h1 =>
    simp [DataTypes.float64, DataType.default?, DataTypes.opts, dget, h1] at hv
    subst hv
    simp [DataTypes.float64, DataType.isValid, h1]

/-- C20, the part about defaults that holds: `layer.add()` succeeds when no field has the zero float
default and integer defaults are in range. -/
theorem C20_defaults_accepted_partial {w : World} (h : Reachable w) (L : LayerId)
    (hd : ∀ f t, (f, t) ∈ (w.layers L).fields → Spec.GoodDefault t) :
    ∃ w', w.addNew L [] = (w', .ok w.nextN) := by
  apply C20_accepts
  intro w' _ _ _ f t v hf hv
  have hwf := h.wf
  simp only [dupdate, List.foldl_nil] at hv
  rw [hwf.defaults, dget_computeDefaults _ (hwf.fieldKeys L), dget_of_mem (hwf.fieldKeys L) hf] at hv
  exact goodDefault_valid (hd f t hf) w' v hv

/-! ### C21 -/

theorem dget_fillMissing (f d : Dict Str Value) (k : Str) :
    dget (fillMissing f d) k = (dget f k).or (dget d k) := by
  unfold fillMissing
  induction d generalizing f with
  | nil => simp [dget]
  | cons e d ih =>
    obtain ⟨a, b⟩ := e
    simp only [List.foldl_cons, ih]
    by_cases hs : (dget f a).isSome
    · simp only [hs, if_true, dget]
      by_cases ha : a = k
      · subst ha
        obtain ⟨x, hx⟩ := Option.isSome_iff_exists.mp hs
        simp [hx]
      · simp [ha]
    · simp only [hs, if_false, dget_dset, dget, Bool.false_eq_true]
      by_cases ha : a = k
      · subst ha; simp at hs; simp [hs]
      · simp [ha]

theorem fillLoop_fields (w : World) (d) (l : List NodeId) (hn : l.Nodup) (m : NodeId) :
    ((w.fillLoop d (l.map some)).nodes m).fields =
      if m ∈ l then fillMissing (w.nodes m).fields d else (w.nodes m).fields := by
  induction l generalizing w with
  | nil => rfl
  | cons n l ih =>
    rw [List.nodup_cons] at hn
    simp only [List.map_cons, fillLoop, ih _ hn.2]
    simp only [modNode]
    by_cases hmn : m = n
    · subst hmn; simp [hn.1]
    · simp [upd_ne _ _ hmn, hmn]

theorem validateAll_iff (w : World) (L : LayerId) (ns : List NodeId) :
    validateAll w L ns = none ↔ ∀ n ∈ ns, w.validate L n = .ok () := by
  induction ns with
  | nil => simp [validateAll]
  | cons n ns ih =>
    simp only [validateAll, List.forall_mem_cons]
    cases h : w.validate L n with
    | error e => simp
    | ok u => simp [ih]

theorem addNodes_slots (w : World) (L : LayerId) (ns : List NodeId) :
    ((w.addNodes L ns).layers L).slots = (w.layers L).slots ++ ns.map some := by
  induction ns generalizing w with
  | nil => simp [addNodes]
  | cons n ns ih => simp only [addNodes, ih, appendNode_eq]; simp

/-- C21. A returning `add_many` appended exactly the given nodes in order, all of which were dangling and
distinct; every field given is left alone, missing ones have their default when `fill` is set; with
validation on, every declared field given is valid. -/
theorem C21_add_many {w : World} (h : Reachable w) (L : LayerId) (hL : L < w.nextL) (ns : List NodeId)
    (hex : ∀ n ∈ ns, n < w.nextN) (fill val : Bool) (w' : World)
    (hrun : w.addMany L ns fill val = (w', none)) :
    w'.iter L = w.iter L ++ ns.map some ∧ (∀ K, K ≠ L → w'.iter K = w.iter K) ∧
    ns.Nodup ∧ (∀ n ∈ ns, w.isDangling n = true) ∧
    (∀ n ∈ ns, ∀ k, dget (w'.nodes n).fields k = (dget (w.nodes n).fields k).or
      (if fill then (dget (w.layers L).fields k).bind Spec.default else none)) ∧
    (∀ n, n ∉ ns → (w'.nodes n).fields = (w.nodes n).fields) ∧
    (val = true → ∀ n ∈ ns, ∀ f t v, dget (w.layers L).fields f = some t →
      dget (w.nodes n).fields f = some v → t.isValid w' v = .ok true) := by
  rw [← default_eq]
  have hi := h.inv
  have hwf := h.wf
  obtain ⟨i, k, hk, e1, e2, e3, e4, -⟩ := addMany_spec hi L hL ns fill val hex
  rw [hrun] at i e1 e4
  have hkk := e1 rfl
  subst hkk
  rw [List.take_length] at e2 e3 e4
  have hloop : w.addManyLoop L ns = (w.addNodes L ns, none) := by
    obtain ⟨k, hk, x1, x2, x3, x4, x5⟩ := addManyLoop_spec hi L hL ns hex
    have herr : (w.addManyLoop L ns).2 = none := by
      unfold addMany at hrun
      rcases hq : w.addManyLoop L ns with ⟨u, e⟩
      rw [hq] at hrun
      cases e with
      | none => rfl
      | some e => simp at hrun
    have := x4 herr; subst this
    rw [List.take_length] at x1
    exact Prod.ext x1 herr
  obtain ⟨-, -, -, -, hfl⟩ := addNodes_spec hi L hL ns e2 (fun n hn => ⟨e3 n hn, hex n hn⟩)
  have kp := keeps_addNodes w L ns
  have hdef : ((w.addNodes L ns).layers L).defaults = (w.layers L).defaults := (kp.attrs L).2.2
  have hdrop : ((w.addNodes L ns).layers L).slots.drop (w.layers L).slots.length = ns.map some := by
    rw [addNodes_slots]; simp
  unfold addMany at hrun
  rw [hloop] at hrun
  simp only at hrun
  have hfields : ∀ n, (w'.nodes n).fields =
      if fill = true ∧ n ∈ ns then fillMissing (w.nodes n).fields (w.layers L).defaults else (w.nodes n).fields := by
    intro n
    split at hrun
    · simp at hrun
    · split at hrun
      · rename_i hf
        simp at hf
        simp only [Prod.mk.injEq] at hrun
        rw [← hrun.1, hdrop, fillLoop_fields _ _ _ e2, hdef, hfl]
        simp [hf.1]
      · rename_i hf
        simp only [Prod.mk.injEq] at hrun
        rw [← hrun.1, hfl]
        split
        · rename_i hh
          simp [hh.1, hdef] at hf
          simp [hf, fillMissing]
        · rfl
  refine ⟨?_, ?_, e2, ?_, ?_, ?_, ?_⟩
  · rw [hi.iter_eq, i.iter_eq, e4 L]; simp
  · intro K hK; rw [hi.iter_eq, i.iter_eq, e4 K, if_neg hK]
  · intro n hn; simp [isDangling, e3 n hn]
  · intro n hn k
    rw [hfields n]
    cases fill with
    | false => simp
    | true =>
      simp only [hn, and_self, if_true]
      rw [dget_fillMissing, hwf.defaults, dget_computeDefaults _ (hwf.fieldKeys L)]
  · intro n hn; rw [hfields n]; simp [hn]
  · intro hval n hn f t v hf hv
    subst hval
    simp only [if_true] at hrun
    split at hrun
    · simp at hrun
    · rename_i hva
      have hvn := (validateAll_iff _ _ _).mp hva n hn
      have := (validateFields_iff _ _ _).mp hvn (f, t) (by
        rw [(kp.attrs L).2.1]; exact dget_mem hf) v (by rw [hfl]; exact hv)
      rw [← this]
      split at hrun
      · simp only [Prod.mk.injEq] at hrun
        obtain ⟨f1, f2, f3, f4⟩ := fillLoop_layers (w.addNodes L ns) ((w.addNodes L ns).layers L).defaults
          (((w.addNodes L ns).layers L).slots.drop (w.layers L).slots.length)
        have ft := (keeps_fillLoop (w.addNodes L ns) ((w.addNodes L ns).layers L).defaults
          (((w.addNodes L ns).layers L).slots.drop (w.layers L).slots.length)).texts
        rw [hrun.1] at f1 f4 ft
        exact isValid_congr f4 (fun K => by rw [f1]) ft t v
      · simp only [Prod.mk.injEq] at hrun
        rw [← hrun.1]

/-- C21. Bound nodes are refused with AssertionError. -/
theorem C21_bound_refused {w : World} (h : Reachable w) (L : LayerId) (hL : L < w.nextL) (ns : List NodeId)
    (hex : ∀ n ∈ ns, n < w.nextN) (fill val : Bool) (n : NodeId) (hn : n ∈ ns) (hb : w.isDangling n = false) :
    (w.addMany L ns fill val).2 = some .assertion := by
  have hi := h.inv
  obtain ⟨k, hk, x1, x2, x3, x4, x5⟩ := addManyLoop_spec hi L hL ns hex
  have hne : (w.addManyLoop L ns).2 ≠ none := by
    intro he
    have := x4 he; subst this
    rw [List.take_length] at x3
    have := x3 n hn
    simp [isDangling, this] at hb
  have := (x5 hne).1
  unfold addMany
  rcases hq : w.addManyLoop L ns with ⟨u, e⟩
  rw [hq] at this
  simp only at this
  subst this; rfl

/-- C21. `add_many` accepts nodes that are dangling, distinct and valid once attached. -/
theorem C21_accepts {w : World} (h : Reachable w) (L : LayerId) (hL : L < w.nextL) (ns : List NodeId)
    (hex : ∀ n ∈ ns, n < w.nextN) (hd : ∀ n ∈ ns, w.isDangling n = true) (hn : ns.Nodup) (fill val : Bool)
    (hv : val = true → ∀ n ∈ ns, (w.addNodes L ns).validate L n = .ok ()) :
    (w.addMany L ns fill val).2 = none := by
  have hi := h.inv
  obtain ⟨k, hk, x1, x2, x3, x4, x5⟩ := addManyLoop_spec hi L hL ns hex
  have herr : (w.addManyLoop L ns).2 = none := by
    cases he : (w.addManyLoop L ns).2 with
    | none => rfl
    | some e =>
      obtain ⟨-, n, hk1, hk2⟩ := x5 (by simp [he])
      exfalso
      rcases hk2 with hk2 | hk2
      · have := hd n (List.mem_of_getElem? hk1)
        simp [isDangling] at this; exact hk2 this
      · obtain ⟨hlt, hge⟩ := List.getElem?_eq_some_iff.mp hk1
        obtain ⟨j, hj, hje⟩ := List.getElem_of_mem hk2
        simp at hj
        rw [List.getElem_take] at hje
        have := (List.getElem_inj hn).mp (hje.trans hge.symm)
        omega
  have := x4 herr; subst this
  rw [List.take_length] at x1
  unfold addMany
  rcases hq : w.addManyLoop L ns with ⟨u, e⟩
  rw [hq] at herr x1
  simp only at herr x1
  subst herr x1
  simp only
  have : (if val = true then (w.addNodes L ns).validateAll L ns else none) = none := by
    split
    · rename_i hval; rw [validateAll_iff]; exact hv hval
    · rfl
  rw [this]
  simp only
  split <;> rfl

/-- C21, non-atomic: a refused batch leaves the nodes before the bound one attached. -/
theorem C21_refused_batch_stays : ∃ (w : World) (ns : List NodeId), Reachable w ∧
    (w.addMany 0 ns true true).2 = some .assertion ∧ (w.addMany 0 ns true true).1.iter 0 ≠ w.iter 0 :=
  ⟨World.empty.run [.addLayer "a".toList [], .newNode [], .addNew 0 []], [0, 1],
    reachable_run _ (by decide), by decide, by decide⟩

/-- C21, one-shot iterators: validation is skipped; an invalid field value gets in. -/
theorem C21_generator_not_validated : ∃ (w : World) (ns : List NodeId), Reachable w ∧
    (w.addMany 0 ns true true).2 = some .assertion ∧ (w.addManyOneShot 0 ns true true).2 = none :=
  ⟨World.empty.run [.addLayer "a".toList [("p".toList, DataTypes.int32 none)],
      .newNode [("p".toList, .str "x".toList)]], [0],
    reachable_run _ (by decide), by decide, by decide⟩

/-! ### C22 -/

theorem iter_of_slots {w w' : World} (L : LayerId) (h : (w'.layers L).slots = (w.layers L).slots ∧
    (w'.layers L).num = (w.layers L).num) : w'.iter L = w.iter L := by
  simp only [iter, h.1, h.2]

/-- C22. `add_field` of an undeclared name declares it last and sets the default on every node of the layer
and on no other node. -/
theorem C22_add_field {w : World} (h : Reachable w) (L : LayerId) (name : Str) (t : DataType)
    (hn : name ∉ dkeys (w.layers L).fields) :
    ∃ w', w.addField L name t true = (w', none) ∧
      (w'.layers L).fields = (w.layers L).fields ++ [(name, t)] ∧
      (∀ K, K ≠ L → w'.layers K = w.layers K) ∧ (∀ K, w'.iter K = w.iter K) ∧
      (∀ n, (w'.nodes n).coll = (w.nodes n).coll ∧ (w'.nodes n).id = (w.nodes n).id) ∧
      (∀ n v, some n ∈ w.iter L → Spec.default t = some v → ∀ k,
        dget (w'.nodes n).fields k = if k = name then some v else dget (w.nodes n).fields k) ∧
      (∀ n, some n ∉ w.iter L ∨ Spec.default t = none → w'.nodes n = w.nodes n) := by
  rw [← default_eq]
  have hi := h.inv
  have h0 : (dget (w.layers L).fields name).isSome = false := by
    rw [Bool.eq_false_iff]; intro hc; exact hn ((dget_isSome_iff _ _).mp hc)
  unfold addField
  rw [h0]
  simp only [Bool.false_eq_true, if_false, if_true]
  generalize hw1 : w.modLayer L (fun l => { l with
    fields := dset l.fields name t, defaults := computeDefaults (dset l.fields name t) }) = w1
  have hL : (w1.layers L).fields = (w.layers L).fields ++ [(name, t)] := by
    subst hw1; simp [modLayer, dset_absent t hn]
  have hK : ∀ K, K ≠ L → w1.layers K = w.layers K := by
    subst hw1; intro K hK; simp [modLayer, upd_ne _ _ hK]
  have hs : ∀ K, w1.iter K = w.iter K := by
    subst hw1; intro K; apply iter_of_slots
    simp only [modLayer, upd]; split <;> simp_all
  have hnd : w1.nodes = w.nodes := by subst hw1; rfl
  cases hd : t.default? with
  | none =>
    refine ⟨w1, rfl, hL, hK, hs, ?_, ?_, ?_⟩
    · intro n; rw [hnd]; exact ⟨rfl, rfl⟩
    · intro n v _ hv; simp at hv
    · intro n _; rw [hnd]
  | some v =>
    have sm := same_setAll w1 name v (w1.iter L)
    refine ⟨_, rfl, ?_, ?_, ?_, ?_, ?_, ?_⟩
    · rw [sm.layers]; exact hL
    · intro K hk; rw [sm.layers]; exact hK K hk
    · intro K; rw [← hs K]; apply iter_of_slots; rw [sm.layers]; exact ⟨rfl, rfl⟩
    · intro n; rw [sm.coll, sm.id, hnd]; exact ⟨rfl, rfl⟩
    · intro n v' hm hv k
      simp only [Option.some.injEq] at hv; subst hv
      rw [hs, hi.iter_eq, setAll_fields, hnd]
      rw [hi.iter_eq] at hm; simp at hm
      rw [if_pos hm, dget_dset]
      by_cases hk : name = k <;> simp [hk, Ne.symm, eq_comm]
    · intro n hm
      simp only [reduceCtorEq, or_false] at hm
      have f := setAll_fields w1 name v (live (w.layers L).slots) n
      rw [hi.iter_eq] at hm; simp at hm
      rw [if_neg hm, ← hi.iter_eq, ← hs] at f
      have c := sm.coll n
      have d := sm.id n
      rw [hnd] at f c d
      cases hx : (w1.setAll name v (w1.iter L)).nodes n
      cases hy : w.nodes n
      rw [hx, hy] at f c d
      simp_all

/-- C22. `remove_field` undeclares the field and deletes its value from every node of the layer. -/
theorem C22_remove_field {w : World} (h : Reachable w) (L : LayerId) (name : Str)
    (hn : name ∈ dkeys (w.layers L).fields) :
    ∃ w', w.removeField L name false = (w', true) ∧
      (∀ k, dget (w'.layers L).fields k = if k = name then none else dget (w.layers L).fields k) ∧
      (∀ K, K ≠ L → w'.layers K = w.layers K) ∧ (∀ K, w'.iter K = w.iter K) ∧
      (∀ n, (w'.nodes n).coll = (w.nodes n).coll ∧ (w'.nodes n).id = (w.nodes n).id) ∧
      (∀ n k, dget (w'.nodes n).fields k =
        if some n ∈ w.iter L ∧ k = name then none else dget (w.nodes n).fields k) := by
  have hi := h.inv
  have h0 : (dget (w.layers L).fields name).isNone = false := by
    have := (dget_isSome_iff _ _).mpr hn
    cases hd : dget (w.layers L).fields name <;> simp_all
  have sm := same_delAll w name (w.iter L)
  unfold removeField
  rw [h0]
  simp only [Bool.false_eq_true, if_false]
  refine ⟨_, rfl, ?_, ?_, ?_, ?_, ?_⟩
  · intro k
    simp only [modLayer, upd_same, sm.layers, dget_ddel]
    by_cases hk : name = k <;> simp [hk, Ne.symm, eq_comm]
  · intro K hK; simp only [modLayer, upd_ne _ _ hK, sm.layers]
  · intro K; apply iter_of_slots; simp only [modLayer, upd]; split <;> simp_all [sm.layers]
  · intro n; exact ⟨sm.coll n, sm.id n⟩
  · intro n k
    simp only [modLayer, hi.iter_eq, delAll_fields]
    simp only [List.mem_map, Option.some.injEq, exists_eq_right]
    by_cases hm : n ∈ live (w.layers L).slots
    · simp only [hm, if_true, dget_ddel, true_and]
      by_cases hk : name = k <;> simp [hk, Ne.symm, eq_comm]
    · simp [hm]

/-- C22. Removing the field just added restores the whole heap, when no node of the layer carried it. -/
theorem C22_add_remove {w : World} (h : Reachable w) (L : LayerId) (name : Str) (t : DataType) (init : Bool)
    (hn : name ∉ dkeys (w.layers L).fields)
    (hnode : ∀ n, some n ∈ w.iter L → name ∉ dkeys (w.nodes n).fields) :
    (w.addField L name t init).2 = none ∧ (w.addField L name t init).1.removeField L name false = (w, true) := by
  have hi := h.inv
  have hwf := h.wf
  have h0 : (dget (w.layers L).fields name).isSome = false := by
    rw [Bool.eq_false_iff]; intro hc; exact hn ((dget_isSome_iff _ _).mp hc)
  -- the heap after `add_field`
  have key : ∃ w1, w.addField L name t init = (w1, none) ∧
      w1.layers = upd w.layers L { w.layers L with fields := dset (w.layers L).fields name t, defaults := computeDefaults (dset (w.layers L).fields name t) } ∧
      SameButFields (w.modLayer L (fun l => { l with fields := dset l.fields name t, defaults := computeDefaults (dset l.fields name t) })) w1 ∧
      (∀ n, ddel (w1.nodes n).fields name = ddel (w.nodes n).fields name) ∧
      (∀ n, some n ∉ w.iter L → (w1.nodes n).fields = (w.nodes n).fields) := by
    unfold addField
    rw [h0]
    simp only [Bool.false_eq_true, if_false]
    generalize hw1 : w.modLayer L (fun l => { l with
      fields := dset l.fields name t, defaults := computeDefaults (dset l.fields name t) }) = w1
    have hl : w1.layers = upd w.layers L { w.layers L with fields := dset (w.layers L).fields name t, defaults := computeDefaults (dset (w.layers L).fields name t) } := by subst hw1; rfl
    have hnd : w1.nodes = w.nodes := by subst hw1; rfl
    have hs : w1.iter L = w.iter L := by apply iter_of_slots; rw [hl]; simp
    have triv : ∃ w2, ((w1, none) : Res) = (w2, none) ∧
      w2.layers = upd w.layers L { w.layers L with fields := dset (w.layers L).fields name t, defaults := computeDefaults (dset (w.layers L).fields name t) } ∧
      SameButFields w1 w2 ∧
      (∀ n, ddel (w2.nodes n).fields name = ddel (w.nodes n).fields name) ∧
      (∀ n, some n ∉ w.iter L → (w2.nodes n).fields = (w.nodes n).fields) :=
      ⟨w1, rfl, hl, .refl w1, fun n => by rw [hnd], fun n _ => by rw [hnd]⟩
    cases init with
    | false => exact triv
    | true =>
      simp only [if_true]
      cases hd : t.default? with
      | none => exact triv
      | some v =>
        have sm := same_setAll w1 name v (w1.iter L)
        refine ⟨_, rfl, by rw [sm.layers, hl], sm, ?_, ?_⟩
        · intro n
          rw [hs, hi.iter_eq, setAll_fields, hnd]
          split
          · rename_i hm
            have := hnode n (by rw [hi.iter_eq]; simpa using hm)
            rw [ddel_dset_absent v this, ddel_absent this]
          · rfl
        · intro n hm
          rw [hi.iter_eq] at hm; simp at hm
          rw [hs, hi.iter_eq, setAll_fields, hnd, if_neg hm]
  obtain ⟨w1, e1, el, sm, ed, eo⟩ := key
  refine ⟨by rw [e1], ?_⟩
  rw [e1]
  have hmem : (dget (w1.layers L).fields name).isNone = false := by
    rw [el]; simp [dget_dset]
  have hit : w1.iter L = w.iter L := by apply iter_of_slots; rw [el]; simp
  unfold removeField
  rw [hmem]
  simp only [Bool.false_eq_true, if_false, Prod.mk.injEq, and_true]
  have sd := same_delAll w1 name (w1.iter L)
  have hfields : ∀ n, ((w1.delAll name (w1.iter L)).nodes n).fields = (w.nodes n).fields := by
    intro n
    rw [hit, hi.iter_eq, delAll_fields]
    split
    · rename_i hm
      rw [ed, ddel_absent]
      exact hnode n (by rw [hi.iter_eq]; simpa using hm)
    · rename_i hm
      exact eo n (by rw [hi.iter_eq]; simpa using hm)
  have hnodes : (w1.delAll name (w1.iter L)).nodes = w.nodes := by
    funext n
    have f := hfields n
    have c := (sd.coll n).trans (sm.coll n)
    have d := (sd.id n).trans (sm.id n)
    simp only [modLayer] at c d
    cases hx : (w1.delAll name (w1.iter L)).nodes n
    cases hy : w.nodes n
    rw [hx, hy] at f c d
    simp_all
  have hlay : upd (w1.delAll name (w1.iter L)).layers L
      { (w1.delAll name (w1.iter L)).layers L with
        fields := ddel ((w1.delAll name (w1.iter L)).layers L).fields name,
        defaults := computeDefaults (ddel ((w1.delAll name (w1.iter L)).layers L).fields name) } = w.layers := by
    rw [sd.layers, el]
    funext K
    simp only [upd]
    split
    · subst_vars
      simp only [if_true]
      rw [ddel_dset_absent t hn, ← hwf.defaults]
    · rfl
  have e3 := sm.trans sd
  have r1 := e3.dl; have r2 := e3.dt; have r3 := e3.texts; have r4 := e3.props
  have r5 := e3.nextN; have r6 := e3.nextL; have r7 := e3.nextT
  simp only [modLayer] at r1 r2 r3 r4 r5 r6 r7 ⊢
  rw [hlay]
  cases hx : w1.delAll name (w1.iter L)
  cases hy : w
  rw [hx] at hnodes r1 r2 r3 r4 r5 r6 r7
  subst hy
  simp_all

/-- C22. Adding a declared field is refused and changes nothing. (The exception is a TypeError raised while
building the documented SchemaValidationError.) -/
theorem C22_declared_refused (w : World) (L : LayerId) (name : Str) (t : DataType) (init : Bool)
    (hn : name ∈ dkeys (w.layers L).fields) : w.addField L name t init = (w, some .type) := by
  unfold addField; rw [if_pos ((dget_isSome_iff _ _).mpr hn)]

theorem C22_undeclared_remove (w : World) (L : LayerId) (name : Str) (leave : Bool)
    (hn : name ∉ dkeys (w.layers L).fields) : w.removeField L name leave = (w, false) := by
  unfold removeField; rw [if_pos]; rw [(dget_none_iff _ _).mpr hn]; rfl

/-! ### C24 -/

namespace Spec
/-- the numeric types in order of width -/
def width : TName → Option Nat
  | .bool => some 0 | .i32 => some 1 | .i64 => some 2 | .f64 => some 3 | _ => none
def Numeric (t : DataType) : Prop := (width t.tname).isSome
/-- `m` is a widest element of the list -/
def Widest (ts : List DataType) (m : DataType) : Prop :=
  m ∈ ts ∧ ∀ t ∈ ts, (width t.tname).getD 0 ≤ (width m.tname).getD 0
end Spec

theorem priority_eq_width : DataType.priority = Spec.width := by funext t; cases t <;> rfl

theorem width_inj {a b : TName} (ha : (Spec.width a).isSome) (hb : (Spec.width b).isSome)
    (h : (Spec.width a).getD 0 = (Spec.width b).getD 0) : a = b := by
  cases a <;> cases b <;> simp_all [Spec.width]

/-- C24. Merging two numeric types yields the wider of the two. -/
theorem C24_cast_up (a b : DataType) (ha : Spec.Numeric a) (hb : Spec.Numeric b) :
    a.castUpPossible b = true ∧ ∃ c, a.castUp b = .ok c ∧ Spec.Widest [a, b] c := by
  unfold Spec.Numeric at ha hb
  constructor
  · unfold DataType.castUpPossible; simp [priority_eq_width, ha, hb]
  · obtain ⟨p, hp⟩ := Option.isSome_iff_exists.mp ha
    obtain ⟨q, hq⟩ := Option.isSome_iff_exists.mp hb
    unfold DataType.castUp
    rw [priority_eq_width, hp, hq]
    refine ⟨_, rfl, ?_⟩
    split
    · refine ⟨by simp, ?_⟩; simp [hp, hq]; omega
    · refine ⟨by simp, ?_⟩; simp [hp, hq]; omega

/-- C24. Types merge exactly if they have the same name or are both numeric; merging others raises. -/
theorem C24_possible (a b : DataType) :
    (a.castUpPossible b = true ↔ a.tname = b.tname ∨ Spec.Numeric a ∧ Spec.Numeric b) ∧
    (¬ (Spec.Numeric a ∧ Spec.Numeric b) → a.castUp b = .error .assertion) := by
  unfold DataType.castUpPossible DataType.castUp Spec.Numeric
  rw [priority_eq_width]
  constructor
  · split
    · simp_all
    · rename_i h; cases ha : Spec.width a.tname <;> simp [h]
  · intro h
    cases ha : Spec.width a.tname <;> cases hb : Spec.width b.tname <;> simp_all

theorem resolve_widest (r : DataType) (ts : List DataType) (hr : Spec.Numeric r) (h : ∀ t ∈ ts, Spec.Numeric t) :
    ∃ c, DataType.resolve (some r) ts = .ok (some c) ∧ Spec.Widest (r :: ts) c := by
  induction ts generalizing r with
  | nil => exact ⟨r, rfl, by simp [Spec.Widest]⟩
  | cons t ts ih =>
    obtain ⟨h1, c, h2, h3⟩ := C24_cast_up r t hr (h t (by simp))
    have hc : Spec.Numeric c := by
      have := h3.1
      simp at this
      rcases this with rfl | rfl
      · exact hr
      · exact h c (by simp)
    obtain ⟨d, e1, e2⟩ := ih c hc (fun u hu => h u (by simp [hu]))
    refine ⟨d, ?_, ?_⟩
    · simp only [DataType.resolve, h1, if_true, h2, e1]
    · refine ⟨?_, ?_⟩
      · have := e2.1; have k := h3.1
        simp only [List.mem_cons, List.not_mem_nil, or_false] at this k ⊢
        rcases this with rfl | hd
        · rcases k with rfl | rfl <;> simp
        · simp [hd]
      · intro u hu
        have hcd := e2.2 c (by simp)
        simp only [List.mem_cons] at hu
        rcases hu with rfl | rfl | hu
        · exact Nat.le_trans (h3.2 u (by simp)) hcd
        · exact Nat.le_trans (h3.2 u (by simp)) hcd
        · exact e2.2 u (by simp [hu])

/-- C24. Merging any non-empty list of numeric types yields a widest one. -/
theorem C24_merge (ts : List DataType) (hne : ts ≠ []) (h : ∀ t ∈ ts, Spec.Numeric t) :
    ∃ c, DataType.resolve none ts = .ok (some c) ∧ Spec.Widest ts c := by
  cases ts with
  | nil => exact absurd rfl hne
  | cons t ts => exact resolve_widest t ts (h t (by simp)) (fun u hu => h u (by simp [hu]))

/-- C24. The order of merging does not matter for the resulting type name. -/
theorem C24_order_independent (ts us : List DataType) (hp : ts.Perm us) (h : ∀ t ∈ ts, Spec.Numeric t)
    (c d : DataType) (h1 : DataType.resolve none ts = .ok (some c)) (h2 : DataType.resolve none us = .ok (some d)) :
    c.tname = d.tname := by
  by_cases hne : ts = []
  · subst hne; simp [DataType.resolve] at h1
  · have hne' : us ≠ [] := by rintro rfl; exact hne hp.eq_nil
    have h' : ∀ t ∈ us, Spec.Numeric t := fun t ht => h t (hp.mem_iff.mpr ht)
    obtain ⟨c', e1, w1⟩ := C24_merge ts hne h
    obtain ⟨d', e2, w2⟩ := C24_merge us hne' h'
    rw [h1] at e1; rw [h2] at e2
    simp only [Except.ok.injEq, Option.some.injEq] at e1 e2
    subst e1 e2
    apply width_inj (h c w1.1) (h' d w2.1)
    apply Nat.le_antisymm
    · exact w2.2 c (hp.mem_iff.mp w1.1)
    · exact w1.2 d (hp.mem_iff.mpr w2.1)

/-- C24 fails for NodeList: two nodes whose common field has types i32 and f64 give no type for it. -/
theorem C24_nodelist_type_lost (a b : DataType) (ha : Spec.Numeric a) (hb : Spec.Numeric b)
    (hab : a.tname ≠ b.tname) : DataType.outputType [a, b] = .ok none := by
  have : ¬ (∀ x ∈ [b], x.tname = a.tname) := by simp [Ne.symm hab]
  obtain ⟨c, hc, -⟩ := C24_merge [a, b] (by simp) (by simp [ha, hb])
  unfold DataType.outputType
  simp [hc, Ne.symm hab]

/-- C24, the part on NodeList that holds: fields with one type name keep it. -/
theorem C24_nodelist_partial (t : DataType) (ts : List DataType) (h : ∀ u ∈ ts, u.tname = t.tname) :
    ∃ c, DataType.outputType (t :: ts) = .ok (some c) ∧ c.tname = t.tname := by
  cases ts with
  | nil => exact ⟨t, rfl, rfl⟩
  | cons u us => exact ⟨t, by unfold DataType.outputType; simp_all, rfl⟩

example : (DataTypes.int32 none).castUpPossible (DataTypes.string none) = false ∧ (DataTypes.string none).castUpPossible (DataTypes.string (some ['a'])) = true ∧
    (DataTypes.string none).castUp (DataTypes.string (some ['a'])) = .error .assertion := by decide
example : ∃ c, DataType.resolve none [DataTypes.int32 (some 0), DataTypes.float64 none, DataTypes.bool none] =
    .ok (some c) ∧ c.tname = .f64 := ⟨DataTypes.float64 none, by decide, rfl⟩

/-! ### C25 -/

namespace Spec
/-- the field type is a node reference (single or many) to layer `name` -/
def RefersTo (t : DataType) (name : Str) : Prop :=
  (t.tname = .noderef ∨ t.tname = .noderefMany) ∧ dget t.options "layer".toList = some (.str name)
/-- another layer of the document has such a field -/
def Referenced (w : World) (name : Str) : Prop :=
  ∃ k L f t, (k, L) ∈ w.dl ∧ k ≠ name ∧ (f, t) ∈ (w.layers L).fields ∧ RefersTo t name
/-- node reference types carry their option -/
def HasOptions (w : World) : Prop :=
  ∀ k L f t, (k, L) ∈ w.dl → (f, t) ∈ (w.layers L).fields → (t.tname = .noderef ∨ t.tname = .noderefMany) →
    (dget t.options "layer".toList).isSome
end Spec

theorem fieldsRefer_true {name : Str} {fs : Dict Str DataType} {b : Bool} (h : fieldsRefer name fs = .ok b) :
    b = true ↔ ∃ f t, (f, t) ∈ fs ∧ Spec.RefersTo t name := by
  induction fs generalizing b with
  | nil => simp [fieldsRefer] at h; simp [← h]
  | cons e fs ih =>
    obtain ⟨f, t⟩ := e
    unfold fieldsRefer at h
    split at h
    · rename_i ht
      cases hv : t.opt "layer" with
      | error e => simp [hv, bind, Except.bind] at h
      | ok v =>
        cases hb : fieldsRefer name fs with
        | error e => simp [hv, hb, bind, Except.bind] at h
        | ok c =>
          simp [hv, hb, bind, Except.bind, pure, Except.pure] at h
          have hvo : dget t.options "layer".toList = some v := by
            unfold DataType.opt at hv; split at hv <;> simp_all
          rw [← h]
          simp only [Bool.or_eq_true, decide_eq_true_eq, ih hb, List.mem_cons, Prod.mk.injEq]
          constructor
          · rintro (hv' | ⟨f', t', hm, hr⟩)
            · exact ⟨f, t, .inl ⟨rfl, rfl⟩, ht, by rw [hvo, hv']⟩
            · exact ⟨f', t', .inr hm, hr⟩
          · rintro ⟨f', t', ⟨rfl, rfl⟩ | hm, hr⟩
            · left; have := hr.2; rw [hvo] at this; simpa using this
            · exact .inr ⟨f', t', hm, hr⟩
    · rename_i ht
      rw [ih h]
      simp only [List.mem_cons, Prod.mk.injEq]
      constructor
      · rintro ⟨f', t', hm, hr⟩; exact ⟨f', t', .inr hm, hr⟩
      · rintro ⟨f', t', ⟨rfl, rfl⟩ | hm, hr⟩
        · exact absurd hr.1 ht
        · exact ⟨f', t', hm, hr⟩

theorem fieldsRefer_ok {name : Str} {fs : Dict Str DataType}
    (h : ∀ f t, (f, t) ∈ fs → (t.tname = .noderef ∨ t.tname = .noderefMany) →
      (dget t.options "layer".toList).isSome) : ∃ b, fieldsRefer name fs = .ok b := by
  induction fs with
  | nil => exact ⟨false, rfl⟩
  | cons e fs ih =>
    obtain ⟨f, t⟩ := e
    obtain ⟨b, hb⟩ := ih (fun f' t' hm => h f' t' (by simp [hm]))
    unfold fieldsRefer
    split
    · rename_i ht
      obtain ⟨v, hv⟩ := Option.isSome_iff_exists.mp (h f t (by simp) ht)
      have ho : t.opt "layer" = .ok v := by unfold DataType.opt; rw [hv]
      rw [ho, hb]; exact ⟨_, rfl⟩
    · exact ⟨b, hb⟩

theorem layersRefer_true {w : World} {name : Str} {d : Dict Str LayerId} {b : Bool}
    (h : w.layersRefer name d = .ok b) :
    b = true ↔ ∃ k L f t, (k, L) ∈ d ∧ k ≠ name ∧ (f, t) ∈ (w.layers L).fields ∧ Spec.RefersTo t name := by
  induction d generalizing b with
  | nil => simp [layersRefer] at h; simp [← h]
  | cons e d ih =>
    obtain ⟨k, L⟩ := e
    unfold layersRefer at h
    split at h
    · rename_i hk
      cases ha : fieldsRefer name (w.layers L).fields with
      | error e => simp [ha, bind, Except.bind] at h
      | ok a =>
        cases hb : w.layersRefer name d with
        | error e => simp [ha, hb, bind, Except.bind] at h
        | ok c =>
          simp [ha, hb, bind, Except.bind, pure, Except.pure] at h
          rw [← h]
          simp only [Bool.or_eq_true, ih hb, fieldsRefer_true ha, List.mem_cons, Prod.mk.injEq]
          constructor
          · rintro (⟨f, t, hm, hr⟩ | ⟨k', L', f, t, hm, hk', hr⟩)
            · exact ⟨k, L, f, t, .inl ⟨rfl, rfl⟩, hk, hm, hr⟩
            · exact ⟨k', L', f, t, .inr hm, hk', hr⟩
          · rintro ⟨k', L', f, t, ⟨rfl, rfl⟩ | hm, hk', hr⟩
            · exact .inl ⟨f, t, hr⟩
            · exact .inr ⟨k', L', f, t, hm, hk', hr⟩
    · rename_i hk
      rw [ih h]
      simp only [List.mem_cons, Prod.mk.injEq]
      constructor
      · rintro ⟨k', L', f, t, hm, hr⟩; exact ⟨k', L', f, t, .inr hm, hr⟩
      · rintro ⟨k', L', f, t, ⟨rfl, rfl⟩ | hm, hk', hr⟩
        · exact absurd hk' hk
        · exact ⟨k', L', f, t, hm, hk', hr⟩

theorem layersRefer_ok {w : World} {name : Str} {d : Dict Str LayerId}
    (h : ∀ k L f t, (k, L) ∈ d → (f, t) ∈ (w.layers L).fields → (t.tname = .noderef ∨ t.tname = .noderefMany) →
      (dget t.options "layer".toList).isSome) : ∃ b, w.layersRefer name d = .ok b := by
  induction d with
  | nil => exact ⟨false, rfl⟩
  | cons e d ih =>
    obtain ⟨k, L⟩ := e
    obtain ⟨b, hb⟩ := ih (fun k' L' f t hm => h k' L' f t (by simp [hm]))
    obtain ⟨a, ha⟩ := fieldsRefer_ok (name := name) (h k L · · (by simp))
    unfold layersRefer
    split
    · simp [ha, hb, bind, Except.bind, pure, Except.pure]
    · exact ⟨b, hb⟩

/-- C25, the part that holds: without cascade a layer another layer refers to by a node reference (single
or many) is not removed, and the call raises. Missing from the property: node span references, the effect
of cascade and the returned value; each is refuted below. -/
theorem C25_referenced_refused_partial (w : World) (name : Str) (hn : name ∈ dkeys w.dl)
    (hr : Spec.Referenced w name) : ∃ e, w.removeLayer name false = (w, .error e) := by
  have h0 : (dget w.dl name).isNone = false := by
    have := (dget_isSome_iff _ _).mpr hn
    cases hd : dget w.dl name <;> simp_all
  unfold removeLayer
  rw [h0]
  simp only [Bool.false_eq_true, if_false]
  cases hb : w.layersRefer name w.dl with
  | error e => exact ⟨e, rfl⟩
  | ok b =>
    have : b = true := (layersRefer_true hb).mpr hr
    subst this
    exact ⟨.dataValidation, rfl⟩

/-- C25. With well-formed types the error is DataValidationError, and an unreferenced or cascading removal
takes exactly that layer out of the document. -/
theorem C25_removes (w : World) (name : Str) (hn : name ∈ dkeys w.dl) (ho : Spec.HasOptions w) (cascade : Bool) :
    (Spec.Referenced w name ∧ cascade = false ∧ w.removeLayer name cascade = (w, .error .dataValidation)) ∨
    ((¬ Spec.Referenced w name ∨ cascade = true) ∧ ∃ w', w.removeLayer name cascade = (w', .ok none) ∧
      (∀ k, dget w'.dl k = if k = name then none else dget w.dl k) ∧
      w'.layers = w.layers ∧ w'.nodes = w.nodes ∧ w'.dt = w.dt) := by
  have h0 : (dget w.dl name).isNone = false := by
    have := (dget_isSome_iff _ _).mpr hn
    cases hd : dget w.dl name <;> simp_all
  obtain ⟨b, hb⟩ := layersRefer_ok (name := name) ho
  have hbt := layersRefer_true hb
  have hrm : ∀ k, dget (ddel w.dl name) k = if k = name then none else dget w.dl k := by
    intro k; rw [dget_ddel]; by_cases hk : name = k <;> simp [hk, Ne.symm, eq_comm]
  unfold removeLayer
  rw [h0, hb]
  cases b with
  | true =>
    cases cascade with
    | false => exact .inl ⟨hbt.mp rfl, rfl, rfl⟩
    | true => exact .inr ⟨.inr rfl, _, rfl, hrm, rfl, rfl, rfl⟩
  | false =>
    refine .inr ⟨.inl (fun hr => by simpa using hbt.mpr hr), ?_⟩
    cases cascade <;> exact ⟨_, rfl, hrm, rfl, rfl, rfl⟩

theorem C25_absent (w : World) (name : Str) (hn : name ∉ dkeys w.dl) (cascade : Bool) :
    w.removeLayer name cascade = (w, .ok (some false)) := by
  unfold removeLayer; rw [(dget_none_iff _ _).mpr hn]; rfl

namespace Ex
/-- two layers, `b` with a node span field into `a` -/
def wspan : World := World.empty.run [.addLayer "a".toList [], .addLayer "b".toList [("s".toList, DataTypes.nodespan "a".toList)]]
/-- two layers, `b` with a reference field to `a` -/
def wref : World := World.empty.run [.addLayer "a".toList [], .addLayer "b".toList [("s".toList, DataTypes.noderef "a".toList)]]
end Ex

/-- C25 fails: a layer referred to by a node span field is removed, and the result cannot be compiled. -/
theorem C25_nodespan_reference_ignored : ∃ w : World, Reachable w ∧
    (w.removeLayer "a".toList false).2 = .ok none ∧
    ((w.removeLayer "a".toList false).1.compile false true).2 = .error .schema :=
  ⟨Ex.wspan, reachable_run _ (by decide), by decide, by decide⟩

/-- C25 fails: with cascade the referring field stays declared; the document cannot be compiled. The call
returns None rather than True. -/
theorem C25_cascade_leaves_field : ∃ w : World, Reachable w ∧
    (w.removeLayer "a".toList true).2 = .ok none ∧
    ((w.removeLayer "a".toList true).1.layers 1).fields = [("s".toList, DataTypes.noderef "a".toList)] ∧
    ((w.removeLayer "a".toList true).1.compile false true).2 = .error .schema :=
  ⟨Ex.wref, reachable_run _ (by decide), by decide, by decide, by decide⟩

example : Spec.Referenced Ex.wref "a".toList ∧ Spec.HasOptions Ex.wref := by
  refine ⟨⟨"b".toList, 1, "s".toList, DataTypes.noderef "a".toList, by decide, by decide, by decide, .inl rfl, rfl⟩, ?_⟩
  intro k L f t hm hf ht
  have : (k, L) = ("a".toList, 0) ∨ (k, L) = ("b".toList, 1) := by
    have e : Ex.wref.dl = [("a".toList, 0), ("b".toList, 1)] := by decide
    rw [e] at hm; simpa using hm
  rcases this with h | h <;> cases h
  · have e : (Ex.wref.layers 0).fields = [] := by decide
    rw [e] at hf; simp at hf
  · have e : (Ex.wref.layers 1).fields = [("s".toList, DataTypes.noderef "a".toList)] := by decide
    rw [e] at hf; simp at hf; rw [hf.2]; rfl

/-! ### concrete cases meeting the hypotheses of C20-C23 -/

namespace Ex
/-- `b` refers to `a` and has an int with default 7; node 0 in `a`, node 1 in `b`, nodes 2 and 3 dangling -/
def wf : World := World.empty.run [.addLayer "a".toList [],
  .addLayer "b".toList [("s".toList, DataTypes.noderef "a".toList), ("p".toList, DataTypes.int32 (some 7))],
  .addNew 0 [], .addNew 1 [("s".toList, .node 0)], .newNode [("s".toList, .node 0)], .newNode [("p".toList, .int 3)]]
theorem wf_reachable : Reachable wf := reachable_run _ (by decide)
end Ex

-- C20: accepted, with the default filled in
example : (Ex.wf.addNew 1 [("s".toList, .node 0)]).2 = .ok 4 ∧
    dget ((Ex.wf.addNew 1 [("s".toList, .node 0)]).1.nodes 4).fields "p".toList = some (.int 7) := by decide
-- C20: refused, because node 1 is in the wrong layer
example : Ex.wf.addNew 1 [("s".toList, .node 1)] = (Ex.wf, .error .assertion) := by
  rcases C20_add Ex.wf_reachable 1 (by decide) [("s".toList, .node 1)] (by decide) with ⟨e, he⟩ | ⟨w', n, he, -⟩
  · have : (Ex.wf.addNew 1 [("s".toList, .node 1)]).2 = .error .assertion := by decide
    rw [he] at this ⊢; simp at this; rw [this]
  · have : (Ex.wf.addNew 1 [("s".toList, .node 1)]).2 = .error .assertion := by decide
    rw [he] at this; simp at this
example : ∃ w', Ex.wf.addNew 1 [] = (w', .ok 4) := by
  refine C20_defaults_accepted_partial Ex.wf_reachable 1 ?_
  intro f t hm
  have e : (Ex.wf.layers 1).fields =
    [("s".toList, DataTypes.noderef "a".toList), ("p".toList, DataTypes.int32 (some 7))] := by decide
  rw [e] at hm; simp only [List.mem_cons, Prod.mk.injEq, List.not_mem_nil, or_false] at hm
  rcases hm with ⟨-, rfl⟩ | ⟨-, rfl⟩
  · exact .none (by decide)
  · exact .i32 (by decide) (by decide)
-- C21
example : (Ex.wf.addMany 1 [2, 3] true true).2 = none ∧
    (Ex.wf.addMany 1 [2, 3] true true).1.iter 1 = [some 1, some 2, some 3] ∧
    dget ((Ex.wf.addMany 1 [2, 3] true true).1.nodes 2).fields "p".toList = some (.int 7) ∧
    dget ((Ex.wf.addMany 1 [2, 3] true true).1.nodes 3).fields "p".toList = some (.int 3) := by decide
example : (Ex.wf.addMany 0 [2, 1] true true).2 = some .assertion := by decide
-- C22
example : (dget ((Ex.wf.addField 1 "q".toList (DataTypes.int32 (some 5)) true).1.nodes 1).fields "q".toList) =
    some (.int 5) := by decide
example : ((Ex.wf.addField 1 "q".toList (DataTypes.int32 (some 5)) true).1.removeField 1 "q".toList false) =
    (Ex.wf, true) :=
  (C22_add_remove Ex.wf_reachable 1 "q".toList _ true (by decide) (by
    intro n hn
    have e : Ex.wf.iter 1 = [some 1] := by decide
    rw [e] at hn; simp at hn; subst hn; decide)).2
-- C23
example : Spec.Factory (DataTypes.noderef "a".toList) := ⟨rfl, by simp [DataTypes.noderef, DataTypes.opts]⟩
example : Spec.InDomain Ex.wf (DataTypes.noderef "a".toList) (.node 0) := .node ⟨0, by decide, by decide⟩
example : (DataTypes.noderef "a".toList).isValid Ex.wf (.node 1) = .ok false := by decide
example : (DataTypes.int32 none).isValid Ex.wf (.int (2 ^ 31)) = .ok false := by decide

/-- C23. A field for several nodes takes a NodeSpan over two nodes of a layer exactly when this is the layer of the field. -/
theorem C23_nodespan_many {w : World} (h : Reachable w) (L : LayerId) (pre mid post : List NodeId) (a b : NodeId)
    (hl : Spec.Holds w L (pre ++ mid ++ post)) (ha : mid.head? = some a) (hb : mid.getLast? = some b) (name : Str) :
    ∃ ok, w.validNodeSpanMany (DataTypes.noderefMany name) a b = .ok ok ∧ (ok = true ↔ (w.layers L).name = name) := by
  have hit := (C14_nodespan h L pre mid post a b hl ha hb).2.1
  have hat : ∀ n ∈ mid, (w.nodes n).coll = some L := fun n hn => by
    have := (holds_iff h.inv).mp hl
    exact (h.inv.mem_iff L n).mp (this ▸ (by simp [hn]))
  refine ⟨mid.all (fun n => DataType.boundTo w n (.str name)), ?_, ?_⟩
  · simp [validNodeSpanMany, hit, DataTypes.noderefMany, DataType.opt, DataTypes.opts, dget, bind, pure, Except.bind, Except.pure]
  · rw [List.all_eq_true]
    constructor
    · intro hh
      have ham : a ∈ mid := List.mem_of_head? ha
      obtain ⟨L', h1, h2⟩ := boundTo_iff.mp (hh a ham)
      rw [hat a ham] at h1
      rw [Option.some.inj h1]
      exact h2
    · intro hh n hn
      exact boundTo_iff.mpr ⟨L, hat n hn, hh⟩

/-- C23 fails for types that are not of a checking class: `DataTypes.string("x")` accepts an int. -/
theorem C23_string_with_default_unchecked (w : World) (v : Value) :
    (DataTypes.string (some "x".toList)).isValid w v = .ok true := by
  simp [DataTypes.string, DataType.isValid]

/-- C23 fails for `DataTypes.bool()` in the same way. -/
theorem C23_bool_with_default_unchecked (w : World) (b : Bool) (v : Value) :
    (DataTypes.bool (some b)).isValid w v = .ok true := by
  simp [DataTypes.bool, DataType.isValid]

/-- so a field of type string need not hold a string -/
theorem C23_full_false : ¬ ∀ w, Reachable w → ∀ (d : Option Str) (v : Value), (DataTypes.string d).isValid w v = .ok true → ∃ s, v = .str s := by
  intro h
  obtain ⟨s, hs⟩ := h _ Ex.reach (some "x".toList) (.int 1) (C23_string_with_default_unchecked _ _)
  cases hs

-- C23: a NodeSpan over two nodes in a field for several nodes
example : ∃ ok, Ex.w.validNodeSpanMany (DataTypes.noderefMany (Ex.w.layers 0).name) 0 2 = .ok ok ∧ ok = true := by
  obtain ⟨ok, h1, h2⟩ := C23_nodespan_many Ex.reach 0 [] [0, 2] [4] 0 2 Ex.holds0 rfl rfl (Ex.w.layers 0).name
  exact ⟨ok, h1, h2.mpr rfl⟩

end Verif
