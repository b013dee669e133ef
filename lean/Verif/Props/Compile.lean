import Verif.Props.Schema
import Verif.Proof.Doc
/-
C26-C28: what compiling a document rejects, the offset tables it yields, and that it changes nothing
observable.
-/
set_option linter.unusedSimpArgs false
namespace Verif
open World

namespace Spec

/-- a reference to a layer, by single node, many nodes or node span -/
def LayerRef (t : DataType) : Prop := t.tname = .noderef ∨ t.tname = .noderefMany ∨ t.tname = .nodespan

/-- the field type refers to something the document lacks -/
def Dead (w : World) (t : DataType) : Prop :=
  (LayerRef t ∧ ∀ s, dget t.options "layer".toList = some (.str s) → s ∉ dkeys w.dl) ∨
  (t.tname = .span ∧ ∀ s, dget t.options "context".toList = some (.str s) → s ∉ dkeys w.dt)

/-- some declared field of some layer of the document has a dead type -/
def Unresolved (w : World) : Prop :=
  ∃ k L f t, (k, L) ∈ w.dl ∧ (f, t) ∈ (w.layers L).fields ∧ Dead w t

/-- reference types carry the option naming their target -/
def TypesComplete (w : World) : Prop :=
  ∀ k L f t, (k, L) ∈ w.dl → (f, t) ∈ (w.layers L).fields →
    (LayerRef t → (dget t.options "layer".toList).isSome) ∧
    (t.tname = .span → (dget t.options "context".toList).isSome)

/-- some node of a layer of the document carries a field its layer does not declare -/
def Undeclared (w : World) : Prop :=
  ∃ k L n f, (k, L) ∈ w.dl ∧ some n ∈ w.iter L ∧ f ∈ dkeys (w.nodes n).fields ∧
    f ∉ dkeys (w.layers L).fields

/-- `x` is an end of a span held, in a span field on text `c`, by a node of the document -/
def UsedOffset (w : World) (c : Str) (x : Int) : Prop :=
  ∃ k L f t n T a b, (k, L) ∈ w.dl ∧ (f, t) ∈ (w.layers L).fields ∧ t.tname = .span ∧
    dget t.options "context".toList = some (.str c) ∧ some n ∈ w.iter L ∧
    dget (w.nodes n).fields f = some (.span T a b) ∧ (x = a ∨ x = b)

end Spec

/-! ### C26 -/

theorem opt_ok {t : DataType} {s : String} {v} (h : dget t.options s.toList = some v) : t.opt s = .ok v := by
  unfold DataType.opt; rw [h]
theorem opt_none {t : DataType} {s : String} (h : dget t.options s.toList = none) : t.opt s = .error .key := by
  unfold DataType.opt; rw [h]

theorem fieldRefs_spec (fs : Dict Str DataType) :
    ((∀ f t, (f, t) ∈ fs → (Spec.LayerRef t → (dget t.options "layer".toList).isSome) ∧
      (t.tname = .span → (dget t.options "context".toList).isSome)) → ∃ r, fieldRefs fs = .ok r) ∧
    (∀ e, fieldRefs fs = .error e → e = .key) ∧
    (∀ r, fieldRefs fs = .ok r →
      (∀ v, v ∈ r.1 ↔ ∃ f t, (f, t) ∈ fs ∧ Spec.LayerRef t ∧ dget t.options "layer".toList = some v) ∧
      (∀ v, v ∈ r.2 ↔ ∃ f t, (f, t) ∈ fs ∧ t.tname = .span ∧ dget t.options "context".toList = some v)) := by
  induction fs with
  | nil => simp [fieldRefs]
  | cons x fs ih =>
    obtain ⟨f, t⟩ := x
    obtain ⟨ih1, ih2, ih3⟩ := ih
    have ih1' : (∀ f' t', (f', t') ∈ (f, t) :: fs → (Spec.LayerRef t' → (dget t'.options "layer".toList).isSome) ∧
      (t'.tname = .span → (dget t'.options "context".toList).isSome)) → ∃ r, fieldRefs fs = .ok r :=
      fun hh => ih1 (fun f' t' hm => hh f' t' (by simp [hm]))
    by_cases hl : Spec.LayerRef t
    · have hns : t.tname ≠ .span := by rcases hl with h | h | h <;> rw [h] <;> decide
      have e : fieldRefs ((f, t) :: fs) = (do
          let v ← t.opt "layer"
          let r ← fieldRefs fs
          pure (v :: r.1, r.2)) := by
        rcases hl with h | h | h <;> simp only [fieldRefs, h]
      rw [e]
      cases hd : dget t.options "layer".toList with
      | none =>
        rw [opt_none hd]
        simp only [bind, Except.bind]
        refine ⟨fun hh => ?_, fun e he => by simpa using he.symm, fun r hr => by simp at hr⟩
        have := (hh f t (by simp)).1 hl
        rw [hd] at this; simp at this
      | some v =>
        rw [opt_ok hd]
        simp only [bind, Except.bind]
        cases hf : fieldRefs fs with
        | error e =>
          refine ⟨fun hh => ?_, fun e' he => ?_, fun r hr => by simp at hr⟩
          · obtain ⟨r, hr⟩ := ih1' hh; rw [hf] at hr; simp at hr
          · simp at he; subst he; exact ih2 _ hf
        | ok r =>
          obtain ⟨j1, j2⟩ := ih3 r hf
          refine ⟨fun _ => ⟨_, rfl⟩, fun e' he => by simp [pure, Except.pure] at he, ?_⟩
          intro r' hr'
          simp [pure, Except.pure] at hr'
          subst hr'
          constructor
          · intro u
            simp only [List.mem_cons, Prod.mk.injEq, j1]
            constructor
            · rintro (rfl | ⟨f', t', hm, hr⟩)
              · exact ⟨f, t, .inl ⟨rfl, rfl⟩, hl, hd⟩
              · exact ⟨f', t', .inr hm, hr⟩
            · rintro ⟨f', t', ⟨rfl, rfl⟩ | hm, hr⟩
              · left; have := hr.2; rw [hd] at this; simpa using this.symm
              · exact .inr ⟨f', t', hm, hr⟩
          · intro u
            simp only [List.mem_cons, Prod.mk.injEq, j2]
            constructor
            · rintro ⟨f', t', hm, hr⟩; exact ⟨f', t', .inr hm, hr⟩
            · rintro ⟨f', t', ⟨rfl, rfl⟩ | hm, hr⟩
              · exact absurd hr.1 hns
              · exact ⟨f', t', hm, hr⟩
    · by_cases hs : t.tname = .span
      · have e : fieldRefs ((f, t) :: fs) = (do
            let v ← t.opt "context"
            let r ← fieldRefs fs
            pure (r.1, v :: r.2)) := by
          simp only [fieldRefs, hs]
        rw [e]
        cases hd : dget t.options "context".toList with
        | none =>
          rw [opt_none hd]
          simp only [bind, Except.bind]
          refine ⟨fun hh => ?_, fun e he => by simpa using he.symm, fun r hr => by simp at hr⟩
          have := (hh f t (by simp)).2 hs
          rw [hd] at this; simp at this
        | some v =>
          rw [opt_ok hd]
          simp only [bind, Except.bind]
          cases hf : fieldRefs fs with
          | error e =>
            refine ⟨fun hh => ?_, fun e' he => ?_, fun r hr => by simp at hr⟩
            · obtain ⟨r, hr⟩ := ih1' hh; rw [hf] at hr; simp at hr
            · simp at he; subst he; exact ih2 _ hf
          | ok r =>
            obtain ⟨j1, j2⟩ := ih3 r hf
            refine ⟨fun _ => ⟨_, rfl⟩, fun e' he => by simp [pure, Except.pure] at he, ?_⟩
            intro r' hr'
            simp [pure, Except.pure] at hr'
            subst hr'
            constructor
            · intro u
              simp only [List.mem_cons, Prod.mk.injEq, j1]
              constructor
              · rintro ⟨f', t', hm, hr⟩; exact ⟨f', t', .inr hm, hr⟩
              · rintro ⟨f', t', ⟨rfl, rfl⟩ | hm, hr⟩
                · exact absurd hr.1 hl
                · exact ⟨f', t', hm, hr⟩
            · intro u
              simp only [List.mem_cons, Prod.mk.injEq, j2]
              constructor
              · rintro (rfl | ⟨f', t', hm, hr⟩)
                · exact ⟨f, t, .inl ⟨rfl, rfl⟩, hs, hd⟩
                · exact ⟨f', t', .inr hm, hr⟩
              · rintro ⟨f', t', ⟨rfl, rfl⟩ | hm, hr⟩
                · left; have := hr.2; rw [hd] at this; simpa using this.symm
                · exact .inr ⟨f', t', hm, hr⟩
      · have e : fieldRefs ((f, t) :: fs) = fieldRefs fs := by
          unfold Spec.LayerRef at hl
          cases ht : t.tname <;> simp_all [fieldRefs]
        rw [e]
        refine ⟨ih1', ih2, fun r hr => ?_⟩
        obtain ⟨j1, j2⟩ := ih3 r hr
        constructor
        · intro u
          simp only [List.mem_cons, Prod.mk.injEq, j1]
          constructor
          · rintro ⟨f', t', hm, hr⟩; exact ⟨f', t', .inr hm, hr⟩
          · rintro ⟨f', t', ⟨rfl, rfl⟩ | hm, hr⟩
            · exact absurd hr.1 hl
            · exact ⟨f', t', hm, hr⟩
        · intro u
          simp only [List.mem_cons, Prod.mk.injEq, j2]
          constructor
          · rintro ⟨f', t', hm, hr⟩; exact ⟨f', t', .inr hm, hr⟩
          · rintro ⟨f', t', ⟨rfl, rfl⟩ | hm, hr⟩
            · exact absurd hr.1 hs
            · exact ⟨f', t', hm, hr⟩

theorem schemaRefs_spec (w : World) (d : Dict Str LayerId) :
    ((∀ k L f t, (k, L) ∈ d → (f, t) ∈ (w.layers L).fields →
        (Spec.LayerRef t → (dget t.options "layer".toList).isSome) ∧
        (t.tname = .span → (dget t.options "context".toList).isSome)) → ∃ r, w.schemaRefs d = .ok r) ∧
    (∀ e, w.schemaRefs d = .error e → e = .key) ∧
    (∀ r, w.schemaRefs d = .ok r →
      (∀ v, v ∈ r.1 ↔ ∃ k L f t, (k, L) ∈ d ∧ (f, t) ∈ (w.layers L).fields ∧ Spec.LayerRef t ∧
        dget t.options "layer".toList = some v) ∧
      (∀ v, v ∈ r.2 ↔ ∃ k L f t, (k, L) ∈ d ∧ (f, t) ∈ (w.layers L).fields ∧ t.tname = .span ∧
        dget t.options "context".toList = some v)) := by
  induction d with
  | nil => simp [schemaRefs]
  | cons x d ih =>
    obtain ⟨k, L⟩ := x
    obtain ⟨ih1, ih2, ih3⟩ := ih
    obtain ⟨f1, f2, f3⟩ := fieldRefs_spec (w.layers L).fields
    simp only [schemaRefs, bind, Except.bind]
    cases hf : fieldRefs (w.layers L).fields with
    | error e =>
      refine ⟨fun hh => ?_, fun e' he => ?_, fun r hr => by simp at hr⟩
      · obtain ⟨r, hr⟩ := f1 (fun f t hm => hh k L f t (by simp) hm); rw [hf] at hr; simp at hr
      · simp at he; subst he; exact f2 _ hf
    | ok a =>
      simp only
      cases hs : w.schemaRefs d with
      | error e =>
        refine ⟨fun hh => ?_, fun e' he => ?_, fun r hr => by simp at hr⟩
        · obtain ⟨r, hr⟩ := ih1 (fun k' L' f t hm => hh k' L' f t (by simp [hm])); rw [hs] at hr; simp at hr
        · simp at he; subst he; exact ih2 _ hs
      | ok b =>
        simp only
        refine ⟨fun _ => ⟨_, rfl⟩, fun e' he => by simp [pure, Except.pure] at he, ?_⟩
        intro r hr
        simp [pure, Except.pure] at hr; subst hr
        obtain ⟨a1, a2⟩ := f3 a hf
        obtain ⟨b1, b2⟩ := ih3 b hs
        constructor
        · intro v
          simp only [List.mem_append, a1, b1, List.mem_cons, Prod.mk.injEq]
          constructor
          · rintro (⟨f, t, hr⟩ | ⟨k', L', f, t, hm, hr⟩)
            · exact ⟨k, L, f, t, .inl ⟨rfl, rfl⟩, hr⟩
            · exact ⟨k', L', f, t, .inr hm, hr⟩
          · rintro ⟨k', L', f, t, ⟨rfl, rfl⟩ | hm, hr⟩
            · exact .inl ⟨f, t, hr⟩
            · exact .inr ⟨k', L', f, t, hm, hr⟩
        · intro v
          simp only [List.mem_append, a2, b2, List.mem_cons, Prod.mk.injEq]
          constructor
          · rintro (⟨f, t, hr⟩ | ⟨k', L', f, t, hm, hr⟩)
            · exact ⟨k, L, f, t, .inl ⟨rfl, rfl⟩, hr⟩
            · exact ⟨k', L', f, t, .inr hm, hr⟩
          · rintro ⟨k', L', f, t, ⟨rfl, rfl⟩ | hm, hr⟩
            · exact .inl ⟨f, t, hr⟩
            · exact .inr ⟨k', L', f, t, hm, hr⟩

theorem nameIn_iff {ν} (d : Dict Str ν) (v : Value) : nameIn d v = true ↔ ∃ s, v = .str s ∧ s ∈ dkeys d := by
  cases v <;> simp [nameIn, dget_isSome_iff]

theorem nodeI_err {w : World} {n : NodeId} {e} (h : w.nodeI n = .error e) : e ≠ .schema ∧ e ≠ .schemaValidation := by
  unfold nodeI at h
  split at h <;> simp at h
  subst h; decide

theorem opt_err {t : DataType} {s e} (h : t.opt s = .error e) : e = .key := by
  unfold DataType.opt at h; split at h <;> simp at h; exact h.symm

theorem isValid_err {w : World} {t : DataType} {v e} (h : t.isValid w v = .error e) :
    e ≠ .schema ∧ e ≠ .schemaValidation := by
  unfold DataType.isValid at h
  split at h
  · simp at h
  · split at h <;> try (simp at h; done)
    · split at h <;> try (simp at h; done)
      split at h
      · simp at h
      · simp only [bind, Except.bind] at h
        split at h
        · rename_i he; simp at h; subst h; have := opt_err he; subst this; decide
        · split at h
          · simp [pure, Except.pure] at h
          · split at h
            · rename_i he; simp at h; subst h; exact nodeI_err he
            · split at h
              · rename_i he; simp at h; subst h; exact nodeI_err he
              · simp [pure, Except.pure] at h
    · split at h <;> try (simp at h; done)
      simp only [bind, Except.bind] at h
      split at h
      · rename_i he; simp at h; subst h; have := opt_err he; subst this; decide
      · simp [pure, Except.pure] at h
    · split at h <;> try (simp at h; done)
      split at h
      · simp at h
      · simp only [bind, Except.bind] at h
        split at h
        · rename_i he; simp at h; subst h; have := opt_err he; subst this; decide
        · simp [pure, Except.pure] at h
    · simp only [bind, Except.bind] at h
      split at h
      · rename_i he; simp at h; subst h; have := opt_err he; subst this; decide
      · split at h <;> simp [pure, Except.pure] at h
        subst h; decide

theorem refusal_err (t : DataType) (v : Value) : refusal t v ≠ .schema ∧ refusal t v ≠ .schemaValidation := by
  unfold refusal; split <;> decide

theorem validateFields_err {w : World} {d fs e} (h : validateFields w d fs = .error e) :
    e ≠ .schema ∧ e ≠ .schemaValidation := by
  induction fs with
  | nil => simp [validateFields] at h
  | cons x fs ih =>
    obtain ⟨f, t⟩ := x
    simp only [validateFields] at h
    split at h
    · exact ih h
    · split at h
      · rename_i he; simp at h; subst h; exact isValid_err he
      · exact ih h
      · simp at h; subst h; exact refusal_err _ _

theorem compileValidate_spec (w : World) (L : LayerId) (ns : List NodeId) :
    (w.compileValidate L (ns.map some) = .ok () ↔ ∀ n ∈ ns, w.validate L n = .ok () ∧
      ∀ k ∈ dkeys (w.nodes n).fields, k ∈ dkeys (w.layers L).fields) ∧
    (∀ e, w.compileValidate L (ns.map some) = .error e → e ≠ .schema ∧
      (e = .schemaValidation → ∃ n ∈ ns, ∃ k ∈ dkeys (w.nodes n).fields, k ∉ dkeys (w.layers L).fields)) := by
  induction ns with
  | nil => simp [compileValidate]
  | cons n ns ih =>
    obtain ⟨i1, i2⟩ := ih
    simp only [List.map_cons, compileValidate, List.forall_mem_cons]
    cases hv : w.validate L n with
    | error e =>
      have := validateFields_err hv
      refine ⟨by simp, fun e' he => ?_⟩
      simp at he; subst he
      exact ⟨this.1, fun h => absurd h this.2⟩
    | ok u =>
      simp only
      split
      · rename_i hk
        simp at hk
        refine ⟨by rw [i1]; simp; intro _; simpa using hk, fun e he => ?_⟩
        obtain ⟨j1, j2⟩ := i2 e he
        refine ⟨j1, fun h => ?_⟩
        obtain ⟨m, hm, hr⟩ := j2 h
        exact ⟨m, by simp [hm], hr⟩
      · rename_i hk
        simp at hk
        refine ⟨by simp; intro h; exact absurd h (by simpa using hk), fun e he => ?_⟩
        simp at he; subst he
        refine ⟨by decide, fun _ => ?_⟩
        obtain ⟨k, h1, h2⟩ := hk
        exact ⟨n, by simp, k, h1, h2⟩

theorem spanOffsets_spec (w : World) (f : Str) (ns : List NodeId) (s : List Int) :
    (∀ e, w.spanOffsets f (ns.map some) s = .error e → e = .attribute) ∧
    (∀ s', w.spanOffsets f (ns.map some) s = .ok s' → (s.Nodup → s'.Nodup) ∧ ∀ x, x ∈ s' ↔ x ∈ s ∨
      ∃ n ∈ ns, ∃ T a b, dget (w.nodes n).fields f = some (.span T a b) ∧ (x = a ∨ x = b)) ∧
    ((∀ n ∈ ns, ∀ v, dget (w.nodes n).fields f = some v → ∃ T a b, v = .span T a b) →
      ∃ s', w.spanOffsets f (ns.map some) s = .ok s') := by
  have hsm : ∀ (s : List Int) x y, y ∈ sadd s x ↔ y ∈ s ∨ y = x := by
    intro s x y; unfold sadd; split
    · constructor
      · exact .inl
      · rintro (h | rfl); exact h; assumption
    · simp
  have hsn : ∀ (s : List Int) x, s.Nodup → (sadd s x).Nodup := by
    intro s x hs; unfold sadd; split
    · exact hs
    · rename_i hx
      rw [List.nodup_append]
      refine ⟨hs, by simp, ?_⟩
      intro a ha b hb; simp at hb; subst hb; rintro rfl; exact hx ha
  induction ns generalizing s with
  | nil => simp [spanOffsets]
  | cons n ns ih =>
    simp only [List.map_cons, spanOffsets, List.forall_mem_cons]
    cases hd : dget (w.nodes n).fields f with
    | none =>
      obtain ⟨i1, i2, i3⟩ := ih s
      refine ⟨i1, fun s' hs' => ?_, fun h => i3 h.2⟩
      obtain ⟨j1, j2⟩ := i2 s' hs'
      refine ⟨j1, fun x => ?_⟩
      rw [j2]; simp [hd]
    | some v =>
      by_cases hv : ∃ T a b, v = .span T a b
      · obtain ⟨T, a, b, rfl⟩ := hv
        obtain ⟨i1, i2, i3⟩ := ih (sadd (sadd s a) b)
        refine ⟨i1, fun s' hs' => ?_, fun h => i3 h.2⟩
        obtain ⟨j1, j2⟩ := i2 s' hs'
        refine ⟨fun h => j1 (hsn _ _ (hsn _ _ h)), fun x => ?_⟩
        rw [j2]
        simp only [hsm, List.mem_cons, exists_eq_or_imp, hd, Option.some.injEq, Value.span.injEq]
        constructor
        · rintro (((h | h) | h) | h)
          · exact .inl h
          · exact .inr (.inl ⟨T, a, b, ⟨rfl, rfl, rfl⟩, .inl h⟩)
          · exact .inr (.inl ⟨T, a, b, ⟨rfl, rfl, rfl⟩, .inr h⟩)
          · exact .inr (.inr h)
        · rintro (h | ⟨T', a', b', ⟨rfl, rfl, rfl⟩, h | h⟩ | h)
          · exact .inl (.inl (.inl h))
          · exact .inl (.inl (.inr h))
          · exact .inl (.inr h)
          · exact .inr h
      · cases v <;> first
          | exact absurd ⟨_, _, _, rfl⟩ hv
          | exact ⟨fun e he => by simpa using he.symm, fun s' hs' => by simp at hs',
              fun h => absurd (h.1 _ rfl) hv⟩

/-- the ends of spans used by fields `fs` of layer `L` on text `c` -/
def UsedIn (w : World) (L : LayerId) (fs : Dict Str DataType) (c : Str) (x : Int) : Prop :=
  ∃ f t n T a b, (f, t) ∈ fs ∧ t.tname = .span ∧
    dget t.options "context".toList = some (.str c) ∧ some n ∈ w.iter L ∧
    dget (w.nodes n).fields f = some (.span T a b) ∧ (x = a ∨ x = b)

theorem layerOffsets_spec {w : World} (h : Inv w) (L : LayerId) (fs : Dict Str DataType)
    (offs : Dict Str (List Int)) :
    (∀ e, w.layerOffsets L fs offs = .error e → e = .attribute ∨ e = .key) ∧
    (∀ offs', w.layerOffsets L fs offs = .ok offs' → (∀ c, (dget offs' c).isSome = (dget offs c).isSome) ∧
      ∀ c s s', dget offs c = some s → dget offs' c = some s' → (s.Nodup → s'.Nodup) ∧
        ∀ x, x ∈ s' ↔ x ∈ s ∨ UsedIn w L fs c x) := by
  induction fs generalizing offs with
  | nil =>
    simp only [layerOffsets]
    refine ⟨by simp, fun o ho => ?_⟩
    simp at ho; subst ho
    refine ⟨fun _ => rfl, fun c s s' h1 h2 => ?_⟩
    rw [h1] at h2; simp at h2; subst h2
    simp [UsedIn]
  | cons e fs ih =>
    obtain ⟨f, t⟩ := e
    unfold layerOffsets
    by_cases ht : t.tname = .span
    · simp only [ht, if_true]
      by_cases hc : ∃ c, dget t.options "context".toList = some (.str c)
      · obtain ⟨c, hc⟩ := hc
        rw [hc]
        simp only
        cases hd : dget offs c with
        | none => exact ⟨fun e he => .inr (by simpa using he.symm), fun o ho => by simp at ho⟩
        | some s =>
          simp only
          rw [h.iter_eq L]
          obtain ⟨p1, p2, -⟩ := spanOffsets_spec w f (live (w.layers L).slots) s
          cases hsp : w.spanOffsets f ((live (w.layers L).slots).map some) s with
          | error e =>
            refine ⟨fun e' he => ?_, fun o ho => by simp at ho⟩
            simp at he; subst he; exact .inl (p1 _ hsp)
          | ok s1 =>
            simp only
            obtain ⟨i1, i2⟩ := ih (dset offs c s1)
            refine ⟨i1, fun o ho => ?_⟩
            obtain ⟨j1, j2⟩ := i2 o ho
            obtain ⟨q1, q2⟩ := p2 s1 hsp
            constructor
            · intro c'; rw [j1, dget_dset]
              split
              · subst_vars; rw [hd]; rfl
              · rfl
            · intro c' s0 s' h1 h2
              by_cases hcc : c = c'
              · subst hcc
                rw [hd] at h1; simp at h1; subst h1
                obtain ⟨r1, r2⟩ := j2 c s1 s' (by simp [dget_dset]) h2
                refine ⟨fun hs => r1 (q1 hs), fun x => ?_⟩
                rw [r2, q2]
                simp only [UsedIn, List.mem_cons, Prod.mk.injEq, h.iter_eq L, List.mem_map, Option.some.injEq,
                  exists_eq_right]
                constructor
                · rintro ((hh | ⟨n, hn, T, a, b, hv, hx⟩) | ⟨f', t', n, T, a, b, hm, hr⟩)
                  · exact .inl hh
                  · exact .inr ⟨f, t, n, T, a, b, .inl ⟨rfl, rfl⟩, ht, hc, hn, hv, hx⟩
                  · exact .inr ⟨f', t', n, T, a, b, .inr hm, hr⟩
                · rintro (hh | ⟨f', t', n, T, a, b, ⟨rfl, rfl⟩ | hm, hr⟩)
                  · exact .inl (.inl hh)
                  · exact .inl (.inr ⟨n, hr.2.2.1, T, a, b, hr.2.2.2⟩)
                  · exact .inr ⟨f', t', n, T, a, b, hm, hr⟩
              · obtain ⟨r1, r2⟩ := j2 c' s0 s' (by rw [dget_dset, if_neg hcc]; exact h1) h2
                refine ⟨r1, fun x => ?_⟩
                rw [r2]
                simp only [UsedIn, List.mem_cons, Prod.mk.injEq]
                constructor
                · rintro (hh | ⟨f', t', n, T, a, b, hm, hr⟩)
                  · exact .inl hh
                  · exact .inr ⟨f', t', n, T, a, b, .inr hm, hr⟩
                · rintro (hh | ⟨f', t', n, T, a, b, ⟨rfl, rfl⟩ | hm, hr⟩)
                  · exact .inl hh
                  · have := hr.2.1; rw [hc] at this; simp at this; exact absurd this hcc
                  · exact .inr ⟨f', t', n, T, a, b, hm, hr⟩
      · cases hd : dget t.options "context".toList with
        | none => exact ⟨fun e he => .inr (by simpa using he.symm), fun o ho => by simp at ho⟩
        | some v =>
          cases v <;> first
            | (exfalso; exact hc ⟨_, hd⟩)
            | (simp only []; exact ⟨fun e he => .inr (by simpa using he.symm), fun o ho => by simp at ho⟩)
    · simp only [ht, if_false]
      obtain ⟨i1, i2⟩ := ih offs
      refine ⟨i1, fun o ho => ?_⟩
      obtain ⟨j1, j2⟩ := i2 o ho
      refine ⟨j1, fun c s s' h1 h2 => ?_⟩
      obtain ⟨r1, r2⟩ := j2 c s s' h1 h2
      refine ⟨r1, fun x => ?_⟩
      rw [r2]
      simp only [UsedIn, List.mem_cons, Prod.mk.injEq]
      constructor
      · rintro (hh | ⟨f', t', n, T, a, b, hm, hr⟩)
        · exact .inl hh
        · exact .inr ⟨f', t', n, T, a, b, .inr hm, hr⟩
      · rintro (hh | ⟨f', t', n, T, a, b, ⟨rfl, rfl⟩ | hm, hr⟩)
        · exact .inl hh
        · exact absurd hr.1 ht
        · exact .inr ⟨f', t', n, T, a, b, hm, hr⟩

theorem World.SameObs.iter {w w' : World} (s : SameObs w w') (h : Inv w) (h' : Inv w') (L) : w'.iter L = w.iter L := by
  rw [h'.iter_eq, h.iter_eq, s.live]

theorem World.SameObs.usedIn {w w' : World} (s : SameObs w w') (h : Inv w) (h' : Inv w') (L fs c x) :
    UsedIn w' L fs c x ↔ UsedIn w L fs c x := by
  unfold UsedIn
  simp only [s.iter h h', (s.node _).2]

/-- everything about the loop over the layers except that it keeps the observable document -/
theorem compileLayers_out (x t : Bool) (d : Dict Str LayerId) : ∀ {w : World} (_ : Inv w) (offs),
    (∀ e, (compileLayers x t w offs d).2 = .error e → e ≠ .schema ∧
      (e = .schemaValidation → ∃ k L n f, (k, L) ∈ d ∧ some n ∈ w.iter L ∧ f ∈ dkeys (w.nodes n).fields ∧
        f ∉ dkeys (w.layers L).fields)) ∧
    (∀ offs', (compileLayers x t w offs d).2 = .ok offs' →
      (t = true → x = false → ∀ k L n f, (k, L) ∈ d → some n ∈ w.iter L → f ∈ dkeys (w.nodes n).fields →
        f ∈ dkeys (w.layers L).fields) ∧
      (∀ c, (dget offs' c).isSome = (dget offs c).isSome) ∧
      (∀ c s s', dget offs c = some s → dget offs' c = some s' → (s.Nodup → s'.Nodup) ∧
        ∀ x, x ∈ s' ↔ x ∈ s ∨ ∃ k L, (k, L) ∈ d ∧ UsedIn w L (w.layers L).fields c x)) := by
  induction d with
  | nil =>
    intro w h offs
    simp only [compileLayers]
    refine ⟨by simp, fun o ho => ?_⟩
    simp at ho; subst ho
    refine ⟨by simp, fun _ => rfl, fun c s s' h1 h2 => ?_⟩
    rw [h1] at h2; simp at h2; subst h2; simp
  | cons e d ih =>
    intro w h offs
    obtain ⟨k, L⟩ := e
    simp only [compileLayers]
    rw [compileIds_eq h]
    have i1 := inv_compact h L
    have s1 := sameObs_compact h L
    generalize hw1 : w.compact L = w1 at i1 s1
    have hit := s1.iter h i1
    obtain ⟨v1, v2⟩ := compileValidate_spec w1 L (live (w1.layers L).slots)
    rw [← i1.iter_eq L] at v1 v2
    have tr : ∀ n, some n ∈ w1.iter L ↔ n ∈ live (w1.layers L).slots := by
      intro n; rw [i1.iter_eq]; simp
    cases hval : (if t && !x then w1.compileValidate L (w1.iter L) else .ok ()) with
    | error e =>
      refine ⟨fun e' he => ?_, fun o ho => by simp at ho⟩
      simp at he; subst he
      split at hval
      · obtain ⟨j1, j2⟩ := v2 _ hval
        refine ⟨j1, fun hs => ?_⟩
        obtain ⟨n, hn, f, hf, hf'⟩ := j2 hs
        refine ⟨k, L, n, f, by simp, ?_, ?_, ?_⟩
        · rw [← hit, tr]; exact hn
        · rw [← (s1.node n).2]; exact hf
        · rw [← (s1.attrs L).2.1]; exact hf'
      · simp at hval
    | ok u =>
      simp only
      obtain ⟨l1, l2⟩ := layerOffsets_spec i1 L (w1.layers L).fields offs
      cases hlo : w1.layerOffsets L (w1.layers L).fields offs with
      | error e =>
        refine ⟨fun e' he => ?_, fun o ho => by simp at ho⟩
        simp at he; subst he
        rcases l1 _ hlo with rfl | rfl <;> exact ⟨by decide, fun h => by simp at h⟩
      | ok o1 =>
        simp only
        obtain ⟨r1, r2⟩ := ih i1 o1
        obtain ⟨m1, m2⟩ := l2 o1 hlo
        refine ⟨fun e he => ?_, fun o ho => ?_⟩
        · obtain ⟨q1, q2⟩ := r1 e he
          refine ⟨q1, fun hs => ?_⟩
          obtain ⟨k', L', n, f, z1, z2, z3, z4⟩ := q2 hs
          refine ⟨k', L', n, f, by simp [z1], by rw [← hit]; exact z2, ?_, ?_⟩
          · rw [← (s1.node n).2]; exact z3
          · rw [← (s1.attrs L').2.1]; exact z4
        · obtain ⟨q1, q2, q3⟩ := r2 o ho
          refine ⟨?_, fun c => by rw [q2, m1], ?_⟩
          · intro ht hx k' L' n f hm hn hf
            subst ht hx
            simp only [List.mem_cons, Prod.mk.injEq] at hm
            rw [← hit] at hn
            rw [← (s1.node n).2] at hf
            rw [← (s1.attrs L').2.1]
            rcases hm with ⟨rfl, rfl⟩ | hm
            · simp only [Bool.not_false, Bool.and_self, if_true] at hval
              exact (v1.mp hval n ((tr n).mp hn)).2 f hf
            · exact q1 rfl rfl k' L' n f hm hn hf
          · intro c s s' h1 h2
            have : (dget o1 c).isSome := by rw [m1, h1]; rfl
            obtain ⟨sm, hsm⟩ := Option.isSome_iff_exists.mp this
            obtain ⟨a1, a2⟩ := m2 c s sm h1 hsm
            obtain ⟨b1, b2⟩ := q3 c sm s' hsm h2
            refine ⟨fun hs => b1 (a1 hs), fun y => ?_⟩
            rw [b2, a2]
            simp only [List.mem_cons, Prod.mk.injEq]
            constructor
            · rintro ((hh | hh) | ⟨k', L', hm, hu⟩)
              · exact .inl hh
              · exact .inr ⟨k, L, .inl ⟨rfl, rfl⟩, by rw [(s1.attrs L).2.1, s1.usedIn h i1] at hh; exact hh⟩
              · exact .inr ⟨k', L', .inr hm, by rw [(s1.attrs L').2.1, s1.usedIn h i1] at hu; exact hu⟩
            · rintro (hh | ⟨k', L', ⟨rfl, rfl⟩ | hm, hu⟩)
              · exact .inl (.inl hh)
              · exact .inl (.inr (by rw [(s1.attrs L').2.1, s1.usedIn h i1]; exact hu))
              · exact .inr ⟨k', L', hm, by rw [(s1.attrs L').2.1, s1.usedIn h i1]; exact hu⟩

/-- the part of compile after the reference checks -/
def compileRest (w : World) (x t : Bool) : World × Except PyErr (Dict Str (List Int)) :=
  match compileLayers x t w (w.dt.map (fun e => (e.1, []))) w.dl with
  | (w, .error e) => (w, .error e)
  | (w, .ok offs) =>
    (w, .ok (w.dt.map (fun e =>
      (e.1, sortedInts (sadd (sadd ((dget offs e.1).getD []) 0) (w.texts e.2).text.length)))))

theorem compile_cases (w : World) (x t : Bool) (hc : Spec.TypesComplete w) :
    (Spec.Unresolved w ∧ w.compile x t = (w, .error .schema)) ∨
    (¬ Spec.Unresolved w ∧ w.compile x t = compileRest w x t) := by
  obtain ⟨r1, r2, r3⟩ := schemaRefs_spec w w.dl
  obtain ⟨r, hr⟩ := r1 hc
  obtain ⟨s1, s2⟩ := r3 r hr
  obtain ⟨ls, ts⟩ := r
  simp only at s1 s2
  have hun : Spec.Unresolved w ↔ ¬ (ls.all (nameIn w.dl) = true ∧ ts.all (nameIn w.dt) = true) := by
    simp only [List.all_eq_true, nameIn_iff]
    constructor
    · rintro ⟨k, L, f, ty, hm, hf, hd | hd⟩ ⟨g1, g2⟩
      · obtain ⟨v, hv⟩ := Option.isSome_iff_exists.mp ((hc k L f ty hm hf).1 hd.1)
        obtain ⟨s, rfl, hs⟩ := g1 v ((s1 v).mpr ⟨k, L, f, ty, hm, hf, hd.1, hv⟩)
        exact hd.2 s hv hs
      · obtain ⟨v, hv⟩ := Option.isSome_iff_exists.mp ((hc k L f ty hm hf).2 hd.1)
        obtain ⟨s, rfl, hs⟩ := g2 v ((s2 v).mpr ⟨k, L, f, ty, hm, hf, hd.1, hv⟩)
        exact hd.2 s hv hs
    · intro hh
      rw [Classical.not_and_iff_not_or_not] at hh
      rcases hh with hh | hh
      · simp only [Classical.not_forall] at hh
        obtain ⟨v, hv, hn⟩ := hh
        obtain ⟨k, L, f, ty, hm, hf, hl, ho⟩ := (s1 v).mp hv
        refine ⟨k, L, f, ty, hm, hf, .inl ⟨hl, fun s hs hmem => hn ⟨s, ?_, hmem⟩⟩⟩
        rw [ho] at hs; simpa using hs
      · simp only [Classical.not_forall] at hh
        obtain ⟨v, hv, hn⟩ := hh
        obtain ⟨k, L, f, ty, hm, hf, hl, ho⟩ := (s2 v).mp hv
        refine ⟨k, L, f, ty, hm, hf, .inr ⟨hl, fun s hs hmem => hn ⟨s, ?_, hmem⟩⟩⟩
        rw [ho] at hs; simpa using hs
  unfold compile
  rw [hr]
  simp only
  cases h1 : ls.all (nameIn w.dl) with
  | false => left; exact ⟨hun.mpr (by simp [h1]), by simp⟩
  | true =>
    cases h2 : ts.all (nameIn w.dt) with
    | false => left; exact ⟨hun.mpr (by simp [h2]), by simp⟩
    | true => right; exact ⟨fun hh => hun.mp hh ⟨h1, h2⟩, rfl⟩

/-- C26. Compiling raises SchemaError exactly when a field type refers to a layer or text the document
lacks; then nothing has changed. -/
theorem C26_schema_error {w : World} (h : Reachable w) (hc : Spec.TypesComplete w) (x t : Bool) :
    (w.compile x t).2 = .error .schema ↔ Spec.Unresolved w := by
  rcases compile_cases w x t hc with ⟨hu, he⟩ | ⟨hu, he⟩
  · rw [he]; exact ⟨fun _ => hu, fun _ => rfl⟩
  · refine ⟨fun hs => ?_, fun hh => absurd hh hu⟩
    obtain ⟨q1, -⟩ := compileLayers_out x t w.dl h.inv (w.dt.map (fun e => (e.1, [])))
    rw [he, compileRest] at hs
    split at hs
    · rename_i hq
      simp at hs; subst hs
      rw [hq] at q1
      exact absurd rfl (q1 _ rfl).1
    · simp at hs

/-- C26. An undeclared field on a node makes compiling raise; SchemaValidationError is raised only then.
(With validation off, or extra fields allowed, nothing is checked.) -/
theorem C26_undeclared {w : World} (h : Reachable w) (hc : Spec.TypesComplete w) :
    (Spec.Undeclared w → ∃ e, (w.compile false true).2 = .error e) ∧
    (∀ x t, (w.compile x t).2 = .error .schemaValidation → Spec.Undeclared w) := by
  constructor
  · rintro ⟨k, L, n, f, h1, h2, h3, h4⟩
    rcases compile_cases w false true hc with ⟨hu, he⟩ | ⟨hu, he⟩
    · rw [he]; exact ⟨_, rfl⟩
    · obtain ⟨-, q2⟩ := compileLayers_out false true w.dl h.inv (w.dt.map (fun e => (e.1, [])))
      rw [he, compileRest]
      split
      · exact ⟨_, rfl⟩
      · rename_i hq
        rw [hq] at q2
        exact absurd ((q2 _ rfl).1 rfl rfl k L n f h1 h2 h3) h4
  · intro x t hs
    rcases compile_cases w x t hc with ⟨hu, he⟩ | ⟨hu, he⟩
    · rw [he] at hs; simp at hs
    · obtain ⟨q1, -⟩ := compileLayers_out x t w.dl h.inv (w.dt.map (fun e => (e.1, [])))
      rw [he, compileRest] at hs
      split at hs
      · rename_i hq
        simp at hs; subst hs
        rw [hq] at q1
        exact (q1 _ rfl).2 rfl
      · simp at hs

namespace Ex
/-- layer `a` with a span field on text `main`; node 0 spans 1..3, node 1 spans 0..3 and both a node with no
span (2); layer `b` declares nothing -/
def wo : World := World.empty.run [.addText "main".toList "hello".toList, .addLayer "a".toList
  [("s".toList, DataTypes.textspan "main".toList)], .addNew 0 [("s".toList, .span 0 1 3)],
  .addNew 0 [("s".toList, .span 0 0 3)], .addNew 0 [], .addLayer "b".toList [], .addNew 1 []]
theorem wo_reachable : Reachable wo := reachable_run _ (by decide)
/-- `wo` after an undeclared field was set -/
def wu : World := wo.run [.setField 3 "x".toList (.int 1)]
theorem wu_reachable : Reachable wu := by
  have : wu = World.empty.run [.addText "main".toList "hello".toList, .addLayer "a".toList
  [("s".toList, DataTypes.textspan "main".toList)], .addNew 0 [("s".toList, .span 0 1 3)],
  .addNew 0 [("s".toList, .span 0 0 3)], .addNew 0 [], .addLayer "b".toList [], .addNew 1 [],
  .setField 3 "x".toList (.int 1)] := rfl
  rw [this]; exact reachable_run _ (by decide)
end Ex


theorem Ex.wo_complete : Spec.TypesComplete Ex.wo := by
  intro k L f t hm hf
  have e : Ex.wo.dl = [("a".toList, 0), ("b".toList, 1)] := by decide
  rw [e] at hm; simp at hm
  rcases hm with ⟨-, rfl⟩ | ⟨-, rfl⟩
  · have e : (Ex.wo.layers 0).fields = [("s".toList, DataTypes.textspan "main".toList)] := by decide
    rw [e] at hf; simp at hf; rw [hf.2]
    exact ⟨fun _ => by rcases ‹Spec.LayerRef _› with h | h | h <;> simp [DataTypes.textspan] at h, fun _ => rfl⟩
  · have e : (Ex.wo.layers 1).fields = [] := by decide
    rw [e] at hf; simp at hf

/-! ### C27 -/

theorem mem_sadd {s : List Int} {x y : Int} : y ∈ sadd s x ↔ y ∈ s ∨ y = x := by
  unfold sadd; split
  · constructor
    · exact .inl
    · rintro (h | rfl); exact h; assumption
  · simp

theorem nodup_sadd {s : List Int} (x : Int) (hs : s.Nodup) : (sadd s x).Nodup := by
  unfold sadd; split
  · exact hs
  · rename_i hx
    rw [List.nodup_append]
    refine ⟨hs, by simp, ?_⟩
    intro a ha b hb; simp at hb; subst hb; rintro rfl; exact hx ha

theorem strict_of_sorted {l : List Int} (h1 : l.Pairwise (· ≤ ·)) (h2 : l.Nodup) : l.Pairwise (· < ·) := by
  have := h1.and h2
  exact this.imp (fun ⟨a, b⟩ => by omega)

/-- the offset tables, from the invariant alone -/
theorem compile_offsets {w w' : World} (hi : Inv w) (hc : Spec.TypesComplete w) (x t : Bool)
    {out : Dict Str (List Int)} (hout : w.compile x t = (w', .ok out)) (c : Str) (T : TextId)
    (hT : dget w.dt c = some T) :
    ∃ l, dget out c = some l ∧ l.Pairwise (· < ·) ∧
      ∀ y, y ∈ l ↔ y = 0 ∨ y = (w.texts T).text.length ∨ Spec.UsedOffset w c y := by
  rcases compile_cases w x t hc with ⟨hu, he⟩ | ⟨hu, he⟩
  · rw [he] at hout; simp at hout
  · obtain ⟨-, q2⟩ := compileLayers_out x t w.dl hi (w.dt.map (fun e => (e.1, [])))
    obtain ⟨-, so⟩ := compileLayers_spec x t w.dl hi (w.dt.map (fun e => (e.1, [])))
    rw [he, compileRest] at hout
    split at hout
    · simp at hout
    · rename_i w1 offs hq
      rw [hq] at q2 so
      obtain ⟨-, r2, r3⟩ := q2 offs rfl
      simp only [Prod.mk.injEq, Except.ok.injEq] at hout
      obtain ⟨-, hout⟩ := hout
      have hmap : ∀ {α} (g : Str × TextId → α) (d : Dict Str TextId), dget (d.map (fun e => (e.1, g e))) c =
          (dget d c).map (fun T => g (c, T)) := by
        intro α g d
        induction d with
        | nil => rfl
        | cons e d ih =>
          simp only [List.map_cons, dget]
          split
          · subst_vars; rfl
          · exact ih
      have h0 : dget (w.dt.map (fun e => (e.1, ([] : List Int)))) c = some [] := by
        rw [hmap (fun _ => []), hT]; rfl
      have : (dget offs c).isSome := by rw [r2, h0]; rfl
      obtain ⟨s', hs'⟩ := Option.isSome_iff_exists.mp this
      obtain ⟨n1, n2⟩ := r3 c [] s' h0 hs'
      have hdt : w1.dt = w.dt := so.dt
      have htx : w1.texts = w.texts := so.texts
      rw [← hout, hdt]
      refine ⟨_, by rw [hmap (fun e => _), hT]; rfl, ?_, ?_⟩
      · apply strict_of_sorted
        · exact sortedInts_sorted _
        · rw [List.Perm.nodup_iff (sortedInts_perm _)]
          rw [hs']
          exact nodup_sadd _ (nodup_sadd _ (n1 List.nodup_nil))
      · intro y
        rw [List.Perm.mem_iff (sortedInts_perm _), hs']
        simp only [Option.getD_some, mem_sadd, n2, htx]
        constructor
        · rintro ((hh | hh) | hh)
          · rcases hh with hh | ⟨k, L, hm, f, ty, n, T', a, b, z⟩
            · simp at hh
            · exact .inr (.inr ⟨k, L, f, ty, n, T', a, b, hm, z⟩)
          · exact .inl hh
          · exact .inr (.inl hh)
        · rintro (hh | hh | ⟨k, L, f, ty, n, T', a, b, hm, z⟩)
          · exact .inl (.inr hh)
          · exact .inr hh
          · exact .inl (.inl (.inr ⟨k, L, hm, f, ty, n, T', a, b, z⟩))

/-- C27. The offset table of each text is strictly increasing and holds 0, the length of the text, the ends
of the spans of that text, and nothing else. -/
theorem C27_offsets {w w' : World} (h : Reachable w) (hc : Spec.TypesComplete w) (x t : Bool)
    {out : Dict Str (List Int)} (hout : w.compile x t = (w', .ok out)) (c : Str) (T : TextId)
    (hT : dget w.dt c = some T) :
    ∃ l, dget out c = some l ∧ l.Pairwise (· < ·) ∧
      ∀ y, y ∈ l ↔ y = 0 ∨ y = (w.texts T).text.length ∨ Spec.UsedOffset w c y :=
  compile_offsets h.inv hc x t hout c T hT

theorem compile_ends {w w' : World} (hi : Inv w) (hc : Spec.TypesComplete w) (x t : Bool)
    {out : Dict Str (List Int)} (hout : w.compile x t = (w', .ok out)) (c : Str) (T : TextId)
    (hT : dget w.dt c = some T)
    (hin : ∀ y, Spec.UsedOffset w c y → 0 ≤ y ∧ y ≤ (w.texts T).text.length) :
    ∃ l, dget out c = some l ∧ l.head? = some 0 ∧ l.getLast? = some ((w.texts T).text.length : Int) := by
  obtain ⟨l, h1, h2, h3⟩ := compile_offsets hi hc x t hout c T hT
  have hb : ∀ y ∈ l, 0 ≤ y ∧ y ≤ (w.texts T).text.length := by
    intro y hy
    rcases (h3 y).mp hy with rfl | rfl | hu
    · omega
    · omega
    · exact hin y hu
  have hz : (0 : Int) ∈ l := (h3 0).mpr (.inl rfl)
  have hl : ((w.texts T).text.length : Int) ∈ l := (h3 _).mpr (.inr (.inl rfl))
  refine ⟨l, h1, ?_, ?_⟩
  · cases l with
    | nil => simp at hz
    | cons a l =>
      simp only [List.pairwise_cons] at h2
      simp only [List.mem_cons] at hz
      simp only [List.head?_cons, Option.some.injEq]
      rcases hz with hz | hz
      · exact hz.symm
      · have := h2.1 0 hz; have := hb a (by simp); omega
  · rcases List.eq_nil_or_concat l with rfl | ⟨l', a, rfl⟩
    · simp at hz
    · simp only [List.concat_eq_append, List.getLast?_append, List.getLast?_singleton, Option.some_or, Option.some.injEq] at *
      rw [List.pairwise_append] at h2
      simp only [List.mem_append, List.mem_singleton] at hl
      rcases hl with hl | hl
      · have := h2.2.2 _ hl a (by simp)
        have := hb a (by simp); omega
      · exact hl.symm

/-- C27. When the spans lie inside their texts, the table starts with 0 and ends with the length. -/
theorem C27_ends {w w' : World} (h : Reachable w) (hc : Spec.TypesComplete w) (x t : Bool)
    {out : Dict Str (List Int)} (hout : w.compile x t = (w', .ok out)) (c : Str) (T : TextId)
    (hT : dget w.dt c = some T)
    (hin : ∀ y, Spec.UsedOffset w c y → 0 ≤ y ∧ y ≤ (w.texts T).text.length) :
    ∃ l, dget out c = some l ∧ l.head? = some 0 ∧ l.getLast? = some ((w.texts T).text.length : Int) :=
  compile_ends h.inv hc x t hout c T hT hin

/-- C27. The index dict of a strictly increasing table is its inverse. -/
theorem C27_inverse (l : List Int) (h : l.Pairwise (· < ·)) (i : Nat) (y : Int) :
    dget (offsetIndex l) y = some i ↔ l[i]? = some y := by
  have hn : (dkeys (offsetIndex l)).Nodup := by
    have : dkeys (offsetIndex l) = l := by simp [dkeys, offsetIndex]
    rw [this]; exact h.imp (fun h => by omega)
  constructor
  · intro hd
    have := dget_mem hd
    simpa [offsetIndex, List.mem_zipIdx_iff_getElem?] using this
  · intro hd
    apply dget_of_mem hn
    simpa [offsetIndex, List.mem_zipIdx_iff_getElem?] using hd

/-! ### C28 -/

/-- the document in `w'` is as it was in `w`: layers, texts, properties, schemas, nodes in order, their fields, attachment
and neighbours -/
def Spec.Unchanged (w w' : World) : Prop :=
  w'.dl = w.dl ∧ w'.dt = w.dt ∧ w'.texts = w.texts ∧ w'.props = w.props ∧
  (∀ L, (w'.layers L).name = (w.layers L).name ∧ (w'.layers L).fields = (w.layers L).fields ∧
    (w'.layers L).defaults = (w.layers L).defaults) ∧
  (∀ L, w'.iter L = w.iter L ∧ w'.len L = w.len L) ∧
  (∀ n, (w'.nodes n).fields = (w.nodes n).fields ∧ (w'.nodes n).coll = (w.nodes n).coll) ∧
  (∀ n, w'.nodeLeft n = w.nodeLeft n ∧ w'.nodeRight n = w.nodeRight n)

/-- C28. Compiling (the part of encoding that touches the document) leaves texts, properties, schemas,
node order, node fields, attachment and neighbours as they were, also when it raises. -/
theorem C28_compile_pure {w : World} (h : Reachable w) (x t : Bool) : Spec.Unchanged w (w.compile x t).1 := by
  generalize hw' : (w.compile x t).1 = w'
  have sp := compile_spec h.inv x t
  rw [hw'] at sp
  obtain ⟨i, s⟩ := sp
  refine ⟨s.dl, s.dt, s.texts, s.props, fun L => ⟨(s.attrs L).1, (s.attrs L).2.1, (s.attrs L).2.2.1⟩,
    fun L => ⟨s.iter h.inv i L, (s.attrs L).2.2.2⟩, fun n => ⟨(s.node n).2, (s.node n).1⟩, ?_⟩
  intro n
  have hr : Reachable w' := by
    obtain ⟨w0, hh, hs, hw⟩ := h
    exact hw' ▸ ⟨w0, _, hs, .snoc (op := .compile x t) hw (by simp [Allowed])⟩
  cases hcoll : (w.nodes n).coll with
  | none =>
    have hcoll' : (w'.nodes n).coll = none := (s.node n).1.trans hcoll
    simp [nodeLeft, nodeRight, hcoll, hcoll']
  | some L =>
    have hm := (h.inv.mem_iff L n).mpr hcoll
    obtain ⟨pre, post, hp⟩ := List.append_of_mem hm
    have h1 : Spec.Holds w L (pre ++ n :: post) := (holds_iff h.inv).mpr hp.symm
    have h2 : Spec.Holds w' L (pre ++ n :: post) := (holds_iff i).mpr (by rw [← hp]; exact (s.live L).symm)
    rw [(C13_neighbours h L pre post n h1).1, (C13_neighbours h L pre post n h1).2,
      (C13_neighbours hr L pre post n h2).1, (C13_neighbours hr L pre post n h2).2]
    exact ⟨rfl, rfl⟩

/-! ### concrete cases -/

-- C26: `wo` compiles; with the undeclared field it does not; with a dead reference it does not
example : (Ex.wo.compile false true).2.isOk = true := by decide
example : Spec.Undeclared Ex.wu := ⟨"b".toList, 1, 3, "x".toList, by decide, by decide, by decide, by decide⟩
example : (Ex.wu.compile false true).2 = .error .schemaValidation := by decide
example : Spec.Unresolved (Ex.wref.run [.removeLayer "a".toList true]) :=
  ⟨"b".toList, 1, "s".toList, DataTypes.noderef "a".toList, by decide, by decide,
    .inl ⟨.inl rfl, fun s hs => by
      have : s = "a".toList := by simpa [DataTypes.noderef, DataTypes.opts, dget] using hs.symm
      subst this; decide⟩⟩
-- C27
example : (Ex.wo.compile false true).2 = .ok [("main".toList, [0, 1, 3, 5])] := by decide
example : Spec.UsedOffset Ex.wo "main".toList 3 :=
  ⟨"a".toList, 0, "s".toList, DataTypes.textspan "main".toList, 0, 0, 1, 3, by decide, by decide, rfl, rfl,
    by decide, by decide, .inr rfl⟩
-- C28: compiling a layer with gaps moves nodes but shows the same order
example : ((Ex.w.compile true false).1.layers 0).slots ≠ (Ex.w.layers 0).slots ∧
    (Ex.w.compile true false).1.iter 0 = Ex.w.iter 0 := by decide

end Verif
