import Verif.Model.Collections
import Verif.Props.Schema
/-
Lemmas on the field types of a NodeList (model.py:474-509).
-/
namespace Verif
set_option linter.unusedSimpArgs false
open World

/-! ### The loop that collects types -/

/-- the dictionary of sets holds exactly the listed types, up to equality of types -/
structure Collects (d : Dict Str (List DataType)) (l : List (Str × DataType)) : Prop where
  keys : (dkeys d).Nodup
  sound : ∀ f ts, dget d f = some ts → ts ≠ [] ∧ ∀ t ∈ ts, (f, t) ∈ l
  complete : ∀ f t, (f, t) ∈ l → ∃ ts, dget d f = some ts ∧ ∃ u ∈ ts, u.tname = t.tname

theorem setAdd_mem {s : List DataType} {t u : DataType} (h : u ∈ setAdd s t) : u ∈ s ∨ u = t := by
  unfold setAdd at h; split at h <;> simp_all

theorem setAdd_sub {s : List DataType} {t u : DataType} (h : u ∈ s) : u ∈ setAdd s t := by
  unfold setAdd; split <;> simp_all

theorem setAdd_has (s : List DataType) (t : DataType) : ∃ u ∈ setAdd s t, u.tname = t.tname := by
  unfold setAdd
  split
  · rename_i h
    obtain ⟨u, hu, e⟩ := List.any_eq_true.mp h
    simp [DataType.sameType] at e
    exact ⟨u, hu, e.1⟩
  · exact ⟨t, by simp, rfl⟩

theorem Collects.nil : Collects [] [] where
  keys := by simp [dkeys]
  sound := by simp [dget]
  complete := by simp

theorem Collects.add {d d' l f t} (h : Collects d l) (e : fieldsAdd d f t = .ok d') : Collects d' (l ++ [(f, t)]) := by
  unfold fieldsAdd at e
  split at e <;> simp at e
  subst e
  constructor
  · exact nodup_dset h.keys _ _
  · intro g ts hg
    rw [dget_dset] at hg
    split at hg
    · rename_i hgf; cases hgf
      simp at hg; subst hg
      refine ⟨?_, ?_⟩
      · obtain ⟨u, hu, -⟩ := setAdd_has ((dget d f).getD []) t
        intro hn; rw [hn] at hu; simp at hu
      · intro u hu
        rcases setAdd_mem hu with hu | rfl
        · cases hd : dget d f with
          | none => simp [hd] at hu
          | some ts => rw [hd] at hu; have := (h.sound f ts hd).2 u hu; simp [this]
        · simp
    · obtain ⟨h1, h2⟩ := h.sound g ts hg
      exact ⟨h1, fun u hu => by simp [h2 u hu]⟩
  · intro g u hu
    simp only [List.mem_append, List.mem_singleton, Prod.mk.injEq] at hu
    rw [dget_dset]
    rcases hu with hu | ⟨rfl, rfl⟩
    · obtain ⟨ts, h1, v, hv, he⟩ := h.complete g u hu
      split
      · rename_i hgf; subst hgf
        exact ⟨_, rfl, v, setAdd_sub (by rw [h1]; exact hv), he⟩
      · exact ⟨ts, h1, v, hv, he⟩
    · simp only [if_pos rfl]
      exact ⟨_, rfl, setAdd_has _ _⟩

theorem Collects.addAll {l' d d' l} (h : Collects d l) (e : fieldsAddAll d l' = .ok d') : Collects d' (l ++ l') := by
  induction l' generalizing d l with
  | nil => simp [fieldsAddAll] at e; subst e; simpa using h
  | cons a l' ih =>
    obtain ⟨f, t⟩ := a
    simp only [fieldsAddAll] at e
    split at e
    · simp at e
    · rename_i hd
      have := ih (h.add hd) e
      simpa using this

/-- the types of the values of a dangling node -/
def valTypes (w : World) (vs : Dict Str Value) : List (Str × DataType) :=
  vs.filterMap (fun e => match DataTypes.typeOf w e.2 with | .ok t => some (e.1, t) | .error _ => none)

theorem Collects.addVals {w : World} {vs d d' l} (h : Collects d l) (e : w.addTypesOf d vs = .ok d') :
    Collects d' (l ++ valTypes w vs) := by
  induction vs generalizing d l with
  | nil => simp [addTypesOf] at e; subst e; simpa [valTypes] using h
  | cons a vs ih =>
    obtain ⟨f, v⟩ := a
    simp only [addTypesOf] at e
    cases ht : DataTypes.typeOf w v with
    | error x => simp [ht] at e
    | ok t =>
      simp only [ht] at e
      split at e
      · simp at e
      · rename_i hd
        have := ih (h.add hd) e
        simpa [valTypes, ht] using this

/-- the types seen on the dangling nodes of a list -/
def danglingTypes (w : World) (ns : List NodeId) : List (Str × DataType) :=
  ns.flatMap (fun n => match (w.nodes n).coll with | none => valTypes w (w.nodes n).fields | some _ => [])

theorem Collects.scan {w : World} {ns d d' l ls ls'} (h : Collects d l) (e : w.listScan ns d ls = .ok (d', ls')) :
    Collects d' (l ++ danglingTypes w ns) ∧ ∀ L, L ∈ ls' ↔ L ∈ ls ∨ ∃ n ∈ ns, (w.nodes n).coll = some L := by
  induction ns generalizing d l ls with
  | nil => simp [listScan] at e; obtain ⟨rfl, rfl⟩ := e; simpa [danglingTypes] using h
  | cons n ns ih =>
    simp only [listScan] at e
    cases hc : (w.nodes n).coll with
    | none =>
      simp only [hc] at e
      split at e
      · simp at e
      · rename_i hd
        obtain ⟨h1, h2⟩ := ih (h.addVals hd) e
        refine ⟨?_, ?_⟩
        · simpa [danglingTypes, hc] using h1
        · intro L; rw [h2]; simp [hc]
    | some L =>
      simp only [hc] at e
      obtain ⟨h1, h2⟩ := ih h e
      refine ⟨?_, ?_⟩
      · simpa [danglingTypes, hc] using h1
      · intro M; rw [h2]
        by_cases hL : L ∈ ls
        · simp only [if_pos hL, List.mem_cons, exists_eq_or_imp, hc, Option.some.injEq]
          constructor
          · rintro (h | h)
            · exact .inl h
            · exact .inr (.inr h)
          · rintro (h | rfl | h)
            · exact .inl h
            · exact .inl hL
            · exact .inr h
        · simp only [if_neg hL, List.mem_append, List.mem_cons, List.not_mem_nil, or_false, exists_eq_or_imp, hc, Option.some.injEq]
          constructor
          · rintro ((h | rfl) | h)
            · exact .inl h
            · exact .inr (.inl rfl)
            · exact .inr (.inr h)
          · rintro (h | rfl | h)
            · exact .inl (.inl h)
            · exact .inl (.inr rfl)
            · exact .inr h

theorem Collects.layers {w : World} {ls d d' l} (h : Collects d l) (e : w.addLayerTypes d ls = .ok d') :
    Collects d' (l ++ ls.flatMap (fun L => (w.layers L).fields)) := by
  induction ls generalizing d l with
  | nil => simp [addLayerTypes] at e; subst e; simpa using h
  | cons L ls ih =>
    simp only [addLayerTypes] at e
    split at e
    · simp at e
    · rename_i hd
      have := ih (h.addAll hd) e
      simpa using this

theorem resolve_some_numeric {r : DataType} {c : Option DataType} {ts : List DataType} (hne : ts ≠ []) (h : DataType.resolve (some r) ts = .ok c) :
    Spec.Numeric r ∧ ∀ t ∈ ts, Spec.Numeric t := by
  induction ts generalizing r with
  | nil => exact absurd rfl hne
  | cons t ts ih =>
    simp only [DataType.resolve] at h
    split at h
    · by_cases hn : Spec.Numeric r ∧ Spec.Numeric t
      · refine ⟨hn.1, ?_⟩
        intro u hu
        rcases List.mem_cons.mp hu with rfl | hu
        · exact hn.2
        · split at h
          · exact (ih (by intro he; subst he; simp at hu) h).2 u hu
          · simp at h
      · rw [(C24_possible r t).2 hn] at h; simp at h
    · simp at h

theorem outputType_some {ts : List DataType} {c : DataType} (h : DataType.outputType ts = .ok (some c)) :
    c ∈ ts ∧ ∀ t ∈ ts, t.tname = c.tname := by
  unfold DataType.outputType at h
  split at h
  · simp at h
  · simp at h; subst h; simp
  · split at h
    · rename_i ha; simp at h ha; subst h; simpa using ha
    · split at h <;> simp at h

theorem outputType_none {ts : List DataType} (h : DataType.outputType ts = .ok none) :
    (∀ t ∈ ts, Spec.Numeric t) ∧ ∃ t ∈ ts, ∃ u ∈ ts, t.tname ≠ u.tname := by
  unfold DataType.outputType at h
  split at h
  · simp at h
  · simp at h
  · rename_i t rest hne
    split at h
    · simp at h
    · rename_i ha
      split at h
      · simp at h
      · rename_i c hc
        simp only [DataType.resolve] at hc
        have hr : rest ≠ [] := by rintro rfl; exact hne rfl
        have := resolve_some_numeric hr hc
        refine ⟨by simpa using this, ?_⟩
        simp at ha
        obtain ⟨u, hu, hx⟩ := ha
        exact ⟨u, by simp [hu], t, by simp, hx⟩

theorem outputType_ok {ts : List DataType} (hne : ts ≠ []) (h : (∀ t ∈ ts, ∀ u ∈ ts, t.tname = u.tname) ∨ ∀ t ∈ ts, Spec.Numeric t) :
    ∃ o, DataType.outputType ts = .ok o := by
  unfold DataType.outputType
  split
  · exact absurd rfl hne
  · exact ⟨_, rfl⟩
  · rename_i t rest _
    split
    · exact ⟨_, rfl⟩
    · rename_i ha
      rcases h with h | h
      · exact absurd (by simp; intro x hx; exact h x (by simp [hx]) t (by simp)) ha
      · obtain ⟨c, hc, -⟩ := C24_merge (t :: rest) (by simp) h
        exact ⟨none, by rw [hc]⟩

theorem outputTypes_get {d : Dict Str (List DataType)} {out} (hk : (dkeys d).Nodup) (h : outputTypes d = .ok out) (f : Str) :
    (dget d f = none → dget out f = none) ∧ ∀ ts, dget d f = some ts → DataType.outputType ts = .ok (dget out f) := by
  induction d generalizing out with
  | nil => simp [outputTypes] at h; subst h; simp [dget]
  | cons a d ih =>
    obtain ⟨g, us⟩ := a
    simp only [outputTypes] at h
    simp only [dkeys, List.map_cons, List.nodup_cons] at hk
    split at h
    · simp at h
    · rename_i o ho
      split at h
      · simp at h
      · rename_i out' hout
        have := ih hk.2 hout
        simp at h
        by_cases hg : g = f
        · subst hg
          have hnone : dget d g = none := (dget_none_iff _ _).mpr hk.1
          have h1 := this.1 hnone
          refine ⟨by simp [dget], ?_⟩
          intro ts hts
          simp [dget] at hts; subst hts
          rw [ho]
          cases o with
          | none => simp at h; subst h; rw [h1]
          | some t => simp at h; subst h; simp [dget]
        · have e1 : dget ((g, us) :: d) f = dget d f := by simp [dget, hg]
          have e2 : dget out f = dget out' f := by
            cases o with
            | none => simp at h; subst h; rfl
            | some t => simp at h; subst h; simp [dget, hg]
          rw [e1, e2]; exact this

theorem outputTypes_ok {d : Dict Str (List DataType)} (h : ∀ e ∈ d, ∃ o, DataType.outputType e.2 = .ok o) :
    ∃ out, outputTypes d = .ok out := by
  induction d with
  | nil => exact ⟨[], rfl⟩
  | cons a d ih =>
    obtain ⟨g, us⟩ := a
    obtain ⟨o, ho⟩ := h (g, us) (by simp)
    obtain ⟨out, hout⟩ := ih (fun e he => h e (by simp [he]))
    simp only [outputTypes, ho, hout]
    exact ⟨_, rfl⟩

theorem dget_map_val {α β : Type} (g : Str → α → β) (d : Dict Str α) (f : Str) :
    dget (d.map (fun e => (e.1, g e.1 e.2))) f = (dget d f).map (g f) := by
  induction d with
  | nil => simp [dget]
  | cons a d ih =>
    by_cases h : a.1 = f
    · subst h; simp [dget]
    · simp [dget, h] at ih ⊢; exact ih

end Verif
