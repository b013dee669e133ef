/-
Python `dict` as an insertion-ordered association list, and pointwise update of functions.
-/
namespace Verif

/-- `f` with the value at `a` replaced (one heap cell written). -/
def upd {α β} [DecidableEq α] (f : α → β) (a : α) (b : β) : α → β := fun x => if x = a then b else f x

@[simp] theorem upd_same {α β} [DecidableEq α] (f : α → β) (a : α) (b : β) : upd f a b a = b := by
  simp [upd]
theorem upd_ne {α β} [DecidableEq α] (f : α → β) {a x : α} (b : β) (h : x ≠ a) : upd f a b x = f x := by
  simp [upd, h]
theorem upd_apply {α β} [DecidableEq α] (f : α → β) (a x : α) (b : β) :
    upd f a b x = if x = a then b else f x := rfl
@[simp] theorem upd_self {α β} [DecidableEq α] (f : α → β) (a : α) : upd f a (f a) = f := by
  funext x; simp only [upd]; split <;> simp_all
@[simp] theorem upd_upd {α β} [DecidableEq α] (f : α → β) (a : α) (b c : β) :
    upd (upd f a b) a c = upd f a c := by
  funext x; simp only [upd]; split <;> rfl

/-- Insertion-ordered Python dict. Well-formedness (`(dkeys d).Nodup`) is maintained by all operations. -/
abbrev Dict (κ ν : Type) := List (κ × ν)

variable {κ ν : Type} [DecidableEq κ]

/-- `d.get(k)` -/
def dget : Dict κ ν → κ → Option ν
  | [], _ => none
  | (k', v) :: d, k => if k' = k then some v else dget d k

/-- `d[k] = v`: overwrite in place, or append a new key at the end -/
def dset : Dict κ ν → κ → ν → Dict κ ν
  | [], k, v => [(k, v)]
  | (k', v') :: d, k, v => if k' = k then (k', v) :: d else (k', v') :: dset d k v

/-- `del d[k]` (no effect when absent; callers check) -/
def ddel (d : Dict κ ν) (k : κ) : Dict κ ν := d.filter (fun e => !decide (e.1 = k))

/-- `d.keys()` -/
def dkeys (d : Dict κ ν) : List κ := d.map (·.1)

/-- `d.update(e)` -/
def dupdate (d e : Dict κ ν) : Dict κ ν := e.foldl (fun d kv => dset d kv.1 kv.2) d

theorem dget_dset (d : Dict κ ν) (k k' : κ) (v : ν) :
    dget (dset d k v) k' = if k = k' then some v else dget d k' := by
  induction d with
  | nil => simp [dset, dget]
  | cons e d ih =>
    obtain ⟨a, b⟩ := e
    simp only [dset]
    split
    · subst_vars; simp only [dget]; split <;> rfl
    · simp only [dget, ih]
      split <;> split <;> simp_all

theorem dget_ddel (d : Dict κ ν) (k k' : κ) :
    dget (ddel d k) k' = if k = k' then none else dget d k' := by
  induction d with
  | nil => simp [ddel, dget]
  | cons e d ih =>
    obtain ⟨a, b⟩ := e
    simp only [ddel, List.filter_cons] at ih ⊢
    by_cases h : a = k
    · subst h; simp only [decide_true, Bool.not_true, Bool.false_eq_true, if_false, ih, dget]
      split <;> simp_all
    · simp only [h, decide_false, Bool.not_false, if_true, dget, ih]
      split <;> split <;> simp_all

theorem dget_none_iff (d : Dict κ ν) (k : κ) : dget d k = none ↔ k ∉ dkeys d := by
  induction d with
  | nil => simp [dget, dkeys]
  | cons e d ih =>
    obtain ⟨a, b⟩ := e
    simp only [dkeys, dget, List.map_cons, List.mem_cons, not_or] at *
    by_cases h : a = k
    · subst h; simp
    · rw [if_neg h, ih]
      exact ⟨fun hk => ⟨fun e => h e.symm, hk⟩, fun hk => hk.2⟩

theorem dget_isSome_iff (d : Dict κ ν) (k : κ) : (dget d k).isSome ↔ k ∈ dkeys d := by
  have := dget_none_iff d k
  cases h : dget d k <;> simp_all

theorem dget_mem {d : Dict κ ν} {k : κ} {v : ν} (h : dget d k = some v) : (k, v) ∈ d := by
  induction d with
  | nil => simp [dget] at h
  | cons e d ih =>
    obtain ⟨a, b⟩ := e
    simp only [dget] at h
    split at h
    · simp_all
    · exact List.mem_cons_of_mem _ (ih h)

theorem dget_of_mem {d : Dict κ ν} (hn : (dkeys d).Nodup) {k : κ} {v : ν} (h : (k, v) ∈ d) :
    dget d k = some v := by
  induction d with
  | nil => simp at h
  | cons e d ih =>
    obtain ⟨a, b⟩ := e
    simp only [dkeys, List.map_cons, List.nodup_cons] at hn
    simp only [dget]
    rcases List.mem_cons.mp h with h | h
    · cases h; simp
    · have : a ≠ k := by
        rintro rfl; exact hn.1 (List.mem_map.mpr ⟨_, h, rfl⟩)
      simp [this]; exact ih hn.2 h

theorem dkeys_dset (d : Dict κ ν) (k : κ) (v : ν) :
    dkeys (dset d k v) = if k ∈ dkeys d then dkeys d else dkeys d ++ [k] := by
  induction d with
  | nil => simp [dset, dkeys]
  | cons e d ih =>
    obtain ⟨a, b⟩ := e
    simp only [dset]
    split
    · subst_vars; simp [dkeys]
    · simp only [dkeys, List.map_cons] at *
      rw [ih]
      have : ¬ k = a := fun h => by simp_all
      simp only [List.mem_cons, this, false_or]
      by_cases hm : k ∈ List.map (fun x => x.fst) d <;> simp [hm]

theorem nodup_dset {d : Dict κ ν} (h : (dkeys d).Nodup) (k : κ) (v : ν) : (dkeys (dset d k v)).Nodup := by
  rw [dkeys_dset]; split
  · exact h
  · rename_i hk
    rw [List.nodup_append]
    refine ⟨h, by simp, ?_⟩
    intro a ha b hb; simp at hb; subst hb; rintro rfl; exact hk ha

theorem nodup_ddel {d : Dict κ ν} (h : (dkeys d).Nodup) (k : κ) : (dkeys (ddel d k)).Nodup := by
  unfold dkeys ddel at *
  exact (List.Sublist.map _ (List.filter_sublist)).nodup h

theorem mem_dkeys_ddel {d : Dict κ ν} {k x : κ} : x ∈ dkeys (ddel d k) ↔ x ∈ dkeys d ∧ x ≠ k := by
  simp only [dkeys, ddel, List.mem_map, List.mem_filter, Bool.not_eq_true', decide_eq_false_iff_not]
  constructor
  · rintro ⟨e, ⟨h1, h2⟩, rfl⟩; exact ⟨⟨e, h1, rfl⟩, h2⟩
  · rintro ⟨⟨e, h1, rfl⟩, h2⟩; exact ⟨e, ⟨h1, h2⟩, rfl⟩

theorem dget_dupdate (d e : Dict κ ν) (hn : (dkeys e).Nodup) (k : κ) :
    dget (dupdate d e) k = (dget e k).or (dget d k) := by
  induction e generalizing d with
  | nil => simp [dupdate, dget]
  | cons x e ih =>
    obtain ⟨a, b⟩ := x
    simp only [dkeys, List.map_cons, List.nodup_cons] at hn
    simp only [dupdate, List.foldl_cons] at *
    rw [ih _ hn.2, dget_dset]
    simp only [dget]
    split
    · subst_vars
      have : dget e a = none := (dget_none_iff e a).mpr hn.1
      simp [this]
    · rfl

theorem nodup_dupdate {d e : Dict κ ν} (h : (dkeys d).Nodup) : (dkeys (dupdate d e)).Nodup := by
  induction e generalizing d with
  | nil => exact h
  | cons x e ih => exact ih (nodup_dset h _ _)

theorem dset_absent {d : Dict κ ν} {k : κ} (v : ν) (h : k ∉ dkeys d) : dset d k v = d ++ [(k, v)] := by
  induction d with
  | nil => rfl
  | cons e d ih =>
    obtain ⟨a, b⟩ := e
    simp only [dkeys, List.map_cons, List.mem_cons, not_or] at h
    simp only [dset]
    rw [if_neg (fun he => h.1 he.symm), ih h.2]; rfl

theorem ddel_absent {d : Dict κ ν} {k : κ} (h : k ∉ dkeys d) : ddel d k = d := by
  unfold ddel
  rw [List.filter_eq_self]
  intro e he
  simp only [Bool.not_eq_true', decide_eq_false_iff_not]
  rintro rfl; exact h (List.mem_map.mpr ⟨e, he, rfl⟩)

theorem ddel_dset_absent {d : Dict κ ν} {k : κ} (v : ν) (h : k ∉ dkeys d) : ddel (dset d k v) k = d := by
  rw [dset_absent v h]
  have : ddel (d ++ [(k, v)]) k = ddel d k := by simp [ddel]
  rw [this, ddel_absent h]

end Verif
