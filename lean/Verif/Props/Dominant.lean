import Verif.Model.Sweep
/-
C53: dominant_right selects non-overlapping segments, longest first.
-/
namespace Verif
set_option linter.unusedSimpArgs false

namespace Spec

/-- the positions a segment takes up; an empty one takes up its own position -/
def Occupies {ι : Type} (s : Seg ι) (p : Int) : Prop := s.start ≤ p ∧ (p < s.stop ∨ p = s.start)

/-- the two segments share a position -/
def Overlap {ι : Type} (s t : Seg ι) : Prop := ∃ p, Occupies s p ∧ Occupies t p

/-- every position of `s` is left of every position of `t` -/
def LeftOf {ι : Type} (s t : Seg ι) : Prop := ∀ p q, Occupies s p → Occupies t q → p < q

/-- `u` beats `t`: it is longer, or as long and further right, or the same span and given later -/
def Beats {ι : Type} (segs : List (Seg ι)) (u t : Seg ι) : Prop :=
  t.stop - t.start < u.stop - u.start ∨ (t.stop - t.start = u.stop - u.start ∧
    (t.start < u.start ∨ (t.start = u.start ∧ [t, u].Sublist segs)))

end Spec

section
variable {ι : Type}

/-- last position of a segment -/
def lastPos (t : Seg ι) : Int := if t.start ≠ t.stop then t.stop - 1 else t.stop

/-- start mark -/
def startMark (t : Seg ι) : (Int × Int) × Seg ι := ((t.start, 0), t)
/-- stop mark -/
def stopMark (t : Seg ι) : (Int × Int) × Seg ι := ((lastPos t, 1), t)

theorem occupies_iff {t : Seg ι} (h : t.start ≤ t.stop) (p : Int) :
    Spec.Occupies t p ↔ t.start ≤ p ∧ p ≤ lastPos t := by
  unfold Spec.Occupies lastPos
  split <;> omega

theorem stop_ne_start (t u : Seg ι) : stopMark t ≠ startMark u := by
  intro h
  have := congrArg (fun x => x.1.2) h
  simp [stopMark, startMark] at this

theorem domMarks_eq (t : Seg ι) : domMarks t = [startMark t, stopMark t] := rfl

/-- what is known about the sorted marks -/
structure Marks (segs : List (Seg ι)) (evs : List ((Int × Int) × Seg ι)) : Prop where
  mem : ∀ m, m ∈ evs ↔ ∃ t ∈ segs, m = startMark t ∨ m = stopMark t
  nodup : evs.Nodup
  sorted : evs.Pairwise (fun a b => keyLe a.1 b.1 = true)
  stable : ∀ t u, t.start = u.start → [startMark t, startMark u].Sublist evs → [t, u].Sublist segs

/-- rejected by another input segment -/
def Rejected (segs : List (Seg ι)) (t : Seg ι) : Prop :=
  ∃ u ∈ segs, u ≠ t ∧ Spec.Overlap t u ∧ Spec.Beats segs u t

theorem sublist_pair {α : Type} {a b : α} {l r : List α} (h : a ∈ l) : [a, b].Sublist (l ++ b :: r) := by
  have h1 : [a].Sublist l := List.singleton_sublist.2 h
  have h2 : [b].Sublist (b :: r) := List.singleton_sublist.2 (by simp)
  exact h1.append h2

theorem beats_of {segs : List (Seg ι)} {evs : List ((Int × Int) × Seg ι)} (hev : Marks segs evs) {o t : Seg ι}
    (h : [startMark o, startMark t].Sublist evs) (hs : o.start ≤ t.start) (hlen : o.stop - o.start ≤ t.stop - t.start) :
    Spec.Beats segs t o := by
  unfold Spec.Beats
  by_cases h1 : o.stop - o.start < t.stop - t.start
  · exact .inl h1
  · refine .inr ⟨by omega, ?_⟩
    by_cases h2 : o.start < t.start
    · exact .inl h2
    · exact .inr ⟨by omega, hev.stable o t (by omega) h⟩

theorem insertKey_filter {α : Type} (x : (Int × Int) × α) (k : Int × Int) (l : List ((Int × Int) × α)) :
    (insertKey x l).filter (fun y => decide (y.1 = k)) = (x :: l).filter (fun y => decide (y.1 = k)) := by
  induction l with
  | nil => rfl
  | cons y l ih =>
    simp only [insertKey]
    split
    · rfl
    · rename_i h
      by_cases hx : x.1 = k
      · have hy : ¬ y.1 = k := by
          intro hy
          apply h
          rw [keyLe_iff, hx, hy]
          omega
        rw [List.filter_cons_of_neg (by simpa using hy), ih, List.filter_cons_of_pos (by simpa using hx),
          List.filter_cons_of_pos (by simpa using hx), List.filter_cons_of_neg (by simpa using hy)]
      · rw [List.filter_cons_of_neg (p := fun y => decide (y.1 = k)) (a := x) (by simpa using hx)] at ih ⊢
        by_cases hy : y.1 = k
        · rw [List.filter_cons_of_pos (by simpa using hy), ih, List.filter_cons_of_pos (by simpa using hy)]
        · rw [List.filter_cons_of_neg (by simpa using hy), ih, List.filter_cons_of_neg (by simpa using hy)]

/-- the sort is stable -/
theorem sortByKey_filter {α : Type} (k : Int × Int) (l : List ((Int × Int) × α)) :
    (sortByKey l).filter (fun y => decide (y.1 = k)) = l.filter (fun y => decide (y.1 = k)) := by
  induction l with
  | nil => rfl
  | cons x l ih =>
    rw [sortByKey, insertKey_filter, List.filter_cons, List.filter_cons, ih]

theorem marks_stable (segs : List (Seg ι)) (t u : Seg ι) (h : t.start = u.start)
    (hs : [startMark t, startMark u].Sublist (sortByKey (segs.flatMap (fun t => [startMark t, stopMark t])))) : [t, u].Sublist segs := by
  have h1 := hs.filter (fun y => decide (y.1 = (t.start, 0)))
  rw [sortByKey_filter, List.filter_cons_of_pos (by simp [startMark]), List.filter_cons_of_pos (by simp [startMark, h]),
    List.filter_nil] at h1
  have h2 := (h1.trans List.filter_sublist).filter (fun y => decide (y.1.2 = 0))
  rw [List.filter_cons_of_pos (by simp [startMark]), List.filter_cons_of_pos (by simp [startMark]), List.filter_nil] at h2
  have h3 := h2.map (·.2)
  have e : ((segs.flatMap (fun t => [startMark t, stopMark t])).filter (fun y => decide (y.1.2 = 0))).map (·.2) = segs := by
    clear hs h1 h2 h3
    induction segs with
    | nil => rfl
    | cons a segs ih =>
      rw [List.flatMap_cons, List.filter_append, List.map_append, ih]
      simp [startMark, stopMark]
  rw [e] at h3
  exact h3

theorem domLoop_correct (segs : List (Seg ι)) (evs : List ((Int × Int) × Seg ι)) (hev : Marks segs evs)
    (hle : ∀ t ∈ segs, t.start ≤ t.stop) (hobj : ∀ t ∈ segs, ∀ u ∈ segs, t.obj = u.obj → t = u)
    (todo : List ((Int × Int) × Seg ι)) :
    ∀ (done : List ((Int × Int) × Seg ι)) (opened : Option (Seg ι)), evs = done ++ todo →
      (∀ u, opened = some u → u ∈ segs ∧ startMark u ∈ done ∧ stopMark u ∉ done) →
      (∀ x ∈ domLoop todo opened, x ∈ segs ∧ stopMark x ∈ todo ∧ (opened = some x ∨ startMark x ∈ todo)) ∧
      (domLoop todo opened).Pairwise Spec.LeftOf ∧
      (∀ t ∈ segs, (startMark t ∈ todo ∨ opened = some t) → t ∈ domLoop todo opened ∨ Rejected segs t) := by
  induction todo with
  | nil =>
    intro done opened he ho
    refine ⟨by simp [domLoop], by simp [domLoop], ?_⟩
    rintro t ht (h | h)
    · simp at h
    · have := (ho t h).2.2
      have hm : stopMark t ∈ evs := (hev.mem _).2 ⟨t, ht, Or.inr rfl⟩
      rw [he] at hm
      simp at hm
      exact absurd hm this
  | cons m todo ih =>
    intro done opened he ho
    have hsort := hev.sorted
    have hnd := hev.nodup
    rw [he] at hsort hnd
    have hbefore : ∀ x ∈ done, keyLe x.1 m.1 = true := fun x hx =>
      (List.pairwise_append.1 hsort).2.2 x hx m (by simp)
    have hafter : ∀ x ∈ todo, keyLe m.1 x.1 = true := fun x hx =>
      (List.pairwise_cons.1 (List.pairwise_append.1 hsort).2.1).1 x hx
    have hmdone : m ∉ done := fun h => (List.nodup_append.1 hnd).2.2 m h m (by simp) rfl
    have hmem : m ∈ evs := by rw [he]; simp
    have he' : evs = (done ++ [m]) ++ todo := by rw [he]; simp
    -- a mark not yet done is the current one or still to come
    have hrest : ∀ x ∈ evs, x ∉ done → x = m ∨ x ∈ todo := by
      intro x hx hxd
      rw [he] at hx
      rcases List.mem_append.1 hx with h | h
      · exact absurd h hxd
      · exact List.mem_cons.1 h
    obtain ⟨t, ht, hm⟩ := (hev.mem m).1 hmem
    rcases hm with rfl | rfl
    · -- a start mark
      cases opened with
      | none =>
        have hstep : domLoop (startMark t :: todo) none = domLoop todo (some t) := by
          simp [domLoop, startMark]
        rw [hstep]
        obtain ⟨h1, h2, h3⟩ := ih (done ++ [startMark t]) (some t) he' (by
          rintro u hu; cases hu
          refine ⟨ht, by simp, ?_⟩
          intro h
          rcases List.mem_append.1 h with h | h
          · have := hbefore _ h
            rw [keyLe_iff] at this
            simp only [stopMark, startMark] at this
            have := (occupies_iff (hle t ht) t.start).1 ⟨Int.le_refl _, Or.inr rfl⟩
            omega
          · simp only [List.mem_singleton] at h
            exact stop_ne_start _ _ h)
        refine ⟨fun x hx => ?_, h2, ?_⟩
        · obtain ⟨a, b, c⟩ := h1 x hx
          refine ⟨a, List.mem_cons_of_mem _ b, Or.inr ?_⟩
          rcases c with c | c
          · cases c; simp
          · exact List.mem_cons_of_mem _ c
        · rintro u hu (h | h)
          · rcases List.mem_cons.1 h with h | h
            · have : u = t := congrArg Prod.snd h
              exact h3 u hu (Or.inr (by rw [this]))
            · exact h3 u hu (Or.inl h)
          · simp at h
      | some o =>
        obtain ⟨hos, hod, hoe⟩ := ho o rfl
        have hot : o ≠ t := by rintro rfl; exact hmdone hod
        -- the open segment and the new one share the start of the new one
        have hover : o.start ≤ t.start ∧ t.start ≤ lastPos o := by
          have h1 := hbefore _ hod
          have h2 : stopMark o ∈ todo := by
            rcases hrest (stopMark o) ((hev.mem _).2 ⟨o, hos, Or.inr rfl⟩) hoe with h | h
            · exact absurd h (stop_ne_start _ _)
            · exact h
          have h3 := hafter _ h2
          rw [keyLe_iff] at h1 h3
          simp only [stopMark, startMark] at h1 h3
          omega
        have hpo : Spec.Occupies o t.start := (occupies_iff (hle o hos) _).2 hover
        have hpt : Spec.Occupies t t.start := ⟨Int.le_refl _, Or.inr rfl⟩
        by_cases hlen : o.stop - o.start ≤ t.stop - t.start
        · have hstep : domLoop (startMark t :: todo) (some o) = domLoop todo (some t) := by
            simp [domLoop, startMark, hlen]
          rw [hstep]
          obtain ⟨h1, h2, h3⟩ := ih (done ++ [startMark t]) (some t) he' (by
            rintro u hu; cases hu
            refine ⟨ht, by simp, ?_⟩
            intro h
            rcases List.mem_append.1 h with h | h
            · have := hbefore _ h
              rw [keyLe_iff] at this
              simp only [stopMark, startMark] at this
              have := (occupies_iff (hle t ht) t.start).1 hpt
              omega
            · simp only [List.mem_singleton] at h
              exact stop_ne_start _ _ h)
          refine ⟨fun x hx => ?_, h2, ?_⟩
          · obtain ⟨a, b, c⟩ := h1 x hx
            refine ⟨a, List.mem_cons_of_mem _ b, Or.inr ?_⟩
            rcases c with c | c
            · cases c; simp
            · exact List.mem_cons_of_mem _ c
          · rintro u hu (h | h)
            · rcases List.mem_cons.1 h with h | h
              · have : u = t := congrArg Prod.snd h
                exact h3 u hu (Or.inr (by rw [this]))
              · exact h3 u hu (Or.inl h)
            · cases h
              refine Or.inr ⟨t, ht, fun h => hot h.symm, ⟨t.start, hpo, hpt⟩, ?_⟩
              exact beats_of hev (by rw [he]; exact sublist_pair hod) hover.1 hlen
        · have hstep : domLoop (startMark t :: todo) (some o) = domLoop todo (some o) := by
            simp [domLoop, startMark, hlen]
          rw [hstep]
          obtain ⟨h1, h2, h3⟩ := ih (done ++ [startMark t]) (some o) he' (by
            rintro u hu; cases hu
            refine ⟨hos, by simp [hod], ?_⟩
            intro h
            rcases List.mem_append.1 h with h | h
            · exact hoe h
            · simp only [List.mem_singleton] at h
              exact stop_ne_start _ _ h)
          refine ⟨fun x hx => ?_, h2, ?_⟩
          · obtain ⟨a, b, c⟩ := h1 x hx
            refine ⟨a, List.mem_cons_of_mem _ b, ?_⟩
            rcases c with c | c
            · exact Or.inl c
            · exact Or.inr (List.mem_cons_of_mem _ c)
          · rintro u hu (h | h)
            · rcases List.mem_cons.1 h with h | h
              · have : u = t := congrArg Prod.snd h
                subst this
                refine Or.inr ⟨o, hos, hot, ⟨u.start, hpt, hpo⟩, ?_⟩
                exact .inl (by omega)
              · exact h3 u hu (Or.inl h)
            · exact h3 u hu (Or.inr h)
    · -- a stop mark
      have hnew : ∀ u, startMark u ∈ stopMark t :: todo → startMark u ∈ todo := by
        intro u h
        rcases List.mem_cons.1 h with h | h
        · exact absurd h.symm (stop_ne_start _ _)
        · exact h
      cases opened with
      | none =>
        have hstep : domLoop (stopMark t :: todo) none = domLoop todo none := by
          simp [domLoop, stopMark]
        rw [hstep]
        obtain ⟨h1, h2, h3⟩ := ih (done ++ [stopMark t]) none he' (by simp)
        refine ⟨fun x hx => ?_, h2, ?_⟩
        · obtain ⟨a, b, c⟩ := h1 x hx
          refine ⟨a, List.mem_cons_of_mem _ b, ?_⟩
          rcases c with c | c
          · exact Or.inl c
          · exact Or.inr (List.mem_cons_of_mem _ c)
        · rintro u hu (h | h)
          · exact h3 u hu (Or.inl (hnew u h))
          · simp at h
      | some o =>
        obtain ⟨hos, hod, hoe⟩ := ho o rfl
        by_cases hot : o.obj = t.obj
        · have := hobj o hos t ht hot
          subst this
          have hstep : domLoop (stopMark o :: todo) (some o) = o :: domLoop todo none := by
            simp [domLoop, stopMark]
          rw [hstep]
          obtain ⟨h1, h2, h3⟩ := ih (done ++ [stopMark o]) none he' (by simp)
          refine ⟨fun x hx => ?_, List.pairwise_cons.2 ⟨fun x hx => ?_, h2⟩, ?_⟩
          · rcases List.mem_cons.1 hx with rfl | hx
            · exact ⟨hos, by simp, Or.inl rfl⟩
            · obtain ⟨a, b, c⟩ := h1 x hx
              refine ⟨a, List.mem_cons_of_mem _ b, ?_⟩
              rcases c with c | c
              · simp at c
              · exact Or.inr (List.mem_cons_of_mem _ c)
          · obtain ⟨a, b, c⟩ := h1 x hx
            have c : startMark x ∈ todo := by
              rcases c with c | c
              · simp at c
              · exact c
            have hk := hafter _ c
            rw [keyLe_iff] at hk
            simp only [stopMark, startMark] at hk
            intro p q hp hq
            have := ((occupies_iff (hle o hos) p).1 hp).2
            have := hq.1
            omega
          · rintro u hu (h | h)
            · rcases h3 u hu (Or.inl (hnew u h)) with h | h
              · exact Or.inl (List.mem_cons_of_mem _ h)
              · exact Or.inr h
            · cases h; exact Or.inl (by simp)
        · have hstep : domLoop (stopMark t :: todo) (some o) = domLoop todo (some o) := by
            simp [domLoop, stopMark, hot]
          rw [hstep]
          obtain ⟨h1, h2, h3⟩ := ih (done ++ [stopMark t]) (some o) he' (by
            rintro u hu; cases hu
            refine ⟨hos, by simp [hod], ?_⟩
            intro h
            rcases List.mem_append.1 h with h | h
            · exact hoe h
            · simp only [List.mem_singleton] at h
              have : o = t := congrArg Prod.snd h
              exact hot (by rw [this]))
          refine ⟨fun x hx => ?_, h2, ?_⟩
          · obtain ⟨a, b, c⟩ := h1 x hx
            refine ⟨a, List.mem_cons_of_mem _ b, ?_⟩
            rcases c with c | c
            · exact Or.inl c
            · exact Or.inr (List.mem_cons_of_mem _ c)
          · rintro u hu (h | h)
            · exact h3 u hu (Or.inl (hnew u h))
            · exact h3 u hu (Or.inr h)

theorem domMarks_nodup (segs : List (Seg ι)) (hobj : (segs.map (·.obj)).Nodup) :
    (segs.flatMap domMarks).Nodup := by
  induction segs with
  | nil => simp
  | cons t segs ih =>
    simp only [List.map_cons, List.nodup_cons] at hobj
    simp only [List.flatMap_cons, domMarks_eq]
    rw [List.nodup_append]
    refine ⟨?_, ih hobj.2, ?_⟩
    · simp only [List.nodup_cons, List.mem_singleton, List.not_mem_nil, not_false_eq_true, List.nodup_nil, and_true]
      exact fun h => stop_ne_start t t h.symm
    · intro a ha b hb hab
      subst hab
      obtain ⟨u, hu, hm⟩ := List.mem_flatMap.1 hb
      apply hobj.1
      have h1 : a.2 = t := by
        simp only [List.mem_cons, List.not_mem_nil, or_false] at ha
        rcases ha with rfl | rfl <;> rfl
      have h2 : a.2 = u := by
        rw [domMarks_eq] at hm
        simp only [List.mem_cons, List.not_mem_nil, or_false] at hm
        rcases hm with rfl | rfl <;> rfl
      rw [← h1, h2]
      exact List.mem_map_of_mem hu

/-- C53. For segments given by distinct tuples with start ≤ stop, `dominant_right` selects segments of the
input such that: they are in order from left to right without overlaps; each rejected segment overlaps another
input segment that is longer, or equally long and further right, or the same span given later; a segment that
overlaps nothing else is selected. -/
theorem C53_dominant_right (segs : List (Seg ι)) (hobj : (segs.map (·.obj)).Nodup)
    (hle : ∀ t ∈ segs, t.start ≤ t.stop) :
    ∃ sel : List (Seg ι), dominantRight segs = sel.map (·.item) ∧
      (∀ t ∈ sel, t ∈ segs) ∧
      sel.Pairwise Spec.LeftOf ∧
      (∀ t ∈ segs, t ∉ sel → ∃ u ∈ segs, u ≠ t ∧ Spec.Overlap t u ∧ Spec.Beats segs u t) ∧
      (∀ t ∈ segs, (∀ u ∈ segs, u ≠ t → ¬ Spec.Overlap t u) → t ∈ sel) := by
  have hinj : ∀ t ∈ segs, ∀ u ∈ segs, t.obj = u.obj → t = u := by
    intro t ht u hu he
    obtain ⟨i, hi, rfl⟩ := List.mem_iff_getElem.1 ht
    obtain ⟨j, hj, rfl⟩ := List.mem_iff_getElem.1 hu
    have : i = j := by
      have := (List.getElem_inj (i := i) (j := j) (h₀ := by simpa using hi) (h₁ := by simpa using hj) hobj).1 (by simpa using he)
      exact this
    subst this; rfl
  have hev : Marks segs (sortByKey (segs.flatMap domMarks)) := by
    refine ⟨fun m => ?_, ?_, sortByKey_sorted _, fun t u h hs => marks_stable segs t u h hs⟩
    · rw [(sortByKey_perm _).mem_iff, List.mem_flatMap]
      simp [domMarks_eq]
    · exact (sortByKey_perm _).nodup_iff.2 (domMarks_nodup segs hobj)
  obtain ⟨h1, h2, h3⟩ := domLoop_correct segs _ hev hle hinj _ [] none rfl (by simp)
  have h4 : ∀ t ∈ segs, t ∈ domLoop (sortByKey (segs.flatMap domMarks)) none ∨ Rejected segs t :=
    fun t ht => h3 t ht (Or.inl ((hev.mem _).2 ⟨t, ht, Or.inl rfl⟩))
  refine ⟨_, rfl, fun t ht => (h1 t ht).1, h2, fun t ht hn => ?_, fun t ht hfree => ?_⟩
  · rcases h4 t ht with h | h
    · exact absurd h hn
    · exact h
  · rcases h4 t ht with h | ⟨u, hu, hne, hov, _⟩
    · exact h
    · exact absurd hov (hfree u hu hne)

end

open World

theorem domSegments_spec (w : World) (field : Str) (ns : List Nat) :
    ∀ (k : Nat), (∀ n ∈ ns, ∀ v, dget (w.nodes n).fields field = some v → ∃ t a b, v = .span t a b ∧ a ≤ b) →
    ∃ segs, w.domSegments field k ns = .ok segs ∧ (∀ s ∈ segs, k ≤ s.obj ∧ s.start ≤ s.stop) ∧
      (segs.map (·.obj)).Nodup ∧
      segs.map (·.item) = ns.filter (fun n => (dget (w.nodes n).fields field).isSome) ∧
      ∀ s ∈ segs, ∃ t, dget (w.nodes s.item).fields field = some (.span t s.start s.stop) := by
  induction ns with
  | nil => intro k _; exact ⟨[], rfl, by simp, by simp, by simp, by simp⟩
  | cons n ns ih =>
    intro k h
    obtain ⟨segs, h1, h2, h3, h4, h5⟩ := ih (k + 1) (fun m hm => h m (List.mem_cons_of_mem _ hm))
    cases hd : dget (w.nodes n).fields field with
    | none =>
      refine ⟨segs, by simp [domSegments, spanBounds, hd, h1], fun s hs => ?_, h3, ?_, h5⟩
      · have := h2 s hs; exact ⟨by omega, this.2⟩
      · rw [h4, List.filter_cons_of_neg (by simp [hd])]
    | some v =>
      obtain ⟨t, a, b, rfl, hab⟩ := h n (by simp) v hd
      refine ⟨⟨k, a, b, n⟩ :: segs, by simp [domSegments, spanBounds, hd, h1], ?_, ?_, ?_, ?_⟩
      · intro s hs
        rcases List.mem_cons.1 hs with rfl | hs
        · exact ⟨Nat.le_refl _, hab⟩
        · have := h2 s hs; exact ⟨by omega, this.2⟩
      · simp only [List.map_cons, List.nodup_cons]
        refine ⟨?_, h3⟩
        simp only [List.mem_map, not_exists, not_and]
        intro s hs he
        have := (h2 s hs).1
        omega
      · rw [List.map_cons, h4, List.filter_cons_of_pos (by simp [hd])]
      · intro s hs
        rcases List.mem_cons.1 hs with rfl | hs
        · exact ⟨t, hd⟩
        · exact h5 s hs

/-- C53 for nodes: `dominant_right_span` makes one segment of every node that has the span field, ignores the
other nodes, and selects among the segments as described. -/
theorem C53_dominant_right_span (w : World) (ns : List Nat) (field : Str)
    (hspan : ∀ n ∈ ns, ∀ v, dget (w.nodes n).fields field = some v → ∃ t a b, v = .span t a b ∧ a ≤ b) :
    ∃ segs sel : List (Seg Nat), w.dominantRightSpan ns field = .ok (sel.map (·.item)) ∧
      segs.map (·.item) = ns.filter (fun n => (dget (w.nodes n).fields field).isSome) ∧
      (∀ s ∈ segs, ∃ t, dget (w.nodes s.item).fields field = some (.span t s.start s.stop)) ∧
      (∀ t ∈ sel, t ∈ segs) ∧
      sel.Pairwise Spec.LeftOf ∧
      (∀ t ∈ segs, t ∉ sel → ∃ u ∈ segs, u ≠ t ∧ Spec.Overlap t u ∧ Spec.Beats segs u t) ∧
      (∀ t ∈ segs, (∀ u ∈ segs, u ≠ t → ¬ Spec.Overlap t u) → t ∈ sel) := by
  obtain ⟨segs, h1, h2, h3, h4, h5⟩ := domSegments_spec w field ns 0 hspan
  obtain ⟨sel, g1, g2, g3, g4, g5⟩ := C53_dominant_right segs h3 (fun t ht => (h2 t ht).2)
  exact ⟨segs, sel, by simp [dominantRightSpan, h1, g1], h4, h5, g2, g3, g4, g5⟩

namespace Ex

/-- [0,4) longer than [3,6), which loses; [3,6) also overlaps [5,9), which is as long as [0,4);
an empty segment at 9 overlaps nothing; [2,4) loses. -/
def segs5 : List (Seg String) :=
  [⟨0, 3, 6, "b"⟩, ⟨1, 0, 4, "a"⟩, ⟨2, 5, 9, "c"⟩, ⟨3, 9, 9, "e"⟩, ⟨4, 2, 4, "d"⟩]

example : dominantRight segs5 = ["a", "c", "e"] := by decide
example : (segs5.map (·.obj)).Nodup ∧ ∀ t ∈ segs5, t.start ≤ t.stop := by decide
-- equal length: the one further right wins
example : dominantRight [⟨0, 0, 3, "l"⟩, ⟨1, 2, 5, "r"⟩] = ["r"] := by decide

end Ex

end Verif
