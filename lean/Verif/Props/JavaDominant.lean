import Verif.Model.JavaSweep
import Verif.Props.Dominant
/-
C92: DominantRight of the Java library.
-/
namespace Verif
set_option linter.unusedSimpArgs false

section
variable {ι : Type}

theorem jdomMarks_eq (t : Seg ι) : jdomMarks t = [startMark t, stopMark t] := by
  unfold jdomMarks startMark stopMark lastPos
  split <;> rfl

theorem jdomMarks_dom (t : Seg ι) : jdomMarks t = domMarks t := by rw [jdomMarks_eq, domMarks_eq]

/-- a longer segment that ended before this one and was not selected -/
def Phantom (segs sel : List (Seg ι)) (t : Seg ι) : Prop :=
  ∃ u ∈ segs, u ∉ sel ∧ Spec.LeftOf u t ∧ t.stop - t.start < u.stop - u.start

theorem jdomLoop_start_none (t : Seg ι) (r) : jdomLoop (startMark t :: r) none = jdomLoop r (some t) := rfl
theorem jdomLoop_stop_none (t : Seg ι) (r) : jdomLoop (stopMark t :: r) none = jdomLoop r (some t) := rfl
theorem jdomLoop_start_some (t o : Seg ι) (r) : jdomLoop (startMark t :: r) (some o) =
    jdomLoop r (if t.stop - t.start ≥ o.stop - o.start then some t else some o) := rfl
theorem jdomLoop_stop_some (t o : Seg ι) (r) : jdomLoop (stopMark t :: r) (some o) =
    if o.obj = t.obj then t :: jdomLoop r none else jdomLoop r (some o) := rfl

theorem jdomLoop_correct (segs : List (Seg ι)) (evs : List ((Int × Int) × Seg ι)) (hev : Marks segs evs)
    (hle : ∀ t ∈ segs, t.start ≤ t.stop) (hobj : ∀ t ∈ segs, ∀ u ∈ segs, t.obj = u.obj → t = u)
    (todo : List ((Int × Int) × Seg ι)) :
    ∀ (done : List ((Int × Int) × Seg ι)) (opened : Option (Seg ι)) (out : List (Seg ι)), evs = done ++ todo →
      (∀ x ∈ out, stopMark x ∈ done) →
      (∀ u, opened = some u → u ∈ segs ∧ startMark u ∈ done ∧ u ∉ out) →
      (∀ x ∈ jdomLoop todo opened, x ∈ segs ∧ stopMark x ∈ todo ∧ (opened = some x ∨ startMark x ∈ todo)) ∧
      (jdomLoop todo opened).Pairwise Spec.LeftOf ∧
      (∀ t ∈ segs, (startMark t ∈ todo ∨ (opened = some t ∧ stopMark t ∉ done)) →
        t ∈ jdomLoop todo opened ∨ Rejected segs t ∨ Phantom segs (out ++ jdomLoop todo opened) t) := by
  induction todo with
  | nil =>
    intro done opened out he hout ho
    refine ⟨by simp [jdomLoop], by simp [jdomLoop], ?_⟩
    rintro t ht (h | ⟨h, h'⟩)
    · simp at h
    · have hm : stopMark t ∈ evs := (hev.mem _).2 ⟨t, ht, Or.inr rfl⟩
      rw [he] at hm
      simp at hm
      exact absurd hm h'
  | cons m todo ih =>
    intro done opened out he hout ho
    have hsort := hev.sorted
    have hnd := hev.nodup
    rw [he] at hsort hnd
    have hbefore : ∀ x ∈ done, keyLe x.1 m.1 = true := fun x hx =>
      (List.pairwise_append.1 hsort).2.2 x hx m (by simp)
    have hafter : ∀ x ∈ todo, keyLe m.1 x.1 = true := fun x hx =>
      (List.pairwise_cons.1 (List.pairwise_append.1 hsort).2.1).1 x hx
    have hmdone : m ∉ done := fun h => (List.nodup_append.1 hnd).2.2 m h m (by simp) rfl
    have hmtodo : m ∉ todo := (List.nodup_cons.1 (List.nodup_append.1 hnd).2.1).1
    have hdt : ∀ x ∈ done, x ∉ todo := fun x h h' => (List.nodup_append.1 hnd).2.2 x h x (List.mem_cons_of_mem _ h') rfl
    have hmem : m ∈ evs := by rw [he]; simp
    have he' : evs = (done ++ [m]) ++ todo := by rw [he]; simp
    have hrest : ∀ x ∈ evs, x ∉ done → x = m ∨ x ∈ todo := by
      intro x hx hxd
      rw [he] at hx
      rcases List.mem_append.1 hx with h | h
      · exact absurd h hxd
      · exact List.mem_cons.1 h
    have hout' : ∀ x ∈ out, stopMark x ∈ done ++ [m] := fun x hx => List.mem_append_left _ (hout x hx)
    obtain ⟨t, ht, hm⟩ := (hev.mem m).1 hmem
    rcases hm with rfl | rfl
    · -- a start mark
      have hnostop : stopMark t ∉ done ++ [startMark t] := by
        intro h
        rcases List.mem_append.1 h with h | h
        · have := hbefore _ h
          rw [keyLe_iff] at this
          simp only [stopMark, startMark] at this
          have := (occupies_iff (hle t ht) t.start).1 ⟨Int.le_refl _, Or.inr rfl⟩
          omega
        · simp only [List.mem_singleton] at h
          exact stop_ne_start _ _ h
      have htout : t ∉ out := fun h => hnostop (hout' t h)
      -- opening `t`
      have hopen := ih (done ++ [startMark t]) (some t) out he' hout' (by
        rintro u hu; cases hu; exact ⟨ht, by simp, htout⟩)
      have hb1 : ∀ x ∈ jdomLoop todo (some t), x ∈ segs ∧ stopMark x ∈ startMark t :: todo ∧
          (opened = some x ∨ startMark x ∈ startMark t :: todo) := by
        intro x hx
        obtain ⟨a, b, c⟩ := hopen.1 x hx
        refine ⟨a, List.mem_cons_of_mem _ b, Or.inr ?_⟩
        rcases c with c | c
        · cases c; simp
        · exact List.mem_cons_of_mem _ c
      have hb3 : ∀ u ∈ segs, startMark u ∈ startMark t :: todo →
          u ∈ jdomLoop todo (some t) ∨ Rejected segs u ∨ Phantom segs (out ++ jdomLoop todo (some t)) u := by
        intro u hu h
        rcases List.mem_cons.1 h with h | h
        · have : u = t := congrArg Prod.snd h
          exact hopen.2.2 u hu (Or.inr (by rw [this]; exact ⟨rfl, hnostop⟩))
        · exact hopen.2.2 u hu (Or.inl h)
      cases opened with
      | none =>
        rw [jdomLoop_start_none]
        refine ⟨hb1, hopen.2.1, ?_⟩
        rintro u hu (h | ⟨h, _⟩)
        · exact hb3 u hu h
        · simp at h
      | some o =>
        obtain ⟨hos, hod, hoo⟩ := ho o rfl
        have hot : o ≠ t := by rintro rfl; exact hmdone hod
        have hbo := hbefore _ hod
        rw [keyLe_iff] at hbo
        simp only [startMark] at hbo
        have hpt : Spec.Occupies t t.start := ⟨Int.le_refl _, Or.inr rfl⟩
        -- while the stop mark is to come, the open segment reaches the start of the new one
        have hover : stopMark o ∉ done → Spec.Occupies o t.start := by
          intro hoe
          refine (occupies_iff (hle o hos) _).2 ?_
          have h2 : stopMark o ∈ todo := by
            rcases hrest (stopMark o) ((hev.mem _).2 ⟨o, hos, Or.inr rfl⟩) hoe with h | h
            · exact absurd h (stop_ne_start _ _)
            · exact h
          have h3 := hafter _ h2
          rw [keyLe_iff] at h3
          simp only [stopMark, startMark] at h3
          omega
        rw [jdomLoop_start_some]
        by_cases hlen : t.stop - t.start ≥ o.stop - o.start
        · rw [if_pos hlen]
          refine ⟨hb1, hopen.2.1, ?_⟩
          rintro u hu (h | ⟨h, hue⟩)
          · exact hb3 u hu h
          · cases h
            refine Or.inr (Or.inl ⟨t, ht, fun h => hot h.symm, ⟨t.start, hover hue, hpt⟩, ?_⟩)
            exact beats_of hev (by rw [he]; exact sublist_pair hod) (by omega) hlen
        · rw [if_neg hlen]
          obtain ⟨h1, h2, h3⟩ := ih (done ++ [startMark t]) (some o) out he' hout' (by
            rintro u hu; cases hu
            exact ⟨hos, by simp [hod], hoo⟩)
          refine ⟨fun x hx => ?_, h2, ?_⟩
          · obtain ⟨a, b, c⟩ := h1 x hx
            refine ⟨a, List.mem_cons_of_mem _ b, ?_⟩
            rcases c with c | c
            · exact Or.inl c
            · exact Or.inr (List.mem_cons_of_mem _ c)
          · rintro u hu (h | ⟨h, hue⟩)
            · rcases List.mem_cons.1 h with h | h
              · have : u = t := congrArg Prod.snd h
                subst this
                by_cases hoe : stopMark o ∈ done
                · refine Or.inr (Or.inr ⟨o, hos, ?_, ?_, by omega⟩)
                  · intro hmem'
                    rcases List.mem_append.1 hmem' with h | h
                    · exact hoo h
                    · exact hdt _ hoe (h1 o h).2.1
                  · intro p q hp hq
                    have hk := hbefore _ hoe
                    rw [keyLe_iff] at hk
                    simp only [stopMark, startMark] at hk
                    have := ((occupies_iff (hle o hos) p).1 hp).2
                    have := hq.1
                    omega
                · refine Or.inr (Or.inl ⟨o, hos, hot, ⟨u.start, hpt, hover hoe⟩, ?_⟩)
                  exact .inl (by omega)
              · exact h3 u hu (Or.inl h)
            · cases h
              refine h3 _ hu (Or.inr ⟨rfl, fun h => ?_⟩)
              rcases List.mem_append.1 h with h | h
              · exact hue h
              · simp only [List.mem_singleton] at h
                exact stop_ne_start _ _ h
    · -- a stop mark
      have hnew : ∀ u, startMark u ∈ stopMark t :: todo → startMark u ∈ todo := by
        intro u h
        rcases List.mem_cons.1 h with h | h
        · exact absurd h.symm (stop_ne_start _ _)
        · exact h
      have hstart : startMark t ∈ done := by
        have : startMark t ∈ evs := (hev.mem _).2 ⟨t, ht, Or.inl rfl⟩
        rw [he] at this
        rcases List.mem_append.1 this with h | h
        · exact h
        · have h := hafter _ (hnew t h)
          rw [keyLe_iff] at h
          simp only [stopMark, startMark] at h
          have := (occupies_iff (hle t ht) t.start).1 ⟨Int.le_refl _, Or.inr rfl⟩
          omega
      have htout : t ∉ out := fun h => hmdone (hout t h)
      cases opened with
      | none =>
        rw [jdomLoop_stop_none]
        obtain ⟨h1, h2, h3⟩ := ih (done ++ [stopMark t]) (some t) out he' hout' (by
          rintro u hu; cases hu; exact ⟨ht, by simp [hstart], htout⟩)
        refine ⟨fun x hx => ?_, h2, ?_⟩
        · obtain ⟨a, b, c⟩ := h1 x hx
          refine ⟨a, List.mem_cons_of_mem _ b, Or.inr ?_⟩
          rcases c with c | c
          · cases c; exact absurd b hmtodo
          · exact List.mem_cons_of_mem _ c
        · rintro u hu (h | ⟨h, _⟩)
          · exact h3 u hu (Or.inl (hnew u h))
          · simp at h
      | some o =>
        obtain ⟨hos, hod, hoo⟩ := ho o rfl
        rw [jdomLoop_stop_some]
        by_cases hot : o.obj = t.obj
        · have := hobj o hos t ht hot
          subst this
          rw [if_pos rfl]
          obtain ⟨h1, h2, h3⟩ := ih (done ++ [stopMark o]) none (out ++ [o]) he' (by
            intro x hx
            rcases List.mem_append.1 hx with h | h
            · exact hout' x h
            · simp only [List.mem_singleton] at h
              subst h; simp) (by simp)
          refine ⟨fun x hx => ?_, List.pairwise_cons.2 ⟨fun x hx => ?_, h2⟩, ?_⟩
          · rcases List.mem_cons.1 hx with rfl | hx
            · exact ⟨hos, by simp, Or.inl rfl⟩
            · obtain ⟨a, b, c⟩ := h1 x hx
              refine ⟨a, List.mem_cons_of_mem _ b, ?_⟩
              rcases c with c | c
              · simp at c
              · exact Or.inr (List.mem_cons_of_mem _ c)
          · obtain ⟨a, b, c⟩ := h1 x hx
            have c : startMark x ∈ todo := by
              rcases c with c | c
              · simp at c
              · exact c
            have hk := hafter _ c
            rw [keyLe_iff] at hk
            simp only [stopMark, startMark] at hk
            intro p q hp hq
            have := ((occupies_iff (hle o hos) p).1 hp).2
            have := hq.1
            omega
          · rintro u hu (h | ⟨h, _⟩)
            · rcases h3 u hu (Or.inl (hnew u h)) with h | h | h
              · exact Or.inl (List.mem_cons_of_mem _ h)
              · exact Or.inr (Or.inl h)
              · refine Or.inr (Or.inr ?_)
                simpa using h
            · cases h; exact Or.inl (by simp)
        · rw [if_neg hot]
          obtain ⟨h1, h2, h3⟩ := ih (done ++ [stopMark t]) (some o) out he' hout' (by
            rintro u hu; cases hu
            exact ⟨hos, by simp [hod], hoo⟩)
          refine ⟨fun x hx => ?_, h2, ?_⟩
          · obtain ⟨a, b, c⟩ := h1 x hx
            refine ⟨a, List.mem_cons_of_mem _ b, ?_⟩
            rcases c with c | c
            · exact Or.inl c
            · exact Or.inr (List.mem_cons_of_mem _ c)
          · rintro u hu (h | ⟨h, hue⟩)
            · exact h3 u hu (Or.inl (hnew u h))
            · cases h
              refine h3 _ hu (Or.inr ⟨rfl, fun h => ?_⟩)
              rcases List.mem_append.1 h with h | h
              · exact hue h
              · simp only [List.mem_singleton] at h
                have : o = t := congrArg Prod.snd h
                exact hot (by rw [this])

theorem obj_inj {segs : List (Seg ι)} (hobj : (segs.map (·.obj)).Nodup) : ∀ t ∈ segs, ∀ u ∈ segs, t.obj = u.obj → t = u := by
  intro t ht u hu he
  obtain ⟨i, hi, rfl⟩ := List.mem_iff_getElem.1 ht
  obtain ⟨j, hj, rfl⟩ := List.mem_iff_getElem.1 hu
  have : i = j := (List.getElem_inj (i := i) (j := j) (h₀ := by simpa using hi) (h₁ := by simpa using hj) hobj).1 (by simpa using he)
  subst this; rfl

theorem jmarks {segs : List (Seg ι)} (hobj : (segs.map (·.obj)).Nodup) : Marks segs (sortByKey (segs.flatMap jdomMarks)) := by
  have : segs.flatMap jdomMarks = segs.flatMap domMarks := by congr 1; funext t; exact jdomMarks_dom t
  refine ⟨fun m => ?_, ?_, sortByKey_sorted _, fun t u h hs => marks_stable segs t u h (by rw [this] at hs; exact hs)⟩
  · rw [(sortByKey_perm _).mem_iff, List.mem_flatMap]
    simp [jdomMarks_eq]
  · rw [this]
    exact (sortByKey_perm _).nodup_iff.2 (domMarks_nodup segs hobj)

/-- C92. For distinct segments with start ≤ stop, `DominantRight.resolve` selects segments of the input, in order from left
to right without overlaps. A segment that is not selected overlaps another one that is longer, or equally long and
further right, or the same span given later — or a longer segment ended before it and was itself not selected. Missing: without the second reason
(`C92_full_false`). -/
theorem C92_dominant_right_partial (segs : List (Seg ι)) (hobj : (segs.map (·.obj)).Nodup)
    (hle : ∀ t ∈ segs, t.start ≤ t.stop) :
    ∃ sel : List (Seg ι), jDominantRight segs = sel.map (·.item) ∧
      (∀ t ∈ sel, t ∈ segs) ∧
      sel.Pairwise Spec.LeftOf ∧
      (∀ t ∈ segs, t ∉ sel → (∃ u ∈ segs, u ≠ t ∧ Spec.Overlap t u ∧ Spec.Beats segs u t) ∨
        ∃ u ∈ segs, u ∉ sel ∧ Spec.LeftOf u t ∧ t.stop - t.start < u.stop - u.start) := by
  have hev := jmarks hobj
  obtain ⟨h1, h2, h3⟩ := jdomLoop_correct segs _ hev hle (obj_inj hobj) _ [] none [] rfl (by simp) (by simp)
  refine ⟨_, rfl, fun t ht => (h1 t ht).1, h2, fun t ht hn => ?_⟩
  rcases h3 t ht (Or.inl ((hev.mem _).2 ⟨t, ht, Or.inl rfl⟩)) with h | h | h
  · exact absurd h hn
  · exact .inl h
  · exact .inr h

namespace Spec

/-- every position of `u` is one of `t`, and `t` goes on after it -/
def Within (u t : Seg ι) : Prop := (∀ p, Occupies u p → Occupies t p) ∧ ∃ p, Occupies t p ∧ ∀ q, Occupies u q → q < p

/-- of two segments that overlap, one is within the other -/
def Nested (segs : List (Seg ι)) : Prop := ∀ t ∈ segs, ∀ u ∈ segs, t ≠ u → Overlap t u → Within t u ∨ Within u t

end Spec

theorem jdomLoop_nested (segs : List (Seg ι)) (evs : List ((Int × Int) × Seg ι)) (hev : Marks segs evs)
    (hle : ∀ t ∈ segs, t.start ≤ t.stop) (hobj : ∀ t ∈ segs, ∀ u ∈ segs, t.obj = u.obj → t = u) (hn : Spec.Nested segs)
    (todo : List ((Int × Int) × Seg ι)) :
    ∀ (done : List ((Int × Int) × Seg ι)) (opened : Option (Seg ι)), evs = done ++ todo →
      (opened = none → ∀ v ∈ segs, startMark v ∈ done → stopMark v ∈ done) →
      (∀ o, opened = some o → o ∈ segs ∧ startMark o ∈ done ∧ stopMark o ∉ done ∧
        ∀ v ∈ segs, startMark v ∈ done → stopMark v ∉ done → v.stop - v.start ≤ o.stop - o.start) →
      jdomLoop todo opened = domLoop todo opened := by
  induction todo with
  | nil => intros; rfl
  | cons m todo ih =>
    intro done opened he hnone hsome
    have hsort := hev.sorted
    have hnd := hev.nodup
    rw [he] at hsort hnd
    have hbefore : ∀ x ∈ done, keyLe x.1 m.1 = true := fun x hx =>
      (List.pairwise_append.1 hsort).2.2 x hx m (by simp)
    have hafter : ∀ x ∈ todo, keyLe m.1 x.1 = true := fun x hx =>
      (List.pairwise_cons.1 (List.pairwise_append.1 hsort).2.1).1 x hx
    have hmdone : m ∉ done := fun h => (List.nodup_append.1 hnd).2.2 m h m (by simp) rfl
    have hmem : m ∈ evs := by rw [he]; simp
    have he' : evs = (done ++ [m]) ++ todo := by rw [he]; simp
    have hrest : ∀ x ∈ evs, x ∉ done → x = m ∨ x ∈ todo := by
      intro x hx hxd
      rw [he] at hx
      rcases List.mem_append.1 hx with h | h
      · exact absurd h hxd
      · exact List.mem_cons.1 h
    obtain ⟨t, ht, hm⟩ := (hev.mem m).1 hmem
    have hself : t.start ≤ lastPos t := ((occupies_iff (hle t ht) t.start).1 ⟨Int.le_refl _, Or.inr rfl⟩).2
    rcases hm with rfl | rfl
    · have hnostop : stopMark t ∉ done ++ [startMark t] := by
        intro h
        rcases List.mem_append.1 h with h | h
        · have := hbefore _ h
          rw [keyLe_iff] at this
          simp only [stopMark, startMark] at this
          omega
        · simp only [List.mem_singleton] at h
          exact stop_ne_start _ _ h
      have hold : ∀ v : Seg ι, startMark v ∈ done ++ [startMark t] → v ≠ t → startMark v ∈ done := by
        intro v h hv
        rcases List.mem_append.1 h with h | h
        · exact h
        · simp only [List.mem_singleton] at h
          exact absurd (congrArg Prod.snd h) hv
      cases opened with
      | none =>
        rw [jdomLoop_start_none, ih _ _ he' (by simp)]
        · simp [domLoop, startMark]
        · rintro o ho; cases ho
          refine ⟨ht, by simp, hnostop, fun v hv h1 h2 => ?_⟩
          by_cases hvt : v = t
          · rw [hvt]; omega
          · exact absurd (List.mem_append_left _ (hnone rfl v hv (hold v h1 hvt))) h2
      | some o =>
        obtain ⟨hos, hod, hoe, hmax⟩ := hsome o rfl
        have hmax' : ∀ v ∈ segs, v ≠ t → startMark v ∈ done ++ [startMark t] → stopMark v ∉ done ++ [startMark t] →
            v.stop - v.start ≤ o.stop - o.start := fun v hv hvt h1 h2 =>
          hmax v hv (hold v h1 hvt) (fun h => h2 (List.mem_append_left _ h))
        rw [jdomLoop_start_some]
        by_cases hlen : t.stop - t.start ≥ o.stop - o.start
        · rw [if_pos hlen, ih _ _ he' (by simp)]
          · have : o.stop - o.start ≤ t.stop - t.start := hlen
            simp [domLoop, startMark, this]
          · rintro o' ho; cases ho
            refine ⟨ht, by simp, hnostop, fun v hv h1 h2 => ?_⟩
            by_cases hvt : v = t
            · rw [hvt]; omega
            · have := hmax' v hv hvt h1 h2; omega
        · rw [if_neg hlen, ih _ _ he' (by simp)]
          · have : ¬ o.stop - o.start ≤ t.stop - t.start := hlen
            simp [domLoop, startMark, this]
          · rintro o' ho; cases ho
            refine ⟨hos, by simp [hod], ?_, fun v hv h1 h2 => ?_⟩
            · intro h
              rcases List.mem_append.1 h with h | h
              · exact hoe h
              · simp only [List.mem_singleton] at h
                exact stop_ne_start _ _ h
            · by_cases hvt : v = t
              · rw [hvt]; omega
              · exact hmax' v hv hvt h1 h2
    · have hnew : ∀ u, startMark u ∈ stopMark t :: todo → startMark u ∈ todo := by
        intro u h
        rcases List.mem_cons.1 h with h | h
        · exact absurd h.symm (stop_ne_start _ _)
        · exact h
      have hstart : startMark t ∈ done := by
        have : startMark t ∈ evs := (hev.mem _).2 ⟨t, ht, Or.inl rfl⟩
        rw [he] at this
        rcases List.mem_append.1 this with h | h
        · exact h
        · have h := hafter _ (hnew t h)
          rw [keyLe_iff] at h
          simp only [stopMark, startMark] at h
          omega
      have hold : ∀ v : Seg ι, startMark v ∈ done ++ [stopMark t] → startMark v ∈ done := by
        intro v h
        rcases List.mem_append.1 h with h | h
        · exact h
        · simp only [List.mem_singleton] at h
          exact absurd h.symm (stop_ne_start _ _)
      cases opened with
      | none => exact absurd (hnone rfl t ht hstart) hmdone
      | some o =>
        obtain ⟨hos, hod, hoe, hmax⟩ := hsome o rfl
        rw [jdomLoop_stop_some]
        by_cases hot : o.obj = t.obj
        · have := hobj o hos t ht hot
          subst this
          rw [if_pos rfl, ih _ _ he' ?_ (by simp)]
          · simp [domLoop, stopMark]
          · intro _ v hv h1
            have h1 := hold v h1
            by_cases hve : stopMark v ∈ done
            · exact List.mem_append_left _ hve
            by_cases hvo : v = o
            · rw [hvo]; simp
            exfalso
            have hlen := hmax v hv h1 hve
            have k1 := hbefore _ h1
            have k2 : stopMark v ∈ todo := by
              rcases hrest (stopMark v) ((hev.mem _).2 ⟨v, hv, Or.inr rfl⟩) hve with h | h
              · exact absurd (congrArg Prod.snd h) hvo
              · exact h
            have k2 := hafter _ k2
            rw [keyLe_iff] at k1 k2
            simp only [stopMark, startMark] at k1 k2
            have o1 : Spec.Occupies o (lastPos o) := (occupies_iff (hle o hos) _).2 ⟨by omega, by omega⟩
            have o2 : Spec.Occupies v (lastPos o) := (occupies_iff (hle v hv) _).2 ⟨by omega, by omega⟩
            have o3 : Spec.Occupies v (lastPos v) := (occupies_iff (hle v hv) _).2 ⟨by omega, by omega⟩
            rcases hn v hv o hos hvo ⟨_, o2, o1⟩ with ⟨w1, p, w2, w3⟩ | ⟨w1, p, w2, w3⟩
            · have a1 := ((occupies_iff (hle o hos) p).1 w2).2
              have a2 := w3 _ o2
              omega
            · have a1 := w1 o.start ⟨Int.le_refl _, Or.inr rfl⟩
              have a1 := a1.1
              have a2 := ((occupies_iff (hle v hv) p).1 w2).2
              have a3 := w3 _ o1
              have l1 := hle o hos
              have l2 := hle v hv
              unfold lastPos at a2 a3
              split at a2 <;> split at a3 <;> omega
        · rw [if_neg hot, ih _ _ he' (by simp)]
          · simp [domLoop, stopMark, hot]
          · rintro o' ho; cases ho
            refine ⟨hos, by simp [hod], ?_, fun v hv h1 h2 => ?_⟩
            · intro h
              rcases List.mem_append.1 h with h | h
              · exact hoe h
              · simp only [List.mem_singleton] at h
                have : o = t := congrArg Prod.snd h
                exact hot (by rw [this])
            · exact hmax v hv (hold v h1) (fun h => h2 (List.mem_append_left _ h))

/-- C92: if of two segments that overlap one is always within the other, the selection is that of the Python library
(`C53_dominant_right`). -/
theorem C92_nested_partial (segs : List (Seg ι)) (hobj : (segs.map (·.obj)).Nodup)
    (hle : ∀ t ∈ segs, t.start ≤ t.stop) (hn : Spec.Nested segs) : jDominantRight segs = dominantRight segs := by
  have hev := jmarks hobj
  have h := jdomLoop_nested segs _ hev hle (obj_inj hobj) hn _ [] none rfl (by simp) (by simp)
  unfold jDominantRight dominantRight
  rw [h]
  have : segs.flatMap jdomMarks = segs.flatMap domMarks := by congr 1; funext t; exact jdomMarks_dom t
  rw [this]

end

namespace Ex

/-- [0,10) and [5,12) overlap, [15,17) is on its own -/
def jsegs : List (Seg String) := [⟨0, 0, 10, "a"⟩, ⟨1, 5, 12, "b"⟩, ⟨2, 15, 17, "c"⟩]

example : dominantRight jsegs = ["a", "c"] := by decide
example : jDominantRight jsegs = ["a"] := by decide
example : (jsegs.map (·.obj)).Nodup ∧ ∀ t ∈ jsegs, t.start ≤ t.stop := by decide

/-- [0,10) with [2,5) and [3,4) in it, then [10,12) -/
def jnested : List (Seg String) := [⟨0, 3, 4, "c"⟩, ⟨1, 0, 10, "a"⟩, ⟨2, 2, 5, "b"⟩, ⟨3, 10, 12, "d"⟩]

example : jDominantRight jnested = ["a", "d"] := by decide
example : (jnested.map (·.obj)).Nodup ∧ ∀ t ∈ jnested, t.start ≤ t.stop := by decide

theorem within_of {t u : Seg String} (h : t.start < t.stop ∧ u.start ≤ t.start ∧ t.stop < u.stop) : Spec.Within t u := by
  refine ⟨fun p hp => ?_, u.stop - 1, ?_, fun q hq => ?_⟩ <;> simp only [Spec.Occupies] at * <;> omega

theorem apart_of {t u : Seg String} (h : t.start < t.stop ∧ u.start < u.stop ∧ (t.stop ≤ u.start ∨ u.stop ≤ t.start)) :
    ¬ Spec.Overlap t u := by
  rintro ⟨p, hp, hq⟩
  simp only [Spec.Occupies] at *
  omega

example : Spec.Nested jnested := by
  intro t ht u hu hne ho
  have key : ∀ t ∈ jnested, ∀ u ∈ jnested, t ≠ u →
      (t.start < t.stop ∧ u.start ≤ t.start ∧ t.stop < u.stop) ∨ (u.start < u.stop ∧ t.start ≤ u.start ∧ u.stop < t.stop) ∨
      (t.start < t.stop ∧ u.start < u.stop ∧ (t.stop ≤ u.start ∨ u.stop ≤ t.start)) := by decide
  rcases key t ht u hu hne with h | h | h
  · exact .inl (within_of h)
  · exact .inr (within_of h)
  · exact absurd ho (apart_of h)

end Ex

/-- C92 is false as it stands for Python (C53): a segment that overlaps nothing is not selected, because the end of an
earlier one, not selected either, opens that one again (DominantRight.java:88-90). -/
theorem C92_full_false : ∃ segs : List (Seg String), (segs.map (·.obj)).Nodup ∧ (segs.map (·.item)).Nodup ∧
    (∀ t ∈ segs, t.start ≤ t.stop) ∧
    ∃ t ∈ segs, (∀ u ∈ segs, u ≠ t → ¬ Spec.Overlap t u) ∧ t.item ∉ jDominantRight segs ∧ t.item ∈ dominantRight segs := by
  refine ⟨Ex.jsegs, by decide, by decide, by decide, ⟨2, 15, 17, "c"⟩, by decide, ?_, by decide, by decide⟩
  intro u hu hne
  simp only [Ex.jsegs, List.mem_cons, List.not_mem_nil, or_false] at hu
  rcases hu with rfl | rfl | rfl
  · exact Ex.apart_of (by decide)
  · exact Ex.apart_of (by decide)
  · exact absurd rfl hne

/-! ### nodes -/

namespace Spec

/-- the field of the node holds a span from `a` to `b` -/
def JSpanAt (d : JDoc) (n : Nat) (field : Str) (a b : Int) : Prop :=
  ∃ c s t, dget (d.data n) field = some (.span c s) ∧ dget d.texts c = some t ∧ t.start s = a ∧ t.stop s = b

end Spec

open JDoc

theorem bounds_at {d : JDoc} {n : Nat} {f : Str} {a b : Int} (h : Spec.JSpanAt d n f a b) : d.bounds n f = .ok (some (a, b)) := by
  obtain ⟨c, s, t, h1, h2, h3, h4⟩ := h
  simp [bounds, h1, h2, h3, h4]

theorem jdomSegments_spec (d : JDoc) (field : Str) (sp : Nat → Int × Int) (ns : List Nat) :
    ∀ (k : Nat), (∀ n ∈ ns, Spec.JSpanAt d n field (sp n).1 (sp n).2) →
    d.domSegments field k ns = .ok (ns.zipIdx k |>.map (fun e => ⟨e.2, (sp e.1).1, (sp e.1).2, e.1⟩)) := by
  induction ns with
  | nil => intro k _; rfl
  | cons n ns ih =>
    intro k h
    simp only [domSegments, bounds_at (h n (by simp)), ih (k + 1) (fun m hm => h m (List.mem_cons_of_mem _ hm)),
      List.zipIdx_cons, List.map_cons]

theorem jidSegments_spec (d : JDoc) (field : Str) (lr : Nat → Nat × Nat) (ns : List Nat) :
    ∀ (k : Nat), (∀ n ∈ ns, dget (d.data n) field = some (.nodespan (lr n).1 (lr n).2)) →
    d.idSegments field k ns = .ok (ns.zipIdx k |>.map (fun e => ⟨e.2, d.ids (lr e.1).1, d.ids (lr e.1).2 + 1, e.1⟩)) := by
  induction ns with
  | nil => intro k _; rfl
  | cons n ns ih =>
    intro k h
    simp only [idSegments, h n (by simp), ih (k + 1) (fun m hm => h m (List.mem_cons_of_mem _ hm)),
      List.zipIdx_cons, List.map_cons]

/-- the segments of distinct nodes -/
def jsegsOf (sp : Nat → Int × Int) (ns : List Nat) : List (Seg Nat) := ns.zipIdx.map (fun e => ⟨e.2, (sp e.1).1, (sp e.1).2, e.1⟩)

theorem jsegsOf_obj (sp : Nat → Int × Int) (ns : List Nat) : ((jsegsOf sp ns).map (·.obj)).Nodup := by
  have : (jsegsOf sp ns).map (·.obj) = List.range' 0 ns.length := by
    unfold jsegsOf
    rw [List.map_map, ← List.zipIdx_map_snd]
    rfl
  rw [this]
  exact List.nodup_range'

theorem jsegsOf_mem {sp : Nat → Int × Int} {ns : List Nat} {s : Seg Nat} (h : s ∈ jsegsOf sp ns) :
    s.item ∈ ns ∧ s.start = (sp s.item).1 ∧ s.stop = (sp s.item).2 := by
  obtain ⟨⟨n, k⟩, h1, rfl⟩ := List.mem_map.1 h
  exact ⟨List.fst_mem_of_mem_zipIdx h1, rfl, rfl⟩

namespace Spec

/-- the segment from `(sp n).1` to `(sp n).2` -/
def nodeSeg (sp : Nat → Int × Int) (n : Nat) : Seg Nat := ⟨0, (sp n).1, (sp n).2, n⟩

/-- what is promised of the nodes selected -/
structure JSelected (sp : Nat → Int × Int) (ns sel : List Nat) : Prop where
  input : ∀ n ∈ sel, n ∈ ns
  order : sel.Pairwise (fun a b => LeftOf (nodeSeg sp a) (nodeSeg sp b))
  rejected : ∀ n ∈ ns, n ∉ sel → (∃ m ∈ ns, m ≠ n ∧ Overlap (nodeSeg sp n) (nodeSeg sp m) ∧ Beats (ns.map (nodeSeg sp)) (nodeSeg sp m) (nodeSeg sp n)) ∨
    ∃ m ∈ ns, m ∉ sel ∧ LeftOf (nodeSeg sp m) (nodeSeg sp n) ∧ (sp n).2 - (sp n).1 < (sp m).2 - (sp m).1

end Spec

theorem jselected (sp : Nat → Int × Int) {ns : List Nat} (hn : ns.Nodup) (hle : ∀ n ∈ ns, (sp n).1 ≤ (sp n).2) :
    Spec.JSelected sp ns (jDominantRight (jsegsOf sp ns)) := by
  obtain ⟨sel, h1, h2, h3, h4⟩ := C92_dominant_right_partial (jsegsOf sp ns) (jsegsOf_obj sp ns) (by
    intro t ht
    obtain ⟨a, b, c⟩ := jsegsOf_mem ht
    rw [b, c]; exact hle _ a)
  have occ : ∀ s ∈ jsegsOf sp ns, ∀ p, Spec.Occupies (Spec.nodeSeg sp s.item) p ↔ Spec.Occupies s p := by
    intro s hs p
    obtain ⟨_, b, c⟩ := jsegsOf_mem hs
    simp only [Spec.Occupies, Spec.nodeSeg, b, c]
  have hmap : (jsegsOf sp ns).map (·.item) = ns := by
    unfold jsegsOf
    rw [List.map_map]
    exact List.zipIdx_map_fst 0 ns
  have hinj : ∀ s ∈ jsegsOf sp ns, ∀ s' ∈ jsegsOf sp ns, s.item = s'.item → s = s' := by
    intro s hs s' hs' he
    have hnd : ((jsegsOf sp ns).map (·.item)).Nodup := by rw [hmap]; exact hn
    obtain ⟨i, hi, rfl⟩ := List.mem_iff_getElem.1 hs
    obtain ⟨j, hj, rfl⟩ := List.mem_iff_getElem.1 hs'
    have : i = j := (List.getElem_inj (i := i) (j := j) (h₀ := by simpa using hi) (h₁ := by simpa using hj) hnd).1 (by simpa using he)
    subst this; rfl
  have hex : ∀ n ∈ ns, ∃ s ∈ jsegsOf sp ns, s.item = n := by
    intro n hn
    obtain ⟨i, hi, rfl⟩ := List.mem_iff_getElem.1 hn
    exact ⟨_, List.mem_map.2 ⟨(ns[i], i), by simpa [List.mk_mem_zipIdx_iff_getElem?] using hi, rfl⟩, rfl⟩
  rw [h1]
  refine ⟨?_, ?_, ?_⟩
  · intro n hn
    obtain ⟨s, hs, rfl⟩ := List.mem_map.1 hn
    exact (jsegsOf_mem (h2 s hs)).1
  · rw [List.pairwise_map]
    refine h3.imp_of_mem ?_
    intro a b ha hb hab p q hp hq
    exact hab p q ((occ a (h2 a ha) p).1 hp) ((occ b (h2 b hb) q).1 hq)
  · intro n hn hns
    obtain ⟨t, ht, rfl⟩ := hex n hn
    have ⟨_, t1, t2⟩ := jsegsOf_mem ht
    rcases h4 t ht (fun h => hns (List.mem_map.2 ⟨t, h, rfl⟩)) with ⟨u, hu, hne, ⟨p, hp, hq⟩, hb⟩ | ⟨u, hu, hnu, hl, hlen⟩
    · obtain ⟨u0, u1, u2⟩ := jsegsOf_mem hu
      refine .inl ⟨u.item, u0, fun h => hne (hinj u hu t ht h), ⟨p, (occ t ht p).2 hp, (occ u hu p).2 hq⟩, ?_⟩
      simp only [Spec.Beats, Spec.nodeSeg, ← t1, ← t2, ← u1, ← u2] at hb ⊢
      refine hb.imp id (fun ⟨b1, b2⟩ => ⟨b1, b2.imp id (fun ⟨b3, b4⟩ => ⟨b3, ?_⟩)⟩)
      have b5 := b4.map (·.item)
      rw [hmap] at b5
      have b6 := b5.map (Spec.nodeSeg sp)
      simpa only [List.map_cons, List.map_nil, Spec.nodeSeg, ← t1, ← t2, ← u1, ← u2] using b6
    · obtain ⟨u0, u1, u2⟩ := jsegsOf_mem hu
      refine .inr ⟨u.item, u0, ?_, ?_, ?_⟩
      · intro h
        obtain ⟨u', hu', he⟩ := List.mem_map.1 h
        exact hnu (hinj u' (h2 u' hu') u hu he ▸ hu')
      · intro p q hp hq
        exact hl p q ((occ u hu p).1 hp) ((occ t ht q).1 hq)
      · rw [← t1, ← t2, ← u1, ← u2]; exact hlen

/-- C92 for nodes: `resolve(nodes, field)` of distinct nodes that all have a span in the field selects among the nodes as
described. -/
theorem C92_nodes_partial {d : JDoc} {ns : List Nat} {field : Str} {sp : Nat → Int × Int} (hn : ns.Nodup)
    (hs : ∀ n ∈ ns, Spec.JSpanAt d n field (sp n).1 (sp n).2) (hle : ∀ n ∈ ns, (sp n).1 ≤ (sp n).2) :
    ∃ sel, d.dominantRight ns field = .ok sel ∧ Spec.JSelected sp ns sel :=
  ⟨_, by simp only [JDoc.dominantRight, jdomSegments_spec d field sp ns 0 hs]; rfl, jselected sp hn hle⟩

/-- C92 for nodes with node spans: `resolveNodespans` selects by the ids of their nodes, the left one to the right one
inclusive. -/
theorem C92_nodespans_partial {d : JDoc} {ns : List Nat} {field : Str} {lr : Nat → Nat × Nat} (hn : ns.Nodup)
    (hs : ∀ n ∈ ns, dget (d.data n) field = some (.nodespan (lr n).1 (lr n).2))
    (hle : ∀ n ∈ ns, d.ids (lr n).1 ≤ d.ids (lr n).2) :
    ∃ sel, d.dominantNodespans ns field = .ok sel ∧ Spec.JSelected (fun n => (d.ids (lr n).1, d.ids (lr n).2 + 1)) ns sel :=
  ⟨_, by simp only [JDoc.dominantNodespans, jidSegments_spec d field lr ns 0 hs]; rfl,
    jselected (fun n => (d.ids (lr n).1, d.ids (lr n).2 + 1)) hn (fun n h => by have := hle n h; show _ ≤ _ + 1; omega)⟩

/-- C92: where some node has no value in the field, and the others have spans, `resolve(nodes, field)` is
NullPointerException; `dominant_right_span` leaves such nodes out. -/
theorem C92_unset {d : JDoc} {ns : List Nat} {field : Str}
    (hs : ∀ n ∈ ns, dget (d.data n) field = none ∨ ∃ a b, Spec.JSpanAt d n field a b)
    {m : Nat} (hm : m ∈ ns) (hu : dget (d.data m) field = none) : d.dominantRight ns field = .error .attribute := by
  have : ∀ k, d.domSegments field k ns = .error .attribute := by
    induction ns with
    | nil => cases hm
    | cons n ns ih =>
      intro k
      rcases hs n (by simp) with h | ⟨a, b, h⟩
      · simp [domSegments, bounds, h]
      · have hm' : m ∈ ns := by
          rcases List.mem_cons.1 hm with rfl | h'
          · obtain ⟨c, s, t, h1, _⟩ := h
            rw [hu] at h1; cases h1
          · exact h'
        simp only [domSegments, bounds_at h, ih (fun n hn => hs n (List.mem_cons_of_mem _ hn)) hm' (k + 1)]
  simp only [JDoc.dominantRight, this]

namespace Ex

/-- a text of 20 units; nodes 0 [0,10), 1 [5,12), 2 [15,17), 3 unset; 4 with a node span from 0 to 1, 5 from 2 to 2 -/
def jdomDoc : JDoc :=
  { JDoc.new with
    texts := [("t".toList, ⟨List.replicate 20 97, true, [⟨0, 0, 0⟩, ⟨0, 10, 0⟩, ⟨0, 5, 0⟩, ⟨0, 12, 0⟩, ⟨0, 15, 0⟩, ⟨0, 17, 0⟩], []⟩)]
    ids := fun n => n
    data := fun n => match n with
      | 0 => [("s".toList, .span "t".toList (0, 1))]
      | 1 => [("s".toList, .span "t".toList (2, 3))]
      | 2 => [("s".toList, .span "t".toList (4, 5))]
      | 4 => [("s".toList, .nodespan 0 1)]
      | 5 => [("s".toList, .nodespan 1 2)]
      | _ => [] }

def jdomSp : Nat → Int × Int
  | 0 => (0, 10) | 1 => (5, 12) | _ => (15, 17)

example : ([2, 0, 1].Nodup) ∧ (∀ n ∈ [2, 0, 1], Spec.JSpanAt jdomDoc n "s".toList (jdomSp n).1 (jdomSp n).2) := by
  refine ⟨by decide, ?_⟩
  intro n hn
  simp only [List.mem_cons, List.not_mem_nil, or_false] at hn
  rcases hn with rfl | rfl | rfl
  · exact ⟨"t".toList, (4, 5), _, rfl, rfl, rfl, rfl⟩
  · exact ⟨"t".toList, (0, 1), _, rfl, rfl, rfl, rfl⟩
  · exact ⟨"t".toList, (2, 3), _, rfl, rfl, rfl, rfl⟩

example : jdomDoc.dominantRight [2, 0, 1] "s".toList = .ok [0] := by decide
example : jdomDoc.dominantRight [2, 0] "s".toList = .ok [0, 2] := by decide
example : jdomDoc.dominantRight [2, 3, 1] "s".toList = .error .attribute := by decide
example : jdomDoc.dominantNodespans [4, 5] "s".toList = .ok [5] := by decide
example : jdomDoc.dominantRight [4] "s".toList = .error .notImplemented := by decide

end Ex

end Verif
