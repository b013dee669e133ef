import Verif.Proof.BuildDoc
/-
Decoded documents satisfy the invariants, whatever was decoded.
-/
set_option linter.unusedSimpArgs false
namespace Verif
open World

theorem zipSet_nodup {α : Type} (f : Str) (g : α → Except PyErr (Option Value)) (ds : List (Dict Str Value)) :
    ∀ (cs : List α) (out), zipSet f g ds cs = .ok out → (∀ d ∈ ds, (dkeys d).Nodup) → ∀ d ∈ out, (dkeys d).Nodup := by
  induction ds with
  | nil =>
    intro cs out h _
    cases cs <;> · simp only [zipSet] at h; cases h; simp
  | cons d ds ih =>
    intro cs out h hd
    cases cs with
    | nil => simp only [zipSet] at h; cases h; exact hd
    | cons c cs =>
      simp only [zipSet] at h
      split at h
      · cases h
      · split at h
        · cases h
        · rename_i rest hr
          cases h
          intro d' hd'
          simp only [List.mem_cons] at hd'
          rcases hd' with rfl | hd'
          · split
            · exact hd d (by simp)
            · exact nodup_dset (hd d (by simp)) _ _
          · exact ih cs rest hr (fun d hd' => hd d (by simp [hd'])) d' hd'

theorem decodeCol_nodup {nested tab f t data nodes out} (h : decodeCol nested tab f t data nodes = .ok out)
    (hd : ∀ d ∈ nodes, (dkeys d).Nodup) : ∀ d ∈ out, (dkeys d).Nodup := by
  unfold decodeCol at h
  split at h
  · split at h
    · cases h
    · cases h
    · split at h
      · cases h; exact hd
      · exact zipSet_nodup _ _ _ _ _ h hd
    · cases h; exact hd
  · split at h
    · cases h
    · exact zipSet_nodup _ _ _ _ _ h hd
  · exact zipSet_nodup _ _ _ _ _ h hd

theorem decodeCols_nodup {nested tab} (cols) : ∀ {nodes out}, decodeCols nested tab cols nodes = .ok out →
    (∀ d ∈ nodes, (dkeys d).Nodup) → ∀ d ∈ out, (dkeys d).Nodup := by
  induction cols with
  | nil => intro nodes out h hd; simp only [decodeCols] at h; cases h; exact hd
  | cons c cols ih =>
    intro nodes out h hd
    obtain ⟨f, t, data⟩ := c
    simp only [decodeCols] at h
    split at h
    · cases h
    · rename_i n' hn
      exact ih h (decodeCol_nodup hn hd)

theorem mapE_forall {α β : Type} {f : α → Except PyErr β} {l : List α} {l'} (h : mapE f l = .ok l') {P : β → Prop}
    (hp : ∀ x ∈ l, ∀ y, f x = .ok y → P y) : ∀ y ∈ l', P y := by
  intro y hy
  obtain ⟨h1, h2⟩ := mapE_inv h
  obtain ⟨i, hi, rfl⟩ := List.getElem_of_mem hy
  exact hp _ (List.getElem_mem (by omega)) _ (h2 i (by omega) hi)

theorem resolveCol_nodup {all f t nodes out} (h : resolveCol all f t nodes = .ok out)
    (hd : ∀ d ∈ nodes, (dkeys d).Nodup) : ∀ d ∈ out, (dkeys d).Nodup := by
  have key : ∀ target : List NodeId, mapE (fun d => match dget d f with
          | none => .ok d
          | some v =>
            match resolveCell target t.tname v with
            | .ok v' => .ok (dset d f v')
            | .error e => .error e) nodes = .ok out → ∀ d ∈ out, (dkeys d).Nodup := by
    intro target h
    refine mapE_forall h (fun d hm y hy => ?_)
    split at hy
    · cases hy; exact hd d hm
    · split at hy
      · cases hy; exact nodup_dset (hd d hm) _ _
      · cases hy
  unfold resolveCol at h
  have : (∃ target : List NodeId, mapE (fun d => match dget d f with
          | none => .ok d
          | some v =>
            match resolveCell target t.tname v with
            | .ok v' => .ok (dset d f v')
            | .error e => .error e) nodes = .ok out) ∨ out = nodes := by
    split at h
    case h_4 => cases h; exact .inr rfl
    all_goals
      split at h
      · cases h
      · cases h
      · split at h
        · cases h
        · rename_i target _
          exact .inl ⟨target, h⟩
      · cases h
  rcases this with ⟨target, h⟩ | rfl
  · exact key target h
  · exact hd

theorem resolveCols_nodup {all} (fs) : ∀ {nodes out}, resolveCols all fs nodes = .ok out →
    (∀ d ∈ nodes, (dkeys d).Nodup) → ∀ d ∈ out, (dkeys d).Nodup := by
  induction fs with
  | nil => intro nodes out h hd; simp only [resolveCols] at h; cases h; exact hd
  | cons c cols ih =>
    intro nodes out h hd
    obtain ⟨f, t⟩ := c
    simp only [resolveCols] at h
    split at h
    · cases h
    · rename_i n' hn
      exact ih h (resolveCol_nodup hn hd)

theorem mapE_names {α β : Type} {f : α → Except PyErr β} {l : List α} {l'} (h : mapE f l = .ok l') (p : α → Str) (q : β → Str)
    (hpq : ∀ x y, f x = .ok y → q y = p x) : l'.map q = l.map p := by
  obtain ⟨h1, h2⟩ := mapE_inv h
  apply List.ext_getElem
  · simpa using h1
  · intro i hi hi'
    simp only [List.getElem_map]
    exact hpq _ _ (h2 i (by simpa using hi') (by simpa using hi))

theorem fromWireN_started {nested} {x : Wire} {w : World} (h : fromWireN nested x = .ok w) : Inv w ∧ WF w := by
  unfold fromWireN at h
  split at h
  · cases h
  rename_i hn
  simp only [not_or, Decidable.not_not] at hn
  split at h
  · cases h
  rename_i schema hschema
  split at h
  · cases h
  rename_i ls hls
  split at h
  · cases h
  rename_i ls' hls'
  cases h
  refine ⟨build_inv, build_wf ⟨?_, hn.2.1, ?_, ?_, ?_⟩⟩
  · have e1 := mapE_names hls' (·.name) (·.name) (fun l y hy => by
      unfold resolveLayer at hy; split at hy; cases hy; cases hy; rfl)
    have e2 := mapE_names hls (·.1) (·.name) (fun l y hy => by
      unfold decodeLayer at hy; split at hy; cases hy; cases hy; rfl)
    have e3 := mapE_names hschema (·.1) (·.1) (fun l y hy => by
      unfold decodeSchema at hy; split at hy; cases hy
      split at hy
      · cases hy; rfl
      · cases hy)
    rw [e1, e2, e3]; exact hn.1
  · have := hn.2.2
    simpa [dkeys, Function.comp_def] using this
  · have h1 : ∀ s ∈ schema, (s.2.1.map (·.1)).Nodup := mapE_forall hschema (fun l _ y hy => by
      unfold decodeSchema at hy; split at hy; cases hy
      split at hy
      · rename_i hnd; cases hy; exact hnd
      · cases hy)
    have h2 : ∀ l ∈ ls, (dkeys l.fields).Nodup := mapE_forall hls (fun s hs y hy => by
      unfold decodeLayer at hy; split at hy; cases hy; cases hy
      have := h1 s hs
      simpa [dkeys, Function.comp_def] using this)
    exact mapE_forall hls' (fun l hl y hy => by
      unfold resolveLayer at hy; split at hy; cases hy; cases hy; exact h2 l hl)
  · have h2 : ∀ l ∈ ls, ∀ d ∈ l.recs, (dkeys d).Nodup := mapE_forall hls (fun s hs y hy => by
      unfold decodeLayer at hy; split at hy; cases hy
      rename_i hr
      cases hy
      exact decodeCols_nodup _ hr (fun d hd => by rw [List.eq_of_mem_replicate hd]; simp [dkeys]))
    exact mapE_forall hls' (fun l hl y hy => by
      unfold resolveLayer at hy; split at hy; cases hy
      rename_i hr
      cases hy
      exact resolveCols_nodup _ hr (h2 l hl))

theorem fromWire_started {x : Wire} {w : World} (h : fromWire x = .ok w) : Inv w ∧ WF w := fromWireN_started h

theorem started_inv {w : World} (h : Started w) : Inv w := by
  rcases h with rfl | ⟨x, h⟩
  · exact inv_empty
  · exact (fromWire_started h).1

theorem started_wf {w : World} (h : Started w) : WF w := by
  rcases h with rfl | ⟨x, h⟩
  · exact wf_empty
  · exact (fromWire_started h).2

theorem hist_wf {w0 h w} (h0 : WF w0) (hh : Hist w0 h w) : WF w := by
  induction hh with
  | nil => exact h0
  | snoc _ ha ih => exact wf_step ih _ ha

theorem Reachable.wf {w : World} (h : Reachable w) : World.WF w :=
  have ⟨_, _, hs, hh⟩ := h
  hist_wf (started_wf hs) hh

end Verif
