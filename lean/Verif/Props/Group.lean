import Verif.Proof.Sweep
/-
C52: group_by_span.
-/
namespace Verif
set_option linter.unusedSimpArgs false
open World

namespace Spec
namespace Grp

/-- position `p` belongs to the span; an empty span occupies the position it is at -/
def Has (s : Int × Int) (p : Int) : Prop := (s.1 ≤ p ∧ p < s.2) ∨ (s.1 = s.2 ∧ p = s.1)

/-- two spans share a position -/
def Meet (s t : Int × Int) : Prop := ∃ p, Has s p ∧ Has t p

/-- the field of the node is unset, or holds the span -/
def SpanAt (w : World) (n : Nat) (field : Str) : Option (Int × Int) → Prop
  | none => dget (w.nodes n).fields field = none
  | some s => (∃ t, dget (w.nodes n).fields field = some (.span t s.1 s.2)) ∧ s.1 ≤ s.2

/-- the span field of layer `l`: the one in the dictionary, or "text" without a dictionary -/
def FieldName (lf : Option (Dict Str Str)) (l f : Str) : Prop :=
  match lf with
  | none => f = "text".toList
  | some d => dget d l = some f

/-- A call of `group_by_span`: distinct group nodes with spans `gspan`, and layers of distinct nodes with spans
`lspan` in the field named for the layer. -/
structure Input (w : World) (groups : List Nat) (layers : Dict Str (List Nat)) (gf : Str)
    (lf : Option (Dict Str Str)) (gspan : Nat → Option (Int × Int)) (lspan : Str → Nat → Option (Int × Int)) :
    Prop where
  gnodup : groups.Nodup
  lnodup : (layers.map (·.1)).Nodup
  nnodup : ∀ l ns, (l, ns) ∈ layers → ns.Nodup
  group : ∀ g ∈ groups, SpanAt w g gf (gspan g)
  node : ∀ l ns, (l, ns) ∈ layers → ∃ f, FieldName lf l f ∧
    ∀ n ∈ ns, SpanAt w n f (lspan l n)

/-- node `n` of layer `l` belongs in the group of `g` -/
def Belongs (cover : Bool) (gspan : Nat → Option (Int × Int)) (lspan : Str → Nat → Option (Int × Int))
    (g : Nat) (l : Str) (n : Nat) : Prop :=
  ∃ s t, gspan g = some s ∧ lspan l n = some t ∧ Meet s t ∧ (cover = true → s.1 ≤ t.1 ∧ t.2 ≤ s.2)

end Grp
end Spec

/-! ### marks of items -/

/-- an item of the sweep: group node or layer node -/
abbrev GItem := Option Str × Nat

def gStart (sp : GItem → Int × Int) (x : GItem) : Mark :=
  if (sp x).1 = (sp x).2 then (((sp x).1, 3), x) else match x.1 with
    | none => (((sp x).1, 0), x)
    | some _ => (((sp x).1, 1), x)
def gStop (sp : GItem → Int × Int) (x : GItem) : Mark :=
  if (sp x).1 = (sp x).2 then (((sp x).2, 4), x) else match x.1 with
    | none => (((sp x).2, -2), x)
    | some _ => (((sp x).2, -1), x)

theorem spanMarks_eq (sp : GItem → Int × Int) (l : Option Str) (n : Nat) :
    spanMarks l n (sp (l, n)) = [gStart sp (l, n), gStop sp (l, n)] := by
  unfold spanMarks gStart gStop
  split
  · rfl
  · cases l <;> rfl

theorem gStart_item (sp) (x : GItem) : (gStart sp x).2 = x := by
  unfold gStart; split
  · rfl
  · split <;> rfl
theorem gStop_item (sp) (x : GItem) : (gStop sp x).2 = x := by
  unfold gStop; split
  · rfl
  · split <;> rfl
theorem gStart_pos (sp) (x : GItem) : (gStart sp x).1.1 = (sp x).1 := by
  unfold gStart; split
  · rfl
  · split <;> rfl
theorem gStop_pos (sp) (x : GItem) : (gStop sp x).1.1 = (sp x).2 := by
  unfold gStop; split
  · rfl
  · split <;> rfl
theorem gStart_code (sp) (x : GItem) : ((sp x).1 = (sp x).2 ∧ (gStart sp x).1.2 = 3) ∨
    ((sp x).1 ≠ (sp x).2 ∧ 0 ≤ (gStart sp x).1.2 ∧ (gStart sp x).1.2 ≤ 1) := by
  unfold gStart; split
  · rename_i h; exact Or.inl ⟨h, rfl⟩
  · rename_i h
    refine Or.inr ⟨h, ?_⟩
    split <;> simp
theorem gStop_code (sp) (x : GItem) : ((sp x).1 = (sp x).2 ∧ (gStop sp x).1.2 = 4) ∨
    ((sp x).1 ≠ (sp x).2 ∧ -2 ≤ (gStop sp x).1.2 ∧ (gStop sp x).1.2 ≤ -1) := by
  unfold gStop; split
  · rename_i h; exact Or.inl ⟨h, rfl⟩
  · rename_i h
    refine Or.inr ⟨h, ?_⟩
    split <;> simp
theorem gStart_ne_gStop (sp) (x y : GItem) : gStart sp x ≠ gStop sp y := by
  intro h
  have h1 := gStart_code sp x
  have h2 := gStop_code sp y
  rw [h] at h1
  omega
theorem gStart_inj {sp} {x y : GItem} (h : gStart sp x = gStart sp y) : x = y := by
  rw [← gStart_item sp x, h, gStart_item]
theorem gStop_inj {sp} {x y : GItem} (h : gStop sp x = gStop sp y) : x = y := by
  rw [← gStop_item sp x, h, gStop_item]

/-- the fixed data of the sweep -/
structure GCtx (its : List GItem) (sp : GItem → Int × Int) (layers : List Str) (evs : List Mark) : Prop where
  mem : ∀ x, x ∈ evs ↔ ∃ i ∈ its, x = gStart sp i ∨ x = gStop sp i
  nodup : evs.Nodup
  sorted : evs.Pairwise (fun a b => keyLe a.1 b.1 = true)
  le : ∀ i ∈ its, (sp i).1 ≤ (sp i).2
  lay : ∀ l n, (some l, n) ∈ its → l ∈ layers
  lnodup : layers.Nodup

/-- `groupStart` of a mark: the group node it opens -/
def groupStart (m : Mark) : Option Nat :=
  if 0 ≤ m.1.2 ∧ m.1.2 < 4 then (match m.2 with | (none, g) => some g | (some _, _) => none) else none

/-- what holds between two marks -/
structure GInv (its : List GItem) (sp : GItem → Int × Int) (layers : List Str) (done : List Mark) (s : Sweep) :
    Prop where
  onodup : s.openNodes.Nodup
  onodes : ∀ l n, (l, n) ∈ s.openNodes ↔
    (some l, n) ∈ its ∧ gStart sp (some l, n) ∈ done ∧ gStop sp (some l, n) ∉ done
  gnodup : s.openGroups.Nodup
  ogroups : ∀ g, g ∈ s.openGroups ↔ (none, g) ∈ its ∧ gStart sp (none, g) ∈ done ∧ gStop sp (none, g) ∉ done
  keys : s.gl.reverse.map (·.1) = done.filterMap groupStart
  buckets : ∀ g d, (g, d) ∈ s.gl → d.map (·.1) = layers ∧ ∀ l ∈ layers, ∃ bk, dget d l = some bk ∧ bk.Nodup ∧
    ∀ n, n ∈ bk ↔ (some l, n) ∈ its ∧ gStart sp (some l, n) ∈ done ∧
      Spec.Grp.Meet (sp (none, g)) (sp (some l, n))

section
variable {its : List GItem} {sp : GItem → Int × Int} {layers : List Str} {evs : List Mark}

/-- the started items that are still open when `y` starts are the ones that meet `y` -/
theorem open_iff_meet (hc : GCtx its sp layers evs) {done todo : List Mark} {x y : GItem} (hx : x ∈ its) (hy : y ∈ its)
    (he : evs = done ++ gStart sp y :: todo) (hs : gStart sp x ∈ done) :
    gStop sp x ∉ done ↔ Spec.Grp.Meet (sp x) (sp y) := by
  obtain ⟨hb, ha, hmd, hme, hrest, _⟩ := sorted_at hc.sorted hc.nodup he
  have k1 := hb _ hs
  have c1 := gStart_code sp x
  have c2 := gStop_code sp x
  have c3 := gStart_code sp y
  have l1 := hc.le x hx
  have l2 := hc.le y hy
  rw [keyLe_iff, gStart_pos, gStart_pos] at k1
  constructor
  · intro hn
    have hin : gStop sp x ∈ todo := by
      rcases hrest (gStop sp x) ((hc.mem _).2 ⟨x, hx, Or.inr rfl⟩) hn with h | h
      · exact absurd h.symm (gStart_ne_gStop _ _ _)
      · exact h
    have k2 := ha _ hin
    rw [keyLe_iff, gStart_pos, gStop_pos] at k2
    refine ⟨(sp y).1, ?_, ?_⟩
    · unfold Spec.Grp.Has
      omega
    · unfold Spec.Grp.Has
      omega
  · rintro ⟨p, hp, hq⟩ hd
    have k2 := hb _ hd
    rw [keyLe_iff, gStart_pos, gStop_pos] at k2
    unfold Spec.Grp.Has at hp hq
    omega

theorem Meet.symm {s t : Int × Int} (h : Spec.Grp.Meet s t) : Spec.Grp.Meet t s :=
  let ⟨p, a, b⟩ := h; ⟨p, b, a⟩

/-- appending to buckets: one group -/
def app (l : Str) (n : Nat) (d : Dict Str (List Nat)) : Dict Str (List Nat) :=
  dset d l ((dget d l).getD [] ++ [n])

theorem bucketAdd_eq (g : Nat) (l : Str) (n : Nat) (gl : List Group) (hn : (gl.map (·.1)).Nodup) :
    bucketAdd g l n gl = gl.map (fun e => if e.1 = g then (e.1, app l n e.2) else e) := by
  induction gl with
  | nil => rfl
  | cons e gl ih =>
    obtain ⟨g', d⟩ := e
    simp only [List.map_cons, List.nodup_cons] at hn
    simp only [bucketAdd, List.map_cons]
    by_cases h : g' = g
    · subst h
      simp only [if_true]
      congr 1
      have : ∀ e ∈ gl, (if e.1 = g' then (e.1, app l n e.2) else e) = e := by
        intro e he
        rw [if_neg]
        intro h
        exact hn.1 (List.mem_map.2 ⟨e, he, h⟩)
      rw [List.map_congr_left this, List.map_id']
    · simp only [if_neg h, ih hn.2]

theorem foldl_bucketAdd (l : Str) (n : Nat) (gs : List Nat) : ∀ (gl : List Group), gs.Nodup →
    (gl.map (·.1)).Nodup → gs.foldl (fun gl g => bucketAdd g l n gl) gl =
      gl.map (fun e => if e.1 ∈ gs then (e.1, app l n e.2) else e) := by
  induction gs with
  | nil => intro gl _ _; simp
  | cons g gs ih =>
    intro gl h1 h2
    have hg := List.nodup_cons.1 h1
    have hk : (gl.map (fun e => if e.1 = g then (e.1, app l n e.2) else e)).map (·.1) = gl.map (·.1) := by
      rw [List.map_map]
      apply List.map_congr_left
      intro e _
      simp only [Function.comp_apply]
      split <;> rfl
    rw [List.foldl_cons, bucketAdd_eq _ _ _ _ h2, ih _ hg.2 (by rw [hk]; exact h2), List.map_map]
    apply List.map_congr_left
    intro e _
    simp only [Function.comp_apply, List.mem_cons]
    by_cases h : e.1 = g
    · rw [if_pos h, if_neg (by rw [h]; exact hg.1), if_pos (Or.inl h)]
    · rw [if_neg h]
      simp [h]

/-- the buckets of a group that opens: the open nodes by layer -/
theorem foldl_open (xs : List (Str × Nat)) : ∀ (d : Dict Str (List Nat)),
    (∀ x ∈ xs, x.1 ∈ d.map (·.1)) →
    (xs.foldl (fun d x => dset d x.1 ((dget d x.1).getD [] ++ [x.2])) d).map (·.1) = d.map (·.1) ∧
    ∀ l ∈ d.map (·.1), dget (xs.foldl (fun d x => dset d x.1 ((dget d x.1).getD [] ++ [x.2])) d) l =
      some ((dget d l).getD [] ++ (xs.filter (fun x => decide (x.1 = l))).map (·.2)) := by
  induction xs with
  | nil =>
    intro d _
    refine ⟨rfl, fun l hl => ?_⟩
    have : (dget d l).isSome := (dget_isSome_iff d l).2 hl
    obtain ⟨v, hv⟩ := Option.isSome_iff_exists.1 this
    simp [hv]
  | cons x xs ih =>
    intro d hk
    have hx : x.1 ∈ dkeys d := hk x (by simp)
    have hkeys : (dset d x.1 ((dget d x.1).getD [] ++ [x.2])).map (·.1) = d.map (·.1) := by
      have := dkeys_dset d x.1 ((dget d x.1).getD [] ++ [x.2])
      rw [if_pos hx] at this
      exact this
    obtain ⟨h1, h2⟩ := ih (dset d x.1 ((dget d x.1).getD [] ++ [x.2])) (by
      intro y hy; rw [hkeys]; exact hk y (List.mem_cons_of_mem _ hy))
    refine ⟨by rw [List.foldl_cons, h1, hkeys], fun l hl => ?_⟩
    rw [List.foldl_cons, h2 l (by rw [hkeys]; exact hl), dget_dset]
    by_cases h : x.1 = l
    · subst h
      simp
    · simp [h]

theorem groupStart_gStart (x : GItem) : groupStart (gStart sp x) = (match x with | (none, g) => some g | (some _, _) => none) := by
  have := gStart_code sp x
  unfold groupStart
  rw [if_pos (by omega), gStart_item]
  obtain ⟨o, n⟩ := x
  cases o <;> rfl

theorem groupStart_gStop (x : GItem) : groupStart (gStop sp x) = none := by
  have := gStop_code sp x
  unfold groupStart
  rw [if_neg (by omega)]

theorem mem_started (hc : GCtx its sp layers evs) {done todo : List Mark} (he : evs = done ++ todo) (g : Nat) :
    g ∈ done.filterMap groupStart ↔ (none, g) ∈ its ∧ gStart sp (none, g) ∈ done := by
  constructor
  · intro h
    obtain ⟨m, hm, hg⟩ := List.mem_filterMap.1 h
    obtain ⟨i, hi, rfl | rfl⟩ := (hc.mem m).1 (by rw [he]; exact List.mem_append_left _ hm)
    · rw [groupStart_gStart] at hg
      obtain ⟨o, n⟩ := i
      cases o with
      | none => simp only [Option.some.injEq] at hg; subst hg; exact ⟨hi, hm⟩
      | some l => simp at hg
    · rw [groupStart_gStop] at hg; simp at hg
  · rintro ⟨_, h⟩
    exact List.mem_filterMap.2 ⟨_, h, groupStart_gStart _⟩

theorem filterMap_nodup_of_inj {α β : Type} (f : α → Option β) (l : List α)
    (hf : ∀ a ∈ l, ∀ b ∈ l, ∀ y, f a = some y → f b = some y → a = b) (hn : l.Nodup) : (l.filterMap f).Nodup := by
  induction l with
  | nil => simp
  | cons a l ih =>
    have hn := List.nodup_cons.1 hn
    have ih := ih (fun x hx y hy => hf x (List.mem_cons_of_mem _ hx) y (List.mem_cons_of_mem _ hy)) hn.2
    cases h : f a with
    | none => rw [List.filterMap_cons_none h]; exact ih
    | some y =>
      rw [List.filterMap_cons_some h, List.nodup_cons]
      refine ⟨fun hm => ?_, ih⟩
      obtain ⟨b, hb, hy⟩ := List.mem_filterMap.1 hm
      have := hf a (by simp) b (List.mem_cons_of_mem _ hb) y h hy
      subst this
      exact hn.1 hb

theorem started_nodup (hc : GCtx its sp layers evs) {done todo : List Mark} (he : evs = done ++ todo) :
    (done.filterMap groupStart).Nodup := by
  apply filterMap_nodup_of_inj
  · have key : ∀ a ∈ done, ∀ y, groupStart a = some y → a = gStart sp (none, y) := by
      intro a ha y hy
      obtain ⟨i, hi, rfl | rfl⟩ := (hc.mem a).1 (by rw [he]; exact List.mem_append_left _ ha)
      · rw [groupStart_gStart] at hy
        obtain ⟨o, n⟩ := i
        cases o with
        | none => simp only [Option.some.injEq] at hy; rw [hy]
        | some l => simp at hy
      · rw [groupStart_gStop] at hy; simp at hy
    intro a ha b hb y h1 h2
    rw [key a ha y h1, key b hb y h2]
  · have := hc.nodup
    rw [he] at this
    exact (List.nodup_append.1 this).1

theorem nodup_map_on {α β : Type} {f : α → β} {l : List α} (hn : l.Nodup)
    (hf : ∀ a ∈ l, ∀ b ∈ l, f a = f b → a = b) : (l.map f).Nodup := by
  rw [← List.filterMap_eq_map]
  apply filterMap_nodup_of_inj _ _ _ hn
  intro a ha b hb y h1 h2
  simp only [Function.comp_apply, Option.some.injEq] at h1 h2
  exact hf a ha b hb (h1.trans h2.symm)

theorem nodup_snoc {α : Type} {l : List α} {a : α} (h : l.Nodup) (ha : a ∉ l) : (l ++ [a]).Nodup := by
  rw [List.nodup_append]
  refine ⟨h, by simp, ?_⟩
  intro x hx y hy e
  simp only [List.mem_singleton] at hy
  subst hy; subst e
  exact ha hx

/-- marks keep the invariant and never raise -/
theorem GInv.step (hc : GCtx its sp layers evs) {done todo : List Mark} {m : Mark} {s : Sweep}
    (he : evs = done ++ m :: todo) (h : GInv its sp layers done s) :
    ∃ s', sweepStep layers s m = .ok s' ∧ GInv its sp layers (done ++ [m]) s' := by
  obtain ⟨hb, ha, hmd, hme, hrest, he'⟩ := sorted_at hc.sorted hc.nodup he
  have hglk : (s.gl.map (·.1)).Nodup := by
    have := started_nodup hc (todo := m :: todo) he
    rw [← h.keys, List.map_reverse, (List.reverse_perm _).nodup_iff] at this
    exact this
  have hglm : ∀ g d, (g, d) ∈ s.gl → (none, g) ∈ its ∧ gStart sp (none, g) ∈ done := by
    intro g d hgd
    apply (mem_started hc (todo := m :: todo) he g).1
    rw [← h.keys]
    exact List.mem_map.2 ⟨(g, d), List.mem_reverse.2 hgd, rfl⟩
  obtain ⟨i, hi, rfl | rfl⟩ := (hc.mem m).1 hme
  · -- start
    have hcode := gStart_code sp i
    have hstop : ∀ x, gStop sp x ∈ done ++ [gStart sp i] ↔ gStop sp x ∈ done := by
      intro x
      have : gStop sp x ≠ gStart sp i := fun h => gStart_ne_gStop _ _ _ h.symm
      simp [this]
    have hstart : ∀ x, gStart sp x ∈ done ++ [gStart sp i] ↔ gStart sp x ∈ done ∨ x = i := by
      intro x
      simp only [List.mem_append, List.mem_singleton]
      constructor
      · rintro (h | h)
        · exact Or.inl h
        · exact Or.inr (gStart_inj h)
      · rintro (h | rfl)
        · exact Or.inl h
        · exact Or.inr rfl
    have hnostop : gStop sp i ∉ done := by
      intro hd
      have k := hb _ hd
      have c2 := gStop_code sp i
      have := hc.le i hi
      rw [keyLe_iff, gStart_pos, gStop_pos] at k
      omega
    obtain ⟨o, n⟩ := i
    cases o with
    | some l =>
      have hno : (l, n) ∉ s.openNodes := fun hm => hmd ((h.onodes l n).1 hm).2.1
      refine ⟨{ s with
        openNodes := s.openNodes ++ [(l, n)],
        gl := s.gl.map (fun e => if e.1 ∈ s.openGroups then (e.1, app l n e.2) else e) }, ?_, ?_⟩
      · unfold sweepStep
        rw [if_pos (by omega), gStart_item]
        simp only [if_neg hno, foldl_bucketAdd _ _ _ _ h.gnodup hglk]
      refine ⟨nodup_snoc h.onodup hno, ?_, h.gnodup, ?_, ?_, ?_⟩
      · intro l' n'
        rw [hstop, hstart, List.mem_append, List.mem_singleton, h.onodes]
        constructor
        · rintro (⟨h1, h2, h3⟩ | h1)
          · exact ⟨h1, Or.inl h2, h3⟩
          · cases h1; exact ⟨hi, Or.inr rfl, hnostop⟩
        · rintro ⟨h1, h2 | h2, h3⟩
          · exact Or.inl ⟨h1, h2, h3⟩
          · cases h2; exact Or.inr rfl
      · intro g
        rw [hstop, hstart, h.ogroups]
        simp
      · rw [List.filterMap_append]
        simp only [List.filterMap_cons, groupStart_gStart, List.filterMap_nil, List.append_nil]
        rw [← h.keys, ← List.map_reverse, List.map_map]
        apply List.map_congr_left
        intro e _
        simp only [Function.comp_apply]
        split <;> rfl
      · intro g d hgd
        obtain ⟨⟨g0, d0⟩, hm0, he0⟩ := List.mem_map.1 hgd
        obtain ⟨hg1, hg2⟩ := hglm g0 d0 hm0
        obtain ⟨hb1, hb2⟩ := h.buckets g0 d0 hm0
        have hmeet := open_iff_meet hc hg1 hi he hg2
        have hlm : l ∈ layers := hc.lay l n hi
        have hog : g0 ∈ s.openGroups ↔ Spec.Grp.Meet (sp (none, g0)) (sp (some l, n)) := by
          rw [h.ogroups, ← hmeet]
          exact ⟨fun h => h.2.2, fun h => ⟨hg1, hg2, h⟩⟩
        by_cases hopen : g0 ∈ s.openGroups
        · rw [if_pos hopen] at he0
          cases he0
          obtain ⟨bk, hbk, hbn, hbm⟩ := hb2 l hlm
          have hnb : n ∉ bk := fun hx => hmd ((hbm n).1 hx).2.1
          constructor
          · have := dkeys_dset d0 l ((dget d0 l).getD [] ++ [n])
            rw [if_pos (by show l ∈ d0.map (·.1); rw [hb1]; exact hlm)] at this
            rw [← hb1]; exact this
          · intro l' hl'
            by_cases hll : l = l'
            · subst hll
              refine ⟨bk ++ [n], by simp [app, dget_dset, hbk], nodup_snoc hbn hnb, ?_⟩
              intro n'
              rw [List.mem_append, List.mem_singleton, hbm, hstart]
              constructor
              · rintro (⟨h1, h2, h3⟩ | rfl)
                · exact ⟨h1, Or.inl h2, h3⟩
                · exact ⟨hi, Or.inr rfl, hog.1 hopen⟩
              · rintro ⟨h1, h2 | h2, h3⟩
                · exact Or.inl ⟨h1, h2, h3⟩
                · cases h2; exact Or.inr rfl
            · obtain ⟨bk', hbk', hbn', hbm'⟩ := hb2 l' hl'
              refine ⟨bk', by simp [app, dget_dset, hll, hbk'], hbn', ?_⟩
              intro n'
              rw [hbm', hstart]
              constructor
              · rintro ⟨h1, h2, h3⟩; exact ⟨h1, Or.inl h2, h3⟩
              · rintro ⟨h1, h2 | h2, h3⟩
                · exact ⟨h1, h2, h3⟩
                · cases h2; exact absurd rfl hll
        · rw [if_neg hopen] at he0
          cases he0
          refine ⟨hb1, fun l' hl' => ?_⟩
          obtain ⟨bk', hbk', hbn', hbm'⟩ := hb2 l' hl'
          refine ⟨bk', hbk', hbn', fun n' => ?_⟩
          rw [hbm', hstart]
          constructor
          · rintro ⟨h1, h2, h3⟩; exact ⟨h1, Or.inl h2, h3⟩
          · rintro ⟨h1, h2 | h2, h3⟩
            · exact ⟨h1, h2, h3⟩
            · cases h2; exact absurd (hog.2 h3) hopen
    | none =>
      have hno : n ∉ s.openGroups := fun hm => hmd ((h.ogroups n).1 hm).2.1
      refine ⟨{ s with
        gl := (n, s.openNodes.foldl (fun d x => dset d x.1 ((dget d x.1).getD [] ++ [x.2]))
          (layers.map (fun l => (l, [])))) :: s.gl,
        openGroups := s.openGroups ++ [n] }, ?_, ?_⟩
      · unfold sweepStep
        rw [if_pos (by omega), gStart_item]
        simp only [if_neg hno]
      refine ⟨h.onodup, ?_, nodup_snoc h.gnodup hno, ?_, ?_, ?_⟩
      · intro l' n'
        rw [hstop, hstart, h.onodes]
        simp
      · intro g
        rw [hstop, hstart, List.mem_append, List.mem_singleton, h.ogroups]
        constructor
        · rintro (⟨h1, h2, h3⟩ | rfl)
          · exact ⟨h1, Or.inl h2, h3⟩
          · exact ⟨hi, Or.inr rfl, hnostop⟩
        · rintro ⟨h1, h2 | h2, h3⟩
          · exact Or.inl ⟨h1, h2, h3⟩
          · cases h2; exact Or.inr rfl
      · rw [List.filterMap_append]
        simp only [List.filterMap_cons, groupStart_gStart, List.filterMap_nil, List.reverse_cons, List.map_append,
          List.map_cons, List.map_nil]
        rw [h.keys]
      · have hsame : ∀ l' n', gStart sp (some l', n') ∈ done ++ [gStart sp (none, n)] ↔
            gStart sp (some l', n') ∈ done := by
          intro l' n'
          rw [hstart]; simp
        intro g d hgd
        rcases List.mem_cons.1 hgd with hgd | hgd
        · cases hgd
          have hk0 : (layers.map (fun l => (l, ([] : List Nat)))).map (·.1) = layers := by
            rw [List.map_map]; simp [Function.comp_def]
          obtain ⟨f1, f2⟩ := foldl_open s.openNodes (layers.map (fun l => (l, []))) (by
            intro x hx
            rw [hk0]
            exact hc.lay x.1 x.2 ((h.onodes x.1 x.2).1 hx).1)
          rw [hk0] at f1 f2
          refine ⟨f1, fun l hl => ?_⟩
          have hemp : (dget (layers.map (fun l => (l, ([] : List Nat)))) l).getD [] = [] := by
            cases hd : dget (layers.map (fun l => (l, ([] : List Nat)))) l with
            | none => rfl
            | some v =>
              obtain ⟨l', _, hx⟩ := List.mem_map.1 (dget_mem hd)
              cases hx; rfl
          refine ⟨_, f2 l hl, ?_, ?_⟩
          · rw [hemp, List.nil_append]
            have hfn : (s.openNodes.filter (fun x => decide (x.1 = l))).Nodup := h.onodup.filter _
            apply nodup_map_on hfn
            intro x hx y hy hxy
            have e1 := (List.mem_filter.1 hx).2
            have e2 := (List.mem_filter.1 hy).2
            simp only [decide_eq_true_eq] at e1 e2
            exact Prod.ext (e1.trans e2.symm) hxy
          · intro n'
            rw [hemp, List.nil_append, hsame]
            have : n' ∈ (s.openNodes.filter (fun x => decide (x.1 = l))).map (·.2) ↔ (l, n') ∈ s.openNodes := by
              simp only [List.mem_map, List.mem_filter, decide_eq_true_eq]
              constructor
              · rintro ⟨⟨a, b⟩, ⟨h1, h2⟩, h3⟩
                simp only at h2 h3
                subst h2; subst h3; exact h1
              · intro hx; exact ⟨(l, n'), ⟨hx, rfl⟩, rfl⟩
            rw [this, h.onodes]
            constructor
            · rintro ⟨h1, h2, h3⟩
              exact ⟨h1, h2, Meet.symm ((open_iff_meet hc h1 hi he h2).1 h3)⟩
            · rintro ⟨h1, h2, h3⟩
              exact ⟨h1, h2, (open_iff_meet hc h1 hi he h2).2 (Meet.symm h3)⟩
        · obtain ⟨hb1, hb2⟩ := h.buckets g d hgd
          refine ⟨hb1, fun l' hl' => ?_⟩
          obtain ⟨bk', hbk', hbn', hbm'⟩ := hb2 l' hl'
          exact ⟨bk', hbk', hbn', fun n' => by rw [hbm', hsame]⟩
  · -- stop
    have hcode := gStop_code sp i
    have hstart : ∀ x, gStart sp x ∈ done ++ [gStop sp i] ↔ gStart sp x ∈ done := by
      intro x
      simp [gStart_ne_gStop sp x i]
    have hstop : ∀ x, gStop sp x ∈ done ++ [gStop sp i] ↔ gStop sp x ∈ done ∨ x = i := by
      intro x
      simp only [List.mem_append, List.mem_singleton]
      constructor
      · rintro (h | h)
        · exact Or.inl h
        · exact Or.inr (gStop_inj h)
      · rintro (h | rfl)
        · exact Or.inl h
        · exact Or.inr rfl
    have hsd : gStart sp i ∈ done := by
      by_cases hd : gStart sp i ∈ done
      · exact hd
      · rcases hrest _ ((hc.mem _).2 ⟨i, hi, Or.inl rfl⟩) hd with h1 | h1
        · exact absurd h1 (gStart_ne_gStop _ _ _)
        · have k := ha _ h1
          have c2 := gStart_code sp i
          have := hc.le i hi
          rw [keyLe_iff, gStart_pos, gStop_pos] at k
          omega
    have hkeys : s.gl.reverse.map (·.1) = (done ++ [gStop sp i]).filterMap groupStart := by
      rw [List.filterMap_append, h.keys]
      simp [groupStart_gStop]
    have hbuckets : ∀ g d, (g, d) ∈ s.gl → d.map (·.1) = layers ∧ ∀ l ∈ layers, ∃ bk, dget d l = some bk ∧ bk.Nodup ∧
        ∀ n, n ∈ bk ↔ (some l, n) ∈ its ∧ gStart sp (some l, n) ∈ done ++ [gStop sp i] ∧
          Spec.Grp.Meet (sp (none, g)) (sp (some l, n)) := by
      intro g d hgd
      obtain ⟨hb1, hb2⟩ := h.buckets g d hgd
      refine ⟨hb1, fun l' hl' => ?_⟩
      obtain ⟨bk', hbk', hbn', hbm'⟩ := hb2 l' hl'
      exact ⟨bk', hbk', hbn', fun n' => by rw [hbm', hstart]⟩
    obtain ⟨o, n⟩ := i
    cases o with
    | some l =>
      have hin : (l, n) ∈ s.openNodes := (h.onodes l n).2 ⟨hi, hsd, hmd⟩
      refine ⟨{ s with openNodes := s.openNodes.erase (l, n) }, ?_, ?_⟩
      · unfold sweepStep
        rw [if_neg (by omega), gStop_item]
        simp only [if_pos hin]
      refine ⟨h.onodup.erase _, ?_, h.gnodup, ?_, hkeys, hbuckets⟩
      · intro l' n'
        rw [hstart, hstop, h.onodup.mem_erase_iff, h.onodes]
        constructor
        · rintro ⟨h1, h2, h3, h4⟩
          refine ⟨h2, h3, ?_⟩
          rintro (h5 | h5)
          · exact h4 h5
          · cases h5; exact h1 rfl
        · rintro ⟨h1, h2, h3⟩
          exact ⟨fun h5 => by cases h5; exact h3 (Or.inr rfl), h1, h2, fun h5 => h3 (Or.inl h5)⟩
      · intro g
        rw [hstart, hstop, h.ogroups]
        simp
    | none =>
      have hin : n ∈ s.openGroups := (h.ogroups n).2 ⟨hi, hsd, hmd⟩
      refine ⟨{ s with openGroups := s.openGroups.erase n }, ?_, ?_⟩
      · unfold sweepStep
        rw [if_neg (by omega), gStop_item]
        simp only [if_pos hin]
      refine ⟨h.onodup, ?_, h.gnodup.erase _, ?_, hkeys, hbuckets⟩
      · intro l' n'
        rw [hstart, hstop, h.onodes]
        simp
      · intro g
        rw [hstart, hstop, h.gnodup.mem_erase_iff, h.ogroups]
        constructor
        · rintro ⟨h1, h2, h3, h4⟩
          refine ⟨h2, h3, ?_⟩
          rintro (h5 | h5)
          · exact h4 h5
          · cases h5; exact h1 rfl
        · rintro ⟨h1, h2, h3⟩
          exact ⟨fun h5 => by cases h5; exact h3 (Or.inr rfl), h1, h2, fun h5 => h3 (Or.inl h5)⟩

theorem GInv.loop (hc : GCtx its sp layers evs) (todo : List Mark) : ∀ {done : List Mark} {s : Sweep},
    evs = done ++ todo → GInv its sp layers done s →
    ∃ s', sweepLoop layers s todo = .ok s' ∧ GInv its sp layers evs s' := by
  induction todo with
  | nil =>
    intro done s he h
    simp only [List.append_nil] at he
    exact ⟨s, rfl, he ▸ h⟩
  | cons m todo ih =>
    intro done s he h
    obtain ⟨s1, h1, h2⟩ := h.step hc he
    obtain ⟨s2, h3, h4⟩ := ih (done := done ++ [m]) (by rw [he]; simp) h2
    exact ⟨s2, by simp only [sweepLoop, h1, h3], h4⟩

end


/-! ### the whole call -/

/-- the items with a span -/
def gItems (groups : List Nat) (layers : Dict Str (List Nat)) (gspan : Nat → Option (Int × Int))
    (lspan : Str → Nat → Option (Int × Int)) : List GItem :=
  (groups.filter (fun g => (gspan g).isSome)).map (fun g => (none, g)) ++
  layers.flatMap (fun e => (e.2.filter (fun n => (lspan e.1 n).isSome)).map (fun n => (some e.1, n)))

/-- their spans -/
def gSpan (gspan : Nat → Option (Int × Int)) (lspan : Str → Nat → Option (Int × Int)) : GItem → Int × Int
  | (none, g) => (gspan g).getD (0, 0)
  | (some l, n) => (lspan l n).getD (0, 0)

theorem spanBounds_at {w : World} {n : Nat} {f : Str} {o : Option (Int × Int)} (h : Spec.Grp.SpanAt w n f o) :
    w.spanBounds n f = .ok o := by
  cases o with
  | none => simp only [Spec.Grp.SpanAt] at h; simp [spanBounds, h]
  | some s => obtain ⟨⟨t, h⟩, _⟩ := h; simp [spanBounds, h]

theorem marksOf_eq {w : World} {l : Option Str} {f : Str} {sp : GItem → Int × Int} {o : Nat → Option (Int × Int)}
    (ho : ∀ n s, o n = some s → sp (l, n) = s) : ∀ (ns : List Nat), (∀ n ∈ ns, w.spanBounds n f = .ok (o n)) →
    w.marksOf l f ns = .ok (((ns.filter (fun n => (o n).isSome)).map (fun n => (l, n))).flatMap
      (fun x => [gStart sp x, gStop sp x]))
  | [], _ => rfl
  | n :: ns, h => by
    have ih := marksOf_eq (w := w) (f := f) ho ns (fun x hx => h x (List.mem_cons_of_mem _ hx))
    simp only [marksOf, h n (by simp), ih, List.filter_cons]
    cases hn : o n with
    | none => simp
    | some s =>
      have := ho n s hn
      subst this
      simp [spanMarks_eq]

theorem fieldFor_eq {lf : Option (Dict Str Str)} {l f : Str}
    (h : Spec.Grp.FieldName lf l f) : fieldFor lf l = .ok f := by
  cases lf with
  | none => simp only [Spec.Grp.FieldName] at h; simp [fieldFor, h]
  | some d => simp only [Spec.Grp.FieldName] at h; simp [fieldFor, h]

theorem layerMarks_eq {w : World} {lf : Option (Dict Str Str)} {gspan : Nat → Option (Int × Int)}
    {lspan : Str → Nat → Option (Int × Int)} : ∀ (layers : Dict Str (List Nat)),
    (∀ l ns, (l, ns) ∈ layers → ∃ f, Spec.Grp.FieldName lf l f ∧
      ∀ n ∈ ns, Spec.Grp.SpanAt w n f (lspan l n)) →
    w.layerMarks lf layers = .ok ((layers.flatMap
      (fun e => (e.2.filter (fun n => (lspan e.1 n).isSome)).map (fun n => ((some e.1, n) : GItem)))).flatMap
      (fun x => [gStart (gSpan gspan lspan) x, gStop (gSpan gspan lspan) x]))
  | [], _ => rfl
  | (l, ns) :: rest, h => by
    obtain ⟨f, hf, hn⟩ := h l ns (by simp)
    have ih := layerMarks_eq (gspan := gspan) rest (fun l ns hm => h l ns (List.mem_cons_of_mem _ hm))
    have hm := marksOf_eq (w := w) (l := some l) (f := f) (sp := gSpan gspan lspan) (o := lspan l)
      (by intro n s hs; simp [gSpan, hs]) ns (fun n hx => spanBounds_at (hn n hx))
    simp only [layerMarks, fieldFor_eq hf, hm, ih, List.flatMap_cons, List.flatMap_append]

theorem marks_nodup {sp : GItem → Int × Int} : ∀ (its : List GItem), its.Nodup →
    (its.flatMap (fun x => [gStart sp x, gStop sp x])).Nodup
  | [], _ => by simp
  | x :: its, h => by
    have hn := List.nodup_cons.1 h
    rw [List.flatMap_cons, List.nodup_append]
    refine ⟨by simp [gStart_ne_gStop], marks_nodup its hn.2, ?_⟩
    intro a ha b hb hab
    subst hab
    obtain ⟨y, hy, hb⟩ := List.mem_flatMap.1 hb
    simp only [List.mem_cons, List.not_mem_nil, or_false] at ha hb
    have e1 : a.2 = x := by rcases ha with rfl | rfl; exact gStart_item _ _; exact gStop_item _ _
    have e2 : a.2 = y := by rcases hb with rfl | rfl; exact gStart_item _ _; exact gStop_item _ _
    rw [e1] at e2
    subst e2
    exact hn.1 hy

theorem gItems_mem_group {groups : List Nat} {layers : Dict Str (List Nat)} {gspan lspan} (g : Nat) :
    (none, g) ∈ gItems groups layers gspan lspan ↔ g ∈ groups ∧ ∃ s, gspan g = some s := by
  simp [gItems, List.mem_flatMap, Option.isSome_iff_exists]

theorem gItems_mem_node {groups : List Nat} {layers : Dict Str (List Nat)} {gspan lspan} (l : Str) (n : Nat) :
    (some l, n) ∈ gItems groups layers gspan lspan ↔ ∃ ns, (l, ns) ∈ layers ∧ n ∈ ns ∧ ∃ s, lspan l n = some s := by
  simp only [gItems, List.mem_append, List.mem_map, List.mem_flatMap, List.mem_filter, Option.isSome_iff_exists]
  constructor
  · rintro (⟨_, _, h⟩ | ⟨⟨l', ns⟩, h1, n', ⟨h2, h3⟩, h4⟩)
    · simp at h
    · simp only [Prod.mk.injEq, Option.some.injEq] at h4
      obtain ⟨rfl, rfl⟩ := h4
      exact ⟨ns, h1, h2, h3⟩
  · rintro ⟨ns, h1, h2, h3⟩
    exact Or.inr ⟨(l, ns), h1, n, ⟨h2, h3⟩, rfl⟩

theorem gItems_nodup {groups : List Nat} {layers : Dict Str (List Nat)} {gspan lspan} (hg : groups.Nodup)
    (hl : (layers.map (·.1)).Nodup) (hn : ∀ l ns, (l, ns) ∈ layers → ns.Nodup) :
    (gItems groups layers gspan lspan).Nodup := by
  unfold gItems
  rw [List.nodup_append]
  refine ⟨nodup_map_on (hg.filter _) (by intro a _ b _ h; cases h; rfl), ?_, ?_⟩
  · induction layers with
    | nil => simp
    | cons e layers ih =>
      obtain ⟨l, ns⟩ := e
      simp only [List.map_cons, List.nodup_cons] at hl
      rw [List.flatMap_cons, List.nodup_append]
      refine ⟨nodup_map_on ((hn l ns (by simp)).filter _) (by intro a _ b _ h; cases h; rfl),
        ih hl.2 (fun l ns h => hn l ns (List.mem_cons_of_mem _ h)), ?_⟩
      intro a ha b hb hab
      subst hab
      obtain ⟨n, _, rfl⟩ := List.mem_map.1 ha
      obtain ⟨e', he', hb⟩ := List.mem_flatMap.1 hb
      obtain ⟨n', _, h⟩ := List.mem_map.1 hb
      cases h
      exact hl.1 (List.mem_map.2 ⟨e', he', rfl⟩)
  · intro a ha b hb hab
    subst hab
    obtain ⟨n, _, rfl⟩ := List.mem_map.1 ha
    obtain ⟨e', he', hb⟩ := List.mem_flatMap.1 hb
    obtain ⟨n', _, h⟩ := List.mem_map.1 hb
    cases h

/-- the groups once all marks are done -/
theorem sweep_facts {groups : List Nat} {layers : Dict Str (List Nat)} {gspan : Nat → Option (Int × Int)}
    {lspan : Str → Nat → Option (Int × Int)} {evs : List Mark} {s : Sweep} (hl0 : (layers.map (·.1)).Nodup)
    (hc : GCtx (gItems groups layers gspan lspan) (gSpan gspan lspan) (layers.map (·.1)) evs)
    (hinv : GInv (gItems groups layers gspan lspan) (gSpan gspan lspan) (layers.map (·.1)) evs s) :
    (s.gl.reverse.map (·.1)).Nodup ∧
    (∀ g, g ∈ s.gl.reverse.map (·.1) ↔ g ∈ groups ∧ ∃ b, gspan g = some b) ∧
    (s.gl.reverse.map (·.1)).Pairwise (fun g g' => ∀ b b', gspan g = some b → gspan g' = some b' → b.1 ≤ b'.1) ∧
    ∀ g d, (g, d) ∈ s.gl.reverse → d.map (·.1) = layers.map (·.1) ∧ ∀ l ns, (l, ns) ∈ layers →
      ∃ bk, dget d l = some bk ∧ bk.Nodup ∧ ∀ n, n ∈ bk ↔ n ∈ ns ∧ Spec.Grp.Belongs false gspan lspan g l n := by
  refine ⟨?_, ?_, ?_, ?_⟩
  · rw [hinv.keys]; exact started_nodup hc (todo := []) (by simp)
  · intro g
    rw [hinv.keys, mem_started hc (todo := []) (by simp)]
    rw [gItems_mem_group]
    constructor
    · exact fun h => h.1
    · exact fun h => ⟨h, (hc.mem _).2 ⟨(none, g), (gItems_mem_group g).2 h, Or.inl rfl⟩⟩
  · rw [hinv.keys, List.pairwise_filterMap]
    apply hc.sorted.imp_of_mem
    intro a b ha hb hab g hg g' hg' s s' hs hs'
    have key : ∀ m ∈ evs, ∀ g s, groupStart m = some g →
        gspan g = some s → m.1.1 = s.1 := by
      intro m hm g s hg hs
      obtain ⟨i, hi, rfl | rfl⟩ := (hc.mem m).1 hm
      · rw [groupStart_gStart] at hg
        obtain ⟨o, n⟩ := i
        cases o with
        | none =>
          simp only [Option.some.injEq] at hg
          subst hg
          rw [gStart_pos]; simp [gSpan, hs]
        | some l => simp at hg
      · rw [groupStart_gStop] at hg; simp at hg
    have k1 := key a ha g s hg hs
    have k2 := key b hb g' s' hg' hs'
    rw [keyLe_iff] at hab
    omega
  · intro g d hgd
    have hgd' := List.mem_reverse.1 hgd
    obtain ⟨h1, h2⟩ := hinv.buckets g d hgd'
    refine ⟨h1, fun l ns hl => ?_⟩
    obtain ⟨bk, hb1, hb2, hb3⟩ := h2 l (List.mem_map.2 ⟨_, hl, rfl⟩)
    refine ⟨bk, hb1, hb2, fun n => ?_⟩
    have hgm : (none, g) ∈ gItems groups layers gspan lspan := by
      have : g ∈ s.gl.reverse.map (·.1) := List.mem_map.2 ⟨_, hgd, rfl⟩
      rw [hinv.keys] at this
      exact ((mem_started hc (todo := []) (by simp) g).1 this).1
    obtain ⟨_, sg, hsg⟩ := (gItems_mem_group g).1 hgm
    rw [hb3, gItems_mem_node]
    constructor
    · rintro ⟨⟨ns', h3, h4, sn, h5⟩, _, h6⟩
      have : ns' = ns := by
        have e1 := dget_of_mem hl0 h3
        have e2 := dget_of_mem hl0 hl
        rw [e1] at e2; cases e2; rfl
      subst this
      refine ⟨h4, sg, sn, hsg, h5, ?_, by simp⟩
      simpa [gSpan, hsg, h5] using h6
    · rintro ⟨h3, sg', sn, h4, h5, h6, _⟩
      refine ⟨⟨ns, hl, h3, sn, h5⟩, ?_, ?_⟩
      · exact (hc.mem _).2 ⟨_, (gItems_mem_node l n).2 ⟨ns, hl, h3, sn, h5⟩, Or.inl rfl⟩
      · simpa [gSpan, h4, h5] using h6

/-- the groups of the sweep, before resolution and filtering -/
theorem sweep_groups {w : World} {groups : List Nat} {layers : Dict Str (List Nat)} {gf : Str}
    {lf : Option (Dict Str Str)} {gspan : Nat → Option (Int × Int)} {lspan : Str → Nat → Option (Int × Int)}
    (h : Spec.Grp.Input w groups layers gf lf gspan lspan) :
    ∃ gm lm s, w.marksOf none gf groups = .ok gm ∧ w.layerMarks lf layers = .ok lm ∧
      sweepLoop (layers.map (·.1)) ⟨[], [], []⟩ (sortByKey (gm ++ lm)) = .ok s ∧
      (s.gl.reverse.map (·.1)).Nodup ∧
      (∀ g, g ∈ s.gl.reverse.map (·.1) ↔ g ∈ groups ∧ ∃ b, gspan g = some b) ∧
      (s.gl.reverse.map (·.1)).Pairwise (fun g g' => ∀ b b', gspan g = some b → gspan g' = some b' → b.1 ≤ b'.1) ∧
      ∀ g d, (g, d) ∈ s.gl.reverse → d.map (·.1) = layers.map (·.1) ∧ ∀ l ns, (l, ns) ∈ layers →
        ∃ bk, dget d l = some bk ∧ bk.Nodup ∧ ∀ n, n ∈ bk ↔ n ∈ ns ∧ Spec.Grp.Belongs false gspan lspan g l n := by
  have hlm := layerMarks_eq (gspan := gspan) layers h.node
  have hgm := marksOf_eq (w := w) (l := none) (f := gf) (sp := gSpan gspan lspan) (o := gspan)
      (by intro n s hs; simp [gSpan, hs]) groups (fun n hx => spanBounds_at (h.group n hx))
  have hperm := sortByKey_perm (((groups.filter (fun n => (gspan n).isSome)).map (fun n => ((none, n) : GItem))).flatMap
      (fun x => [gStart (gSpan gspan lspan) x, gStop (gSpan gspan lspan) x]) ++
      (layers.flatMap
      (fun e => (e.2.filter (fun n => (lspan e.1 n).isSome)).map (fun n => ((some e.1, n) : GItem)))).flatMap
      (fun x => [gStart (gSpan gspan lspan) x, gStop (gSpan gspan lspan) x]))
  have hsort := sortByKey_sorted (((groups.filter (fun n => (gspan n).isSome)).map (fun n => ((none, n) : GItem))).flatMap
      (fun x => [gStart (gSpan gspan lspan) x, gStop (gSpan gspan lspan) x]) ++
      (layers.flatMap
      (fun e => (e.2.filter (fun n => (lspan e.1 n).isSome)).map (fun n => ((some e.1, n) : GItem)))).flatMap
      (fun x => [gStart (gSpan gspan lspan) x, gStop (gSpan gspan lspan) x]))
  rw [← List.flatMap_append] at hperm hsort
  change List.Perm _ ((gItems groups layers gspan lspan).flatMap _) at hperm
  change List.Pairwise _ (sortByKey ((gItems groups layers gspan lspan).flatMap _)) at hsort
  have hc : GCtx (gItems groups layers gspan lspan) (gSpan gspan lspan) (layers.map (·.1))
      (sortByKey ((gItems groups layers gspan lspan).flatMap
        (fun x => [gStart (gSpan gspan lspan) x, gStop (gSpan gspan lspan) x]))) := by
    refine ⟨?_, ?_, hsort, ?_, ?_, h.lnodup⟩
    · intro x
      rw [(sortByKey_perm _).mem_iff, List.mem_flatMap]
      simp
    · rw [(sortByKey_perm _).nodup_iff]
      exact marks_nodup _ (gItems_nodup h.gnodup h.lnodup h.nnodup)
    · rintro ⟨o, n⟩ hi
      cases o with
      | none =>
        obtain ⟨h1, s, h2⟩ := (gItems_mem_group n).1 hi
        have := h.group n h1
        rw [h2] at this
        simp only [gSpan, h2, Option.getD_some]
        exact this.2
      | some l =>
        obtain ⟨ns, h1, h2, s, h3⟩ := (gItems_mem_node l n).1 hi
        obtain ⟨f, _, hf⟩ := h.node l ns h1
        have := hf n h2
        rw [h3] at this
        simp only [gSpan, h3, Option.getD_some]
        exact this.2
    · intro l n hi
      obtain ⟨ns, h1, _⟩ := (gItems_mem_node l n).1 hi
      exact List.mem_map.2 ⟨_, h1, rfl⟩
  obtain ⟨s, hs, hinv⟩ := GInv.loop hc _ (done := []) (s := ⟨[], [], []⟩) rfl
    ⟨by simp, by simp, by simp, by simp, by simp, by simp⟩
  obtain ⟨f1, f2, f3, f4⟩ := sweep_facts h.lnodup hc hinv
  exact ⟨_, _, s, hgm, hlm, by rw [← List.flatMap_append]; exact hs, f1, f2, f3, f4⟩

/-- the buckets after the cover resolution -/
def covB (lspan : Str → Nat → Option (Int × Int)) (g : Int × Int) (d : Dict Str (List Nat)) : Dict Str (List Nat) :=
  d.map (fun e => (e.1, e.2.filter (fun n => isCoveredBy ((lspan e.1 n).getD (0, 0)) g)))

theorem coverFilter_eq {w : World} {f : Str} {g : Int × Int} {o : Nat → Option (Int × Int)} : ∀ (ns : List Nat),
    (∀ n ∈ ns, ∃ t, o n = some t ∧ w.spanOf! n f = .ok t) →
    w.coverFilter f g ns = .ok (ns.filter (fun n => isCoveredBy ((o n).getD (0, 0)) g))
  | [], _ => rfl
  | n :: ns, h => by
    obtain ⟨t, h1, h2⟩ := h n (by simp)
    simp only [coverFilter, h2, coverFilter_eq ns (fun x hx => h x (List.mem_cons_of_mem _ hx)), List.filter_cons, h1,
      Option.getD_some]

theorem coverBuckets_eq {w : World} {lf : Option (Dict Str Str)} {g : Int × Int}
    {lspan : Str → Nat → Option (Int × Int)} : ∀ (d : Dict Str (List Nat)),
    (∀ l bk, (l, bk) ∈ d → ∃ f, fieldFor lf l = .ok f ∧ ∀ n ∈ bk, ∃ t, lspan l n = some t ∧ w.spanOf! n f = .ok t) →
    w.coverBuckets lf g d = .ok (covB lspan g d)
  | [], _ => rfl
  | (l, bk) :: d, h => by
    obtain ⟨f, h1, h2⟩ := h l bk (by simp)
    simp only [coverBuckets, h1, coverFilter_eq bk h2,
      coverBuckets_eq d (fun l bk hm => h l bk (List.mem_cons_of_mem _ hm)), covB, List.map_cons]

theorem coverGroups_eq {w : World} {gf : Str} {lf : Option (Dict Str Str)} {gspan : Nat → Option (Int × Int)}
    {lspan : Str → Nat → Option (Int × Int)} : ∀ (gl : List Group),
    (∀ g d, (g, d) ∈ gl → (∃ s, gspan g = some s ∧ w.spanOf! g gf = .ok s) ∧
      ∀ l bk, (l, bk) ∈ d → ∃ f, fieldFor lf l = .ok f ∧ ∀ n ∈ bk, ∃ t, lspan l n = some t ∧ w.spanOf! n f = .ok t) →
    w.coverGroups gf lf gl = .ok (gl.map (fun e => (e.1, covB lspan ((gspan e.1).getD (0, 0)) e.2)))
  | [], _ => rfl
  | (g, d) :: gl, h => by
    obtain ⟨⟨s, h1, h2⟩, h3⟩ := h g d (by simp)
    simp only [coverGroups, h2, coverBuckets_eq d h3,
      coverGroups_eq gl (fun g d hm => h g d (List.mem_cons_of_mem _ hm)), List.map_cons, h1, Option.getD_some]

theorem dget_covB (lspan : Str → Nat → Option (Int × Int)) (g : Int × Int) (d : Dict Str (List Nat)) (l : Str) :
    dget (covB lspan g d) l = (dget d l).map (fun bk => bk.filter (fun n => isCoveredBy ((lspan l n).getD (0, 0)) g)) := by
  induction d with
  | nil => rfl
  | cons e d ih =>
    obtain ⟨l', bk⟩ := e
    simp only [covB, List.map_cons, dget] at ih ⊢
    split
    · rename_i h; subst h; rfl
    · exact ih

theorem nonEmptyGroup_iff (g : Group) : nonEmptyGroup g = true ↔ ∃ l bk, (l, bk) ∈ g.2 ∧ ∃ n, n ∈ bk := by
  obtain ⟨g, d⟩ := g
  simp only [nonEmptyGroup, decide_eq_true_eq]
  induction d with
  | nil => simp
  | cons e d ih =>
    obtain ⟨l, bk⟩ := e
    simp only [List.map_cons, List.sum_cons]
    constructor
    · intro h
      cases bk with
      | cons n bk => exact ⟨l, n :: bk, by simp, n, by simp⟩
      | nil =>
        obtain ⟨l', bk', h1, h2⟩ := ih.1 (by simpa using h)
        exact ⟨l', bk', List.mem_cons_of_mem _ h1, h2⟩
    · rintro ⟨l', bk', h1, n, h2⟩
      rcases List.mem_cons.1 h1 with h1 | h1
      · cases h1
        have := List.length_pos_of_mem h2
        omega
      · have := ih.2 ⟨l', bk', h1, n, h2⟩
        omega

/-- C52. `group_by_span` lists every group node that has a span exactly once, ordered by start — without
`include_empty_groups` only those that some node belongs to. The buckets of a group are the layers, in the given
order, and the bucket of a layer has exactly the nodes of that layer which belong to the group, each once. A node
belongs to a group when their spans share a position (an empty span occupies the position it is at), and for
"cover" it must also lie within the group's span. -/
theorem C52_group_by_span {w : World} {groups : List Nat} {layers : Dict Str (List Nat)} {gf : Str}
    {lf : Option (Dict Str Str)} {gspan : Nat → Option (Int × Int)} {lspan : Str → Nat → Option (Int × Int)}
    (h : Spec.Grp.Input w groups layers gf lf gspan lspan) (cover includeEmpty : Bool) :
    ∃ res, w.groupBySpan groups layers cover gf lf includeEmpty = .ok res ∧
      (res.map (·.1)).Nodup ∧
      (res.map (·.1)).Pairwise (fun g g' => ∀ b b', gspan g = some b → gspan g' = some b' → b.1 ≤ b'.1) ∧
      (∀ g, g ∈ res.map (·.1) ↔ g ∈ groups ∧ (∃ b, gspan g = some b) ∧
        (includeEmpty = true ∨ ∃ l ns n, (l, ns) ∈ layers ∧ n ∈ ns ∧ Spec.Grp.Belongs cover gspan lspan g l n)) ∧
      ∀ g d, (g, d) ∈ res → d.map (·.1) = layers.map (·.1) ∧ ∀ l ns, (l, ns) ∈ layers →
        ∃ bk, dget d l = some bk ∧ bk.Nodup ∧ ∀ n, n ∈ bk ↔ n ∈ ns ∧ Spec.Grp.Belongs cover gspan lspan g l n := by
  obtain ⟨gm, lm, s, h1, h2, h3, hn, hm, hp, hb⟩ := sweep_groups h
  -- after resolution
  have hres : ∃ gl, (if cover then w.coverGroups gf lf s.gl.reverse else .ok s.gl.reverse) = .ok gl ∧
      gl.map (·.1) = s.gl.reverse.map (·.1) ∧
      ∀ g d, (g, d) ∈ gl → d.map (·.1) = layers.map (·.1) ∧ ∀ l ns, (l, ns) ∈ layers →
        ∃ bk, dget d l = some bk ∧ bk.Nodup ∧ ∀ n, n ∈ bk ↔ n ∈ ns ∧ Spec.Grp.Belongs cover gspan lspan g l n := by
    cases cover with
    | false => exact ⟨_, rfl, rfl, hb⟩
    | true =>
      have hcg := coverGroups_eq (w := w) (gf := gf) (lf := lf) (gspan := gspan) (lspan := lspan) s.gl.reverse (by
        intro g d hgd
        obtain ⟨hg1, b, hg2⟩ := (hm g).1 (List.mem_map.2 ⟨_, hgd, rfl⟩)
        refine ⟨⟨b, hg2, ?_⟩, ?_⟩
        · have := spanBounds_at (h.group g hg1)
          rw [hg2] at this
          simp [spanOf!, this]
        · intro l bk hl
          obtain ⟨hk, hbk⟩ := hb g d hgd
          have hl' : l ∈ layers.map (·.1) := by rw [← hk]; exact List.mem_map.2 ⟨_, hl, rfl⟩
          obtain ⟨⟨_, ns⟩, hns, rfl⟩ := List.mem_map.1 hl'
          obtain ⟨bk', hb1, hb2, hb3⟩ := hbk _ ns hns
          have hdk : (dkeys d).Nodup := by
            show (d.map (·.1)).Nodup
            rw [hk]; exact h.lnodup
          have := dget_of_mem hdk hl
          rw [hb1] at this
          cases this
          obtain ⟨f, hf, hfn⟩ := h.node _ ns hns
          refine ⟨f, fieldFor_eq hf, fun n hnb => ?_⟩
          obtain ⟨hn1, _, t, _, ht, _⟩ := (hb3 n).1 hnb
          refine ⟨t, ht, ?_⟩
          have := spanBounds_at (hfn n hn1)
          rw [ht] at this
          simp [spanOf!, this])
      refine ⟨_, by simp only [if_true]; exact hcg, by simp [List.map_map, Function.comp_def], ?_⟩
      intro g d hgd
      obtain ⟨⟨g0, d0⟩, hm0, he0⟩ := List.mem_map.1 hgd
      cases he0
      obtain ⟨hk, hbk⟩ := hb g0 d0 hm0
      refine ⟨by rw [← hk]; simp [covB, List.map_map, Function.comp_def], fun l ns hl => ?_⟩
      obtain ⟨bk, hb1, hb2, hb3⟩ := hbk l ns hl
      refine ⟨_, by rw [dget_covB, hb1]; rfl, hb2.filter _, fun n => ?_⟩
      rw [List.mem_filter, hb3]
      constructor
      · rintro ⟨⟨hn1, sg, t, e1, e2, e3, _⟩, hc⟩
        refine ⟨hn1, sg, t, e1, e2, e3, fun _ => ?_⟩
        simp only [e1, e2, Option.getD_some, isCoveredBy, Bool.and_eq_true, decide_eq_true_eq] at hc
        omega
      · rintro ⟨hn1, sg, t, e1, e2, e3, e4⟩
        refine ⟨⟨hn1, sg, t, e1, e2, e3, by simp⟩, ?_⟩
        have := e4 rfl
        simp only [e1, e2, Option.getD_some, isCoveredBy, Bool.and_eq_true, decide_eq_true_eq]
        omega
  obtain ⟨gl, hg1, hg2, hg3⟩ := hres
  have hgb : w.groupBySpan groups layers cover gf lf includeEmpty =
      .ok (if includeEmpty then gl else gl.filter nonEmptyGroup) := by
    unfold groupBySpan
    simp only [h1, h2, h3, hg1]
  refine ⟨_, hgb, ?_⟩
  cases includeEmpty with
  | true =>
    simp only [if_true]
    refine ⟨by rw [hg2]; exact hn, by rw [hg2]; exact hp, ?_, hg3⟩
    intro g
    rw [hg2, hm]
    simp
  | false =>
    simp only [Bool.false_eq_true, if_false, false_or]
    have hsub : ((gl.filter nonEmptyGroup).map (·.1)).Sublist (gl.map (·.1)) := List.filter_sublist.map _
    rw [hg2] at hsub
    refine ⟨hn.sublist hsub, hp.sublist hsub, ?_, fun g d hgd => hg3 g d (List.mem_filter.1 hgd).1⟩
    intro g
    constructor
    · intro hg
      obtain ⟨b1, b2⟩ := (hm g).1 (hsub.mem hg)
      refine ⟨b1, b2, ?_⟩
      obtain ⟨⟨g0, d⟩, hgd, rfl⟩ := List.mem_map.1 hg
      obtain ⟨hgd1, hgd2⟩ := List.mem_filter.1 hgd
      obtain ⟨l, bk, hl, n, hnb⟩ := (nonEmptyGroup_iff _).1 hgd2
      obtain ⟨hk, hbk⟩ := hg3 g0 d hgd1
      have hl' : l ∈ layers.map (·.1) := by rw [← hk]; exact List.mem_map.2 ⟨_, hl, rfl⟩
      obtain ⟨⟨_, ns⟩, hns, rfl⟩ := List.mem_map.1 hl'
      obtain ⟨bk', hb1, hb2, hb3⟩ := hbk _ ns hns
      have hdk : (dkeys d).Nodup := by
        show (d.map (·.1)).Nodup
        rw [hk]; exact h.lnodup
      have := dget_of_mem hdk hl
      rw [hb1] at this
      cases this
      exact ⟨_, ns, n, hns, (hb3 n).1 hnb⟩
    · rintro ⟨b1, b2, l, ns, n, hns, hn1, hbel⟩
      have hgm : g ∈ gl.map (·.1) := by rw [hg2]; exact (hm g).2 ⟨b1, b2⟩
      obtain ⟨⟨g0, d⟩, hgd, rfl⟩ := List.mem_map.1 hgm
      obtain ⟨hk, hbk⟩ := hg3 g0 d hgd
      obtain ⟨bk', hb1, hb2, hb3⟩ := hbk l ns hns
      refine List.mem_map.2 ⟨(g0, d), List.mem_filter.2 ⟨hgd, ?_⟩, rfl⟩
      exact (nonEmptyGroup_iff _).2 ⟨l, bk', dget_mem hb1, n, (hb3 n).2 ⟨hn1, hbel⟩⟩

namespace Ex

/-- groups 0 [0,4), 1 [4,8), 2 empty at 4, 3 unset; layer "a" has 10 [2,6), 11 empty at 4, 12 [8,9), 13 [4,5) -/
def grpW : World :=
  { World.empty with nodes := fun i => match i with
      | 0 => { fields := [("text".toList, .span 0 0 4)] }
      | 1 => { fields := [("text".toList, .span 0 4 8)] }
      | 2 => { fields := [("text".toList, .span 0 4 4)] }
      | 10 => { fields := [("text".toList, .span 0 2 6)] }
      | 11 => { fields := [("text".toList, .span 0 4 4)] }
      | 12 => { fields := [("text".toList, .span 0 8 9)] }
      | 13 => { fields := [("text".toList, .span 0 4 5)] }
      | _ => {} }

def grpG : Nat → Option (Int × Int)
  | 0 => some (0, 4) | 1 => some (4, 8) | 2 => some (4, 4) | _ => none
def grpL (_ : Str) : Nat → Option (Int × Int)
  | 10 => some (2, 6) | 11 => some (4, 4) | 12 => some (8, 9) | 13 => some (4, 5) | _ => none

example : Spec.Grp.Input grpW [2, 1, 3, 0] [("a".toList, [10, 11, 12, 13]), ("b".toList, [])] "text".toList none
    grpG grpL := by
  refine ⟨by decide, by decide, ?_, ?_, ?_⟩
  · intro l ns h
    simp only [List.mem_cons, List.not_mem_nil, or_false, Prod.mk.injEq] at h
    rcases h with ⟨_, rfl⟩ | ⟨_, rfl⟩ <;> decide
  · intro g hg
    simp only [List.mem_cons, List.not_mem_nil, or_false] at hg
    rcases hg with rfl | rfl | rfl | rfl
    · exact ⟨⟨0, by decide⟩, by decide⟩
    · exact ⟨⟨0, by decide⟩, by decide⟩
    · show dget _ _ = _; decide
    · exact ⟨⟨0, by decide⟩, by decide⟩
  · intro l ns h
    simp only [List.mem_cons, List.not_mem_nil, or_false, Prod.mk.injEq] at h
    refine ⟨"text".toList, rfl, ?_⟩
    rcases h with ⟨_, rfl⟩ | ⟨_, rfl⟩
    · intro n hn
      simp only [List.mem_cons, List.not_mem_nil, or_false] at hn
      rcases hn with rfl | rfl | rfl | rfl <;> exact ⟨⟨0, by decide⟩, by decide⟩
    · intro n hn; simp at hn

def grpRes (cover incl : Bool) : Option (List (Nat × List (List Nat))) :=
  match grpW.groupBySpan [2, 1, 3, 0] [("a".toList, [10, 11, 12, 13]), ("b".toList, [])] cover "text".toList none incl with
  | .ok r => some (r.map (fun e => (e.1, e.2.map (·.2))))
  | .error _ => none

example : grpRes false true = some [(0, [[10], []]), (1, [[10, 13, 11], []]), (2, [[10, 13, 11], []])] := by decide
example : grpRes true false = some [(1, [[13, 11], []]), (2, [[11], []])] := by decide

end Ex

/-- A node given twice is outside of C52: its second end mark finds it already removed, which raises KeyError
(algorithm.py:390). -/
theorem C52_duplicate_fails : ∃ (w : World) (ns : List Nat) (l : Str),
    w.groupBySpan [0] [(l, ns)] false "text".toList none true = .error .key ∧
    (∀ n ∈ 0 :: ns, ∃ s, Spec.Grp.SpanAt w n "text".toList (some s)) :=
  ⟨Ex.grpW, [10, 10], "a".toList, by decide, by
    intro n hn
    simp only [List.mem_cons, List.not_mem_nil, or_false] at hn
    rcases hn with rfl | rfl | rfl
    · exact ⟨(0, 4), ⟨0, by decide⟩, by decide⟩
    · exact ⟨(2, 6), ⟨0, by decide⟩, by decide⟩
    · exact ⟨(2, 6), ⟨0, by decide⟩, by decide⟩⟩

end Verif
