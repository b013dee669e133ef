import Verif.Props.JavaDominant
import Verif.Props.Group
import Verif.Proof.TreeMap
/-
C91: GroupBySpan of the Java library.
-/
namespace Verif
set_option linter.unusedSimpArgs false
open World JGroupBy

namespace Spec
namespace JGrp

/-- the field of the node is unset, or holds the span -/
def SpanAt (d : JDoc) (n : Nat) (field : Str) : Option (Int × Int) → Prop
  | none => dget (d.data n) field = none
  | some s => JSpanAt d n field s.1 s.2 ∧ s.1 ≤ s.2

/-- A builder for distinct group nodes with spans `gspan` in the field `gf`, on which `group(name, nodes, field)` was called
with distinct names and distinct nodes each, with spans `lspan name` in the field. -/
structure Input (d : JDoc) (groups : List Nat) (gf : Str) (calls : List (Str × List Nat × Str))
    (gspan : Nat → Option (Int × Int)) (lspan : Str → Nat → Option (Int × Int)) : Prop where
  gnodup : groups.Nodup
  names : (calls.map (·.1)).Nodup
  nnodup : ∀ l ns f, (l, ns, f) ∈ calls → ns.Nodup
  group : ∀ g ∈ groups, SpanAt d g gf (gspan g)
  node : ∀ l ns f, (l, ns, f) ∈ calls → ∀ n ∈ ns, SpanAt d n f (lspan l n)

end JGrp
end Spec

/-! ### the points -/

/-- the marks of the Python library for the points -/
def rn (m : Mark) : Mark := ((m.1.1, if m.1.2 = 4 then 3 else if m.1.2 = 5 ∨ m.1.2 = 6 then 4 else m.1.2), m.2)

/-- the types of points -/
def WFPoint (m : Mark) : Prop :=
  (m.2.1 = none ∧ (m.1.2 = 0 ∨ m.1.2 = 3 ∨ m.1.2 = -2 ∨ m.1.2 = 5)) ∨
  (∃ l, m.2.1 = some l) ∧ (m.1.2 = 1 ∨ m.1.2 = 4 ∨ m.1.2 = -1 ∨ m.1.2 = 6)

theorem jPoints_rn (sp : GItem → Int × Int) (l : Option Str) (n : Nat) :
    (jPoints l n (sp (l, n))).map rn = [gStart sp (l, n), gStop sp (l, n)] := by
  unfold jPoints gStart gStop rn
  cases l with
  | none => by_cases h : (sp (none, n)).1 = (sp (none, n)).2 <;> simp [h]
  | some l => by_cases h : (sp (some l, n)).1 = (sp (some l, n)).2 <;> simp [h]

theorem jPoints_wf (l : Option Str) (n : Nat) (b : Int × Int) : ∀ m ∈ jPoints l n b, WFPoint m := by
  intro m hm
  unfold jPoints at hm
  cases l with
  | none =>
    simp only at hm
    split at hm <;> simp only [List.mem_cons, List.not_mem_nil, or_false] at hm <;> rcases hm with rfl | rfl <;> simp [WFPoint]
  | some l =>
    simp only at hm
    split at hm <;> simp only [List.mem_cons, List.not_mem_nil, or_false] at hm <;> rcases hm with rfl | rfl <;> simp [WFPoint]

theorem jbounds_at {d : JDoc} {n : Nat} {f : Str} {o : Option (Int × Int)} (h : Spec.JGrp.SpanAt d n f o) : d.bounds n f = .ok o := by
  cases o with
  | none => simp only [Spec.JGrp.SpanAt] at h; simp [JDoc.bounds, h]
  | some s => exact bounds_at h.1

theorem pointsOf_eq {d : JDoc} {l : Option Str} {f : Str} {sp : GItem → Int × Int} {o : Nat → Option (Int × Int)}
    (ho : ∀ n s, o n = some s → sp (l, n) = s) : ∀ (ns : List Nat), (∀ n ∈ ns, d.bounds n f = .ok (o n)) →
    ∃ ps, pointsOf d l f ns = .ok ps ∧ (∀ m ∈ ps, WFPoint m) ∧
      ps.map rn = ((ns.filter (fun n => (o n).isSome)).map (fun n => (l, n))).flatMap (fun x => [gStart sp x, gStop sp x])
  | [], _ => ⟨[], rfl, by simp, rfl⟩
  | n :: ns, h => by
    obtain ⟨ps, h1, h2, h3⟩ := pointsOf_eq (d := d) (f := f) ho ns (fun x hx => h x (List.mem_cons_of_mem _ hx))
    cases hn : o n with
    | none =>
      refine ⟨ps, by simp only [pointsOf, h n (by simp), h1, hn], h2, ?_⟩
      rw [List.filter_cons_of_neg (by simp [hn]), h3]
    | some b =>
      refine ⟨jPoints l n b ++ ps, by simp only [pointsOf, h n (by simp), h1, hn], ?_, ?_⟩
      · intro m hm
        rcases List.mem_append.1 hm with hm | hm
        · exact jPoints_wf _ _ _ m hm
        · exact h2 m hm
      · rw [List.filter_cons_of_pos (by simp [hn]), List.map_append, h3, List.map_cons, List.flatMap_cons,
          ← ho n b hn, jPoints_rn]

theorem layerPoints_eq {d : JDoc} {fields : Dict Str Str} {gspan : Nat → Option (Int × Int)}
    {lspan : Str → Nat → Option (Int × Int)} : ∀ (layers : Dict Str (List Nat)),
    (∀ l ns, (l, ns) ∈ layers → ∃ f, dget fields l = some f ∧ ∀ n ∈ ns, Spec.JGrp.SpanAt d n f (lspan l n)) →
    ∃ ps, layerPoints d fields layers = .ok ps ∧ (∀ m ∈ ps, WFPoint m) ∧
      ps.map rn = (layers.flatMap
      (fun e => (e.2.filter (fun n => (lspan e.1 n).isSome)).map (fun n => ((some e.1, n) : GItem)))).flatMap
      (fun x => [gStart (gSpan gspan lspan) x, gStop (gSpan gspan lspan) x])
  | [], _ => ⟨[], rfl, by simp, rfl⟩
  | (l, ns) :: rest, h => by
    obtain ⟨f, hf, hn⟩ := h l ns (by simp)
    obtain ⟨ps, h1, h2, h3⟩ := layerPoints_eq (gspan := gspan) rest (fun l ns hm => h l ns (List.mem_cons_of_mem _ hm))
    obtain ⟨qs, g1, g2, g3⟩ := pointsOf_eq (d := d) (l := some l) (f := f) (sp := gSpan gspan lspan) (o := lspan l)
      (by intro n s hs; simp [gSpan, hs]) ns (fun n hx => jbounds_at (hn n hx))
    refine ⟨qs ++ ps, by simp only [layerPoints, hf, g1, h1], ?_, ?_⟩
    · intro m hm
      rcases List.mem_append.1 hm with hm | hm
      · exact g2 m hm
      · exact h2 m hm
    · rw [List.map_append, g3, h3, List.flatMap_cons, List.flatMap_append]

theorem jInsert_perm (x : Mark) (l : List Mark) : (jInsert x l).Perm (x :: l) := by
  induction l with
  | nil => exact List.Perm.refl _
  | cons y l ih =>
    simp only [jInsert]
    split
    · exact List.Perm.refl _
    · exact (List.Perm.cons y ih).trans (List.Perm.swap x y l)

theorem jSort_perm (l : List Mark) : (jSort l).Perm l := by
  induction l with
  | nil => exact List.Perm.refl _
  | cons x l ih => exact (jInsert_perm x _).trans (List.Perm.cons x ih)

theorem keyLe_of_jPointLe {a b : Mark} (h : jPointLe a b = true) : keyLe a.1 b.1 = true := by
  rw [keyLe_iff]
  unfold jPointLe at h
  split at h
  · simp at h; omega
  · split at h
    · simp at h; omega
    · omega

theorem keyLe_of_not_jPointLe {a b : Mark} (h : ¬ jPointLe a b = true) : keyLe b.1 a.1 = true := by
  rw [keyLe_iff]
  unfold jPointLe at h
  split at h
  · simp at h; omega
  · split at h
    · simp at h; omega
    · omega

theorem jInsert_sorted (x : Mark) (l : List Mark) (h : l.Pairwise (fun a b => keyLe a.1 b.1 = true)) :
    (jInsert x l).Pairwise (fun a b => keyLe a.1 b.1 = true) := by
  induction l with
  | nil => simp [jInsert]
  | cons y l ih =>
    have hc := List.pairwise_cons.1 h
    simp only [jInsert]
    split
    · rename_i hxy
      have hxy := keyLe_of_jPointLe hxy
      refine List.pairwise_cons.2 ⟨fun z hz => ?_, h⟩
      rcases List.mem_cons.1 hz with rfl | hz
      · exact hxy
      · exact keyLe_trans hxy (hc.1 z hz)
    · rename_i hxy
      refine List.pairwise_cons.2 ⟨fun z hz => ?_, ih hc.2⟩
      rcases List.mem_cons.1 ((jInsert_perm x l).mem_iff.1 hz) with rfl | hz
      · exact keyLe_of_not_jPointLe hxy
      · exact hc.1 z hz

theorem jSort_sorted (l : List Mark) : (jSort l).Pairwise (fun a b => keyLe a.1 b.1 = true) := by
  induction l with
  | nil => exact List.Pairwise.nil
  | cons x l ih => exact jInsert_sorted x _ ih

theorem rn_mono {a b : Mark} (h : keyLe a.1 b.1 = true) : keyLe (rn a).1 (rn b).1 = true := by
  rw [keyLe_iff] at *
  simp only [rn]
  rcases h with h | ⟨h1, h2⟩
  · exact .inl h
  · refine .inr ⟨h1, ?_⟩
    repeat' split
    all_goals omega

/-! ### the sweep follows that of the Python library -/

/-- a group with only the nodes that are kept -/
def keptG (k : Nat → Str → Nat → Bool) (e : Group) : Group := (e.1, e.2.map (fun x => (x.1, x.2.filter (k e.1 x.1))))

theorem dget_kept (f : Str → Nat → Bool) (dd : Dict Str (List Nat)) (l : Str) :
    dget (dd.map (fun x => (x.1, x.2.filter (f x.1)))) l = (dget dd l).map (fun ns => ns.filter (f l)) := by
  induction dd with
  | nil => rfl
  | cons e dd ih =>
    obtain ⟨a, ns⟩ := e
    simp only [List.map_cons, dget]
    split
    · rename_i h; subst h; rfl
    · exact ih

theorem dset_kept (f : Str → Nat → Bool) (dd : Dict Str (List Nat)) (l : Str) (ns : List Nat) :
    (dset dd l ns).map (fun x => (x.1, x.2.filter (f x.1))) = dset (dd.map (fun x => (x.1, x.2.filter (f x.1)))) l (ns.filter (f l)) := by
  induction dd with
  | nil => rfl
  | cons e dd ih =>
    obtain ⟨a, ms⟩ := e
    simp only [List.map_cons, dset]
    split
    · rename_i h; subst h; simp
    · simp [ih]

theorem dset_same {dd : Dict Str (List Nat)} {l : Str} {ns : List Nat} (h : dget dd l = some ns) : dset dd l ns = dd := by
  induction dd with
  | nil => cases h
  | cons e dd ih =>
    obtain ⟨a, ms⟩ := e
    simp only [dget, dset] at *
    split
    · rename_i e; subst e; simp at h; simp [h]
    · rename_i e
      rw [if_neg e] at h
      rw [ih h]

theorem bucketAdd_kept (k : Nat → Str → Nat → Bool) (g : Nat) (l : Str) (n : Nat) (gl : List Group)
    (hk : ∀ e ∈ gl, l ∈ e.2.map (·.1)) :
    (bucketAdd g l n gl).map (keptG k) = if k g l n then bucketAdd g l n (gl.map (keptG k)) else gl.map (keptG k) := by
  induction gl with
  | nil => simp [bucketAdd]
  | cons e gl ih =>
    obtain ⟨g', dd⟩ := e
    have ih := ih (fun e he => hk e (List.mem_cons_of_mem _ he))
    by_cases hg : g' = g
    · subst hg
      simp only [bucketAdd, if_true, List.map_cons, keptG, dset_kept, dget_kept, List.filter_append]
      obtain ⟨ns, hns⟩ : ∃ ns, dget dd l = some ns := by
        have := hk (g', dd) (by simp)
        exact Option.isSome_iff_exists.1 ((dget_isSome_iff dd l).2 this)
      by_cases hkn : k g' l n = true
      · rw [if_pos hkn]
        simp [hkn, hns]
      · rw [if_neg hkn]
        have : dset (dd.map (fun x => (x.1, x.2.filter (k g' x.1)))) l (ns.filter (k g' l)) =
            dd.map (fun x => (x.1, x.2.filter (k g' x.1))) := dset_same (by rw [dget_kept, hns]; rfl)
        simp [hkn, hns, this]
    · simp only [bucketAdd, if_neg hg, List.map_cons, keptG] at ih ⊢
      rw [ih]
      split <;> rfl

theorem bucketAdd_keys (g : Nat) (l : Str) (n : Nat) (gl : List Group) (hk : ∀ e ∈ gl, l ∈ e.2.map (·.1)) :
    ∀ e ∈ bucketAdd g l n gl, l ∈ e.2.map (·.1) := by
  induction gl with
  | nil => simp [bucketAdd]
  | cons e gl ih =>
    obtain ⟨g', dd⟩ := e
    simp only [bucketAdd]
    split
    · intro e he
      rcases List.mem_cons.1 he with rfl | he
      · have : l ∈ dkeys (dset dd l ((dget dd l).getD [] ++ [n])) := by
          rw [← dget_isSome_iff, dget_dset]; simp
        exact this
      · exact hk e (List.mem_cons_of_mem _ he)
    · intro e he
      rcases List.mem_cons.1 he with rfl | he
      · exact hk (g', dd) (by simp)
      · exact ih (fun e he => hk e (List.mem_cons_of_mem _ he)) e he

theorem foldl_bucketAdd_kept (k : Nat → Str → Nat → Bool) (l : Str) (n : Nat) (gs : List Nat) : ∀ (gl : List Group),
    (∀ e ∈ gl, l ∈ e.2.map (·.1)) →
    (gs.foldl (fun gl g => bucketAdd g l n gl) gl).map (keptG k) =
      gs.foldl (fun gl g => if k g l n then bucketAdd g l n gl else gl) (gl.map (keptG k)) := by
  induction gs with
  | nil => intro gl _; rfl
  | cons g gs ih =>
    intro gl h
    rw [List.foldl_cons, List.foldl_cons, ih _ (bucketAdd_keys g l n gl h), bucketAdd_kept k g l n gl h]

theorem dict_ext {dd : Dict Str (List Nat)} (h : (dd.map (·.1)).Nodup) : dd = (dd.map (·.1)).map (fun l => (l, (dget dd l).getD [])) := by
  induction dd with
  | nil => rfl
  | cons e dd ih =>
    obtain ⟨a, ns⟩ := e
    simp only [List.map_cons, List.nodup_cons, dget, if_true, Option.getD_some] at *
    congr 1
    conv => lhs; rw [ih h.2]
    apply List.map_congr_left
    intro l hl
    have : ¬ a = l := fun e => h.1 (e ▸ hl)
    simp [this]

theorem jg_step_sim (b : JGroupBy) (d : JDoc) {s s' : Sweep} {m : Mark} (hwf : WFPoint m) (hnd : (dkeys b.layers).Nodup)
    (hkeys : ∀ e ∈ s.gl, e.2.map (·.1) = dkeys b.layers) (hl : ∀ l, m.2.1 = some l → l ∈ dkeys b.layers)
    (hopen : ∀ x ∈ s.openNodes, x.1 ∈ dkeys b.layers) (h : sweepStep (dkeys b.layers) s (rn m) = .ok s') :
    b.step d ⟨s.gl.map (keptG (b.keep d)), s.openNodes, s.openGroups⟩ m =
      .ok ⟨s'.gl.map (keptG (b.keep d)), s'.openNodes, s'.openGroups⟩ := by
  obtain ⟨⟨p, c⟩, o, n⟩ := m
  have hkept : ∀ l ∈ dkeys b.layers, ∀ e ∈ s.gl, l ∈ e.2.map (·.1) := fun l hl e he => by rw [hkeys e he]; exact hl
  -- a group start
  have hgs : ∀ s', (Except.ok ({ s with
        gl := (n, s.openNodes.foldl (fun d x => dset d x.1 ((dget d x.1).getD [] ++ [x.2]))
          ((dkeys b.layers).map (fun l => (l, [])))) :: s.gl
        openGroups := if n ∈ s.openGroups then s.openGroups else s.openGroups ++ [n] } : Sweep) : Except PyErr Sweep) = .ok s' →
      (⟨(n, (dkeys b.layers).map (fun l => (l, ((s.openNodes.filter (fun x => decide (x.1 = l))).map (·.2)).filter
        (b.keep d n l)))) :: s.gl.map (keptG (b.keep d)), s.openNodes,
        if n ∈ s.openGroups then s.openGroups else s.openGroups ++ [n]⟩ : Sweep) =
      ⟨s'.gl.map (keptG (b.keep d)), s'.openNodes, s'.openGroups⟩ := by
    intro s' h
    cases h
    simp only [List.map_cons, Sweep.mk.injEq, List.cons.injEq, and_true]
    have hk0 : ((dkeys b.layers).map (fun l => ((l, []) : Str × List Nat))).map (·.1) = dkeys b.layers := by
      simp [List.map_map, Function.comp_def]
    obtain ⟨f1, f2⟩ := foldl_open s.openNodes ((dkeys b.layers).map (fun l => (l, []))) (by
      rw [hk0]; exact hopen)
    rw [hk0] at f1 f2
    simp only [keptG, Prod.mk.injEq, true_and]
    rw [dict_ext (dd := s.openNodes.foldl (fun d x => dset d x.1 ((dget d x.1).getD [] ++ [x.2]))
      ((dkeys b.layers).map (fun l => (l, [])))) (by rw [f1]; exact hnd), f1, List.map_map]
    apply List.map_congr_left
    intro l hl
    have e0 : ∀ ks : List Str, (dget (ks.map (fun l => ((l, []) : Str × List Nat))) l).getD [] = [] := by
      intro ks
      induction ks with
      | nil => rfl
      | cons k ks ih =>
        simp only [List.map_cons, dget]
        split
        · rfl
        · exact ih
    simp only [Function.comp_apply, f2 l hl, Option.getD_some, e0, List.nil_append]
  rcases hwf with ⟨ho, hc⟩ | ⟨⟨l, ho⟩, hc⟩
  · simp only at ho hc
    subst ho
    rcases hc with rfl | rfl | rfl | rfl
    · have h' := hgs s' (by simpa [sweepStep, rn] using h)
      simp [JGroupBy.step, h']
    · have h' := hgs s' (by simpa [sweepStep, rn] using h)
      simp [JGroupBy.step, h']
    · simp only [sweepStep, rn] at h
      simp at h
      split at h
      · cases h; simp [JGroupBy.step]
      · cases h
    · simp only [sweepStep, rn] at h
      simp at h
      split at h
      · cases h; simp [JGroupBy.step]
      · cases h
  · simp only at ho hc
    subst ho
    have hll : l ∈ dkeys b.layers := hl l rfl
    rcases hc with rfl | rfl | rfl | rfl
    · simp only [sweepStep, rn] at h
      simp at h
      cases h
      simp [JGroupBy.step, foldl_bucketAdd_kept _ _ _ _ _ (hkept l hll)]
    · simp only [sweepStep, rn] at h
      simp at h
      cases h
      simp [JGroupBy.step, foldl_bucketAdd_kept _ _ _ _ _ (hkept l hll)]
    · simp only [sweepStep, rn] at h
      simp at h
      split at h
      · cases h; simp [JGroupBy.step]
      · cases h
    · simp only [sweepStep, rn] at h
      simp at h
      split at h
      · cases h; simp [JGroupBy.step]
      · cases h

theorem jg_sim_loop (b : JGroupBy) (d : JDoc) {its : List GItem} {sp : GItem → Int × Int} {P : List Mark}
    (hc : GCtx its sp (dkeys b.layers) (P.map rn)) (hwf : ∀ m ∈ P, WFPoint m) (todo : List Mark) :
    ∀ {done : List Mark} {s : Sweep}, P = done ++ todo → GInv its sp (dkeys b.layers) (done.map rn) s →
    ∃ s', b.sweep d ⟨s.gl.map (keptG (b.keep d)), s.openNodes, s.openGroups⟩ todo =
        .ok ⟨s'.gl.map (keptG (b.keep d)), s'.openNodes, s'.openGroups⟩ ∧
      GInv its sp (dkeys b.layers) (P.map rn) s' := by
  induction todo with
  | nil =>
    intro done s he h
    rw [List.append_nil] at he
    exact ⟨s, rfl, he ▸ h⟩
  | cons m todo ih =>
    intro done s he h
    have he' : P.map rn = done.map rn ++ rn m :: todo.map rn := by rw [he]; simp
    obtain ⟨s1, h1, h2⟩ := GInv.step hc he' h
    have hm : m ∈ P := by rw [he]; simp
    have hs := jg_step_sim b d (hwf m hm) hc.lnodup (fun e hx => (h.buckets e.1 e.2 hx).1)
      (by
        intro l hl
        obtain ⟨i, hi, hmi⟩ := (hc.mem (rn m)).1 (List.mem_map.2 ⟨m, hm, rfl⟩)
        have : m.2 = i := by
          rcases hmi with e | e
          · have := congrArg Prod.snd e; rwa [gStart_item] at this
          · have := congrArg Prod.snd e; rwa [gStop_item] at this
        obtain ⟨o, n⟩ := i
        have ho : o = some l := by rw [← hl, this]
        subst ho
        exact hc.lay l n hi)
      (by
        rintro ⟨l, n⟩ hx
        exact hc.lay l n ((h.onodes l n).1 hx).1) h1
    obtain ⟨s2, h3, h4⟩ := ih (done := done ++ [m]) (s := s1) (by rw [he]; simp) (by simpa using h2)
    exact ⟨s2, by simp only [JGroupBy.sweep, hs, h3], h4⟩

/-! ### builders -/

/-- the builder after calls of `group` -/
def jcalls (b : JGroupBy) (calls : List (Str × List Nat × Str)) : JGroupBy := calls.foldl (fun b c => b.group c.1 c.2.1 c.2.2) b

theorem jcalls_eq (calls : List (Str × List Nat × Str)) : ∀ (b : JGroupBy), jcalls b calls =
    { b with
      layers := (calls.map (fun c => (c.1, c.2.1))).foldl (fun d e => tput d e.1 e.2) b.layers
      fields := (calls.map (fun c => (c.1, c.2.2))).foldl (fun d e => tput d e.1 e.2) b.fields } := by
  induction calls with
  | nil => intro b; rfl
  | cons c calls ih =>
    intro b
    show jcalls (b.group c.1 c.2.1 c.2.2) calls = _
    rw [ih]
    rfl

theorem emptyGroup_iff (g : Group) : (!emptyGroup g) = true ↔ ∃ l bk, (l, bk) ∈ g.2 ∧ ∃ n, n ∈ bk := by
  simp only [emptyGroup, Bool.not_eq_true', List.all_eq_false]
  constructor
  · rintro ⟨⟨l, bk⟩, h1, h2⟩
    cases bk with
    | nil => simp at h2
    | cons n bk => exact ⟨l, n :: bk, h1, n, by simp⟩
  · rintro ⟨l, bk, h1, n, h2⟩
    refine ⟨(l, bk), h1, ?_⟩
    cases bk with
    | nil => cases h2
    | cons => simp

/-- C91. `solve()` of a builder (`new Builder(groups, field)` or `builder(layer, field)`, then `group(name, nodes, field)` for
some names) lists every group node that has a span exactly once, ordered by start — without `includeEmptyGroups` only those
that some node belongs to. Each group has a list for every name, in the order of names, with exactly the nodes given for
the name that belong to the group, each once. A node belongs to a group when their spans share a position (an empty span
occupies the position it is at), and for COVER it must also lie within the group's span. -/
theorem C91_group_by_span {d : JDoc} {groups : List Nat} {gf : Str} {calls : List (Str × List Nat × Str)}
    {gspan : Nat → Option (Int × Int)} {lspan : Str → Nat → Option (Int × Int)}
    (h : Spec.JGrp.Input d groups gf calls gspan lspan) (cover includeEmpty : Bool) :
    ∃ res, (((jcalls (JGroupBy.new groups gf) calls).resolution cover).includeEmpty includeEmpty).solve d = .ok res ∧
      (res.map (·.1)).Nodup ∧
      (res.map (·.1)).Pairwise (fun g g' => ∀ b b', gspan g = some b → gspan g' = some b' → b.1 ≤ b'.1) ∧
      (∀ g, g ∈ res.map (·.1) ↔ g ∈ groups ∧ (∃ b, gspan g = some b) ∧
        (includeEmpty = true ∨ ∃ l ns f n, (l, ns, f) ∈ calls ∧ n ∈ ns ∧ Spec.Grp.Belongs cover gspan lspan g l n)) ∧
      ∀ g c, (g, c) ∈ res → (c.map (·.1)).Pairwise (fun a b => unitsLt (utf16 a) (utf16 b) = true) ∧
        (∀ l, l ∈ c.map (·.1) ↔ l ∈ calls.map (·.1)) ∧
        ∀ l ns f, (l, ns, f) ∈ calls →
          ∃ bk, dget c l = some bk ∧ bk.Nodup ∧ ∀ n, n ∈ bk ↔ n ∈ ns ∧ Spec.Grp.Belongs cover gspan lspan g l n := by
  generalize hb : ((jcalls (JGroupBy.new groups gf) calls).resolution cover).includeEmpty includeEmpty = b
  have hkl : (dkeys (calls.map (fun c => (c.1, c.2.1)))).Nodup := by
    simpa [dkeys, List.map_map, Function.comp_def] using h.names
  have hkf : (dkeys (calls.map (fun c => (c.1, c.2.2)))).Nodup := by
    simpa [dkeys, List.map_map, Function.comp_def] using h.names
  have hb' : b = ⟨groups, gf, tmap (calls.map (fun c => (c.1, c.2.1))), tmap (calls.map (fun c => (c.1, c.2.2))), cover,
      includeEmpty⟩ := by
    rw [← hb, jcalls_eq]; rfl
  clear hb
  have hlay : ∀ l ns, (l, ns) ∈ b.layers ↔ ∃ f, (l, ns, f) ∈ calls := by
    intro l ns
    rw [hb', mem_tmap hkl]
    constructor
    · intro hm
      obtain ⟨⟨l', ns', f⟩, h1, h2⟩ := List.mem_map.1 hm
      cases h2
      exact ⟨f, h1⟩
    · rintro ⟨f, hm⟩
      exact List.mem_map.2 ⟨_, hm, rfl⟩
  have hfld : ∀ l ns f, (l, ns, f) ∈ calls → dget b.fields l = some f := by
    intro l ns f hm
    rw [hb', dget_tmap hkf]
    exact dget_of_mem hkf (List.mem_map.2 ⟨_, hm, rfl⟩)
  have hord : InOrder b.layers := by rw [hb']; exact inOrder_tmap hkl
  have hlnd : (b.layers.map (·.1)).Nodup := hord.nodup
  have hg0 : b.groups = groups := by rw [hb']
  have hf0 : b.field = gf := by rw [hb']
  have hc0 : b.cover = cover := by rw [hb']
  have he0 : b.empties = includeEmpty := by rw [hb']
  -- the points
  obtain ⟨gp, g1, g2, g3⟩ := pointsOf_eq (d := d) (l := none) (f := b.field) (sp := gSpan gspan lspan) (o := gspan)
      (by intro n s hs; simp [gSpan, hs]) b.groups (fun n hx => jbounds_at (by rw [hf0]; exact h.group n (hg0 ▸ hx)))
  obtain ⟨lp, l1, l2, l3⟩ := layerPoints_eq (d := d) (fields := b.fields) (gspan := gspan) (lspan := lspan) b.layers (by
    intro l ns hm
    obtain ⟨f, hm⟩ := (hlay l ns).1 hm
    exact ⟨f, hfld l ns f hm, h.node l ns f hm⟩)
  have hmap : (gp ++ lp).map rn = (gItems groups b.layers gspan lspan).flatMap
      (fun x => [gStart (gSpan gspan lspan) x, gStop (gSpan gspan lspan) x]) := by
    rw [List.map_append, g3, l3, gItems, List.flatMap_append, hg0]
  have hperm : ((jSort (gp ++ lp)).map rn).Perm ((gItems groups b.layers gspan lspan).flatMap
      (fun x => [gStart (gSpan gspan lspan) x, gStop (gSpan gspan lspan) x])) := by
    rw [← hmap]; exact (jSort_perm _).map rn
  have hwf : ∀ m ∈ jSort (gp ++ lp), WFPoint m := by
    intro m hm
    rcases List.mem_append.1 ((jSort_perm _).mem_iff.1 hm) with hm | hm
    · exact g2 m hm
    · exact l2 m hm
  have hc : GCtx (gItems groups b.layers gspan lspan) (gSpan gspan lspan) (dkeys b.layers) ((jSort (gp ++ lp)).map rn) := by
    refine ⟨?_, ?_, ?_, ?_, ?_, hlnd⟩
    · intro x
      rw [hperm.mem_iff, List.mem_flatMap]
      simp
    · rw [hperm.nodup_iff]
      refine marks_nodup _ (gItems_nodup h.gnodup hlnd ?_)
      intro l ns hm
      obtain ⟨f, hm⟩ := (hlay l ns).1 hm
      exact h.nnodup l ns f hm
    · rw [List.pairwise_map]
      exact (jSort_sorted _).imp (fun hab => rn_mono hab)
    · rintro ⟨o, n⟩ hi
      cases o with
      | none =>
        obtain ⟨h1, s, h2⟩ := (gItems_mem_group n).1 hi
        have := h.group n h1
        rw [h2] at this
        simp only [gSpan, h2, Option.getD_some]
        exact this.2
      | some l =>
        obtain ⟨ns, h1, h2, s, h3⟩ := (gItems_mem_node l n).1 hi
        obtain ⟨f, hm⟩ := (hlay l ns).1 h1
        have := h.node l ns f hm n h2
        rw [h3] at this
        simp only [gSpan, h3, Option.getD_some]
        exact this.2
    · intro l n hi
      obtain ⟨ns, h1, _⟩ := (gItems_mem_node l n).1 hi
      exact List.mem_map.2 ⟨_, h1, rfl⟩
  obtain ⟨s, hs, hinv⟩ := jg_sim_loop b d hc hwf _ (done := []) (s := ⟨[], [], []⟩) rfl
    ⟨by simp, by simp, by simp, by simp, by simp, by simp⟩
  obtain ⟨hn, hm, hp, hbk⟩ := sweep_facts hlnd hc hinv
  have hkeep : ∀ g l ns f n, g ∈ groups → (l, ns, f) ∈ calls → n ∈ ns →
      (Spec.Grp.Belongs cover gspan lspan g l n ↔ Spec.Grp.Belongs false gspan lspan g l n ∧ b.keep d g l n = true) := by
    intro g l ns f n hg hl hn
    have bg := jbounds_at (h.group g hg)
    have bn := jbounds_at (h.node l ns f hl n hn)
    simp only [JGroupBy.keep, hc0, hf0, hfld l ns f hl, Option.getD_some, bg, bn]
    cases cover with
    | false => simp
    | true =>
      simp only [if_true, Spec.Grp.Belongs]
      constructor
      · rintro ⟨a, t, e1, e2, e3, e4⟩
        have := e4 trivial
        refine ⟨⟨a, t, e1, e2, e3, by simp⟩, ?_⟩
        simp only [e1, e2, Bool.and_eq_true, decide_eq_true_eq]
        omega
      · rintro ⟨⟨a, t, e1, e2, e3, _⟩, hk⟩
        refine ⟨a, t, e1, e2, e3, fun _ => ?_⟩
        simp only [e1, e2, Bool.and_eq_true, decide_eq_true_eq] at hk
        omega
  -- the groups with what is kept
  generalize hgl : (s.gl.map (keptG (b.keep d))).reverse = gl
  have hgl' : gl = s.gl.reverse.map (keptG (b.keep d)) := by rw [← hgl, List.map_reverse]
  have hk1 : gl.map (·.1) = s.gl.reverse.map (·.1) := by
    rw [hgl', List.map_map]; rfl
  have hk2 : ∀ g c, (g, c) ∈ gl → c.map (·.1) = dkeys b.layers ∧ ∀ l ns f, (l, ns, f) ∈ calls →
      ∃ bk, dget c l = some bk ∧ bk.Nodup ∧ ∀ n, n ∈ bk ↔ n ∈ ns ∧ Spec.Grp.Belongs cover gspan lspan g l n := by
    intro g c hgc
    rw [hgl'] at hgc
    obtain ⟨⟨g0, c0⟩, hm0, e0⟩ := List.mem_map.1 hgc
    cases e0
    obtain ⟨q1, q2⟩ := hbk g0 c0 hm0
    have hgg : g0 ∈ groups := ((hm g0).1 (List.mem_map.2 ⟨_, hm0, rfl⟩)).1
    refine ⟨?_, fun l ns f hl => ?_⟩
    · rw [List.map_map]
      exact q1
    · obtain ⟨bk, r1, r2, r3⟩ := q2 l ns ((hlay l ns).2 ⟨f, hl⟩)
      refine ⟨_, by rw [dget_kept (b.keep d g0), r1]; rfl, r2.filter _, fun n => ?_⟩
      rw [List.mem_filter, r3]
      constructor
      · rintro ⟨⟨a1, a2⟩, a3⟩
        exact ⟨a1, (hkeep g0 l ns f n hgg hl a1).2 ⟨a2, a3⟩⟩
      · rintro ⟨a1, a2⟩
        obtain ⟨a3, a4⟩ := (hkeep g0 l ns f n hgg hl a1).1 a2
        exact ⟨⟨a1, a3⟩, a4⟩
  have hsolve : b.solve d = .ok (if includeEmpty then gl else gl.filter (fun g => !emptyGroup g)) := by
    have hs' : b.sweep d ⟨[], [], []⟩ (jSort (gp ++ lp)) = .ok ⟨s.gl.map (keptG (b.keep d)), s.openNodes, s.openGroups⟩ := hs
    unfold JGroupBy.solve
    simp only [g1, l1]
    rw [hs']
    simp only [he0, hgl]
  have hkeys : ∀ c : Dict Str (List Nat), c.map (·.1) = dkeys b.layers →
      (c.map (·.1)).Pairwise (fun a b => unitsLt (utf16 a) (utf16 b) = true) ∧ ∀ l, l ∈ c.map (·.1) ↔ l ∈ calls.map (·.1) := by
    intro c hce
    rw [hce]
    refine ⟨hord, fun l => ?_⟩
    simp only [dkeys, List.mem_map]
    constructor
    · rintro ⟨⟨l', ns⟩, h1, rfl⟩
      obtain ⟨f, h2⟩ := (hlay l' ns).1 h1
      exact ⟨_, h2, rfl⟩
    · rintro ⟨⟨l', ns, f⟩, h1, rfl⟩
      exact ⟨_, (hlay l' ns).2 ⟨f, h1⟩, rfl⟩
  have hk3 : ∀ g c, (g, c) ∈ gl → (c.map (·.1)).Pairwise (fun a b => unitsLt (utf16 a) (utf16 b) = true) ∧
        (∀ l, l ∈ c.map (·.1) ↔ l ∈ calls.map (·.1)) ∧
        ∀ l ns f, (l, ns, f) ∈ calls →
          ∃ bk, dget c l = some bk ∧ bk.Nodup ∧ ∀ n, n ∈ bk ↔ n ∈ ns ∧ Spec.Grp.Belongs cover gspan lspan g l n := by
    intro g c hgc
    obtain ⟨k1, k2⟩ := hk2 g c hgc
    exact ⟨(hkeys c k1).1, (hkeys c k1).2, k2⟩
  refine ⟨_, hsolve, ?_⟩
  cases includeEmpty with
  | true =>
    simp only [if_true]
    refine ⟨by rw [hk1]; exact hn, by rw [hk1]; exact hp, ?_, hk3⟩
    intro g
    rw [hk1, hm]
    simp
  | false =>
    simp only [Bool.false_eq_true, if_false, false_or]
    have hsub : ((gl.filter (fun g => !emptyGroup g)).map (·.1)).Sublist (gl.map (·.1)) := List.filter_sublist.map _
    rw [hk1] at hsub
    refine ⟨hn.sublist hsub, hp.sublist hsub, ?_, fun g c hgc => hk3 g c (List.mem_filter.1 hgc).1⟩
    intro g
    constructor
    · intro hg
      obtain ⟨b1, b2⟩ := (hm g).1 (hsub.mem hg)
      refine ⟨b1, b2, ?_⟩
      obtain ⟨⟨g0, c⟩, hgc, rfl⟩ := List.mem_map.1 hg
      obtain ⟨hgc1, hgc2⟩ := List.mem_filter.1 hgc
      obtain ⟨l, bk, hl, n, hnb⟩ := (emptyGroup_iff _).1 hgc2
      obtain ⟨hk, hbk'⟩ := hk2 g0 c hgc1
      have hl' : l ∈ calls.map (·.1) := ((hkeys c hk).2 l).1 (List.mem_map.2 ⟨_, hl, rfl⟩)
      obtain ⟨⟨l', ns, f⟩, hns, rfl⟩ := List.mem_map.1 hl'
      obtain ⟨bk', hb1, hb2, hb3⟩ := hbk' _ ns f hns
      have hdk : (dkeys c).Nodup := by
        show (c.map (·.1)).Nodup
        rw [hk]; exact hlnd
      have := dget_of_mem hdk hl
      rw [hb1] at this
      cases this
      exact ⟨_, ns, f, n, hns, (hb3 n).1 hnb⟩
    · rintro ⟨b1, b2, l, ns, f, n, hns, hn1, hbel⟩
      have hgm : g ∈ gl.map (·.1) := by rw [hk1]; exact (hm g).2 ⟨b1, b2⟩
      obtain ⟨⟨g0, c⟩, hgc, rfl⟩ := List.mem_map.1 hgm
      obtain ⟨hk, hbk'⟩ := hk2 g0 c hgc
      obtain ⟨bk', hb1, hb2, hb3⟩ := hbk' l ns f hns
      refine List.mem_map.2 ⟨(g0, c), List.mem_filter.2 ⟨hgc, ?_⟩, rfl⟩
      exact (emptyGroup_iff _).2 ⟨l, bk', dget_mem hb1, n, (hb3 n).2 ⟨hn1, hbel⟩⟩

/-! ### calls on a builder -/

theorem tput_again {ν : Type} (d : Dict Str ν) (k : Str) (v v' : ν) : tput (tput d k v) k v' = tput d k v' := by
  induction d with
  | nil => simp [tput]
  | cons e d ih =>
    obtain ⟨a, x⟩ := e
    by_cases h1 : k = a
    · simp [tput, h1]
    · by_cases h2 : unitsLt (utf16 k) (utf16 a) = true
      · simp [tput, h1, h2]
      · simp [tput, h1, h2, ih]

theorem inOrder_ext {ν : Type} : ∀ {d d' : Dict Str ν}, InOrder d → InOrder d' → (∀ k, dget d k = dget d' k) → d = d'
  | [], [], _, _, _ => rfl
  | [], (a, v) :: d', _, _, h => by have := h a; simp [dget] at this
  | (a, v) :: d, [], _, _, h => by have := h a; simp [dget] at this
  | (a, v) :: d, (a', v') :: d', h1, h2, h => by
    have n1 := h1.nodup
    have n2 := h2.nodup
    simp only [InOrder, dkeys, List.map_cons, List.pairwise_cons, List.nodup_cons] at h1 h2 n1 n2
    have hk : ∀ k, k ∈ dkeys ((a, v) :: d) ↔ k ∈ dkeys ((a', v') :: d') := fun k => by
      rw [← dget_isSome_iff, ← dget_isSome_iff, h]
    have ha : a = a' := by
      refine Decidable.byContradiction fun hne => ?_
      have m1 : a ∈ d'.map (·.1) := by
        have := (hk a).1 (by simp [dkeys])
        simpa [dkeys, hne] using this
      have m2 : a' ∈ d.map (·.1) := by
        have := (hk a').2 (by simp [dkeys])
        simpa [dkeys, Ne.symm hne] using this
      have := unitsLt_trans (h1.1 a' m2) (h2.1 a m1)
      rw [unitsLt_irrefl] at this
      cases this
    subst ha
    have hv := h a
    simp only [dget, if_true, Option.some.injEq] at hv
    subst hv
    rw [inOrder_ext (d := d) (d' := d') h1.2 h2.2 (fun k => ?_)]
    by_cases hka : a = k
    · subst hka
      rw [(dget_none_iff _ _).2 n1.1, (dget_none_iff _ _).2 n2.1]
    · have := h k
      simpa [dget, hka] using this

theorem jtmap_perm {ν : Type} {l l' : List (Str × ν)} (hp : l.Perm l') (h : (dkeys l).Nodup) : tmap l = tmap l' := by
  have h' : (dkeys l').Nodup := (hp.map (fun e : Str × ν => e.1)).nodup_iff.1 h
  refine inOrder_ext (inOrder_tmap h) (inOrder_tmap h') fun k => ?_
  rw [dget_tmap h, dget_tmap h']
  cases hk : dget l k with
  | some v => rw [dget_of_mem h' (hp.mem_iff.1 (dget_mem hk))]
  | none =>
    have := (dget_none_iff l k).1 hk
    exact ((dget_none_iff l' k).2 (fun hm => this ((hp.map (·.1)).mem_iff.2 hm))).symm

/-- C91: the order in which `group` is called does not matter, and a second call with a name replaces the first. -/
theorem C91_calls (groups : List Nat) (gf : Str) :
    (∀ {calls calls' : List (Str × List Nat × Str)}, calls.Perm calls' → (calls.map (·.1)).Nodup →
      jcalls (JGroupBy.new groups gf) calls = jcalls (JGroupBy.new groups gf) calls') ∧
    ∀ (b : JGroupBy) (l : Str) (ns ns' : List Nat) (f f' : Str), (b.group l ns f).group l ns' f' = b.group l ns' f' := by
  refine ⟨fun {calls calls'} hp hn => ?_, fun b l ns ns' f f' => ?_⟩
  · rw [jcalls_eq, jcalls_eq]
    have e1 := jtmap_perm (hp.map (fun c => (c.1, c.2.1))) (by simpa [dkeys, List.map_map, Function.comp_def] using hn)
    have e2 := jtmap_perm (hp.map (fun c => (c.1, c.2.2))) (by simpa [dkeys, List.map_map, Function.comp_def] using hn)
    simp only [tmap] at e1 e2
    simp only [JGroupBy.new, e1, e2]
  · simp only [JGroupBy.group, tput_again]

/-- C91: `builder(doc, layer, field)` and `group(name, doc.layer(layer), field)` are those for the nodes of the layer if the
layer has the field and it is a span field; they are IllegalArgumentException if not, and NullPointerException if there is
no such layer. -/
theorem C91_layers (d : JDoc) (k : Str) :
    (dget d.layers k = none → (∀ f, ofLayer d k f = .error .attribute) ∧
      ∀ (b : JGroupBy) name f, b.groupLayer d name k f = .error .attribute) ∧
    ∀ L f, dget d.layers k = some L →
      ((∃ t, dget L.fields f = some t ∧ t.name = .span) → ofLayer d k f = .ok (JGroupBy.new L.nodes f) ∧
        ∀ (b : JGroupBy) name, b.groupLayer d name k f = .ok (b.group name L.nodes f)) ∧
      ((¬ ∃ t, dget L.fields f = some t ∧ t.name = .span) → ofLayer d k f = .error .value ∧
        ∀ (b : JGroupBy) name, b.groupLayer d name k f = .error .value) := by
  refine ⟨fun h => ⟨fun f => by simp [ofLayer, h], fun b name f => by simp [groupLayer, h]⟩, fun L f h => ⟨?_, ?_⟩⟩
  · rintro ⟨t, h1, h2⟩
    refine ⟨by simp [ofLayer, h, checkField, h1, h2], fun b name => by simp [groupLayer, h, checkField, h1, h2]⟩
  · intro hn
    have : checkField L f = .error .value := by
      unfold checkField
      split
      · rfl
      · rename_i t ht
        rw [if_pos (fun e => hn ⟨t, ht, e⟩)]
    exact ⟨by simp [ofLayer, h, this], fun b name => by simp [groupLayer, h, this]⟩

namespace Ex

/-- groups 0 [0,4), 1 [4,8), 2 empty at 4, 3 unset; nodes 10 [2,6), 11 empty at 4, 12 [8,9), 13 [4,5) -/
def jgrpD : JDoc :=
  { JDoc.new with
    texts := [("t".toList, ⟨List.replicate 20 97, true, [⟨0, 0, 0⟩, ⟨0, 2, 0⟩, ⟨0, 4, 0⟩, ⟨0, 5, 0⟩, ⟨0, 6, 0⟩, ⟨0, 8, 0⟩, ⟨0, 9, 0⟩], []⟩)]
    layers := [("g".toList, ⟨[("n".toList, ⟨.int, []⟩), ("s".toList, ⟨.span, [("context".toList, .str "t".toList)]⟩)],
      [some 0, some 1, some 2, some 3], 4⟩)]
    data := fun n => match n with
      | 0 => [("s".toList, .span "t".toList (0, 2))]
      | 1 => [("s".toList, .span "t".toList (2, 5))]
      | 2 => [("s".toList, .span "t".toList (2, 2))]
      | 10 => [("text".toList, .span "t".toList (1, 4))]
      | 11 => [("text".toList, .span "t".toList (2, 2))]
      | 12 => [("text".toList, .span "t".toList (5, 6))]
      | 13 => [("text".toList, .span "t".toList (2, 3))]
      | _ => [] }

def jgrpCalls : List (Str × List Nat × Str) := [("b".toList, [], "text".toList), ("a".toList, [10, 11, 12, 13], "text".toList)]

example : Spec.JGrp.Input jgrpD [2, 1, 3, 0] "s".toList jgrpCalls grpG grpL := by
  refine ⟨by decide, by decide, ?_, ?_, ?_⟩
  · intro l ns f h
    simp only [jgrpCalls, List.mem_cons, List.not_mem_nil, or_false, Prod.mk.injEq] at h
    rcases h with ⟨_, rfl, _⟩ | ⟨_, rfl, _⟩ <;> decide
  · intro g hg
    simp only [List.mem_cons, List.not_mem_nil, or_false] at hg
    rcases hg with rfl | rfl | rfl | rfl
    · exact ⟨⟨"t".toList, (2, 2), _, rfl, rfl, rfl, rfl⟩, by decide⟩
    · exact ⟨⟨"t".toList, (2, 5), _, rfl, rfl, rfl, rfl⟩, by decide⟩
    · show dget _ _ = _; rfl
    · exact ⟨⟨"t".toList, (0, 2), _, rfl, rfl, rfl, rfl⟩, by decide⟩
  · intro l ns f h
    simp only [jgrpCalls, List.mem_cons, List.not_mem_nil, or_false, Prod.mk.injEq] at h
    rcases h with ⟨_, rfl, _⟩ | ⟨_, rfl, rfl⟩
    · intro n hn; simp at hn
    · intro n hn
      simp only [List.mem_cons, List.not_mem_nil, or_false] at hn
      rcases hn with rfl | rfl | rfl | rfl
      · exact ⟨⟨"t".toList, (1, 4), _, rfl, rfl, rfl, rfl⟩, by decide⟩
      · exact ⟨⟨"t".toList, (2, 2), _, rfl, rfl, rfl, rfl⟩, by decide⟩
      · exact ⟨⟨"t".toList, (5, 6), _, rfl, rfl, rfl, rfl⟩, by decide⟩
      · exact ⟨⟨"t".toList, (2, 3), _, rfl, rfl, rfl, rfl⟩, by decide⟩

def jgrpRes (b : JGroupBy) (cover incl : Bool) : Option (List (Nat × List (List Nat))) :=
  match ((jcalls b jgrpCalls).resolution cover).includeEmpty incl |>.solve jgrpD with
  | .ok r => some (r.map (fun e => (e.1, e.2.map (·.2))))
  | .error _ => none

example : jgrpRes (JGroupBy.new [2, 1, 3, 0] "s".toList) false true =
    some [(0, [[10], []]), (1, [[10, 13, 11], []]), (2, [[10, 13, 11], []])] := by decide
example : jgrpRes (JGroupBy.new [2, 1, 3, 0] "s".toList) true false = some [(1, [[13, 11], []]), (2, [[11], []])] := by decide
-- the layer checks
example : (match ofLayer jgrpD "g".toList "s".toList with | .ok b => b.groups | .error _ => []) = [0, 1, 2, 3] := by decide
example : (match ofLayer jgrpD "g".toList "n".toList with | .ok _ => none | .error e => some e) = some .value := by decide

end Ex

/-- C91 does not hold of `builder(nodes, field)`: the field is not used, the groups are those of the field "text"
(GroupBySpan.java:33-35). Here every group node has a span in the field given, and nodes in it, and there is no group. -/
theorem C91_builder_ignores_field : (∀ groups f f', ofList groups f = ofList groups f') ∧
    ∃ (d : JDoc) (groups : List Nat) (f : Str) (calls : List (Str × List Nat × Str)),
      (∀ g ∈ groups, ∃ a b, Spec.JSpanAt d g f a b) ∧
      (∃ r, (jcalls (JGroupBy.new groups f) calls).solve d = .ok r ∧ r.length = groups.length) ∧
      (jcalls (ofList groups f) calls).solve d = .ok [] := by
  refine ⟨fun _ _ _ => rfl, Ex.jgrpD, [0, 1], "s".toList, Ex.jgrpCalls, ?_, ⟨[(0, [("a".toList, [10]), ("b".toList, [])]),
    (1, [("a".toList, [10, 13, 11]), ("b".toList, [])])], by decide, rfl⟩, by decide⟩
  intro g hg
  simp only [List.mem_cons, List.not_mem_nil, or_false] at hg
  rcases hg with rfl | rfl
  · exact ⟨0, 4, "t".toList, (0, 2), _, rfl, rfl, rfl, rfl⟩
  · exact ⟨4, 8, "t".toList, (2, 5), _, rfl, rfl, rfl, rfl⟩

/-- A group node given twice is outside of C91: there are two groups for it, and the nodes that start after the second one
go into that only (GroupBySpan.java:251, 288). -/
theorem C91_duplicate : ∃ (d : JDoc) (g n : Nat) (f l : Str),
    (jcalls (JGroupBy.new [g, g] f) [(l, [n], "text".toList)]).solve d = .ok [(g, [(l, [n])])] ∧
    ((jcalls (JGroupBy.new [g, g] f) [(l, [n], "text".toList)]).includeEmpty true).solve d = .ok [(g, [(l, [])]), (g, [(l, [n])])] :=
  ⟨Ex.jgrpD, 0, 10, "s".toList, "a".toList, by decide, by decide⟩

end Verif
