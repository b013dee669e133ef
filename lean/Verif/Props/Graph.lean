import Verif.Proof.Graph
/-
C48-C51: breadth first search, depth first search, leaves, and children_of.
-/
namespace Verif
set_option linter.unusedSimpArgs false

namespace Spec.Graph

/-- a path of `k` edges from `s` to `n` -/
inductive Path {α : Type} (children : α → List α) (s : α) : Nat → α → Prop
  | here : Path children s 0 s
  | step {k : Nat} {n c : α} : Path children s k n → c ∈ children n → Path children s (k + 1) c

/-- `n` can be reached from `s` -/
def Reach {α : Type} (children : α → List α) (s n : α) : Prop := ∃ k, Path children s k n

/-- `k` is the length of a shortest path from `s` to `n` -/
def Dist {α : Type} (children : α → List α) (s : α) (k : Nat) (n : α) : Prop :=
  Path children s k n ∧ ∀ j, Path children s j n → k ≤ j

/-- `V` lists (at least) everything reachable: it contains the start and is closed under children -/
structure FiniteFrom {α : Type} (children : α → List α) (s : α) (V : List α) : Prop where
  start : s ∈ V
  closed : ∀ n ∈ V, ∀ c ∈ children n, c ∈ V

/-- number of iterations that certainly suffices: one for the start and one for every edge -/
def edges {α : Type} (children : α → List α) (V : List α) : Nat :=
  1 + (V.map (fun v => (children v).length)).sum

/-- The recursive definition of preorder. `Pre vis todo out`: having seen `vis`, walking the nodes of
`todo` from left to right gives `out` — a node already seen gives nothing, a new node gives itself and then
the walk of its children before the walk of what follows it. -/
inductive Pre {α : Type} (children : α → List α) : List α → List α → List α → Prop
  | nil (vis) : Pre children vis [] []
  | seen {vis n todo out} : n ∈ vis → Pre children vis todo out → Pre children vis (n :: todo) out
  | new {vis n todo sub rest} : n ∉ vis → Pre children (n :: vis) (children n) sub →
      Pre children (n :: vis ++ sub) todo rest → Pre children vis (n :: todo) (n :: (sub ++ rest))

/-- the graph below `s` is a tree: nothing points back to `s`, and no node has two different parents -/
structure Tree {α : Type} (children : α → List α) (s : α) : Prop where
  root : ∀ n, Reach children s n → s ∉ children n
  parent : ∀ p q c, Reach children s p → Reach children s q → c ∈ children p → c ∈ children q → p = q

end Spec.Graph

open Graph Spec.Graph

variable {α : Type} [DecidableEq α]

/-! ### breadth first search -/

/-- invariant of the breadth first loop; `d` is a lower bound of the depths in the queue -/
structure BInv (children : α → List α) (s : α) (V visited : List α) (queue : List (Nat × α)) : Prop where
  inV : ∀ k n, (k, n) ∈ queue → n ∈ V
  path : ∀ k n, (k, n) ∈ queue → Path children s k n
  sorted : queue.Pairwise (fun x y => x.1 ≤ y.1)
  near : ∀ x ∈ queue, ∀ y ∈ queue, x.1 ≤ y.1 + 1
  start : s ∈ visited ∨ (0, s) ∈ queue
  vis : ∀ n ∈ visited, ∃ k, Dist children s k n ∧
    ∀ c ∈ children n, c ∈ visited ∨ ∃ j, j ≤ k + 1 ∧ (j, c) ∈ queue

theorem bfs_fuel (children : α → List α) (isResult : Option (α → Bool)) (V : List α)
    (hV : ∀ n ∈ V, ∀ c ∈ children n, c ∈ V) (fuel : Nat) :
    ∀ (visited : List α) (queue : List (Nat × α)), (∀ k n, (k, n) ∈ queue → n ∈ V) →
      queue.length + pend children V visited ≤ fuel →
      ∃ out, bfsLoop children isResult fuel visited queue = .ok out := by
  induction fuel with
  | zero =>
    intro visited queue _ hf
    cases queue with
    | nil => exact ⟨[], by simp [bfsLoop]⟩
    | cons x q => simp at hf
  | succ fuel ih =>
    intro visited queue hq hf
    cases queue with
    | nil => exact ⟨[], by simp [bfsLoop]⟩
    | cons x q =>
      obtain ⟨d, n⟩ := x
      simp only [List.length_cons] at hf
      simp only [bfsLoop]
      by_cases hn : n ∈ visited
      · simp only [hn, if_true]
        exact ih visited q (fun k m h => hq k m (List.mem_cons_of_mem _ h)) (by omega)
      · simp only [hn, if_false]
        have hnV : n ∈ V := hq d n (by simp)
        have hp := pend_step children V visited n hnV hn
        have hl := List.length_filter_le (fun c => decide (c ∉ n :: visited)) (children n)
        obtain ⟨out, ho⟩ := ih (n :: visited)
          (q ++ ((children n).filter (fun c => decide (c ∉ n :: visited))).map (fun c => (d + 1, c)))
          (by
            intro k m h
            rcases List.mem_append.1 h with h | h
            · exact hq k m (List.mem_cons_of_mem _ h)
            · simp only [List.mem_map, List.mem_filter] at h
              obtain ⟨c, ⟨hc, _⟩, he⟩ := h
              cases he
              exact hV n hnV _ hc)
          (by simp only [List.length_append, List.length_map]; omega)
        exact ⟨_, by rw [ho]⟩

omit [DecidableEq α] in
/-- a node popped for the first time is at its distance -/
theorem BInv.dist {children : α → List α} {s : α} {V visited : List α} {d : Nat} {n : α}
    {queue : List (Nat × α)} (h : BInv children s V visited ((d, n) :: queue)) (hn : n ∉ visited) :
    Dist children s d n := by
  refine ⟨h.path d n (by simp), ?_⟩
  have key : ∀ j m, Path children s j m → m ∉ visited → d ≤ j := by
    have hmin : ∀ k m, (k, m) ∈ (d, n) :: queue → d ≤ k := by
      intro k m hm
      rcases List.mem_cons.1 hm with h1 | h1
      · cases h1; exact Nat.le_refl _
      · exact (List.pairwise_cons.1 h.sorted).1 _ h1
    intro j m hp
    induction hp with
    | here =>
      intro hs
      rcases h.start with h1 | h1
      · exact absurd h1 hs
      · exact hmin _ _ h1
    | @step k p c hp hc ih =>
      intro hcv
      by_cases hpv : p ∈ visited
      · obtain ⟨kp, hd, hch⟩ := h.vis p hpv
        rcases hch c hc with h1 | ⟨j, hj, hq⟩
        · exact absurd h1 hcv
        · have := hmin _ _ hq
          have := hd.2 k hp
          omega
      · have := ih hpv
        omega
  exact fun j hp => key j n hp hn

omit [DecidableEq α] in
theorem BInv.skip {children : α → List α} {s : α} {V visited : List α} {d : Nat} {n : α}
    {queue : List (Nat × α)} (h : BInv children s V visited ((d, n) :: queue)) (hn : n ∈ visited) :
    BInv children s V visited queue where
  inV k m hm := h.inV k m (List.mem_cons_of_mem _ hm)
  path k m hm := h.path k m (List.mem_cons_of_mem _ hm)
  sorted := (List.pairwise_cons.1 h.sorted).2
  near x hx y hy := h.near x (List.mem_cons_of_mem _ hx) y (List.mem_cons_of_mem _ hy)
  start := by
    rcases h.start with h1 | h1
    · exact Or.inl h1
    · rcases List.mem_cons.1 h1 with h2 | h2
      · cases h2; exact Or.inl hn
      · exact Or.inr h2
  vis m hm := by
    obtain ⟨k, hd, hch⟩ := h.vis m hm
    refine ⟨k, hd, fun c hc => ?_⟩
    rcases hch c hc with h1 | ⟨j, hj, hq⟩
    · exact Or.inl h1
    · rcases List.mem_cons.1 hq with h2 | h2
      · cases h2; exact Or.inl hn
      · exact Or.inr ⟨j, hj, h2⟩

theorem BInv.visit {children : α → List α} {s : α} {V visited : List α} {d : Nat} {n : α}
    {queue : List (Nat × α)} (hV : ∀ n ∈ V, ∀ c ∈ children n, c ∈ V)
    (h : BInv children s V visited ((d, n) :: queue)) (hn : n ∉ visited) :
    BInv children s V (n :: visited)
      (queue ++ ((children n).filter (fun c => decide (c ∉ n :: visited))).map (fun c => (d + 1, c))) := by
  have hnew : ∀ k c, (k, c) ∈ ((children n).filter (fun c => decide (c ∉ n :: visited))).map
      (fun c => (d + 1, c)) → k = d + 1 ∧ c ∈ children n := by
    intro k c hm
    simp only [List.mem_map, List.mem_filter] at hm
    obtain ⟨c', ⟨hc, _⟩, he⟩ := hm
    cases he
    exact ⟨rfl, hc⟩
  have hd := h.dist hn
  refine ⟨?_, ?_, ?_, ?_, ?_, ?_⟩
  · intro k m hm
    rcases List.mem_append.1 hm with h1 | h1
    · exact h.inV k m (List.mem_cons_of_mem _ h1)
    · exact hV n (h.inV d n (by simp)) _ (hnew k m h1).2
  · intro k m hm
    rcases List.mem_append.1 hm with h1 | h1
    · exact h.path k m (List.mem_cons_of_mem _ h1)
    · obtain ⟨rfl, hc⟩ := hnew k m h1
      exact Path.step hd.1 hc
  · rw [List.pairwise_append]
    refine ⟨(List.pairwise_cons.1 h.sorted).2, ?_, ?_⟩
    · rw [List.pairwise_iff_forall_sublist]
      intro x y hs
      have hx := hnew x.1 x.2 (hs.subset (by simp))
      have hy := hnew y.1 y.2 (hs.subset (by simp))
      omega
    · intro x hx y hy
      have := (hnew y.1 y.2 hy).1
      have := h.near x (List.mem_cons_of_mem _ hx) (d, n) (by simp)
      simp only at this
      omega
  · have hmin : ∀ x ∈ queue, d ≤ x.1 := (List.pairwise_cons.1 h.sorted).1
    have hmax : ∀ x ∈ queue, x.1 ≤ d + 1 := fun x hx => h.near x (List.mem_cons_of_mem _ hx) (d, n) (by simp)
    intro x hx y hy
    rcases List.mem_append.1 hx with h1 | h1 <;> rcases List.mem_append.1 hy with h2 | h2
    · have := hmax x h1; have := hmin y h2; omega
    · have := hmax x h1; have := (hnew y.1 y.2 h2).1; omega
    · have := (hnew x.1 x.2 h1).1; have := hmin y h2; omega
    · have := (hnew x.1 x.2 h1).1; have := (hnew y.1 y.2 h2).1; omega
  · rcases h.start with h1 | h1
    · exact Or.inl (List.mem_cons_of_mem _ h1)
    · rcases List.mem_cons.1 h1 with h2 | h2
      · cases h2; exact Or.inl (by simp)
      · exact Or.inr (List.mem_append_left _ h2)
  · intro m hm
    rcases List.mem_cons.1 hm with rfl | hm
    · refine ⟨d, hd, fun c hc => ?_⟩
      by_cases hcv : c ∈ m :: visited
      · exact Or.inl hcv
      · refine Or.inr ⟨d + 1, Nat.le_refl _, List.mem_append_right _ ?_⟩
        simp only [List.mem_map, List.mem_filter, decide_eq_true_eq]
        exact ⟨c, ⟨hc, hcv⟩, rfl⟩
    · obtain ⟨k, hk, hch⟩ := h.vis m hm
      refine ⟨k, hk, fun c hc => ?_⟩
      rcases hch c hc with h1 | ⟨j, hj, hq⟩
      · exact Or.inl (List.mem_cons_of_mem _ h1)
      · rcases List.mem_cons.1 hq with h2 | h2
        · cases h2; exact Or.inl (by simp)
        · exact Or.inr ⟨j, hj, List.mem_append_left _ h2⟩

omit [DecidableEq α] in
theorem Dist.unique {children : α → List α} {s n : α} {k j : Nat} (h1 : Dist children s k n)
    (h2 : Dist children s j n) : k = j := Nat.le_antisymm (h1.2 _ h2.1) (h2.2 _ h1.1)

theorem bfs_correct (children : α → List α) (isResult : Option (α → Bool)) (s : α) (V : List α)
    (hV : ∀ n ∈ V, ∀ c ∈ children n, c ∈ V) (fuel : Nat) :
    ∀ (visited : List α) (queue : List (Nat × α)) (out : List (Nat × α)),
      BInv children s V visited queue → bfsLoop children isResult fuel visited queue = .ok out →
      (∀ k n, (k, n) ∈ out ↔ n ∉ visited ∧ Dist children s k n ∧ wanted isResult n = true) ∧
      (out.map (·.2)).Nodup ∧ out.Pairwise (fun x y => x.1 ≤ y.1) ∧
      (∀ d, (∀ x ∈ queue, d ≤ x.1) → ∀ x ∈ out, d ≤ x.1) := by
  induction fuel with
  | zero =>
    intro visited queue out h ho
    cases queue with
    | nil =>
      simp only [bfsLoop, Except.ok.injEq] at ho
      subst ho
      refine ⟨fun k n => ?_, by simp, by simp, by simp⟩
      simp only [List.not_mem_nil, false_iff, not_and]
      intro hn hd
      exfalso
      have : ∀ j m, Path children s j m → m ∈ visited := by
        intro j m hp
        induction hp with
        | here => rcases h.start with h1 | h1 <;> simp_all
        | step _ hc ih =>
          obtain ⟨_, _, hch⟩ := h.vis _ ih
          rcases hch _ hc with h1 | ⟨_, _, h1⟩ <;> simp_all
      exact hn (this k n hd.1)
    | cons x q => simp [bfsLoop] at ho
  | succ fuel ih =>
    intro visited queue out h ho
    cases queue with
    | nil =>
      simp only [bfsLoop, Except.ok.injEq] at ho
      subst ho
      refine ⟨fun k n => ?_, by simp, by simp, by simp⟩
      simp only [List.not_mem_nil, false_iff, not_and]
      intro hn hd
      exfalso
      have : ∀ j m, Path children s j m → m ∈ visited := by
        intro j m hp
        induction hp with
        | here => rcases h.start with h1 | h1 <;> simp_all
        | step _ hc ih =>
          obtain ⟨_, _, hch⟩ := h.vis _ ih
          rcases hch _ hc with h1 | ⟨_, _, h1⟩ <;> simp_all
      exact hn (this k n hd.1)
    | cons x q =>
      obtain ⟨d, n⟩ := x
      simp only [bfsLoop] at ho
      by_cases hn : n ∈ visited
      · simp only [hn, if_true] at ho
        obtain ⟨h1, h2, h3, h4⟩ := ih visited q out (h.skip hn) ho
        exact ⟨h1, h2, h3, fun d' hd' => h4 d' (fun x hx => hd' x (List.mem_cons_of_mem _ hx))⟩
      · simp only [hn, if_false] at ho
        cases hr : bfsLoop children isResult fuel (n :: visited) (q ++ ((children n).filter
            (fun c => decide (c ∉ n :: visited))).map (fun c => (d + 1, c))) with
        | error e => rw [hr] at ho; simp at ho
        | ok out' =>
          rw [hr] at ho
          simp only [Except.ok.injEq] at ho
          obtain ⟨h1, h2, h3, h4⟩ := ih _ _ out' (h.visit hV hn) hr
          have hmin : ∀ x ∈ q, d ≤ x.1 := (List.pairwise_cons.1 h.sorted).1
          have hge : ∀ x ∈ out', d ≤ x.1 := h4 d (by
            intro x hx
            rcases List.mem_append.1 hx with hx | hx
            · exact hmin x hx
            · simp only [List.mem_map] at hx
              obtain ⟨c, _, rfl⟩ := hx
              simp)
          have hd := h.dist hn
          have hnout : ∀ k, (k, n) ∉ out' := fun k hk => ((h1 k n).1 hk).1 (by simp)
          have hiff : ∀ k m, (k, m) ∈ out ↔ (k, m) ∈ out' ∨ (k = d ∧ m = n ∧ wanted isResult n = true) := by
            intro k m
            subst ho
            split <;> rename_i hw <;> simp [hw, Prod.ext_iff, or_comm]
          refine ⟨fun k m => ?_, ?_, ?_, ?_⟩
          · rw [hiff, h1]
            constructor
            · rintro (⟨a, b, c⟩ | ⟨rfl, rfl, c⟩)
              · exact ⟨fun hm => a (List.mem_cons_of_mem _ hm), b, c⟩
              · exact ⟨hn, hd, c⟩
            · rintro ⟨a, b, c⟩
              by_cases hm : m = n
              · subst hm
                exact Or.inr ⟨Dist.unique b hd, rfl, c⟩
              · exact Or.inl ⟨by simp [hm, a], b, c⟩
          · subst ho
            split
            · simp only [List.map_cons, List.nodup_cons]
              refine ⟨?_, h2⟩
              simp only [List.mem_map, not_exists, not_and]
              rintro ⟨k, m⟩ hx rfl
              exact hnout k hx
            · exact h2
          · subst ho
            split
            · exact List.pairwise_cons.2 ⟨fun x hx => hge x hx, h3⟩
            · exact h3
          · intro d' hd' x hx
            have hdd : d' ≤ d := hd' (d, n) (by simp)
            rcases (hiff x.1 x.2).1 hx with h5 | ⟨h5, _⟩
            · exact Nat.le_trans hdd (hge _ h5)
            · omega

/-- C48. On every finite graph `bfs` ends within one step per edge (and the fuel of the model plays no role
beyond that), and it yields exactly the wanted reachable nodes, each once, each with the length of its
shortest path, in nondecreasing depth. -/
theorem C48_bfs (children : α → List α) (isResult : Option (α → Bool)) (s : α) (V : List α)
    (hV : FiniteFrom children s V) :
    ∀ fuel, edges children V ≤ fuel → ∃ out, bfs fuel s children isResult = .ok out ∧
      (∀ k n, (k, n) ∈ out ↔ Dist children s k n ∧ (∀ f, isResult = some f → f n = true)) ∧
      (out.map (·.2)).Nodup ∧ out.Pairwise (fun x y => x.1 ≤ y.1) := by
  intro fuel hf
  obtain ⟨out, ho⟩ := bfs_fuel children isResult V hV.closed fuel [] [(0, s)]
    (by intro k n h; simp only [List.mem_singleton] at h; cases h; exact hV.start)
    (by rw [pend_nil]; simpa [edges] using hf)
  have hinv : BInv children s V [] [(0, s)] := by
    refine ⟨?_, ?_, by simp, by simp, Or.inr (by simp), by simp⟩
    · intro k n h; simp only [List.mem_singleton] at h; cases h; exact hV.start
    · intro k n h; simp only [List.mem_singleton] at h; cases h; exact Path.here
  obtain ⟨h1, h2, h3, _⟩ := bfs_correct children isResult s V hV.closed fuel _ _ out hinv ho
  refine ⟨out, ho, fun k n => ?_, h2, h3⟩
  rw [h1]
  have : wanted isResult n = true ↔ ∀ f, isResult = some f → f n = true := by
    unfold wanted; cases isResult <;> simp
  rw [this]
  simp

/-- the bound on the fuel only depends on the graph: any two sufficient amounts give the same result -/
theorem bfs_fuel_irrelevant (children : α → List α) (isResult : Option (α → Bool)) (f : Nat) :
    ∀ (g : Nat) (visited : List α) (queue out : List (Nat × α)),
    bfsLoop children isResult f visited queue = .ok out → f ≤ g →
    bfsLoop children isResult g visited queue = .ok out := by
  induction f with
  | zero =>
    intro g visited queue out h _
    cases queue with
    | nil => simpa [bfsLoop] using h
    | cons x q => simp [bfsLoop] at h
  | succ f ih =>
    intro g visited queue out h hg
    obtain ⟨g, rfl⟩ : ∃ g', g = g' + 1 := ⟨g - 1, by omega⟩
    cases queue with
    | nil => simpa [bfsLoop] using h
    | cons x q =>
      obtain ⟨d, n⟩ := x
      simp only [bfsLoop] at h ⊢
      by_cases hn : n ∈ visited
      · simp only [hn, if_true] at h ⊢
        exact ih g _ _ _ h (by omega)
      · simp only [hn, if_false] at h ⊢
        cases hr : bfsLoop children isResult f (n :: visited) (q ++ ((children n).filter
            (fun c => decide (c ∉ n :: visited))).map (fun c => (d + 1, c))) with
        | error e => rw [hr] at h; simp at h
        | ok out' =>
          rw [hr] at h
          rw [ih g _ _ _ hr (by omega)]
          exact h

/-! ### depth first search -/

theorem dfs_fuel (children : α → List α) (isResult : Option (α → Bool)) (V : List α)
    (hV : ∀ n ∈ V, ∀ c ∈ children n, c ∈ V) (fuel : Nat) :
    ∀ (visited stack : List α), (∀ n ∈ stack, n ∈ V) →
      stack.length + pend children V visited ≤ fuel →
      ∃ out, dfsLoop children isResult fuel visited stack = .ok out := by
  induction fuel with
  | zero =>
    intro visited stack _ hf
    cases stack with
    | nil => exact ⟨[], by simp [dfsLoop]⟩
    | cons x q => simp at hf
  | succ fuel ih =>
    intro visited stack hq hf
    cases stack with
    | nil => exact ⟨[], by simp [dfsLoop]⟩
    | cons n q =>
      simp only [List.length_cons] at hf
      simp only [dfsLoop]
      by_cases hn : n ∈ visited
      · simp only [hn, if_true]
        exact ih visited q (fun m h => hq m (List.mem_cons_of_mem _ h)) (by omega)
      · simp only [hn, if_false]
        have hnV : n ∈ V := hq n (by simp)
        have hp := pend_step children V visited n hnV hn
        have hl := List.length_filter_le (fun c => decide (c ∉ n :: visited)) (children n)
        obtain ⟨out, ho⟩ := ih (n :: visited)
          ((children n).filter (fun c => decide (c ∉ n :: visited)) ++ q)
          (by
            intro m h
            rcases List.mem_append.1 h with h | h
            · exact hV n hnV _ (List.mem_filter.1 h).1
            · exact hq m (List.mem_cons_of_mem _ h))
          (by simp only [List.length_append]; omega)
        exact ⟨_, by rw [ho]⟩

/-- filtering by `is_result` does not steer the search -/
theorem dfs_wanted (children : α → List α) (isResult : Option (α → Bool)) (fuel : Nat) :
    ∀ (visited stack out : List α), dfsLoop children none fuel visited stack = .ok out →
      dfsLoop children isResult fuel visited stack = .ok (out.filter (wanted isResult)) := by
  induction fuel with
  | zero =>
    intro visited stack out h
    cases stack with
    | nil => simp only [dfsLoop, Except.ok.injEq] at h ⊢; subst h; rfl
    | cons n q => simp [dfsLoop] at h
  | succ fuel ih =>
    intro visited stack out h
    cases stack with
    | nil => simp only [dfsLoop, Except.ok.injEq] at h ⊢; subst h; rfl
    | cons n q =>
      simp only [dfsLoop] at h ⊢
      by_cases hn : n ∈ visited
      · simp only [hn, if_true] at h ⊢
        exact ih _ _ _ h
      · simp only [hn, if_false] at h ⊢
        cases hr : dfsLoop children none fuel (n :: visited)
            ((children n).filter (fun c => decide (c ∉ n :: visited)) ++ q) with
        | error e => rw [hr] at h; simp at h
        | ok out' =>
          rw [hr] at h
          rw [ih _ _ _ hr]
          simp only [wanted, if_true, Except.ok.injEq] at h ⊢
          subst h
          by_cases hw : wanted isResult n = true
          · have hw' := hw
            simp only [wanted] at hw'
            simp [List.filter_cons, hw, hw']
          · have hw' := hw
            simp only [wanted] at hw'
            simp [List.filter_cons, hw, hw']

/-- invariant of the depth first loops -/
structure DInv (children : α → List α) (s : α) (visited stack : List α) : Prop where
  start : s ∈ visited ∨ s ∈ stack
  reach : ∀ n ∈ stack, Reach children s n
  vreach : ∀ n ∈ visited, Reach children s n
  vis : ∀ n ∈ visited, ∀ c ∈ children n, c ∈ visited ∨ c ∈ stack

omit [DecidableEq α] in
theorem DInv.skip {children : α → List α} {s n : α} {visited stack : List α}
    (h : DInv children s visited (n :: stack)) (hn : n ∈ visited) : DInv children s visited stack where
  start := by
    rcases h.start with h1 | h1
    · exact Or.inl h1
    · rcases List.mem_cons.1 h1 with rfl | h2
      · exact Or.inl hn
      · exact Or.inr h2
  reach m hm := h.reach m (List.mem_cons_of_mem _ hm)
  vreach := h.vreach
  vis m hm c hc := by
    rcases h.vis m hm c hc with h1 | h1
    · exact Or.inl h1
    · rcases List.mem_cons.1 h1 with rfl | h2
      · exact Or.inl hn
      · exact Or.inr h2

theorem DInv.visit {children : α → List α} {s n : α} {visited stack : List α}
    (h : DInv children s visited (n :: stack)) : DInv children s (n :: visited)
      ((children n).filter (fun c => decide (c ∉ n :: visited)) ++ stack) where
  start := by
    rcases h.start with h1 | h1
    · exact Or.inl (List.mem_cons_of_mem _ h1)
    · rcases List.mem_cons.1 h1 with rfl | h2
      · exact Or.inl (by simp)
      · exact Or.inr (List.mem_append_right _ h2)
  reach m hm := by
    rcases List.mem_append.1 hm with h1 | h1
    · obtain ⟨k, hk⟩ := h.reach n (by simp)
      exact ⟨k + 1, Path.step hk (List.mem_filter.1 h1).1⟩
    · exact h.reach m (List.mem_cons_of_mem _ h1)
  vreach m hm := by
    rcases List.mem_cons.1 hm with rfl | h1
    · exact h.reach m (by simp)
    · exact h.vreach m h1
  vis m hm c hc := by
    by_cases hcv : c ∈ n :: visited
    · exact Or.inl hcv
    · rcases List.mem_cons.1 hm with rfl | h1
      · exact Or.inr (List.mem_append_left _ (List.mem_filter.2 ⟨hc, by simpa using hcv⟩))
      · rcases h.vis m h1 c hc with h2 | h2
        · exact absurd (List.mem_cons_of_mem _ h2) hcv
        · rcases List.mem_cons.1 h2 with rfl | h3
          · exact absurd (by simp) hcv
          · exact Or.inr (List.mem_append_right _ h3)

omit [DecidableEq α] in
theorem DInv.done {children : α → List α} {s : α} {visited : List α} (h : DInv children s visited []) :
    ∀ n, Reach children s n → n ∈ visited := by
  rintro n ⟨k, hk⟩
  induction hk with
  | here => rcases h.start with h1 | h1 <;> simp_all
  | step _ hc ih => rcases h.vis _ ih _ hc with h1 | h1 <;> simp_all

theorem dfs_correct (children : α → List α) (s : α) (fuel : Nat) :
    ∀ (visited stack out : List α), DInv children s visited stack →
      dfsLoop children none fuel visited stack = .ok out →
      (∀ n, n ∈ out ↔ n ∉ visited ∧ Reach children s n) ∧ out.Nodup := by
  induction fuel with
  | zero =>
    intro visited stack out h ho
    cases stack with
    | nil =>
      simp only [dfsLoop, Except.ok.injEq] at ho
      subst ho
      refine ⟨fun n => ?_, by simp⟩
      simp only [List.not_mem_nil, false_iff, not_and]
      exact fun hn hr => hn (h.done n hr)
    | cons x q => simp [dfsLoop] at ho
  | succ fuel ih =>
    intro visited stack out h ho
    cases stack with
    | nil =>
      simp only [dfsLoop, Except.ok.injEq] at ho
      subst ho
      refine ⟨fun n => ?_, by simp⟩
      simp only [List.not_mem_nil, false_iff, not_and]
      exact fun hn hr => hn (h.done n hr)
    | cons n q =>
      simp only [dfsLoop] at ho
      by_cases hn : n ∈ visited
      · simp only [hn, if_true] at ho
        exact ih _ _ _ (h.skip hn) ho
      · simp only [hn, if_false] at ho
        cases hr : dfsLoop children none fuel (n :: visited)
            ((children n).filter (fun c => decide (c ∉ n :: visited)) ++ q) with
        | error e => rw [hr] at ho; simp at ho
        | ok out' =>
          rw [hr] at ho
          simp only [wanted, if_true, Except.ok.injEq] at ho
          subst ho
          obtain ⟨h1, h2⟩ := ih _ _ _ h.visit hr
          refine ⟨fun m => ?_, List.nodup_cons.2 ⟨fun hm => ((h1 n).1 hm).1 (by simp), h2⟩⟩
          rw [List.mem_cons, h1]
          constructor
          · rintro (rfl | ⟨a, b⟩)
            · exact ⟨hn, h.reach m (by simp)⟩
            · exact ⟨fun hm => a (List.mem_cons_of_mem _ hm), b⟩
          · rintro ⟨a, b⟩
            by_cases hm : m = n
            · exact Or.inl hm
            · exact Or.inr ⟨by simp [hm, a], b⟩

omit [DecidableEq α] in
theorem Pre.congr {children : α → List α} {vis todo out : List α} (h : Pre children vis todo out) :
    ∀ vis', (∀ n, n ∈ vis ↔ n ∈ vis') → Pre children vis' todo out := by
  induction h with
  | nil vis => exact fun vis' _ => Pre.nil vis'
  | seen hn _ ih => exact fun vis' he => Pre.seen ((he _).1 hn) (ih vis' he)
  | @new vis n todo sub rest hn _ _ ih1 ih2 =>
    intro vis' he
    refine Pre.new (fun h => hn ((he _).2 h)) (ih1 _ (fun m => by simp [he])) (ih2 _ (fun m => by simp [he]))

theorem Pre.filter {children : α → List α} {l vis' out : List α} :
    ∀ {vis : List α}, (∀ n ∈ vis', n ∈ vis) →
      Pre children vis (l.filter (fun c => decide (c ∉ vis'))) out → Pre children vis l out := by
  intro vis hsub h
  induction l generalizing vis out with
  | nil => simpa using h
  | cons a l ih =>
    by_cases ha : a ∈ vis'
    · rw [List.filter_cons_of_neg (by simp [ha])] at h
      exact Pre.seen (hsub a ha) (ih hsub h)
    · rw [List.filter_cons_of_pos (by simp [ha])] at h
      cases h with
      | seen hn h => exact Pre.seen hn (ih hsub h)
      | new hn h1 h2 =>
        exact Pre.new hn h1 (ih (fun n hn => List.mem_append_left _ (List.mem_cons_of_mem _ (hsub n hn))) h2)

omit [DecidableEq α] in
theorem Pre.split {children : α → List α} {a b : List α} : ∀ {vis out : List α},
    Pre children vis (a ++ b) out →
      ∃ x y, out = x ++ y ∧ Pre children vis a x ∧ Pre children (vis ++ x) b y := by
  induction a with
  | nil =>
    intro vis out h
    exact ⟨[], out, rfl, Pre.nil _, Pre.congr h _ (by simp)⟩
  | cons n a ih =>
    intro vis out h
    cases h with
    | seen hn h =>
      obtain ⟨x, y, rfl, h1, h2⟩ := ih h
      exact ⟨x, y, rfl, Pre.seen hn h1, h2⟩
    | @new _ _ _ sub rest hn h1 h2 =>
      obtain ⟨x, y, rfl, h3, h4⟩ := ih h2
      exact ⟨n :: (sub ++ x), y, by simp, Pre.new hn h1 h3, Pre.congr h4 _ (by intro m; simp; grind)⟩

/-- the loop with its explicit stack is the recursive preorder walk -/
theorem dfs_pre (children : α → List α) (fuel : Nat) :
    ∀ (visited stack out : List α), dfsLoop children none fuel visited stack = .ok out →
      Pre children visited stack out := by
  induction fuel with
  | zero =>
    intro visited stack out h
    cases stack with
    | nil => simp only [dfsLoop, Except.ok.injEq] at h; subst h; exact Pre.nil _
    | cons n q => simp [dfsLoop] at h
  | succ fuel ih =>
    intro visited stack out h
    cases stack with
    | nil => simp only [dfsLoop, Except.ok.injEq] at h; subst h; exact Pre.nil _
    | cons n q =>
      simp only [dfsLoop] at h
      by_cases hn : n ∈ visited
      · simp only [hn, if_true] at h
        exact Pre.seen hn (ih _ _ _ h)
      · simp only [hn, if_false] at h
        cases hr : dfsLoop children none fuel (n :: visited)
            ((children n).filter (fun c => decide (c ∉ n :: visited)) ++ q) with
        | error e => rw [hr] at h; simp at h
        | ok out' =>
          rw [hr] at h
          simp only [wanted, if_true, Except.ok.injEq] at h
          subst h
          obtain ⟨x, y, rfl, h1, h2⟩ := Pre.split (ih _ _ _ hr)
          exact Pre.new hn (Pre.filter (fun _ h => h) h1) h2

omit [DecidableEq α] in
/-- the preorder walk is determined by the graph -/
theorem Pre.unique {children : α → List α} {vis todo a : List α} (h : Pre children vis todo a) :
    ∀ b, Pre children vis todo b → a = b := by
  induction h with
  | nil vis => intro b hb; cases hb; rfl
  | seen hn _ ih =>
    intro b hb
    cases hb with
    | seen _ h => exact ih b h
    | new hn' => exact absurd hn hn'
  | new hn _ _ ih1 ih2 =>
    intro b hb
    cases hb with
    | seen hn' => exact absurd hn' hn
    | new _ h1 h2 =>
      have := ih1 _ h1
      subst this
      have := ih2 _ h2
      subst this
      rfl

/-- C49. On every finite graph `dfs` ends within one step per edge. What it yields is the preorder walk of the
graph from the start (the recursive definition `Spec.Graph.Pre`), which begins with the start and lists every
reachable node exactly once, restricted to the wanted nodes. -/
theorem C49_dfs (children : α → List α) (isResult : Option (α → Bool)) (s : α) (V : List α)
    (hV : FiniteFrom children s V) :
    ∃ full, Pre children [] [s] full ∧ full.head? = some s ∧ full.Nodup ∧
      (∀ n, n ∈ full ↔ Reach children s n) ∧
      ∀ fuel, edges children V ≤ fuel → ∃ out, dfs fuel s children isResult = .ok out ∧
        (isResult = none → out = full) ∧ (∀ f, isResult = some f → out = full.filter f) := by
  have hrun : ∀ fuel, edges children V ≤ fuel → ∃ out, dfsLoop children none fuel [] [s] = .ok out := fun fuel hf =>
    dfs_fuel children none V hV.closed fuel [] [s] (by simpa using hV.start)
      (by rw [pend_nil]; simpa [edges] using hf)
  obtain ⟨full, hfull⟩ := hrun _ (Nat.le_refl _)
  have hpre := dfs_pre children _ _ _ _ hfull
  have hinv : DInv children s [] [s] := ⟨Or.inr (by simp), by
    intro n hn; simp only [List.mem_singleton] at hn; subst hn; exact ⟨0, Path.here⟩, by simp, by simp⟩
  obtain ⟨h1, h2⟩ := dfs_correct children s _ _ _ _ hinv hfull
  refine ⟨full, hpre, ?_, h2, fun n => by rw [h1]; simp, ?_⟩
  · cases hpre with
    | seen hn => simp at hn
    | new => rfl
  · intro fuel hf
    obtain ⟨full', hf'⟩ := hrun fuel hf
    have := Pre.unique hpre _ (dfs_pre children _ _ _ _ hf')
    subst this
    refine ⟨_, dfs_wanted children isResult fuel _ _ _ hf', ?_, ?_⟩
    · rintro rfl; simp [wanted]
    · rintro f rfl; rfl

/-! ### leaves -/

/-- what `dfs_leaves` picks from a walk: the nodes all of whose children were seen before -/
def pickLeaves (children : α → List α) (isResult : Option (α → Bool)) : List α → List α → List α
  | _, [] => []
  | vis, n :: rest =>
    if (children n).all (fun c => decide (c ∈ n :: vis)) && wanted isResult n
    then n :: pickLeaves children isResult (n :: vis) rest
    else pickLeaves children isResult (n :: vis) rest

theorem leaves_eq (children : α → List α) (isResult : Option (α → Bool)) (fuel : Nat) :
    ∀ (visited stack out : List α), dfsLoop children none fuel visited stack = .ok out →
      leavesLoop children isResult fuel visited stack = .ok (pickLeaves children isResult visited out) := by
  induction fuel with
  | zero =>
    intro visited stack out h
    cases stack with
    | nil => simp only [dfsLoop, leavesLoop, Except.ok.injEq] at h ⊢; subst h; rfl
    | cons n q => simp [dfsLoop] at h
  | succ fuel ih =>
    intro visited stack out h
    cases stack with
    | nil => simp only [dfsLoop, leavesLoop, Except.ok.injEq] at h ⊢; subst h; rfl
    | cons n q =>
      simp only [dfsLoop, leavesLoop] at h ⊢
      by_cases hn : n ∈ visited
      · simp only [hn, if_true] at h ⊢
        exact ih _ _ _ h
      · simp only [hn, if_false] at h ⊢
        cases hr : dfsLoop children none fuel (n :: visited)
            ((children n).filter (fun c => decide (c ∉ n :: visited)) ++ q) with
        | error e => rw [hr] at h; simp at h
        | ok out' =>
          rw [hr] at h
          rw [ih _ _ _ hr]
          simp only [wanted, if_true, Except.ok.injEq] at h
          subst h
          have he : ((children n).filter (fun c => decide (c ∉ n :: visited))).isEmpty =
              (children n).all (fun c => decide (c ∈ n :: visited)) := by
            rw [Bool.eq_iff_iff, List.isEmpty_iff, List.filter_eq_nil_iff, List.all_eq_true]
            simp only [decide_eq_true_eq, Decidable.not_not]
          simp only [pickLeaves, he]

theorem mem_pickLeaves (children : α → List α) (isResult : Option (α → Bool)) (n : α) (full : List α) :
    ∀ vis, n ∈ pickLeaves children isResult vis full ↔ wanted isResult n = true ∧
      ∃ before after, full = before ++ n :: after ∧ ∀ c ∈ children n, c ∈ vis ∨ c ∈ before ++ [n] := by
  induction full with
  | nil => simp [pickLeaves]
  | cons m rest ih =>
    intro vis
    have key : (n ∈ pickLeaves children isResult vis (m :: rest)) ↔
        (n = m ∧ wanted isResult n = true ∧ ∀ c ∈ children n, c = n ∨ c ∈ vis) ∨
        n ∈ pickLeaves children isResult (m :: vis) rest := by
      simp only [pickLeaves]
      split
      · rename_i h
        simp only [Bool.and_eq_true, List.all_eq_true, decide_eq_true_eq, List.mem_cons] at h
        rw [List.mem_cons]
        constructor
        · rintro (rfl | h1)
          · exact Or.inl ⟨rfl, h.2, h.1⟩
          · exact Or.inr h1
        · rintro (⟨h1, _⟩ | h1)
          · exact Or.inl h1
          · exact Or.inr h1
      · rename_i h
        simp only [Bool.and_eq_true, List.all_eq_true, decide_eq_true_eq, List.mem_cons] at h
        constructor
        · exact Or.inr
        · rintro (⟨rfl, h1, h2⟩ | h1)
          · exact absurd ⟨h2, h1⟩ h
          · exact h1
    rw [key, ih]
    constructor
    · rintro (⟨rfl, h1, h2⟩ | ⟨h1, b, a, rfl, h2⟩)
      · exact ⟨h1, [], rest, rfl, fun c hc => by rcases h2 c hc with h | h <;> simp [h]⟩
      · refine ⟨h1, m :: b, a, rfl, fun c hc => ?_⟩
        have := h2 c hc
        simp only [List.mem_cons, List.mem_append, List.not_mem_nil, or_false, List.cons_append] at this ⊢
        grind
    · rintro ⟨h1, b, a, he, h2⟩
      cases b with
      | nil =>
        simp only [List.nil_append, List.cons.injEq] at he
        obtain ⟨rfl, rfl⟩ := he
        refine Or.inl ⟨rfl, h1, fun c hc => ?_⟩
        have := h2 c hc
        simp only [List.nil_append, List.mem_singleton] at this
        exact this.symm
      | cons x b =>
        simp only [List.cons_append, List.cons.injEq] at he
        obtain ⟨rfl, rfl⟩ := he
        refine Or.inr ⟨h1, b, a, rfl, fun c hc => ?_⟩
        have := h2 c hc
        simp only [List.mem_cons, List.mem_append, List.not_mem_nil, or_false, List.cons_append] at this ⊢
        grind

theorem pickLeaves_sublist (children : α → List α) (isResult : Option (α → Bool)) (full : List α) :
    ∀ vis, (pickLeaves children isResult vis full).Sublist full := by
  induction full with
  | nil => intro vis; exact List.Sublist.refl _
  | cons m rest ih =>
    intro vis
    simp only [pickLeaves]
    split
    · exact (ih _).cons_cons m
    · exact (ih _).cons m

/-- every node of a walk but those given has its parent before it in the walk, or among the nodes seen -/
theorem dfs_parent (children : α → List α) (fuel : Nat) (s : α) :
    ∀ (visited stack out : List α), dfsLoop children none fuel visited stack = .ok out →
      (∀ n ∈ stack, n = s ∨ ∃ p ∈ visited, n ∈ children p) →
      ∀ before n after, out = before ++ n :: after →
        n = s ∨ ∃ p, (p ∈ visited ∨ p ∈ before) ∧ n ∈ children p := by
  induction fuel with
  | zero =>
    intro visited stack out h _ b n a he
    cases stack with
    | nil => simp only [dfsLoop, Except.ok.injEq] at h; subst h; simp at he
    | cons n q => simp [dfsLoop] at h
  | succ fuel ih =>
    intro visited stack out h hst b n a he
    cases stack with
    | nil => simp only [dfsLoop, Except.ok.injEq] at h; subst h; simp at he
    | cons m q =>
      simp only [dfsLoop] at h
      by_cases hm : m ∈ visited
      · simp only [hm, if_true] at h
        exact ih _ _ _ h (fun x hx => hst x (List.mem_cons_of_mem _ hx)) b n a he
      · simp only [hm, if_false] at h
        cases hr : dfsLoop children none fuel (m :: visited)
            ((children m).filter (fun c => decide (c ∉ m :: visited)) ++ q) with
        | error e => rw [hr] at h; simp at h
        | ok out' =>
          rw [hr] at h
          simp only [wanted, if_true, Except.ok.injEq] at h
          subst h
          cases b with
          | nil =>
            simp only [List.nil_append, List.cons.injEq] at he
            obtain ⟨rfl, rfl⟩ := he
            rcases hst m (by simp) with h1 | ⟨p, hp, hc⟩
            · exact Or.inl h1
            · exact Or.inr ⟨p, Or.inl hp, hc⟩
          | cons x b =>
            simp only [List.cons_append, List.cons.injEq] at he
            obtain ⟨rfl, rfl⟩ := he
            have := ih _ _ _ hr (by
              intro y hy
              rcases List.mem_append.1 hy with hy | hy
              · exact Or.inr ⟨m, by simp, (List.mem_filter.1 hy).1⟩
              · rcases hst y (List.mem_cons_of_mem _ hy) with h1 | ⟨p, hp, hc⟩
                · exact Or.inl h1
                · exact Or.inr ⟨p, List.mem_cons_of_mem _ hp, hc⟩) b n a rfl
            rcases this with h1 | ⟨p, hp, hc⟩
            · exact Or.inl h1
            · refine Or.inr ⟨p, ?_, hc⟩
              simp only [List.mem_cons] at hp ⊢
              grind

/-- C50, what the code does on every finite graph: it yields, in preorder and each once, the wanted reachable
nodes whose children all appear in the preorder walk no later than the node itself. In particular every wanted
reachable node without children is yielded. -/
theorem C50_dfs_leaves (children : α → List α) (isResult : Option (α → Bool)) (s : α) (V : List α)
    (hV : FiniteFrom children s V) :
    ∃ full, Pre children [] [s] full ∧
      ∀ fuel, edges children V ≤ fuel → ∃ out, dfsLeaves fuel s children isResult = .ok out ∧
        out.Sublist full ∧ out.Nodup ∧
        (∀ n, n ∈ out ↔ (∀ f, isResult = some f → f n = true) ∧
          ∃ before after, full = before ++ n :: after ∧ ∀ c ∈ children n, c ∈ before ++ [n]) ∧
        (∀ n, Reach children s n → children n = [] → (∀ f, isResult = some f → f n = true) → n ∈ out) := by
  have hrun : ∀ fuel, edges children V ≤ fuel → ∃ out, dfsLoop children none fuel [] [s] = .ok out := fun fuel hf =>
    dfs_fuel children none V hV.closed fuel [] [s] (by simpa using hV.start)
      (by rw [pend_nil]; simpa [edges] using hf)
  obtain ⟨full, hfull⟩ := hrun _ (Nat.le_refl _)
  have hpre := dfs_pre children _ _ _ _ hfull
  have hinv : DInv children s [] [s] := ⟨Or.inr (by simp), by
    intro n hn; simp only [List.mem_singleton] at hn; subst hn; exact ⟨0, Path.here⟩, by simp, by simp⟩
  obtain ⟨h1, h2⟩ := dfs_correct children s _ _ _ _ hinv hfull
  refine ⟨full, hpre, fun fuel hf => ?_⟩
  obtain ⟨full', hf'⟩ := hrun fuel hf
  have := Pre.unique hpre _ (dfs_pre children _ _ _ _ hf')
  subst this
  have hw : ∀ n, wanted isResult n = true ↔ ∀ f, isResult = some f → f n = true := by
    intro n; unfold wanted; cases isResult <;> simp
  have hsub := pickLeaves_sublist children isResult full []
  have hmem : ∀ n, n ∈ pickLeaves children isResult [] full ↔ (∀ f, isResult = some f → f n = true) ∧
      ∃ before after, full = before ++ n :: after ∧ ∀ c ∈ children n, c ∈ before ++ [n] := by
    intro n
    rw [mem_pickLeaves, hw]
    simp
  refine ⟨_, leaves_eq children isResult fuel _ _ _ hf', hsub, h2.sublist hsub, hmem, ?_⟩
  intro n hn hc hwn
  rw [hmem]
  obtain ⟨b, a, he⟩ := List.append_of_mem ((h1 n).2 ⟨by simp, hn⟩)
  exact ⟨hwn, b, a, he, by simp [hc]⟩

/-- C50 on trees: `dfs_leaves` yields exactly the wanted reachable nodes without children, each once. -/
theorem C50_tree_partial (children : α → List α) (isResult : Option (α → Bool)) (s : α) (V : List α)
    (hV : FiniteFrom children s V) (hT : Tree children s) :
    ∀ fuel, edges children V ≤ fuel → ∃ out, dfsLeaves fuel s children isResult = .ok out ∧ out.Nodup ∧
      (∀ n, n ∈ out ↔ Reach children s n ∧ children n = [] ∧ (∀ f, isResult = some f → f n = true)) := by
  intro fuel hf
  obtain ⟨full, hpre, hall⟩ := C50_dfs_leaves children isResult s V hV
  obtain ⟨out, ho, hsub, hnd, hmem, hleaf⟩ := hall fuel hf
  refine ⟨out, ho, hnd, fun n => ⟨?_, fun ⟨a, b, c⟩ => hleaf n a b c⟩⟩
  intro hn
  obtain ⟨hw, b, a, he, hc⟩ := (hmem n).1 hn
  obtain ⟨full', hf'⟩ := dfs_fuel children none V hV.closed fuel [] [s] (by simpa using hV.start)
    (by rw [pend_nil]; simpa [edges] using hf)
  have := Pre.unique hpre _ (dfs_pre children _ _ _ _ hf')
  subst this
  have hinv : DInv children s [] [s] := ⟨Or.inr (by simp), by
    intro n hn; simp only [List.mem_singleton] at hn; subst hn; exact ⟨0, Path.here⟩, by simp, by simp⟩
  obtain ⟨h1, h2⟩ := dfs_correct children s _ _ _ _ hinv hf'
  have hreach : ∀ m ∈ full, Reach children s m := fun m hm => ((h1 m).1 hm).2
  have hrn : Reach children s n := hreach n (by rw [he]; simp)
  refine ⟨hrn, ?_, hw⟩
  have hpar := dfs_parent children fuel s [] [s] full hf' (by simp)
  have hnb : n ∉ b := by
    rw [he, List.nodup_append] at h2
    exact fun hb => h2.2.2 n hb n (by simp) rfl
  cases hch : children n with
  | nil => rfl
  | cons c cs =>
    exfalso
    have hcn : c ∈ children n := by rw [hch]; simp
    have hcs : c ≠ s := fun h => hT.root n hrn (h ▸ hcn)
    have hcb := hc c hcn
    rcases List.mem_append.1 hcb with hcb | hcb
    · obtain ⟨b1, b2, hb⟩ := List.append_of_mem hcb
      rcases hpar b1 c (b2 ++ n :: a) (by rw [he, hb]; simp) with h3 | ⟨p, hp, hpc⟩
      · exact hcs h3
      · simp only [List.not_mem_nil, false_or] at hp
        have hpf : p ∈ b := by rw [hb]; simp [hp]
        have := hT.parent p n c (hreach p (by rw [he]; simp [hpf])) hrn hpc hcn
        exact hnb (this ▸ hpf)
    · simp only [List.mem_singleton] at hcb
      subst hcb
      rcases hpar b c a he with h3 | ⟨p, hp, hpc⟩
      · exact hcs h3
      · simp only [List.not_mem_nil, false_or] at hp
        have := hT.parent p c c (hreach p (by rw [he]; simp [hp])) hrn hpc hcn
        exact hnb (this ▸ hp)


/-! ### children_of -/

namespace Spec

/-- the nodes a field refers to: none when unset, one, or many in order -/
def refsOf (v : Option Value) : List Nat :=
  match v with
  | some (.node n) => [n]
  | some (.nodes ns) => ns
  | _ => []

/-- the field holds what its reference type promises: a node, or a list of nodes -/
def RefOk (t : TName) (v : Option Value) : Prop :=
  (t = .noderef ∧ (v = none ∨ ∃ n, v = some (.node n))) ∨
  (t = .noderefMany ∧ (v = none ∨ ∃ ns, v = some (.nodes ns)))

end Spec

open World

theorem yieldProp_ok (w : World) (L : Nat) (p : Str) (t : DataType) (i : Nat)
    (ht : dget (w.layers L).fields p = some t) (hok : Spec.RefOk t.tname (dget (w.nodes i).fields p)) :
    ∃ k, w.childKind L p = .ok k ∧
      w.yieldProp p k (.node i) = .ok ((Spec.refsOf (dget (w.nodes i).fields p)).map Value.node) := by
  rcases hok with ⟨h1, h2⟩ | ⟨h1, h2⟩
  · refine ⟨false, by simp [childKind, ht, h1], ?_⟩
    rcases h2 with h2 | ⟨n, h2⟩ <;> simp [yieldProp, h2, Spec.refsOf]
  · refine ⟨true, by simp [childKind, ht, h1], ?_⟩
    rcases h2 with h2 | ⟨n, h2⟩ <;> simp [yieldProp, h2, Spec.refsOf, iterValue]

/-- C51 for one property: the function yields exactly the nodes the property refers to, in order. -/
theorem C51_single (w : World) (L : Nat) (p : Str) (t : DataType)
    (ht : dget (w.layers L).fields p = some t) (htn : t.tname = .noderef ∨ t.tname = .noderefMany) :
    ∃ f, w.childrenOf L [p] = .ok f ∧ ∀ i, Spec.RefOk t.tname (dget (w.nodes i).fields p) →
      f (.node i) = ((Spec.refsOf (dget (w.nodes i).fields p)).map Value.node, none) := by
  obtain ⟨k, hk⟩ : ∃ k, w.childKind L p = .ok k := by
    rcases htn with h | h
    · exact ⟨false, by simp [childKind, ht, h]⟩
    · exact ⟨true, by simp [childKind, ht, h]⟩
  refine ⟨_, by simp [childrenOf, hk, bind, Except.bind]; rfl, fun i hi => ?_⟩
  obtain ⟨k', hk', hy⟩ := yieldProp_ok w L p t i ht hi
  rw [hk] at hk'
  cases hk'
  simp [hy]

/-- C51, what is refused: no property at all, a property the layer does not have, a property that does not
refer to nodes. -/
theorem C51_refused (w : World) (L : Nat) (p : Str) (ps : List Str) :
    w.childrenOf L [] = .error .value ∧
    (dget (w.layers L).fields p = none → w.childrenOf L (p :: ps) = .error .key) ∧
    (∀ t, dget (w.layers L).fields p = some t → t.tname ≠ .noderef → t.tname ≠ .noderefMany →
      w.childrenOf L (p :: ps) = .error .value) := by
  refine ⟨rfl, ?_, ?_⟩
  · intro h
    cases ps <;> simp [childrenOf, childKinds, childKind, h, bind, Except.bind]
  · intro t h h1 h2
    cases ps <;> simp [childrenOf, childKinds, childKind, h, h1, h2, bind, Except.bind]

/-- the composed yielder, as long as every property but the last yields nothing -/
theorem yieldAll_ok (w : World) (L : Nat) (i : Nat) (ps : List Str) :
    (∀ p ∈ ps, ∃ t, dget (w.layers L).fields p = some t ∧ Spec.RefOk t.tname (dget (w.nodes i).fields p)) →
    (∀ p ∈ ps.dropLast, Spec.refsOf (dget (w.nodes i).fields p) = []) →
    ∃ ks, w.childKinds L ps = .ok ks ∧ w.yieldAll ks (.node i) =
      (ps.flatMap (fun p => (Spec.refsOf (dget (w.nodes i).fields p)).map Value.node), none) := by
  induction ps with
  | nil => intro _ _; exact ⟨[], rfl, rfl⟩
  | cons p ps ih =>
    intro hok hempty
    obtain ⟨t, ht, hr⟩ := hok p (by simp)
    obtain ⟨k, hk, hy⟩ := yieldProp_ok w L p t i ht hr
    cases ps with
    | nil =>
      refine ⟨[(p, k)], by simp [childKinds, hk, bind, Except.bind], ?_⟩
      simp [yieldAll, hy]
    | cons q ps =>
      obtain ⟨ks, hks, hyk⟩ := ih (fun x hx => hok x (List.mem_cons_of_mem _ hx))
        (fun x hx => hempty x (by simp only [List.dropLast_cons₂]; exact List.mem_cons_of_mem _ hx))
      have hp0 : Spec.refsOf (dget (w.nodes i).fields p) = [] := hempty p (by simp)
      refine ⟨(p, k) :: ks, ?_, ?_⟩
      · rw [childKinds, hk]; simp only [bind, Except.bind]; rw [hks]
      · rw [yieldAll, hy]
        simp [hp0, hyk]

/-- C51 for several properties, as long as only the last one refers to anything in the node at hand. What is
missing for the full statement: two properties that are both set — there the code fails, see
`C51_shadow_fails`. -/
theorem C51_several_partial (w : World) (L : Nat) (i : Nat) (ps : List Str) (hne : ps ≠ [])
    (hok : ∀ p ∈ ps, ∃ t, dget (w.layers L).fields p = some t ∧ Spec.RefOk t.tname (dget (w.nodes i).fields p))
    (hlast : ∀ p ∈ ps.dropLast, Spec.refsOf (dget (w.nodes i).fields p) = []) :
    ∃ f, w.childrenOf L ps = .ok f ∧
      f (.node i) = (ps.flatMap (fun p => (Spec.refsOf (dget (w.nodes i).fields p)).map Value.node), none) := by
  match ps, hne with
  | [p], _ =>
    obtain ⟨t, ht, hr⟩ := hok p (by simp)
    obtain ⟨f, hf, hy⟩ := C51_single w L p t ht (by rcases hr with h | h <;> simp [h.1])
    exact ⟨f, hf, by rw [hy i hr]; simp⟩
  | p :: q :: ps, _ =>
    obtain ⟨ks, hks, hy⟩ := yieldAll_ok w L i (p :: q :: ps) hok hlast
    exact ⟨fun n => w.yieldAll ks n, by simp [childrenOf, hks, bind, Except.bind], hy⟩


/-! ### examples and witnesses -/

namespace Ex

/-- two levels, a shared node, a cycle back to the start and a self loop -/
def g5 : Nat → List Nat
  | 0 => [1, 2]
  | 1 => [3, 0]
  | 2 => [3, 4]
  | 3 => []
  | _ => [4]

/-- a tree with two leaves below node 1 and a leaf 2 -/
def t5 : Nat → List Nat
  | 0 => [1, 2]
  | 1 => [3, 4]
  | _ => []

theorem g5_finite : Spec.Graph.FiniteFrom g5 0 [0, 1, 2, 3, 4] := ⟨by decide, by decide⟩
theorem t5_finite : Spec.Graph.FiniteFrom t5 0 [0, 1, 2, 3, 4] := ⟨by decide, by decide⟩

theorem t5_tree : Spec.Graph.Tree t5 0 := by
  constructor
  · intro n _
    unfold t5; split <;> simp
  · intro p q c _ _ hp hq
    unfold t5 at hp hq
    split at hp <;> split at hq <;> simp_all <;> omega

-- C48, C49: the hypotheses are met by a graph with sharing and cycles
example : Graph.bfs (Spec.Graph.edges g5 [0, 1, 2, 3, 4]) 0 g5 none
    = .ok [(0, 0), (1, 1), (1, 2), (2, 3), (2, 4)] := by decide
example : Graph.bfs 20 0 g5 (some (fun n => n % 2 == 1)) = .ok [(1, 1), (2, 3)] := by decide
example : Graph.dfs (Spec.Graph.edges g5 [0, 1, 2, 3, 4]) 0 g5 none = .ok [0, 1, 3, 2, 4] := by decide
example : Graph.dfs 20 0 g5 (some (fun n => n % 2 == 0)) = .ok [0, 2, 4] := by decide
-- C50 on a tree
example : Graph.dfsLeaves (Spec.Graph.edges t5 [0, 1, 2, 3, 4]) 0 t5 none = .ok [3, 4, 2] := by decide

/-- two sentences pointing at each other -/
def ring : Nat → List Nat
  | 0 => [1]
  | _ => [0]

end Ex

/-- C50 fails in general: on a ring of two nodes `dfs_leaves` yields node 1, which has a child. A node is taken
for a leaf as soon as all its children have been visited. -/
theorem C50_cycle_fails : ∃ (children : Nat → List Nat) (s n : Nat) (V : List Nat) (out : List Nat),
    Spec.Graph.FiniteFrom children s V ∧
    Graph.dfsLeaves (Spec.Graph.edges children V) s children none = .ok out ∧ n ∈ out ∧ children n ≠ [] :=
  ⟨Ex.ring, 0, 1, [0, 1], [1], ⟨by decide, by decide⟩, by decide, by decide, by decide⟩

/-- C50 fails also without cycles: in `0 → 1, 0 → 2, 2 → 1` node 2 is yielded as a leaf. -/
theorem C50_sharing_fails : ∃ (children : Nat → List Nat) (V : List Nat) (rank : Nat → Nat),
    Spec.Graph.FiniteFrom children 0 V ∧ (∀ n, ∀ c ∈ children n, rank c < rank n) ∧
    Graph.dfsLeaves (Spec.Graph.edges children V) 0 children none = .ok [1, 2] ∧ children 2 ≠ [] := by
  refine ⟨fun n => if n = 0 then [1, 2] else if n = 2 then [1] else [], [0, 1, 2],
    fun n => if n = 0 then 2 else if n = 2 then 1 else 0, ⟨by decide, by decide⟩, ?_, by decide, by decide⟩
  intro n c hc
  by_cases h0 : n = 0
  · subst h0
    simp at hc
    rcases hc with rfl | rfl <;> decide
  · by_cases h2 : n = 2
    · subst h2
      simp at hc
      subst hc; decide
    · simp [h0, h2] at hc

namespace Ex

/-- a layer with two reference fields; node 0 has both set, and its `left` child 1 has a `right` of its own -/
def kids : World :=
  let t1 : DataType := ⟨.noderef, true, []⟩
  { World.empty with
    layers := fun _ => { name := "n".toList, fields := [("left".toList, t1), ("right".toList, t1)] }
    nodes := fun i => match i with
      | 0 => { fields := [("left".toList, .node 1), ("right".toList, .node 2)] }
      | 1 => { fields := [("right".toList, .node 3)] }
      | _ => {} }

def runKids (ps : List String) (i : Nat) : Option (List Value × Option PyErr) :=
  match kids.childrenOf 0 (ps.map String.toList) with
  | .ok f => some (f (.node i))
  | .error _ => none

example : runKids ["left"] 0 = some ([.node 1], none) := by decide
example : runKids ["left", "right"] 1 = some ([.node 3], none) := by decide

end Ex

/-- C51 fails for two properties that are both set: node 0 has left child 1 and right child 2, but
`children_of(layer, "left", "right")` yields 1 and then 3, the right child of 1. The loop variable of the inner
loop shadows the node (algorithm.py:64-67). -/
theorem C51_shadow_fails : ∃ (w : World) (L i : Nat) (f : Value → List Value × Option PyErr),
    w.childrenOf L ["left".toList, "right".toList] = .ok f ∧
    dget (w.nodes i).fields "left".toList = some (.node 1) ∧
    dget (w.nodes i).fields "right".toList = some (.node 2) ∧
    f (.node i) = ([.node 1, .node 3], none) :=
  ⟨Ex.kids, 0, 0, fun n => Ex.kids.yieldAll [("left".toList, false), ("right".toList, false)] n,
    by simp [World.childrenOf, World.childKinds, World.childKind, Ex.kids, dget, bind, Except.bind], by decide,
    by decide, by decide⟩

end Verif
