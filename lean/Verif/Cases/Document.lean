import Verif.Props.Schema
import Verif.Props.Compile
import Verif.Props.Codec
import Verif.Props.Graph
import Verif.Props.Query
set_option linter.unusedSimpArgs false
set_option maxRecDepth 20000
set_option exponentiation.threshold 2000

/-! Concrete cases of the claims about schemas, the compiled form, references on the wire, graph search and queries:
each theorem is applied to arguments that meet its hypotheses. -/

namespace Verif

/-! ### schemas -/

/-- C20_accepts: a node of the right layer for `s` -/
example : ∃ w', Ex.wf.addNew 1 [("s".toList, .node 0)] = (w', .ok 4) := by
  refine C20_accepts 1 _ ?_
  intro w' hn _ hl f t v hf hv
  have e : (Ex.wf.layers 1).fields =
    [("s".toList, DataTypes.noderef "a".toList), ("p".toList, DataTypes.int32 (some 7))] := by decide
  rw [e] at hf
  have e2 : dupdate (Ex.wf.layers 1).defaults [("s".toList, .node 0)] = [("s".toList, .node 0), ("p".toList, .int 7)] ∨
      dupdate (Ex.wf.layers 1).defaults [("s".toList, .node 0)] = [("p".toList, .int 7), ("s".toList, .node 0)] := by decide
  simp only [List.mem_cons, Prod.mk.injEq, List.not_mem_nil, or_false] at hf
  have h0 : w'.nodes 0 = Ex.wf.nodes 0 := hn 0 (by decide)
  have h1 : (Ex.wf.nodes 0).coll = some 0 := by decide
  have h2 : (w'.layers 0).name = "a".toList := (hl 0).trans (by decide)
  rcases hf with ⟨rfl, rfl⟩ | ⟨rfl, rfl⟩
  · have : v = .node 0 := by rcases e2 with e2 | e2 <;> (rw [e2] at hv; exact (Option.some.inj hv).symm)
    subst this
    simp [DataTypes.noderef, DataTypes.opts, DataType.isValid, dget, h0, h1, h2, DataType.opt, DataType.boundTo, Except.map, Functor.map, World.collName]
  · have : v = .int 7 := by rcases e2 with e2 | e2 <;> (rw [e2] at hv; exact (Option.some.inj hv).symm)
    subst this
    rfl

/-- C21_accepts, C21_add_many, C21_bound_refused -/
example : (Ex.wf.addMany 1 [2, 3] true true).2 = none :=
  C21_accepts Ex.wf_reachable 1 (by decide) [2, 3] (by decide) (by decide) (by decide) true true (by decide)

example : (Ex.wf.addMany 1 [2, 3] true true).1.iter 1 = [some 1, some 2, some 3] ∧
    dget ((Ex.wf.addMany 1 [2, 3] true true).1.nodes 2).fields "p".toList = some (.int 7) := by
  obtain ⟨h1, -, -, -, h2, -⟩ := C21_add_many Ex.wf_reachable 1 (by decide) [2, 3] (by decide) true true (Ex.wf.addMany 1 [2, 3] true true).1
    (Prod.ext rfl (C21_accepts Ex.wf_reachable 1 (by decide) [2, 3] (by decide) (by decide) (by decide) true true (by decide)))
  exact ⟨h1.trans (by decide), (h2 2 (by decide) "p".toList).trans (by decide)⟩

example : (Ex.wf.addMany 0 [2, 1] true true).2 = some .assertion :=
  C21_bound_refused Ex.wf_reachable 0 (by decide) [2, 1] (by decide) true true 1 (by decide) (by decide)

/-- C22_add_field, C22_remove_field, C22_declared_refused, C22_undeclared_remove -/
example : ∃ w', Ex.wf.addField 1 "q".toList (DataTypes.int32 (some 5)) true = (w', none) ∧ dget (w'.nodes 1).fields "q".toList = some (.int 5) := by
  obtain ⟨w', h1, -, -, -, -, h2, -⟩ := C22_add_field Ex.wf_reachable 1 "q".toList (DataTypes.int32 (some 5)) (by decide)
  exact ⟨w', h1, (h2 1 (.int 5) (by decide) (by decide) "q".toList).trans (by decide)⟩

example : ∃ w', Ex.wf.removeField 1 "s".toList false = (w', true) ∧ dget (w'.nodes 1).fields "s".toList = none ∧
    dget (w'.nodes 2).fields "s".toList = some (.node 0) := by
  obtain ⟨w', h1, -, -, -, -, h2⟩ := C22_remove_field Ex.wf_reachable 1 "s".toList (by decide)
  exact ⟨w', h1, (h2 1 "s".toList).trans (by decide), (h2 2 "s".toList).trans (by decide)⟩

example : Ex.wf.addField 1 "s".toList (DataTypes.int32 none) true = (Ex.wf, some .type) := C22_declared_refused Ex.wf 1 _ _ true (by decide)
example : Ex.wf.removeField 1 "q".toList true = (Ex.wf, false) := C22_undeclared_remove Ex.wf 1 _ true (by decide)

/-- C23_valid_iff_partial -/
example : Spec.InDomain Ex.wf (DataTypes.noderef "a".toList) (.node 0) ∧ ¬ Spec.InDomain Ex.wf (DataTypes.noderef "a".toList) (.node 1) := by
  have hf : Spec.Factory (DataTypes.noderef "a".toList) := ⟨rfl, by simp [DataTypes.noderef, DataTypes.opts]⟩
  refine ⟨(C23_valid_iff_partial Ex.wf_reachable _ hf _ (by intro h; cases h)).mp (by decide), fun h => ?_⟩
  have h1 := (C23_valid_iff_partial Ex.wf_reachable _ hf _ (by intro h; cases h)).mpr h
  have h2 : (DataTypes.noderef "a".toList).isValid Ex.wf (.node 1) = .ok false := by decide
  rw [h2] at h1
  cases h1

/-- C25_referenced_refused_partial, C25_absent -/
example : ∃ e, Ex.wref.removeLayer "a".toList false = (Ex.wref, .error e) :=
  C25_referenced_refused_partial Ex.wref "a".toList (by decide)
    ⟨"b".toList, 1, "s".toList, DataTypes.noderef "a".toList, by decide, by decide, by decide, .inl rfl, rfl⟩

example : Ex.wref.removeLayer "z".toList true = (Ex.wref, .ok (some false)) := C25_absent Ex.wref "z".toList (by decide) true

/-- C24_merge, C24_order_independent, C24_cast_up -/
example : ∃ c, DataType.resolve none [DataTypes.int32 (some 0), DataTypes.float64 none, DataTypes.bool none] = .ok (some c) ∧
    Spec.Widest [DataTypes.int32 (some 0), DataTypes.float64 none, DataTypes.bool none] c :=
  C24_merge _ (by simp) (by
    intro t ht
    simp only [List.mem_cons, List.not_mem_nil, or_false] at ht
    rcases ht with rfl | rfl | rfl <;> (unfold Spec.Numeric; decide))

/-! ### the compiled form -/

/-- C26_schema_error, C26_undeclared -/
example : (Ex.wfull.compile false true).2 ≠ .error .schema ↔ ¬ Spec.Unresolved Ex.wfull :=
  not_congr (C26_schema_error Ex.wfull_reachable (Encodable.complete Ex.wfull_encodable) false true)

example : ¬ Spec.Undeclared Ex.wfull := by
  intro h
  obtain ⟨e, he⟩ := (C26_undeclared Ex.wfull_reachable (Encodable.complete Ex.wfull_encodable)).1 h
  have : (Ex.wfull.compile false true).2.isOk = true := by decide
  rw [he] at this
  cases this

/-- C27_offsets: every offset of a span of the text is in the list -/
example : ∃ w' out l, Ex.wfull.compile false true = (w', .ok out) ∧ dget out "main".toList = some l ∧ 6 ∈ l ∧ 4 ∉ l := by
  have h : ∃ w' out, Ex.wfull.compile false true = (w', .ok out) ∧ dget out "main".toList = some [0, 5, 6, 11] :=
    ⟨_, _, rfl, by decide⟩
  obtain ⟨w', out, h1, h2⟩ := h
  obtain ⟨l, h3, -, -⟩ := C27_offsets Ex.wfull_reachable (Encodable.complete Ex.wfull_encodable) false true h1 "main".toList 0 (by decide)
  rw [h2] at h3
  have h3 := Option.some.inj h3
  exact ⟨w', out, l, h1, h3 ▸ h2, h3 ▸ by decide, h3 ▸ by decide⟩

/-! ### references on the wire -/

/-- C37_noderef_index, C37_nodes_index, C37_nodespan_index: the removed node is not counted -/
example : ∃ wire, (Ex.wfull.toWire false true).2 = .ok wire ∧
    (∃ wl tw col, dget wire.layers "tok".toList = some wl ∧ ("dep".toList, tw, col) ∈ wl.cols ∧ col[0]? = some (.int 1)) ∧
    (∃ wl tw col, dget wire.layers "ent".toList = some wl ∧ ("toks".toList, tw, col) ∈ wl.cols ∧ col[0]? = some (.arr [.int 1, .int 0])) ∧
    (∃ wl tw col, dget wire.layers "ent".toList = some wl ∧ ("rng".toList, tw, col) ∈ wl.cols ∧ col[0]? = some (.arr [.int 0, .int 1])) := by
  obtain ⟨w1, wire, w2, h1, -⟩ := C29_round_trip Ex.wfull_reachable Ex.wfull_encodable false true
  have hok : (Ex.wfull.toWire false true).2 = .ok wire := by rw [h1]
  have hc := Encodable.complete Ex.wfull_encodable
  have a0 : Spec.At Ex.wfull "tok".toList 0 0 := ⟨0, by decide, by decide⟩
  have a2 : Spec.At Ex.wfull "tok".toList 1 2 := ⟨0, by decide, by decide⟩
  have a3 : Spec.At Ex.wfull "ent".toList 0 3 := ⟨1, by decide, by decide⟩
  refine ⟨wire, hok, ?_, ?_, ?_⟩
  · exact C37_noderef_index Ex.wfull_reachable hc hok (L := 0) (by decide) a0 (ty := DataTypes.noderef "tok".toList) (by decide) rfl
      (m := 2) (by decide) a2
  · exact C37_nodes_index Ex.wfull_reachable hc hok (L := 1) (by decide) a3 (ty := DataTypes.noderefMany "tok".toList) (by decide) rfl
      (ms := [2, 0]) (by decide) (by decide) (s := "tok".toList) (p := fun m => if m = 2 then 1 else 0) (by
        intro m hm
        simp only [List.mem_cons, List.not_mem_nil, or_false] at hm
        rcases hm with rfl | rfl
        · exact a2
        · exact a0)
  · exact C37_nodespan_index Ex.wfull_reachable hc hok (L := 1) (by decide) a3 (ty := DataTypes.nodespan "tok".toList) (by decide) rfl
      (l := 0) (r := 2) (by decide) a0 a2

/-- C32_stable_data -/
example : ∃ wire w2, (Ex.wfull.toWire true false).2 = .ok wire ∧ fromWire wire = .ok w2 ∧ (w2.toWire false true).2 = .ok wire :=
  C32_stable_data Ex.wfull_reachable Ex.wfull_encodable true false false true

/-- C64_types_partial, C64_injective -/
example : ∃ tw t', (DataTypes.noderef "tok".toList).encode = .ok tw ∧ tw.decode = .ok t' ∧ t'.tname = .noderef ∧
    t'.options = [("layer".toList, .str "tok".toList)] :=
  C64_types_partial (t := DataTypes.noderef "tok".toList) (by decide) (by
    intro k v h
    simp only [DataTypes.noderef, DataTypes.opts, List.mem_cons, Prod.mk.injEq, List.not_mem_nil, or_false] at h
    rw [h.2]; trivial) (by decide)

/-! ### graphs and queries -/

section
open Graph Spec.Graph

/-- C48_bfs, C49_dfs, C50_dfs_leaves, C50_tree_partial -/
example : ∃ out, bfs 20 0 Ex.g5 none = .ok out ∧ ∀ k n, (k, n) ∈ out ↔ Dist Ex.g5 0 k n ∧ ∀ f : Nat → Bool, none = some f → f n = true := by
  obtain ⟨out, h1, h2, -, -⟩ := C48_bfs Ex.g5 none 0 _ Ex.g5_finite 20 (by decide)
  exact ⟨out, h1, h2⟩

example : Reach Ex.g5 0 4 ∧ ∃ full, dfs 20 0 Ex.g5 none = .ok full ∧ Pre Ex.g5 [] [0] full := by
  obtain ⟨full, h1, -, -, h2, h3⟩ := C49_dfs Ex.g5 none 0 _ Ex.g5_finite
  obtain ⟨out, h4, h5, -⟩ := h3 20 (by decide)
  have h6 : full = [0, 1, 3, 2, 4] := by
    have : dfs 20 0 Ex.g5 none = .ok [0, 1, 3, 2, 4] := by decide
    rw [this] at h4; rw [← h5 rfl]; exact (Except.ok.inj h4).symm
  exact ⟨(h2 4).mp (by rw [h6]; decide), full, by rw [h4, h5 rfl], h1⟩

example : ∃ full out, Pre Ex.g5 [] [0] full ∧ dfsLeaves 20 0 Ex.g5 none = .ok out ∧ out.Sublist full := by
  obtain ⟨full, h1, h2⟩ := C50_dfs_leaves Ex.g5 none 0 _ Ex.g5_finite
  obtain ⟨out, h3, h4, -⟩ := h2 20 (by decide)
  exact ⟨full, out, h1, h3, h4⟩

example : ∃ out, dfsLeaves 20 0 Ex.t5 (some (fun n => n % 2 == 0)) = .ok out ∧
    ∀ n, n ∈ out ↔ Reach Ex.t5 0 n ∧ Ex.t5 n = [] ∧ ∀ f, some (fun n => n % 2 == 0) = some f → f n = true := by
  obtain ⟨out, h1, -, h2⟩ := C50_tree_partial Ex.t5 (some (fun n => n % 2 == 0)) 0 _ Ex.t5_finite Ex.t5_tree 20 (by decide)
  exact ⟨out, h1, h2⟩

end

section
open Spec.Query

/-- C56_meaning, C56_selections, C57_query -/
example : ∀ n ∈ [0, 1, 3], True_ Ex.qW n Ex.qP ↔ Means (True_ Ex.qW n) Ex.qP := by
  intro n hn
  refine (C56_meaning Ex.qW n Ex.qP ?_).2
  have h : ∀ n ∈ [0, 1, 3], ((atoms Ex.qP).all fun a => (Ex.qW.holds n a).toOption.isSome) = true := by decide
  intro a ha
  have := List.all_eq_true.mp (h n hn) a ha
  cases hh : Ex.qW.holds n a with
  | ok b => exact ⟨b, hh⟩
  | error e => rw [hh] at this; cases this

example : Ex.qW.selectFrom (.not Ex.qP) ([0, 1, 3].map some) = .ok [3] :=
  (C56_selections Ex.qW [0, 1, 3] Ex.qP Ex.qP (rp := [0, 1]) (rq := [0, 1]) (by decide) (by decide)).2.2.1

example : ∃ qs' r, Ex.qW.query [] (.layer 0) Ex.qP = .ok (qs', 0) ∧ qs'.iter 0 = some r ∧ ∀ n, n ∈ r ↔ n ∈ [0, 1, 3] ∧ True_ Ex.qW n Ex.qP := by
  obtain ⟨qs', r, h1, h2, -, -, -, h3⟩ := C57_query Ex.qW Ex.qW_reachable [] 0 Ex.qP [0, 1, 3] (by decide) (by
    have h : ∀ n ∈ [0, 1, 3], (Ex.qW.holds n Ex.qP).toOption.isSome = true := by decide
    intro n hn
    have := h n hn
    cases hh : Ex.qW.holds n Ex.qP with
    | ok b => exact ⟨b, hh⟩
    | error e => rw [hh] at this; cases this)
  exact ⟨qs', r, h1, h2, h3⟩

/-- C56_eq, C56_is_any, C56_order_complement -/
example : ¬ True_ Ex.qW 0 (.cmp .ge "i".toList (.int 5)) :=
  (C56_order_complement Ex.qW 0 "i".toList (.int 5) (x := .fin (3 * 2 ^ 1074)) (y := .fin (5 * 2 ^ 1074)) (by decide +kernel) (by decide +kernel) (by simp) (by simp)).1.mp
    (by unfold True_; decide +kernel)

end

end Verif
