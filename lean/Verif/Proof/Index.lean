import Verif.Model.Index
import Verif.Props.BlockFile
/-
Lemmas on property indexes.
-/
set_option linter.unusedSimpArgs false
namespace Verif

/-! ### equality of keys -/

namespace Obj

/-- a normal form of hashable data: equal data has the same one -/
def nform : Obj → Option (Num ⊕ Obj)
  | .nil => some (.inr .nil)
  | .str s => some (.inr (.str s))
  | .bin s => some (.inr (.bin s))
  | .arr _ => none
  | .map _ => none
  | a => match a.num with
    | some .nan => none
    | some x => some (.inl x)
    | none => none

theorem num_eq (x y : Num) : x.eq y = true ↔ x = y ∧ x ≠ .nan := by
  cases x <;> cases y <;> simp [Num.eq]

theorem pyEq_iff (a b : Obj) : pyEq a b = true ↔ ∃ k, nform a = some k ∧ nform b = some k := by
  rcases a with _ | a | a | a | a | a | a | a <;> rcases b with _ | b | b | b | b | b | b | b <;>
    simp only [pyEq, nform, num] <;>
    (try (generalize floatNum a = X; cases X)) <;> (try (generalize floatNum b = Y; cases Y)) <;>
    simp [Num.eq] <;> exact eq_comm

theorem pyEq_symm {a b : Obj} (h : pyEq a b = true) : pyEq b a = true := by
  rw [pyEq_iff] at h ⊢
  obtain ⟨k, h1, h2⟩ := h
  exact ⟨k, h2, h1⟩

theorem pyEq_trans {a b c : Obj} (h : pyEq a b = true) (g : pyEq b c = true) : pyEq a c = true := by
  rw [pyEq_iff] at h g ⊢
  obtain ⟨k, h1, h2⟩ := h
  obtain ⟨k', h3, h4⟩ := g
  rw [h2] at h3; cases h3
  exact ⟨k, h1, h4⟩

theorem pyEq_congr {a b : Obj} (h : pyEq a b = true) (c : Obj) : pyEq c a = pyEq c b := by
  rw [Bool.eq_iff_iff]
  exact ⟨fun g => pyEq_trans g h, fun g => pyEq_trans g (pyEq_symm h)⟩

end Obj

theorem PropIdx.lookup_add (d : PropIdx) (w v : Obj) (i : Nat) :
    ((d.add w i).lookup v).getD [] = if Obj.pyEq w v then (d.lookup v).getD [] ++ [i] else (d.lookup v).getD [] := by
  induction d with
  | nil =>
    simp only [PropIdx.add, PropIdx.lookup]
    split <;> rfl
  | cons e d ih =>
    obtain ⟨k, l⟩ := e
    simp only [PropIdx.add]
    by_cases hk : Obj.pyEq k w = true
    · rw [if_pos hk]
      simp only [PropIdx.lookup]
      by_cases hw : Obj.pyEq w v = true
      · rw [if_pos (Obj.pyEq_trans hk hw), if_pos (Obj.pyEq_trans hk hw), if_pos hw]
        rfl
      · have : ¬ Obj.pyEq k v = true := fun h => hw (Obj.pyEq_trans (Obj.pyEq_symm hk) h)
        rw [if_neg this, if_neg this, if_neg hw]
    · rw [if_neg hk]
      simp only [PropIdx.lookup]
      by_cases hkv : Obj.pyEq k v = true
      · have : ¬ Obj.pyEq w v = true := fun h => hk (Obj.pyEq_trans hkv (Obj.pyEq_symm h))
        rw [if_pos hkv, if_neg this, if_pos hkv]
      · rw [if_neg hkv, if_neg hkv]
        exact ih

/-! ### sorted sets -/

theorem mem_insertSorted (n m : Nat) (l : List Nat) : m ∈ insertSorted n l ↔ m = n ∨ m ∈ l := by
  induction l with
  | nil => simp [insertSorted]
  | cons x l ih =>
    simp only [insertSorted]
    split
    · simp
    · split
      · rename_i h; subst h; simp
      · simp only [List.mem_cons, ih]
        constructor
        · rintro (h | h | h) <;> simp [h]
        · rintro (h | h | h) <;> simp [h]

theorem insertSorted_sorted (n : Nat) {l : List Nat} (h : l.Pairwise (· < ·)) : (insertSorted n l).Pairwise (· < ·) := by
  induction l with
  | nil => simp [insertSorted]
  | cons x l ih =>
    have hx := List.pairwise_cons.mp h
    simp only [insertSorted]
    split
    · rename_i hn
      refine List.pairwise_cons.mpr ⟨fun y hy => ?_, h⟩
      rcases List.mem_cons.mp hy with rfl | hy
      · exact hn
      · exact Nat.lt_trans hn (hx.1 y hy)
    · split
      · exact h
      · refine List.pairwise_cons.mpr ⟨fun y hy => ?_, ih hx.2⟩
        rcases (mem_insertSorted ..).mp hy with rfl | hy
        · omega
        · exact hx.1 y hy

theorem mem_sortedSet (m : Nat) (l : List Nat) : m ∈ sortedSet l ↔ m ∈ l := by
  unfold sortedSet
  induction l with
  | nil => simp
  | cons x l ih => rw [List.foldr_cons, mem_insertSorted, ih, List.mem_cons]

theorem sortedSet_sorted (l : List Nat) : (sortedSet l).Pairwise (· < ·) := by
  unfold sortedSet
  induction l with
  | nil => exact List.Pairwise.nil
  | cons x l ih => rw [List.foldr_cons]; exact insertSorted_sorted _ ih

theorem sorted_ext : ∀ {a b : List Nat}, a.Pairwise (· < ·) → b.Pairwise (· < ·) → (∀ x, x ∈ a ↔ x ∈ b) → a = b := by
  intro a
  induction a with
  | nil =>
    intro b _ _ h
    cases b with
    | nil => rfl
    | cons y b => have := (h y).mpr (by simp); simp at this
  | cons x a ih =>
    intro b ha hb h
    cases b with
    | nil => have := (h x).mp (by simp); simp at this
    | cons y b =>
      obtain ⟨ha1, ha2⟩ := List.pairwise_cons.mp ha
      obtain ⟨hb1, hb2⟩ := List.pairwise_cons.mp hb
      have hxy : x = y := by
        rcases List.mem_cons.mp ((h x).mp (by simp)) with e | e
        · exact e
        · rcases List.mem_cons.mp ((h y).mpr (by simp)) with e' | e'
          · exact e'.symm
          · have := hb1 x e; have := ha1 y e'; omega
      subst hxy
      rw [ih ha2 hb2 (fun z => ?_)]
      constructor
      · intro hz
        rcases List.mem_cons.mp ((h z).mp (by simp [hz])) with e | e
        · subst e; have := ha1 z hz; omega
        · exact e
      · intro hz
        rcases List.mem_cons.mp ((h z).mpr (by simp [hz])) with e | e
        · subst e; have := hb1 z hz; omega
        · exact e

theorem sortedSet_eq {l : List Nat} {n : Nat} {p : Nat → Bool} (h : ∀ i, i ∈ l ↔ i < n ∧ p i = true) :
    sortedSet l = (List.range n).filter p := by
  apply sorted_ext (sortedSet_sorted l)
  · exact List.Pairwise.filter _ List.pairwise_lt_range
  · intro x
    rw [mem_sortedSet, h, List.mem_filter, List.mem_range]

/-! ### building -/

namespace Spec

/-- what properties() of a MsgpackDocument with these bytes returns, if it is a dict -/
def propsOf (d : Bytes) : Option (Dict Str Obj) :=
  match (MDoc.properties { raw := d, ref := none } []).2 with
  | .ok (.map ps) => some ps
  | _ => none

/-- the property `k` of the document is equal to `v` -/
def hasProp (d : Bytes) (k : Str) (v : Obj) : Bool :=
  match propsOf d with
  | none => false
  | some ps =>
    match dget ps k with
    | none => false
    | some v' => Obj.pyEq v' v

end Spec

theorem properties_docOf (e : (Nat × Nat) × Bytes) : ((docOf e).properties []).2 = (MDoc.properties { raw := e.2, ref := none } []).2 := by
  unfold MDoc.properties MDoc.parseState MDoc.parse1 docOf
  simp only [Nat.lt_add_one, gt_iff_lt, Nat.lt_irrefl, and_self, and_false, if_true, if_false, decide_true, Nat.zero_lt_one]
  cases MDoc.readAt e.2 4 pnext with
  | error x => rfl
  | ok x =>
    obtain ⟨sz, n⟩ := x
    simp only [show ¬ (2 : Nat) < 1 by omega, and_false, if_false]
    cases MDoc.readAt e.2 ((n + 4 : Nat) : Int) (MDoc.decodeProperty []) with
    | error x => rfl
    | ok x => rfl

namespace FileIndex

/-- the document numbers for a value -/
def docsFor (idx : Dict Str PropIdx) (k : Str) (v : Obj) : List Nat := (((dget idx k).getD []).lookup v).getD []

theorem addProp_ok {ps : Dict Str Obj} {i : Nat} {idx idx' : Dict Str PropIdx} {p : Str} (h : addProp ps i idx p = .ok idx')
    (hp : p ∈ dkeys idx) :
    (∀ k, k ∈ dkeys idx' ↔ k ∈ dkeys idx) ∧ ∀ k v j, j ∈ docsFor idx' k v ↔ j ∈ docsFor idx k v ∨
      (k = p ∧ j = i ∧ ∃ v', dget ps k = some v' ∧ Obj.pyEq v' v = true) := by
  unfold addProp at h
  cases hv : dget ps p with
  | none =>
    rw [hv] at h; cases h
    refine ⟨fun _ => Iff.rfl, fun k v j => ?_⟩
    constructor
    · exact .inl
    · rintro (h | ⟨rfl, -, v', h, -⟩)
      · exact h
      · rw [hv] at h; cases h
  | some v0 =>
    rw [hv] at h
    cases hd : dget idx p with
    | none => rw [hd] at h; cases h
    | some d =>
      rw [hd] at h
      simp only at h
      split at h
      · cases h
        refine ⟨fun k => ?_, fun k v j => ?_⟩
        · rw [← dget_isSome_iff, ← dget_isSome_iff, dget_dset]
          split
          · rename_i e; rw [← e, hd]; simp
          · rfl
        · unfold docsFor
          rw [dget_dset]
          by_cases hk : k = p
          · subst hk
            rw [if_pos rfl, hd]
            simp only [Option.getD_some, PropIdx.lookup_add]
            split
            · rename_i he
              rw [List.mem_append, List.mem_singleton]
              constructor
              · rintro (h | h)
                · exact .inl h
                · exact .inr ⟨trivial, h, v0, hv, he⟩
              · rintro (h | ⟨-, h, -⟩)
                · exact .inl h
                · exact .inr h
            · rename_i he
              constructor
              · exact .inl
              · rintro (h | ⟨-, -, v', h, h'⟩)
                · exact h
                · rw [hv] at h; cases h; exact absurd h' he
          · rw [if_neg (fun h => hk h.symm)]
            constructor
            · exact .inl
            · rintro (h | ⟨h, -⟩)
              · exact h
              · exact absurd h hk
      · cases h

theorem addProps_ok {ps : Dict Str Obj} {i : Nat} : ∀ {names : List Str} {idx idx' : Dict Str PropIdx}, addProps ps i names idx = .ok idx' →
    (∀ p ∈ names, p ∈ dkeys idx) →
    (∀ k, k ∈ dkeys idx' ↔ k ∈ dkeys idx) ∧ ∀ k v j, j ∈ docsFor idx' k v ↔ j ∈ docsFor idx k v ∨
      (k ∈ names ∧ j = i ∧ ∃ v', dget ps k = some v' ∧ Obj.pyEq v' v = true) := by
  intro names
  induction names with
  | nil => intro idx idx' h _; cases h; exact ⟨fun _ => Iff.rfl, fun k v j => by simp⟩
  | cons p l ih =>
    intro idx idx' h hp
    simp only [addProps] at h
    cases h1 : addProp ps i idx p with
    | error e => rw [h1] at h; cases h
    | ok idx1 =>
      rw [h1] at h
      obtain ⟨a1, a2⟩ := addProp_ok h1 (hp p (by simp))
      obtain ⟨b1, b2⟩ := ih h (fun q hq => (a1 q).mpr (hp q (by simp [hq])))
      refine ⟨fun k => (b1 k).trans (a1 k), fun k v j => ?_⟩
      rw [b2, a2, List.mem_cons]
      constructor
      · rintro ((h | ⟨h, g⟩) | ⟨h, g⟩)
        · exact .inl h
        · exact .inr ⟨.inl h, g⟩
        · exact .inr ⟨.inr h, g⟩
      · rintro (h | ⟨h | h, g⟩)
        · exact .inl (.inl h)
        · exact .inl (.inr ⟨h, g⟩)
        · exact .inr ⟨h, g⟩

theorem addDocs_ok {names : List Str} : ∀ {es : List ((Nat × Nat) × Bytes)} {i : Nat} {idx idx' : FileIndex},
    addDocs names i (es.map docOf) idx = .ok idx' → (∀ p ∈ names, p ∈ dkeys idx.properties) →
    idx'.docrefs = idx.docrefs ++ es.map (fun e => refVal e.1) ∧
    (∀ k, k ∈ dkeys idx'.properties ↔ k ∈ dkeys idx.properties) ∧
    (∀ k v j, j ∈ docsFor idx'.properties k v ↔ j ∈ docsFor idx.properties k v ∨
      ∃ m e, j = i + m ∧ es[m]? = some e ∧ k ∈ names ∧ Spec.hasProp e.2 k v = true) := by
  intro es
  induction es with
  | nil => intro i idx idx' h _; cases h; exact ⟨by simp, fun _ => Iff.rfl, fun k v j => by simp⟩
  | cons e es ih =>
    intro i idx idx' h hp
    simp only [List.map_cons, addDocs, properties_docOf] at h
    split at h
    · cases h
    · rename_i ps hps
      cases h1 : addProps ps i names idx.properties with
      | error x => rw [h1] at h; cases h
      | ok idx1 =>
        rw [h1] at h
        obtain ⟨a1, a2⟩ := addProps_ok h1 hp
        obtain ⟨b1, b2, b3⟩ := ih h (fun q hq => (a1 q).mpr (hp q hq))
        have hpo : Spec.propsOf e.2 = some ps := by unfold Spec.propsOf; rw [hps]
        have hhas : ∀ k v, (∃ v', dget ps k = some v' ∧ Obj.pyEq v' v = true) ↔ Spec.hasProp e.2 k v = true := by
          intro k v
          unfold Spec.hasProp
          rw [hpo]
          simp only
          cases dget ps k with
          | none => simp
          | some x => simp
        refine ⟨?_, fun k => (b2 k).trans (a1 k), fun k v j => ?_⟩
        · rw [b1]; simp [docOf]
        · rw [b3, a2, hhas]
          constructor
          · rintro ((h | ⟨h, g1, g2⟩) | ⟨m, e', h, g1, g2⟩)
            · exact .inl h
            · exact .inr ⟨0, e, by omega, rfl, h, g2⟩
            · exact .inr ⟨m + 1, e', by omega, by rw [List.getElem?_cons_succ]; exact g1, g2⟩
          · rintro (h | ⟨m, e', h, g1, g2, g3⟩)
            · exact .inl (.inl h)
            · cases m with
              | zero =>
                simp only [List.getElem?_cons_zero, Option.some.injEq] at g1
                subst g1
                exact .inl (.inr ⟨g2, by omega, g3⟩)
              | succ m =>
                rw [List.getElem?_cons_succ] at g1
                exact .inr ⟨m, e', by omega, g1, g2, g3⟩
    · cases h

/-! ### searching -/

theorem hits_ok (idx : FileIndex) : ∀ {conds : List (Str × Obj)}, (∀ e ∈ conds, e.2.hashable = true) →
    idx.hits conds = .ok (conds.map (fun e => docsFor idx.properties e.1 e.2)) := by
  intro conds
  induction conds with
  | nil => intro _; rfl
  | cons e l ih =>
    intro h
    obtain ⟨k, v⟩ := e
    simp only [hits, h (k, v) (by simp), if_true, ih (fun e he => h e (by simp [he])), List.map_cons]
    rfl

theorem hits_error (idx : FileIndex) : ∀ {conds : List (Str × Obj)}, (∃ e ∈ conds, e.2.hashable = false) →
    idx.hits conds = .error .type := by
  intro conds
  induction conds with
  | nil => rintro ⟨e, h, -⟩; cases h
  | cons e l ih =>
    rintro ⟨e', h, h'⟩
    obtain ⟨k, v⟩ := e
    simp only [hits]
    split
    · rename_i hv
      rcases List.mem_cons.mp h with rfl | h
      · rw [h'] at hv; cases hv
      · rw [ih ⟨e', h, h'⟩]
    · rfl

theorem mem_intersect (i : Nat) : ∀ (hs : List (List Nat)) (h : List Nat), i ∈ intersect h hs ↔ ∀ s ∈ h :: hs, i ∈ s := by
  unfold intersect
  intro hs
  induction hs with
  | nil => intro h; simp
  | cons s hs ih =>
    intro h
    rw [List.foldl_cons, ih]
    simp only [List.mem_cons, forall_eq_or_imp, List.mem_filter, decide_eq_true_eq, and_assoc]

end FileIndex

/-- the block is a block of the file, whatever was read from it -/
def InFile (f : BF) (b : Block) : Prop :=
  ∃ pre ds post e1 e2, f.blocks = pre ++ ds :: post ∧ b.position = f.hd.length + (Spec.blocksBytes f.comp pre).length ∧
    BPos b e1 e2 ∧ ds = e1 ++ e2

theorem blockFor_ok {f : BF} (hf : f.Ok) {r : DocReader} (hraw : r.raw = f.raw) (hc : r.codec = f.dec) {last : Option Block}
    (hl : ∀ b, last = some b → InFile f b) {pre ds post} (h1 : f.blocks = pre ++ ds :: post) :
    ∃ r' b e1 e2, FileIndex.blockFor r last (f.hd.length + (Spec.blocksBytes f.comp pre).length) = (r', .ok (some b)) ∧
      r'.raw = f.raw ∧ r'.codec = f.dec ∧ b.position = f.hd.length + (Spec.blocksBytes f.comp pre).length ∧ BPos b e1 e2 ∧ ds = e1 ++ e2 := by
  have hp : Pos f (r.seek (f.hd.length + (Spec.blocksBytes f.comp pre).length)) pre (ds :: post) :=
    ⟨hraw, hc, by simp only [DocReader.seek, hraw], h1, by simp [DocReader.seek]⟩
  obtain ⟨r1, e1, h1', hl1, -⟩ := readblock_some hf.fine hp
  have key : ∃ r' b e1 e2, (r.seek (f.hd.length + (Spec.blocksBytes f.comp pre).length)).readblock = (r', .ok (some b)) ∧
      r'.raw = f.raw ∧ r'.codec = f.dec ∧ b.position = f.hd.length + (Spec.blocksBytes f.comp pre).length ∧ BPos b e1 e2 ∧ ds = e1 ++ e2 :=
    ⟨r1, _, [], ds, e1, h1'.raw, h1'.codec, hl1, BPos.new _ ds, rfl⟩
  cases last with
  | none => exact key
  | some b =>
    simp only [FileIndex.blockFor]
    split
    · exact key
    · rename_i hpos
      simp only [ne_eq, Decidable.not_not] at hpos
      obtain ⟨pre', ds', post', e1, e2, g1, g2, g3, g4⟩ := hl b rfl
      have hlen : (Spec.blocksBytes f.comp pre).length = (Spec.blocksBytes f.comp pre').length := by omega
      obtain ⟨rfl, hs2⟩ := pre_unique hf (h1.symm.trans g1) (fun x hx => by rw [h1]; exact hx) hlen
      simp only [List.cons.injEq] at hs2
      obtain ⟨rfl, rfl⟩ := hs2
      exact ⟨r, b, e1, e2, rfl, hraw, hc, hpos, g3, g4⟩

namespace Spec

/-- what a generator yields that makes these values one after the other, wrapping exceptions in IOError -/
def yielded {α : Type} : List (Except PyErr α) → List α × Option PyErr
  | [] => ([], none)
  | .ok a :: l => (a :: (yielded l).1, (yielded l).2)
  | .error _ :: _ => ([], some .io)

end Spec

/-- a way to read the next document of a block -/
def StepReads {α : Type} (step : Block → Block × Except PyErr α) (g : (Nat × Nat) × Bytes → Except PyErr α) : Prop :=
  ∀ (b : Block) (dpre : List Bytes) (d : Bytes) (dpost : List Bytes), BPos b dpre (d :: dpost) → d.length < 2 ^ 32 → d.take 4 = magic →
    step b = ({ b with unp := ⟨b.unp.src, b.unp.used + (Spec.bpack d).length⟩ }, g ((b.position, b.tell), d))

theorem reads_next : StepReads Block.next (fun e => .ok (docOf e)) := fun _ _ _ _ h hd hm => bnext_some h hd hm

theorem reads_decode : StepReads FileIndex.decodeNext (fun e => decodeMsgpack e.2) := by
  intro b dpre d dpost h hd hm
  have := h.drop
  rw [blockData_cons] at this
  unfold FileIndex.decodeNext
  rw [next_bpack hd this]

theorem readHits_ok {α : Type} {step : Block → Block × Except PyErr α} {g : (Nat × Nat) × Bytes → Except PyErr α} (hg : StepReads step g)
    {f : BF} (hf : f.Ok) : ∀ {es : List ((Nat × Nat) × Bytes)} {is : List Nat} {r : DocReader} {last : Option Block}, r.raw = f.raw →
    r.codec = f.dec → (∀ b, last = some b → InFile f b) → is.map (fun i => f.refs[i]?) = es.map some →
    FileIndex.readHits step (f.refs.map (fun e => refVal e.1)) r last is = Spec.yielded (es.map g) := by
  intro es
  induction es with
  | nil =>
    intro is r last _ _ _ h
    cases is with
    | nil => rfl
    | cons i is => simp at h
  | cons e es ih =>
    intro is r last hraw hc hl h
    cases is with
    | nil => simp at h
    | cons i is =>
      simp only [List.map_cons, List.cons.injEq] at h
      obtain ⟨hi, his⟩ := h
      obtain ⟨a, b, hab, -⟩ : ∃ a b, f.refs = a ++ e :: b ∧ a.length = i := by
        obtain ⟨hlt, he⟩ := List.getElem?_eq_some_iff.mp hi
        refine ⟨f.refs.take i, f.refs.drop (i + 1), ?_, by rw [List.length_take]; omega⟩
        rw [← he, List.getElem_cons_drop, List.take_append_drop]
      obtain ⟨ref, d⟩ := e
      obtain ⟨pre, ds, post, dpre, dpost, g1, g2, g3, -⟩ := refs_split hab
      have href : FileIndex.refOf (refVal ref) = some ref := by
        simp [FileIndex.refOf, refVal]
      obtain ⟨r', b', e1, e2, q1, q2, q3, q4, q5, q6⟩ := blockFor_ok hf hraw hc hl g1
      have hm : ds ∈ f.blocks := by rw [g1]; simp
      have hdm : d ∈ ds := by rw [g2]; simp
      have hb := q5.seek (d1 := dpre) (d2 := d :: dpost) (by rw [← q6, g2])
      have hstep := hg _ _ _ _ hb (hf.fit ds hm d hdm) (hf.magic ds hm d hdm)
      have ht : (b'.seek (Spec.blockData dpre).length).tell = (Spec.blockData dpre).length := hb.pos
      have hpp : (b'.seek (Spec.blockData dpre).length).position = ref.1 := by
        show b'.position = _
        rw [q4, g3]
      have hr2 : ref.2 = (Spec.blockData dpre).length := by rw [g3]
      rw [ht, hpp, ← hr2] at hstep
      have hr1 : ref.1 = f.hd.length + (Spec.blocksBytes f.comp pre).length := by rw [g3]
      rw [← hr1] at q1
      unfold FileIndex.readHits
      rw [List.getElem?_map, hi]
      simp only [Option.map_some, href, q1, hstep]
      cases hgv : g ((ref.1, ref.2), d) with
      | error x => simp only [List.map_cons, Spec.yielded, show g (ref, d) = .error x from hgv]
      | ok x =>
        simp only [List.map_cons, Spec.yielded, show g (ref, d) = .ok x from hgv]
        rw [ih q2 q3 (fun b hb' => ?_) his]
        cases hb'
        refine ⟨pre, ds, post, dpre ++ [d], dpost, g1, ?_, ?_, by rw [g2]; simp⟩
        · rw [← hr1]
        · have hst := hb.step
          rw [hpp] at hst
          rw [hr2]; exact hst

end Verif
