import Verif.Proof.Doc
import Verif.Model.Codec
/-
Encoding looks at the fields of the nodes only through the encoders: other values that are encoded alike give the same data.
-/
namespace Verif
namespace World
set_option linter.unusedSimpArgs false

/-- the same heap with other fields in the nodes -/
def withFields (w : World) (g : NodeId → Dict Str Value) : World :=
  { w with nodes := fun m => { w.nodes m with fields := g m } }

theorem setField_with (w : World) (n : NodeId) (f : Str) (v : Value) :
    w.setField n f v = w.withFields (fun m => if m = n then dset (w.nodes n).fields f v else (w.nodes m).fields) := by
  unfold setField modNode withFields
  congr 1
  funext m
  by_cases h : m = n
  · subst h; simp [upd]
  · simp [upd, h]

variable (g : NodeId → Dict Str Value)

theorem assignIds_with (nodes : NodeId → NodeRec) (i : Int) (l : List (Option NodeId)) :
    assignIds (fun m => { nodes m with fields := g m }) i l = fun m => { assignIds nodes i l m with fields := g m } := by
  induction l generalizing nodes i with
  | nil => rfl
  | cons a l ih =>
    cases a with
    | none => exact ih ..
    | some n =>
      simp only [assignIds]
      rw [← ih]
      congr 1
      funext m
      unfold upd
      split <;> rename_i h
      · subst h; rfl
      · rfl

theorem setId_with (w : World) (n : NodeId) (i : Int) : (w.withFields g).setId n i = (w.setId n i).withFields g := by
  unfold setId modNode withFields
  congr 1
  funext m
  by_cases h : m = n
  · subst h; simp [upd]
  · simp [upd, h]

theorem compactLoop_with (L : LayerId) (ks : List Nat) : ∀ (i : Nat) (w : World),
    compactLoop L ks i (w.withFields g) = ((compactLoop L ks i w).1.withFields g, (compactLoop L ks i w).2) := by
  induction ks with
  | nil => intro i w; rfl
  | cons k ks ih =>
    intro i w
    simp only [compactLoop]
    have e : ((w.withFields g).layers L).slots = (w.layers L).slots := rfl
    rw [e]
    cases h : (w.layers L).slots[k]? with
    | none => exact ih i w
    | some o =>
      cases o with
      | none => exact ih i w
      | some n =>
        simp only
        have : ((w.withFields g).setSlots L ((w.layers L).slots.set i (some n))).setId n i =
            ((w.setSlots L ((w.layers L).slots.set i (some n))).setId n i).withFields g := by
          rw [← setId_with]; rfl
        rw [this]
        exact ih (i + 1) _

theorem compact_with (w : World) (L : LayerId) : (w.withFields g).compact L = (w.compact L).withFields g := by
  unfold compact
  have e : (w.withFields g).layers L = w.layers L := rfl
  rw [e]
  split
  · rfl
  · rw [compactLoop_with]; rfl

theorem compileIds_with (w : World) (L : LayerId) : (w.withFields g).compileIds L = (w.compileIds L).withFields g := by
  simp only [compileIds]
  rw [← compact_with]
  have e : ({ w.withFields g with nodes := assignIds (w.withFields g).nodes 0 (((w.withFields g).iter L).take ((w.withFields g).len L).toNat) } : World) =
      ({ w with nodes := assignIds w.nodes 0 ((w.iter L).take (w.len L).toNat) } : World).withFields g := by
    have := assignIds_with g w.nodes 0 ((w.iter L).take (w.len L).toNat)
    unfold withFields
    simp only
    congr 1
  rw [e]

theorem isValid_with (w : World) (t : DataType) (v : Value) : t.isValid (w.withFields g) v = t.isValid w v := rfl

theorem validateFields_with (w : World) (d : Dict Str Value) (fs : Dict Str DataType) :
    validateFields (w.withFields g) d fs = validateFields w d fs := by
  induction fs with
  | nil => rfl
  | cons e fs ih => obtain ⟨f, t⟩ := e; simp only [validateFields, isValid_with, ih]

/-- the fields `g` count as much as those of `w` for `compile` -/
structure Alike (w : World) (x tv : Bool) (d : Dict Str LayerId) : Prop where
  keys : ∀ m, dkeys (g m) = dkeys (w.nodes m).fields
  spans : ∀ k L f t m, (k, L) ∈ d → (f, t) ∈ (w.layers L).fields → t.tname = .span → m ∈ live (w.layers L).slots →
    dget (g m) f = dget (w.nodes m).fields f
  valid : (tv && !x) = true → ∀ k L f t m, (k, L) ∈ d → (f, t) ∈ (w.layers L).fields → m ∈ live (w.layers L).slots →
    dget (g m) f = dget (w.nodes m).fields f ∨ t.checked = false

theorem Alike.same {g} {w w1 : World} {x tv d} (h : Alike g w x tv d) (s : SameObs w w1) : Alike g w1 x tv d where
  keys m := by rw [(s.node m).2]; exact h.keys m
  spans k L f t m h1 h2 h3 h4 := by
    rw [(s.attrs L).2.1] at h2; rw [s.live] at h4; rw [(s.node m).2]; exact h.spans k L f t m h1 h2 h3 h4
  valid hc k L f t m h1 h2 h3 := by
    rw [(s.attrs L).2.1] at h2; rw [s.live] at h3; rw [(s.node m).2]; exact h.valid hc k L f t m h1 h2 h3

theorem validateFields_alike {w : World} {a b : Dict Str Value} {fs : Dict Str DataType} (hk : dkeys a = dkeys b)
    (h : ∀ f t, (f, t) ∈ fs → dget a f = dget b f ∨ t.checked = false) : validateFields w a fs = validateFields w b fs := by
  induction fs with
  | nil => rfl
  | cons e fs ih =>
    obtain ⟨f, t⟩ := e
    have ih := ih (fun f t ht => h f t (List.mem_cons_of_mem _ ht))
    simp only [validateFields]
    rcases h f t (List.mem_cons_self ..) with e | hc
    · rw [e, ih]
    · have : (dget a f).isSome = (dget b f).isSome := by
        have h1 := dget_isSome_iff a f
        have h2 := dget_isSome_iff b f
        rw [hk] at h1
        rw [Bool.eq_iff_iff]; exact h1.trans h2.symm
      have hv : ∀ v, t.isValid w v = .ok true := by intro v; unfold DataType.isValid; rw [hc]; rfl
      cases ha : dget a f <;> cases hb : dget b f <;> simp [ha, hb, hv] at this ⊢ <;> exact ih

theorem compileValidate_with {w : World} {L : LayerId} (ns : List (Option NodeId)) (hk : ∀ m, dkeys (g m) = dkeys (w.nodes m).fields)
    (h : ∀ m, some m ∈ ns → validateFields w (g m) (w.layers L).fields = validateFields w (w.nodes m).fields (w.layers L).fields) :
    (w.withFields g).compileValidate L ns = w.compileValidate L ns := by
  induction ns with
  | nil => rfl
  | cons a ns ih =>
    cases a with
    | none => rfl
    | some n =>
      have ih := ih (fun m hm => h m (List.mem_cons_of_mem _ hm))
      have e : (w.withFields g).validate L n = w.validate L n := by
        show validateFields (w.withFields g) (g n) (w.layers L).fields = validateFields w _ _
        rw [validateFields_with]; exact h n (List.mem_cons_self ..)
      have e2 : dkeys ((w.withFields g).nodes n).fields = dkeys (w.nodes n).fields := hk n
      simp only [compileValidate]
      rw [e, e2, ih]
      rfl

theorem spanOffsets_with {w : World} {f : Str} (ns : List (Option NodeId)) (h : ∀ m, some m ∈ ns → dget (g m) f = dget (w.nodes m).fields f) :
    ∀ s, spanOffsets (w.withFields g) f ns s = spanOffsets w f ns s := by
  induction ns with
  | nil => intro s; rfl
  | cons a ns ih =>
    intro s
    cases a with
    | none => rfl
    | some n =>
      have ih := ih (fun m hm => h m (List.mem_cons_of_mem _ hm))
      have e : dget ((w.withFields g).nodes n).fields f = dget (w.nodes n).fields f := h n (List.mem_cons_self ..)
      simp only [spanOffsets, e, ih]

theorem layerOffsets_with {w : World} {L : LayerId} (fs : Dict Str DataType)
    (h : ∀ f t m, (f, t) ∈ fs → t.tname = .span → some m ∈ w.iter L → dget (g m) f = dget (w.nodes m).fields f) :
    ∀ offs, layerOffsets (w.withFields g) L fs offs = layerOffsets w L fs offs := by
  induction fs with
  | nil => intro s; rfl
  | cons e fs ih =>
    obtain ⟨f, t⟩ := e
    intro offs
    have ih := ih (fun f t m ht => h f t m (List.mem_cons_of_mem _ ht))
    simp only [layerOffsets]
    split
    · rename_i hs
      have : ∀ s, spanOffsets (w.withFields g) f ((w.withFields g).iter L) s = spanOffsets w f (w.iter L) s :=
        spanOffsets_with g _ (fun m hm => h f t m (List.mem_cons_self ..) hs hm)
      simp only [this, ih]
    · exact ih offs

theorem mem_iter_live {w : World} {L m} (h : some m ∈ w.iter L) : m ∈ live (w.layers L).slots := by
  unfold iter at h
  rw [mem_live]
  split at h
  · exact h
  · exact (List.mem_filter.mp h).1

theorem compileLayers_with {x tv : Bool} (d : Dict Str LayerId) : ∀ {w : World}, Inv w → Alike g w x tv d → ∀ offs,
    compileLayers x tv (w.withFields g) offs d = ((compileLayers x tv w offs d).1.withFields g, (compileLayers x tv w offs d).2) := by
  induction d with
  | nil => intro w _ _ offs; rfl
  | cons e d ih =>
    intro w hi ha offs
    obtain ⟨k, L⟩ := e
    simp only [compileLayers, compileIds_with]
    have s1 : SameObs w (w.compileIds L) := by rw [compileIds_eq hi]; exact sameObs_compact hi L
    have i1 : Inv (w.compileIds L) := by rw [compileIds_eq hi]; exact inv_compact hi L
    have a1 := ha.same s1
    generalize w.compileIds L = w1 at a1 i1
    have hv : (if tv && !x then (w1.withFields g).compileValidate L ((w1.withFields g).iter L) else Except.ok ()) =
        (if tv && !x then w1.compileValidate L (w1.iter L) else Except.ok ()) := by
      split
      · rename_i hc
        exact compileValidate_with g _ a1.keys (fun m hm => validateFields_alike (a1.keys m)
          (fun f t ht => a1.valid hc k L f t m (List.mem_cons_self ..) ht (mem_iter_live hm)))
      · rfl
    have hl : (w1.withFields g).layerOffsets L ((w1.withFields g).layers L).fields offs = w1.layerOffsets L (w1.layers L).fields offs :=
      layerOffsets_with g _ (fun f t m ht hs hm => a1.spans k L f t m (List.mem_cons_self ..) ht hs (mem_iter_live hm)) offs
    rw [hv, hl]
    split
    · rfl
    · split
      · rfl
      · exact ih i1 ⟨a1.keys, fun k L f t m h1 => a1.spans k L f t m (List.mem_cons_of_mem _ h1),
          fun hc k L f t m h1 => a1.valid hc k L f t m (List.mem_cons_of_mem _ h1)⟩ _

theorem compile_with {w : World} (hi : Inv w) {x tv : Bool} (ha : Alike g w x tv w.dl) :
    (w.withFields g).compile x tv = ((w.compile x tv).1.withFields g, (w.compile x tv).2) := by
  have hr : ∀ d, (w.withFields g).schemaRefs d = w.schemaRefs d := by
    intro d
    induction d with
    | nil => rfl
    | cons e d ih => simp only [schemaRefs, ih]; rfl
  have e1 : (w.withFields g).dl = w.dl := rfl
  have e2 : (w.withFields g).dt = w.dt := rfl
  unfold compile
  rw [hr, e1, e2]
  cases hs : w.schemaRefs w.dl with
  | error e => rfl
  | ok r =>
    obtain ⟨ls, ts⟩ := r
    simp only
    split
    · rfl
    · split
      · rfl
      · rw [compileLayers_with g w.dl hi ha]
        cases hc : compileLayers x tv w (w.dt.map fun e => (e.1, [])) w.dl with
        | mk a b => cases b <;> rfl

/-! ### the encoders -/

theorem mapE_alike {α β : Type} {f g : α → Except PyErr β} : ∀ {l : List α}, (∀ a ∈ l, f a = g a) → mapE f l = mapE g l
  | [], _ => rfl
  | a :: l, h => by
    simp only [mapE]
    rw [h a (List.mem_cons_self ..), mapE_alike (fun b hb => h b (List.mem_cons_of_mem _ hb))]

theorem flat_alike {α : Type} {f g : α → Except PyErr (List Obj)} {l : List α} (h : ∀ a ∈ l, f a = g a) :
    (match mapE f l with | .error e => .error e | .ok l => .ok l.flatten : Except PyErr (List Obj)) =
      (match mapE g l with | .error e => .error e | .ok l => .ok l.flatten) := by
  rw [mapE_alike h]

theorem truth_with {w : World} (hk : ∀ m, dkeys (g m) = dkeys (w.nodes m).fields) (v : Value) :
    (w.withFields g).truth v = w.truth v := by
  cases v with
  | node n =>
    have : (g n = []) ↔ ((w.nodes n).fields = []) := by
      have := hk n
      unfold dkeys at this
      constructor <;> intro h <;> rw [h] at this <;> simp at this <;> first | exact this | exact this.symm
    show Except.ok (decide (g n ≠ [])) = Except.ok (decide ((w.nodes n).fields ≠ []))
    simp only [ne_eq, this]
  | data o => cases o <;> rfl
  | _ => rfl

theorem asBytes_with {w : World} (hk : ∀ m, dkeys (g m) = dkeys (w.nodes m).fields) (v : Value) :
    (w.withFields g).asBytes v = w.asBytes v := by
  cases v with
  | node n =>
    have : (g n = []) ↔ ((w.nodes n).fields = []) := by
      have := hk n
      unfold dkeys at this
      constructor <;> intro h <;> rw [h] at this <;> simp at this <;> first | exact this | exact this.symm
    show (if g n = [] then _ else _) = (if (w.nodes n).fields = [] then _ else _)
    simp only [this]
  | data o => cases o <;> rfl
  | _ => rfl

theorem encodeOther_with {w : World} (hk : ∀ m, dkeys (g m) = dkeys (w.nodes m).fields) (t : TName) (v : Value) :
    (w.withFields g).encodeOther t v = w.encodeOther t v := by
  have h1 := truth_with g hk v
  have h2 := asBytes_with g hk v
  have h3 : (w.withFields g).asTruth v = w.asTruth v := by
    unfold asTruth; split
    · rfl
    · exact h1
  have h4 : (w.withFields g).lenZero v = w.lenZero v := by
    unfold lenZero; split <;> first | rfl | rw [h1]
  unfold encodeOther
  split <;> (try simp only [h2, h3, h4]) <;> rfl

theorem encodeCell_with {w : World} (hk : ∀ m, dkeys (g m) = dkeys (w.nodes m).fields) (idx : Dict Int Nat) (t : TName) (v : Value) :
    (w.withFields g).encodeCell idx t v = w.encodeCell idx t v := by
  unfold encodeCell
  split <;> first | rfl | exact encodeOther_with g hk _ _

theorem encodeCol_with {w : World} (hk : ∀ m, dkeys (g m) = dkeys (w.nodes m).fields) {offs f t} (ns : List (Option NodeId))
    (h : ∀ m, some m ∈ ns → ∀ idx, w.encodeCell idx t.tname ((dget (g m) f).getD .none) = w.encodeCell idx t.tname ((dget (w.nodes m).fields f).getD .none)) :
    (w.withFields g).encodeCol offs ns f t = w.encodeCol offs ns f t := by
  unfold encodeCol
  split
  · rfl
  split
  · rfl
  rename_i idx _
  refine flat_alike ?_
  intro n hn
  cases n with
  | none => rfl
  | some m => simp only; rw [encodeCell_with g hk]; exact h m hn idx

theorem wireOf_with {w : World} (hk : ∀ m, dkeys (g m) = dkeys (w.nodes m).fields) {offs}
    (h : ∀ k L f t m, (k, L) ∈ w.dl → (f, t) ∈ (w.layers L).fields → some m ∈ w.iter L → ∀ idx,
      w.encodeCell idx t.tname ((dget (g m) f).getD .none) = w.encodeCell idx t.tname ((dget (w.nodes m).fields f).getD .none)) :
    (w.withFields g).wireOf offs = w.wireOf offs := by
  have e1 : (w.withFields g).encodeTexts offs = w.encodeTexts offs := rfl
  have e2 : mapE ((w.withFields g).encodeEntry offs) (w.withFields g).dl = mapE (w.encodeEntry offs) w.dl := by
    refine mapE_alike ?_
    intro e he
    unfold encodeEntry encodeLayer
    have : mapE ((w.withFields g).encodeField offs e.2) ((w.withFields g).layers e.2).fields = mapE (w.encodeField offs e.2) (w.layers e.2).fields := by
      refine mapE_alike ?_
      intro c hc
      unfold encodeField
      have : (w.withFields g).encodeCol offs ((w.withFields g).iter e.2) c.1 c.2 = w.encodeCol offs (w.iter e.2) c.1 c.2 :=
        encodeCol_with g hk _ (fun m hm => h e.1 e.2 c.1 c.2 m he hc hm)
      rw [this]
    rw [this]
    rfl
  unfold wireOf
  rw [e1, e2]
  rfl

/-- what `toWire` returns with other fields that are encoded alike -/
theorem toWire_with {w : World} (hi : Inv w) {x tv : Bool} (ha : Alike g w x tv w.dl)
    (h : ∀ k L f t m, (k, L) ∈ w.dl → (f, t) ∈ (w.layers L).fields → m ∈ live (w.layers L).slots → ∀ idx,
      (w.compile x tv).1.encodeCell idx t.tname ((dget (g m) f).getD .none) =
        (w.compile x tv).1.encodeCell idx t.tname ((dget (w.nodes m).fields f).getD .none)) :
    ((w.withFields g).toWire x tv).2 = (w.toWire x tv).2 := by
  obtain ⟨i1, s1⟩ := compile_spec hi x tv
  unfold toWire
  rw [compile_with g hi ha]
  cases hc : w.compile x tv with
  | mk w1 r =>
    rw [hc] at h i1 s1
    cases r with
    | error e => rfl
    | ok offs =>
      simp only
      refine wireOf_with g (ha.same s1).keys ?_
      intro k L f t m h1 h2 h3 idx
      rw [s1.dl] at h1; rw [(s1.attrs L).2.1] at h2; rw [(s1.node m).2]
      refine h k L f t m h1 h2 ?_ idx
      rw [← s1.live]; exact mem_iter_live h3

end World
end Verif
