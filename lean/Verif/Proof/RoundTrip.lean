import Verif.Proof.BuildDoc
import Verif.Proof.CodecCompile
import Verif.Props.Text
/-
Encoding a valid, compiled document and decoding the result, computed explicitly.
-/
set_option linter.unusedSimpArgs false
namespace Verif
open World

theorem skolem {α β : Type} [Inhabited β] {l : List α} {P : α → β → Prop} (h : ∀ x ∈ l, ∃ y, P x y) :
    ∃ g : α → β, ∀ x ∈ l, P x (g x) := by
  classical
  refine ⟨fun x => if hx : x ∈ l then (h x hx).choose else default, fun x hx => ?_⟩
  simp only [hx, dif_pos]
  exact (h x hx).choose_spec

theorem mapE_ex {α β : Type} [Inhabited β] {f : α → Except PyErr β} {l : List α} {P : α → β → Prop}
    (h : ∀ x ∈ l, ∃ y, f x = .ok y ∧ P x y) : ∃ g : α → β, mapE f l = .ok (l.map g) ∧ ∀ x ∈ l, P x (g x) := by
  obtain ⟨g, hg⟩ := skolem h
  exact ⟨g, mapE_ok (fun x hx => (hg x hx).1), fun x hx => (hg x hx).2⟩

theorem mapE_map {α β γ : Type} (f : β → Except PyErr γ) (g : α → β) (l : List α) :
    mapE f (l.map g) = mapE (fun x => f (g x)) l := by
  induction l with
  | nil => rfl
  | cons x l ih => simp only [List.map_cons, mapE, ih]

section
variable {props : Dict Str Value} {texts : Dict Str (List Str)} {ls : List DLayer}

/-- nodes of the built document -/
theorem build_at (h : (ls.map (·.name)).Nodup) {s : Str} {i n : Nat} : Spec.At (buildDoc props texts ls) s i n ↔
    ∃ k l, ls[k]? = some l ∧ l.name = s ∧ i < l.recs.length ∧ n = baseOf ls k + i := by
  rw [At.iff build_inv]
  constructor
  · rintro ⟨L, h1, h2⟩
    have hk : (ls.map (·.name))[L]? = some s := (dget_zipIdx h).mp h1
    rw [List.getElem?_map] at hk
    cases hl : ls[L]? with
    | none => simp [hl] at hk
    | some l =>
      simp [hl] at hk
      rw [build_layer hl] at h2
      simp only [live_map_some, range'_get] at h2
      exact ⟨L, l, hl, hk, h2.1, h2.2⟩
  · rintro ⟨k, l, h1, rfl, h3, rfl⟩
    refine ⟨k, (dget_zipIdx h).mpr (by simp [h1]), ?_⟩
    rw [build_layer h1]
    simp [List.getElem?_range', h3]

end

/-! ### types and plain values -/

theorem plain_round {v : Value} (h : Spec.PlainVal v) : ∃ o, v.toObj = .ok o ∧ Value.ofObj o = v := by
  cases v with
  | data o => cases o <;> first | exact ⟨_, rfl, rfl⟩ | exact h.elim
  | none => exact ⟨_, rfl, rfl⟩
  | bool => exact ⟨_, rfl, rfl⟩
  | int => exact ⟨_, rfl, rfl⟩
  | float => exact ⟨_, rfl, rfl⟩
  | str => exact ⟨_, rfl, rfl⟩
  | bytes => exact ⟨_, rfl, rfl⟩
  | _ => exact h.elim

instance : Inhabited Obj := ⟨.nil⟩

theorem dict_round {d : Dict Str Value} (h : ∀ k v, (k, v) ∈ d → Spec.PlainVal v) :
    ∃ o, dictToObj d = .ok o ∧ o.map (fun e => (e.1, Value.ofObj e.2)) = d ∧ dkeys o = dkeys d := by
  obtain ⟨g, h1, h2⟩ := mapE_ex (f := fun (e : Str × Value) => match e.2.toObj with | .ok o => .ok (e.1, o) | .error x => .error x)
    (l := d) (P := fun e o => o.1 = e.1 ∧ Value.ofObj o.2 = e.2) (fun e he => by
      obtain ⟨o, ho, hv⟩ := plain_round (h e.1 e.2 he)
      exact ⟨(e.1, o), by simp only [ho], rfl, hv⟩)
  refine ⟨d.map g, h1, ?_, ?_⟩
  · rw [List.map_map]
    conv => rhs; rw [← List.map_id d]
    apply List.map_congr_left
    intro e he
    simp [(h2 e he).1, (h2 e he).2]
  · simp only [dkeys, List.map_map]
    apply List.map_congr_left
    intro e he
    exact (h2 e he).1

/-- the type as it comes back: same name and options, base class -/
def DataType.bare (t : DataType) : DataType := ⟨t.tname, false, t.options⟩

theorem tname_round {n : TName} (h : n ≠ .unknown) : ∃ s, n.wire = .ok s ∧ TName.ofWire s = .ok n := by
  cases n <;> first | exact (h rfl).elim | exact ⟨_, rfl, by decide⟩

instance : Inhabited TypeWire := ⟨⟨[], none⟩⟩

theorem type_round {t : DataType} (h1 : t.tname ≠ .unknown) (h2 : ∀ k v, (k, v) ∈ t.options → Spec.PlainVal v)
    (h3 : "self".toList ∉ dkeys t.options ∧ "typename".toList ∉ dkeys t.options) :
    ∃ tw, t.encode = .ok tw ∧ tw.decode = .ok t.bare := by
  obtain ⟨s, hs, hn⟩ := tname_round h1
  obtain ⟨o, ho, he, hk⟩ := dict_round h2
  unfold DataType.encode
  rw [hs]
  cases hopt : t.options with
  | nil => exact ⟨⟨s, none⟩, rfl, by simp only [TypeWire.decode, hn, DataType.bare, hopt]⟩
  | cons e d =>
    rw [← hopt, ho]
    refine ⟨⟨s, some o⟩, by simp only [hopt], ?_⟩
    simp only [TypeWire.decode, hn, hk, h3.1, h3.2, or_self, if_false, he, DataType.bare]

/-! ### texts -/

theorem segOffsets_accum (segs : List Str) : ∀ pos : Nat, (segOffsets pos segs).map (fun n : Nat => (n : Int)) = Spec.accum pos segs := by
  induction segs with
  | nil => intro pos; rfl
  | cons s segs ih => intro pos; simp only [segOffsets, Spec.accum, List.map_cons, ih]; rw [Int.natCast_add]

theorem sorted_of_pairwise {l : List Int} (h : l.Pairwise (· < ·)) : Spec.Sorted l := by
  induction l with
  | nil => trivial
  | cons a l ih =>
    cases l with
    | nil => trivial
    | cons b l =>
      have h' := List.pairwise_cons.mp h
      exact ⟨by have := h'.1 b (by simp); omega, ih h'.2⟩

theorem text_round (t : TextObj) {l : List Int} (h : l.Pairwise (· < ·)) (h0 : l.head? = some 0)
    (h1 : l.getLast? = some (t.text.length : Int)) :
    (t.compile l).flatten = t.text ∧ (segOffsets 0 (t.compile l)).map (fun n : Nat => (n : Int)) = l := by
  cases l with
  | nil => simp at h0
  | cons a l =>
    simp at h0; subst h0
    have := C07_compile_lossless t l (sorted_of_pairwise h) (by
      rw [List.getLast?_eq_some_getLast (by simp)] at h1
      simpa using h1)
    exact ⟨this.1, by rw [segOffsets_accum]; exact this.2⟩

/-! ### cells -/

/-- a document ready to be encoded -/
structure Ready (w : World) (offs : Dict Str (List Int)) : Prop where
  inv : Inv w
  wf : WF w
  enc : Spec.Encodable w
  compact : ∀ k L, (k, L) ∈ w.dl → Compacted w L
  tab : ∀ c T, dget w.dt c = some T → ∃ l, dget offs c = some l ∧ l.Pairwise (· < ·) ∧ l.head? = some 0 ∧
    l.getLast? = some ((w.texts T).text.length : Int) ∧
    ∀ y, y ∈ l ↔ y = 0 ∨ y = (w.texts T).text.length ∨ Spec.UsedOffset w c y

theorem Ready.id {w offs} (h : Ready w offs) {s i n} (ha : Spec.At w s i n) :
    (w.nodes n).id = (i : Int) ∧ w.nodeI n = .ok (i : Int) := by
  obtain ⟨L, h1, h2⟩ := (At.iff h.inv).mp ha
  have := h.compact s L (dget_mem h1)
  have e : (w.layers L).slots[i]? = some (some n) := by rw [this, List.getElem?_map, h2]; rfl
  have := (h.inv.slot L i n e).2
  exact ⟨this, h.inv.nodeI_ok this⟩

/-- value of a field after decoding its column -/
def preCell (w : World) (t : DataType) (tp : TextId → TextId) : Option Value → Option Value
  | none => none
  | some .none => none
  | some (.bool b) => if t.tname = .bool then some (.bool b) else some (.int (if b then 1 else 0))
  | some (.node n) => some (.int (w.nodes n).id)
  | some (.nodes []) => none
  | some (.nodes ns) => some (.data (.arr (ns.map (fun n => .int (w.nodes n).id))))
  | some (.nodespan l r) => some (.data (.arr [.int (w.nodes l).id, .int ((w.nodes r).id - (w.nodes l).id)]))
  | some (.span T a b) => some (.span (tp T) a b)
  | some v => some v

/-- value of a field after resolving references -/
def finCell (t : DataType) (pl : NodeId → NodeId) (tp : TextId → TextId) : Option Value → Option Value
  | none => none
  | some .none => none
  | some (.bool b) => if t.tname = .bool then some (.bool b) else some (.int (if b then 1 else 0))
  | some (.node n) => some (.node (pl n))
  | some (.nodes []) => none
  | some (.nodes ns) => some (.nodes (ns.map pl))
  | some (.nodespan l r) => some (.nodespan (pl l) (pl r))
  | some (.span T a b) => some (.span (tp T) a b)
  | some v => some v

theorem cell_simple {w offs} (h : Ready w offs) (tp) {t : DataType} {v : Option Value} (hs : t.tname ≠ .span)
    (hk : t.tname ≠ .ext ∧ t.tname ≠ .unknown)
    (hv : ∀ x, v = some x → Spec.CellOk w t x) (idx : Dict Int Nat) :
    ∃ o, w.encodeCell idx t.tname (v.getD .none) = .ok [o] ∧ simpleCell o = .ok (preCell w t tp v) := by
  obtain ⟨tn, ck, op⟩ := t
  simp only at hs hk
  cases v with
  | none =>
    refine ⟨.nil, ?_, rfl⟩
    cases tn <;> first | rfl | exact (hs rfl).elim | exact (hk.1 rfl).elim | exact (hk.2 rfl).elim
  | some x =>
    have := hv x rfl
    cases this with
    | null a b =>
      refine ⟨.nil, ?_, rfl⟩
      cases tn <;> first | rfl | exact (hs rfl).elim | exact (hk.1 rfl).elim | exact (hk.2 rfl).elim
    | int a b => rcases a with a | a <;> cases a <;> exact ⟨_, rfl, rfl⟩
    | intBool a => rcases a with a | a <;> cases a <;> exact ⟨_, rfl, rfl⟩
    | float a => cases a; exact ⟨_, rfl, rfl⟩
    | bool a => cases a; exact ⟨_, rfl, rfl⟩
    | str a b => cases a; exact ⟨_, rfl, rfl⟩
    | bytes a b => cases a; exact ⟨_, rfl, rfl⟩
    | node a b c =>
      cases a
      obtain ⟨e1, e2⟩ := h.id c
      refine ⟨.int (w.nodes _).id, ?_, rfl⟩
      simp only [Option.getD_some, encodeCell, e2, e1]
    | @nodes ns s a b c =>
      cases a
      cases ns with
      | nil => exact ⟨.nil, rfl, rfl⟩
      | cons n ns =>
        refine ⟨.arr ((n :: ns).map (fun n => .int (w.nodes n).id)), ?_, rfl⟩
        have : w.nodeIs (n :: ns) = .ok ((n :: ns).map (fun n => .int (w.nodes n).id)) := by
          apply mapE_ok
          intro m hm
          obtain ⟨i, hi⟩ := c m hm
          obtain ⟨e1, e2⟩ := h.id hi
          simp only [e2, e1]
        simp only [Option.getD_some, encodeCell, this]
    | @nodespan l r s i j a b c d e =>
      cases a
      obtain ⟨e1, e2⟩ := h.id c
      obtain ⟨e3, e4⟩ := h.id d
      refine ⟨.arr [.int (w.nodes l).id, .int ((w.nodes r).id - (w.nodes l).id)], ?_, rfl⟩
      simp only [Option.getD_some, encodeCell, e2, e1, e3, e4]
    | span a b c d e f => exact (hs a).elim

/-- the decoder's text table fits the document -/
def TabOk (w : World) (offs : Dict Str (List Int)) (tab : TextTab) (tp : TextId → TextId) : Prop :=
  ∀ c T l, dget w.dt c = some T → dget offs c = some l → ∃ ol, dget tab c = some (tp T, ol) ∧ ol.map (fun n : Nat => (n : Int)) = l

theorem offsetAt_ok {ol : List Nat} {l : List Int} (h : ol.map (fun n : Nat => (n : Int)) = l) {i : Nat} {y : Int} (hy : l[i]? = some y) :
    offsetAt ol (.int i) = .ok y := by
  subst h
  rw [List.getElem?_map] at hy
  cases ho : ol[i]? with
  | none => simp [ho] at hy
  | some x => simp [ho] at hy; simp [offsetAt, ho, hy]

theorem cell_span {w offs} (h : Ready w offs) {tab tp} (htab : TabOk w offs tab tp) {t : DataType} {v : Option Value}
    (hs : t.tname = .span) {c T l ol} (hc : dget t.options "context".toList = some (.str c)) (hT : dget w.dt c = some T)
    (hl : dget offs c = some l) (hol : dget tab c = some (tp T, ol)) (hm : ol.map (fun n : Nat => (n : Int)) = l)
    (hv : ∀ x, v = some x → Spec.CellOk w t x)
    (hu : ∀ T a b, v = some (.span T a b) → Spec.UsedOffset w c a ∧ Spec.UsedOffset w c b) :
    ∃ p : Obj × Obj, w.encodeCell (offsetIndex l) t.tname (v.getD .none) = .ok [p.1, p.2] ∧
      spanCell (tp T) ol p = .ok (preCell w t tp v) := by
  obtain ⟨l', hl', hlt, -, -, hall⟩ := h.tab c T hT
  rw [hl] at hl'; cases hl'
  cases v with
  | none => exact ⟨(.nil, .nil), by rw [hs]; rfl, rfl⟩
  | some x =>
    have := hv x rfl
    cases this with
    | span a b c d e f =>
      rename_i T' x y c'
      rw [hc] at b; cases b
      rw [hT] at c; cases c
      obtain ⟨u1, u2⟩ := hu _ _ _ rfl
      obtain ⟨i, hi⟩ := List.getElem?_of_mem ((hall _).mpr (.inr (.inr u1)))
      obtain ⟨j, hj⟩ := List.getElem?_of_mem ((hall _).mpr (.inr (.inr u2)))
      refine ⟨(.int i, .int j), ?_, ?_⟩
      · simp only [hs, Option.getD_some, encodeCell, (C27_inverse l hlt i _).mpr hi, (C27_inverse l hlt j _).mpr hj]
      · simp only [spanCell, offsetAt_ok hm hi, offsetAt_ok hm hj, preCell, e, if_true]
    | null _ a => exact (a hs).elim
    | _ => simp_all

theorem pairsOf_flatten (l : List (Obj × Obj)) : pairsOf (l.map (fun p => [p.1, p.2])).flatten = l := by
  induction l with
  | nil => rfl
  | cons p l ih => simp [pairsOf, ih]

theorem zipSet_map {α β : Type} (f : Str) (g : α → Except PyErr (Option Value)) (ns : List β) (d : β → Dict Str Value)
    (c : β → α) (v : β → Option Value) (hg : ∀ n ∈ ns, g (c n) = .ok (v n)) (hf : ∀ n ∈ ns, f ∉ dkeys (d n)) :
    zipSet f g (ns.map d) (ns.map c) = .ok (ns.map (fun n => d n ++ ((v n).map (fun x => (f, x))).toList)) := by
  induction ns with
  | nil => rfl
  | cons n ns ih =>
    simp only [List.map_cons, zipSet, hg n (by simp), ih (fun m hm => hg m (by simp [hm])) (fun m hm => hf m (by simp [hm]))]
    congr 2
    cases v n with
    | none => simp
    | some x => simp [dset_absent x (hf n (by simp))]

theorem spanType_ctx {w : World} {t : DataType} (h : Spec.TypeOk w t) (hs : t.tname = .span) :
    ∃ c T, dget t.options "context".toList = some (.str c) ∧ dget w.dt c = some T := by
  obtain ⟨c, hc, hm⟩ := h.text hs
  obtain ⟨T, hT⟩ := Option.isSome_iff_exists.mp ((dget_isSome_iff w.dt c).mpr hm)
  exact ⟨c, T, hc, hT⟩

/-- One column, there and back. -/
theorem col_round {w offs} (h : Ready w offs) {tab tp} (htab : TabOk w offs tab tp) {k L f t} (hL : (k, L) ∈ w.dl)
    (hf : (f, t) ∈ (w.layers L).fields) :
    ∃ col, w.encodeCol offs (w.iter L) f t = .ok col ∧
      ∀ d : NodeId → Dict Str Value, (∀ n, f ∉ dkeys (d n)) →
        decodeCol noNest tab f t.bare col ((live (w.layers L).slots).map d) =
          .ok ((live (w.layers L).slots).map (fun n => d n ++
            ((preCell w t tp (dget (w.nodes n).fields f)).map (fun x => (f, x))).toList)) := by
  have ht := h.enc.types k L f t hL hf
  have hcell : ∀ n ∈ live (w.layers L).slots, ∀ x, dget (w.nodes n).fields f = some x → Spec.CellOk w t x :=
    fun n hn x hx => h.enc.cells k L n f t x hL (by rw [h.inv.iter_eq]; simpa using hn) hf hx
  by_cases hs : t.tname = .span
  · obtain ⟨c, T, hc, hT⟩ := spanType_ctx ht hs
    obtain ⟨l, hl, -, -, -, -⟩ := h.tab c T hT
    obtain ⟨ol, hol, hm⟩ := htab c T l hT hl
    obtain ⟨g, h1, h2⟩ := mapE_ex
      (f := fun n => w.encodeCell (offsetIndex l) t.tname ((dget (w.nodes n).fields f).getD .none))
      (l := live (w.layers L).slots)
      (P := fun n col => ∃ p : Obj × Obj, col = [p.1, p.2] ∧ spanCell (tp T) ol p = .ok (preCell w t tp (dget (w.nodes n).fields f)))
      (fun n hn => by
        obtain ⟨p, hp, hq⟩ := cell_span h htab hs hc hT hl hol hm (hcell n hn) (by
          intro T' a b hab
          have hsp := hcell n hn _ hab
          cases hsp with
          | span a1 a2 a3 a4 a5 a6 =>
            have base : ∀ y, (y = a ∨ y = b) → Spec.UsedOffset w c y := fun y hy =>
              ⟨k, L, f, t, n, T', a, b, hL, hf, hs, hc, by rw [h.inv.iter_eq]; simpa using hn, hab, hy⟩
            exact ⟨base a (.inl rfl), base b (.inr rfl)⟩)
        exact ⟨_, hp, p, rfl, hq⟩)
    obtain ⟨p, hp⟩ := skolem h2
    refine ⟨((live (w.layers L).slots).map g).flatten, ?_, ?_⟩
    · simp only [encodeCol, hs, if_true, spanIndex, hc, hl, h.inv.iter_eq, mapE_map]
      rw [hs] at h1
      simp [h1]
    · intro d hd
      have : ((live (w.layers L).slots).map g).flatten =
          (((live (w.layers L).slots).map p).map (fun p => [p.1, p.2])).flatten := by
        rw [List.map_map]; congr 1
        exact List.map_congr_left (fun n hn => (hp n hn).1)
      simp only [decodeCol, DataType.bare, hs, hc, hol, this, pairsOf_flatten]
      exact zipSet_map f _ _ d p _ (fun n hn => (hp n hn).2) (fun n _ => hd n)
  · obtain ⟨g, h1, h2⟩ := mapE_ex
      (f := fun n => w.encodeCell [] t.tname ((dget (w.nodes n).fields f).getD .none))
      (l := live (w.layers L).slots)
      (P := fun n col => ∃ o : Obj, col = [o] ∧ simpleCell o = .ok (preCell w t tp (dget (w.nodes n).fields f)))
      (fun n hn => by
        obtain ⟨o, ho, hq⟩ := cell_simple h tp hs ht.kind (hcell n hn) []
        exact ⟨_, ho, o, rfl, hq⟩)
    obtain ⟨p, hp⟩ := skolem h2
    refine ⟨((live (w.layers L).slots).map g).flatten, ?_, ?_⟩
    · simp only [encodeCol, hs, if_false, h.inv.iter_eq, mapE_map, ht.kind.1, ht.kind.2, or_self, h1]
    · intro d hd
      have : ((live (w.layers L).slots).map g).flatten = (live (w.layers L).slots).map p := by
        rw [List.map_congr_left (fun n hn => (hp n hn).1)]
        generalize live (w.layers L).slots = ns
        induction ns with
        | nil => rfl
        | cons n ns ih => simp [ih]
      have hdc : decodeCol noNest tab f t.bare ((live (w.layers L).slots).map p) ((live (w.layers L).slots).map d) =
          zipSet f simpleCell ((live (w.layers L).slots).map d) ((live (w.layers L).slots).map p) := by
        have hk := ht.kind
        obtain ⟨tn, ck, op⟩ := t
        simp only at hs hk
        unfold decodeCol DataType.bare
        cases tn <;> first | rfl | exact (hs rfl).elim | exact (hk.1 rfl).elim
      rw [this, hdc]
      exact zipSet_map f _ _ d p _ (fun n hn => (hp n hn).2) (fun n _ => hd n)

/-! ### layers -/

/-- the decoded dict of one node, before references are resolved -/
def preRec (w : World) (tp : TextId → TextId) (fs : Dict Str DataType) (n : NodeId) : Dict Str Value :=
  fs.filterMap (fun e => (preCell w e.2 tp (dget (w.nodes n).fields e.1)).map (fun x => (e.1, x)))

/-- the decoded dict of one node -/
def finRec (w : World) (pl : NodeId → NodeId) (tp : TextId → TextId) (fs : Dict Str DataType) (n : NodeId) :
    Dict Str Value :=
  fs.filterMap (fun e => (finCell e.2 pl tp (dget (w.nodes n).fields e.1)).map (fun x => (e.1, x)))

/-- a schema as it comes back -/
def bareFields (fs : Dict Str DataType) : Dict Str DataType := fs.map (fun e => (e.1, e.2.bare))

theorem mem_dkeys_filterMap {fs : Dict Str DataType} {g : Str × DataType → Option Value} {k : Str}
    (h : k ∈ dkeys (fs.filterMap (fun e => (g e).map (fun x => (e.1, x))))) : k ∈ dkeys fs := by
  simp only [dkeys, List.mem_map, List.mem_filterMap] at h ⊢
  obtain ⟨e, ⟨x, hx, hv⟩, rfl⟩ := h
  refine ⟨x, hx, ?_⟩
  cases hg : g x with
  | none => simp [hg] at hv
  | some y => simp [hg] at hv; rw [← hv]

theorem nodup_dkeys_filterMap {fs : Dict Str DataType} (hn : (dkeys fs).Nodup) (g : Str × DataType → Option Value) :
    (dkeys (fs.filterMap (fun e => (g e).map (fun x => (e.1, x))))).Nodup := by
  induction fs with
  | nil => simp [dkeys]
  | cons e fs ih =>
    simp only [dkeys, List.map_cons, List.nodup_cons] at hn
    have ih := ih hn.2
    simp only [List.filterMap_cons]
    cases hg : g e with
    | none => simpa [hg] using ih
    | some y =>
      simp only [hg, Option.map_some, dkeys, List.map_cons, List.nodup_cons]
      refine ⟨fun hm => hn.1 (mem_dkeys_filterMap hm), ih⟩

theorem dget_filterMap {fs : Dict Str DataType} (hn : (dkeys fs).Nodup) (g : Str × DataType → Option Value) {f t}
    (h : (f, t) ∈ fs) : dget (fs.filterMap (fun e => (g e).map (fun x => (e.1, x)))) f = g (f, t) := by
  cases hg : g (f, t) with
  | some y =>
    apply dget_of_mem (nodup_dkeys_filterMap hn g)
    rw [List.mem_filterMap]
    exact ⟨(f, t), h, by simp [hg]⟩
  | none =>
    rw [dget_none_iff]
    intro hm
    simp only [dkeys, List.mem_map, List.mem_filterMap] at hm
    obtain ⟨e, ⟨⟨f', t'⟩, hx, hv⟩, rfl⟩ := hm
    cases hg' : g (f', t') with
    | none => simp [hg'] at hv
    | some y =>
      simp [hg'] at hv; subst hv
      have e1 := dget_of_mem hn hx
      have e2 := dget_of_mem hn h
      simp only at e1 e2
      rw [e1] at e2; cases e2
      rw [hg] at hg'; cases hg'

theorem cols_round {w offs} (h : Ready w offs) {tab tp} (htab : TabOk w offs tab tp) {k L} (hL : (k, L) ∈ w.dl)
    (fs : Dict Str DataType) : (∀ e ∈ fs, e ∈ (w.layers L).fields) → (dkeys fs).Nodup →
    ∃ cols : Str × DataType → TypeWire × List Obj,
      (∀ e ∈ fs, e.2.encode = .ok (cols e).1 ∧ (cols e).1.decode = .ok e.2.bare ∧
        w.encodeCol offs (w.iter L) e.1 e.2 = .ok (cols e).2) ∧
      ∀ d : NodeId → Dict Str Value, (∀ n, ∀ f ∈ dkeys fs, f ∉ dkeys (d n)) →
        decodeCols noNest tab (fs.map (fun e => (e.1, e.2.bare, (cols e).2))) ((live (w.layers L).slots).map d) =
          .ok ((live (w.layers L).slots).map (fun n => d n ++ preRec w tp fs n)) := by
  intro hm hn
  obtain ⟨cols, hc⟩ := skolem (l := fs) (P := fun e (c : TypeWire × List Obj) =>
    (e.2.encode = .ok c.1 ∧ c.1.decode = .ok e.2.bare ∧ w.encodeCol offs (w.iter L) e.1 e.2 = .ok c.2) ∧
    ∀ d : NodeId → Dict Str Value, (∀ n, e.1 ∉ dkeys (d n)) →
        decodeCol noNest tab e.1 e.2.bare c.2 ((live (w.layers L).slots).map d) =
          .ok ((live (w.layers L).slots).map (fun n => d n ++
            ((preCell w e.2 tp (dget (w.nodes n).fields e.1)).map (fun x => (e.1, x))).toList)))
    (fun e he => by
      have ht := h.enc.types k L e.1 e.2 hL (hm e he)
      obtain ⟨tw, h1, h2⟩ := type_round ht.kind.2 ht.plain ht.names
      obtain ⟨col, h3, h4⟩ := col_round h htab hL (hm e he)
      exact ⟨(tw, col), ⟨h1, h2, h3⟩, h4⟩)
  refine ⟨cols, fun e he => (hc e he).1, ?_⟩
  clear hm
  induction fs with
  | nil => intro d hd; simp [decodeCols, preRec]
  | cons e fs ih =>
    intro d hd
    simp only [dkeys, List.map_cons, List.nodup_cons] at hn
    simp only [List.map_cons, decodeCols]
    rw [(hc e (by simp)).2 d (fun n => hd n e.1 (by simp [dkeys]))]
    simp only
    rw [ih hn.2 (fun e' he' => hc e' (by simp [he']))]
    · congr 1
      apply List.map_congr_left
      intro n hn'
      rw [List.append_assoc]
      congr 1
      simp only [preRec, List.filterMap_cons]
      cases preCell w e.2 tp (dget (w.nodes n).fields e.1) <;> simp
    · intro n f hf hm
      simp only [dkeys, List.map_append, List.mem_append] at hm
      rcases hm with hm | hm
      · exact hd n f (by simp only [dkeys, List.map_cons, List.mem_cons]; exact .inr hf) hm
      · cases hp : preCell w e.2 tp (dget (w.nodes n).fields e.1) with
        | none => simp [hp] at hm
        | some x => simp [hp] at hm; exact hn.1 (hm ▸ hf)

/-- where the nodes of the document will be -/
structure PlaceOk (w : World) (all : Dict Str (List NodeId)) (pl : NodeId → NodeId) : Prop where
  target : ∀ s, s ∈ dkeys w.dl → ∃ b m, dget all s = some (List.range' b m)
  place : ∀ s i n b m, Spec.At w s i n → dget all s = some (List.range' b m) → i < m ∧ pl n = b + i

theorem resolve_simple (w : World) {t : DataType} (pl tp) (h : t.tname ≠ .noderef ∧ t.tname ≠ .noderefMany ∧ t.tname ≠ .nodespan)
    {v : Option Value} (hv : ∀ x, v = some x → Spec.CellOk w t x) : preCell w t tp v = finCell t pl tp v := by
  cases v with
  | none => rfl
  | some x =>
    cases hv x rfl with
    | node a => exact (h.1 a).elim
    | nodes a => exact (h.2.1 a).elim
    | nodespan a => exact (h.2.2 a).elim
    | _ => rfl

theorem targetAt_ok {b m i : Nat} (h : i < m) : pyIndex (List.range' b m) (i : Int) = .ok (b + i) :=
  pyIndex_nat (range'_get.mpr ⟨h, rfl⟩)

theorem resolve_ref {w offs} (h : Ready w offs) {all pl} (hp : PlaceOk w all pl) (tp) {t : DataType}
    (ht : t.tname = .noderef ∨ t.tname = .noderefMany ∨ t.tname = .nodespan) {s b m}
    (hs : dget t.options "layer".toList = some (.str s)) (hb : dget all s = some (List.range' b m))
    {v : Option Value} (hv : ∀ x, v = some x → Spec.CellOk w t x) :
    (preCell w t tp v = none ∧ finCell t pl tp v = none) ∨
    ∃ p q, preCell w t tp v = some p ∧ finCell t pl tp v = some q ∧
      resolveCell (List.range' b m) t.tname p = .ok q := by
  cases v with
  | none => exact .inl ⟨rfl, rfl⟩
  | some x =>
    cases hv x rfl with
    | null => exact .inl ⟨rfl, rfl⟩
    | node a b' c =>
      right
      rw [hs] at b'; cases b'
      obtain ⟨e1, e2⟩ := hp.place _ _ _ _ _ c hb
      refine ⟨_, _, rfl, rfl, ?_⟩
      rw [a, (h.id c).1]
      simp only [resolveCell, targetAt_ok e1, e2]
    | @nodes ns s' a b' c =>
      rw [hs] at b'; cases b'
      cases ns with
      | nil => exact .inl ⟨rfl, rfl⟩
      | cons n ns =>
        right
        refine ⟨_, _, rfl, rfl, ?_⟩
        have : mapE (targetAt (List.range' b m)) ((n :: ns).map (fun n => .int (w.nodes n).id)) = .ok ((n :: ns).map pl) := by
          rw [mapE_map]
          apply mapE_ok
          intro x hx
          obtain ⟨i, hi⟩ := c x hx
          obtain ⟨e1, e2⟩ := hp.place _ _ _ _ _ hi hb
          rw [(h.id hi).1]
          simp only [targetAt, targetAt_ok e1, e2]
        rw [a]
        simp only [resolveCell, this]
    | @nodespan l r s' i j a b' c d e =>
      right
      rw [hs] at b'; cases b'
      obtain ⟨e1, e2⟩ := hp.place _ _ _ _ _ c hb
      obtain ⟨e3, e4⟩ := hp.place _ _ _ _ _ d hb
      refine ⟨_, _, rfl, rfl, ?_⟩
      rw [a, (h.id c).1, (h.id d).1]
      simp only [resolveCell, show (i : Int) + (j - i) = (j : Int) by omega, targetAt_ok e1, targetAt_ok e3, e2, e4]
      rw [if_pos (by omega)]
    | int a => rcases a with a | a <;> rw [a] at ht <;> simp at ht
    | intBool a => rcases a with a | a <;> rw [a] at ht <;> simp at ht
    | float a => rw [a] at ht; simp at ht
    | bool a => rw [a] at ht; simp at ht
    | str a => rw [a] at ht; simp at ht
    | bytes a => rw [a] at ht; simp at ht
    | span a => rw [a] at ht; simp at ht

theorem dget_middle {A B : Dict Str Value} {f : Str} (h : f ∉ dkeys A) (p : Value) : dget (A ++ (f, p) :: B) f = some p := by
  induction A with
  | nil => simp [dget]
  | cons e A ih =>
    simp only [dkeys, List.map_cons, List.mem_cons, not_or] at h
    simp only [List.cons_append, dget]
    rw [if_neg (fun hh => h.1 hh.symm)]
    exact ih h.2

theorem dset_middle {A B : Dict Str Value} {f : Str} (h : f ∉ dkeys A) (p q : Value) :
    dset (A ++ (f, p) :: B) f q = A ++ (f, q) :: B := by
  induction A with
  | nil => simp [dset]
  | cons e A ih =>
    simp only [dkeys, List.map_cons, List.mem_cons, not_or] at h
    simp only [List.cons_append, dset]
    rw [if_neg (fun hh => h.1 hh.symm), ih h.2]

theorem dget_append_none {A B : Dict Str Value} {f : Str} (h : f ∉ dkeys A) (h' : f ∉ dkeys B) : dget (A ++ B) f = none := by
  rw [dget_none_iff]; simp only [dkeys, List.map_append, List.mem_append, not_or] at *; exact ⟨h, h'⟩

theorem resolve_col {w offs} (h : Ready w offs) {all pl} (hp : PlaceOk w all pl) (tp) {k L f t} (hL : (k, L) ∈ w.dl)
    (hf : (f, t) ∈ (w.layers L).fields) (A B : NodeId → Dict Str Value) (hA : ∀ n, f ∉ dkeys (A n)) (hB : ∀ n, f ∉ dkeys (B n)) :
    resolveCol all f t.bare ((live (w.layers L).slots).map (fun n => A n ++
        (((preCell w t tp (dget (w.nodes n).fields f)).map (fun x => (f, x))).toList ++ B n))) =
      .ok ((live (w.layers L).slots).map (fun n => A n ++
        (((finCell t pl tp (dget (w.nodes n).fields f)).map (fun x => (f, x))).toList ++ B n))) := by
  have ht := h.enc.types k L f t hL hf
  have hcell : ∀ n ∈ live (w.layers L).slots, ∀ x, dget (w.nodes n).fields f = some x → Spec.CellOk w t x :=
    fun n hn x hx => h.enc.cells k L n f t x hL (by rw [h.inv.iter_eq]; simpa using hn) hf hx
  by_cases hr : t.tname = .noderef ∨ t.tname = .noderefMany ∨ t.tname = .nodespan
  · obtain ⟨s, hs, hm⟩ := ht.layer hr
    obtain ⟨b, m, hb⟩ := hp.target s hm
    have e : resolveCol all f t.bare ((live (w.layers L).slots).map (fun n => A n ++
        (((preCell w t tp (dget (w.nodes n).fields f)).map (fun x => (f, x))).toList ++ B n))) =
        mapE (fun d => match dget d f with
          | none => .ok d
          | some v =>
            match resolveCell (List.range' b m) t.tname v with
            | .ok v' => .ok (dset d f v')
            | .error e => .error e) ((live (w.layers L).slots).map (fun n => A n ++
        (((preCell w t tp (dget (w.nodes n).fields f)).map (fun x => (f, x))).toList ++ B n))) := by
      unfold resolveCol
      rcases hr with hr | hr | hr <;> simp only [DataType.bare, hr, hs, hb] <;> rfl
    rw [e, mapE_map]
    apply mapE_ok
    intro n hn
    rcases resolve_ref h hp tp hr hs hb (hcell n hn) with ⟨e1, e2⟩ | ⟨p, q, e1, e2, e3⟩
    · simp only [e1, e2, Option.map_none, Option.toList_none, List.nil_append, dget_append_none (hA n) (hB n)]
    · simp only [e1, e2, Option.map_some, Option.toList_some, List.singleton_append, dget_middle (hA n), e3, dset_middle (hA n)]
  · have : resolveCol all f t.bare = Except.ok := by
      funext x
      obtain ⟨tn, ck, op⟩ := t
      unfold resolveCol DataType.bare
      cases tn <;> first | rfl | simp at hr
    rw [this]
    congr 1
    apply List.map_congr_left
    intro n hn
    simp only [not_or] at hr
    rw [resolve_simple w pl tp hr (hcell n hn)]

theorem preRec_cons (w : World) (tp e fs n) : preRec w tp (e :: fs) n =
    ((preCell w e.2 tp (dget (w.nodes n).fields e.1)).map (fun x => (e.1, x))).toList ++ preRec w tp fs n := by
  simp only [preRec, List.filterMap_cons]
  cases preCell w e.2 tp (dget (w.nodes n).fields e.1) <;> simp

theorem finRec_cons (w : World) (pl tp e fs n) : finRec w pl tp (e :: fs) n =
    ((finCell e.2 pl tp (dget (w.nodes n).fields e.1)).map (fun x => (e.1, x))).toList ++ finRec w pl tp fs n := by
  simp only [finRec, List.filterMap_cons]
  cases finCell e.2 pl tp (dget (w.nodes n).fields e.1) <;> simp

theorem resolve_cols {w offs} (h : Ready w offs) {all pl} (hp : PlaceOk w all pl) (tp) {k L} (hL : (k, L) ∈ w.dl)
    (fs : Dict Str DataType) : (∀ e ∈ fs, e ∈ (w.layers L).fields) → (dkeys fs).Nodup →
    ∀ A : NodeId → Dict Str Value, (∀ n, ∀ f ∈ dkeys fs, f ∉ dkeys (A n)) →
    resolveCols all (bareFields fs) ((live (w.layers L).slots).map (fun n => A n ++ preRec w tp fs n)) =
      .ok ((live (w.layers L).slots).map (fun n => A n ++ finRec w pl tp fs n)) := by
  induction fs with
  | nil => intro _ _ A _; simp [bareFields, resolveCols, preRec, finRec]
  | cons e fs ih =>
    intro hm hn A hA
    simp only [dkeys, List.map_cons, List.nodup_cons] at hn
    simp only [bareFields, List.map_cons, resolveCols, preRec_cons, finRec_cons]
    rw [resolve_col h hp tp hL (hm e (by simp)) A (fun n => preRec w tp fs n) (fun n => hA n e.1 (by simp [dkeys]))
      (fun n hh => hn.1 (mem_dkeys_filterMap hh))]
    simp only
    have := ih (fun e he => hm e (by simp [he])) hn.2
      (fun n => A n ++ ((finCell e.2 pl tp (dget (w.nodes n).fields e.1)).map (fun x => (e.1, x))).toList) (by
        intro n f hf hmem
        simp only [dkeys, List.map_append, List.mem_append] at hmem
        rcases hmem with hmem | hmem
        · exact hA n f (by simp only [dkeys, List.map_cons, List.mem_cons]; exact .inr hf) hmem
        · cases hp : finCell e.2 pl tp (dget (w.nodes n).fields e.1) with
          | none => simp [hp] at hmem
          | some x => simp [hp] at hmem; exact hn.1 (hmem ▸ hf))
    simp only [List.append_assoc, bareFields] at this
    exact this

instance : Inhabited WireLayer := ⟨⟨0, []⟩⟩

/-- One layer: encoding, decoding its schema and its columns. -/
theorem layer_round {w offs} (h : Ready w offs) {tab tp} (htab : TabOk w offs tab tp) {k L} (hL : (k, L) ∈ w.dl) :
    ∃ wl, w.encodeLayer offs L = .ok wl ∧ ∃ cols, decodeSchema (k, wl) = .ok cols ∧
      decodeLayer noNest tab cols = .ok ⟨k, bareFields (w.layers L).fields,
        (live (w.layers L).slots).map (preRec w tp (w.layers L).fields)⟩ := by
  have hn := h.wf.fieldKeys L
  obtain ⟨cols, h1, h2⟩ := cols_round h htab hL (w.layers L).fields (fun _ h => h) hn
  refine ⟨⟨(w.layers L).num, (w.layers L).fields.map (fun e => (e.1, (cols e).1, (cols e).2))⟩, ?_,
    (k, (w.layers L).fields.map (fun e => (e.1, e.2.bare, (cols e).2)), (w.layers L).num), ?_, ?_⟩
  · unfold encodeLayer
    rw [mapE_ok (g := fun e => (e.1, (cols e).1, (cols e).2))]
    intro e he
    simp only [encodeField, (h1 e he).1, (h1 e he).2.2]
  · unfold decodeSchema
    simp only [mapE_map]
    rw [mapE_ok (g := fun e => (e.1, e.2.bare, (cols e).2)) (fun e he => by simp only [(h1 e he).2.1])]
    simp only [List.map_map]
    rw [if_pos (by exact hn)]
  · unfold decodeLayer
    have := h2 (fun _ => []) (by simp [dkeys])
    simp only [List.nil_append] at this
    have hrep : List.replicate ((w.layers L).num).toNat ([] : Dict Str Value) = (live (w.layers L).slots).map (fun _ => []) := by
      rw [h.inv.num L, List.map_const']; simp
    simp only [hrep, this]
    simp [bareFields, Function.comp_def]

end Verif
