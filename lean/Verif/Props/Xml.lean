import Verif.Model.Xml
import Verif.Props.Printout
import Verif.Proof.Stable
import Verif.Proof.Check
set_option linter.unusedSimpArgs false
/-
C62 and C63: the XML export.
-/
namespace Verif
open World

namespace Spec
namespace Xml

/-- the characters of XML 1.0 (production `Char`) -/
def Allowed (c : Char) : Prop :=
  c.val = 0x9 ∨ c.val = 0xA ∨ c.val = 0xD ∨ (0x20 ≤ c.val ∧ c.val ≤ 0xD7FF) ∨ (0xE000 ≤ c.val ∧ c.val ≤ 0xFFFD) ∨
    (0x10000 ≤ c.val ∧ c.val ≤ 0x10FFFF)

/-- the basic multilingual plane -/
def Basic (c : Char) : Prop := c.val < 0x10000

end Xml
end Spec

/-! ### C62 -/

theorem xmlKept_iff (c : Char) : xmlKept c = true ↔ Spec.Xml.Allowed c ∧ Spec.Xml.Basic c := by
  have hv : c.val.toNat < 0xD800 ∨ 0xDFFF < c.val.toNat ∧ c.val.toNat < 0x110000 := c.valid
  simp only [xmlKept, Spec.Xml.Allowed, Spec.Xml.Basic, Bool.or_eq_true, Bool.and_eq_true, decide_eq_true_eq,
    UInt32.le_iff_toNat_le, UInt32.lt_iff_toNat_lt, ← UInt32.toNat_inj]
  have e0 : ('0'.val).toNat = 48 := rfl
  have e1 : ('F'.val).toNat = 70 := rfl
  simp only [e0, e1, UInt32.reduceToNat]
  omega

/-- **C62** the cleaned string has only characters that XML 1.0 allows. -/
theorem C62_allowed (s : Str) : ∀ c ∈ xmlClean s, Spec.Xml.Allowed c := by
  intro c hc
  obtain ⟨d, -, rfl⟩ := List.mem_map.mp hc
  split
  · exact ((xmlKept_iff _).mp ‹_›).1
  · exact ((xmlKept_iff ' ').mp (by decide)).1

/-- **C62** as many characters as before. -/
theorem C62_length (s : Str) : (xmlClean s).length = s.length := by simp [xmlClean]

/-- **C62**, missing: allowed characters beyond U+FFFF (see `C62_astral_fails`). Strings of allowed
characters of the basic plane are unchanged; in any string every such character stays where it was, and
every other character becomes a space; cleaning again changes nothing. -/
theorem C62_unchanged_partial (s : Str) :
    ((∀ c ∈ s, Spec.Xml.Allowed c ∧ Spec.Xml.Basic c) → xmlClean s = s) ∧
    (∀ (i : Nat) (c : Char), s[i]? = some c → Spec.Xml.Allowed c ∧ Spec.Xml.Basic c → (xmlClean s)[i]? = some c) ∧
    (∀ (i : Nat) (c : Char), s[i]? = some c → ¬ (Spec.Xml.Allowed c ∧ Spec.Xml.Basic c) → (xmlClean s)[i]? = some ' ') ∧
    xmlClean (xmlClean s) = xmlClean s := by
  refine ⟨fun h => ?_, fun i c hi hc => ?_, fun i c hi hc => ?_, ?_⟩
  · have : s.map (fun c => if xmlKept c then c else ' ') = s.map id :=
      List.map_congr_left (fun c hc => by simp [(xmlKept_iff c).mpr (h c hc)])
    simpa [xmlClean] using this
  · simp [xmlClean, hi, (xmlKept_iff c).mpr hc]
  · have : xmlKept c = false := by
      cases hk : xmlKept c with
      | false => rfl
      | true => exact (hc ((xmlKept_iff c).mp hk)).elim
    simp [xmlClean, hi, this]
  · simp only [xmlClean, List.map_map]
    apply List.map_congr_left
    intro c _
    simp only [Function.comp]
    by_cases hc : xmlKept c = true
    · simp [hc]
    · have : xmlKept ' ' = true := by decide
      simp [hc, this]

example : xmlClean "a\u0001b\n".toList = "a b\n".toList ∧ (∀ c ∈ "Fågel 0é\n".toList, Spec.Xml.Allowed c ∧ Spec.Xml.Basic c) := by
  refine ⟨by decide, ?_⟩
  intro c hc
  exact (xmlKept_iff c).mp ((by decide : ∀ c ∈ "Fågel 0é\n".toList, xmlKept c = true) c hc)

/-- **C62** fails beyond the basic plane: an allowed character is replaced. -/
theorem C62_astral_fails : Spec.Xml.Allowed '😀' ∧ xmlClean "a😀".toList ≠ "a😀".toList := by
  refine ⟨?_, by decide⟩
  right; right; right; right; right
  decide

/-! ### C63 -/

namespace Spec
namespace Xml

/-- attribute of an element -/
def attr (e : Xml) (k : Str) : Option Str := dget e.attrs k

/-- the children with the given tag whose `name` is `f` -/
def named (e : Xml) (tag f : Str) : List Xml :=
  e.children.filter (fun c => decide (c.tag = tag ∧ attr c "name".toList = some f))

/-- field `f` appears nowhere in the element of a node -/
def Absent (e : Xml) (f : Str) : Prop :=
  attr e f = none ∧ named e "d".toList f = [] ∧ named e "a".toList f = []

/-- field `f` appears as attribute with value `s`, and only so -/
def Simple (e : Xml) (f s : Str) : Prop :=
  attr e f = some s ∧ named e "d".toList f = [] ∧ named e "a".toList f = []

/-- field `f` appears as the one `d` child `x`, and only so -/
def Embedded (e : Xml) (f : Str) (x : Xml) : Prop :=
  attr e f = none ∧ named e "d".toList f = [x] ∧ named e "a".toList f = []

/-- field `f` appears as one `a` child with an `e` child for each string, and only so -/
def Array (e : Xml) (f : Str) (l : List Str) : Prop :=
  attr e f = none ∧ named e "d".toList f = [] ∧ ∃ x, named e "a".toList f = [x] ∧
    x.children.map (·.tag) = l.map (fun _ => "e".toList) ∧ x.children.map (attr · "v".toList) = l.map some

/-- the segments of a text element: the `v` attributes under its first child -/
def segments (e : Xml) : List Str :=
  match e.children with
  | s :: _ => s.children.filterMap (attr · "v".toList)
  | [] => []

/-- in the text named `c`, the `i`-th boundary between segments is at offset `x` -/
def Boundary (texts : List Xml) (c : Str) (i : Nat) (x : Int) : Prop :=
  ∃ te ∈ texts, attr te "name".toList = some c ∧ (accum 0 (segments te))[i]? = some x

/-- The element `e` of a node shows the value of field `f` of type `t`, given the text elements. -/
inductive Shown (w : World) (p : PyStr) (texts : List Xml) (e : Xml) (f : Str) (t : DataType) : Option Value → Prop
  | unset : Absent e f → Shown w p texts e f t none
  | null : Absent e f → Shown w p texts e f t (some .none)
  | int {i} : t.tname = .i32 ∨ t.tname = .i64 → Simple e f (intStr i) → Shown w p texts e f t (some (.int i))
  | intBool {b : Bool} : t.tname = .i32 ∨ t.tname = .i64 → Simple e f (intStr (if b then 1 else 0)) →
      Shown w p texts e f t (some (.bool b))
  | float {x} : t.tname = .f64 → Simple e f (p.float x) → Shown w p texts e f t (some (.float x))
  | bool {b : Bool} : t.tname = .bool → Simple e f (if b then "True".toList else "False".toList) →
      Shown w p texts e f t (some (.bool b))
  | str {s s'} : t.tname = .string → Simple e f s' → s'.length = s.length →
      (∀ (i : Nat) (c : Char), s[i]? = some c → Allowed c → Basic c → s'[i]? = some c) → Shown w p texts e f t (some (.str s))
  | node {n s i} : t.tname = .noderef → dget t.options "layer".toList = some (.str s) → At w s i n →
      Simple e f (natStr i) → Shown w p texts e f t (some (.node n))
  | nodes {ns s l} : t.tname = .noderefMany → dget t.options "layer".toList = some (.str s) → Array e f l →
      Each (fun n x => ∃ i, At w s i n ∧ x = natStr i) ns l → Shown w p texts e f t (some (.nodes ns))
  | nodespan {l r s i j x} : t.tname = .nodespan → dget t.options "layer".toList = some (.str s) → At w s i l → At w s j r →
      Embedded e f x → attr x "from".toList = some (s ++ '.' :: natStr i) → attr x "to".toList = some (s ++ '.' :: natStr j) →
      Shown w p texts e f t (some (.nodespan l r))
  | span {T c a b i j x} : t.tname = .span → dget t.options "context".toList = some (.str c) → dget w.dt c = some T →
      Boundary texts c i a → Boundary texts c j b →
      Embedded e f x → attr x "from".toList = some (natStr i) → attr x "until".toList = some (natStr j) →
      Shown w p texts e f t (some (.span T a b))

/-- the property named `e.1` -/
def ShowsProp (p : PyStr) (e : Str × Value) (x : Xml) : Prop :=
  x.tag = "prop".toList ∧ attr x "key".toList = some e.1 ∧ attr x "value".toList = some (p.str e.2)

/-- an option of a type -/
def ShowsArg (p : PyStr) (e : Str × Value) (x : Xml) : Prop :=
  x.tag = "arg".toList ∧ attr x "key".toList = some e.1 ∧ attr x "value".toList = some (p.str e.2)

/-- a field of a schema: its name, the name of its type and its options, in order -/
def ShowsField (p : PyStr) (e : Str × DataType) (x : Xml) : Prop :=
  x.tag = "field".toList ∧ attr x "name".toList = some e.1 ∧ (∃ s, e.2.tname.wire = .ok s ∧ attr x "type".toList = some s) ∧
    Each (ShowsArg p) e.2.options x.children

/-- the schema of a layer: its fields in order -/
def ShowsSchema (w : World) (p : PyStr) (e : Str × LayerId) (x : Xml) : Prop :=
  x.tag = "define".toList ∧ attr x "layer".toList = some e.1 ∧ Each (ShowsField p) (w.layers e.2).fields x.children

/-- a text: its segments make up the text -/
def ShowsText (w : World) (e : Str × TextId) (x : Xml) : Prop :=
  x.tag = "text".toList ∧ attr x "name".toList = some e.1 ∧ (segments x).flatten = (w.texts e.2).text

/-- a node of a layer with the fields `fs`: every field is shown, and nothing else -/
structure ShowsNode (w : World) (p : PyStr) (texts : List Xml) (fs : Dict Str DataType) (ident : Str) (n : NodeId) (x : Xml) :
    Prop where
  tag : x.tag = "n".toList
  id : attr x xmlId = some ident
  fields : ∀ f t, (f, t) ∈ fs → Shown w p texts x f t (dget (w.nodes n).fields f)
  attrs : ∀ k, k ∈ dkeys x.attrs → k = xmlId ∨ k ∈ dkeys fs
  children : ∀ c ∈ x.children, ∃ f ∈ dkeys fs, attr c "name".toList = some f ∧ (c.tag = "d".toList ∨ c.tag = "a".toList)

/-- a layer: an element for each node in order, numbered from 0 -/
def ShowsLayer (w : World) (p : PyStr) (texts : List Xml) (pre : Str) (e : Str × LayerId) (x : Xml) : Prop :=
  x.tag = "layer".toList ∧ attr x "name".toList = some e.1 ∧ x.children.length = (w.iter e.2).length ∧
    ∀ (i : Nat) n, At w e.1 i n → ∃ c, x.children[i]? = some c ∧
      ShowsNode w p texts (w.layers e.2).fields (pre ++ e.1 ++ '.' :: natStr i) n c

/-- the whole document: properties, schemas, texts and layers, in order -/
def ShowsDoc (w : World) (p : PyStr) (docId : Str) (x : Xml) : Prop :=
  x.tag = "document".toList ∧ attr x xmlId = (if docId = [] then none else some docId) ∧
    ∃ ps ss ts ls, x.children = [.el "props".toList [] ps, .el "schema".toList [] ss, .el "texts".toList [] ts,
        .el "layers".toList [] ls] ∧
      Each (ShowsProp p) w.props ps ∧ Each (ShowsSchema w p) w.dl ss ∧ Each (ShowsText w) w.dt ts ∧
      Each (ShowsLayer w p ts (if docId = [] then [] else docId ++ ['.'])) w.dl ls

end Xml
end Spec

open Spec.Xml (attr named)

/-! ### proof: one node -/

theorem intStr_nat (i : Nat) : intStr (i : Int) = natStr i := by
  unfold intStr
  rw [if_neg (by omega)]
  simp

/-- how a field ends up in the element of its node -/
inductive Piece
  | simple (s : Str)
  | emb (x : Xml)
  | arr (l : List Str)

/-- a value put into the entries -/
def XEntries.put (x : XEntries) (f : Str) : Piece → XEntries
  | .simple s => { x with simple := dset x.simple f s }
  | .emb e => { x with embedded := x.embedded ++ [e] }
  | .arr l => { x with arrays := dset x.arrays f l }

def Piece.simple? : Piece → Option Str
  | .simple s => some s
  | _ => none

def Piece.emb? : Piece → Option Xml
  | .emb s => some s
  | _ => none

def Piece.arr? : Piece → Option (List Str)
  | .arr s => some s
  | _ => none

/-- values of the fields that have one -/
def pick {τ α : Type} (fs : List (Str × τ)) (g : Str × τ → Option α) : Dict Str α :=
  fs.filterMap (fun e => (g e).map (fun x => (e.1, x)))

theorem mem_pick {τ α : Type} {fs : List (Str × τ)} {g : Str × τ → Option α} {k : Str} {x : α} :
    (k, x) ∈ pick fs g ↔ ∃ t, (k, t) ∈ fs ∧ g (k, t) = some x := by
  simp only [pick, List.mem_filterMap, Option.map_eq_some_iff, Prod.mk.injEq]
  constructor
  · rintro ⟨⟨a, t⟩, h1, y, h2, rfl, rfl⟩; exact ⟨t, h1, h2⟩
  · rintro ⟨t, h1, h2⟩; exact ⟨(k, t), h1, x, h2, rfl, rfl⟩

theorem dkeys_pick {τ α : Type} {fs : List (Str × τ)} {g : Str × τ → Option α} {k : Str} (h : k ∈ dkeys (pick fs g)) :
    k ∈ dkeys fs := by
  obtain ⟨⟨a, x⟩, h1, rfl⟩ := List.mem_map.mp h
  obtain ⟨t, h2, -⟩ := mem_pick.mp h1
  exact List.mem_map.mpr ⟨(a, t), h2, rfl⟩

theorem filter_pick {τ α : Type} {fs : List (Str × τ)} (hn : (dkeys fs).Nodup) (g : Str × τ → Option α) {f : Str} {t : τ}
    (h : (f, t) ∈ fs) : (pick fs g).filter (fun e => decide (e.1 = f)) = ((g (f, t)).map (fun x => (f, x))).toList := by
  induction fs with
  | nil => simp at h
  | cons e fs ih =>
    obtain ⟨a, u⟩ := e
    simp only [dkeys, List.map_cons, List.nodup_cons] at hn
    have hrest : a = f → (pick fs g).filter (fun e => decide (e.1 = f)) = [] := by
      rintro rfl
      rw [List.filter_eq_nil_iff]
      rintro ⟨k, x⟩ hx
      simp only [decide_eq_true_eq]
      rintro rfl
      exact hn.1 (dkeys_pick (List.mem_map.mpr ⟨_, hx, rfl⟩))
    rcases List.mem_cons.mp h with h | h
    · cases h
      cases hg : g (f, t) with
      | none => simpa [pick, hg] using hrest rfl
      | some x => simpa [pick, hg] using hrest rfl
    · have hne : a ≠ f := by
        rintro rfl
        exact hn.1 (List.mem_map.mpr ⟨_, h, rfl⟩)
      have := ih hn.2 h
      cases hg : g (a, u) with
      | none => simpa [pick, hg] using this
      | some x =>
        have e : pick ((a, u) :: fs) g = (a, x) :: pick fs g := by simp [pick, hg]
        rw [e, List.filter_cons_of_neg (by simpa using hne), this]

theorem dget_filter {α : Type} (d : Dict Str α) (f : Str) : dget d f = ((d.filter (fun e => decide (e.1 = f))).head?).map (·.2) := by
  induction d with
  | nil => rfl
  | cons e d ih =>
    obtain ⟨a, u⟩ := e
    by_cases h : a = f
    · subst h; simp [dget]
    · simp [dget, h, ih]

theorem dget_pick {τ α : Type} {fs : List (Str × τ)} (hn : (dkeys fs).Nodup) (g : Str × τ → Option α) {f : Str} {t : τ}
    (h : (f, t) ∈ fs) : dget (pick fs g) f = g (f, t) := by
  rw [dget_filter, filter_pick hn g h]
  cases g (f, t) <;> rfl

theorem pick_cons {τ α : Type} (e : Str × τ) (fs : List (Str × τ)) (g : Str × τ → Option α) :
    pick (e :: fs) g = ((g e).map (fun x => (e.1, x))).toList ++ pick fs g := by
  cases hg : g e <;> simp [pick, hg]

/-- the loop over a node's values: what ends up where -/
theorem xmlEntries_pick (w : World) (fs : List (Str × DataType)) (hn : (dkeys fs).Nodup)
    (vs : Str × DataType → List (Str × XVal)) (q : Str × DataType → Option Piece)
    (h : ∀ e ∈ fs, (vs e = [] ∧ q e = none) ∨ ∃ xv pc, vs e = [(e.1, xv)] ∧ q e = some pc ∧
      ∀ x, w.xmlEntry false x (e.1, xv) = .ok (x.put e.1 pc)) :
    ∀ x : XEntries, (∀ k ∈ dkeys fs, k ∉ dkeys x.simple ∧ k ∉ dkeys x.arrays) →
      w.xmlEntries false x (fs.map vs).flatten = .ok ⟨x.arrays ++ pick fs (fun e => (q e).bind Piece.arr?),
        x.simple ++ pick fs (fun e => (q e).bind Piece.simple?),
        x.embedded ++ (pick fs (fun e => (q e).bind Piece.emb?)).map (·.2)⟩ := by
  induction fs with
  | nil => intro x _; simp [xmlEntries, pick]
  | cons e fs ih =>
    intro x hx
    have hn' := List.nodup_cons.mp (show (e.1 :: dkeys fs).Nodup from hn)
    have ih := ih hn'.2 (fun e he => h e (by simp [he]))
    have hx' : ∀ k ∈ dkeys fs, k ∉ dkeys x.simple ∧ k ∉ dkeys x.arrays := fun k hk => hx k (List.mem_cons_of_mem _ hk)
    have hx0 := hx e.1 (List.mem_cons_self ..)
    have hne : ∀ k ∈ dkeys fs, k ≠ e.1 := by rintro k hk rfl; exact hn'.1 hk
    simp only [pick_cons]
    rcases h e (by simp) with ⟨h1, h2⟩ | ⟨xv, pc, h1, h2, h3⟩
    · simp only [List.map_cons, List.flatten_cons, h1, List.nil_append, h2, Option.bind_none, Option.map_none,
        Option.toList_none]
      exact ih x hx'
    · simp only [List.map_cons, List.flatten_cons, h1, List.cons_append, List.nil_append, xmlEntries, h3, h2,
        Option.bind_some]
      cases pc with
      | simple s =>
        simp only [XEntries.put, dset_absent s hx0.1]
        rw [ih]
        · simp [Piece.arr?, Piece.simple?, Piece.emb?]
        · intro k hk
          refine ⟨?_, (hx' k hk).2⟩
          simpa [dkeys, hne k hk] using (hx' k hk).1
      | emb y =>
        simp only [XEntries.put]
        rw [ih]
        · simp [Piece.arr?, Piece.simple?, Piece.emb?]
        · exact hx'
      | arr l =>
        simp only [XEntries.put, dset_absent l hx0.2]
        rw [ih]
        · simp [Piece.arr?, Piece.simple?, Piece.emb?]
        · intro k hk
          refine ⟨(hx' k hk).1, ?_⟩
          simpa [dkeys, hne k hk] using (hx' k hk).2

/-- the element of a node, from where its fields go -/
def nodeEl (fs : List (Str × DataType)) (q : Str × DataType → Option Piece) (ident : Str) : Xml :=
  .el "n".toList (dset (pick fs (fun e => (q e).bind Piece.simple?)) xmlId ident)
    ((pick fs (fun e => (q e).bind Piece.emb?)).map (·.2) ++
      (pick fs (fun e => (q e).bind Piece.arr?)).map (fun a => .el "a".toList [("name".toList, a.1)]
        (a.2.map (fun v => .el "e".toList [("v".toList, v)] []))))

/-- the `d` elements carry the name of their field -/
def EmbOk (fs : List (Str × DataType)) (q : Str × DataType → Option Piece) : Prop :=
  ∀ e ∈ fs, ∀ x, q e = some (.emb x) → x.tag = "d".toList ∧ attr x "name".toList = some e.1

theorem attr_name (t f : Str) (rest : Dict Str Str) (c : List Xml) :
    attr (.el t (("name".toList, f) :: rest) c) "name".toList = some f := by
  simp [attr, Xml.attrs, dget]

theorem emb_eq {o : Option Piece} {x : Xml} (h : o.bind Piece.emb? = some x) : o = some (.emb x) := by
  cases o with
  | none => simp at h
  | some pc => cases pc <;> simp [Piece.emb?] at h; subst h; rfl

/-- where field `f` is found in the element -/
theorem nodeEl_found {fs : List (Str × DataType)} (hn : (dkeys fs).Nodup) (q : Str × DataType → Option Piece) (he : EmbOk fs q)
    (ident : Str) {f t} (h : (f, t) ∈ fs) (hf : f ≠ xmlId) :
    attr (nodeEl fs q ident) f = (q (f, t)).bind Piece.simple? ∧
    named (nodeEl fs q ident) "d".toList f = ((q (f, t)).bind Piece.emb?).toList ∧
    named (nodeEl fs q ident) "a".toList f = (((q (f, t)).bind Piece.arr?).map (fun l =>
      Xml.el "a".toList [("name".toList, f)] (l.map (fun v => .el "e".toList [("v".toList, v)] [])))).toList := by
  have hda : "a".toList ≠ "d".toList := by decide
  refine ⟨?_, ?_, ?_⟩
  · simp only [attr, nodeEl, Xml.attrs, dget_dset, Ne.symm hf, if_false]
    exact dget_pick hn _ h
  · simp only [named, nodeEl, Xml.children, List.filter_append, List.filter_map]
    rw [(List.filter_eq_nil_iff (l := pick fs (fun e => (q e).bind Piece.arr?))).mpr]
    · rw [List.map_nil, List.append_nil]
      have : (pick fs (fun e => (q e).bind Piece.emb?)).filter
          ((fun c => decide (Xml.tag c = "d".toList ∧ attr c "name".toList = some f)) ∘ (·.2)) =
          (pick fs (fun e => (q e).bind Piece.emb?)).filter (fun e => decide (e.1 = f)) := by
        apply List.filter_congr
        rintro ⟨k, x⟩ hx
        obtain ⟨u, h1, h2⟩ := mem_pick.mp hx
        obtain ⟨e1, e2⟩ := he _ h1 x (emb_eq h2)
        simp only [Function.comp, e1, e2, true_and, Option.some.injEq]
      rw [this, filter_pick hn _ h]
      cases (q (f, t)).bind Piece.emb? <;> rfl
    · rintro ⟨k, x⟩ _
      simp [Xml.tag, hda]
  · simp only [named, nodeEl, Xml.children, List.filter_append, List.filter_map]
    rw [(List.filter_eq_nil_iff (l := pick fs (fun e => (q e).bind Piece.emb?))).mpr]
    · rw [List.map_nil, List.nil_append]
      have : (pick fs (fun e => (q e).bind Piece.arr?)).filter
          ((fun c => decide (Xml.tag c = "a".toList ∧ attr c "name".toList = some f)) ∘
            (fun a : Str × List Str => Xml.el "a".toList [("name".toList, a.1)]
              (a.2.map (fun v => .el "e".toList [("v".toList, v)] [])))) =
          (pick fs (fun e => (q e).bind Piece.arr?)).filter (fun e => decide (e.1 = f)) := by
        apply List.filter_congr
        rintro ⟨k, x⟩ hx
        simp only [Function.comp, Xml.tag, attr_name, true_and, Option.some.injEq]
      rw [this, filter_pick hn _ h]
      cases (q (f, t)).bind Piece.arr? <;> rfl
    · rintro ⟨k, x⟩ hx
      obtain ⟨u, h1, h2⟩ := mem_pick.mp hx
      obtain ⟨e1, e2⟩ := he _ h1 x (emb_eq h2)
      simp [e1, Ne.symm hda]

/-- field `f` is found in the element as `q` says -/
def Found (e : Xml) (f : Str) (q : Option Piece) : Prop :=
  attr e f = q.bind Piece.simple? ∧ named e "d".toList f = (q.bind Piece.emb?).toList ∧
    named e "a".toList f = ((q.bind Piece.arr?).map (fun l =>
      Xml.el "a".toList [("name".toList, f)] (l.map (fun v => .el "e".toList [("v".toList, v)] [])))).toList

theorem found_none {e f} (h : Found e f none) : Spec.Xml.Absent e f := h
theorem found_simple {e f s} (h : Found e f (some (.simple s))) : Spec.Xml.Simple e f s := h
theorem found_emb {e f x} (h : Found e f (some (.emb x))) : Spec.Xml.Embedded e f x := h
theorem found_arr {e f l} (h : Found e f (some (.arr l))) : Spec.Xml.Array e f l := by
  obtain ⟨h1, h2, h3⟩ := h
  refine ⟨h1, h2, _, h3, ?_, ?_⟩
  · simp [Xml.children, Xml.tag, Function.comp_def]
  · simp [Xml.children, attr, Xml.attrs, dget, Function.comp_def]

/-! ### proof: texts -/

theorem xmlSegs_v (verbose : Bool) (l : List Str) : ∀ i pos, (xmlSegs verbose i pos l).filterMap (attr · "v".toList) = l := by
  induction l with
  | nil => intro i pos; rfl
  | cons s l ih =>
    intro i pos
    have : attr (.el "s".toList (if verbose then [("v".toList, s), ("id".toList, natStr i), ("start".toList, natStr pos),
      ("stop".toList, natStr (pos + s.length))] else [("v".toList, s)]) []) "v".toList = some s := by
      cases verbose <;> simp [attr, Xml.attrs, dget]
    simp only [xmlSegs, List.filterMap_cons, this, ih]

theorem segments_text (verbose : Bool) (e : Str × List Str) : Spec.Xml.segments (xmlTextEl verbose e) = e.2 :=
  xmlSegs_v verbose e.2 0 0

theorem name_text (verbose : Bool) (e : Str × List Str) : attr (xmlTextEl verbose e) "name".toList = some e.1 :=
  attr_name _ _ _ _

/-- the text elements of a compiled document -/
def textEls (w : World) (offs : Dict Str (List Int)) (verbose : Bool) : List Xml := (segsOf w offs).map (xmlTextEl verbose)

theorem segsOf_compile {w offs} (h : Ready w offs) {c T} (hT : dget w.dt c = some T) :
    ∃ l, dget offs c = some l ∧ (c, (w.texts T).compile l) ∈ segsOf w offs := by
  obtain ⟨l, hl, -⟩ := h.tab c T hT
  refine ⟨l, hl, List.mem_map.mpr ⟨(c, T), dget_mem hT, ?_⟩⟩
  simp only [hl, Option.getD_some]

theorem boundary_ok {w offs} (h : Ready w offs) (verbose : Bool) {c T l} (hT : dget w.dt c = some T) (hl : dget offs c = some l)
    {i : Nat} {y : Int} (hy : l[i]? = some y) : Spec.Xml.Boundary (textEls w offs verbose) c i y := by
  obtain ⟨l', hl', hm⟩ := segsOf_compile h hT
  obtain ⟨l'', hl'', h1, h2, h3, -⟩ := h.tab c T hT
  rw [hl] at hl' hl''; cases hl'; cases hl''
  refine ⟨_, List.mem_map.mpr ⟨_, hm, rfl⟩, name_text _ _, ?_⟩
  rw [segments_text]
  have := (text_round (w.texts T) h1 h2 h3).2
  rw [segOffsets_accum] at this
  simp only [Int.ofNat_zero, Int.natCast_zero] at this
  simp only [this]
  exact hy

/-! ### proof: one field -/

/-- the loop body of `xmlNode` -/
def fieldVals (w : World) (p : PyStr) (n : NodeId) (e : Str × XField) : Except PyErr (List (Str × XVal)) :=
  match (dget (w.nodes n).fields e.1).getD .none with
  | .none => .ok []
  | v =>
    match w.xmlCell p e.2.idx e.2.tname v with
    | .ok x => .ok [(e.1, x)]
    | .error x => .error x

theorem xmlNode_some (w : World) (p : PyStr) (fs : List (Str × XField)) (n : NodeId) : w.xmlNode p fs (some n) =
    match mapE (fieldVals w p n) fs with
    | .error e => .error e
    | .ok l => .ok l.flatten := rfl

theorem fieldVals_none {w : World} {p n} {e : Str × XField} (h : (dget (w.nodes n).fields e.1).getD .none = .none) :
    fieldVals w p n e = .ok [] := by
  simp only [fieldVals, h]

theorem fieldVals_some {w : World} {p n v x} {e : Str × XField} (h : dget (w.nodes n).fields e.1 = some v) (hv : v ≠ .none)
    (hx : w.xmlCell p e.2.idx e.2.tname v = .ok x) : fieldVals w p n e = .ok [(e.1, x)] := by
  simp only [fieldVals, h, Option.getD_some]
  cases v <;> simp only [hx] <;> exact (hv rfl).elim

/-- one field of one node -/
structure FieldOk (w : World) (p : PyStr) (ts : List Xml) (n : NodeId) (e : Str × DataType) (xf : XField)
    (vs : List (Str × XVal)) (q : Option Piece) : Prop where
  vals : fieldVals w p n (e.1, xf) = .ok vs
  shape : (vs = [] ∧ q = none) ∨ ∃ xv pc, vs = [(e.1, xv)] ∧ q = some pc ∧ ∀ x, w.xmlEntry false x (e.1, xv) = .ok (x.put e.1 pc)
  emb : ∀ x, q = some (.emb x) → x.tag = "d".toList ∧ attr x "name".toList = some e.1
  shown : ∀ x, Found x e.1 q → Spec.Xml.Shown w p ts x e.1 e.2 (dget (w.nodes n).fields e.1)

theorem coll_name {w offs} (h : Ready w offs) {s i n} (ha : Spec.At w s i n) : w.collName n = some s := by
  obtain ⟨L, h1, h2⟩ := (At.iff h.inv).mp ha
  have hc := h.compact s L (dget_mem h1)
  have e : (w.layers L).slots[i]? = some (some n) := by rw [hc, List.getElem?_map, h2]; rfl
  have := (h.inv.slot L i n e).1
  simp only [collName, this, Option.map_some, (h.wf.dlName s L h1).1]

theorem mem_of_At {w : World} {s i n} (h : Spec.At w s i n) : ∃ L, dget w.dl s = some L ∧ some n ∈ w.iter L := by
  obtain ⟨L, h1, h2⟩ := h
  exact ⟨L, h1, List.mem_of_getElem? h2⟩

theorem field_simple {w : World} {p ts n v s} {e : Str × DataType} {xf : XField}
    (h : dget (w.nodes n).fields e.1 = some v) (hv : v ≠ .none) (hx : w.xmlCell p xf.idx xf.tname v = .ok (.str s))
    (hs : ∀ x, Spec.Xml.Simple x e.1 s → Spec.Xml.Shown w p ts x e.1 e.2 (some v)) :
    ∃ vs q, FieldOk w p ts n e xf vs q :=
  ⟨_, some (.simple s), fieldVals_some (e := (e.1, xf)) h hv hx, .inr ⟨_, _, rfl, rfl, fun _ => rfl⟩, (fun _ h => by cases h),
    fun x hf => by rw [h]; exact hs x (found_simple hf)⟩

theorem field_emb {w : World} {p ts n v xv el} {e : Str × DataType} {xf : XField}
    (h : dget (w.nodes n).fields e.1 = some v) (hv : v ≠ .none) (hx : w.xmlCell p xf.idx xf.tname v = .ok xv)
    (ht : el.tag = "d".toList) (hn : attr el "name".toList = some e.1)
    (he : ∀ x, w.xmlEntry false x (e.1, xv) = .ok (x.put e.1 (.emb el)))
    (hs : ∀ x, Spec.Xml.Embedded x e.1 el → Spec.Xml.Shown w p ts x e.1 e.2 (some v)) :
    ∃ vs q, FieldOk w p ts n e xf vs q :=
  ⟨_, some (.emb el), fieldVals_some (e := (e.1, xf)) h hv hx, .inr ⟨_, _, rfl, rfl, he⟩,
    (fun _ h => by cases h; exact ⟨ht, hn⟩), fun x hf => by rw [h]; exact hs x (found_emb hf)⟩

/-- the field record the schema loop makes -/
def xfieldOf (offs : Dict Str (List Int)) (t : DataType) : XField :=
  ⟨match t.tname.wire with | .ok s => s | .error _ => [], t.options, t.tname,
    match (if t.tname = .span then spanIndex offs t else .ok []) with | .ok i => i | .error _ => []⟩

theorem xmlField_ok {w offs} (h : Ready w offs) {k L f t} (hL : (k, L) ∈ w.dl) (hf : (f, t) ∈ (w.layers L).fields) :
    xmlField offs (f, t) = .ok (f, xfieldOf offs t) := by
  have ht := h.enc.types k L f t hL hf
  obtain ⟨s, hs, -⟩ := tname_round ht.kind.2
  unfold xmlField xfieldOf
  simp only [hs, ht.kind.2, if_false]
  by_cases hsp : t.tname = .span
  · obtain ⟨c, T, hc, hT⟩ := spanType_ctx ht hsp
    obtain ⟨l, hl, -⟩ := h.tab c T hT
    simp only [hsp, if_true, spanIndex, hc, hl]
  · simp only [hsp, if_false]

theorem span_idx {offs : Dict Str (List Int)} {t : DataType} {c l} (hs : t.tname = .span)
    (hc : dget t.options "context".toList = some (.str c)) (hl : dget offs c = some l) : (xfieldOf offs t).idx = offsetIndex l := by
  simp only [xfieldOf, hs, if_true, spanIndex, hc, hl]

theorem field_ok {w offs} (h : Ready w offs) (p : PyStr) (verbose : Bool) {k L f t n} (hL : (k, L) ∈ w.dl)
    (hf : (f, t) ∈ (w.layers L).fields) (hn : some n ∈ w.iter L)
    (hb : ∀ b, dget (w.nodes n).fields f ≠ some (.bytes b)) :
    ∃ vs q, FieldOk w p (textEls w offs verbose) n (f, t) (xfieldOf offs t) vs q := by
  cases hv : dget (w.nodes n).fields f with
  | none =>
    exact ⟨[], none, fieldVals_none (by simp only [hv, Option.getD_none]), .inl ⟨rfl, rfl⟩, (fun _ h => by cases h),
      fun x hx => by rw [hv]; exact .unset (found_none hx)⟩
  | some v =>
    have hc := h.enc.cells k L n f t v hL hn hf hv
    cases hc with
    | null _ _ =>
      exact ⟨[], none, fieldVals_none (by simp only [hv, Option.getD_some]), .inl ⟨rfl, rfl⟩, (fun _ h => by cases h),
        fun x hx => by rw [hv]; exact .null (found_none hx)⟩
    | int a _ =>
      refine field_simple hv (by simp) (s := intStr _) ?_ (fun x hx => .int a hx)
      rcases a with a | a <;> simp only [xfieldOf, a] <;> rfl
    | @intBool b a =>
      refine field_simple hv (by simp) (s := intStr (if b then 1 else 0)) ?_ (fun x hx => .intBool a hx)
      rcases a with a | a <;> simp only [xfieldOf, a] <;> rfl
    | float a => exact field_simple hv (by simp) (s := p.float _) (by simp only [xfieldOf, a]; rfl) (fun x hx => .float a hx)
    | bool a => exact field_simple hv (by simp) (s := boolStr _) (by simp only [xfieldOf, a]; rfl) (fun x hx => .bool a hx)
    | @str s a _ =>
      exact field_simple hv (by simp) (s := xmlClean s) (by simp only [xfieldOf, a]; rfl)
        (fun x hx => .str a hx (C62_length s) (fun i c h1 h2 h3 => (C62_unchanged_partial s).2.1 i c h1 ⟨h2, h3⟩))
    | bytes _ _ => exact (hb _ hv).elim
    | @node m s i a b c =>
      refine field_simple hv (by simp) (s := natStr i) ?_ (fun x hx => .node a b c hx)
      simp only [xfieldOf, a, xmlCell, (h.id c).1, intStr_nat]
    | @nodes ns s a b c =>
      refine ⟨_, some (.arr (ns.map (fun n => intStr (w.nodes n).id))), fieldVals_some (e := (f, xfieldOf offs t)) hv (by simp)
        (x := .list (ns.map (fun n => intStr (w.nodes n).id))) (by simp only [xfieldOf, a, xmlCell]),
        .inr ⟨_, _, rfl, rfl, fun _ => rfl⟩, (fun _ h => by cases h), fun x hx => ?_⟩
      rw [hv]
      refine .nodes a b (found_arr hx) ?_
      clear hv hx
      induction ns with
      | nil => exact .nil
      | cons m ns ih =>
        refine .cons ?_ (ih (fun n hn => c n (by simp [hn])))
        obtain ⟨i, hi⟩ := c m (by simp)
        exact ⟨i, hi, by simp only [(h.id hi).1, intStr_nat]⟩
    | @nodespan l r s i j a b c d e =>
      refine field_emb hv (by simp) (xv := .nodespan l r) (by simp only [xfieldOf, a]; rfl)
        (el := .el "d".toList [("name".toList, f), ("from".toList, s ++ ".".toList ++ intStr i),
            ("to".toList, s ++ ".".toList ++ intStr j)] []) rfl (attr_name _ _ _ _) ?_ ?_
      · intro x
        simp only [xmlEntry, coll_name h c, (h.id c).2, (h.id d).2, XEntries.put]
      · intro x hx
        refine .nodespan a b c d hx ?_ ?_
        · simp [attr, Xml.attrs, dget, intStr_nat]
        · simp [attr, Xml.attrs, dget, intStr_nat]
    | @span T c x y a b d e g k' =>
      obtain ⟨l, hl, hlt, -, -, hall⟩ := h.tab c T d
      have base : ∀ z, (z = x ∨ z = y) → Spec.UsedOffset w c z := fun z hz =>
        ⟨k, L, f, t, n, T, x, y, hL, hf, a, b, hn, hv, hz⟩
      obtain ⟨i, hi⟩ := List.getElem?_of_mem ((hall _).mpr (.inr (.inr (base x (.inl rfl)))))
      obtain ⟨j, hj⟩ := List.getElem?_of_mem ((hall _).mpr (.inr (.inr (base y (.inr rfl)))))
      refine field_emb hv (by simp) (xv := .span (offsetIndex l) (.span T x y))
        (by rw [span_idx a b hl]; simp only [xfieldOf, a]; rfl)
        (el := .el "d".toList [("name".toList, f), ("from".toList, natStr i), ("until".toList, natStr j)] [])
        rfl (attr_name _ _ _ _) ?_ ?_
      · intro x
        simp only [xmlEntry, (C27_inverse l hlt i _).mpr hi, (C27_inverse l hlt j _).mpr hj, XEntries.put]
        rfl
      · intro z hz
        refine .span a b d (boundary_ok h verbose d hl hi) (boundary_ok h verbose d hl hj) hz ?_ ?_
        · simp [attr, Xml.attrs, dget]
        · simp [attr, Xml.attrs, dget]


/-! ### proof: nodes, layers, document -/

theorem each_map_fn {α β : Type} {R : α → β → Prop} (l : List α) (g : α → β) (h : ∀ a ∈ l, R a (g a)) : Each R l (l.map g) := by
  induction l with
  | nil => exact .nil
  | cons a l ih => exact .cons (h a (by simp)) (ih (fun b hb => h b (by simp [hb])))

/-- no node of the document holds binary data, no field is called like the identifier attribute -/
structure XmlAble (w : World) : Prop where
  noBytes : ∀ k L n f b, (k, L) ∈ w.dl → some n ∈ w.iter L → dget (w.nodes n).fields f ≠ some (.bytes b)
  noId : ∀ k L, (k, L) ∈ w.dl → xmlId ∉ dkeys (w.layers L).fields

theorem node_ok {w offs} (h : Ready w offs) (ha : XmlAble w) (p : PyStr) (verbose : Bool) {k L n} (hL : (k, L) ∈ w.dl)
    (hn : some n ∈ w.iter L) : ∃ vs, w.xmlNode p ((w.layers L).fields.map (fun e => (e.1, xfieldOf offs e.2))) (some n) = .ok vs ∧
      ∀ ident, ∃ x, w.xmlNodeEl false ident vs = .ok x ∧
        Spec.Xml.ShowsNode w p (textEls w offs verbose) (w.layers L).fields ident n x := by
  have hk := h.wf.fieldKeys L
  obtain ⟨g, hg⟩ := skolem (β := List (Str × XVal) × Option Piece) (l := (w.layers L).fields)
    (P := fun e r => FieldOk w p (textEls w offs verbose) n e (xfieldOf offs e.2) r.1 r.2) (fun e he => by
      obtain ⟨vs, q, hq⟩ := field_ok h p verbose (f := e.1) (t := e.2) hL he hn (fun b => ha.noBytes k L n e.1 b hL hn)
      exact ⟨(vs, q), hq⟩)
  refine ⟨((w.layers L).fields.map (fun e => (g e).1)).flatten, ?_, ?_⟩
  · rw [xmlNode_some, mapE_map, mapE_ok (g := fun e => (g e).1) (fun e he => (hg e he).vals)]
  · intro ident
    have he := xmlEntries_pick w (w.layers L).fields hk (fun e => (g e).1) (fun e => (g e).2) (fun e he => (hg e he).shape) {}
      (by intro k _; exact ⟨by simp [dkeys], by simp [dkeys]⟩)
    have hemb : EmbOk (w.layers L).fields (fun e => (g e).2) := fun e he x hx => (hg e he).emb x hx
    refine ⟨nodeEl (w.layers L).fields (fun e => (g e).2) ident, ?_, rfl, ?_, ?_, ?_, ?_⟩
    · simp only [xmlNodeEl, he, List.nil_append, nodeEl]
    · simp only [attr, nodeEl, Xml.attrs, dget_dset, if_true]
    · intro f t hf
      exact (hg (f, t) hf).shown _ (nodeEl_found hk _ hemb ident hf (by
        rintro rfl
        exact ha.noId k L hL (List.mem_map.mpr ⟨_, hf, rfl⟩)))
    · intro k hk
      simp only [nodeEl, Xml.attrs] at hk
      by_cases hx : xmlId ∈ dkeys (pick (w.layers L).fields (fun e => (g e).2.bind Piece.simple?))
      · exact (ha.noId _ L hL (dkeys_pick hx)).elim
      · rw [dset_absent _ hx] at hk
        simp only [dkeys, List.map_append, List.map_cons, List.map_nil, List.mem_append, List.mem_singleton] at hk
        rcases hk with hk | hk
        · exact .inr (dkeys_pick hk)
        · exact .inl hk
    · intro c hc
      simp only [nodeEl, Xml.children, List.mem_append, List.mem_map] at hc
      rcases hc with ⟨⟨f, x⟩, hx, rfl⟩ | ⟨⟨f, l⟩, hx, rfl⟩
      · obtain ⟨u, h1, h2⟩ := mem_pick.mp hx
        obtain ⟨e1, e2⟩ := hemb _ h1 x (emb_eq h2)
        exact ⟨f, List.mem_map.mpr ⟨_, h1, rfl⟩, e2, .inl e1⟩
      · obtain ⟨u, h1, h2⟩ := mem_pick.mp hx
        exact ⟨f, List.mem_map.mpr ⟨_, h1, rfl⟩, attr_name _ _ _ _, .inr rfl⟩

theorem nodeEls_ok {w : World} (pre : Str) (vs : NodeId → List (Str × XVal)) (S : Str → NodeId → Xml → Prop) :
    ∀ (ns : List NodeId) (b : Nat), (∀ n ∈ ns, ∀ ident, ∃ x, w.xmlNodeEl false ident (vs n) = .ok x ∧ S ident n x) →
      ∃ xs, w.xmlNodeEls false pre b (ns.map vs) = .ok xs ∧ xs.length = ns.length ∧
        ∀ (i : Nat) n, ns[i]? = some n → ∃ x, xs[i]? = some x ∧ S (pre ++ '.' :: natStr (b + i)) n x := by
  intro ns
  induction ns with
  | nil => intro b _; exact ⟨[], rfl, rfl, by simp⟩
  | cons n ns ih =>
    intro b h
    obtain ⟨x, h1, h2⟩ := h n (by simp) (pre ++ ".".toList ++ natStr b)
    obtain ⟨xs, h3, h4, h5⟩ := ih (b + 1) (fun m hm => h m (by simp [hm]))
    refine ⟨x :: xs, by simp only [List.map_cons, xmlNodeEls, h1, h3], by simp [h4], ?_⟩
    intro i m hi
    cases i with
    | zero =>
      simp at hi; subst hi
      refine ⟨x, rfl, ?_⟩
      have : pre ++ '.' :: natStr (b + 0) = pre ++ ".".toList ++ natStr b := by simp
      rw [this]; exact h2
    | succ i =>
      obtain ⟨y, h6, h7⟩ := h5 i m (by simpa using hi)
      refine ⟨y, by simpa using h6, ?_⟩
      rw [show b + (i + 1) = b + 1 + i from by omega]; exact h7

theorem layer_xml {w offs} (h : Ready w offs) (ha : XmlAble w) (p : PyStr) (verbose : Bool) {e : Str × LayerId} (hL : e ∈ w.dl) :
    ∃ r : Str × List (Str × XField) × List (List (Str × XVal)), w.xmlLayer p offs e = .ok r ∧
      Spec.Xml.ShowsSchema w p e (.el "define".toList [("layer".toList, r.1)] (r.2.1.map (xmlFieldEl p))) ∧
      ∀ pre, ∃ x, w.xmlLayerEl false pre r = .ok x ∧ Spec.Xml.ShowsLayer w p (textEls w offs verbose) pre e x := by
  obtain ⟨k, L⟩ := e
  have hmem : ∀ n ∈ live (w.layers L).slots, some n ∈ w.iter L := fun n hn => by rw [h.inv.iter_eq]; simpa using hn
  obtain ⟨vs, hvs⟩ := skolem (l := live (w.layers L).slots)
    (fun n hn => node_ok h ha p verbose hL (hmem n hn))
  refine ⟨(k, (w.layers L).fields.map (fun e => (e.1, xfieldOf offs e.2)), (live (w.layers L).slots).map vs), ?_, ?_, ?_⟩
  · simp only [xmlLayer]
    rw [mapE_ok (f := xmlField offs) (g := fun e : Str × DataType => (e.1, xfieldOf offs e.2)) (fun e he => xmlField_ok h hL he)]
    simp only [h.inv.iter_eq, mapE_map]
    rw [mapE_ok (g := vs) (fun n hn => (hvs n hn).1)]
  · refine ⟨rfl, by simp [attr, Xml.attrs, dget], ?_⟩
    simp only [Xml.children, List.map_map]
    apply each_map_fn
    rintro ⟨f, t⟩ hf
    refine ⟨rfl, attr_name _ _ _ _, ?_, ?_⟩
    · obtain ⟨s, hs, -⟩ := tname_round (h.enc.types k L f t hL hf).kind.2
      exact ⟨s, hs, by simp [attr, xmlFieldEl, Xml.attrs, dget, xfieldOf, hs]⟩
    · simp only [Function.comp, xmlFieldEl, Xml.children, xfieldOf]
      apply each_map_fn
      rintro ⟨a, v⟩ _
      exact ⟨rfl, by simp [attr, Xml.attrs, dget], by simp [attr, Xml.attrs, dget]⟩
  · intro pre
    obtain ⟨xs, h1, h2, h3⟩ := nodeEls_ok (w := w) (pre ++ k) vs _ (live (w.layers L).slots) 0
      (fun n hn ident => (hvs n hn).2 ident)
    refine ⟨.el "layer".toList [("name".toList, k)] xs, by simp only [xmlLayerEl, h1], rfl, attr_name _ _ _ _, ?_, ?_⟩
    · simp only [Xml.children, h2, h.inv.iter_eq, List.length_map]
    · intro i n hi
      obtain ⟨L', e1, e2⟩ := (At.iff h.inv).mp hi
      rw [dget_of_mem h.wf.dlKeys hL] at e1; cases e1
      obtain ⟨x, e3, e4⟩ := h3 i n e2
      refine ⟨x, e3, ?_⟩
      simpa using e4

theorem doc_xml {w offs} (h : Ready w offs) (ha : XmlAble w) (p : PyStr) (verbose : Bool) (docId : Str) :
    ∃ texts ls x, w.xmlInter p offs = .ok (texts, ls) ∧ w.xmlBuild p verbose false docId texts ls = .ok x ∧
      Spec.Xml.ShowsDoc w p docId x := by
  obtain ⟨g, hg⟩ := skolem (l := w.dl) (fun e he => layer_xml h ha p verbose he)
  obtain ⟨x, hx⟩ := skolem (β := Xml) (l := w.dl) (P := fun e x =>
      w.xmlLayerEl false (if docId = [] then [] else docId ++ ".".toList) (g e) = .ok x ∧
      Spec.Xml.ShowsLayer w p (textEls w offs verbose) (if docId = [] then [] else docId ++ ".".toList) e x)
    (fun e he => (hg e he).2.2 _)
  have hin : w.xmlInter p offs = .ok (segsOf w offs, w.dl.map g) := by
    simp only [xmlInter, encodeTexts_ok h]
    rw [mapE_ok (g := g) (fun e he => (hg e he).1)]
  have hbu := show w.xmlBuild p verbose false docId (segsOf w offs) (w.dl.map g) = _ by
    simp only [xmlBuild, mapE_map]
    rw [mapE_ok (g := x) (fun e he => (hx e he).1)]
  refine ⟨segsOf w offs, w.dl.map g, _, hin, hbu, ?_⟩
  refine ⟨rfl, ?_, _, _, _, _, rfl, ?_, ?_, ?_, ?_⟩
  · simp only [attr, Xml.attrs]
    by_cases hd : docId = []
    · simp [hd, dget]
    · simp [hd, dget]
  · exact each_map_fn _ _ (fun e _ => ⟨rfl, by simp [attr, Xml.attrs, dget], by simp [attr, Xml.attrs, dget]⟩)
  · rw [List.map_map]
    exact each_map_fn _ _ (fun e he => (hg e he).2.1)
  · rw [segsOf, List.map_map]
    apply each_map_fn
    rintro ⟨c, T⟩ hT
    refine ⟨rfl, name_text _ _, ?_⟩
    simp only [Function.comp, segments_text]
    obtain ⟨l, hl, h1, h2, h3, -⟩ := h.tab c T (dget_of_mem h.wf.dtKeys hT)
    simp only [hl, Option.getD_some]
    exact (text_round _ h1 h2 h3).1
  · exact each_map_fn _ _ (fun e he => (hx e he).2)

theorem each_imp {α β : Type} {R S : α → β → Prop} {as : List α} {bs : List β} (h : Each R as bs)
    (hi : ∀ a b, R a b → S a b) : Each S as bs := by
  induction h with
  | nil => exact .nil
  | cons h _ ih => exact .cons (hi _ _ h) ih

/-- what is shown does not depend on the heap representation -/
theorem SameObs.shownDoc {w w' : World} (s : SameObs w w') (hi : Inv w) (hi' : Inv w') {p docId x}
    (h : Spec.Xml.ShowsDoc w' p docId x) : Spec.Xml.ShowsDoc w p docId x := by
  obtain ⟨h1, h2, ps, ss, ts, ls, h3, h4, h5, h6, h7⟩ := h
  refine ⟨h1, h2, ps, ss, ts, ls, h3, by rw [← s.props]; exact h4, ?_, ?_, ?_⟩
  · rw [s.dl] at h5
    refine each_imp h5 (fun e b hb => ?_)
    unfold Spec.Xml.ShowsSchema at *
    rwa [(s.attrs e.2).2.1] at hb
  · rw [s.dt] at h6
    refine each_imp h6 (fun e b hb => ?_)
    unfold Spec.Xml.ShowsText at *
    rwa [s.texts] at hb
  · rw [s.dl] at h7
    refine each_imp h7 (fun e b hb => ?_)
    obtain ⟨a1, a2, a3, a4⟩ := hb
    refine ⟨a1, a2, by rw [← World.SameObs.iter s hi hi']; exact a3, fun i n hn => ?_⟩
    obtain ⟨c, c1, c2⟩ := a4 i n ((SameObs.at s hi hi').mpr hn)
    refine ⟨c, c1, ?_⟩
    rw [(s.attrs e.2).2.1] at c2
    refine ⟨c2.tag, c2.id, fun f t hf => ?_, c2.attrs, c2.children⟩
    have := c2.fields f t hf
    rw [(s.node n).2] at this
    generalize dget (w.nodes n).fields f = v at this ⊢
    cases this with
    | unset a => exact .unset a
    | null a => exact .null a
    | int a b => exact .int a b
    | intBool a b => exact .intBool a b
    | float a b => exact .float a b
    | bool a b => exact .bool a b
    | str a b c d => exact .str a b c d
    | node a b c d => exact .node a b ((SameObs.at s hi hi').mp c) d
    | nodes a b c d => exact .nodes a b c (each_imp d (fun _ _ ⟨i, h1, h2⟩ => ⟨i, (SameObs.at s hi hi').mp h1, h2⟩))
    | nodespan a b c d e f g => exact .nodespan a b ((SameObs.at s hi hi').mp c) ((SameObs.at s hi hi').mp d) e f g
    | span a b c d e f g h => exact .span a b (by rw [← s.dt]; exact c) d e f g h


/-! ### the theorems -/

/-- **C63**, missing: binary data and fields called like the identifier attribute (the export fails or the
field is overwritten, `C63_binary_fails`, `C63_id_field_fails`), strings outside the basic plane (C62).
The XML tree of any valid document shows its properties, schemas, texts (in segments), and for every
node every field: see `Spec.Xml.ShowsDoc`. Exporting succeeds, with and without the extra attributes. -/
theorem C63_tree_partial {w : World} (h : Reachable w) (he : Spec.Encodable w)
    (hb : ∀ k L n f b, (k, L) ∈ w.dl → some n ∈ w.iter L → dget (w.nodes n).fields f ≠ some (.bytes b))
    (hf : ∀ k L, (k, L) ∈ w.dl → xmlId ∉ dkeys (w.layers L).fields) (p : PyStr) (verbose : Bool) (docId : Str) (x t : Bool) :
    ∃ w' e, w.xmlTree p verbose false docId x t = (w', .ok e) ∧ Spec.Xml.ShowsDoc w p docId e := by
  obtain ⟨w1, offs, hc, so, hr⟩ := ready_of h.inv h.wf he x t
  have ha : XmlAble w1 := ⟨fun k L n f b hL hn => by
      rw [so.dl] at hL
      rw [World.SameObs.iter so h.inv hr.inv] at hn
      rw [(so.node n).2]
      exact hb k L n f b hL hn, fun k L hL => by
      rw [so.dl] at hL
      rw [(so.attrs L).2.1]
      exact hf k L hL⟩
  obtain ⟨texts, ls, e, h1, h2, h3⟩ := doc_xml hr ha p verbose docId
  refine ⟨w1, e, ?_, SameObs.shownDoc so h.inv hr.inv h3⟩
  simp only [xmlTree, hc, h1, h2]

/-! ### reading back -/

theorem split_dot {a b c d : Str} (hc : '.' ∉ c) (hd : '.' ∉ d) (h : a ++ '.' :: c = b ++ '.' :: d) : a = b ∧ c = d := by
  rcases List.append_eq_append_iff.mp h with ⟨x, h1, h2⟩ | ⟨x, h1, h2⟩
  · cases x with
    | nil => simp at h1 h2; exact ⟨h1.symm, h2⟩
    | cons y x =>
      simp only [List.cons_append, List.cons.injEq] at h2
      exact (hc (by rw [h2.2]; simp)).elim
  · cases x with
    | nil => simp at h1 h2; exact ⟨h1, h2.symm⟩
    | cons y x =>
      simp only [List.cons_append, List.cons.injEq] at h2
      exact (hd (by rw [h2.2]; simp)).elim

theorem ident_inj {k k' : Str} {i j : Nat} (h : k ++ '.' :: natStr i = k' ++ '.' :: natStr j) : k = k' ∧ i = j := by
  obtain ⟨h1, h2⟩ := split_dot (natStr_no (by decide)) (natStr_no (by decide)) h
  exact ⟨h1, natStr_inj h2⟩

namespace Spec
namespace Xml

/-- what can be told apart: None is as good as unset, and True and False in an integer field are 1 and 0 -/
def readAs (t : DataType) : Option Value → Option Value
  | some .none => none
  | some (.bool b) => if t.tname = .bool then some (.bool b) else some (.int (if b then 1 else 0))
  | v => v

/-- strings that the cleaning leaves alone -/
def CleanStr : Option Value → Prop
  | some (.str s) => ∀ c ∈ s, Allowed c ∧ Basic c
  | _ => True

end Xml
end Spec

theorem at_inj {w : World} {s i n m} (h1 : Spec.At w s i n) (h2 : Spec.At w s i m) : n = m := by
  obtain ⟨L, a, b⟩ := h1
  obtain ⟨L', c, d⟩ := h2
  rw [a] at c; cases c
  rw [b] at d; cases d; rfl

theorem boundary_inj {ts : List Xml} (hts : (ts.map (attr · "name".toList)).Nodup) {c i x y}
    (h1 : Spec.Xml.Boundary ts c i x) (h2 : Spec.Xml.Boundary ts c i y) : x = y := by
  obtain ⟨a, a1, a2, a3⟩ := h1
  obtain ⟨b, b1, b2, b3⟩ := h2
  obtain ⟨j, hj, rfl⟩ := List.getElem_of_mem a1
  obtain ⟨k, hk, rfl⟩ := List.getElem_of_mem b1
  have : j = k := (List.getElem_inj (h₀ := by simpa using hj) (h₁ := by simpa using hk) hts).mp (by
    simp only [List.getElem_map, a2, b2])
  subst this
  rw [a3] at b3; cases b3; rfl

theorem clean_eq {s s' : Str} (h1 : s'.length = s.length)
    (h2 : ∀ (i : Nat) (c : Char), s[i]? = some c → Spec.Xml.Allowed c → Spec.Xml.Basic c → s'[i]? = some c)
    (hc : ∀ c ∈ s, Spec.Xml.Allowed c ∧ Spec.Xml.Basic c) : s' = s := by
  apply List.ext_getElem?
  intro i
  cases hi : s[i]? with
  | some c =>
    have := hc c (List.mem_of_getElem? hi)
    exact h2 i c hi this.1 this.2
  | none =>
    rw [List.getElem?_eq_none_iff] at hi ⊢
    omega

theorem each_unique {w : World} {s : Str} {ns ms : List NodeId} {l : List Str}
    (h1 : Each (fun n x => ∃ i, Spec.At w s i n ∧ x = natStr i) ns l)
    (h2 : Each (fun n x => ∃ i, Spec.At w s i n ∧ x = natStr i) ms l) : ns = ms := by
  induction h1 generalizing ms with
  | nil => cases h2; rfl
  | cons a _ ih =>
    cases h2 with
    | cons b h2 =>
      obtain ⟨i, a1, rfl⟩ := a
      obtain ⟨j, b1, b2⟩ := b
      have := natStr_inj b2; subst this
      rw [at_inj a1 b1, ih h2]


/-- **C63** each value is recoverable: what is shown for a field, with the type of the field, determines the
value (None as unset, a bool in an integer field as integer). `p.float` must tell floats apart. -/
theorem C63_recover {w : World} {p : PyStr} (hp : ∀ x y, p.float x = p.float y → x = y) {ts : List Xml}
    (hts : (ts.map (attr · "name".toList)).Nodup) {e : Xml} {f : Str} {t : DataType} {v v' : Option Value}
    (h : Spec.Xml.Shown w p ts e f t v) (h' : Spec.Xml.Shown w p ts e f t v')
    (hc : Spec.Xml.CleanStr v) (hc' : Spec.Xml.CleanStr v') : Spec.Xml.readAs t v = Spec.Xml.readAs t v' := by
  have clash : ∀ {a b : TName}, t.tname = a → t.tname = b → a ≠ b → False := fun h1 h2 h3 => h3 (h1.symm.trans h2)
  have clashI : ∀ {b : TName}, t.tname = .i32 ∨ t.tname = .i64 → t.tname = b → b ≠ .i32 ∧ b ≠ .i64 → False :=
    fun h1 h2 h3 => h1.elim (fun h1 => h3.1 (h2.symm.trans h1)) (fun h1 => h3.2 (h2.symm.trans h1))
  have ss : ∀ {a b}, Spec.Xml.Simple e f a → Spec.Xml.Simple e f b → a = b := fun h1 h2 =>
    Option.some.inj (h1.1.symm.trans h2.1)
  have ee : ∀ {a b}, Spec.Xml.Embedded e f a → Spec.Xml.Embedded e f b → a = b := fun h1 h2 =>
    (List.cons.inj (h1.2.1.symm.trans h2.2.1)).1
  have as : ∀ {b}, Spec.Xml.Absent e f → Spec.Xml.Simple e f b → False := fun h1 h2 => by
    have := h1.1.symm.trans h2.1; cases this
  have ae : ∀ {b}, Spec.Xml.Absent e f → Spec.Xml.Embedded e f b → False := fun h1 h2 => by
    have := h1.2.1.symm.trans h2.2.1; cases this
  have aa : ∀ {b}, Spec.Xml.Absent e f → Spec.Xml.Array e f b → False := fun h1 h2 => by
    obtain ⟨-, -, x, h2, -⟩ := h2
    have := h1.2.2.symm.trans h2; cases this
  have bs : ∀ b : Bool, (if b then "True".toList else "False".toList) = boolStr b := fun _ => rfl
  have binj : ∀ b c : Bool, boolStr b = boolStr c → b = c := by decide
  cases h with
  | unset a | null a =>
    cases h' with
    | unset b | null b => rfl
    | int _ b | intBool _ b | float _ b | bool _ b | str _ b _ _ | node _ _ _ b => exact (as a b).elim
    | nodes _ _ b _ => exact (aa a b).elim
    | nodespan _ _ _ _ b _ _ => exact (ae a b).elim
    | span _ _ _ _ _ b _ _ => exact (ae a b).elim
  | int a1 a2 =>
    cases h' with
    | unset b | null b => exact (as b a2).elim
    | int b1 b2 => rw [intStr_inj (ss a2 b2)]
    | intBool b1 b2 =>
      have := intStr_inj (ss a2 b2)
      have hn : t.tname ≠ .bool := fun h => clashI a1 h (by simp)
      simp only [Spec.Xml.readAs, hn, if_false, this]
    | float b _ | bool b _ | str b _ _ _ | node b _ _ _ | nodes b _ _ _ | nodespan b _ _ _ _ _ _ | span b _ _ _ _ _ _ _ =>
      exact (clashI a1 b (by simp)).elim
  | intBool a1 a2 =>
    have hn : t.tname ≠ .bool := fun h => clashI a1 h (by simp)
    cases h' with
    | unset b | null b => exact (as b a2).elim
    | int b1 b2 =>
      have := intStr_inj (ss a2 b2)
      simp only [Spec.Xml.readAs, hn, if_false, this]
    | intBool b1 b2 =>
      have := intStr_inj (ss a2 b2)
      simp only [Spec.Xml.readAs, hn, if_false, this]
    | float b _ | bool b _ | str b _ _ _ | node b _ _ _ | nodes b _ _ _ | nodespan b _ _ _ _ _ _ | span b _ _ _ _ _ _ _ =>
      exact (clashI a1 b (by simp)).elim
  | float a1 a2 =>
    cases h' with
    | unset b | null b => exact (as b a2).elim
    | float b1 b2 => rw [hp _ _ (ss a2 b2)]
    | int b _ | intBool b _ => exact (clashI b a1 (by simp)).elim
    | bool b _ | str b _ _ _ | node b _ _ _ | nodes b _ _ _ | nodespan b _ _ _ _ _ _ | span b _ _ _ _ _ _ _ =>
      exact (clash a1 b (by simp)).elim
  | bool a1 a2 =>
    cases h' with
    | unset b | null b => exact (as b a2).elim
    | bool b1 b2 =>
      have := ss a2 b2
      rw [bs, bs] at this
      rw [binj _ _ this]
    | int b _ | intBool b _ => exact (clashI b a1 (by simp)).elim
    | float b _ | str b _ _ _ | node b _ _ _ | nodes b _ _ _ | nodespan b _ _ _ _ _ _ | span b _ _ _ _ _ _ _ =>
      exact (clash a1 b (by simp)).elim
  | str a1 a2 a3 a4 =>
    cases h' with
    | unset b | null b => exact (as b a2).elim
    | str b1 b2 b3 b4 =>
      have := ss a2 b2
      rw [clean_eq a3 a4 hc, clean_eq b3 b4 hc'] at this
      rw [this]
    | int b _ | intBool b _ => exact (clashI b a1 (by simp)).elim
    | float b _ | bool b _ | node b _ _ _ | nodes b _ _ _ | nodespan b _ _ _ _ _ _ | span b _ _ _ _ _ _ _ =>
      exact (clash a1 b (by simp)).elim
  | node a1 a2 a3 a4 =>
    cases h' with
    | unset b | null b => exact (as b a4).elim
    | node b1 b2 b3 b4 =>
      have := natStr_inj (ss a4 b4); subst this
      rw [a2] at b2; cases b2
      rw [at_inj a3 b3]
    | int b _ | intBool b _ => exact (clashI b a1 (by simp)).elim
    | float b _ | bool b _ | str b _ _ _ | nodes b _ _ _ | nodespan b _ _ _ _ _ _ | span b _ _ _ _ _ _ _ =>
      exact (clash a1 b (by simp)).elim
  | nodes a1 a2 a3 a4 =>
    cases h' with
    | unset b | null b => exact (aa b a3).elim
    | nodes b1 b2 b3 b4 =>
      rw [a2] at b2; cases b2
      obtain ⟨-, -, x, c1, -, c2⟩ := a3
      obtain ⟨-, -, y, d1, -, d2⟩ := b3
      have := (List.cons.inj (c1.symm.trans d1)).1; subst this
      have hl := c2.symm.trans d2
      have := (List.map_inj_right (f := some) (fun _ _ h => Option.some.inj h)).mp hl
      subst this
      rw [each_unique a4 b4]
    | int b _ | intBool b _ => exact (clashI b a1 (by simp)).elim
    | float b _ | bool b _ | str b _ _ _ | node b _ _ _ | nodespan b _ _ _ _ _ _ | span b _ _ _ _ _ _ _ =>
      exact (clash a1 b (by simp)).elim
  | nodespan a1 a2 a3 a4 a5 a6 a7 =>
    cases h' with
    | unset b | null b => exact (ae b a5).elim
    | nodespan b1 b2 b3 b4 b5 b6 b7 =>
      rw [a2] at b2; cases b2
      have := ee a5 b5; subst this
      have e1 := (ident_inj (Option.some.inj (a6.symm.trans b6))).2
      have e2 := (ident_inj (Option.some.inj (a7.symm.trans b7))).2
      subst e1; subst e2
      rw [at_inj a3 b3, at_inj a4 b4]
    | int b _ | intBool b _ => exact (clashI b a1 (by simp)).elim
    | float b _ | bool b _ | str b _ _ _ | node b _ _ _ | nodes b _ _ _ | span b _ _ _ _ _ _ _ =>
      exact (clash a1 b (by simp)).elim
  | span a1 a2 a3 a4 a5 a6 a7 a8 =>
    cases h' with
    | unset b | null b => exact (ae b a6).elim
    | span b1 b2 b3 b4 b5 b6 b7 b8 =>
      rw [a2] at b2; cases b2
      rw [a3] at b3; cases b3
      have := ee a6 b6; subst this
      have e1 := natStr_inj (Option.some.inj (a7.symm.trans b7))
      have e2 := natStr_inj (Option.some.inj (a8.symm.trans b8))
      subst e1; subst e2
      rw [boundary_inj hts a4 b4, boundary_inj hts a5 b5]
    | int b _ | intBool b _ => exact (clashI b a1 (by simp)).elim
    | float b _ | bool b _ | str b _ _ _ | node b _ _ _ | nodes b _ _ _ | nodespan b _ _ _ _ _ _ =>
      exact (clash a1 b (by simp)).elim

/-! ### identifiers -/

namespace Spec
namespace Xml
mutual
/-- all values of the identifier attribute, in document order -/
def ids : Xml → List Str
  | .el _ a c => (dget a xmlId).toList ++ idsL c
/-- of a list of elements -/
def idsL : List Xml → List Str
  | [] => []
  | x :: xs => ids x ++ idsL xs
end
end Xml
end Spec

open Spec.Xml (ids idsL)

theorem idsL_append (a b : List Xml) : idsL (a ++ b) = idsL a ++ idsL b := by
  induction a with
  | nil => rfl
  | cons x a ih => simp [idsL, ih]

theorem idsL_map_nil {α : Type} (l : List α) (g : α → Xml) (h : ∀ a, ids (g a) = []) : idsL (l.map g) = [] := by
  induction l with
  | nil => rfl
  | cons a l ih => simp [idsL, h, ih]

theorem xmlId_ne : "key".toList ≠ xmlId ∧ "value".toList ≠ xmlId ∧ "layer".toList ≠ xmlId ∧ "name".toList ≠ xmlId ∧
    "type".toList ≠ xmlId ∧ "v".toList ≠ xmlId ∧ "id".toList ≠ xmlId ∧ "start".toList ≠ xmlId ∧ "stop".toList ≠ xmlId ∧
    "from".toList ≠ xmlId ∧ "until".toList ≠ xmlId ∧ "to".toList ≠ xmlId := by decide

theorem ids_el_nil (t : Str) (a : Dict Str Str) (c : List Xml) (h : ∀ k ∈ dkeys a, k ≠ xmlId) (hc : idsL c = []) :
    ids (.el t a c) = [] := by
  simp only [ids, hc, List.append_nil]
  rw [(dget_none_iff a xmlId).mpr (fun hm => h _ hm rfl)]
  rfl

theorem xmlEntry_ids {w : World} {vs : Bool} {x y : XEntries} {e : Str × XVal} (h : w.xmlEntry vs x e = .ok y)
    (hx : idsL x.embedded = []) : idsL y.embedded = [] := by
  have N := xmlId_ne
  obtain ⟨f, v⟩ := e
  unfold xmlEntry at h
  split at h
  · split at h
    · split at h
      · cases h
      · cases h
        simp only [idsL_append, hx, List.nil_append, idsL, List.append_nil]
        refine ids_el_nil _ _ _ ?_ rfl
        simp only [dkeys, List.map_cons, List.map_nil, List.mem_cons, List.not_mem_nil, or_false]
        rintro k (rfl | rfl | rfl)
        · exact N.2.2.2.1
        · exact N.2.2.2.2.2.2.2.2.2.1
        · exact N.2.2.2.2.2.2.2.2.2.2.1
    · cases h
  · cases h
  · split at h
    · cases h
    · split at h
      · cases h
        simp only [idsL_append, hx, List.nil_append, idsL, List.append_nil]
        refine ids_el_nil _ _ _ ?_ rfl
        simp only [dkeys, List.map_cons, List.map_nil, List.mem_cons, List.not_mem_nil, or_false]
        rintro k (rfl | rfl | rfl)
        · exact N.2.2.2.1
        · exact N.2.2.2.2.2.2.2.2.2.1
        · exact N.2.2.2.2.2.2.2.2.2.2.2
      · cases h
      · cases h
  · cases h; exact hx
  · cases h; exact hx
  · cases h

theorem xmlEntries_ids {w : World} {vs : Bool} (l : List (Str × XVal)) : ∀ {x y : XEntries}, w.xmlEntries vs x l = .ok y →
    idsL x.embedded = [] → idsL y.embedded = [] := by
  induction l with
  | nil => intro x y h hx; simp [xmlEntries] at h; subst h; exact hx
  | cons e l ih =>
    intro x y h hx
    simp only [xmlEntries] at h
    split at h
    · cases h
    · exact ih h (xmlEntry_ids ‹_› hx)

theorem xmlNodeEl_ids {w : World} {vs : Bool} {ident l x} (h : w.xmlNodeEl vs ident l = .ok x) : ids x = [ident] := by
  unfold xmlNodeEl at h
  split at h
  · cases h
  · cases h
    have := xmlEntries_ids l ‹_› rfl
    simp only [ids, dget_dset, if_true, idsL_append, this, List.nil_append]
    rw [idsL_map_nil]
    · rfl
    · intro a
      refine ids_el_nil _ _ _ ?_ (idsL_map_nil _ _ (fun v => ids_el_nil _ _ _ ?_ rfl))
      · simp only [dkeys, List.map_cons, List.map_nil, List.mem_singleton]
        rintro k rfl; exact xmlId_ne.2.2.2.1
      · simp only [dkeys, List.map_cons, List.map_nil, List.mem_singleton]
        rintro k rfl; exact xmlId_ne.2.2.2.2.2.1

theorem xmlNodeEls_ids {w : World} {vs : Bool} {pre : Str} (l : List (List (Str × XVal))) : ∀ {b xs},
    w.xmlNodeEls vs pre b l = .ok xs → idsL xs = (List.range' b l.length).map (fun i => pre ++ '.' :: natStr i) := by
  induction l with
  | nil => intro b xs h; simp [xmlNodeEls] at h; subst h; rfl
  | cons e l ih =>
    intro b xs h
    simp only [xmlNodeEls] at h
    split at h
    · cases h
    · split at h
      · cases h
      · cases h
        have := xmlNodeEl_ids ‹_›
        simp only [idsL, this, ih ‹_›, List.length_cons, List.range'_succ, List.map_cons, List.singleton_append]
        congr 1
        simp

theorem xmlLayerEl_ids {w : World} {vs : Bool} {pre : Str} {e x} (h : w.xmlLayerEl vs pre e = .ok x) :
    ids x = (List.range e.2.2.length).map (fun i => pre ++ e.1 ++ '.' :: natStr i) := by
  unfold xmlLayerEl at h
  split at h
  · cases h
  · cases h
    have := xmlNodeEls_ids _ ‹_›
    have hk : dget [("name".toList, e.1)] xmlId = none := by
      simp only [dget, xmlId_ne.2.2.2.1, if_false]
    simp only [ids, hk, Option.toList_none, List.nil_append, this, List.range_eq_range']

theorem layers_ids {w : World} {vs : Bool} {pre : Str} (l : List (Str × List (Str × XField) × List (List (Str × XVal)))) :
    ∀ {xs}, mapE (w.xmlLayerEl vs pre) l = .ok xs →
      idsL xs = l.flatMap (fun e => (List.range e.2.2.length).map (fun i => pre ++ e.1 ++ '.' :: natStr i)) := by
  induction l with
  | nil => intro xs h; simp [mapE] at h; subst h; rfl
  | cons e l ih =>
    intro xs h
    simp only [mapE] at h
    split at h
    · cases h
    · split at h
      · cases h
      · cases h
        simp only [idsL, xmlLayerEl_ids ‹_›, ih ‹_›, List.flatMap_cons]

theorem xmlSegs_ids (verbose : Bool) (l : List Str) : ∀ i pos, idsL (xmlSegs verbose i pos l) = [] := by
  have N := xmlId_ne
  induction l with
  | nil => intro i pos; rfl
  | cons s l ih =>
    intro i pos
    simp only [xmlSegs, idsL, ih, List.append_nil]
    refine ids_el_nil _ _ _ ?_ rfl
    cases verbose with
    | false =>
      simp only [Bool.false_eq_true, if_false, dkeys, List.map_cons, List.map_nil, List.mem_singleton]
      rintro k rfl; exact N.2.2.2.2.2.1
    | true =>
      simp only [if_true, dkeys, List.map_cons, List.map_nil, List.mem_cons, List.not_mem_nil, or_false]
      rintro k (rfl | rfl | rfl | rfl)
      · exact N.2.2.2.2.2.1
      · exact N.2.2.2.2.2.2.1
      · exact N.2.2.2.2.2.2.2.1
      · exact N.2.2.2.2.2.2.2.2.1

theorem xmlBuild_ids {w : World} {p : PyStr} {verbose vs : Bool} {docId : Str} {texts ls x}
    (h : w.xmlBuild p verbose vs docId texts ls = .ok x) : ids x = (if docId = [] then [] else [docId]) ++
      ls.flatMap (fun e => (List.range e.2.2.length).map (fun i =>
        (if docId = [] then [] else docId ++ ".".toList) ++ e.1 ++ '.' :: natStr i)) := by
  have N := xmlId_ne
  unfold xmlBuild at h
  split at h
  · cases h
  · cases h
    rename_i lels hl
    have e0 := layers_ids _ hl
    have e1 : (dget (if docId = [] then [] else [(xmlId, docId)]) xmlId).toList = if docId = [] then [] else [docId] := by
      by_cases hd : docId = [] <;> simp [hd, dget]
    have d0 : dget ([] : Dict Str Str) xmlId = none := rfl
    simp only [ids, idsL, e1, d0, Option.toList_none, List.nil_append, List.append_nil, e0]
    rw [idsL_map_nil, idsL_map_nil, idsL_map_nil]
    · simp
    · intro e
      refine ids_el_nil _ _ _ ?_ ?_
      · simp only [dkeys, List.map_cons, List.map_nil, List.mem_singleton]
        rintro k rfl; exact N.2.2.2.1
      · have : idsL (if verbose then [Xml.el "raw".toList [("value".toList, e.2.flatten)] []] else []) = [] := by
          cases verbose with
          | false => rfl
          | true =>
            simp only [if_true, idsL, List.append_nil]
            refine ids_el_nil _ _ _ ?_ rfl
            simp only [dkeys, List.map_cons, List.map_nil, List.mem_singleton]
            rintro k rfl; exact N.2.1
        simp only [idsL, this, List.append_nil]
        exact ids_el_nil _ _ _ (by simp [dkeys]) (xmlSegs_ids _ _ _ _)
    · intro e
      refine ids_el_nil _ _ _ ?_ (idsL_map_nil _ _ (fun a => ?_))
      · simp only [dkeys, List.map_cons, List.map_nil, List.mem_singleton]
        rintro k rfl; exact N.2.2.1
      · refine ids_el_nil _ _ _ ?_ (idsL_map_nil _ _ (fun b => ids_el_nil _ _ _ ?_ rfl))
        · simp only [dkeys, List.map_cons, List.map_nil, List.mem_cons, List.not_mem_nil, or_false]
          rintro k (rfl | rfl)
          · exact N.2.2.2.1
          · exact N.2.2.2.2.1
        · simp only [dkeys, List.map_cons, List.map_nil, List.mem_cons, List.not_mem_nil, or_false]
          rintro k (rfl | rfl)
          · exact N.1
          · exact N.2.1
    · intro e
      refine ids_el_nil _ _ _ ?_ rfl
      simp only [dkeys, List.map_cons, List.map_nil, List.mem_cons, List.not_mem_nil, or_false]
      rintro k (rfl | rfl)
      · exact N.1
      · exact N.2.1

theorem nodup_idents (pre : Str) (ls : List (Str × Nat)) (h : (ls.map (·.1)).Nodup) :
    (ls.flatMap (fun e => (List.range e.2).map (fun i => pre ++ e.1 ++ '.' :: natStr i))).Nodup := by
  unfold List.Nodup
  rw [List.pairwise_flatMap]
  constructor
  · intro e _
    refine List.Pairwise.map _ (fun i j hij heq => hij (ident_inj heq).2) List.nodup_range
  · rw [List.Nodup, List.pairwise_map] at h
    refine h.imp (fun {a b} hab => ?_)
    intro x hx y hy heq
    obtain ⟨i, -, rfl⟩ := List.mem_map.mp hx
    obtain ⟨j, -, rfl⟩ := List.mem_map.mp hy
    exact hab (List.append_cancel_left (ident_inj heq).1)

theorem mapE_fst {α β γ : Type} {f : α × β → Except PyErr (α × γ)} (h : ∀ a b, f a = .ok b → b.1 = a.1) {l : List (α × β)} :
    ∀ {r}, mapE f l = .ok r → r.map (·.1) = l.map (·.1) := by
  induction l with
  | nil => intro r hr; cases hr; rfl
  | cons a l ih =>
    intro r hr
    simp only [mapE] at hr
    split at hr
    · cases hr
    · split at hr
      · cases hr
      · cases hr
        simp only [List.map_cons, h _ _ ‹_›, ih ‹_›]

/-- **C63** identifiers are unique: no two elements of an exported tree have the same `xml:id`. -/
theorem C63_ids {w w' : World} (h : Reachable w) {p : PyStr} {verbose vs : Bool} {docId : Str} {x t : Bool} {e : Xml}
    (he : w.xmlTree p verbose vs docId x t = (w', .ok e)) : (ids e).Nodup := by
  unfold xmlTree at he
  split at he
  · cases he
  · rename_i w1 offs hc
    split at he
    · cases he
    · rename_i texts ls hin
      have hb : w1.xmlBuild p verbose vs docId texts ls = .ok e := (Prod.mk.inj he).2
      rw [xmlBuild_ids hb]
      have so := C28_compile_pure h x t
      rw [hc] at so
      have hk : ls.map (·.1) = dkeys w1.dl := by
        unfold xmlInter at hin
        split at hin
        · cases hin
        · split at hin
          · cases hin
          · cases hin
            refine mapE_fst (fun a b hab => ?_) ‹_›
            unfold xmlLayer at hab
            split at hab
            · cases hab
            · split at hab
              · cases hab
              · cases hab; rfl
      rw [so.1] at hk
      have hn := nodup_idents (if docId = [] then [] else docId ++ ".".toList) (ls.map (fun e => (e.1, e.2.2.length))) (by
        rw [List.map_map]
        exact hk ▸ h.wf.dlKeys)
      rw [List.flatMap_map] at hn
      by_cases hd : docId = []
      · simpa [hd] using hn
      · simp only [hd, if_false, List.singleton_append, List.nodup_cons] at hn ⊢
        refine ⟨?_, hn⟩
        intro hm
        obtain ⟨a, -, hm⟩ := List.mem_flatMap.mp hm
        obtain ⟨i, -, hm⟩ := List.mem_map.mp hm
        have := congrArg List.length hm
        simp at this

/-- **C63** with the extra attributes, each segment also shows its number and its start and end in the
text. -/
theorem C63_verbose (segs : List Str) : ∀ (i0 p0 i : Nat) (s : Str), segs[i]? = some s →
    ∃ x, (xmlSegs true i0 p0 segs)[i]? = some x ∧ attr x "v".toList = some s ∧ attr x "id".toList = some (natStr (i0 + i)) ∧
      attr x "start".toList = some (natStr (p0 + (segs.take i).flatten.length)) ∧
      attr x "stop".toList = some (natStr (p0 + (segs.take i).flatten.length + s.length)) := by
  induction segs with
  | nil => intro i0 p0 i s h; simp at h
  | cons a segs ih =>
    intro i0 p0 i s h
    cases i with
    | zero =>
      simp at h; subst h
      refine ⟨_, rfl, ?_, ?_, ?_, ?_⟩ <;> simp [attr, Xml.attrs, dget]
    | succ i =>
      obtain ⟨x, h1, h2, h3, h4, h5⟩ := ih (i0 + 1) (p0 + a.length) i s (by simpa using h)
      refine ⟨x, by simpa [xmlSegs] using h1, h2, ?_, ?_, ?_⟩
      · rw [h3]; congr 2; omega
      · rw [h4]; simp [Nat.add_assoc]
      · rw [h5]; simp [Nat.add_assoc]

/-! ### concrete cases -/

namespace Ex

/-- `wfull` (a field of every kind) without its binary value -/
def wxml : World := World.empty.run (opsFull ++ [.delField 0 "bin".toList])
set_option maxRecDepth 20000 in
theorem wxml_reachable : Reachable wxml := reachable_run _ (by decide)
set_option maxRecDepth 20000 in
theorem wxml_encodable : Spec.Encodable wxml := Check.doc_ok (by decide)

/-- no binary data, checked by evaluation -/
def noBytes (w : World) : Bool :=
  w.dl.all (fun e => (w.iter e.2).all (fun n => match n with
    | some n => (w.nodes n).fields.all (fun v => match v.2 with | .bytes _ => false | _ => true)
    | none => true))

theorem noBytes_ok {w : World} (h : noBytes w = true) (k L n f b) (hL : (k, L) ∈ w.dl) (hn : some n ∈ w.iter L) :
    dget (w.nodes n).fields f ≠ some (.bytes b) := by
  intro hf
  have h1 := List.all_eq_true.mp h _ hL
  have h2 := List.all_eq_true.mp h1 _ hn
  have h3 := List.all_eq_true.mp h2 _ (dget_mem hf)
  cases h3

/-- some way of printing floats and other values -/
def pystr : PyStr := ⟨fun x => natStr x.toNat, fun _ => "?".toList⟩

/-- the error of a failed export -/
def xmlErr : World × Except PyErr Xml → Option PyErr
  | (_, .error e) => some e
  | _ => none

/-- the element at a path -/
def xmlAt : Xml → List Nat → Option Xml
  | e, [] => some e
  | .el _ _ c, i :: is => match c[i]? with
    | some x => xmlAt x is
    | none => none

/-- the attributes of the element at a path of an exported tree -/
def xmlAttrs (r : World × Except PyErr Xml) (path : List Nat) : Option (Dict Str Str) :=
  match r with
  | (_, .ok e) => (xmlAt e path).map (·.attrs)
  | _ => none

end Ex

set_option maxRecDepth 20000 in
example : ∃ w' e, Ex.wxml.xmlTree Ex.pystr true false "d1".toList false true = (w', .ok e) ∧
    Spec.Xml.ShowsDoc Ex.wxml Ex.pystr "d1".toList e :=
  C63_tree_partial Ex.wxml_reachable Ex.wxml_encodable (Ex.noBytes_ok (by decide)) (by
    intro k L hL
    have : Ex.wxml.dl = [("tok".toList, 0), ("ent".toList, 1)] := by decide
    rw [this] at hL
    simp only [List.mem_cons, Prod.mk.injEq, List.not_mem_nil, or_false] at hL
    rcases hL with ⟨rfl, rfl⟩ | ⟨rfl, rfl⟩ <;> decide) Ex.pystr true "d1".toList false true

-- the second token (layer 0, node 1) and its span, the first entity's node span
set_option maxRecDepth 20000 in
example : Ex.xmlAttrs (Ex.wxml.xmlTree Ex.pystr false false "d1".toList false true) [3, 0, 1] =
    some [("pos".toList, "NN".toList), ("dep".toList, "0".toList), ("ent".toList, "1".toList), ("n".toList, "1".toList),
      (xmlId, "d1.tok.1".toList)] := by decide +kernel
set_option maxRecDepth 20000 in
example : Ex.xmlAttrs (Ex.wxml.xmlTree Ex.pystr false false "d1".toList false true) [3, 0, 1, 0] =
    some [("name".toList, "s".toList), ("from".toList, "2".toList), ("until".toList, "3".toList)] := by decide +kernel
set_option maxRecDepth 20000 in
example : Ex.xmlAttrs (Ex.wxml.xmlTree Ex.pystr false false "d1".toList false true) [3, 1, 0, 0] =
    some [("name".toList, "rng".toList), ("from".toList, "tok.0".toList), ("to".toList, "tok.1".toList)] := by decide +kernel

-- all identifiers
set_option maxRecDepth 20000 in
example : (match (Ex.wxml.xmlTree Ex.pystr true false "d1".toList false true).2 with | .ok e => ids e | .error _ => []) =
    ["d1".toList, "d1.tok.0".toList, "d1.tok.1".toList, "d1.ent.0".toList, "d1.ent.1".toList] := by decide +kernel

-- reading a value back: the attribute of an integer field
example : Spec.Xml.Shown Ex.wxml Ex.pystr [] (.el "n".toList [("f".toList, "-7".toList)] []) "f".toList ⟨.i32, true, []⟩
    (some (.int (-7))) := .int (.inl rfl) ⟨by decide, rfl, rfl⟩

example : (["ab".toList, [], "c".toList] : List Str)[2]? = some "c".toList ∧
    ((xmlSegs true 0 0 ["ab".toList, [], "c".toList])[2]?).map (·.attrs) =
      some [("v".toList, "c".toList), ("id".toList, "2".toList), ("start".toList, "2".toList), ("stop".toList, "3".toList)] := by
  decide

set_option maxRecDepth 20000 in
/-- **C63** fails for binary data: a valid document whose export raises ValueError. -/
theorem C63_binary_fails : Reachable Ex.wfull ∧ Spec.Encodable Ex.wfull ∧
    Ex.xmlErr (Ex.wfull.xmlTree Ex.pystr false false [] false true) = some .value :=
  ⟨Ex.wfull_reachable, Ex.wfull_encodable, by decide +kernel⟩

set_option maxRecDepth 20000 in
/-- **C63** fails with `verbose_node_spans`: a document with a span raises TypeError. -/
theorem C63_verbose_spans_fails : Reachable Ex.wxml ∧ Spec.Encodable Ex.wxml ∧
    Ex.xmlErr (Ex.wxml.xmlTree Ex.pystr false true [] false true) = some .type :=
  ⟨Ex.wxml_reachable, Ex.wxml_encodable, by decide +kernel⟩

namespace Ex

/-- a text with a character XML does not allow, and a field called like the identifier attribute -/
def wodd : World := World.empty.run [.addText "main".toList ['a', Char.ofNat 1], .addLayer "l".toList
  [(xmlId, ⟨.string, true, []⟩)], .addNew 0 [(xmlId, .str "mine".toList)]]
set_option maxRecDepth 20000 in
theorem wodd_reachable : Reachable wodd := reachable_run _ (by decide)
set_option maxRecDepth 20000 in
theorem wodd_encodable : Spec.Encodable wodd := Check.doc_ok (by decide)

end Ex

set_option maxRecDepth 20000 in
/-- **C63** fails for a field called like the identifier attribute: its value is overwritten. -/
theorem C63_id_field_fails : Reachable Ex.wodd ∧ Spec.Encodable Ex.wodd ∧
    Ex.xmlAttrs (Ex.wodd.xmlTree Ex.pystr false false [] false true) [3, 0, 0] = some [(xmlId, "l.0".toList)] :=
  ⟨Ex.wodd_reachable, Ex.wodd_encodable, by decide +kernel⟩

set_option maxRecDepth 20000 in
/-- Only string fields are cleaned: a character of a text that XML does not allow ends up in an attribute. -/
theorem C63_text_char_fails : Reachable Ex.wodd ∧ Spec.Encodable Ex.wodd ∧ ¬ Spec.Xml.Allowed (Char.ofNat 1) ∧
    Ex.xmlAttrs (Ex.wodd.xmlTree Ex.pystr false false [] false true) [2, 0, 0, 0] = some [("v".toList, ['a', Char.ofNat 1])] := by
  refine ⟨Ex.wodd_reachable, Ex.wodd_encodable, ?_, by decide +kernel⟩
  unfold Spec.Xml.Allowed
  decide

end Verif
