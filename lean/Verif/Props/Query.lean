import Verif.Model.Query
import Verif.Proof.Layer
import Verif.Props.Layer
/-
C56: predicates form a boolean algebra; C57: queries are ordered snapshots.
-/
namespace Verif
set_option linter.unusedSimpArgs false
open World

namespace Spec
namespace Query

/-- the predicate is not built with `&`, `|` or `~` -/
def Atom : Pred → Prop
  | .and _ _ => False
  | .or _ _ => False
  | .not _ => False
  | _ => True

/-- what a predicate means, given what its atoms say -/
def Means (atom : Pred → Prop) : Pred → Prop
  | .and l r => Means atom l ∧ Means atom r
  | .or l r => Means atom l ∨ Means atom r
  | .not p => ¬ Means atom p
  | p => atom p

/-- the atoms a predicate is built from -/
def atoms : Pred → List Pred
  | .and l r => atoms l ++ atoms r
  | .or l r => atoms l ++ atoms r
  | .not p => atoms p
  | p => [p]

/-- the predicate can be evaluated on the node -/
def Answers (w : World) (n : NodeId) (p : Pred) : Prop := ∃ b, w.holds n p = .ok b

/-- the predicate is true of the node -/
def True_ (w : World) (n : NodeId) (p : Pred) : Prop := w.holds n p = .ok true

end Query
end Spec

open Spec.Query

theorem holds_and {w : World} {n : NodeId} (l r : Pred) : w.holds n (.and l r) =
    (match w.holds n l with | .error e => .error e | .ok true => w.holds n r | .ok false => .ok false) := by
  unfold holds
  simp only [evalPred]
  cases hl : w.evalPred n l with
  | error e => rfl
  | ok v =>
    simp only
    cases ht : w.truth v with
    | error e => rfl
    | ok b => cases b <;> simp [ht]

theorem holds_or {w : World} {n : NodeId} (l r : Pred) : w.holds n (.or l r) =
    (match w.holds n l with | .error e => .error e | .ok true => .ok true | .ok false => w.holds n r) := by
  unfold holds
  simp only [evalPred]
  cases hl : w.evalPred n l with
  | error e => rfl
  | ok v =>
    simp only
    cases ht : w.truth v with
    | error e => rfl
    | ok b => cases b <;> simp [ht]

theorem holds_not {w : World} {n : NodeId} (p : Pred) : w.holds n (.not p) =
    (match w.holds n p with | .error e => .error e | .ok b => .ok (!b)) := by
  unfold holds
  simp only [evalPred]
  cases hl : w.evalPred n p with
  | error e => rfl
  | ok v =>
    simp only
    cases ht : w.truth v with
    | error e => rfl
    | ok b => simp [truth]

/-- C56. A predicate built with `&`, `|` and `~`, nested to any depth, is true of a node exactly when its atoms
make it true, reading `&` as and, `|` as or, `~` as not — whenever its atoms can be evaluated on the node. -/
theorem C56_meaning (w : World) (n : NodeId) (p : Pred) (h : ∀ a ∈ atoms p, Answers w n a) :
    Answers w n p ∧ (True_ w n p ↔ Means (True_ w n) p) := by
  induction p with
  | and l r ihl ihr =>
    obtain ⟨⟨bl, hl⟩, il⟩ := ihl (fun a ha => h a (List.mem_append_left _ ha))
    obtain ⟨⟨br, hr⟩, ir⟩ := ihr (fun a ha => h a (List.mem_append_right _ ha))
    simp only [Means, ← il, ← ir, Answers, True_, holds_and, hl, hr]
    cases bl <;> cases br <;> simp
  | or l r ihl ihr =>
    obtain ⟨⟨bl, hl⟩, il⟩ := ihl (fun a ha => h a (List.mem_append_left _ ha))
    obtain ⟨⟨br, hr⟩, ir⟩ := ihr (fun a ha => h a (List.mem_append_right _ ha))
    simp only [Means, ← il, ← ir, Answers, True_, holds_or, hl, hr]
    cases bl <;> cases br <;> simp
  | not p ih =>
    obtain ⟨⟨b, hp⟩, i⟩ := ih h
    simp only [Means, ← i, Answers, True_, holds_not, hp]
    cases b <;> simp
  | contains fld vs => exact ⟨h _ (by simp [atoms]), Iff.rfl⟩
  | eq fld v => exact ⟨h _ (by simp [atoms]), Iff.rfl⟩
  | neq fld v => exact ⟨h _ (by simp [atoms]), Iff.rfl⟩
  | cmp c fld v => exact ⟨h _ (by simp [atoms]), Iff.rfl⟩
  | fieldLambda fld fn => exact ⟨h _ (by simp [atoms]), Iff.rfl⟩
  | lambda fn flds => exact ⟨h _ (by simp [atoms]), Iff.rfl⟩
  | call fn => exact ⟨h _ (by simp [atoms]), Iff.rfl⟩

/-- C56, evaluation order: `p & q` raises only if `p` does or `p` is true and `q` raises, and `p | q` only if `p`
does or `p` is false and `q` raises; so a guard in front protects what follows. -/
theorem C56_short_circuit (w : World) (n : NodeId) (p q : Pred) (e : PyErr) :
    (w.holds n (.and p q) = .error e ↔
      w.holds n p = .error e ∨ (w.holds n p = .ok true ∧ w.holds n q = .error e)) ∧
    (w.holds n (.or p q) = .error e ↔
      w.holds n p = .error e ∨ (w.holds n p = .ok false ∧ w.holds n q = .error e)) ∧
    (w.holds n (.not p) = .error e ↔ w.holds n p = .error e) := by
  rw [holds_and, holds_or, holds_not]
  cases hp : w.holds n p with
  | error e' => simp
  | ok b => cases b <;> simp

/-! ### selections -/

theorem selectFrom_eq {w : World} {p : Pred} (ns : List NodeId) (f : NodeId → Bool)
    (h : ∀ n ∈ ns, w.holds n p = .ok (f n)) : w.selectFrom p (ns.map some) = .ok (ns.filter f) := by
  induction ns with
  | nil => rfl
  | cons n ns ih =>
    simp only [List.map_cons, selectFrom, h n (by simp), ih (fun x hx => h x (List.mem_cons_of_mem _ hx)),
      List.filter_cons]

theorem selectFrom_ok {w : World} {p : Pred} (ns : List (Option NodeId)) {r : List NodeId}
    (h : w.selectFrom p ns = .ok r) : ∃ (l : List NodeId) (f : NodeId → Bool), ns = l.map some ∧
      (∀ n ∈ l, w.holds n p = .ok (f n)) ∧ r = l.filter f := by
  have hdet : ∀ n, ∃ f : NodeId → Bool, ∀ b, w.holds n p = .ok b → f n = b := by
    intro n
    cases hh : w.holds n p with
    | error e => exact ⟨fun _ => true, by simp⟩
    | ok b => exact ⟨fun _ => b, by simp⟩
  suffices hs : ∀ (f : NodeId → Bool), (∀ n b, w.holds n p = .ok b → f n = b) → ∃ l : List NodeId, ns = l.map some ∧
      (∀ n ∈ l, w.holds n p = .ok (f n)) ∧ r = l.filter f by
    let f : NodeId → Bool := fun n => match w.holds n p with | .ok b => b | .error _ => true
    obtain ⟨l, h1⟩ := hs f (by intro n b hb; simp [f, hb])
    exact ⟨l, f, h1⟩
  intro f hf
  induction ns generalizing r with
  | nil => simp only [selectFrom, Except.ok.injEq] at h; exact ⟨[], rfl, by simp, by simp [← h]⟩
  | cons o ns ih =>
    cases o with
    | none => simp [selectFrom] at h
    | some n =>
      simp only [selectFrom] at h
      cases hh : w.holds n p with
      | error e => rw [hh] at h; simp at h
      | ok b =>
        rw [hh] at h
        simp only at h
        cases hs : w.selectFrom p ns with
        | error e => rw [hs] at h; simp at h
        | ok r' =>
          rw [hs] at h
          simp only [Except.ok.injEq] at h
          obtain ⟨l, h1, h2, h3⟩ := ih hs
          have hb := hf n b hh
          refine ⟨n :: l, by simp [h1], ?_, ?_⟩
          · intro x hx
            rcases List.mem_cons.1 hx with rfl | hx
            · rw [hh, hb]
            · exact h2 x hx
          · rw [← h, List.filter_cons, h3, hb]

/-- C56. Selecting with `p & q`, `p | q` and `~p` from a collection gives the nodes in both selections, in either
selection, and in the collection but not in the selection — each in the order of the collection and as often
as there. -/
theorem C56_selections (w : World) (ns : List NodeId) (p q : Pred) {rp rq : List NodeId}
    (hp : w.selectFrom p (ns.map some) = .ok rp) (hq : w.selectFrom q (ns.map some) = .ok rq) :
    w.selectFrom (.and p q) (ns.map some) = .ok (ns.filter (fun n => decide (n ∈ rp) && decide (n ∈ rq))) ∧
    w.selectFrom (.or p q) (ns.map some) = .ok (ns.filter (fun n => decide (n ∈ rp) || decide (n ∈ rq))) ∧
    w.selectFrom (.not p) (ns.map some) = .ok (ns.filter (fun n => !decide (n ∈ rp))) ∧
    rp = ns.filter (fun n => decide (n ∈ rp)) := by
  obtain ⟨l, f, h1, h2, h3⟩ := selectFrom_ok _ hp
  obtain ⟨l', g, h4, h5, h6⟩ := selectFrom_ok _ hq
  have e1 : ns = l := (List.map_inj_right (fun a b h => Option.some.inj h)).1 h1
  have e2 : ns = l' := (List.map_inj_right (fun a b h => Option.some.inj h)).1 h4
  subst e1; subst e2
  have kp : ∀ n ∈ ns, decide (n ∈ rp) = f n := by
    intro n hn; rw [h3]; simp [List.mem_filter, hn]
  have kq : ∀ n ∈ ns, decide (n ∈ rq) = g n := by
    intro n hn; rw [h6]; simp [List.mem_filter, hn]
  refine ⟨?_, ?_, ?_, ?_⟩
  · apply selectFrom_eq
    intro n hn
    rw [holds_and, h2 n hn, kp n hn, kq n hn]
    cases f n <;> simp [h5 n hn]
  · apply selectFrom_eq
    intro n hn
    rw [holds_or, h2 n hn, kp n hn, kq n hn]
    cases f n <;> simp [h5 n hn]
  · apply selectFrom_eq
    intro n hn
    rw [holds_not, h2 n hn, kp n hn]
  · rw [h3]
    apply List.filter_congr
    intro n hn
    simp [List.mem_filter, hn]

/-! ### atoms -/

theorem holds_eq (w : World) (n : NodeId) (f : Str) (v : Value) : w.holds n (.eq f v) = w.valueEq (w.getField n f) v := by
  unfold holds
  simp only [evalPred]
  cases w.valueEq (w.getField n f) v <;> rfl

theorem holds_neq (w : World) (n : NodeId) (f : Str) (v : Value) : w.holds n (.neq f v) = w.holds n (.not (.eq f v)) := by
  rw [holds_not, holds_eq]
  unfold holds
  simp only [evalPred]
  cases w.valueEq (w.getField n f) v <;> rfl

theorem holds_cmp (w : World) (n : NodeId) (c : Cmp) (f : Str) (v : Value) :
    w.holds n (.cmp c f v) = valueCmp c (w.getField n f) v := by
  unfold holds
  simp only [evalPred]
  cases valueCmp c (w.getField n f) v <;> rfl

theorem holds_contains (w : World) (n : NodeId) (f : Str) (vs : List Value) :
    w.holds n (.contains f vs) = w.inSet (w.getField n f) vs := by
  unfold holds
  simp only [evalPred]
  cases w.inSet (w.getField n f) vs <;> rfl

namespace Spec
namespace Query

/-- equality of a field value and a given value, by kind -/
inductive Same (w : World) : Value → Value → Prop
  | none : Same w .none .none
  | int (i : Int) : Same w (.int i) (.int i)
  | bool (b : Bool) : Same w (.bool b) (.bool b)
  | str (s : Str) : Same w (.str s) (.str s)
  | bytes (b : List UInt8) : Same w (.bytes b) (.bytes b)
  | node (n : NodeId) : Same w (.node n) (.node n)
  | nodes (ns : List NodeId) : Same w (.nodes ns) (.nodes ns)
  /-- spans compare by their bounds only -/
  | span (t t' : TextId) (a b : Int) : Same w (.span t a b) (.span t' a b)
  /-- a span and the text it covers -/
  | covers (t : TextId) (a b : Int) : Same w (.span t a b) (.str ((⟨w.texts t, a, b⟩ : TextSpan).str))
  | covered (t : TextId) (a b : Int) : Same w (.str ((⟨w.texts t, a, b⟩ : TextSpan).str)) (.span t a b)
  /-- True is 1 and False is 0 -/
  | boolint (b : Bool) : Same w (.bool b) (.int (if b then 1 else 0))
  | intbool (b : Bool) : Same w (.int (if b then 1 else 0)) (.bool b)

/-- values without floats and without objects compared by identity -/
def Simple : Value → Prop
  | .float _ => False
  | .nodespan _ _ => False
  | .ext _ _ => False
  | .data _ => False
  | .other => False
  | _ => True

end Query
end Spec

theorem p1074 : (2 : Int) ^ 1074 ≠ 0 := by
  have : (0 : Int) < 2 ^ 1074 := Int.pow_pos (by decide)
  omega

theorem mul_p_inj {a b : Int} : a * 2 ^ 1074 = b * 2 ^ 1074 ↔ a = b :=
  ⟨fun h => Int.eq_of_mul_eq_mul_right p1074 h, fun h => by rw [h]⟩

theorem boolnum (b : Bool) : (if b = true then (2 : Int) ^ 1074 else 0) = (if b = true then 1 else 0) * 2 ^ 1074 := by
  cases b <;> simp

theorem valueEq_iff (w : World) (a b : Value) (ha : Spec.Query.Simple a) (hb : Spec.Query.Simple b) :
    ∃ r, w.valueEq a b = .ok r ∧ (r = true ↔ Spec.Query.Same w a b) := by
  cases a <;> cases b <;> first | exact (ha : False).elim | exact (hb : False).elim | skip
  all_goals
    refine ⟨_, by simp only [valueEq, Value.num, Obj.num]; rfl, ?_⟩
  all_goals try (
    constructor
    · intro h; simp at h; done
    · intro h; cases h; done)
  case none.none => exact ⟨fun _ => .none, fun _ => rfl⟩
  case bool.bool x y =>
    simp only [Obj.Num.eq, decide_eq_true_eq]
    rw [boolnum, boolnum, mul_p_inj]
    constructor
    · intro h
      have : x = y := by cases x <;> cases y <;> simp at h <;> rfl
      subst this; exact .bool _
    · intro h; cases h; rfl
  case bool.int x y =>
    simp only [Obj.Num.eq, decide_eq_true_eq]
    rw [boolnum, mul_p_inj]
    constructor
    · rintro rfl; exact .boolint x
    · intro h; cases h; rfl
  case int.bool x y =>
    simp only [Obj.Num.eq, decide_eq_true_eq]
    rw [boolnum, mul_p_inj]
    constructor
    · rintro rfl; exact .intbool y
    · intro h; cases h; rfl
  case int.int x y =>
    simp only [Obj.Num.eq, decide_eq_true_eq]
    rw [mul_p_inj]
    constructor
    · rintro rfl; exact .int x
    · intro h; cases h; rfl
  case str.str x y =>
    simp only [decide_eq_true_eq]
    exact ⟨by rintro rfl; exact .str x, by intro h; cases h; rfl⟩
  case bytes.bytes x y =>
    simp only [decide_eq_true_eq]
    exact ⟨by rintro rfl; exact .bytes x, by intro h; cases h; rfl⟩
  case node.node x y =>
    simp only [decide_eq_true_eq]
    exact ⟨by rintro rfl; exact .node x, by intro h; cases h; rfl⟩
  case nodes.nodes x y =>
    simp only [decide_eq_true_eq]
    exact ⟨by rintro rfl; exact .nodes x, by intro h; cases h; rfl⟩
  case str.span x t a b =>
    show decide (_ = x) = true ↔ _
    rw [decide_eq_true_eq]
    exact ⟨by rintro rfl; exact .covered t a b, by intro h; cases h; rfl⟩
  case span.str t a b x =>
    show decide (_ = x) = true ↔ _
    rw [decide_eq_true_eq]
    exact ⟨by rintro rfl; exact .covers t a b, by intro h; cases h; rfl⟩
  case span.span t a b t' a' b' =>
    simp only [Bool.and_eq_true, decide_eq_true_eq]
    exact ⟨by rintro ⟨rfl, rfl⟩; exact .span t t' a b, by intro h; cases h; exact ⟨rfl, rfl⟩⟩

/-- C56. `layer[f] == v` selects the nodes whose value of `f` (None when unset) is the same as `v`, and `!=` selects
the others. Two spans are the same when they have the same bounds, whatever their texts, and a span is the same
as the text it covers; True and False are 1 and 0. Stated for values without floats and NodeSpans. -/
theorem C56_eq (w : World) (n : NodeId) (f : Str) (v : Value) (hx : Spec.Query.Simple (w.getField n f))
    (hv : Spec.Query.Simple v) :
    (True_ w n (.eq f v) ↔ Spec.Query.Same w (w.getField n f) v) ∧
    (True_ w n (.neq f v) ↔ ¬ Spec.Query.Same w (w.getField n f) v) ∧
    Answers w n (.eq f v) ∧ Answers w n (.neq f v) := by
  obtain ⟨r, h1, h2⟩ := valueEq_iff w _ _ hx hv
  simp only [True_, Answers, holds_neq, holds_not, holds_eq, h1, ← h2]
  cases r <;> simp

/-- C56, floats: a float field equals an int exactly when it is that number; NaN equals nothing. -/
theorem C56_eq_float (w : World) (n : NodeId) (f : Str) (b : UInt64) (i : Int) (hx : w.getField n f = .float b) :
    (True_ w n (.eq f (.int i)) ↔ Obj.floatNum b = .fin (i * 2 ^ 1074)) ∧
    (Obj.floatNum b = .nan → ∀ c, ¬ True_ w n (.eq f (.float c))) := by
  constructor
  · simp only [True_, holds_eq, hx, valueEq, Value.num, Obj.num]
    cases Obj.floatNum b <;> simp [Obj.Num.eq]
  · intro h c
    simp only [True_, holds_eq, hx, valueEq, Value.num, Obj.num, h]
    simp [Obj.Num.eq]

namespace Spec
namespace Query

/-- order of strings: at the first difference, or a proper prefix -/
def Before (s t : Str) : Prop :=
  (∃ r, r ≠ [] ∧ t = s ++ r) ∨
  ∃ p x y s' t', s = p ++ x :: s' ∧ t = p ++ y :: t' ∧ x.toNat < y.toNat

/-- what a comparison operator asks of two things in an order -/
def Asks (c : Cmp) (less : Prop) (same : Prop) (more : Prop) : Prop :=
  match c with
  | .lt => less
  | .le => less ∨ same
  | .gt => more
  | .ge => more ∨ same

end Query
end Spec

theorem seqLt_iff (s t : Str) : seqLt Char.toNat s t = true ↔ Spec.Query.Before s t := by
  induction s generalizing t with
  | nil =>
    cases t with
    | nil =>
      simp only [seqLt, Bool.false_eq_true, false_iff]
      rintro (⟨r, h1, h2⟩ | ⟨p, x, y, s', t', h1, h2, _⟩)
      · simp at h2; exact h1 h2
      · simp at h1
    | cons y t =>
      simp only [seqLt, true_iff]
      exact Or.inl ⟨y :: t, by simp, by simp⟩
  | cons x s ih =>
    cases t with
    | nil =>
      simp only [seqLt, Bool.false_eq_true, false_iff]
      rintro (⟨r, h1, h2⟩ | ⟨p, x, y, s', t', h1, h2, _⟩)
      · simp at h2
      · simp at h2
    | cons y t =>
      simp only [seqLt]
      by_cases h1 : x.toNat < y.toNat
      · simp only [h1, if_true, true_iff]
        exact Or.inr ⟨[], x, y, s, t, rfl, rfl, h1⟩
      · by_cases h2 : y.toNat < x.toNat
        · simp only [h1, h2, if_true, if_false, Bool.false_eq_true, false_iff]
          rintro (⟨r, h3, h4⟩ | ⟨p, x', y', s', t', h3, h4, h5⟩)
          · simp only [List.cons_append, List.cons.injEq] at h4
            rw [h4.1] at h2; omega
          · cases p with
            | nil =>
              simp only [List.nil_append, List.cons.injEq] at h3 h4
              rw [← h3.1, ← h4.1] at h5; omega
            | cons c p =>
              simp only [List.cons_append, List.cons.injEq] at h3 h4
              rw [h3.1, h4.1] at h2; omega
        · have hxy : x = y := Char.toNat_inj.1 (by omega)
          subst hxy
          simp only [h1, if_false, ih t]
          constructor
          · rintro (⟨r, h3, h4⟩ | ⟨p, x', y', s', t', h3, h4, h5⟩)
            · exact Or.inl ⟨r, h3, by simp [h4]⟩
            · exact Or.inr ⟨x :: p, x', y', s', t', by simp [h3], by simp [h4], h5⟩
          · rintro (⟨r, h3, h4⟩ | ⟨p, x', y', s', t', h3, h4, h5⟩)
            · exact Or.inl ⟨r, h3, by simpa using h4⟩
            · cases p with
              | nil =>
                simp only [List.nil_append, List.cons.injEq] at h3 h4
                rw [← h3.1, ← h4.1] at h5; omega
              | cons c p =>
                simp only [List.cons_append, List.cons.injEq] at h3 h4
                exact Or.inr ⟨p, x', y', s', t', h3.2, h4.2, h5⟩

theorem p1074_pos : (0 : Int) < 2 ^ 1074 := Int.pow_pos (by decide)

theorem mul_p_lt {a b : Int} : a * 2 ^ 1074 < b * 2 ^ 1074 ↔ a < b :=
  ⟨fun h => Int.lt_of_mul_lt_mul_right h (Int.le_of_lt p1074_pos), fun h => Int.mul_lt_mul_of_pos_right h p1074_pos⟩

/-- C56. The order comparisons of a field: integers by value, strings by code points at the first difference; an
unset field raises TypeError. -/
theorem C56_order (w : World) (n : NodeId) (f : Str) (c : Cmp) :
    (∀ i j, w.getField n f = .int i →
      (True_ w n (.cmp c f (.int j)) ↔ Spec.Query.Asks c (i < j) (i = j) (j < i))) ∧
    (∀ s t, w.getField n f = .str s →
      (True_ w n (.cmp c f (.str t)) ↔ Spec.Query.Asks c (Spec.Query.Before s t) (s = t) (Spec.Query.Before t s))) ∧
    (∀ v, dget (w.nodes n).fields f = none → v ≠ .other → w.holds n (.cmp c f v) = .error .type) := by
  refine ⟨?_, ?_, ?_⟩
  · intro i j h
    simp only [True_, holds_cmp, h, valueCmp, Value.num, Obj.num]
    cases c <;> simp [Cmp.pick, Spec.Query.Asks, Obj.Num.lt, Obj.Num.eq, mul_p_lt, mul_p_inj]
  · intro s t h
    simp only [True_, holds_cmp, h, valueCmp]
    cases c <;> simp [Cmp.pick, Spec.Query.Asks, seqLt_iff]
  · intro v h hv
    have : w.getField n f = .none := by simp [getField, h]
    rw [holds_cmp, this]
    cases v <;> simp [valueCmp, Value.num] at hv ⊢

/-- C56. On numbers other than NaN `<` selects exactly what `>=` does not, and `<=` what `>` does not. -/
theorem C56_order_complement (w : World) (n : NodeId) (f : Str) (v : Value) {x y : Obj.Num}
    (hx : (w.getField n f).num = some x) (hy : v.num = some y) (h1 : x ≠ .nan) (h2 : y ≠ .nan) :
    (True_ w n (.cmp .lt f v) ↔ ¬ True_ w n (.cmp .ge f v)) ∧
    (True_ w n (.cmp .le f v) ↔ ¬ True_ w n (.cmp .gt f v)) ∧
    Answers w n (.cmp .lt f v) := by
  have key : ∀ c, w.holds n (.cmp c f v) = .ok (Cmp.pick c (x.lt y) (y.lt x) (x.eq y)) := by
    intro c
    rw [holds_cmp]
    generalize w.getField n f = a at hx
    cases a <;> simp [Value.num] at hx <;> cases v <;> simp [Value.num] at hy <;>
      simp [valueCmp, Value.num, hx, hy]
  simp only [True_, Answers, key, Cmp.pick]
  cases x with
  | nan => exact absurd rfl h1
  | fin a =>
    cases y with
    | nan => exact absurd rfl h2
    | fin b => simp [Obj.Num.lt, Obj.Num.eq]; omega
    | inf b => cases b <;> simp [Obj.Num.lt, Obj.Num.eq]
  | inf a =>
    cases y with
    | nan => exact absurd rfl h2
    | fin b => cases a <;> simp [Obj.Num.lt, Obj.Num.eq]
    | inf b => cases a <;> cases b <;> simp [Obj.Num.lt, Obj.Num.eq]

/-- C56. `is_none()` selects the nodes without a value and `has_value()` the others. -/
theorem C56_is_none (w : World) (n : NodeId) (f : Str) :
    (True_ w n (FieldPred.isNone f) ↔ w.getField n f = .none) ∧
    (True_ w n (FieldPred.hasValue f) ↔ ¬ w.getField n f = .none) := by
  simp only [True_, holds, FieldPred.isNone, FieldPred.hasValue, evalPred]
  constructor
  · simp [truth]
  · split <;> simp_all [truth]

/-- C56. `covered_by(a, b)` selects the nodes whose span lies in `[a, b)` and `intersected_by(a, b)` those sharing a
position with it (spans that are not empty); an unset span raises AttributeError. -/
theorem C56_span_predicates (w : World) (n : NodeId) (dt : DataType) (f : Str) (a b : Int) (hd : dt.tname = .span) :
    ∃ pc pi, FieldPred.coveredBy dt f a b = .ok pc ∧ FieldPred.intersectedBy dt f a b = .ok pi ∧
      (∀ t s e, w.getField n f = .span t s e →
        (True_ w n pc ↔ a ≤ s ∧ e ≤ b) ∧
        (s < e → a < b → (True_ w n pi ↔ ∃ p, s ≤ p ∧ p < e ∧ a ≤ p ∧ p < b))) ∧
      (dget (w.nodes n).fields f = none → w.holds n pc = .error .attribute ∧ w.holds n pi = .error .attribute) := by
  refine ⟨.fieldLambda f (FieldPred.coveredFn a b), .fieldLambda f (FieldPred.intersectedFn a b),
    by simp [FieldPred.coveredBy, hd], by simp [FieldPred.intersectedBy, hd], ?_, ?_⟩
  · intro t s e h
    simp only [True_, holds, evalPred, h, FieldPred.coveredFn, FieldPred.intersectedFn, truth, Except.ok.injEq,
      Bool.and_eq_true, decide_eq_true_eq]
    refine ⟨trivial, fun h1 h2 => ⟨fun h => ?_, fun ⟨p, hp⟩ => by omega⟩⟩
    by_cases hh : a ≤ s
    · exact ⟨s, by omega⟩
    · exact ⟨a, by omega⟩
  · intro h
    have : w.getField n f = .none := by simp [getField, h]
    simp [holds, evalPred, this, FieldPred.coveredFn, FieldPred.intersectedFn]

theorem Simple.num {v : Value} (h : Spec.Query.Simple v) : v.num ≠ some .nan := by
  cases v <;> simp [Value.num, Obj.num, Spec.Query.Simple] at h ⊢

/-- a value that is neither a span nor a list -/
def Spec.Query.Plain : Value → Prop
  | .none | .bool _ | .int _ | .str _ | .bytes _ | .node _ => True
  | _ => False

theorem Plain.simple {v : Value} (h : Spec.Query.Plain v) : Spec.Query.Simple v := by
  cases v <;> simp [Spec.Query.Plain, Spec.Query.Simple] at h ⊢

theorem Plain.hash {v : Value} (h : Spec.Query.Plain v) : hashable v = true := by
  cases v <;> simp [Spec.Query.Plain, hashable] at h ⊢

theorem setHit_plain {w : World} {x y : Value} (hx : Spec.Query.Plain x) (hy : Spec.Query.Plain y) :
    w.setHit x y = w.valueEq x y := by
  unfold setHit
  split
  · exact hx.elim
  · exact hx.elim
  · exact hy.elim
  · rw [if_neg]
    exact fun h => Simple.num (Plain.simple hx) h.1

/-- C56. `is_any(v1, ..., vk)` selects exactly what `== v1`, ..., `== vk` select together — for values other than
spans, lists and floats. -/
theorem C56_is_any (w : World) (n : NodeId) (f : Str) (vs : List Value) (hx : Spec.Query.Plain (w.getField n f))
    (hv : ∀ v ∈ vs, Spec.Query.Plain v) :
    ∃ p, FieldPred.isAny f vs = .ok p ∧ Answers w n p ∧ (True_ w n p ↔ ∃ v ∈ vs, True_ w n (.eq f v)) := by
  have hall : vs.all hashable = true := List.all_eq_true.2 (fun v h => Plain.hash (hv v h))
  refine ⟨.contains f vs, by simp [FieldPred.isAny, hall], ?_⟩
  simp only [Answers, True_, holds_contains, holds_eq]
  generalize w.getField n f = x at hx
  clear hall
  induction vs with
  | nil => simp [inSet, Plain.hash hx]
  | cons v vs ih =>
    obtain ⟨r, h1, h2⟩ := valueEq_iff w x v (Plain.simple hx) (Plain.simple (hv v (by simp)))
    obtain ⟨ih1, ih2⟩ := ih (fun y hy => hv y (List.mem_cons_of_mem _ hy))
    simp only [inSet, Plain.hash hx, not_true_eq_false, if_false, setHit_plain hx (hv v (by simp)), h1,
      List.mem_cons, exists_eq_or_imp]
    cases r with
    | true => simp
    | false =>
      simp only [ih2]
      refine ⟨ih1, ?_⟩
      simp

/-! ### C57 -/

/-- C57. In every reachable state `layer[pred]` makes a query holding exactly the nodes of the layer that satisfy
the predicate, in layer order — provided the predicate answers for every node of the layer. -/
theorem C57_query (w : World) (hr : Reachable w) (qs : Queries) (L : LayerId) (p : Pred) (ns : List NodeId)
    (hns : w.iter L = ns.map some) (ha : ∀ n ∈ ns, Answers w n p) :
    ∃ qs' r, w.query qs (.layer L) p = .ok (qs', qs.length) ∧ qs'.iter qs.length = some r ∧
      qs'.len qs.length = some r.length ∧ r.Sublist ns ∧ r.Nodup ∧ (∀ n, n ∈ r ↔ n ∈ ns ∧ True_ w n p) := by
  have hnd : ns.Nodup := by
    have h1 := hr.inv.iter_eq L
    rw [hns] at h1
    have : ns = live (w.layers L).slots := (List.map_inj_right (fun a b h => Option.some.inj h)).1 h1
    rw [this]
    exact hr.inv.nodup L
  let f : NodeId → Bool := fun n => match w.holds n p with | .ok b => b | .error _ => true
  have hf : ∀ n ∈ ns, w.holds n p = .ok (f n) := by
    intro n hn
    obtain ⟨b, hb⟩ := ha n hn
    simp [f, hb]
  refine ⟨qs ++ [⟨.layer L, p, ns.filter f⟩], ns.filter f, ?_, ?_, ?_, List.filter_sublist, hnd.filter _, ?_⟩
  · simp only [query, select, iterColl, hns, selectFrom_eq ns f hf]
  · simp [Queries.iter]
  · simp [Queries.len]
  · intro n
    rw [List.mem_filter]
    constructor
    · rintro ⟨h1, h2⟩
      exact ⟨h1, by rw [True_, hf n h1, h2]⟩
    · rintro ⟨h1, h2⟩
      refine ⟨h1, ?_⟩
      rw [True_, hf n h1] at h2
      simpa using h2

/-- C57, order and nesting: a query on any collection — a layer, a list, a node span or another query — holds a
sublist of what the collection iterates, namely the nodes where the predicate is true; in particular
`coll[p][q]` holds what `coll[p & q]` holds. -/
theorem C57_collections (w : World) (qs qs1 : Queries) (c : Coll) (p : Pred) (q1 : Nat)
    (h : w.query qs c p = .ok (qs1, q1)) :
    ∃ ns r, w.iterColl qs c = .ok (ns.map some) ∧ qs1.iter q1 = some r ∧ r.Sublist ns ∧
      (∀ n, n ∈ r ↔ n ∈ ns ∧ True_ w n p) ∧
      ∀ p2 qs2 q2, w.query qs1 (.query q1) p2 = .ok (qs2, q2) →
        ∃ r2, qs2.iter q2 = some r2 ∧ w.select qs c (.and p p2) = .ok r2 := by
  unfold query select at h
  cases hc : w.iterColl qs c with
  | error e => rw [hc] at h; simp at h
  | ok os =>
    rw [hc] at h
    simp only at h
    cases hs : w.selectFrom p os with
    | error e => rw [hs] at h; simp at h
    | ok r =>
      rw [hs] at h
      simp only [Except.ok.injEq, Prod.mk.injEq] at h
      obtain ⟨rfl, rfl⟩ := h
      obtain ⟨ns, f, rfl, hf, rfl⟩ := selectFrom_ok _ hs
      refine ⟨ns, ns.filter f, rfl, by simp [Queries.iter], List.filter_sublist, ?_, ?_⟩
      · intro n
        rw [List.mem_filter]
        constructor
        · rintro ⟨h1, h2⟩; exact ⟨h1, by rw [True_, hf n h1, h2]⟩
        · rintro ⟨h1, h2⟩
          rw [True_, hf n h1] at h2
          exact ⟨h1, by simpa using h2⟩
      · intro p2 qs2 q2 h2
        unfold query select at h2
        have hit : w.iterColl (qs ++ [⟨c, p, ns.filter f⟩]) (.query qs.length) = .ok ((ns.filter f).map some) := by
          simp [iterColl]
        rw [hit] at h2
        simp only at h2
        cases hs2 : w.selectFrom p2 ((ns.filter f).map some) with
        | error e => rw [hs2] at h2; simp at h2
        | ok r2 =>
          rw [hs2] at h2
          simp only [Except.ok.injEq, Prod.mk.injEq] at h2
          obtain ⟨rfl, rfl⟩ := h2
          refine ⟨r2, by simp [Queries.iter], ?_⟩
          obtain ⟨l, g, e1, hg, rfl⟩ := selectFrom_ok _ hs2
          have e2 : ns.filter f = l := (List.map_inj_right (fun a b h => Option.some.inj h)).1 e1
          subst e2
          unfold select
          rw [hc]
          simp only
          rw [selectFrom_eq ns (fun n => g n && f n)]
          · rw [List.filter_filter]
          · intro n hn
            rw [holds_and, hf n hn]
            cases hfn : f n with
            | true =>
              simp only [Bool.and_true]
              exact hg n (List.mem_filter.2 ⟨hn, hfn⟩)
            | false => simp

namespace Spec
namespace Query

/-- something happens: the document changes in any way, a query is made, or a query is updated -/
inductive Happens (q : Nat) : World × Queries → World × Queries → Prop
  | doc (w w' : World) (qs : Queries) : Happens q (w, qs) (w', qs)
  | query (w : World) (qs qs' : Queries) (c : Coll) (p : Pred) (i : Nat) :
      w.query qs c p = .ok (qs', i) → Happens q (w, qs) (w, qs')
  | update (w : World) (qs : Queries) (i : Nat) : i ≠ q → Happens q (w, qs) (w, (w.update qs i).1)

/-- anything happens any number of times, except updating `q` -/
inductive Later (q : Nat) : World × Queries → World × Queries → Prop
  | refl (s) : Later q s s
  | step {a b c} : Later q a b → Happens q b c → Later q a c

end Query
end Spec

/-- C57. A query is a snapshot: whatever happens to the document and to other queries, it keeps its nodes and
remembers its collection and predicate. -/
theorem C57_snapshot (q : Nat) {s s' : World × Queries} (h : Spec.Query.Later q s s') (hq : q < s.2.length) :
    s'.2[q]? = s.2[q]? ∧ s.2.length ≤ s'.2.length := by
  induction h with
  | refl => exact ⟨rfl, Nat.le_refl _⟩
  | @step b c h1 h2 ih =>
    obtain ⟨ih1, ih2⟩ := ih
    have hlt : q < b.2.length := Nat.lt_of_lt_of_le hq ih2
    suffices hs : c.2[q]? = b.2[q]? ∧ b.2.length ≤ c.2.length from ⟨hs.1.trans ih1, Nat.le_trans ih2 hs.2⟩
    cases h2 with
    | doc w w' qs => exact ⟨rfl, Nat.le_refl _⟩
    | query w qs qs' c p i he =>
      unfold World.query at he
      cases hs : w.select qs c p with
      | error e => rw [hs] at he; simp at he
      | ok r =>
        rw [hs] at he
        simp only [Except.ok.injEq, Prod.mk.injEq] at he
        obtain ⟨rfl, rfl⟩ := he
        simp only at hlt ⊢
        exact ⟨by rw [List.getElem?_append_left hlt], by simp⟩
    | update w qs i hne =>
      simp only
      unfold World.update
      split
      · exact ⟨rfl, Nat.le_refl _⟩
      · split
        · exact ⟨rfl, Nat.le_refl _⟩
        · exact ⟨by rw [List.getElem?_set_ne hne], by simp⟩

/-- C57. `update()` makes the query hold what a fresh query with the same collection and predicate would hold
now, and touches no other query; if the predicate raises, the old nodes stay. -/
theorem C57_update (w : World) (qs : Queries) (q : Nat) (o : QueryObj) (ho : qs[q]? = some o) :
    (∀ e, w.select qs o.coll o.pred = .error e → w.update qs q = (qs, some e)) ∧
    (∀ qs2 i, w.query qs o.coll o.pred = .ok (qs2, i) →
      (w.update qs q).2 = none ∧ (w.update qs q).1.iter q = qs2.iter i ∧
      ∀ j, j ≠ q → (w.update qs q).1[j]? = qs[j]?) := by
  constructor
  · intro e he
    simp [World.update, ho, he]
  · intro qs2 i h
    unfold World.query at h
    cases hs : w.select qs o.coll o.pred with
    | error e => rw [hs] at h; simp at h
    | ok r =>
      rw [hs] at h
      simp only [Except.ok.injEq, Prod.mk.injEq] at h
      obtain ⟨rfl, rfl⟩ := h
      have hlt : q < qs.length := by
        rcases Nat.lt_or_ge q qs.length with h | h
        · exact h
        · rw [List.getElem?_eq_none h] at ho; simp at ho
      simp only [World.update, ho, hs]
      refine ⟨trivial, ?_, ?_⟩
      · simp [Queries.iter, List.getElem?_set, hlt]
      · intro j hj
        rw [List.getElem?_set_ne (Ne.symm hj)]

/-! ### cases -/

namespace Ex

set_option maxRecDepth 20000

/-- text "ab ab", a layer of four nodes with a span, a string and an integer, the third removed again -/
def qOps : List Op :=
  [.addText "main".toList "ab ab".toList,
   .addLayer "tok".toList [("s".toList, ⟨.span, true, [("context".toList, .str "main".toList)]⟩), ("p".toList, ⟨.string, true, []⟩),
     ("i".toList, ⟨.i32, true, []⟩)],
   .addNew 0 [("s".toList, .span 0 0 2), ("p".toList, .str "x".toList), ("i".toList, .int 3)],
   .addNew 0 [("s".toList, .span 0 2 3), ("p".toList, .str "y".toList), ("i".toList, .int 7)],
   .addNew 0 [("p".toList, .str "x".toList), ("i".toList, .int 9)],
   .addNew 0 [("s".toList, .span 0 3 5), ("i".toList, .int 7)],
   .remove 0 2]

def qW : World := World.empty.run qOps

def runQ (p : Pred) : Option (List NodeId) :=
  match qW.query [] (.layer 0) p with
  | .ok (qs, i) => qs.iter i
  | .error _ => none

theorem qW_reachable : Reachable qW := reachable_run qOps (by decide)

/-- `(layer["p"] == "x") | (layer["i"] > 5) & ~(layer["s"] == "ab")` -/
def qP : Pred :=
  .or (.eq "p".toList (.str "x".toList))
    (.and (.cmp .gt "i".toList (.int 5)) (.not (.eq "s".toList (.str "ab".toList))))

/-- three nodes, in layer order -/
example : qW.iter 0 = [some 0, some 1, some 3] := by decide

/-- the atoms of `qP` can be evaluated on every node, so the predicate means what it says -/
example : ∀ n ∈ [0, 1, 3], ((atoms qP).all fun a => (qW.holds n a).toOption.isSome) = true := by decide

example : runQ qP = some [0, 1] := by decide
example : runQ (.not qP) = some [3] := by decide
example : runQ (.neq "s".toList (.str "ab".toList)) = some [1] := by decide
example : runQ (FieldPred.hasValue "p".toList) = some [0, 1] := by decide
example : runQ (FieldPred.isNone "p".toList) = some [3] := by decide

/-- an order comparison with an unset field raises TypeError, and a guard in front avoids it -/
example : runQ (.cmp .lt "p".toList (.str "y".toList)) = none := by decide
example : runQ (.and (FieldPred.hasValue "p".toList) (.cmp .lt "p".toList (.str "y".toList))) = some [0] := by decide

/-- covered_by and intersected_by -/
example : runQ (.fieldLambda "s".toList (FieldPred.coveredFn 0 3)) = some [0, 1] := by decide
example : runQ (.fieldLambda "s".toList (FieldPred.intersectedFn 1 3)) = some [0, 1] := by decide

/-- is_any -/
example : runQ (.contains "i".toList [.int 3, .int 9]) = some [0] := by decide

/-- the query made first survives removing node 0 and follows after update -/
def qs1 : Queries := match qW.query [] (.layer 0) qP with | .ok (qs, _) => qs | .error _ => []

def qW2 : World := World.empty.run (qOps ++ [.remove 0 0])

example : qs1.iter 0 = some [0, 1] := by decide
example : qW2.iter 0 = [some 1, some 3] := by decide
example : (qW2.update qs1 0).1.iter 0 = some [1] := by decide
example : (qW2.update qs1 0).2 = none := by decide

end Ex

/-- C56, the text of a span: `field == "ab"` is true of a node whose span covers "ab", but
`field.is_any("ab")` is false: the set looks a span up by its hash, which is not the hash of its text. -/
theorem C56_is_any_text_fails :
    ∃ w n f v, Reachable w ∧ (∃ p, FieldPred.isAny f [v] = .ok p ∧ w.holds n p = .ok false) ∧
      True_ w n (.eq f v) :=
  ⟨Ex.qW, 0, "s".toList, .str "ab".toList, Ex.qW_reachable, ⟨.contains "s".toList [.str "ab".toList], rfl, by decide⟩,
    by show Ex.qW.holds 0 _ = _; decide⟩

/-- C57, nested queries: `update()` of a query on a query reads what the inner one holds, so it stays out of date
until the inner one is updated first. -/
theorem C57_stale_inner_fails :
    ∃ w w' qs, Reachable w ∧ Reachable w' ∧ (∃ qs0, w.query [] (.layer 0) (FieldPred.hasValue "i".toList) = .ok (qs0, 0) ∧
        w.query qs0 (.query 0) (FieldPred.hasValue "s".toList) = .ok (qs, 1)) ∧
      qs.iter 1 = some [0, 1, 3] ∧ w'.iter 0 = [some 1, some 3] ∧
      (w'.update qs 1).1.iter 1 = some [0, 1, 3] ∧
      (w'.update (w'.update qs 0).1 1).1.iter 1 = some [1, 3] :=
  ⟨Ex.qW, Ex.qW2, [⟨.layer 0, FieldPred.hasValue "i".toList, [0, 1, 3]⟩,
      ⟨.query 0, FieldPred.hasValue "s".toList, [0, 1, 3]⟩], Ex.qW_reachable, reachable_run _ (by decide),
    ⟨[⟨.layer 0, FieldPred.hasValue "i".toList, [0, 1, 3]⟩], rfl, rfl⟩, rfl, by decide, by decide, by decide⟩

end Verif
