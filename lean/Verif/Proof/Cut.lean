import Verif.Proof.JavaBuild
import Verif.Props.Msgpack
/-
Readers that are given less data than they need.
-/
set_option linter.unusedSimpArgs false
namespace Verif

/-- the exceptions for the end of the data -/
def PyErr.isEnd (e : PyErr) : Prop := e = .outOfData ∨ e = .stopIteration

/-- a reader that, given more data, does the same, unless it came to the end of the data -/
structure Grows {α : Type} (p : P α) : Prop where
  ok : ∀ bs v r, p bs = .ok (v, r) → ∀ t, p (bs ++ t) = .ok (v, r ++ t)
  err : ∀ bs e, p bs = .error e → ¬ e.isEnd → ∀ t, p (bs ++ t) = .error e

namespace Grows
variable {α β : Type}

theorem ofLoc {p : P α} (h : Loc p) : Grows p where
  ok bs v r hp t := by
    obtain ⟨u, rfl, hu⟩ := h.ok _ _ _ hp
    rw [List.append_assoc]
    exact hu _
  err bs e hp he t := h.err bs e hp (fun h' => he (.inl h')) t

theorem pure (a : α) : Grows (pure a : P α) := ofLoc (Loc.pure a)
theorem fail (e : PyErr) : Grows (P.fail e : P α) := ofLoc (Loc.fail e)
theorem lift (x : Except PyErr α) : Grows (P.lift x) := ofLoc (Loc.lift x)
theorem take (n : Nat) : Grows (P.take n) := ofLoc (Loc.take n)

theorem bind {p : P α} {f : α → P β} (hp : Grows p) (hf : ∀ a, Grows (f a)) : Grows (p >>= f) where
  ok bs v r h t := by
    rw [P.bind_eq] at h ⊢
    cases h1 : p bs with
    | error e => rw [h1] at h; cases h
    | ok ar =>
      obtain ⟨a, r1⟩ := ar
      rw [h1] at h
      rw [hp.ok _ _ _ h1 t]
      exact (hf a).ok _ _ _ h t
  err bs e h he t := by
    rw [P.bind_eq] at h ⊢
    cases h1 : p bs with
    | error e1 =>
      rw [h1] at h
      cases h
      rw [hp.err _ _ h1 he t]
    | ok ar =>
      obtain ⟨a, r1⟩ := ar
      rw [h1] at h
      rw [hp.ok _ _ _ h1 t]
      exact (hf a).err _ _ h he t

theorem ite {c : Prop} [Decidable c] {p q : P α} (hp : Grows p) (hq : Grows q) : Grows (if c then p else q) := by
  split <;> assumption

theorem times {p : P α} (hp : Grows p) : ∀ n, Grows (P.times p n)
  | 0 => pure _
  | n + 1 => hp.bind fun _ => (times hp n).bind fun _ => pure _

theorem each {f : α → P β} (hf : ∀ a, Grows (f a)) : ∀ l, Grows (P.each f l)
  | [] => pure _
  | a :: l => (hf a).bind fun _ => (each hf l).bind fun _ => pure _

/-- given less than it consumes, such a reader comes to the end of the data -/
theorem cut {p : P α} (hp : Grows p) {bs : Bytes} {a : α} (hr : Reads p bs a) {k : Nat} (hk : k < bs.length) :
    ∃ e : PyErr, e.isEnd ∧ p (bs.take k) = .error e := by
  have hf := hr []
  rw [List.append_nil] at hf
  cases h : p (bs.take k) with
  | ok vr =>
    obtain ⟨v, r⟩ := vr
    have := hp.ok _ _ _ h (bs.drop k)
    rw [List.take_append_drop, hf] at this
    simp only [Except.ok.injEq, Prod.mk.injEq] at this
    have hl := congrArg List.length this.2
    simp only [List.length_nil, List.length_append, List.length_drop] at hl
    omega
  | error e =>
    refine ⟨e, ?_, rfl⟩
    apply Classical.byContradiction
    intro he
    have := hp.err _ _ h he (bs.drop k)
    rw [List.take_append_drop, hf] at this
    cases this

theorem pnext : Grows pnext where
  ok bs v r h t := by
    unfold Verif.pnext at h ⊢
    cases hu : unpack bs with
    | error e => rw [hu] at h; cases e <;> cases h
    | ok x =>
      rw [hu] at h
      cases h
      rw [(ofLoc Loc.unpack).ok _ _ _ hu t]
  err bs e h he t := by
    unfold Verif.pnext at h ⊢
    cases hu : unpack bs with
    | ok x => rw [hu] at h; cases h
    | error e1 =>
      rw [hu] at h
      by_cases ho : e1 = .outOfData
      · subst ho; cases h; exact absurd (.inr rfl) he
      · rw [Loc.unpack.err _ _ hu ho t]
        exact h

theorem pskip : Grows pskip where
  ok bs v r h t := by
    unfold Verif.pskip at h ⊢
    cases hu : unpack bs with
    | error e => rw [hu] at h; cases e <;> cases h
    | ok x =>
      rw [hu] at h
      cases h
      rw [(ofLoc Loc.unpack).ok _ _ _ hu t]
  err bs e h he t := by
    unfold Verif.pskip at h ⊢
    cases hu : unpack bs with
    | ok x => rw [hu] at h; cases h
    | error e1 =>
      rw [hu] at h
      by_cases ho : e1 = .outOfData
      · subst ho; cases h; exact absurd (.inl rfl) he
      · rw [Loc.unpack.err _ _ hu ho t]
        exact h

/-! ### the Python readers -/

theorem pField : Grows pField := by
  refine pnext.bind fun _ => pnext.bind fun _ => pnext.bind fun _ => (lift _).bind fun _ => (lift _).bind fun _ => (lift _).bind fun b => ?_
  refine ite (pnext.bind fun o => ?_) (pure _)
  split
  · exact pure _
  · exact fail _

theorem pLayerSchema (n : Str) : Grows (pLayerSchema n) :=
  pnext.bind fun _ => (lift _).bind fun _ => (times pField _).bind fun _ => pure _

theorem pTypes : Grows pTypes := by
  refine pnext.bind fun o => ?_
  split
  · exact lift _
  all_goals exact fail _

theorem pSchema : Grows pSchema := pTypes.bind fun _ => each pLayerSchema _

theorem pCol : Grows pCol := by
  refine pnext.bind fun _ => (lift _).bind fun _ => ite (fail _) (pnext.bind fun o => ?_)
  split
  · exact pure _
  all_goals exact fail _

theorem pLayer (l : Str × List (Str × TypeWire)) : Grows (pLayer l) :=
  pnext.bind fun _ => (lift _).bind fun _ => (each (fun _ => pCol.bind fun _ => pure _) _).bind fun _ => pure _

theorem readWire : Grows readWire :=
  pskip.bind fun _ => pnext.bind fun _ => (lift _).bind fun _ => pSchema.bind fun _ => pskip.bind fun _ => pnext.bind fun _ => (lift _).bind fun _ =>
    (each (fun l => pskip.bind fun _ => pLayer l) _).bind fun _ => pure _

/-! ### the Java readers -/

theorem takeNat (k : Nat) : Grows (takeNat k) := ofLoc (Loc.takeNat k)
theorem takeInt (k : Nat) : Grows (takeInt k) := ofLoc (Loc.takeInt k)

theorem jLen32 : Grows jLen32 := (takeNat 4).bind fun _ => ite (pure _) (fail _)

theorem jBin : Grows jBin := by
  refine ((take 1).bind fun b => ?_).bind fun n => take n
  unfold jRawLen
  exact ite (pure _) (ite (takeNat 1) (ite (takeNat 2) (ite jLen32 (fail _))))

theorem jInteger : Grows jInteger := by
  refine (take 1).bind fun b => ?_
  unfold jIntOf
  exact ite (pure _) (ite ((takeNat 1).bind fun _ => pure _) (ite ((takeNat 2).bind fun _ => pure _) (ite ((takeNat 4).bind fun _ => pure _)
    (ite ((takeNat 8).bind fun _ => pure _) (ite (takeInt 1) (ite (takeInt 2) (ite (takeInt 4) (ite (takeInt 8) (ite (pure _) (fail _))))))))))

theorem jInt : Grows jInt := jInteger.bind fun _ => lift _
theorem jLong : Grows jLong := jInteger.bind fun _ => lift _
theorem jBool : Grows jBool := (take 1).bind fun _ => lift _
theorem jStr : Grows jStr := jBin.bind fun _ => lift _

theorem jArr : Grows jArr := by
  refine (take 1).bind fun b => ?_
  unfold jArrLen
  exact ite (pure _) (ite (takeNat 2) (ite jLen32 (fail _)))

theorem jMap : Grows jMap := by
  refine (take 1).bind fun b => ?_
  unfold jMapLen
  exact ite (pure _) (ite (takeNat 2) (ite jLen32 (fail _)))

theorem jDouble : Grows jDouble := by
  refine (take 1).bind fun b => ?_
  unfold jDoubleOf
  exact ite ((takeNat 8).bind fun _ => pure _) (ite (fail _) (fail _))

theorem jPeek : Grows jPeek where
  ok bs v r h t := by
    cases bs with
    | nil => cases h
    | cons b bs => cases h; rfl
  err bs e h he t := by
    cases bs with
    | nil => cases h; exact absurd (.inl rfl) he
    | cons b bs => cases h

theorem jTryNil : Grows jTryNil := jPeek.bind fun _ => ite ((take 1).bind fun _ => pure _) (pure _)

theorem jFloatVal (b : Bool) : Grows (jFloatVal b) := ite (jDouble.bind fun _ => pure _) (fail _)

theorem jValue (b : Bool) : Grows (jValue b) := by
  unfold Verif.jValue
  refine jPeek.bind fun b => ?_
  exact ite (jInteger.bind fun _ => pure _) (ite (jBool.bind fun _ => pure _) (ite (jFloatVal _) (ite (jStr.bind fun _ => pure _)
    (ite (jBin.bind fun _ => pure _) (ite (fail _) (fail _))))))

theorem jEntry (b : Bool) : Grows (jEntry b) := jStr.bind fun _ => (jValue b).bind fun _ => pure _
theorem jProps : Grows jProps := jInt.bind fun _ => jMap.bind fun _ => (times (jEntry true) _).bind fun _ => pure _

theorem jField : Grows jField := by
  refine jStr.bind fun _ => jBool.bind fun _ => jStr.bind fun _ => ?_
  exact ite (jMap.bind fun _ => (times (jEntry false) _).bind fun _ => (lift _).bind fun _ => pure _) ((lift _).bind fun _ => pure _)

theorem jLayerSchema (k : Str) : Grows (jLayerSchema k) := jInt.bind fun _ => (times jField _).bind fun _ => (lift _).bind fun _ => pure _
theorem jSchema : Grows jSchema := jArr.bind fun _ => (times jStr _).bind fun _ => ite (each jLayerSchema _) (fail _)
theorem jText : Grows jText := jStr.bind fun _ => jArr.bind fun _ => (times jStr _).bind fun _ => pure _
theorem jTexts : Grows jTexts := jInt.bind fun _ => jMap.bind fun _ => (times jText _).bind fun _ => lift _

theorem jOpt {p : P JVal} (h : Grows p) : Grows (jOpt p) := jTryNil.bind fun _ => ite (pure _) (h.bind fun _ => pure _)
theorem jNil : Grows jNil := (take 1).bind fun _ => ite (pure _) (fail _)

theorem jSpanCell (c : Str) (o : Option Nat) : Grows (jSpanCell c o) :=
  jTryNil.bind fun _ => ite (jNil.bind fun _ => pure _) (jInt.bind fun _ => jInt.bind fun _ => (lift _).bind fun _ => (lift _).bind fun _ => pure _)

theorem jExtCell (t : Str) : Grows (jExtCell t) := jPeek.bind fun _ => ite (jBin.bind fun _ => pure _) (fail _)

theorem jCell (texts : List (Str × List Str)) (t : JType) : Grows (jCell texts t) := by
  unfold Verif.jCell
  split
  · exact jOpt (jInt.bind fun _ => pure _)
  · exact jOpt (jInt.bind fun _ => pure _)
  · exact jOpt (jDouble.bind fun _ => pure _)
  · exact jOpt (jStr.bind fun _ => pure _)
  · exact jOpt (jLong.bind fun _ => pure _)
  · exact jOpt (jBool.bind fun _ => pure _)
  · exact jOpt (jArr.bind fun _ => (take _).bind fun _ => pure _)
  · exact (lift _).bind fun _ => jSpanCell _ _
  · exact (lift _).bind fun _ => jOpt (jExtCell _)
  · exact jOpt (jArr.bind fun _ => (times jInt _).bind fun _ => pure _)
  · exact jOpt (jArr.bind fun _ => jInt.bind fun _ => jInt.bind fun _ => pure _)
  · exact fail _

theorem jCols (texts : List (Str × List Str)) (n : Nat) : ∀ fs rs, Grows (jCols texts n fs rs)
  | [], _ => pure _
  | (_, _) :: fs, _ => jBool.bind fun _ => ite (fail _) (jArr.bind fun _ => (lift _).bind fun _ => (times (jCell _ _) _).bind fun _ => jCols texts n fs _)

theorem jLayer (texts : List (Str × List Str)) (l : Str × List (Str × JType)) : Grows (jLayer texts l) :=
  jInt.bind fun _ => jInt.bind fun _ => (lift _).bind fun _ => (jCols _ _ _ _).bind fun _ => pure _

theorem jRead : Grows jRead := jProps.bind fun _ => jSchema.bind fun _ => jTexts.bind fun _ => (each (jLayer _) _).bind fun _ => pure _

end Grows
end Verif
