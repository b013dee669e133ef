import Verif.Props.JavaReader
/-
Reading a block file that is cut short with the Java library.
-/
set_option linter.unusedSimpArgs false
namespace Verif

/-! ### the unpacker is local -/

theorem jloc_Len32 : Loc jLen32 := (Loc.takeNat 4).bind fun _ => Loc.ite (Loc.pure _) (Loc.fail _)

theorem jloc_RawLen (b : Nat) : Loc (jRawLen b) := by
  unfold jRawLen
  exact Loc.ite (Loc.pure _) (Loc.ite (Loc.takeNat _) (Loc.ite (Loc.takeNat _) (Loc.ite jloc_Len32 (Loc.fail _))))

theorem jloc_Bin : Loc jBin := ((Loc.take 1).bind fun _ => jloc_RawLen _).bind fun _ => Loc.take _

theorem jloc_IntOf (b : Nat) : Loc (jIntOf b) := by
  unfold jIntOf
  repeat' first
    | with_reducible apply Loc.ite
    | with_reducible exact Loc.pure _
    | with_reducible exact Loc.fail _
    | with_reducible exact Loc.takeNat _
    | with_reducible exact Loc.takeInt _
    | (with_reducible apply Loc.bind; rotate_left; intro _)

theorem jloc_Int : Loc jInt := ((Loc.take 1).bind fun _ => jloc_IntOf _).bind fun _ => Loc.lift _

theorem jloc_Bool : Loc jBool := (Loc.take 1).bind fun _ => Loc.lift _

theorem jloc_SkipOf (b : Nat) : Loc (jSkipOf b) := by
  unfold jSkipOf jDrop
  repeat' first
    | with_reducible apply Loc.ite
    | with_reducible exact Loc.pure _
    | with_reducible exact Loc.fail _
    | with_reducible exact Loc.take _
    | with_reducible exact Loc.takeNat _
    | with_reducible exact jloc_Len32
    | (with_reducible apply Loc.bind; rotate_left; intro _)

/-- a local reader that takes all of some bytes runs out of data on a part of them -/
theorem Loc.short {α : Type} {p : P α} (hp : Loc p) {a b : Bytes} {v : α} (h : p (a ++ b) = .ok (v, [])) (hb : b ≠ []) :
    p a = .error .outOfData := by
  cases ha : p a with
  | error e =>
    by_cases he : e = .outOfData
    · rw [he]
    · rw [hp.err _ _ ha he] at h; cases h
  | ok x =>
    obtain ⟨w, r⟩ := x
    obtain ⟨u, hu, hu'⟩ := hp.ok _ _ _ ha
    rw [hu, List.append_assoc, hu'] at h
    simp only [Except.ok.injEq, Prod.mk.injEq, List.append_eq_nil_iff] at h
    exact absurd h.2.2 hb

theorem jBin_short {z a b : Bytes} (hz : z.length < 2 ^ 31) (e : Spec.bpack z = a ++ b) (hb : b ≠ []) : jBin a = .error .outOfData := by
  refine jloc_Bin.short (v := z) ?_ hb
  rw [← e]
  have := jBin_bpack hz []
  rwa [List.append_nil] at this

/-- one value without nested ones -/
theorem jSkip_step (b : UInt8) (x : Bytes) : jSkip (b :: x) = match jSkipOf b.toNat x with
    | .error e => .error e
    | .ok (k, y) => jSkipLoop (x.length + 1) k y := by
  have hb : ofBe [b] = b.toNat := by simp [ofBe]
  simp only [jSkip, List.length_cons, jSkipLoop, P.bind_eq, take_one, hb]
  cases jSkipOf b.toNat x with
  | error e => rfl
  | ok p => obtain ⟨k, y⟩ := p; simp only [Nat.zero_add]

theorem jSkip_short {z a b : Bytes} (hz : z.length < 2 ^ 31) (e : Spec.bpack z = a ++ b) (hb : b ≠ []) (ha : a ≠ []) : jSkip a = .error .outOfData := by
  cases a with
  | nil => exact absurd rfl ha
  | cons c a =>
    have hw := jSkip_bpack hz []
    rw [List.append_nil, e, List.cons_append, jSkip_step] at hw
    rw [jSkip_step]
    have hk : jSkipOf c.toNat (a ++ b) = .ok (0, []) := by
      obtain ⟨hd, hh, e2⟩ := bpack_head (d := z) (by omega)
      have dr : ∀ x : Bytes, jDrop x.length 0 x = .ok (0, []) := by
        intro x
        have := take_append x []
        rw [List.append_nil] at this
        simp [jDrop, P.bind_eq, this, P.pure_eq]
      rw [e2] at e
      unfold packBinHead at hh
      repeat' split at hh
      all_goals cases hh
      all_goals
        simp only [List.cons_append, List.nil_append, List.cons.injEq] at e
        obtain ⟨rfl, e⟩ := e
      all_goals rw [← e]
      · simp [jSkipOf, P.bind_eq]
        rw [takeNat_be 1 _ _ (by omega)]
        exact dr _
      · simp [jSkipOf, P.bind_eq]
        rw [takeNat_be 2 _ _ (by omega)]
        exact dr _
      · simp [jSkipOf, P.bind_eq, jLen32]
        rw [takeNat_be 4 _ _ (by omega)]
        simp only
        rw [if_pos (by omega)]
        exact dr _
    rw [(jloc_SkipOf _).short hk hb]

/-! ### a reader with more bytes at the end -/

namespace JDocReader

/-- the same reader on a stream with `t` at the end -/
def plus (r : JDocReader) (t : Bytes) : JDocReader := { r with rest := r.rest ++ t }

end JDocReader

open JDocReader

/-- the bytes of a block that is cut short -/
structure Stump (t : Bytes) : Prop where
  ne : t ≠ []
  bin : jBin t = .error .outOfData
  skip : jSkip t = .error .outOfData

theorem readLoop_plus {t : Bytes} (ht : Stump t) (fuel : Nat) : ∀ (fuel' : Nat) (r : JDocReader), fuel ≤ fuel' →
    (∀ i, (r.readLoop fuel).2 = .ok (some i) → (r.plus t).readLoop fuel' = ((r.readLoop fuel).1.plus t, .ok (some i))) ∧
    ((r.readLoop fuel).2 = .ok none → ((r.plus t).readLoop fuel').2 = .error .outOfData) := by
  induction fuel with
  | zero =>
    intro fuel' r _
    constructor
    · intro i h; cases h
    · intro h; cases h
  | succ fuel ih =>
    intro fuel' r hf
    cases fuel' with
    | zero => omega
    | succ fuel' =>
      have hne : (r.plus t).rest ≠ [] := fun e => ht.ne (List.append_eq_nil_iff.mp e).2
      by_cases hr : r.rest = []
      · have hp : (r.plus t).rest = t := by simp [plus, hr]
        constructor
        · intro i h
          simp only [readLoop, if_pos hr] at h
          cases h
        · intro _
          simp only [readLoop, if_neg hne]
          rw [hp, ht.bin]
      · cases hj : jBin r.rest with
        | error e =>
          constructor
          · intro i h
            simp only [readLoop, if_neg hr, hj] at h
            cases h
          · intro h
            simp only [readLoop, if_neg hr, hj] at h
            cases h
        | ok x =>
          obtain ⟨z, rest⟩ := x
          have hj' : jBin (r.plus t).rest = .ok (z, rest ++ t) := by
            obtain ⟨u, hu, hu'⟩ := jloc_Bin.ok _ _ _ hj
            show jBin (r.rest ++ t) = _
            rw [hu, List.append_assoc, hu']
          have hcod : (r.plus t).codec = r.codec := rfl
          cases hd : r.codec z with
          | error e =>
            constructor
            · intro i h
              simp only [readLoop, if_neg hr, hj, hd] at h
              cases h
            · intro h
              simp only [readLoop, if_neg hr, hj, hd] at h
              cases h
          | ok d =>
            simp only [readLoop, if_neg hr, if_neg hne, hj, hj', hcod, hd]
            by_cases he : d = []
            · rw [if_neg (by simp [he]), if_neg (by simp [he])]
              exact ih fuel' { r with rest := rest, blks := r.blks ++ [d], block := some r.blks.length } (by omega)
            · rw [if_pos he, if_pos he]
              constructor
              · intro i h
                simp only [Except.ok.injEq] at h
                simp only [plus, h]
              · intro h; cases h

theorem readNext_plus {t : Bytes} (ht : Stump t) (r : JDocReader) :
    (∀ i, r.readNextBlock.2 = .ok (some i) → (r.plus t).readNextBlock = (r.readNextBlock.1.plus t, .ok (some i))) ∧
    (r.readNextBlock.2 = .ok none → (r.plus t).readNextBlock.2 = .error .outOfData) := by
  unfold readNextBlock
  refine readLoop_plus ht _ _ r ?_
  simp [plus]

theorem refill_plus {t : Bytes} (ht : Stump t) (r : JDocReader) :
    (∀ i, r.refill.2 = .ok (some i) → (r.plus t).refill = (r.refill.1.plus t, .ok (some i))) ∧
    (r.refill.2 = .ok none → (r.plus t).refill.2 = .error .outOfData) := by
  obtain ⟨h1, h2⟩ := readNext_plus ht r
  unfold refill
  cases hx : r.readNextBlock with
  | mk r' a =>
    rw [hx] at h1 h2
    simp only at h1 h2 ⊢
    cases a with
    | error e =>
      constructor
      · intro i h; cases h
      · intro h; cases h
    | ok b =>
      cases b with
      | some j =>
        rw [h1 j rfl]
        constructor
        · intro i h
          simp only [Except.ok.injEq, Option.some.injEq] at h ⊢
          subst h; rfl
        · intro h; cases h
      | none =>
        have := h2 rfl
        cases hy : (r.plus t).readNextBlock with
        | mk r2 b2 =>
          rw [hy] at this
          simp only at this
          subst this
          constructor
          · intro i h; cases h
          · intro _; rfl

theorem current_plus {t : Bytes} (ht : Stump t) (r : JDocReader) :
    (∀ i, r.current.2 = .ok (some i) → (r.plus t).current = (r.current.1.plus t, .ok (some i))) ∧
    (r.current.2 = .ok none → (r.plus t).current.2 = .error .outOfData) := by
  have hb : (r.plus t).block = r.block := rfl
  unfold current
  rw [hb]
  cases r.block with
  | none => exact refill_plus ht r
  | some i =>
    constructor
    · intro j h
      simp only [Except.ok.injEq, Option.some.injEq] at h
      subst h; rfl
    · intro h; cases h

theorem giveUp_plus (r : JDocReader) (i : Nat) (x t : Bytes) : ((r.plus t).moved i x).giveUp i = ((r.moved i x).giveUp i).plus t := by
  unfold giveUp
  have : ((r.plus t).moved i x).left i = (r.moved i x).left i := rfl
  rw [this]
  split <;> rfl

theorem nextRaw_plus {t : Bytes} (ht : Stump t) (r : JDocReader) :
    (∀ d, r.nextRaw.2 = .ok (some d) → (r.plus t).nextRaw = (r.nextRaw.1.plus t, .ok (some d))) ∧
    (r.nextRaw.2 = .ok none → (r.plus t).nextRaw.2 = .error .outOfData) := by
  obtain ⟨h1, h2⟩ := current_plus ht r
  unfold nextRaw
  cases hx : r.current with
  | mk r' a =>
    rw [hx] at h1 h2
    simp only at h1 h2 ⊢
    cases a with
    | error e =>
      constructor
      · intro i h; cases h
      · intro h; cases h
    | ok b =>
      cases b with
      | none =>
        have := h2 rfl
        cases hy : (r.plus t).current with
        | mk r2 b2 =>
          rw [hy] at this
          simp only at this
          subst this
          constructor
          · intro i h; cases h
          · intro _; rfl
      | some j =>
        rw [h1 j rfl]
        have hl : (r'.plus t).left j = r'.left j := rfl
        simp only [hl]
        cases jBin (r'.left j) with
        | error e =>
          constructor
          · intro i h; cases h
          · intro h; cases h
        | ok x =>
          simp only [giveUp_plus]
          constructor
          · intro d h
            simp only [Except.ok.injEq, Option.some.injEq] at h
            rw [h]
          · intro h; cases h

theorem skip_plus {t : Bytes} (ht : Stump t) (r : JDocReader) :
    (r.skip.2 = .ok true → (r.plus t).skip = (r.skip.1.plus t, .ok true)) ∧
    (r.skip.2 = .ok false → (r.plus t).skip.2 = .error .outOfData) := by
  obtain ⟨h1, h2⟩ := current_plus ht r
  unfold JDocReader.skip
  cases hx : r.current with
  | mk r' a =>
    rw [hx] at h1 h2
    simp only at h1 h2 ⊢
    cases a with
    | error e =>
      constructor
      · intro h; cases h
      · intro h; cases h
    | ok b =>
      cases b with
      | none =>
        have := h2 rfl
        cases hy : (r.plus t).current with
        | mk r2 b2 =>
          rw [hy] at this
          simp only at this
          subst this
          constructor
          · intro h; cases h
          · intro _; rfl
      | some j =>
        rw [h1 j rfl]
        have hl : (r'.plus t).left j = r'.left j := rfl
        simp only [hl]
        cases jSkip (r'.left j) with
        | error e =>
          constructor
          · intro h; cases h
          · intro h; cases h
        | ok x =>
          simp only [giveUp_plus]
          constructor
          · intro h; trivial
          · intro h; cases h

/-- a loop that has left the reader without a block has come to the end -/
theorem skipLoop_plus {t : Bytes} (ht : Stump t) (n : Option Int) (fuel : Nat) : ∀ (r : JDocReader) (i k m : Nat), r.block = some i →
    (r.skipLoop n fuel i k).2 = .ok m →
    ((r.skipLoop n fuel i k).1.block ≠ none → (r.plus t).skipLoop n fuel i k = ((r.skipLoop n fuel i k).1.plus t, .ok m)) ∧
    ((r.skipLoop n fuel i k).1.block = none → ((r.plus t).skipLoop n fuel i k).2 = .error .outOfData) := by
  induction fuel with
  | zero => intro r i k m _ h; cases h
  | succ fuel ih =>
    intro r i k m hi h
    unfold skipLoop at h ⊢
    by_cases hc : n.all (fun n => decide ((k : Int) < n)) = true
    · simp only [if_pos hc] at h ⊢
      have hl : (r.plus t).left i = r.left i := rfl
      rw [hl]
      cases hj : jSkip (r.left i) with
      | error e => rw [hj] at h; cases h
      | ok x =>
        obtain ⟨u, rest⟩ := x
        rw [hj] at h
        simp only at h ⊢
        have hm : (r.plus t).moved i rest = (r.moved i rest).plus t := rfl
        rw [hm]
        by_cases he : rest = []
        · rw [if_pos he] at h ⊢
          rw [if_pos he]
          obtain ⟨h1, h2⟩ := refill_plus ht (r.moved i rest)
          cases hx : (r.moved i rest).refill with
          | mk r' a =>
            rw [hx] at h1 h2 h
            simp only at h1 h2 h ⊢
            cases a with
            | error e => cases h
            | ok b =>
              cases b with
              | none =>
                have hb : r'.block = none := by
                  unfold refill at hx
                  split at hx
                  · cases hx
                  · simp only [Prod.mk.injEq, Except.ok.injEq] at hx
                    obtain ⟨hx1, hx2⟩ := hx
                    rw [← hx1, hx2]
                have := h2 rfl
                cases hy : ((r.moved i rest).plus t).refill with
                | mk r2 b2 =>
                  rw [hy] at this
                  simp only at this
                  subst this
                  exact ⟨fun h => absurd hb h, fun _ => rfl⟩
              | some j =>
                rw [h1 j rfl]
                have hb : r'.block = some j := by
                  unfold refill at hx
                  split at hx
                  · cases hx
                  · simp only [Prod.mk.injEq, Except.ok.injEq] at hx
                    obtain ⟨hx1, hx2⟩ := hx
                    rw [← hx1, hx2]
                exact ih r' j (k + 1) m hb h
        · rw [if_neg he] at h ⊢
          rw [if_neg he]
          exact ih (r.moved i rest) i (k + 1) m hi h
    · rw [if_neg hc] at h ⊢
      rw [if_neg hc]
      simp only [Except.ok.injEq] at h
      subst h
      exact ⟨fun _ => rfl, fun h => by rw [hi] at h; cases h⟩

theorem skips_plus {t : Bytes} (ht : Stump t) (n : Option Int) (bound : Nat) (r : JDocReader) (m : Nat) (h : (r.skips n bound).2 = .ok m) :
    ((r.skips n bound).1.block ≠ none → (r.plus t).skips n bound = ((r.skips n bound).1.plus t, .ok m)) ∧
    ((r.skips n bound).1.block = none → ((r.plus t).skips n bound).2 = .error .outOfData) := by
  obtain ⟨h1, h2⟩ := current_plus ht r
  unfold skips at h ⊢
  cases hx : r.current with
  | mk r' a =>
    rw [hx] at h1 h2 h
    simp only at h1 h2 h ⊢
    have hb : ∀ b, a = .ok b → r'.block = b := by
      intro b hb
      subst hb
      unfold current at hx
      split at hx
      · unfold refill at hx
        split at hx
        · cases hx
        · simp only [Prod.mk.injEq, Except.ok.injEq] at hx
          obtain ⟨hx1, hx2⟩ := hx
          rw [← hx1, hx2]
      · rename_i i hi
        simp only [Prod.mk.injEq, Except.ok.injEq] at hx
        obtain ⟨hx1, hx2⟩ := hx
        rw [← hx1, hi, hx2]
    cases a with
    | error e => cases h
    | ok b =>
      cases b with
      | none =>
        have := h2 rfl
        cases hy : (r.plus t).current with
        | mk r2 b2 =>
          rw [hy] at this
          simp only at this
          subst this
          exact ⟨fun h => absurd (hb none rfl) h, fun _ => rfl⟩
      | some j =>
        rw [h1 j rfl]
        exact skipLoop_plus ht n bound r' j 0 m (hb _ rfl) h

theorem readLoop_none (fuel : Nat) : ∀ (r : JDocReader), (r.readLoop fuel).2 = .ok none → (r.readLoop fuel).1.rest = [] := by
  induction fuel with
  | zero => intro r h; cases h
  | succ fuel ih =>
    intro r h
    unfold readLoop at h ⊢
    by_cases hr : r.rest = []
    · rw [if_pos hr]; exact hr
    · rw [if_neg hr] at h ⊢
      cases hj : jBin r.rest with
      | error e => rw [hj] at h; cases h
      | ok x =>
        obtain ⟨z, rest⟩ := x
        rw [hj] at h
        simp only at h ⊢
        cases hd : r.codec z with
        | error e => rw [hd] at h; cases h
        | ok d =>
          rw [hd] at h
          simp only at h ⊢
          by_cases he : d = []
          · rw [if_neg (by simp [he])] at h ⊢
            exact ih _ h
          · rw [if_pos he] at h
            cases h

theorem refill_none {r : JDocReader} (h : r.refill.2 = .ok none) : r.refill.1.rest = [] := by
  have := readLoop_none (r.rest.length + 1) r
  unfold refill readNextBlock at h ⊢
  cases hx : r.readLoop (r.rest.length + 1) with
  | mk r' a =>
    rw [hx] at h this
    simp only at h this ⊢
    cases a with
    | error e => cases h
    | ok b =>
      simp only [Except.ok.injEq] at h
      subst h
      exact this rfl

theorem refill_block {r r' : JDocReader} {b} (h : r.refill = (r', .ok b)) : r'.block = b := by
  unfold refill at h
  split at h
  · cases h
  · simp only [Prod.mk.injEq, Except.ok.injEq] at h
    obtain ⟨h1, h2⟩ := h
    rw [← h1, h2]

theorem skipLoop_end (n : Option Int) (fuel : Nat) : ∀ (r : JDocReader) (i k m : Nat), r.block = some i → (r.skipLoop n fuel i k).2 = .ok m →
    (r.skipLoop n fuel i k).1.block = none → (r.skipLoop n fuel i k).1.rest = [] := by
  induction fuel with
  | zero => intro r i k m _ h; cases h
  | succ fuel ih =>
    intro r i k m hi h hb
    unfold skipLoop at h hb ⊢
    by_cases hc : n.all (fun n => decide ((k : Int) < n)) = true
    · rw [if_pos hc] at h hb ⊢
      cases hj : jSkip (r.left i) with
      | error e => rw [hj] at h; cases h
      | ok x =>
        obtain ⟨u, rest⟩ := x
        rw [hj] at h hb
        simp only at h hb ⊢
        by_cases he : rest = []
        · rw [if_pos he] at h hb ⊢
          cases hx : (r.moved i rest).refill with
          | mk r' a =>
            rw [hx] at h hb
            cases a with
            | error e => cases h
            | ok b =>
              cases b with
              | none =>
                have := refill_none (r := r.moved i rest) (by rw [hx])
                rw [hx] at this
                exact this
              | some j => exact ih r' j (k + 1) m (refill_block hx) h hb
        · rw [if_neg he] at h hb ⊢
          exact ih (r.moved i rest) i (k + 1) m hi h hb
    · rw [if_neg hc] at hb
      rw [hi] at hb; cases hb

theorem skips_end (n : Option Int) (bound : Nat) (r : JDocReader) (m : Nat) (h : (r.skips n bound).2 = .ok m)
    (hb : (r.skips n bound).1.block = none) : (r.skips n bound).1.rest = [] := by
  unfold skips at h hb ⊢
  cases hx : r.current with
  | mk r' a =>
    rw [hx] at h hb
    unfold current at hx
    cases hk : r.block with
    | none =>
      rw [hk] at hx
      simp only at hx
      cases a with
      | error e => cases h
      | ok b =>
        cases b with
        | none =>
          have := refill_none (r := r) (by rw [hx])
          rw [hx] at this
          exact this
        | some j => exact skipLoop_end n bound r' j 0 m (refill_block hx) h hb
    | some i =>
      rw [hk] at hx
      simp only [Prod.mk.injEq] at hx
      obtain ⟨rfl, rfl⟩ := hx
      exact skipLoop_end n bound r i 0 m hk h hb

/-! ### streams -/

theorem streamNext_plus (r : JDocReader) (t : Bytes) (i : Nat) : (r.plus t).streamNext i = ((r.streamNext i).1.plus t, (r.streamNext i).2) := by
  have hl : (r.plus t).left i = r.left i := rfl
  unfold streamNext
  rw [hl]
  by_cases h : r.left i = []
  · rw [if_pos h, if_pos h]
  · rw [if_neg h, if_neg h]
    cases jBin (r.left i) with
    | error e => rfl
    | ok x => rfl

theorem consume_plus (t : Bytes) (i : Nat) (fuel : Nat) : ∀ (r : JDocReader), (r.plus t).consume fuel i = ((r.consume fuel i).1.plus t, (r.consume fuel i).2) := by
  induction fuel with
  | zero => intro r; rfl
  | succ fuel ih =>
    intro r
    unfold consume
    rw [streamNext_plus]
    cases r.streamNext i with
    | mk r' a =>
      cases a with
      | error e => rfl
      | ok b =>
        cases b with
        | none => rfl
        | some d =>
          simp only [ih]
          cases r'.consume fuel i with
          | mk r2 a2 => cases a2 <;> rfl

end Verif
