import Verif.Py.Msgpack
/-
Lemmas about the msgpack model: reading is local (depends only on the bytes consumed) and inverts
packing.
-/
set_option linter.unusedSimpArgs false
namespace Verif

/-! ### big-endian numbers -/

theorem be_length (k n : Nat) : (be k n).length = k := by
  induction k with
  | zero => rfl
  | succ k ih => simp [be, ih]

theorem foldl_be (k : Nat) : ∀ n acc, (be k n).foldl (fun acc b => acc * 256 + b.toNat) acc = acc * 256 ^ k + n % 256 ^ k := by
  induction k with
  | zero => intro n acc; simp [be]; omega
  | succ k ih =>
    intro n acc
    simp only [be, List.foldl_cons]
    rw [u8 (by omega), ih]
    have h1 : n % 256 ^ (k + 1) = n % 256 ^ k + 256 ^ k * (n / 256 ^ k % 256) := by
      rw [Nat.pow_succ, Nat.mod_mul]
    rw [h1, Nat.pow_succ, Nat.add_mul, Nat.mul_assoc, Nat.mul_comm 256, Nat.mul_comm (n / 256 ^ k % 256)]
    omega

theorem ofBe_be (k n : Nat) (h : n < 256 ^ k) : ofBe (be k n) = n := by
  rw [ofBe, foldl_be, Nat.mod_eq_of_lt h]; omega

/-! ### locality -/

/-- A reader is local: what it returns, and every error but OutOfData, depends only on the bytes it
consumed, not on what follows. -/
structure Loc {α : Type} (p : P α) : Prop where
  ok : ∀ bs v r, p bs = .ok (v, r) → ∃ u, bs = u ++ r ∧ ∀ r', p (u ++ r') = .ok (v, r')
  err : ∀ bs e, p bs = .error e → e ≠ .outOfData → ∀ r, p (bs ++ r) = .error e

namespace Loc
variable {α β : Type}

theorem pure (a : α) : Loc (pure a : P α) where
  ok bs v r h := by
    have h : (Except.ok (a, bs) : Except PyErr (α × Bytes)) = .ok (v, r) := h
    simp only [Except.ok.injEq, Prod.mk.injEq] at h
    exact ⟨[], by simp [h.2], fun r' => by rw [← h.1]; rfl⟩
  err bs e h := by
    have h : (Except.ok (a, bs) : Except PyErr (α × Bytes)) = .error e := h
    cases h

theorem fail (e : PyErr) : Loc (P.fail e : P α) where
  ok bs v r h := by simp [P.fail] at h
  err bs e' h _ r := by simp [P.fail] at h ⊢; exact h

theorem lift (x : Except PyErr α) : Loc (P.lift x) := by
  cases x with
  | error e => exact fail e
  | ok a => exact pure a

theorem bind {p : P α} {f : α → P β} (hp : Loc p) (hf : ∀ a, Loc (f a)) : Loc (p >>= f) where
  ok bs v r h := by
    have e : (p >>= f) = P.bind p f := rfl
    rw [e] at h ⊢
    unfold P.bind at h
    cases hpb : p bs with
    | error e => rw [hpb] at h; cases h
    | ok ar =>
      obtain ⟨a, m⟩ := ar
      rw [hpb] at h
      simp only at h
      obtain ⟨u, hu, hu'⟩ := hp.ok _ _ _ hpb
      obtain ⟨w, hw, hw'⟩ := (hf a).ok _ _ _ h
      refine ⟨u ++ w, by rw [hu, hw]; simp, fun r' => ?_⟩
      simp only [P.bind, List.append_assoc, hu', hw']
  err bs e h he r := by
    have e' : (p >>= f) = P.bind p f := rfl
    rw [e'] at h ⊢
    unfold P.bind at h ⊢
    cases hpb : p bs with
    | error e1 =>
      rw [hpb] at h
      simp only [Except.error.injEq] at h
      subst h
      rw [hp.err _ _ hpb he]
    | ok ar =>
      obtain ⟨a, m⟩ := ar
      rw [hpb] at h
      simp only at h
      obtain ⟨u, hu, hu'⟩ := hp.ok _ _ _ hpb
      rw [hu, List.append_assoc, hu']
      exact (hf a).err _ _ h he r

theorem take (n : Nat) : Loc (P.take n) where
  ok bs v r h := by
    unfold P.take at h
    split at h
    · rename_i hn
      simp only [Except.ok.injEq, Prod.mk.injEq] at h
      obtain ⟨rfl, rfl⟩ := h
      refine ⟨bs.take n, (List.take_append_drop n bs).symm, fun r' => ?_⟩
      have hl : (bs.take n).length = n := by simp; omega
      unfold P.take
      rw [if_pos (by simp; omega), List.take_append_of_le_length (by omega), List.take_of_length_le (by omega),
        List.drop_append_of_le_length (by omega), List.drop_of_length_le (by omega)]
      rfl
    · cases h
  err bs e h he := by
    unfold P.take at h
    split at h
    · cases h
    · cases h; exact absurd rfl he

theorem ite {c : Prop} [Decidable c] {p q : P α} (hp : Loc p) (hq : Loc q) : Loc (if c then p else q) := by
  split <;> assumption

theorem takeNat (k : Nat) : Loc (takeNat k) := (take k).bind fun _ => pure _

theorem takeInt (k : Nat) : Loc (takeInt k) := (takeNat k).bind fun _ => pure _

theorem takeStr (n : Nat) : Loc (takeStr n) := by
  refine (take n).bind fun b => ?_
  cases utf8Decode b with
  | none => exact fail _
  | some s => exact pure _

theorem times {p : P α} (hp : Loc p) : ∀ n, Loc (P.times p n)
  | 0 => pure _
  | n + 1 => hp.bind fun _ => (times hp n).bind fun _ => pure _

theorem headOf (b : Nat) : Loc (headOf b) := by
  unfold Verif.headOf
  repeat' first
    | with_reducible apply ite
    | with_reducible exact pure _
    | with_reducible exact fail _
    | with_reducible exact take _
    | with_reducible exact takeNat _
    | with_reducible exact takeInt _
    | with_reducible exact takeStr _
    | (with_reducible apply bind; rotate_left; intro _)

theorem unpackHead : Loc unpackHead := (take 1).bind fun _ => headOf _

theorem unpackPair {p : P Obj} (hp : Loc p) : Loc (unpackPair p) :=
  hp.bind fun _ => (lift _).bind fun _ => hp.bind fun _ => pure _

theorem unpackAt : ∀ n, Loc (unpackAt n)
  | 0 => by
    refine unpackHead.bind fun h => ?_
    cases h
    · exact pure _
    · exact fail _
    · exact fail _
  | n + 1 => by
    refine unpackHead.bind fun h => ?_
    cases h
    · exact pure _
    · exact (times (unpackAt n) _).bind fun _ => pure _
    · exact (times (unpackPair (unpackAt n)) _).bind fun _ => pure _

theorem unpack : Loc unpack := unpackAt 1024

end Loc

/-! ### reading back what was packed -/

theorem P.bind_eq {α β : Type} (p : P α) (f : α → P β) (bs : Bytes) :
    (p >>= f) bs = (match p bs with | .error e => .error e | .ok (a, r) => f a r) := rfl

theorem P.pure_eq {α : Type} (a : α) (bs : Bytes) : (pure a : P α) bs = .ok (a, bs) := rfl

theorem take_append (u r : Bytes) : P.take u.length (u ++ r) = .ok (u, r) := by
  unfold P.take; rw [if_pos (by simp)]; simp

theorem takeNat_be (k n : Nat) (r : Bytes) (h : n < 256 ^ k) : takeNat k (be k n ++ r) = .ok (n, r) := by
  have h1 : P.take k (be k n ++ r) = .ok (be k n, r) := by
    have := take_append (be k n) r
    rwa [be_length] at this
  simp [takeNat, P.bind_eq, P.pure_eq, h1, ofBe_be k n h]

theorem unpackHead_cons (b : UInt8) (r : Bytes) : unpackHead (b :: r) = headOf b.toNat r := by
  have h1 : P.take 1 (b :: r) = .ok ([b], r) := take_append [b] r
  simp [unpackHead, P.bind_eq, h1, ofBe]

theorem unpackHead_int {i : Int} {bs : Bytes} (h : packInt i = .ok bs) (r : Bytes) :
    unpackHead (bs ++ r) = .ok (.val (.int i), r) := by
  unfold packInt at h
  simp only at h
  repeat' split at h
  all_goals cases h
  all_goals simp only [List.cons_append, List.nil_append, unpackHead_cons]
  · rw [u8 (by omega), headOf, if_pos (by omega)]
    simp only [P.pure_eq]; congr 4; omega
  · simp [headOf, P.bind_eq, P.pure_eq]
    rw [takeNat_be 1 _ _ (by omega)]; simp; omega
  · simp [headOf, P.bind_eq, P.pure_eq]
    rw [takeNat_be 2 _ _ (by omega)]; simp; omega
  · simp [headOf, P.bind_eq, P.pure_eq]
    rw [takeNat_be 4 _ _ (by omega)]; simp; omega
  · simp [headOf, P.bind_eq, P.pure_eq]
    rw [takeNat_be 8 _ _ (by omega)]; simp; omega
  · rw [u8 (by omega), headOf]
    repeat rw [if_neg (by omega)]
    simp only [P.pure_eq]; congr 4; omega
  · simp [headOf, P.bind_eq, P.pure_eq, takeInt]
    rw [takeNat_be 1 _ _ (by omega)]; simp; omega
  · simp [headOf, P.bind_eq, P.pure_eq, takeInt]
    rw [takeNat_be 2 _ _ (by omega)]; simp; omega
  · simp [headOf, P.bind_eq, P.pure_eq, takeInt]
    rw [takeNat_be 4 _ _ (by omega)]; simp; omega
  · simp [headOf, P.bind_eq, P.pure_eq, takeInt]
    rw [takeNat_be 8 _ _ (by omega)]; simp; omega

theorem takeStr_append (s : Str) (r : Bytes) :
    takeStr (utf8Encode s).length (utf8Encode s ++ r) = .ok (.str s, r) := by
  simp [takeStr, P.bind_eq, take_append, utf8Decode_encode, P.pure_eq]

theorem unpackHead_str {s : Str} {bs : Bytes} (h : packStr s = .ok bs) (r : Bytes) :
    unpackHead (bs ++ r) = .ok (.val (.str s), r) := by
  simp only [packStr, bind, Except.bind] at h
  split at h
  · cases h
  · rename_i hd hh
    cases h
    unfold packStrHead at hh
    repeat' split at hh
    all_goals cases hh
    all_goals simp only [List.cons_append, List.nil_append, List.append_assoc, unpackHead_cons]
    · rw [u8 (by omega), headOf]
      repeat rw [if_neg (by omega)]
      rw [if_pos (by omega)]
      have e : 0xa0 + (utf8Encode s).length - 0xa0 = (utf8Encode s).length := by omega
      simp only [P.bind_eq, P.pure_eq, e, takeStr_append]
    · simp [headOf, P.bind_eq, P.pure_eq]
      rw [takeNat_be 1 _ _ (by omega)]; simp [takeStr_append]
    · simp [headOf, P.bind_eq, P.pure_eq]
      rw [takeNat_be 2 _ _ (by omega)]; simp [takeStr_append]
    · simp [headOf, P.bind_eq, P.pure_eq]
      rw [takeNat_be 4 _ _ (by omega)]; simp [takeStr_append]

theorem unpackHead_bin {b hd : Bytes} (h : packBinHead b.length = .ok hd) (r : Bytes) :
    unpackHead (hd ++ (b ++ r)) = .ok (.val (.bin b), r) := by
  unfold packBinHead at h
  repeat' split at h
  all_goals cases h
  all_goals simp only [List.cons_append, List.nil_append, List.append_assoc, unpackHead_cons]
  · simp [headOf, P.bind_eq, P.pure_eq]
    rw [takeNat_be 1 _ _ (by omega)]; simp [take_append]
  · simp [headOf, P.bind_eq, P.pure_eq]
    rw [takeNat_be 2 _ _ (by omega)]; simp [take_append]
  · simp [headOf, P.bind_eq, P.pure_eq]
    rw [takeNat_be 4 _ _ (by omega)]; simp [take_append]

theorem unpackHead_arr {n : Nat} {hd : Bytes} (h : packArrHead n = .ok hd) (r : Bytes) :
    unpackHead (hd ++ r) = .ok (.arr n, r) := by
  unfold packArrHead at h
  repeat' split at h
  all_goals cases h
  all_goals simp only [List.cons_append, List.nil_append, List.append_assoc, unpackHead_cons]
  · rw [u8 (by omega), headOf]
    repeat rw [if_neg (by omega)]
    rw [if_pos (by omega)]
    rw [Nat.add_sub_cancel_left]; rfl
  · simp [headOf, P.bind_eq, P.pure_eq]
    rw [takeNat_be 2 _ _ (by omega)]
  · simp [headOf, P.bind_eq, P.pure_eq]
    rw [takeNat_be 4 _ _ (by omega)]

theorem unpackHead_map {n : Nat} {hd : Bytes} (h : packMapHead n = .ok hd) (r : Bytes) :
    unpackHead (hd ++ r) = .ok (.map n, r) := by
  unfold packMapHead at h
  repeat' split at h
  all_goals cases h
  all_goals simp only [List.cons_append, List.nil_append, List.append_assoc, unpackHead_cons]
  · rw [u8 (by omega), headOf]
    repeat rw [if_neg (by omega)]
    rw [if_pos (by omega)]
    rw [Nat.add_sub_cancel_left]; rfl
  · simp [headOf, P.bind_eq, P.pure_eq]
    rw [takeNat_be 2 _ _ (by omega)]
  · simp [headOf, P.bind_eq, P.pure_eq]
    rw [takeNat_be 4 _ _ (by omega)]

theorem unpackAt_val {n : Nat} {o : Obj} {bs r : Bytes} (h : unpackHead bs = .ok (.val o, r)) :
    unpackAt n bs = .ok (o, r) := by
  cases n <;> simp [unpackAt, P.bind_eq, h, P.pure_eq]

theorem dictOf_append {ν : Type} (l : List (Str × ν)) : ∀ d : Dict Str ν,
    (d.map (·.1) ++ l.map (·.1)).Nodup → l.foldl (fun d e => dset d e.1 e.2) d = d ++ l := by
  induction l with
  | nil => intro d _; simp
  | cons e l ih =>
    intro d h
    have h1 : e.1 ∉ d.map (·.1) := by
      intro hc
      rw [List.nodup_append] at h
      exact h.2.2 _ hc _ (by simp) rfl
    rw [List.foldl_cons, dset_absent e.2 h1, ih]
    · simp
    · simpa using h

theorem dictOf_eq {ν : Type} (l : List (Str × ν)) (h : (l.map (·.1)).Nodup) : dictOf l = l := by
  rw [dictOf, dictOf_append l [] (by simpa using h)]; rfl

mutual
theorem unpackAt_packAt : ∀ (o : Obj) (lim n : Nat) (bs r : Bytes), packAt lim o = .ok bs → lim ≤ n → o.KeysOk →
    unpackAt n (bs ++ r) = .ok (o, r)
  | o, 0, n, bs, r, h, _, _ => by simp [packAt] at h
  | .nil, lim + 1, n, bs, r, h, _, _ => by
    simp only [packAt] at h; cases h
    exact unpackAt_val (by rw [List.cons_append, unpackHead_cons]; simp [headOf, P.pure_eq])
  | .bool false, lim + 1, n, bs, r, h, _, _ => by
    simp only [packAt] at h; cases h
    exact unpackAt_val (by rw [List.cons_append, unpackHead_cons]; simp [headOf, P.pure_eq])
  | .bool true, lim + 1, n, bs, r, h, _, _ => by
    simp only [packAt] at h; cases h
    exact unpackAt_val (by rw [List.cons_append, unpackHead_cons]; simp [headOf, P.pure_eq])
  | .int i, lim + 1, n, bs, r, h, _, _ => by
    simp only [packAt] at h
    exact unpackAt_val (unpackHead_int h r)
  | .float f, lim + 1, n, bs, r, h, _, _ => by
    simp only [packAt] at h; cases h
    refine unpackAt_val ?_
    rw [List.cons_append, unpackHead_cons]
    simp [headOf, P.pure_eq, P.bind_eq]
    have hf := f.toNat_lt
    rw [takeNat_be 8 _ _ (by omega)]
    simp
  | .str s, lim + 1, n, bs, r, h, _, _ => by
    simp only [packAt] at h
    exact unpackAt_val (unpackHead_str h r)
  | .bin b, lim + 1, n, bs, r, h, _, _ => by
    simp only [packAt, bind, Except.bind] at h
    split at h
    · cases h
    · rename_i hd hh
      cases h
      rw [List.append_assoc]
      exact unpackAt_val (unpackHead_bin hh r)
  | .arr l, lim + 1, n, bs, r, h, hn, hk => by
    simp only [packAt, bind, Except.bind] at h
    split at h
    · cases h
    · rename_i hd hh
      split at h
      · cases h
      · rename_i b hb
        cases h
        obtain ⟨m, rfl⟩ : ∃ m, n = m + 1 := ⟨n - 1, by omega⟩
        simp only [Obj.KeysOk] at hk
        simp only [unpackAt, P.bind_eq, List.append_assoc, unpackHead_arr hh, P.pure_eq,
          times_packList l lim m b r hb (by omega) hk]
  | .map l, lim + 1, n, bs, r, h, hn, hk => by
    simp only [packAt, bind, Except.bind] at h
    split at h
    · cases h
    · rename_i hd hh
      split at h
      · cases h
      · rename_i b hb
        cases h
        obtain ⟨m, rfl⟩ : ∃ m, n = m + 1 := ⟨n - 1, by omega⟩
        simp only [Obj.KeysOk] at hk
        simp only [unpackAt, P.bind_eq, List.append_assoc, unpackHead_map hh, P.pure_eq,
          times_packPairs l lim m b r hb (by omega) hk.2, dictOf_eq l hk.1]
theorem times_packList : ∀ (l : List Obj) (lim n : Nat) (bs r : Bytes), packList lim l = .ok bs → lim ≤ n →
    Obj.KeysOkL l → P.times (unpackAt n) l.length (bs ++ r) = .ok (l, r)
  | [], lim, n, bs, r, h, _, _ => by
    simp only [packList] at h; cases h; rfl
  | x :: xs, lim, n, bs, r, h, hn, hk => by
    simp only [packList, bind, Except.bind] at h
    split at h
    · cases h
    · rename_i b1 h1
      split at h
      · cases h
      · rename_i b2 h2
        cases h
        simp only [Obj.KeysOkL] at hk
        simp only [List.length_cons, P.times, P.bind_eq, List.append_assoc, unpackAt_packAt x lim n b1 _ h1 hn hk.1,
          times_packList xs lim n b2 r h2 hn hk.2, P.pure_eq]
theorem times_packPairs : ∀ (l : List (Str × Obj)) (lim n : Nat) (bs r : Bytes), packPairs lim l = .ok bs → lim ≤ n →
    Obj.KeysOkM l → P.times (unpackPair (unpackAt n)) l.length (bs ++ r) = .ok (l, r)
  | [], lim, n, bs, r, h, _, _ => by
    simp only [packPairs] at h; cases h; rfl
  | (k, x) :: xs, lim, n, bs, r, h, hn, hk => by
    simp only [packPairs, bind, Except.bind] at h
    split at h
    · cases h
    · rename_i b0 h0
      split at h
      · cases h
      · rename_i b1 h1
        split at h
        · cases h
        · rename_i b2 h2
          cases h
          simp only [Obj.KeysOkM] at hk
          have hs : unpackAt n (b0 ++ (b1 ++ (b2 ++ r))) = .ok (.str k, b1 ++ (b2 ++ r)) := by
            cases lim with
            | zero => simp [packKey] at h0
            | succ lim => simp only [packKey] at h0; exact unpackAt_val (unpackHead_str h0 _)
          have hp : unpackPair (unpackAt n) (b0 ++ (b1 ++ (b2 ++ r))) = .ok ((k, x), b2 ++ r) := by
            simp only [P.bind_eq, unpackPair, hs, mapKey, P.lift, unpackAt_packAt x lim n b1 _ h1 hn hk.1, P.pure_eq]
          simp only [List.length_cons, P.times, P.bind_eq, List.append_assoc, hp, times_packPairs xs lim n b2 r h2 hn hk.2, P.pure_eq]
end

theorem unpack_pack {o : Obj} {bs : Bytes} (h : pack o = .ok bs) (hk : o.KeysOk) (r : Bytes) :
    unpack (bs ++ r) = .ok (o, r) :=
  unpackAt_packAt o 512 1024 bs r h (by omega) hk

end Verif
