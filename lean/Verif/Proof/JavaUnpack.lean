import Verif.Props.BlockFile
import Verif.Model.JavaStream
/-
What the Java unpacker makes of packed values.
-/
set_option linter.unusedSimpArgs false
namespace Verif

theorem take_one (b : UInt8) (r : Bytes) : P.take 1 (b :: r) = .ok ([b], r) := take_append [b] r

theorem jBinHeader_cons (b : UInt8) (r : Bytes) : jBinHeader (b :: r) = jRawLen b.toNat r := by
  simp [jBinHeader, P.bind_eq, take_one, ofBe]

theorem jInteger_cons (b : UInt8) (r : Bytes) : jInteger (b :: r) = jIntOf b.toNat r := by
  simp [jInteger, P.bind_eq, take_one, ofBe]

theorem bpack_head {d : Bytes} (h : d.length < 2 ^ 32) : ∃ hd, packBinHead d.length = .ok hd ∧ Spec.bpack d = hd ++ d := by
  have hb := pack_bin h
  generalize Spec.bpack d = x at hb
  simp only [pack, packAt, bind, Except.bind] at hb
  split at hb
  · cases hb
  · rename_i hd hh
    cases hb
    exact ⟨hd, hh, rfl⟩

theorem jBin_bpack {d : Bytes} (h : d.length < 2 ^ 31) (r : Bytes) : jBin (Spec.bpack d ++ r) = .ok (d, r) := by
  obtain ⟨hd, hh, e⟩ := bpack_head (d := d) (by omega)
  have : jBinHeader (hd ++ (d ++ r)) = .ok (d.length, d ++ r) := by
    unfold packBinHead at hh
    repeat' split at hh
    all_goals cases hh
    all_goals simp only [List.cons_append, List.nil_append, jBinHeader_cons]
    · simp [jRawLen]
      exact takeNat_be 1 _ _ (by omega)
    · simp [jRawLen]
      exact takeNat_be 2 _ _ (by omega)
    · simp [jRawLen, jLen32, P.bind_eq]
      rw [takeNat_be 4 _ _ (by omega)]
      simp only
      rw [if_pos (by omega)]
      rfl
  rw [e]
  show jBin ((hd ++ d) ++ r) = _
  rw [List.append_assoc]
  simp [jBin, P.bind_eq, this, take_append]

theorem jBin_str {s : Str} {bs : Bytes} (h : pack (.str s) = .ok bs) (hl : (utf8Encode s).length < 2 ^ 31) (r : Bytes) :
    jBin (bs ++ r) = .ok (utf8Encode s, r) := by
  simp only [pack, packAt, packStr, bind, Except.bind] at h
  split at h
  · cases h
  · rename_i hd hh
    cases h
    have : jBinHeader (hd ++ (utf8Encode s ++ r)) = .ok ((utf8Encode s).length, utf8Encode s ++ r) := by
      unfold packStrHead at hh
      repeat' split at hh
      all_goals cases hh
      all_goals simp only [List.cons_append, List.nil_append, jBinHeader_cons]
      · rw [u8 (by omega), jRawLen, if_pos (by omega), Nat.add_sub_cancel_left]
        rfl
      · simp [jRawLen]
        exact takeNat_be 1 _ _ (by omega)
      · simp [jRawLen]
        exact takeNat_be 2 _ _ (by omega)
      · simp [jRawLen, jLen32, P.bind_eq]
        rw [takeNat_be 4 _ _ (by omega)]
        simp only
        rw [if_pos (by omega)]
        rfl
    show jBin ((hd ++ utf8Encode s) ++ r) = _
    rw [List.append_assoc]
    simp [jBin, P.bind_eq, this, take_append]

theorem jInt_str {s : Str} {bs : Bytes} (h : pack (.str s) = .ok bs) (r : Bytes) : jInt (bs ++ r) = .error .type := by
  simp only [pack, packAt, packStr, bind, Except.bind] at h
  split at h
  · cases h
  · rename_i hd hh
    cases h
    have : ∀ x, jInteger (hd ++ x) = .error .type := by
      intro x
      unfold packStrHead at hh
      repeat' split at hh
      all_goals cases hh
      all_goals simp only [List.cons_append, List.nil_append, jInteger_cons]
      · rw [u8 (by omega), jIntOf]
        repeat rw [if_neg (by omega)]
        rfl
      · simp [jIntOf, P.fail]
      · simp [jIntOf, P.fail]
      · simp [jIntOf, P.fail]
    show jInt ((hd ++ utf8Encode s) ++ r) = _
    rw [List.append_assoc]
    simp [jInt, P.bind_eq, this]

theorem jInteger_int {i : Int} {bs : Bytes} (h : pack (.int i) = .ok bs) (r : Bytes) : jInteger (bs ++ r) = .ok (i, r) := by
  simp only [pack, packAt] at h
  unfold packInt at h
  simp only at h
  repeat' split at h
  all_goals cases h
  all_goals simp only [List.cons_append, List.nil_append, jInteger_cons]
  · rw [u8 (by omega), jIntOf, if_pos (by omega)]
    simp only [P.pure_eq]; congr 2; omega
  · simp [jIntOf, P.bind_eq, P.pure_eq]
    rw [takeNat_be 1 _ _ (by omega)]; simp; omega
  · simp [jIntOf, P.bind_eq, P.pure_eq]
    rw [takeNat_be 2 _ _ (by omega)]; simp; omega
  · simp [jIntOf, P.bind_eq, P.pure_eq]
    rw [takeNat_be 4 _ _ (by omega)]; simp; omega
  · simp [jIntOf, P.bind_eq, P.pure_eq]
    rw [takeNat_be 8 _ _ (by omega)]; simp; omega
  · rw [u8 (by omega), jIntOf]
    repeat rw [if_neg (by omega)]
    rw [if_pos (by omega)]
    simp only [P.pure_eq]; congr 2; omega
  · simp [jIntOf, P.bind_eq, P.pure_eq, takeInt]
    rw [takeNat_be 1 _ _ (by omega)]; simp; omega
  · simp [jIntOf, P.bind_eq, P.pure_eq, takeInt]
    rw [takeNat_be 2 _ _ (by omega)]; simp; omega
  · simp [jIntOf, P.bind_eq, P.pure_eq, takeInt]
    rw [takeNat_be 4 _ _ (by omega)]; simp; omega
  · simp [jIntOf, P.bind_eq, P.pure_eq, takeInt]
    rw [takeNat_be 8 _ _ (by omega)]; simp; omega

theorem jInt_int {i : Int} {bs : Bytes} (h : pack (.int i) = .ok bs) (h1 : -2 ^ 31 ≤ i) (h2 : i < 2 ^ 31) (r : Bytes) : jInt (bs ++ r) = .ok (i, r) := by
  have hr : jInRange i = .ok i := by unfold jInRange; rw [if_pos (by omega)]
  simp [jInt, P.bind_eq, jInteger_int h, hr, P.lift]

theorem jBool_false (r : Bytes) : jBool (0xc2 :: r) = .ok (false, r) := by
  simp [jBool, P.bind_eq, take_one, ofBe, jBoolOf, P.lift]

theorem jSkip_bpack {d : Bytes} (h : d.length < 2 ^ 31) (r : Bytes) : jSkip (Spec.bpack d ++ r) = .ok ((), r) := by
  obtain ⟨hd, hh, e⟩ := bpack_head (d := d) (by omega)
  rw [e]
  have key : ∀ (b : UInt8) (x y : Bytes), (jSkipOf b.toNat x = .ok (0, y)) → jSkip (b :: x) = .ok ((), y) := by
    intro b x y hx
    simp only [jSkip, List.length_cons, jSkipLoop, P.bind_eq, take_one]
    have : ofBe [b] = b.toNat := by simp [ofBe]
    rw [this, hx]
    simp only [Nat.zero_add, Nat.add_zero]
    unfold jSkipLoop
    rfl
  have dr : ∀ (x y : Bytes), jDrop x.length 0 (x ++ y) = .ok (0, y) := by
    intro x y
    simp [jDrop, P.bind_eq, take_append, P.pure_eq]
  show jSkip ((hd ++ d) ++ r) = _
  rw [List.append_assoc]
  unfold packBinHead at hh
  repeat' split at hh
  all_goals cases hh
  all_goals simp only [List.cons_append, List.nil_append]
  · apply key
    simp [jSkipOf, P.bind_eq]
    rw [takeNat_be 1 _ _ (by omega)]
    exact dr _ _
  · apply key
    simp [jSkipOf, P.bind_eq]
    rw [takeNat_be 2 _ _ (by omega)]
    exact dr _ _
  · apply key
    simp [jSkipOf, P.bind_eq, jLen32]
    rw [takeNat_be 4 _ _ (by omega)]
    simp only
    rw [if_pos (by omega)]
    exact dr _ _

end Verif
