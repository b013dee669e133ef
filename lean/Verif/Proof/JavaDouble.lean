import Verif.Model.JavaValue
/-
Doubles as numbers, for Props/JavaValue.
-/
set_option linter.unusedSimpArgs false
set_option exponentiation.threshold 2000
namespace Verif

namespace Spec

/-- a double is a multiple of this part of one: 2^-1074, the least positive double -/
def parts : Nat := 2 ^ 1074

/-- the number of those parts, for exponent and fraction -/
def magnitude (b : Nat) : Nat := if b / 2 ^ 52 = 0 then b % 2 ^ 52 else (2 ^ 52 + b % 2 ^ 52) * 2 ^ (b / 2 ^ 52 - 1)

/-- the number of those parts that a double is -/
def dValue (f : UInt64) : Int := if 2 ^ 63 ≤ f.toNat then -(magnitude (f.toNat % 2 ^ 63) : Int) else magnitude (f.toNat % 2 ^ 63)

/-- neither infinite nor NaN -/
def Finite (f : UInt64) : Prop := f.toNat % 2 ^ 63 / 2 ^ 52 ≠ 2047

end Spec

open Spec (parts magnitude dValue Finite)

/-! ### magnitudes -/

theorem parts_pos : 0 < parts := Nat.two_pow_pos 1074

theorem pow_parts {a b : Nat} (h : a + 1074 = b) : 2 ^ a * parts = 2 ^ b := by
  subst h; rw [Nat.pow_add]; rfl

theorem magnitude_of {E m : Nat} (h1 : 2 ^ 52 ≤ m) (h2 : m ≤ 2 ^ 53) : magnitude (E * 2 ^ 52 + m) = m * 2 ^ E := by
  unfold magnitude
  by_cases h : m = 2 ^ 53
  · subst h
    have e1 : (E * 2 ^ 52 + 2 ^ 53) / 2 ^ 52 = E + 2 := by omega
    have e2 : (E * 2 ^ 52 + 2 ^ 53) % 2 ^ 52 = 0 := by omega
    rw [e1, e2, if_neg (by omega), show E + 2 - 1 = E + 1 by omega, Nat.pow_succ]
    omega
  · have e1 : (E * 2 ^ 52 + m) / 2 ^ 52 = E + 1 := by omega
    have e2 : (E * 2 ^ 52 + m) % 2 ^ 52 = m - 2 ^ 52 := by omega
    rw [e1, e2, if_neg (by omega), show E + 1 - 1 = E by omega, show 2 ^ 52 + (m - 2 ^ 52) = m by omega]

theorem magnitude_lt {a b : Nat} (h : a < b) : magnitude a < magnitude b := by
  have hm : ∀ x : Nat, x % 2 ^ 52 < 2 ^ 52 := fun x => Nat.mod_lt _ (by decide)
  have ha := hm a
  have hb := hm b
  have hd : a / 2 ^ 52 ≤ b / 2 ^ 52 := Nat.div_le_div_right (Nat.le_of_lt h)
  have h1 := Nat.div_add_mod a (2 ^ 52)
  have h2 := Nat.div_add_mod b (2 ^ 52)
  unfold magnitude
  generalize a / 2 ^ 52 = E at *
  generalize b / 2 ^ 52 = E' at *
  generalize a % 2 ^ 52 = F at *
  generalize b % 2 ^ 52 = F' at *
  by_cases he : E = E'
  · subst he
    split
    · omega
    · exact Nat.mul_lt_mul_of_pos_right (by omega) (Nat.two_pow_pos _)
  · rw [if_neg (by omega : ¬ E' = 0)]
    have h3 : 2 ^ 52 * 2 ^ (E' - 1) ≤ (2 ^ 52 + F') * 2 ^ (E' - 1) := Nat.mul_le_mul_right _ (by omega)
    refine Nat.lt_of_lt_of_le ?_ h3
    split
    · have := Nat.mul_le_mul_left (2 ^ 52) (Nat.two_pow_pos (E' - 1))
      omega
    · have h4 : (2 ^ 52 + F) * 2 ^ (E - 1) < 2 ^ 53 * 2 ^ (E - 1) := Nat.mul_lt_mul_of_pos_right (by omega) (Nat.two_pow_pos _)
      refine Nat.lt_of_lt_of_le h4 ?_
      rw [← Nat.pow_add, ← Nat.pow_add]
      exact Nat.pow_le_pow_right (by decide) (by omega)

theorem magnitude_le {a b : Nat} : magnitude a ≤ magnitude b ↔ a ≤ b := by
  constructor
  · intro h
    rcases Nat.lt_or_ge b a with h' | h'
    · have := magnitude_lt h'; omega
    · exact h'
  · intro h
    rcases Nat.lt_or_eq_of_le h with h | rfl
    · exact Nat.le_of_lt (magnitude_lt h)
    · exact Nat.le_refl _

/-- large doubles are multiples of large powers -/
theorem magnitude_dvd {b k : Nat} (h : 2 ^ (k + 52) ≤ magnitude b) : 2 ^ k ∣ magnitude b := by
  unfold magnitude at h ⊢
  split
  · rename_i h0
    rw [if_pos h0] at h
    have h1 : b % 2 ^ 52 < 2 ^ 52 := Nat.mod_lt _ (by decide)
    have h2 : 2 ^ 52 ≤ 2 ^ (k + 52) := Nat.pow_le_pow_right (by decide) (by omega)
    omega
  · rename_i h0
    rw [if_neg h0] at h
    apply Nat.dvd_trans _ (Nat.dvd_mul_left ..)
    apply Nat.pow_dvd_pow
    have h1 : b % 2 ^ 52 < 2 ^ 52 := Nat.mod_lt _ (by decide)
    have h3 : (2 ^ 52 + b % 2 ^ 52) * 2 ^ (b / 2 ^ 52 - 1) < 2 ^ 53 * 2 ^ (b / 2 ^ 52 - 1) :=
      Nat.mul_lt_mul_of_pos_right (by omega) (Nat.pow_pos (by decide))
    rw [← Nat.pow_add] at h3
    have h4 := (Nat.pow_lt_pow_iff_right (a := 2) (by decide)).mp (Nat.lt_of_le_of_lt h h3)
    omega

theorem magnitude_trunc (f : UInt64) : dTrunc f = magnitude (f.toNat % 2 ^ 63) / parts := by
  unfold dTrunc magnitude dExp
  have hF : f.toNat % 2 ^ 63 % 2 ^ 52 = dFrac f := Nat.mod_mod_of_dvd _ ⟨2 ^ 11, by decide⟩
  rw [hF]
  generalize f.toNat % 2 ^ 63 / 2 ^ 52 = E
  have h1 : dFrac f < 2 ^ 52 := Nat.mod_lt _ (by decide)
  generalize dFrac f = F at *
  have hp : 0 < parts := parts_pos
  by_cases h0 : E = 0
  · subst h0
    rw [if_pos (by decide), if_pos rfl, Nat.div_eq_of_lt, Nat.div_eq_of_lt]
    · exact Nat.lt_of_lt_of_le h1 (Nat.pow_le_pow_right (by decide) (by decide))
    · exact Nat.lt_of_lt_of_le (show 2 ^ 52 + F < 2 ^ 53 by omega) (Nat.pow_le_pow_right (by decide) (by decide))
  · rw [if_neg h0]
    by_cases h : E < 1075
    · rw [if_pos h]
      have : parts = 2 ^ (1075 - E) * 2 ^ (E - 1) := by
        rw [← Nat.pow_add, show 1075 - E + (E - 1) = 1074 by omega, ← pow_parts (a := 0) rfl, Nat.pow_zero, Nat.one_mul]
      rw [this, Nat.mul_div_mul_right _ _ (Nat.pow_pos (by decide))]
    · rw [if_neg h]
      have : 2 ^ (E - 1) = 2 ^ (E - 1075) * parts := by
        rw [pow_parts (b := E - 1) (by omega)]
      rw [this, ← Nat.mul_assoc, Nat.mul_div_cancel _ hp]

/-! ### rounding -/

/-- the multiple that is taken -/
def rounded (n P : Nat) : Nat := if P < 2 * (n % P) ∨ 2 * (n % P) = P ∧ n / P % 2 = 1 then n / P + 1 else n / P

def apart (a b : Nat) : Nat := (a - b) + (b - a)

theorem apart_le {A X Z : Nat} (h1 : A ≤ X) (h2 : ¬ A ≤ Z) : apart A X ≤ apart Z X := by unfold apart; omega

theorem apart_lt {A X Z : Nat} (h1 : A ≤ X) (h2 : ¬ A ≤ Z) : apart A X < apart Z X := by unfold apart; omega

theorem apart_mul (a b c : Nat) : apart (a * c) (b * c) = apart a b * c := by
  unfold apart
  rw [Nat.add_mul, Nat.sub_mul, Nat.sub_mul]

/-- no multiple is nearer -/
theorem rounded_near (n P c : Nat) (hP : 0 < P) : apart (rounded n P * P) n ≤ apart (c * P) n := by
  have h1 := Nat.div_add_mod n P
  have h2 := Nat.mod_lt n hP
  rw [Nat.mul_comm] at h1
  unfold apart rounded
  have hc : c * P ≤ n / P * P ∨ n / P * P + P ≤ c * P := by
    rcases Nat.lt_or_ge (n / P) c with h | h
    · refine .inr ?_
      have := Nat.mul_le_mul_right P (show n / P + 1 ≤ c from h)
      rwa [Nat.add_mul, Nat.one_mul] at this
    · exact .inl (Nat.mul_le_mul_right P h)
  generalize n % P = r at *
  split
  · rename_i h
    rw [Nat.add_mul, Nat.one_mul]
    generalize n / P * P = Q at *
    omega
  · rename_i h
    generalize n / P * P = Q at *
    omega

/-- of two equally near multiples the even one -/
theorem rounded_even (n P c : Nat) (hP : 0 < P) (h : apart (rounded n P * P) n = apart (c * P) n) (hne : c ≠ rounded n P) : rounded n P % 2 = 0 := by
  have h1 := Nat.div_add_mod n P
  have h2 := Nat.mod_lt n hP
  rw [Nat.mul_comm] at h1
  have hc : c * P + P ≤ n / P * P ∨ c = n / P ∨ c = n / P + 1 ∨ n / P * P + P + P ≤ c * P := by
    rcases Nat.lt_trichotomy c (n / P) with h | h | h
    · refine .inl ?_
      have := Nat.mul_le_mul_right P (show c + 1 ≤ n / P from h)
      rwa [Nat.add_mul, Nat.one_mul] at this
    · exact .inr (.inl h)
    · by_cases h' : c = n / P + 1
      · exact .inr (.inr (.inl h'))
      · refine .inr (.inr (.inr ?_))
        have := Nat.mul_le_mul_right P (show n / P + 2 ≤ c by omega)
        rw [Nat.add_mul] at this
        omega
  unfold apart rounded at *
  generalize n % P = r at *
  generalize hq : n / P = q at *
  split at h <;> rename_i hs
  · rw [if_pos hs] at hne ⊢
    rw [Nat.add_mul, Nat.one_mul] at h
    rcases hc with hc | hc | hc | hc
    · generalize q * P = Q at *; omega
    · subst hc
      generalize c * P = Q at *; omega
    · omega
    · generalize q * P = Q at *; omega
  · rw [if_neg hs] at hne ⊢
    rcases hc with hc | hc | hc | hc
    · generalize q * P = Q at *; omega
    · omega
    · subst hc
      rw [Nat.add_mul, Nat.one_mul] at h
      generalize q * P = Q at *; omega
    · generalize q * P = Q at *; omega

/-! ### ints as doubles -/

theorem parts_mul {e : Nat} (h : 52 ≤ e) : 2 ^ (e - 52) * parts = 2 ^ (e + 1022) := by
  exact pow_parts (by omega)

theorem rounded_bounds {n : Nat} (h0 : n ≠ 0) (h : 52 < n.log2) : 2 ^ 52 ≤ rounded n (2 ^ (n.log2 - 52)) ∧ rounded n (2 ^ (n.log2 - 52)) ≤ 2 ^ 53 := by
  have hP : 0 < 2 ^ (n.log2 - 52) := Nat.pow_pos (by decide)
  have e1 : 2 ^ n.log2 = 2 ^ 52 * 2 ^ (n.log2 - 52) := by rw [← Nat.pow_add]; congr 1; omega
  have e2 : 2 ^ (n.log2 + 1) = 2 ^ 53 * 2 ^ (n.log2 - 52) := by rw [← Nat.pow_add]; congr 1; omega
  have h1 : 2 ^ 52 ≤ n / 2 ^ (n.log2 - 52) := by
    rw [Nat.le_div_iff_mul_le hP, ← e1]; exact Nat.log2_self_le h0
  have h2 : n / 2 ^ (n.log2 - 52) < 2 ^ 53 := by
    rw [Nat.div_lt_iff_lt_mul hP, ← e2]; exact Nat.lt_log2_self
  unfold rounded
  split <;> omega

/-- how many parts: the exact number, or the nearest multiple -/
theorem natToDouble_small {n : Nat} (h0 : n ≠ 0) (h : n.log2 ≤ 52) : magnitude (natToDouble n) = n * parts := by
  unfold natToDouble
  rw [if_neg h0, if_pos h, magnitude_of, Nat.mul_assoc, ← Nat.pow_add]
  · rw [show 52 - n.log2 + (n.log2 + 1022) = 1074 by omega, ← pow_parts (a := 0) rfl, Nat.pow_zero, Nat.one_mul]
  · have := Nat.mul_le_mul_right (2 ^ (52 - n.log2)) (Nat.log2_self_le h0)
    rwa [← Nat.pow_add, show n.log2 + (52 - n.log2) = 52 by omega] at this
  · have := Nat.mul_le_mul_right (2 ^ (52 - n.log2)) (Nat.le_of_lt (Nat.lt_log2_self (n := n)))
    rwa [← Nat.pow_add, show n.log2 + 1 + (52 - n.log2) = 53 by omega] at this

theorem natToDouble_large {n : Nat} (h0 : n ≠ 0) (h : 52 < n.log2) : natToDouble n = (n.log2 + 1022) * 2 ^ 52 + rounded n (2 ^ (n.log2 - 52)) ∧
    magnitude (natToDouble n) = rounded n (2 ^ (n.log2 - 52)) * 2 ^ (n.log2 - 52) * parts := by
  have e : natToDouble n = (n.log2 + 1022) * 2 ^ 52 + rounded n (2 ^ (n.log2 - 52)) := by
    unfold natToDouble rounded
    rw [if_neg h0, if_neg (by omega)]
  have hb := rounded_bounds h0 h
  refine ⟨e, ?_⟩
  rw [e, magnitude_of hb.1 hb.2, Nat.mul_assoc, parts_mul (by omega)]

theorem natToDouble_bound {n : Nat} (hn : n < 2 ^ 64) : natToDouble n < 2000 * 2 ^ 52 := by
  by_cases h0 : n = 0
  · subst h0; decide
  have hl : n.log2 < 64 := (Nat.log2_lt h0).mpr hn
  by_cases h : n.log2 ≤ 52
  · unfold natToDouble
    rw [if_neg h0, if_pos h]
    have := Nat.mul_le_mul_right (2 ^ (52 - n.log2)) (Nat.le_of_lt (Nat.lt_log2_self (n := n)))
    rw [← Nat.pow_add, show n.log2 + 1 + (52 - n.log2) = 53 by omega] at this
    omega
  · have := (rounded_bounds h0 (by omega)).2
    rw [(natToDouble_large h0 (by omega)).1]
    omega

theorem magnitude_zero : magnitude (natToDouble 0) = 0 := by decide

theorem natToDouble_exact {n : Nat} (h : n ≤ 2 ^ 53) : magnitude (natToDouble n) = n * parts := by
  by_cases h0 : n = 0
  · subst h0; rw [magnitude_zero, Nat.zero_mul]
  by_cases hl : n.log2 ≤ 52
  · exact natToDouble_small h0 hl
  · have h1 := Nat.log2_self_le h0
    have h2 : 2 ^ 53 ≤ 2 ^ n.log2 := Nat.pow_le_pow_right (by decide) (by omega)
    have : n = 2 ^ 53 := by omega
    subst this
    have : (2 ^ 53 : Nat).log2 = 53 := Nat.log2_two_pow
    rw [(natToDouble_large h0 (by omega)).2, this]
    have : rounded (2 ^ 53) (2 ^ (53 - 52)) * 2 ^ (53 - 52) = 2 ^ 53 := by decide
    rw [this]

/-- no double is nearer to a number -/
theorem natToDouble_near (n b : Nat) : apart (magnitude (natToDouble n)) (n * parts) ≤ apart (magnitude b) (n * parts) := by
  by_cases h0 : n = 0
  · subst h0; rw [magnitude_zero]; simp [apart]
  by_cases hl : n.log2 ≤ 52
  · rw [natToDouble_small h0 hl]; simp [apart]
  · have hp : 0 < parts := parts_pos
    have hP : 0 < 2 ^ (n.log2 - 52) := Nat.pow_pos (by decide)
    rw [(natToDouble_large h0 (by omega)).2, apart_mul]
    by_cases hz : 2 ^ (n.log2 + 1022 + 52) ≤ magnitude b
    · obtain ⟨c, hc⟩ := magnitude_dvd hz
      rw [hc, ← parts_mul (by omega : 52 ≤ n.log2), Nat.mul_comm _ c, ← Nat.mul_assoc, apart_mul]
      exact Nat.mul_le_mul_right _ (rounded_near n _ c hP)
    · have h1 := rounded_near n (2 ^ (n.log2 - 52)) (2 ^ 52) hP
      have h2 := Nat.mul_le_mul_right parts h1
      rw [← apart_mul (2 ^ 52 * _) , Nat.mul_assoc, parts_mul (by omega : 52 ≤ n.log2), ← Nat.pow_add] at h2
      refine Nat.le_trans h2 ?_
      have h3 := Nat.mul_le_mul_right parts (Nat.log2_self_le h0)
      have e : 2 ^ n.log2 * parts = 2 ^ (n.log2 + 1022 + 52) := by
        exact pow_parts rfl
      rw [e] at h3
      rw [Nat.add_comm 52]
      exact apart_le h3 hz

/-- of two nearest doubles the even one -/
theorem natToDouble_even (n b : Nat) (h : apart (magnitude (natToDouble n)) (n * parts) = apart (magnitude b) (n * parts))
    (hne : magnitude b ≠ magnitude (natToDouble n)) : natToDouble n % 2 = 0 := by
  by_cases h0 : n = 0
  · subst h0; decide
  by_cases hl : n.log2 ≤ 52
  · rw [natToDouble_small h0 hl] at h hne
    unfold apart at h
    generalize n * parts = X at *
    omega
  · have hp : 0 < parts := parts_pos
    have hP : 0 < 2 ^ (n.log2 - 52) := Nat.pow_pos (by decide)
    have hm := (natToDouble_large h0 (by omega : 52 < n.log2)).2
    suffices rounded n (2 ^ (n.log2 - 52)) % 2 = 0 by
      rw [(natToDouble_large h0 (by omega : 52 < n.log2)).1]; omega
    by_cases hz : 2 ^ (n.log2 + 1022 + 52) ≤ magnitude b
    · obtain ⟨c, hc⟩ := magnitude_dvd hz
      have hc' : magnitude b = c * 2 ^ (n.log2 - 52) * parts := by
        rw [hc, ← parts_mul (by omega : 52 ≤ n.log2), Nat.mul_comm, ← Nat.mul_assoc]
      rw [hm, hc', apart_mul, apart_mul] at h
      refine rounded_even n _ c hP (Nat.eq_of_mul_eq_mul_right hp h) ?_
      rintro rfl
      exact hne (by rw [hm, hc'])
    · exfalso
      have h1 := rounded_near n (2 ^ (n.log2 - 52)) (2 ^ 52) hP
      have h2 := Nat.mul_le_mul_right parts h1
      rw [← apart_mul (2 ^ 52 * _) , Nat.mul_assoc, parts_mul (by omega : 52 ≤ n.log2), ← Nat.pow_add, ← apart_mul, ← hm, h] at h2
      have h3 := Nat.mul_le_mul_right parts (Nat.log2_self_le h0)
      have e : 2 ^ n.log2 * parts = 2 ^ (n.log2 + 1022 + 52) := by
        exact pow_parts rfl
      rw [e] at h3
      rw [Nat.add_comm 52] at h2
      exact Nat.not_le_of_lt (apart_lt h3 hz) h2

end Verif
