import Verif.Py.Basic
/-
Ints as decimal text.
-/
namespace Verif

/-- `str(n)` of an int `>= 0`: decimal digits -/
def natStr (n : Nat) : Str := Nat.toDigits 10 n

/-- `str(i)` of an int -/
def intStr (i : Int) : Str := if i < 0 then '-' :: natStr i.natAbs else natStr i.natAbs

theorem natStr_inj {i j : Nat} (h : natStr i = natStr j) : i = j := by
  have := congrArg (Nat.ofDigitChars 10 · 0) h
  simpa only [natStr, Nat.ofDigitChars_ten_toDigits] using this

theorem natStr_digits {n : Nat} {c : Char} (h : c ∈ natStr n) : c.isDigit = true :=
  Nat.isDigit_of_mem_toDigits (by decide) (by decide) h

theorem natStr_no {n : Nat} {c : Char} (hc : c.isDigit = false) : c ∉ natStr n := by
  intro h
  rw [natStr_digits h] at hc
  cases hc

theorem intStr_inj {i j : Int} (h : intStr i = intStr j) : i = j := by
  unfold intStr at h
  have hm : ∀ n, '-' ∉ natStr n := fun n => natStr_no (by decide)
  split at h <;> split at h
  · have := natStr_inj (List.cons.inj h).2; omega
  · exact (hm j.natAbs (by rw [← h]; exact List.mem_cons_self ..)).elim
  · exact (hm i.natAbs (by rw [h]; exact List.mem_cons_self ..)).elim
  · have := natStr_inj h; omega

theorem natStr_zero : natStr 0 = ['0'] := rfl

/-- a number's digits do not start with a zero unless it is zero -/
theorem natStr_head (n : Nat) : natStr n = ['0'] ∨ ∃ c l, natStr n = c :: l ∧ c.isDigit = true ∧ c ≠ '0' := by
  induction n using Nat.strongRecOn with
  | _ n ih =>
    by_cases h : n < 10
    · have : ∀ m : Fin 10, natStr m = ['0'] ∨ ((natStr m).head?.getD '0').isDigit = true ∧ (natStr m).head?.getD '0' ≠ '0' ∧
          natStr m ≠ [] := by decide
      rcases this ⟨n, h⟩ with h | ⟨h1, h2, h3⟩
      · exact .inl h
      · refine .inr ?_
        simp only at h1 h2 h3
        cases hn : natStr n with
        | nil => exact (h3 hn).elim
        | cons c l => rw [hn] at h1 h2; exact ⟨c, l, rfl, h1, h2⟩
    · have e : natStr n = natStr (n / 10) ++ [Nat.digitChar (n % 10)] := by
        unfold natStr; exact Nat.toDigits_of_base_le (by decide) (by omega)
      rcases ih (n / 10) (by omega) with h' | ⟨c, l, h1, h2, h3⟩
      · rw [← natStr_zero] at h'
        have := natStr_inj h'
        omega
      · exact .inr ⟨c, _, by rw [e, h1]; rfl, h2, h3⟩

end Verif
