import Verif.Proof.JavaDouble
import Verif.Props.JavaNode
/-
C97: reading and converting values of the Java library.
-/
set_option linter.unusedSimpArgs false
namespace Verif
open Spec (parts magnitude dValue Finite JAt JSound)

namespace Spec

/-- the number that digits are -/
def number (ds : JStr) : Nat := ds.foldl (fun a c => 10 * a + (c - 48)) 0

/-- a decimal number: digits behind an optional sign -/
def Decimal (s : JStr) (i : Int) : Prop :=
  ∃ ds : JStr, ds ≠ [] ∧ (∀ c ∈ ds, 48 ≤ c ∧ c ≤ 57) ∧
    (s = ds ∧ i = number ds ∨ s = 43 :: ds ∧ i = number ds ∨ s = 45 :: ds ∧ i = -(number ds : Int))

/-- the number of the range that is nearest -/
def nearestIn (lo hi i : Int) : Int := max lo (min hi i)

/-- no number -/
def IsNaN (f : UInt64) : Prop := 2047 * 2 ^ 52 < f.toNat % 2 ^ 63

/-- ASCII, with letters of either case -/
def SameLetters (s : JStr) (t : List (Nat × Nat)) : Prop := s.length = t.length ∧ ∀ p ∈ s.zip t, p.1 = p.2.1 ∨ p.1 = p.2.2

/-- the alphabet of Base64 (RFC 4648) -/
def alphabet : List Nat := "ABCDEFGHIJKLMNOPQRSTUVWXYZabcdefghijklmnopqrstuvwxyz0123456789+/".toList.map Char.toNat

/-- the number of a character -/
def sextet (c : Nat) : Option Nat := alphabet.findIdx? (fun x => x == c)

/-- four characters are three bytes, or two, or one -/
def quantum (a b c d : Nat) : Option Bytes := do
  let x ← sextet a
  let y ← sextet b
  if d = 61 then
    if c = 61 then return [.ofNat ((x * 2 ^ 6 + y) / 2 ^ 4)]
    else
      let z ← sextet c
      return [.ofNat ((x * 2 ^ 12 + y * 2 ^ 6 + z) / 2 ^ 10), .ofNat ((x * 2 ^ 12 + y * 2 ^ 6 + z) / 2 ^ 2 % 2 ^ 8)]
  else
    let z ← sextet c
    let w ← sextet d
    return [.ofNat ((x * 2 ^ 18 + y * 2 ^ 12 + z * 2 ^ 6 + w) / 2 ^ 16), .ofNat ((x * 2 ^ 18 + y * 2 ^ 12 + z * 2 ^ 6 + w) / 2 ^ 8 % 2 ^ 8),
      .ofNat ((x * 2 ^ 18 + y * 2 ^ 12 + z * 2 ^ 6 + w) % 2 ^ 8)]

/-- the bytes of a string in Base64 -/
def ofBase64 : JStr → Option Bytes
  | [] => some []
  | a :: b :: c :: d :: s => do return (← quantum a b c d) ++ (← ofBase64 s)
  | _ => none

end Spec

open Spec (number Decimal nearestIn IsNaN SameLetters sextet quantum ofBase64)

/-! ### decimal numbers -/

theorem jDigits_iff (ds : JStr) (a n : Nat) : jDigits a ds = .ok n ↔ (∀ c ∈ ds, 48 ≤ c ∧ c ≤ 57) ∧ n = ds.foldl (fun a c => 10 * a + (c - 48)) a := by
  induction ds generalizing a with
  | nil => simp [jDigits, eq_comm]
  | cons c ds ih =>
    unfold jDigits
    by_cases h : 48 ≤ c ∧ c ≤ 57
    · rw [if_pos h, ih, List.foldl_cons, Nat.mul_comm a 10]
      constructor
      · rintro ⟨h1, h2⟩
        exact ⟨by intro x hx; rcases List.mem_cons.mp hx with rfl | hx <;> first | exact h | exact h1 x hx, h2⟩
      · rintro ⟨h1, h2⟩
        exact ⟨fun x hx => h1 x (List.mem_cons_of_mem _ hx), h2⟩
    · rw [if_neg h]
      constructor
      · intro h'
        split at h' <;> cases h'
      · rintro ⟨h1, -⟩
        exact (h (h1 c (List.mem_cons_self ..))).elim

theorem numberIn_iff (lo hi i j : Int) : numberIn lo hi i = .ok j ↔ lo ≤ i ∧ i ≤ hi ∧ j = i := by
  unfold numberIn
  split
  · rename_i h
    exact ⟨fun e => ⟨h.1, h.2, (Except.ok.inj e).symm⟩, fun e => by rw [e.2.2]⟩
  · rename_i h
    exact ⟨fun e => (by cases e), fun e => (h ⟨e.1, e.2.1⟩).elim⟩

theorem jSigned_iff (lo hi sign : Int) (s : JStr) (i : Int) : jSigned lo hi sign s = .ok i ↔
    s ≠ [] ∧ (∀ c ∈ s, 48 ≤ c ∧ c ≤ 57) ∧ i = sign * number s ∧ lo ≤ i ∧ i ≤ hi := by
  unfold jSigned
  cases s with
  | nil => simp
  | cons c cs =>
    simp only
    cases h : jDigits 0 (c :: cs) with
    | error e =>
      constructor
      · intro h'; cases h'
      · rintro ⟨-, h1, -⟩
        have := (jDigits_iff (c :: cs) 0 (number (c :: cs))).mpr ⟨h1, rfl⟩
        rw [h] at this; cases this
    | ok n =>
      have h2 := (jDigits_iff (c :: cs) 0 n).mp h
      have hn : n = number (c :: cs) := h2.2
      simp only
      rw [numberIn_iff, hn]
      constructor
      · rintro ⟨h3, h4, rfl⟩
        exact ⟨by simp, h2.1, rfl, h3, h4⟩
      · rintro ⟨-, -, rfl, h3, h4⟩
        exact ⟨h3, h4, rfl⟩

/-- `parseInt` and `parseLong` read the decimal numbers in range, and nothing else -/
theorem jParse_iff (lo hi : Int) (s : JStr) (i : Int) : jParse lo hi s = .ok i ↔ Decimal s i ∧ lo ≤ i ∧ i ≤ hi := by
  unfold jParse Decimal
  cases s with
  | nil =>
    constructor
    · intro h; cases h
    · rintro ⟨⟨ds, h1, -, h | h | h⟩, -⟩
      · exact (h1 h.1.symm).elim
      · cases h.1
      · cases h.1
  | cons c cs =>
    simp only
    split
    · rename_i hc
      subst hc
      rw [jSigned_iff]
      constructor
      · rintro ⟨h1, h2, h3, h4⟩
        exact ⟨⟨cs, h1, h2, .inr (.inr ⟨rfl, by omega⟩)⟩, h4⟩
      · rintro ⟨⟨ds, h1, h2, ⟨h, h3⟩ | ⟨h, h3⟩ | ⟨h, h3⟩⟩, h4⟩
        · subst h; exact absurd (h2 45 (List.mem_cons_self ..)).1 (by decide)
        · simp at h
        · obtain ⟨-, rfl⟩ := List.cons.inj h
          exact ⟨h1, h2, by omega, h4⟩
    · rename_i hc
      split
      · rename_i hc'
        subst hc'
        rw [jSigned_iff]
        constructor
        · rintro ⟨h1, h2, h3, h4⟩
          exact ⟨⟨cs, h1, h2, .inr (.inl ⟨rfl, by omega⟩)⟩, h4⟩
        · rintro ⟨⟨ds, h1, h2, ⟨h, h3⟩ | ⟨h, h3⟩ | ⟨h, h3⟩⟩, h4⟩
          · subst h; exact absurd (h2 43 (List.mem_cons_self ..)).1 (by decide)
          · obtain ⟨-, rfl⟩ := List.cons.inj h
            exact ⟨h1, h2, by omega, h4⟩
          · simp at h
      · rename_i hc'
        rw [jSigned_iff]
        constructor
        · rintro ⟨h1, h2, h3, h4⟩
          exact ⟨⟨c :: cs, h1, h2, .inl ⟨rfl, by omega⟩⟩, h4⟩
        · rintro ⟨⟨ds, h1, h2, ⟨h, h3⟩ | ⟨h, h3⟩ | ⟨h, h3⟩⟩, h4⟩
          · subst h; exact ⟨h1, h2, by omega, h4⟩
          · exact (hc' (List.cons.inj h).1).elim
          · exact (hc (List.cons.inj h).1).elim

theorem natStr_number (n : Nat) : number ((natStr n).map Char.toNat) = n := by
  have h : number ((natStr n).map Char.toNat) = Nat.ofDigitChars 10 (natStr n) 0 := by
    unfold number
    rw [Nat.ofDigitChars_eq_foldl, List.foldl_map]
    rfl
  rw [h, natStr, Nat.ofDigitChars_ten_toDigits]

theorem natStr_ne (n : Nat) : natStr n ≠ [] := by
  rcases natStr_head n with h | ⟨c, l, h, -⟩ <;> rw [h] <;> simp

theorem jPrint_decimal (i : Int) : Decimal (jPrint i) i := by
  refine ⟨(natStr i.natAbs).map Char.toNat, by simpa using natStr_ne _, ?_, ?_⟩
  · intro c hc
    obtain ⟨x, hx, rfl⟩ := List.mem_map.mp hc
    have := natStr_digits hx
    simp only [Char.isDigit, Bool.and_eq_true, decide_eq_true_eq, ge_iff_le, UInt32.le_iff_toNat_le] at this
    exact this
  · rw [natStr_number]
    unfold jPrint intStr
    split
    · exact .inr (.inr ⟨rfl, by omega⟩)
    · exact .inl ⟨rfl, by omega⟩

theorem utf16_ascii (s : Str) (h : ∀ c ∈ s, c.toNat < 0x10000) : utf16 s = s.map Char.toNat := by
  induction s with
  | nil => rfl
  | cons c s ih =>
    have hc : utf16Char c = [c.toNat] := by
      unfold utf16Char
      rw [if_pos (h c (List.mem_cons_self ..))]
    show utf16Char c ++ utf16 s = _
    rw [hc, ih (fun x hx => h x (List.mem_cons_of_mem _ hx))]
    rfl

theorem utf16_intStr (i : Int) : utf16 (intStr i) = jPrint i := by
  apply utf16_ascii
  intro c hc
  have hd : ∀ c ∈ natStr i.natAbs, c.toNat < 0x10000 := by
    intro c hc
    have := natStr_digits hc
    simp only [Char.isDigit, Bool.and_eq_true, decide_eq_true_eq, ge_iff_le, UInt32.le_iff_toNat_le] at this
    have h2 : c.toNat ≤ 57 := this.2
    omega
  unfold intStr at hc
  split at hc
  · rcases List.mem_cons.mp hc with rfl | hc
    · decide
    · exact hd c hc
  · exact hd c hc

/-! ### doubles -/

theorem intToDouble_toNat {i : Int} (h : i.natAbs < 2 ^ 64) : (intToDouble i).toNat = natToDouble i.natAbs + if i < 0 then 2 ^ 63 else 0 := by
  unfold intToDouble
  have := natToDouble_bound h
  rw [UInt64.toNat_ofNat_of_lt']
  show _ < 2 ^ 64
  split <;> omega

theorem intToDouble_value {i : Int} (h : i.natAbs < 2 ^ 64) : (intToDouble i).toNat % 2 ^ 63 = natToDouble i.natAbs ∧
    dValue (intToDouble i) = if i < 0 then -(magnitude (natToDouble i.natAbs) : Int) else magnitude (natToDouble i.natAbs) := by
  have hb := natToDouble_bound h
  have e := intToDouble_toNat h
  have e1 : (intToDouble i).toNat % 2 ^ 63 = natToDouble i.natAbs := by rw [e]; split <;> omega
  refine ⟨e1, ?_⟩
  unfold dValue
  rw [e1]
  by_cases hi : i < 0
  · rw [if_pos hi, if_pos (by rw [e, if_pos hi]; omega)]
  · rw [if_neg hi, if_neg (by rw [e, if_neg hi]; omega)]

theorem intToDouble_finite {i : Int} (h : i.natAbs < 2 ^ 64) : Finite (intToDouble i) := by
  have hb := natToDouble_bound h
  unfold Finite
  rw [(intToDouble_value h).1]
  omega

theorem intToDouble_exact {i : Int} (h : i.natAbs ≤ 2 ^ 53) : dValue (intToDouble i) = i * parts := by
  rw [(intToDouble_value (by omega)).2, natToDouble_exact h, Int.natCast_mul]
  split
  · rw [← Int.neg_mul]; congr 1; omega
  · congr 1; omega

theorem dToInt_eq {lo hi : Int} (h0 : lo ≤ 0) (h1 : 0 ≤ hi) (f : UInt64) : (IsNaN f → dToInt lo hi f = 0) ∧
    (¬ IsNaN f → dToInt lo hi f = nearestIn lo hi (Int.tdiv (dValue f) parts)) := by
  have hm : f.toNat % 2 ^ 63 < 2 ^ 63 := Nat.mod_lt _ (by decide)
  have hd : f.toNat % 2 ^ 63 % 2 ^ 52 = dFrac f := Nat.mod_mod_of_dvd _ ⟨2 ^ 11, by decide⟩
  have hn : IsNaN f ↔ dExp f = 2047 ∧ dFrac f ≠ 0 := by
    unfold IsNaN dExp
    rw [← hd]
    omega
  unfold dToInt
  refine ⟨fun h => by rw [if_pos (hn.mp h)], fun h => ?_⟩
  rw [if_neg (fun h' => h (hn.mpr h')), magnitude_trunc]
  have ht : Int.tdiv (dValue f) parts = if dNeg f then -((magnitude (f.toNat % 2 ^ 63) / parts : Nat) : Int) else (magnitude (f.toNat % 2 ^ 63) / parts : Nat) := by
    unfold dValue dNeg
    by_cases hs : 2 ^ 63 ≤ f.toNat
    · rw [if_pos hs, if_pos (by simpa using hs), Int.neg_tdiv, Int.ofNat_tdiv]
    · rw [if_neg hs, if_neg (by simpa using hs), Int.ofNat_tdiv]
  rw [ht]
  generalize (if dNeg f then -((magnitude (f.toNat % 2 ^ 63) / parts : Nat) : Int) else (magnitude (f.toNat % 2 ^ 63) / parts : Nat)) = i
  simp only
  unfold nearestIn
  split
  · omega
  · split <;> omega

theorem finite_not_nan {f : UInt64} (h : Finite f) : ¬ IsNaN f := by
  unfold Finite at h
  unfold IsNaN
  have hm : f.toNat % 2 ^ 63 < 2 ^ 63 := Nat.mod_lt _ (by decide)
  omega

/-! ### Base64 -/

theorem b64_sextet : ∀ n : Fin 64, sextet (b64Char n) = some n.1 ∧ b64Char n ≠ 61 := by decide

theorem b64_ok {n : Nat} (h : n < 64) : sextet (b64Char n) = some n ∧ b64Char n ≠ 61 := b64_sextet ⟨n, h⟩

theorem b64_ofNat {a : UInt8} {n : Nat} (h : n = a.toNat) : UInt8.ofNat n = a := by subst h; exact UInt8.ofNat_toNat

theorem base64_back : ∀ bs : Bytes, ofBase64 (base64 bs) = some bs
  | [] => rfl
  | [a] => by
    have ha := a.toNat_lt
    simp only [base64, ofBase64, quantum, (b64_ok (show a.toNat / 4 < 64 by omega)).1, (b64_ok (show a.toNat % 4 * 16 < 64 by omega)).1, ↓reduceIte, Option.bind_eq_bind,
      Option.bind_some, Option.pure_def, List.append_nil]
    rw [b64_ofNat (a := a) (by omega)]
  | [a, b] => by
    have ha := a.toNat_lt
    have hb := b.toNat_lt
    have h3 := b64_ok (show b.toNat % 16 * 4 < 64 by omega)
    simp only [base64, ofBase64, quantum, (b64_ok (show a.toNat / 4 < 64 by omega)).1, (b64_ok (show a.toNat % 4 * 16 + b.toNat / 16 < 64 by omega)).1, h3.1, ↓reduceIte,
      if_neg h3.2, Option.bind_eq_bind, Option.bind_some, Option.pure_def, List.append_nil]
    rw [b64_ofNat (a := a) (by omega), b64_ofNat (a := b) (by omega)]
  | a :: b :: c :: bs => by
    have ha := a.toNat_lt
    have hb := b.toNat_lt
    have hc := c.toNat_lt
    have h4 := b64_ok (show c.toNat % 64 < 64 by omega)
    simp only [base64, ofBase64, quantum, (b64_ok (show a.toNat / 4 < 64 by omega)).1, (b64_ok (show a.toNat % 4 * 16 + b.toNat / 16 < 64 by omega)).1,
      (b64_ok (show b.toNat % 16 * 4 + c.toNat / 64 < 64 by omega)).1, h4.1, if_neg h4.2, Option.bind_eq_bind, Option.bind_some, Option.pure_def, base64_back bs]
    rw [b64_ofNat (a := a) (by omega), b64_ofNat (a := b) (by omega), b64_ofNat (a := c) (by omega)]
    rfl

theorem base64_length : ∀ bs : Bytes, (base64 bs).length = 4 * ((bs.length + 2) / 3)
  | [] => rfl
  | [a] => by simp [base64]
  | [a, b] => by simp [base64]
  | a :: b :: c :: bs => by
    simp only [base64, List.length_cons, base64_length bs]
    omega

/-! ### the claims -/

/-- a field that has not been set reads as null: zero, false, the empty string and no bytes; it is no node, nodes or span -/
theorem C97_missing (d : JDoc) (n : Nat) (f : Str) (h : f ∉ dkeys (d.data n)) :
    d.has n f = false ∧ d.get n f = .null ∧ d.stringValue (d.get n f) = .ok (some []) ∧ d.intValue (d.get n f) = .ok 0 ∧ d.longValue (d.get n f) = .ok 0 ∧
    d.doubleValue (d.get n f) = .ok 0 ∧ d.boolValue (d.get n f) = .ok false ∧ JDoc.binaryValue (d.get n f) = .ok [] ∧
    JDoc.nodeValue (d.get n f) = .error .attribute ∧ JDoc.spanValue (d.get n f) = .error .attribute := by
  have hd : dget (d.data n) f = none := by
    cases hd : dget (d.data n) f with
    | none => rfl
    | some v => exact absurd ((dget_isSome_iff _ _).mp (by rw [hd]; rfl)) h
  have hg : d.get n f = .null := by simp only [JDoc.get, hd, Option.getD_none]
  rw [hg]
  exact ⟨by simp only [JDoc.has, hd, Option.isSome_none], rfl, rfl, rfl, rfl, rfl, rfl, rfl, rfl, rfl⟩

/-- what is put into a field is what is read from it; other fields and nodes are as before -/
theorem C97_put_get (d : JDoc) (n m : Nat) (f g : Str) (v : JVal) : (d.put n f v).get m g = if m = n ∧ g = f then v else d.get m g := by
  unfold JDoc.get JDoc.put
  simp only
  by_cases h : m = n
  · subst h
    rw [if_pos rfl, dget_tput]
    by_cases hg : f = g
    · subst hg; rw [if_pos rfl, if_pos ⟨rfl, rfl⟩]; rfl
    · rw [if_neg hg, if_neg (fun h => hg h.2.symm)]
  · rw [if_neg h, if_neg (fun h' => h h'.1)]

/-- a value that is made of something gives it back -/
theorem C97_same (d : JDoc) : (∀ i v, d.valueOf (.int i) = .ok v → d.intValue v = .ok i) ∧ (∀ i v, d.valueOf (.long i) = .ok v → d.longValue v = .ok i) ∧
    (∀ x v, d.valueOf (.double x) = .ok v → d.doubleValue v = .ok x) ∧ (∀ b v, d.valueOf (.bool b) = .ok v → d.boolValue v = .ok b) ∧
    (∀ s v, d.valueOf (.string s) = .ok v → d.stringValue v = .ok (some (utf16 s))) ∧ (∀ b v, d.valueOf (.bytes b) = .ok v → JDoc.binaryValue v = .ok b) ∧
    (∀ ns v, d.valueOf (.array ns) = .ok v ∨ d.valueOf (.list ns) = .ok v → d.nodeArrayValue v = .ok ns) ∧
    (∀ n, d.valueOf (.value (.node n)) = .ok (.node n) ∧ JDoc.nodeValue (.node n) = .ok n) ∧
    (∀ c p, d.valueOf (.value (.span c p)) = .ok (.span c p) ∧ JDoc.spanValue (.span c p) = .ok (c, p)) := by
  refine ⟨?_, ?_, ?_, ?_, ?_, ?_, ?_, fun _ => ⟨rfl, rfl⟩, fun _ _ => ⟨rfl, rfl⟩⟩
  · intro i v h; cases h; rfl
  · intro i v h; cases h; rfl
  · intro i v h; cases h; rfl
  · intro i v h; cases h; cases i <;> rfl
  · intro i v h; cases h; rfl
  · intro i v h; cases h; rfl
  · intro ns v h
    cases ns with
    | nil => rcases h with h | h <;> cases h
    | cons n ns =>
      rcases h with h | h
      · simp only [JDoc.valueOf, JDoc.arrayOf] at h
        split at h <;> cases h
        rfl
      · cases h; rfl

/-- strings are numbers if they are decimal numbers in range -/
theorem C97_parse (d : JDoc) (s : Str) (i : Int) : (d.intValue (.str s) = .ok i ↔ Decimal (utf16 s) i ∧ intMin ≤ i ∧ i ≤ intMax) ∧
    (d.longValue (.str s) = .ok i ↔ Decimal (utf16 s) i ∧ longMin ≤ i ∧ i ≤ longMax) :=
  ⟨jParse_iff intMin intMax (utf16 s) i, jParse_iff longMin longMax (utf16 s) i⟩

/-- and so is the text of a span -/
theorem C97_parse_span (d : JDoc) {c : Str} {p : JSpan} {u : JText} {s : JStr} (hu : dget d.texts c = some u) (hs : u.str p = .ok s) (i : Int) :
    (d.intValue (.span c p) = .ok i ↔ Decimal s i ∧ intMin ≤ i ∧ i ≤ intMax) ∧ (d.longValue (.span c p) = .ok i ↔ Decimal s i ∧ longMin ≤ i ∧ i ≤ longMax) := by
  have e : d.stringValue (.span c p) = .ok (some s) := by simp only [JDoc.stringValue, hu, hs]; rfl
  constructor
  · show d.parsed intMin intMax (.span c p) = .ok i ↔ _
    unfold JDoc.parsed
    rw [e]
    exact jParse_iff intMin intMax s i
  · show d.parsed longMin longMax (.span c p) = .ok i ↔ _
    unfold JDoc.parsed
    rw [e]
    exact jParse_iff longMin longMax s i

/-- the string of an int, long or bool is a decimal number or "true" or "false", and the value that is made of it is the same -/
theorem C97_print (d : JDoc) (i : Int) (b : Bool) {s : Str} :
    (∀ v, v = .int i ∨ v = .long i → ∃ u, d.stringValue v = .ok (some u) ∧ Decimal u i) ∧
    (d.stringValue (.int i) = .ok (some (utf16 s)) → intMin ≤ i → i ≤ intMax → d.intValue (.str s) = .ok i) ∧
    (d.stringValue (.long i) = .ok (some (utf16 s)) → longMin ≤ i → i ≤ longMax → d.longValue (.str s) = .ok i) ∧
    (d.stringValue (.bool b) = .ok (some (utf16 s)) → d.boolValue (.str s) = .ok b) := by
  refine ⟨?_, ?_, ?_, ?_⟩
  · rintro v (rfl | rfl) <;> exact ⟨_, rfl, jPrint_decimal i⟩
  · intro h h1 h2
    refine (C97_parse d s i).1.mpr ⟨?_, h1, h2⟩
    rw [← Option.some.inj (Except.ok.inj h)]
    exact jPrint_decimal i
  · intro h h1 h2
    refine (C97_parse d s i).2.mpr ⟨?_, h1, h2⟩
    rw [← Option.some.inj (Except.ok.inj h)]
    exact jPrint_decimal i
  · intro h
    have e := Option.some.inj (Except.ok.inj h)
    simp only [JDoc.boolValue, JDoc.stringValue, ← e]
    cases b <;> decide

/-- an int is the same long and the same double, and these are the same int; a long is the same int if it is one -/
theorem C97_widen (d : JDoc) {i : Int} (h1 : intMin ≤ i) (h2 : i ≤ intMax) : d.longValue (.int i) = .ok i ∧ d.intValue (.long i) = .ok i ∧
    ∃ f, d.doubleValue (.int i) = .ok f ∧ d.doubleValue (.long i) = .ok f ∧ Finite f ∧ dValue f = i * parts ∧ d.intValue (.double f) = .ok i ∧ d.longValue (.double f) = .ok i := by
  unfold intMin at h1
  unfold intMax at h2
  have hv := intToDouble_exact (i := i) (by omega)
  have hf := intToDouble_finite (i := i) (by omega)
  have ht : Int.tdiv (dValue (intToDouble i)) parts = i := by
    rw [hv, Int.mul_tdiv_cancel]
    have := parts_pos
    omega
  refine ⟨rfl, ?_, _, rfl, rfl, hf, hv, ?_, ?_⟩
  · show Except.ok (wrap32 i) = .ok i
    unfold wrap32
    congr 1
    omega
  · show Except.ok _ = _
    rw [(dToInt_eq (by decide) (by decide) _).2 (finite_not_nan hf), ht]
    unfold nearestIn intMin intMax
    congr 1
    omega
  · show Except.ok _ = _
    rw [(dToInt_eq (by decide) (by decide) _).2 (finite_not_nan hf), ht]
    unfold nearestIn longMin longMax
    congr 1
    omega

/-- longs up to 2^53 are the same double, and this is the same long -/
theorem C97_exact (d : JDoc) {i : Int} (h1 : -2 ^ 53 ≤ i) (h2 : i ≤ 2 ^ 53) :
    ∃ f, d.doubleValue (.long i) = .ok f ∧ Finite f ∧ dValue f = i * parts ∧ d.longValue (.double f) = .ok i := by
  have hv := intToDouble_exact (i := i) (by omega)
  have hf := intToDouble_finite (i := i) (by omega)
  have ht : Int.tdiv (dValue (intToDouble i)) parts = i := by
    rw [hv, Int.mul_tdiv_cancel]
    have := parts_pos
    omega
  refine ⟨_, rfl, hf, hv, ?_⟩
  show Except.ok _ = _
  rw [(dToInt_eq (by decide) (by decide) _).2 (finite_not_nan hf), ht]
  unfold nearestIn longMin longMax
  congr 1
  omega

theorem apart_int (a b : Nat) : ((a : Int) - b).natAbs = apart a b := by unfold apart; omega

/-- the double of a long is a nearest one, and of two nearest the one with an even fraction -/
theorem C97_nearest (d : JDoc) {i : Int} (h1 : longMin ≤ i) (h2 : i ≤ longMax) :
    ∃ f, d.doubleValue (.long i) = .ok f ∧ Finite f ∧ ∀ g, (dValue f - i * parts).natAbs ≤ (dValue g - i * parts).natAbs ∧
      ((dValue f - i * parts).natAbs = (dValue g - i * parts).natAbs → dValue g ≠ dValue f → f.toNat % 2 = 0) := by
  unfold longMin at h1
  unfold longMax at h2
  have hb : i.natAbs < 2 ^ 64 := by omega
  have hv := (intToDouble_value hb).2
  have hm := intToDouble_toNat hb
  have hn := natToDouble_near i.natAbs
  have he := natToDouble_even i.natAbs
  have h0 := hn 0
  have hz : magnitude 0 = 0 := by decide
  rw [hz] at h0
  refine ⟨_, rfl, intToDouble_finite hb, fun g => ?_⟩
  have hng := hn (g.toNat % 2 ^ 63)
  have heg := he (g.toNat % 2 ^ 63)
  have hpar : (natToDouble i.natAbs + if i < 0 then 2 ^ 63 else 0) % 2 = natToDouble i.natAbs % 2 := by split <;> omega
  rw [hv, hm, hpar]
  unfold dValue
  have hx : i * parts = if i < 0 then -((i.natAbs * parts : Nat) : Int) else ((i.natAbs * parts : Nat) : Int) := by
    rw [Int.natCast_mul]
    split
    · rw [← Int.neg_mul]; congr 1; omega
    · congr 1; omega
  rw [hx]
  generalize i.natAbs * parts = X at *
  generalize magnitude (natToDouble i.natAbs) = A at *
  generalize magnitude (g.toNat % 2 ^ 63) = B at *
  generalize natToDouble i.natAbs % 2 = P at *
  unfold apart at *
  by_cases hi : i < 0 <;> by_cases hg : 2 ^ 63 ≤ g.toNat
  · rw [if_pos hi, if_pos hi, if_pos hg]
    exact ⟨by omega, fun e1 e2 => heg (by omega) (by omega)⟩
  · rw [if_pos hi, if_pos hi, if_neg hg]
    exact ⟨by omega, fun e1 e2 => heg (by omega) (by omega)⟩
  · rw [if_neg hi, if_neg hi, if_pos hg]
    exact ⟨by omega, fun e1 e2 => heg (by omega) (by omega)⟩
  · rw [if_neg hi, if_neg hi, if_neg hg]
    exact ⟨by omega, fun e1 e2 => heg (by omega) (by omega)⟩

/-- the int of a long is the int that is the same up to multiples of 2^32 -/
theorem C97_narrow (d : JDoc) (i : Int) : ∃ j, d.intValue (.long i) = .ok j ∧ intMin ≤ j ∧ j ≤ intMax ∧ (2 ^ 32 : Int) ∣ i - j ∧ (j = i ↔ intMin ≤ i ∧ i ≤ intMax) := by
  refine ⟨_, rfl, ?_⟩
  unfold wrap32 intMin intMax
  refine ⟨by omega, by omega, ⟨(i + 0x80000000) / 0x100000000, by omega⟩, by omega⟩

/-- the int or long of a double is the part before the point, or the least or greatest; of a NaN it is zero -/
theorem C97_truncate (d : JDoc) (f : UInt64) : (IsNaN f → d.intValue (.double f) = .ok 0 ∧ d.longValue (.double f) = .ok 0) ∧
    (¬ IsNaN f → d.intValue (.double f) = .ok (nearestIn intMin intMax (Int.tdiv (dValue f) parts)) ∧
      d.longValue (.double f) = .ok (nearestIn longMin longMax (Int.tdiv (dValue f) parts))) := by
  have hi := dToInt_eq (lo := intMin) (hi := intMax) (by decide) (by decide) f
  have hl := dToInt_eq (lo := longMin) (hi := longMax) (by decide) (by decide) f
  exact ⟨fun h => ⟨congrArg Except.ok (hi.1 h), congrArg Except.ok (hl.1 h)⟩, fun h => ⟨congrArg Except.ok (hi.2 h), congrArg Except.ok (hl.2 h)⟩⟩

/-- bytes are written in Base64, and behind the name of the type if they are of an extension -/
theorem C97_base64 (d : JDoc) (b : Bytes) (t : Str) : ∃ s, d.stringValue (.bin b) = .ok (some s) ∧ ofBase64 s = some b ∧ s.length = 4 * ((b.length + 2) / 3) ∧
    d.stringValue (.ext t b) = .ok (some (utf16 t ++ 58 :: s)) :=
  ⟨_, rfl, base64_back b, base64_length b, by show Except.ok (some (utf16 t ++ [58] ++ base64 b)) = _; rw [List.append_assoc]; rfl⟩

/-- a string is true if it is "true" in letters of any case -/
theorem C97_bool_string (d : JDoc) (s : Str) : ∃ b, d.boolValue (.str s) = .ok b ∧ (b = true ↔ SameLetters (utf16 s) [(116, 84), (114, 82), (117, 85), (101, 69)]) := by
  refine ⟨_, rfl, ?_⟩
  have hl : ∀ c x, 97 ≤ x → x ≤ 122 → (jLower c = x ↔ c = x ∨ c = x - 32) := by
    intro c x h1 h2
    unfold jLower
    split <;> omega
  have e : lit "true" = [116, 114, 117, 101] := rfl
  unfold jParseBool SameLetters
  rw [decide_eq_true_iff, e]
  generalize utf16 s = u
  match u with
  | [] => simp
  | [_] => simp
  | [_, _] => simp
  | [_, _, _] => simp
  | [a, b, c, x] =>
    simp [hl a 116 (by decide) (by decide), hl b 114 (by decide) (by decide), hl c 117 (by decide) (by decide), hl x 101 (by decide) (by decide)]
  | _ :: _ :: _ :: _ :: _ :: _ => simp

/-- the text of a NodeSpan whose nodes have spans in one text: from where the left one starts to where the right one stops -/
theorem C97_nodespan_string (d : JDoc) {l r : Nat} {k c : Str} {L : JLay} {t : JType} {u : JText} {p q : JSpan} (hk : d.layerName l = some k) (hL : dget d.layers k = some L)
    (ht : dget L.fields "text".toList = some t) (hs : t.name = .span) (hl : dget (d.data l) "text".toList = some (.span c p))
    (hr : dget (d.data r) "text".toList = some (.span c q)) (hu : dget d.texts c = some u) :
    (0 ≤ u.start p ∧ u.start p ≤ u.stop q ∧ u.stop q ≤ u.text.length →
      d.stringValue (.nodespan l r) = .ok (some ((u.text.take (u.stop q).toNat).drop (u.start p).toNat))) ∧
    (¬ (0 ≤ u.start p ∧ u.start p ≤ u.stop q ∧ u.stop q ≤ u.text.length) → d.stringValue (.nodespan l r) = .error .index) := by
  have e : d.stringValue (.nodespan l r) = (substring u.text (u.start p) (u.stop q)).map some := by
    simp only [JDoc.stringValue, JDoc.nodeSpanString, JDoc.has, hl, hr, Option.isSome_some, Bool.and_self, if_true, JDoc.textType, hk, Option.bind_some, hL, ht, hs, JDoc.get,
      Option.getD_some, JDoc.spanValue, JDoc.coverString, hu]
  rw [e]
  unfold substring
  constructor
  · intro h
    rw [if_neg (by omega)]
    rfl
  · intro h
    rw [if_pos (by omega)]
    rfl

/-- the nodes of a NodeSpan: those of the layer from the left to the right one, if the layer has no gaps -/
theorem C97_nodespan_nodes (d : JDoc) (hs : JSound d) (hi : ∀ k i n, JAt d k i n → d.ids n = i) {k : Str} {L : JLay} {i j l r : Nat} (hL : dget d.layers k = some L)
    (hg : L.storage = L.nodes.map some) (h1 : JAt d k i l) (h2 : JAt d k j r) (hij : i ≤ j) :
    ∃ ns, d.nodeArrayValue (.nodespan l r) = .ok ns ∧ ns.length = j - i + 1 ∧ ∀ m n, ns[m]? = some n → JAt d k (i + m) n := by
  have hk : d.layerName l = some k := (layerName_some hs).mpr ⟨i, h1⟩
  have e1 := hi k i l h1
  have e2 := hi k j r h2
  obtain ⟨L1, hL1, g1⟩ := h1
  obtain ⟨L2, hL2, g2⟩ := h2
  rw [hL] at hL1 hL2
  cases hL1
  cases hL2
  have hj : j < L.nodes.length := (List.getElem?_eq_some_iff.mp g2).1
  have hlen : L.storage.length = L.nodes.length := by rw [hg, List.length_map]
  refine ⟨(L.nodes.take (j + 1)).drop i, ?_, ?_, ?_⟩
  · have hr : r ∈ L.nodes := List.mem_of_getElem? g2
    simp only [JDoc.nodeArrayValue, JDoc.nodespanOf, hk, Option.bind_some, hL, hr, not_true_eq_false, if_false, e1, e2]
    rw [if_neg (by omega), if_neg (by omega), hg]
    have : ((j : Int).toNat + 1) = j + 1 := rfl
    rw [this, Int.toNat_natCast, ← List.map_take, ← List.map_drop, List.filterMap_map]
    exact congrArg Except.ok (List.filterMap_some ..)
  · rw [List.length_drop, List.length_take]; omega
  · intro m n h
    refine ⟨L, hL, ?_⟩
    rw [List.getElem?_drop, List.getElem?_take] at h
    split at h
    · exact h
    · cases h

/-- that it holds of all numbers and values: numbers that are not zero are true and others are not, and there is a string -/
def C97_full : Prop := ∀ d : JDoc, (∀ i v, v = JVal.int i ∨ v = .long i → ∃ b, d.boolValue v = .ok b ∧ (b = true ↔ i ≠ 0)) ∧
  (∀ f, ∃ b, d.boolValue (.double f) = .ok b ∧ (b = true ↔ dValue f ≠ 0)) ∧ ∀ v, d.stringValue v ≠ .ok none

/-- ints and longs are true if they are not zero, bools if they are; all other values but doubles have a string -/
theorem C97_bool_partial (d : JDoc) : (∀ i v, v = JVal.int i ∨ v = .long i → ∃ b, d.boolValue v = .ok b ∧ (b = true ↔ i ≠ 0)) ∧
    (∀ b v, v = JVal.int (if b then 1 else 0) ∨ v = .long (if b then 1 else 0) ∨ v = .bool b → d.boolValue v = .ok b) ∧
    ∀ v, (∀ f, v ≠ .double f) → d.stringValue v ≠ .ok none := by
  refine ⟨?_, ?_, ?_⟩
  · rintro i v (rfl | rfl) <;> exact ⟨_, rfl, by simp⟩
  · rintro b v (rfl | rfl | rfl) <;> cases b <;> rfl
  · intro v h
    cases v with
    | double f => exact (h f rfl).elim
    | span c p =>
      simp only [JDoc.stringValue]
      cases dget d.texts c with
      | none => simp
      | some u => simp only; cases u.str p <;> simp [Except.map]
    | node n => simp only [JDoc.stringValue]; cases d.nodeString n <;> simp [Except.map]
    | nodespan l r => simp only [JDoc.stringValue]; cases d.nodeSpanString l r <;> simp [Except.map]
    | nodes ns =>
      cases ns with
      | nil => simp [JDoc.stringValue]
      | cons n ns => simp only [JDoc.stringValue]; cases d.layerName n <;> simp
    | _ => simp [JDoc.stringValue]

/-- a double is true if it is at most 1e-12 from zero, and has no string -/
theorem C97_double_bool (d : JDoc) (f : UInt64) : d.stringValue (.double f) = .ok none ∧
    ∃ b, d.boolValue (.double f) = .ok b ∧ (b = true ↔ (dValue f).natAbs ≤ (dValue (.ofNat dEps)).natAbs) := by
  refine ⟨rfl, _, rfl, ?_⟩
  have ha : ∀ g, (dValue g).natAbs = magnitude (g.toNat % 2 ^ 63) := by
    intro g
    unfold dValue
    split <;> omega
  have he : (UInt64.ofNat dEps).toNat % 2 ^ 63 = dEps := by decide
  unfold dSmall
  rw [decide_eq_true_iff, ha, ha, he, magnitude_le]

theorem C97_double_fails : (∀ d : JDoc, d.boolValue (.double 0) = .ok true) ∧ (∀ d : JDoc, d.boolValue (.double (intToDouble 1)) = .ok false) := by
  exact ⟨fun _ => rfl, fun _ => by show Except.ok (dSmall (intToDouble 1)) = _; decide +kernel⟩

theorem C97_full_false : ¬ C97_full := by
  intro h
  exact (h .new).2.2 (.double 0) rfl

namespace Ex

/-- a document with a number in its text -/
def numDoc : JDoc := { JDoc.new with texts := [("t".toList, ⟨lit "x-42", true, [⟨0, 1, 0⟩, ⟨0, 4, 0⟩], [(1, 0), (4, 1)]⟩)] }

/-- a node with a field "text" that its layer does not declare -/
def bareDoc : JDoc := { JDoc.new with layers := [("a".toList, ⟨[], [some 0], 1⟩)], data := fun _ => [("text".toList, .str "x".toList)] }

theorem jdoc_ids : jdoc.ids 7 = 0 ∧ jdoc.ids 9 = 1 := by decide +kernel

theorem jdoc_at {k : Str} {i n : Nat} (h : JAt jdoc k i n) : jdoc.ids n = i := by
  obtain ⟨L, h1, h2⟩ := h
  rw [jdoc_layers] at h1
  have hn : jlay.nodes = [7, 9] := by decide
  simp only [dget] at h1
  split at h1
  · rw [← Option.some.inj h1, hn] at h2
    match i, h2 with
    | 0, h2 => rw [← Option.some.inj h2]; exact jdoc_ids.1
    | 1, h2 => rw [← Option.some.inj h2]; exact jdoc_ids.2
    | i + 2, h2 => simp at h2
  · cases h1

end Ex

example : Ex.jdoc.get 7 "colour".toList = .null ∧ Ex.jdoc.get 9 "head".toList ≠ .null :=
  ⟨(C97_missing Ex.jdoc 7 "colour".toList (by decide +kernel)).2.1, by decide +kernel⟩

example : (Ex.jdoc.put 7 "id".toList (.int 6)).get 7 "id".toList = .int 6 ∧ (Ex.jdoc.put 7 "id".toList (.int 6)).get 9 "head".toList = .node 7 := by
  constructor
  · rw [C97_put_get]; rfl
  · rw [C97_put_get]; decide +kernel

example : Ex.jdoc.nodeArrayValue (.nodes [7, 9]) = .ok [7, 9] := (C97_same Ex.jdoc).2.2.2.2.2.2.1 [7, 9] _ (.inr rfl)

example : Ex.jdoc.intValue (.str "+0042".toList) = .ok 42 := (C97_parse Ex.jdoc "+0042".toList 42).1.mpr ⟨⟨lit "0042", by decide, by decide, .inr (.inl ⟨rfl, rfl⟩)⟩, by decide, by decide⟩

example : Ex.jdoc.intValue (.str "2147483648".toList) ≠ .ok 2147483648 := fun h => absurd ((C97_parse Ex.jdoc _ _).1.mp h).2.2 (by decide)

example : Ex.numDoc.longValue (.span "t".toList (0, 1)) = .ok (-42) :=
  (C97_parse_span Ex.numDoc (c := "t".toList) (p := (0, 1)) (s := lit "-42") rfl rfl (-42)).2.mpr ⟨⟨lit "42", by decide, by decide, .inr (.inr ⟨rfl, rfl⟩)⟩, by decide, by decide⟩

example : Ex.jdoc.intValue (.str "-42".toList) = .ok (-42) := (C97_print Ex.jdoc (-42) true (s := "-42".toList)).2.1 rfl (by decide) (by decide)

example : Ex.jdoc.boolValue (.str "true".toList) = .ok true := (C97_print Ex.jdoc 0 true (s := "true".toList)).2.2.2 rfl

example : Ex.jdoc.intValue (.long 5) = .ok 5 ∧ ∃ f, Ex.jdoc.doubleValue (.int 5) = .ok f ∧ Ex.jdoc.intValue (.double f) = .ok 5 := by
  obtain ⟨-, h, f, h1, -, -, -, h2, -⟩ := C97_widen Ex.jdoc (i := 5) (by decide) (by decide)
  exact ⟨h, f, h1, h2⟩

example : ∃ f, Ex.jdoc.doubleValue (.long (-2 ^ 53)) = .ok f ∧ Ex.jdoc.longValue (.double f) = .ok (-2 ^ 53) := by
  obtain ⟨f, h1, -, -, h2⟩ := C97_exact Ex.jdoc (i := -2 ^ 53) (by decide) (by decide)
  exact ⟨f, h1, h2⟩

/-- above 2^53 longs are rounded, to the even fraction if two are equally near -/
example : dToInt longMin longMax (intToDouble (2 ^ 53 + 1)) = 2 ^ 53 ∧ dToInt longMin longMax (intToDouble (2 ^ 53 + 3)) = 2 ^ 53 + 4 := by decide +kernel

example : ∃ f, Ex.jdoc.doubleValue (.long (2 ^ 53 + 1)) = .ok f ∧ Finite f ∧ f.toNat % 2 = 0 := by
  refine ⟨_, rfl, ?_, by decide +kernel⟩
  obtain ⟨f, h1, h2, -⟩ := C97_nearest Ex.jdoc (i := 2 ^ 53 + 1) (by decide) (by decide)
  cases h1
  exact h2

example : Ex.jdoc.intValue (.long (2 ^ 32 + 7)) = .ok 7 := rfl

example : ∃ j, Ex.jdoc.intValue (.long (2 ^ 31)) = .ok j ∧ j ≠ 2 ^ 31 := by
  obtain ⟨j, h1, -, -, -, h2⟩ := C97_narrow Ex.jdoc (2 ^ 31)
  exact ⟨j, h1, fun h => absurd (h2.mp h).2 (by decide)⟩

/-- -2.5, an infinity, a NaN -/
example : dToInt intMin intMax 0xC004000000000000 = -2 ∧ dToInt intMin intMax 0x7FF0000000000000 = intMax ∧ dToInt intMin intMax 0x7FF8000000000000 = 0 := by decide +kernel

example : Ex.jdoc.intValue (.double 0x7FF8000000000000) = .ok 0 := ((C97_truncate Ex.jdoc 0x7FF8000000000000).1 (by unfold IsNaN; decide)).1

example : base64 (lit "Man!" |>.map UInt8.ofNat) = lit "TWFuIQ==" := by decide

example : ∃ s, Ex.jdoc.stringValue (.bin [1, 2, 3, 4]) = .ok (some s) ∧ ofBase64 s = some [1, 2, 3, 4] ∧ s.length = 8 := by
  obtain ⟨s, h1, h2, h3, -⟩ := C97_base64 Ex.jdoc [1, 2, 3, 4] []
  exact ⟨s, h1, h2, h3⟩

example : Ex.jdoc.boolValue (.str "TrUe".toList) = .ok true := by
  obtain ⟨b, h, hb⟩ := C97_bool_string Ex.jdoc "TrUe".toList
  rw [h, hb.mpr (by unfold SameLetters; decide)]

example : Ex.jdoc.stringValue (.nodespan 7 9) = .ok (some (utf16 "a😀".toList)) := by
  have h := (C97_nodespan_string Ex.jdoc (l := 7) (r := 9) (k := "tok".toList) (c := "main".toList) (L := Ex.jlay) (p := (0, 1)) (q := (1, 2)) (u := Ex.jtxt)
    ((layerName_some Ex.jdoc_sound).mpr ⟨0, Ex.jlay, by rw [Ex.jdoc_layers]; rfl, rfl⟩) (by rw [Ex.jdoc_layers]; rfl) rfl rfl (by decide +kernel) (by decide +kernel)
    (by decide +kernel)).1 (by decide +kernel)
  rw [h]
  congr 1

/-- an undeclared field "text" is enough for a NullPointerException -/
example : Ex.bareDoc.stringValue (.nodespan 0 0) = .error .attribute := rfl

example : ∃ ns, Ex.jdoc.nodeArrayValue (.nodespan 7 9) = .ok ns ∧ ns.length = 2 := by
  have hL : dget Ex.jdoc.layers "tok".toList = some Ex.jlay := by rw [Ex.jdoc_layers]; rfl
  obtain ⟨ns, h1, h2, -⟩ := C97_nodespan_nodes Ex.jdoc Ex.jdoc_sound (fun k i n h => Ex.jdoc_at h) hL rfl (i := 0) (j := 1) (l := 7) (r := 9) ⟨_, hL, rfl⟩ ⟨_, hL, rfl⟩ (by decide)
  exact ⟨ns, h1, h2⟩

example : Ex.jdoc.boolValue (.long (-3)) = .ok true := by
  obtain ⟨b, h, hb⟩ := (C97_bool_partial Ex.jdoc).1 (-3) _ (.inr rfl)
  rw [h, hb.mpr (by decide)]

example : ∃ b, Ex.jdoc.boolValue (.double 0x3FE0000000000000) = .ok b ∧ (b = true ↔ (dValue 0x3FE0000000000000).natAbs ≤ (dValue (.ofNat dEps)).natAbs) :=
  (C97_double_bool Ex.jdoc 0x3FE0000000000000).2

/-- 1e-12, up to a part in 2^53 -/
example : ((dValue (.ofNat dEps)).natAbs * 10 ^ 12 - parts) * 2 ^ 53 ≤ parts ∧ (parts - (dValue (.ofNat dEps)).natAbs * 10 ^ 12) * 2 ^ 53 ≤ parts := by decide +kernel

end Verif
