import Verif.Py.Obj
/-
UTF-8 as CPython's `str.encode('utf-8')` and strict `bytes.decode('utf-8')`.
-/
set_option linter.unusedSimpArgs false
namespace Verif

/-- bytes of one code point -/
def utf8EncodeChar (c : Char) : Bytes :=
  let n := c.toNat
  if n < 0x80 then [.ofNat n]
  else if n < 0x800 then [.ofNat (0xC0 + n / 64), .ofNat (0x80 + n % 64)]
  else if n < 0x10000 then [.ofNat (0xE0 + n / 4096), .ofNat (0x80 + n / 64 % 64), .ofNat (0x80 + n % 64)]
  else [.ofNat (0xF0 + n / 262144), .ofNat (0x80 + n / 4096 % 64), .ofNat (0x80 + n / 64 % 64),
    .ofNat (0x80 + n % 64)]

/-- `s.encode('utf-8')`. Code points that are surrogates are not part of the model's `Str`. -/
def utf8Encode (s : Str) : Bytes := s.flatMap utf8EncodeChar

/-- code point to character; surrogates and values above 10FFFF are refused -/
def charOf? (n : Nat) : Option Char := if h : n.isValidChar then some (Char.ofNatAux n h) else none

/-- strict decoding of the first character: two, three or four bytes given -/
def utf8Two (a b : Nat) : Option Char :=
  let n := (a - 0xC0) * 64 + (b - 0x80)
  if 0x80 ≤ b ∧ b < 0xC0 ∧ 0x80 ≤ n then charOf? n else none
def utf8Three (a b c : Nat) : Option Char :=
  let n := (a - 0xE0) * 4096 + (b - 0x80) * 64 + (c - 0x80)
  if 0x80 ≤ b ∧ b < 0xC0 ∧ 0x80 ≤ c ∧ c < 0xC0 ∧ 0x800 ≤ n then charOf? n else none
def utf8Four (a b c d : Nat) : Option Char :=
  let n := (a - 0xF0) * 262144 + (b - 0x80) * 4096 + (c - 0x80) * 64 + (d - 0x80)
  if 0x80 ≤ b ∧ b < 0xC0 ∧ 0x80 ≤ c ∧ c < 0xC0 ∧ 0x80 ≤ d ∧ d < 0xC0 ∧ 0x10000 ≤ n then charOf? n else none

/-- strict decoding of the first character; refuses overlong forms, surrogates and stray bytes -/
def utf8Step (a : UInt8) (rest : Bytes) : Option (Char × Bytes) :=
  if a.toNat < 0x80 then (charOf? a.toNat).map fun ch => (ch, rest)
  else if a.toNat < 0xC0 then none
  else if a.toNat < 0xE0 then
    match rest with
    | b :: rest => (utf8Two a.toNat b.toNat).map fun ch => (ch, rest)
    | _ => none
  else if a.toNat < 0xF0 then
    match rest with
    | b :: c :: rest => (utf8Three a.toNat b.toNat c.toNat).map fun ch => (ch, rest)
    | _ => none
  else if a.toNat < 0xF8 then
    match rest with
    | b :: c :: d :: rest => (utf8Four a.toNat b.toNat c.toNat d.toNat).map fun ch => (ch, rest)
    | _ => none
  else none

/-- decoding with a bound on the number of characters -/
def utf8DecodeN : Nat → Bytes → Option Str
  | _, [] => some []
  | 0, _ :: _ => none
  | n + 1, a :: rest => do
    let (ch, rest) ← utf8Step a rest
    let s ← utf8DecodeN n rest
    pure (ch :: s)

/-- `b.decode('utf-8')` -/
def utf8Decode (bs : Bytes) : Option Str := utf8DecodeN bs.length bs

theorem charOf?_toNat (c : Char) : charOf? c.toNat = some c := by
  have h : c.toNat.isValidChar := c.valid
  unfold charOf?
  rw [dif_pos h]
  congr 1

theorem u8 {n : Nat} (h : n < 256) : (UInt8.ofNat n).toNat = n := by
  rw [UInt8.toNat_ofNat']; omega

theorem toNat_lt (c : Char) : c.toNat < 0x110000 := by
  have := c.valid
  simp only [UInt32.isValidChar, Nat.isValidChar] at this
  show c.val.toNat < _
  omega

theorem utf8Step_encode (c : Char) (rest : Bytes) :
    ∃ a t, utf8EncodeChar c = a :: t ∧ utf8Step a (t ++ rest) = some (c, rest) := by
  have hc := charOf?_toNat c
  have hlt := toNat_lt c
  unfold utf8EncodeChar
  simp only
  generalize c.toNat = n at hc hlt
  split
  · rename_i h1
    refine ⟨_, _, rfl, ?_⟩
    simp only [utf8Step, u8 (n := n) (by omega), h1, if_true, hc, List.nil_append, Option.map]
  · split
    · rename_i h1 h2
      refine ⟨_, _, rfl, ?_⟩
      simp only [utf8Step, List.cons_append, List.nil_append, u8 (n := 0xC0 + n / 64) (by omega),
        u8 (n := 0x80 + n % 64) (by omega)]
      rw [if_neg (by omega), if_neg (by omega), if_pos (by omega)]
      simp only [utf8Two]
      have e : (0xC0 + n / 64 - 0xC0) * 64 + (0x80 + n % 64 - 0x80) = n := by omega
      rw [e, hc, if_pos (by omega)]; rfl
    · split
      · rename_i h1 h2 h3
        refine ⟨_, _, rfl, ?_⟩
        simp only [utf8Step, List.cons_append, List.nil_append, u8 (n := 0xE0 + n / 4096) (by omega),
          u8 (n := 0x80 + n % 64) (by omega), u8 (n := 0x80 + n / 64 % 64) (by omega)]
        rw [if_neg (by omega), if_neg (by omega), if_neg (by omega), if_pos (by omega)]
        simp only [utf8Three]
        have e : (0xE0 + n / 4096 - 0xE0) * 4096 + (0x80 + n / 64 % 64 - 0x80) * 64 +
            (0x80 + n % 64 - 0x80) = n := by omega
        rw [e, hc, if_pos (by omega)]; rfl
      · rename_i h1 h2 h3
        refine ⟨_, _, rfl, ?_⟩
        simp only [utf8Step, List.cons_append, List.nil_append, u8 (n := 0xF0 + n / 262144) (by omega),
          u8 (n := 0x80 + n % 64) (by omega), u8 (n := 0x80 + n / 64 % 64) (by omega),
          u8 (n := 0x80 + n / 4096 % 64) (by omega)]
        rw [if_neg (by omega), if_neg (by omega), if_neg (by omega), if_neg (by omega), if_pos (by omega)]
        simp only [utf8Four]
        have e : (0xF0 + n / 262144 - 0xF0) * 262144 + (0x80 + n / 4096 % 64 - 0x80) * 4096 +
            (0x80 + n / 64 % 64 - 0x80) * 64 + (0x80 + n % 64 - 0x80) = n := by omega
        rw [e, hc, if_pos (by omega)]; rfl

theorem utf8DecodeN_encode (s : Str) : ∀ n, (utf8Encode s).length ≤ n → utf8DecodeN n (utf8Encode s) = some s := by
  induction s with
  | nil => intro n _; cases n <;> simp [utf8Encode, utf8DecodeN]
  | cons c s ih =>
    intro n hn
    have e : utf8Encode (c :: s) = utf8EncodeChar c ++ utf8Encode s := by simp [utf8Encode]
    obtain ⟨a, t, h1, h2⟩ := utf8Step_encode c (utf8Encode s)
    rw [e, h1] at hn ⊢
    cases n with
    | zero => simp at hn
    | succ n =>
      simp only [List.cons_append, utf8DecodeN, h2, Option.bind_eq_bind, Option.bind_some]
      rw [ih n (by simp at hn; omega)]; rfl

theorem utf8Decode_encode (s : Str) : utf8Decode (utf8Encode s) = some s :=
  utf8DecodeN_encode s _ (Nat.le_refl _)

end Verif
