import Verif.Props.JsonSpec
/-
What `dumps` writes, `loads` reads back.
-/
set_option linter.unusedSimpArgs false
namespace Verif
open Spec

theorem hexVal_digit : ∀ d : Fin 16, hexVal (Nat.digitChar d) = some d.1 := by decide

theorem readHex4_hex4 {n : Nat} (h : n < 65536) (r : Str) : readHex4 (hex4 n ++ r) = some (n, r) := by
  simp only [hex4, List.cons_append, List.nil_append, readHex4]
  have e : ∀ m, hexVal (Nat.digitChar (m % 16)) = some (m % 16) := fun m => hexVal_digit ⟨m % 16, by omega⟩
  rw [e, e, e, e]
  simp only [Option.some.injEq, Prod.mk.injEq, and_true]
  omega

theorem strStep_short (r : Str) : ∀ p ∈ shortEsc, strStep ('\\' :: p.2 :: r) = .ok (.char (some p.1) r) := by
  simp only [shortEsc, List.forall_mem_cons]
  refine ⟨rfl, rfl, rfl, rfl, rfl, rfl, rfl, by simp⟩

theorem charOf?_range (c : Char) : c.toNat < 0xd800 ∨ 0xdfff < c.toNat := by
  have := c.valid
  simp only [UInt32.isValidChar, Nat.isValidChar] at this
  show c.val.toNat < _ ∨ _ < c.val.toNat
  omega

theorem uStep_unit {n : Nat} {c : Char} (h : n < 65536) (hv : n < 0xd800 ∨ 0xdfff < n) (hc : charOf? n = some c) (r : Str) :
    uStep (hex4 n ++ r) = .ok (.char (some c) r) := by
  simp only [uStep, readHex4_hex4 h]
  rw [if_neg (by omega), hc]

theorem uStep_pair {hi lo : Nat} {c : Char} (h1 : 0xd800 ≤ hi ∧ hi ≤ 0xdbff) (h2 : 0xdc00 ≤ lo ∧ lo ≤ 0xdfff)
    (hc : charOf? (0x10000 + (hi - 0xd800) * 1024 + (lo - 0xdc00)) = some c) (r : Str) :
    uStep (hex4 hi ++ (escUnit lo ++ r)) = .ok (.char (some c) r) := by
  simp only [uStep]
  rw [readHex4_hex4 (by omega)]
  simp only
  rw [if_pos h1]
  simp only [escUnit, List.cons_append]
  rw [if_pos (by simp), readHex4_hex4 (by omega)]
  simp only
  rw [if_pos h2, hc]

theorem strStep_u (r : Str) : strStep ('\\' :: 'u' :: r) = uStep r := rfl

theorem strStep_esc (c : Char) (r : Str) : strStep (jsonChar c ++ r) = .ok (.char (some c) r) := by
  unfold jsonChar
  cases hg : dget shortEsc c with
  | some e => exact strStep_short r _ (dget_mem hg)
  | none =>
    simp only
    have hk := (dget_none_iff _ _).mp hg
    split
    · simp only [List.cons_append, List.nil_append, strStep]
      rw [if_neg (by rintro rfl; exact hk (by decide)), if_neg (by rintro rfl; exact hk (by decide)), if_neg (by omega)]
    · split
      · rename_i h2
        exact uStep_unit h2 (charOf?_range c) (charOf?_toNat c) r
      · rename_i h2
        rw [List.append_assoc]
        have hlt := toNat_lt c
        have hc := charOf?_toNat c
        generalize c.toNat = n at *
        obtain ⟨hi, hhi⟩ : ∃ hi, hi = 0xd800 + (n - 0x10000) / 1024 := ⟨_, rfl⟩
        obtain ⟨lo, hlo⟩ : ∃ lo, lo = 0xdc00 + (n - 0x10000) % 1024 := ⟨_, rfl⟩
        rw [← hhi, ← hlo, escUnit, List.cons_append, List.cons_append, strStep_u]
        refine uStep_pair (by omega) (by omega) ?_ r
        have e : 0x10000 + (hi - 0xd800) * 1024 + (lo - 0xdc00) = n := by omega
        rw [e, hc]

theorem scanStr_esc (s : Str) : ∀ (n : Nat) (r : Str), s.length < n → scanStr n (s.flatMap jsonChar ++ '"' :: r) = .ok (some s, r) := by
  induction s with
  | nil =>
    intro n r h
    cases n with
    | zero => omega
    | succ n => rfl
  | cons c s ih =>
    intro n r h
    cases n with
    | zero => omega
    | succ n =>
      simp only [List.flatMap_cons, List.append_assoc, scanStr, strStep_esc]
      rw [ih n r (by simp at h; omega)]

theorem jsonChar_length (c : Char) : 0 < (jsonChar c).length := by
  unfold jsonChar; split <;> (try split) <;> (try split) <;> simp [escUnit, hex4]

theorem flatMap_length (s : Str) : s.length ≤ (s.flatMap jsonChar).length := by
  induction s with
  | nil => simp
  | cons c s ih => have := jsonChar_length c; simp only [List.flatMap_cons, List.length_append, List.length_cons]; omega

theorem readStr_esc (s r : Str) : readStr (s.flatMap jsonChar ++ '"' :: r) = .ok (s, r) := by
  unfold readStr
  rw [scanStr_esc]
  have := flatMap_length s
  simp only [List.length_append, List.length_cons]
  omega

/-! numbers -/

/-- what may follow a number -/
def Delim (r : Str) : Prop := ∀ c, r.head? = some c → c.isDigit = false ∧ c ≠ '.' ∧ c ≠ 'e' ∧ c ≠ 'E'

theorem takeWhile_stop {p : Char → Bool} {l r : Str} (h : ∀ c ∈ l, p c = true) (hr : ∀ c, r.head? = some c → p c = false) :
    (l ++ r).takeWhile p = l ∧ (l ++ r).dropWhile p = r := by
  induction l with
  | nil =>
    cases r with
    | nil => simp
    | cons c r => have := hr c rfl; simp [List.takeWhile_cons, List.dropWhile_cons, this]
  | cons c l ih =>
    have := ih (fun c hc => h c (by simp [hc]))
    simp [List.takeWhile_cons, List.dropWhile_cons, h c (by simp), this]

theorem intPart_text {s r : Str} (h : IntText s) (hr : ∀ c, r.head? = some c → c.isDigit = false) : intPart (s ++ r) = some (s, r) := by
  rcases h with rfl | ⟨c, l, rfl, h1, h2, h3⟩
  · rfl
  · simp only [List.cons_append, intPart]
    rw [if_neg h2, if_pos h1, (takeWhile_stop h3 hr).1, (takeWhile_stop h3 hr).2]

theorem fracPart_none {r : Str} (h : r.head? ≠ some '.') : fracPart r = ([], r) := by
  unfold fracPart
  split
  · simp at h
  · rfl

theorem expPart_none {r : Str} (h : ∀ c, r.head? = some c → c ≠ 'e' ∧ c ≠ 'E') : expPart r = ([], r) := by
  unfold expPart
  split
  · rfl
  · rename_i e r'
    have := h e rfl
    rw [if_neg]
    rintro ⟨h1 | h1, -⟩
    · exact this.1 h1
    · exact this.2 h1

theorem isDigit_ne {c d : Char} (h : c.isDigit = true) (hd : d.isDigit = false) : c ≠ d := by
  rintro rfl; rw [h] at hd; cases hd

theorem expPart_some {e : Char} {sg l r : Str} (he : e = 'e' ∨ e = 'E') (hs : sg = [] ∨ sg = ['-'] ∨ sg = ['+'])
    (hl : l ≠ []) (hd : Digits l) (hr : ∀ c, r.head? = some c → c.isDigit = false) :
    expPart (e :: (sg ++ l) ++ r) = (e :: (sg ++ l), r) := by
  have hsign : signPart (sg ++ (l ++ r)) = (sg, l ++ r) := by
    rcases hs with rfl | rfl | rfl
    · cases l with
      | nil => exact (hl rfl).elim
      | cons c l =>
        have hc := hd c (by simp)
        simp only [List.nil_append, List.cons_append]
        unfold signPart
        split
        · rename_i h; cases h; simp at hc
        · rename_i h; cases h; simp at hc
        · rfl
    · rfl
    · rfl
  simp only [List.cons_append, List.append_assoc, expPart, hsign, (takeWhile_stop hd hr).1, (takeWhile_stop hd hr).2]
  rw [if_pos ⟨he, hl⟩]

theorem fracPart_some {l r : Str} (hl : l ≠ []) (hd : Digits l) (hr : ∀ c, r.head? = some c → c.isDigit = false) :
    fracPart ('.' :: l ++ r) = ('.' :: l, r) := by
  simp only [List.cons_append, fracPart, (takeWhile_stop hd hr).1, (takeWhile_stop hd hr).2]
  rw [if_neg hl]

theorem minusPart_ne {s : Str} (h : s.head? ≠ some '-') : minusPart s = ([], s) := by
  unfold minusPart
  split
  · simp at h
  · rfl

theorem IntText.head {s : Str} (h : IntText s) : ∃ c l, s = c :: l ∧ c.isDigit = true := by
  rcases h with rfl | ⟨c, l, rfl, h1, -⟩
  · exact ⟨_, _, rfl, rfl⟩
  · exact ⟨_, _, rfl, h1⟩

theorem minus_text {neg s : Str} (hn : neg = [] ∨ neg = ['-']) (h : ∃ c l, s = c :: l ∧ c.isDigit = true) : minusPart (neg ++ s) = (neg, s) := by
  rcases hn with rfl | rfl
  · obtain ⟨c, l, rfl, hc⟩ := h
    exact minusPart_ne (by simp; exact isDigit_ne hc (by decide))
  · rfl

theorem natStr_int (n : Nat) : IntText (natStr n) := by
  rcases natStr_head n with h | ⟨c, l, h1, h2, h3⟩
  · exact .inl h
  · exact .inr ⟨c, l, h1, h2, h3, fun d hd => natStr_digits (n := n) (by rw [h1]; simp [hd])⟩

theorem readNum_int (ft : FloatText) (i : Int) {r : Str} (hr : Delim r) : readNum ft (intStr i ++ r) = .ok (.int i, r) := by
  have hi := natStr_int i.natAbs
  obtain ⟨neg, hneg, e⟩ : ∃ neg, (neg = [] ∧ 0 ≤ i ∨ neg = ['-'] ∧ i < 0) ∧ intStr i = neg ++ natStr i.natAbs := by
    unfold intStr
    split
    · exact ⟨['-'], .inr ⟨rfl, by assumption⟩, rfl⟩
    · exact ⟨[], .inl ⟨rfl, by omega⟩, rfl⟩
  have hm : minusPart (intStr i ++ r) = (neg, natStr i.natAbs ++ r) := by
    rw [e, List.append_assoc]
    refine minus_text (hneg.imp (·.1) (·.1)) ?_
    obtain ⟨c, l, h1, h2⟩ := IntText.head hi
    exact ⟨c, l ++ r, by rw [h1]; rfl, h2⟩
  unfold readNum
  rw [hm]
  simp only
  rw [intPart_text hi (fun c hc => (hr c hc).1)]
  simp only
  rw [fracPart_none (fun h => (hr _ h).2.1 rfl), expPart_none (fun c hc => (hr c hc).2.2)]
  simp only [and_self, if_true]
  rw [natStr, Nat.ofDigitChars_ten_toDigits]
  rcases hneg with ⟨rfl, h⟩ | ⟨rfl, h⟩
  · simp; omega
  · simp; omega

theorem readNum_float (ft : FloatText) {s r : Str} (h : NumText s) (hr : Delim r) : readNum ft (s ++ r) = .ok (.float (ft.parse s), r) := by
  obtain ⟨neg, int, frac, exp, rfl, hn, hi, hf, he, hne⟩ := h
  have hexp : ∀ c, (exp ++ r).head? = some c → c.isDigit = false ∧ c ≠ '.' := by
    rcases he with rfl | ⟨e, sg, l, rfl, h1, -⟩
    · intro c hc; exact ⟨(hr c hc).1, (hr c hc).2.1⟩
    · intro c hc; simp at hc; subst hc; rcases h1 with rfl | rfl <;> decide
  have hfrac : ∀ c, (frac ++ (exp ++ r)).head? = some c → c.isDigit = false := by
    rcases hf with rfl | ⟨l, rfl, -⟩
    · exact fun c hc => (hexp c hc).1
    · intro c hc; simp at hc; subst hc; decide
  have hm : minusPart (neg ++ (int ++ (frac ++ exp)) ++ r) = (neg, int ++ (frac ++ (exp ++ r))) := by
    rw [List.append_assoc, List.append_assoc, List.append_assoc]
    refine minus_text hn ?_
    obtain ⟨c, l, h1, h2⟩ := IntText.head hi
    exact ⟨c, l ++ (frac ++ (exp ++ r)), by rw [h1]; rfl, h2⟩
  have e1 : fracPart (frac ++ (exp ++ r)) = (frac, exp ++ r) := by
    rcases hf with rfl | ⟨l, rfl, h1, h2⟩
    · exact fracPart_none (fun h => (hexp _ h).2 rfl)
    · exact fracPart_some h1 h2 (fun c hc => (hexp c hc).1)
  have e2 : expPart (exp ++ r) = (exp, r) := by
    rcases he with rfl | ⟨e, sg, l, rfl, h1, h2, h3, h4⟩
    · exact expPart_none (fun c hc => (hr c hc).2.2)
    · exact expPart_some h1 h2 h3 h4 (fun c hc => (hr c hc).1)
  unfold readNum
  rw [hm]
  simp only
  rw [intPart_text hi hfrac]
  simp only [e1, e2]
  rw [if_neg (fun h => hne.elim (fun g => g h.1) (fun g => g h.2))]
  simp only [List.append_assoc]

/-! constants -/

theorem after_append (a r : Str) : after a (a ++ r) = some r := by
  unfold after
  rw [if_pos (by rw [List.isPrefixOf_iff_prefix]; exact List.prefix_append _ _)]
  simp

theorem after_head {a s : Str} {c d : Char} (ha : a.head? = some c) (hs : s.head? = some d) (h : c ≠ d) : after a s = none := by
  unfold after
  rw [if_neg]
  rw [List.isPrefixOf_iff_prefix]
  rintro ⟨t, rfl⟩
  cases a with
  | nil => simp at ha
  | cons x a => simp at ha hs; exact h (ha.symm.trans hs)

/-- nothing that starts with a digit, or a minus and a digit, is a constant -/
theorem readConst_num {neg s : Str} (hn : neg = [] ∨ neg = ['-']) (h : ∃ c l, s = c :: l ∧ c.isDigit = true) : readConst (neg ++ s) = none := by
  obtain ⟨c, l, rfl, hc⟩ := h
  rcases hn with rfl | rfl
  · have hh : ∀ a d, a.head? = some d → d.isDigit = false → after a (c :: l) = none :=
      fun a d ha hd => after_head ha rfl (fun h => by rw [h, hc] at hd; cases hd)
    simp only [readConst, constants, List.findSome?, List.nil_append]
    rw [hh "null".toList 'n' rfl rfl, hh "true".toList 't' rfl rfl, hh "false".toList 'f' rfl rfl, hh "NaN".toList 'N' rfl rfl,
      hh "Infinity".toList 'I' rfl rfl, hh "-Infinity".toList '-' rfl rfl]
    rfl
  · have hh : ∀ a d, a.head? = some d → d ≠ '-' → after a ('-' :: c :: l) = none :=
      fun a d ha hd => after_head ha rfl hd
    have h6 : after "-Infinity".toList ('-' :: c :: l) = none := by
      unfold after
      rw [if_neg]
      rw [List.isPrefixOf_iff_prefix]
      rintro ⟨t, ht⟩
      have e : "-Infinity".toList = '-' :: 'I' :: "nfinity".toList := rfl
      rw [e] at ht
      simp only [List.cons_append, List.cons.injEq] at ht
      rw [← ht.2.1] at hc
      cases hc
    simp only [readConst, constants, List.findSome?, List.cons_append, List.nil_append]
    rw [hh "null".toList 'n' rfl (by decide), hh "true".toList 't' rfl (by decide), hh "false".toList 'f' rfl (by decide),
      hh "NaN".toList 'N' rfl (by decide), hh "Infinity".toList 'I' rfl (by decide), h6]
    rfl

/-! whole objects -/

/-- first character of a value -/
structure Start (s : Str) : Prop where
  ex : ∃ c l, s = c :: l ∧ isWs c = false ∧ c ≠ ']' ∧ c ≠ '}'

theorem skipWs_start {s r : Str} (h : Start s) : skipWs (s ++ r) = s ++ r := by
  obtain ⟨c, l, rfl, h1, -⟩ := h.ex
  simp [skipWs, List.dropWhile_cons, h1]

theorem skipWs_space {s r : Str} (h : Start s) : skipWs (' ' :: (s ++ r)) = s ++ r :=
  (show skipWs (' ' :: (s ++ r)) = skipWs (s ++ r) from rfl).trans (skipWs_start h)

/-- reads back, whatever follows (if it can follow a number) -/
def ReadsBack (ft : FloatText) (o : Obj) (s : Str) : Prop :=
  Start s ∧ ∀ n r, s.length ≤ n → Delim r → scan ft n (s ++ r) = .ok (o, r)

theorem scan_num {ft : FloatText} {s r : Str} {o : Obj} {n : Nat} (h1 : ∃ neg t, s = neg ++ t ∧ (neg = [] ∨ neg = ['-']) ∧ ∃ c l, t = c :: l ∧ c.isDigit = true)
    (h2 : readNum ft (s ++ r) = .ok (o, r)) (hn : s.length ≤ n) : scan ft n (s ++ r) = .ok (o, r) := by
  obtain ⟨neg, t, rfl, hneg, c, l, rfl, hc⟩ := h1
  have hk : readConst (neg ++ c :: l ++ r) = none := by
    rw [List.append_assoc]; exact readConst_num hneg ⟨c, l ++ r, rfl, hc⟩
  cases n with
  | zero => rcases hneg with rfl | rfl <;> simp at hn
  | succ n =>
    rcases hneg with rfl | rfl
    · simp only [List.nil_append, List.cons_append] at h2 hk ⊢
      simp only [scan]
      rw [if_neg (isDigit_ne hc (by decide)), if_neg (isDigit_ne hc (by decide)), if_neg (isDigit_ne hc (by decide)), hk]
      exact h2
    · simp only [List.nil_append, List.cons_append] at h2 hk ⊢
      simp only [scan]
      rw [if_neg (by decide), if_neg (by decide), if_neg (by decide), hk]
      exact h2

theorem start_num {s : Str} (h1 : ∃ neg t, s = neg ++ t ∧ (neg = [] ∨ neg = ['-']) ∧ ∃ c l, t = c :: l ∧ c.isDigit = true) : Start s := by
  obtain ⟨neg, t, rfl, hneg, c, l, rfl, hc⟩ := h1
  rcases hneg with rfl | rfl
  · refine ⟨c, l, rfl, ?_, isDigit_ne hc (by decide), isDigit_ne hc (by decide)⟩
    simp only [isWs, Bool.or_eq_false_iff, decide_eq_false_iff_not]
    exact ⟨⟨⟨isDigit_ne hc (by decide), isDigit_ne hc (by decide)⟩, isDigit_ne hc (by decide)⟩, isDigit_ne hc (by decide)⟩
  · exact ⟨'-', _, rfl, by decide, by decide, by decide⟩

theorem intStr_num (i : Int) : ∃ neg t, intStr i = neg ++ t ∧ (neg = [] ∨ neg = ['-']) ∧ ∃ c l, t = c :: l ∧ c.isDigit = true := by
  have := IntText.head (natStr_int i.natAbs)
  unfold intStr
  split
  · exact ⟨['-'], _, rfl, .inr rfl, this⟩
  · exact ⟨[], _, rfl, .inl rfl, this⟩

theorem numText_num {s : Str} (h : NumText s) : ∃ neg t, s = neg ++ t ∧ (neg = [] ∨ neg = ['-']) ∧ ∃ c l, t = c :: l ∧ c.isDigit = true := by
  obtain ⟨neg, int, frac, exp, rfl, hn, hi, -⟩ := h
  obtain ⟨c, l, rfl, hc⟩ := IntText.head hi
  exact ⟨neg, _, rfl, hn, c, _, rfl, hc⟩

theorem back_const {ft : FloatText} {lit : Str} {o : Obj} (h : ∀ r, readConst (lit ++ r) = some (o, r))
    (hs : ∃ c l, lit = c :: l ∧ isWs c = false ∧ c ≠ ']' ∧ c ≠ '}' ∧ c ≠ '"' ∧ c ≠ '[' ∧ c ≠ '{') : ReadsBack ft o lit := by
  obtain ⟨c, l, rfl, h1, h2, h3, h4, h5, h6⟩ := hs
  refine ⟨⟨c, l, rfl, h1, h2, h3⟩, fun n r hn _ => ?_⟩
  cases n with
  | zero => simp at hn
  | succ n =>
    have hr := h r
    simp only [List.cons_append] at hr ⊢
    simp only [scan]
    rw [if_neg h4, if_neg h5, if_neg h6, hr]

theorem back_float {ft : FloatText} (hf : FloatsExact ft) {b : UInt64} (h : FloatOk b) : ReadsBack ft (.float b) (floatStr ft b) := by
  unfold floatStr
  cases hk : floatKind b with
  | finite =>
    simp only
    refine ⟨start_num (numText_num (hf.shape b hk)), fun n r hn hr => scan_num (numText_num (hf.shape b hk)) ?_ hn⟩
    rw [readNum_float ft (hf.shape b hk) hr, hf.exact b hk]
  | nan =>
    rw [h hk]
    exact back_const (fun r => rfl) ⟨'N', _, rfl, by decide, by decide, by decide, by decide, by decide, by decide⟩
  | inf =>
    have : b = infBits := by
      unfold floatKind at hk
      have hlt := b.toNat_lt
      apply UInt64.toNat.inj
      rw [show infBits.toNat = 0x7ff0000000000000 from rfl]
      split at hk
      · cases hk
      · split at hk
        · cases hk
        · split at hk
          · omega
          · cases hk
    rw [this]
    exact back_const (fun r => rfl) ⟨'I', _, rfl, by decide, by decide, by decide, by decide, by decide, by decide⟩
  | negInf =>
    have : b = negInfBits := by
      unfold floatKind at hk
      have hlt := b.toNat_lt
      apply UInt64.toNat.inj
      rw [show negInfBits.toNat = 0xfff0000000000000 from rfl]
      split at hk
      · cases hk
      · split at hk
        · cases hk
        · split at hk
          · cases hk
          · omega
    rw [this]
    exact back_const (fun r => rfl) ⟨'-', _, rfl, by decide, by decide, by decide, by decide, by decide, by decide⟩

theorem back_str (ft : FloatText) (s : Str) : ReadsBack ft (.str s) (jsonStr s) := by
  refine ⟨⟨'"', _, rfl, by decide, by decide, by decide⟩, fun n r hn _ => ?_⟩
  cases n with
  | zero => simp [jsonStr] at hn
  | succ n =>
    simp only [jsonStr, List.cons_append, List.append_assoc, List.nil_append, scan, if_true]
    rw [readStr_esc]

theorem delim_cons {c : Char} {r : Str} (h : c.isDigit = false ∧ c ≠ '.' ∧ c ≠ 'e' ∧ c ≠ 'E') : Delim (c :: r) := by
  intro d hd; simp at hd; subst hd; exact h


theorem dumpsL_sep {ft : FloatText} {x : Obj} {xs : List Obj} {sep a b : Str} (ha : dumps ft x = .ok a)
    (hb : dumpsL ft ", ".toList xs = .ok b) : dumpsL ft sep (x :: xs) = .ok (sep ++ a ++ b) := by
  simp only [dumpsL, ha, hb]

theorem dumpsM_sep {ft : FloatText} {k : Str} {x : Obj} {xs : List (Str × Obj)} {sep a b : Str} (ha : dumps ft x = .ok a)
    (hb : dumpsM ft ", ".toList xs = .ok b) : dumpsM ft sep ((k, x) :: xs) = .ok (sep ++ jsonStr k ++ ": ".toList ++ a ++ b) := by
  simp only [dumpsM, ha, hb]

/-- the elements read back: the first, then the others each after a separator -/
def BackL (ft : FloatText) (xs : List Obj) : Prop :=
  ∃ b, dumpsL ft ", ".toList xs = .ok b ∧ (b = [] ∨ b.head? = some ',') ∧
    ∀ x a, ReadsBack ft x a → ∀ n r, a.length + b.length + 1 ≤ n → scanL ft n (a ++ (b ++ ']' :: r)) = .ok (x :: xs, r)

def BackM (ft : FloatText) (xs : List (Str × Obj)) : Prop :=
  ∃ b, dumpsM ft ", ".toList xs = .ok b ∧ (b = [] ∨ b.head? = some ',') ∧
    ∀ k x a, ReadsBack ft x a → ∀ n r, a.length + b.length + 1 ≤ n →
      scanM ft n (jsonStr k ++ (": ".toList ++ (a ++ (b ++ '}' :: r)))) = .ok ((k, x) :: xs, r)

theorem delim_tail {b r : Str} {c : Char} (hb : b = [] ∨ b.head? = some ',') (hc : c.isDigit = false ∧ c ≠ '.' ∧ c ≠ 'e' ∧ c ≠ 'E') :
    Delim (b ++ c :: r) := by
  rcases hb with rfl | hb
  · exact delim_cons hc
  · intro d hd
    cases b with
    | nil => simp at hb
    | cons x b => simp at hb hd; subst hb; subst hd; decide

theorem readStr_json (k r : Str) : ∃ t, jsonStr k ++ r = '"' :: t ∧ readStr t = .ok (k, r) :=
  ⟨k.flatMap jsonChar ++ '"' :: r, by simp [jsonStr], readStr_esc k r⟩

theorem jsonStr_length (k : Str) : 2 ≤ (jsonStr k).length := by simp [jsonStr]

theorem dupdate_nodup {l : Dict Str Obj} (h : (l.map (·.1)).Nodup) : ∀ acc : Dict Str Obj, (dkeys (acc ++ l)).Nodup → dupdate acc l = acc ++ l := by
  induction l with
  | nil => intro acc _; simp [dupdate]
  | cons e l ih =>
    intro acc ha
    rw [List.map_cons, List.nodup_cons] at h
    have hk : e.1 ∉ dkeys acc := by
      simp only [dkeys, List.map_append, List.map_cons] at ha
      rw [List.nodup_append] at ha
      exact fun hm => ha.2.2 _ hm e.1 (by simp) rfl
    have : dupdate acc (e :: l) = dupdate (dset acc e.1 e.2) l := rfl
    rw [this, dset_absent _ hk, ih h.2]
    · simp
    · simpa using ha

mutual
theorem back (ft : FloatText) (hf : FloatsExact ft) : ∀ o : Obj, Jsonable o → o.KeysOk → ∃ s, dumps ft o = .ok s ∧ ReadsBack ft o s
  | .nil, _, _ => ⟨_, rfl, back_const (fun r => rfl) ⟨'n', _, rfl, by decide, by decide, by decide, by decide, by decide, by decide⟩⟩
  | .bool true, _, _ => ⟨_, rfl, back_const (fun r => rfl) ⟨'t', _, rfl, by decide, by decide, by decide, by decide, by decide, by decide⟩⟩
  | .bool false, _, _ => ⟨_, rfl, back_const (fun r => rfl) ⟨'f', _, rfl, by decide, by decide, by decide, by decide, by decide, by decide⟩⟩
  | .int i, _, _ => ⟨_, rfl, start_num (intStr_num i), fun _ _ hn hr => scan_num (intStr_num i) (readNum_int ft i hr) hn⟩
  | .float b, h, _ => ⟨_, rfl, back_float hf h⟩
  | .str s, _, _ => ⟨_, rfl, back_str ft s⟩
  | .bin _, h, _ => h.elim
  | .arr l, h, hk => by
    have hst : ∀ s : Str, Start ('[' :: s ++ [']']) := fun s => ⟨'[', _, rfl, by decide, by decide, by decide⟩
    cases l with
    | nil =>
      refine ⟨_, rfl, hst _, fun n r hn _ => ?_⟩
      cases n with
      | zero => simp at hn
      | succ n => rfl
    | cons x xs =>
      obtain ⟨a, ha, hra⟩ := back ft hf x h.1 hk.1
      obtain ⟨b, hb, hc, hrb⟩ := backL ft hf xs h.2 hk.2
      refine ⟨'[' :: (a ++ b) ++ [']'], by simp only [dumps, dumpsL_sep ha hb]; rfl, hst _, fun n r hn _ => ?_⟩
      cases n with
      | zero => simp at hn
      | succ n =>
        have e : '[' :: (a ++ b) ++ [']'] ++ r = '[' :: (a ++ (b ++ ']' :: r)) := by simp
        rw [e]
        simp only [scan]
        rw [if_neg (by decide), if_pos trivial, skipWs_start hra.1]
        have hs := hrb x a hra n r (by simp at hn; omega)
        obtain ⟨c, t, e1, h1, h2, h3⟩ := hra.1.ex
        split
        · rename_i heq
          rw [e1] at heq
          simp only [List.cons_append, List.cons.injEq] at heq
          exact (h2 heq.1).elim
        · rw [hs]
  | .map l, h, hk => by
    have hst : ∀ s : Str, Start ('{' :: s ++ ['}']) := fun s => ⟨'{', _, rfl, by decide, by decide, by decide⟩
    cases l with
    | nil =>
      refine ⟨_, rfl, hst _, fun n r hn _ => ?_⟩
      cases n with
      | zero => simp at hn
      | succ n => rfl
    | cons e xs =>
      obtain ⟨k, x⟩ := e
      obtain ⟨a, ha, hra⟩ := back ft hf x h.1 hk.2.1
      obtain ⟨b, hb, hc, hrb⟩ := backM ft hf xs h.2 hk.2.2
      refine ⟨'{' :: (jsonStr k ++ ": ".toList ++ a ++ b) ++ ['}'], by simp only [dumps, dumpsM_sep ha hb]; rfl, hst _, fun n r hn _ => ?_⟩
      cases n with
      | zero => simp at hn
      | succ n =>
        have e : '{' :: (jsonStr k ++ ": ".toList ++ a ++ b) ++ ['}'] ++ r = '{' :: (jsonStr k ++ (": ".toList ++ (a ++ (b ++ '}' :: r)))) := by simp
        rw [e]
        simp only [scan]
        have hq : Start (jsonStr k) := (back_str ft k).1
        rw [if_neg (by decide), if_neg (by decide), if_pos trivial, skipWs_start hq]
        have hs := hrb k x a hra n r (by
          have := jsonStr_length k
          simp only [List.length_append, List.length_cons] at hn; omega)
        obtain ⟨t, e1, -⟩ := readStr_json k (": ".toList ++ (a ++ (b ++ '}' :: r)))
        split
        · rename_i heq
          rw [e1] at heq
          simp at heq
        · rw [hs]
          simp only
          have hd : dupdate [] ((k, x) :: xs) = (k, x) :: xs := dupdate_nodup hk.1 [] hk.1
          rw [hd]
theorem backL (ft : FloatText) (hf : FloatsExact ft) : ∀ l : List Obj, JsonableL l → Obj.KeysOkL l → BackL ft l
  | [], _, _ => by
    refine ⟨[], rfl, .inl rfl, fun x a hra n r hn => ?_⟩
    cases n with
    | zero => omega
    | succ n =>
      simp only [scanL, List.nil_append]
      rw [hra.2 n _ (by simp at hn; omega) (delim_cons (by decide))]
      rfl
  | y :: ys, h, hk => by
    obtain ⟨a', ha', hra'⟩ := back ft hf y h.1 hk.1
    obtain ⟨b', hb', hc', hrb'⟩ := backL ft hf ys h.2 hk.2
    refine ⟨_, dumpsL_sep ha' hb', .inr rfl, fun x a hra n r hn => ?_⟩
    cases n with
    | zero => omega
    | succ n =>
      simp only [scanL]
      have e : ", ".toList ++ a' ++ b' ++ ']' :: r = ',' :: ' ' :: (a' ++ (b' ++ ']' :: r)) := by simp
      simp only [List.length_append] at hn
      rw [e, hra.2 n _ (by omega) (delim_cons (by decide))]
      have e2 : skipWs (',' :: ' ' :: (a' ++ (b' ++ ']' :: r))) = ',' :: ' ' :: (a' ++ (b' ++ ']' :: r)) := rfl
      have e3 : skipWs (' ' :: (a' ++ (b' ++ ']' :: r))) = a' ++ (b' ++ ']' :: r) := skipWs_space hra'.1
      simp only [e2, e3]
      rw [hrb' y a' hra' n r (by simp at hn; omega)]
theorem backM (ft : FloatText) (hf : FloatsExact ft) : ∀ l : List (Str × Obj), JsonableM l → Obj.KeysOkM l → BackM ft l
  | [], _, _ => by
    refine ⟨[], rfl, .inl rfl, fun k x a hra n r hn => ?_⟩
    cases n with
    | zero => omega
    | succ n =>
      obtain ⟨t, e1, e2⟩ := readStr_json k (": ".toList ++ (a ++ ([] ++ '}' :: r)))
      rw [e1]
      simp only [scanM, e2]
      have e3 : skipWs (": ".toList ++ (a ++ ([] ++ '}' :: r))) = ':' :: ' ' :: (a ++ ('}' :: r)) := rfl
      have e4 : skipWs (' ' :: (a ++ ('}' :: r))) = a ++ ('}' :: r) := skipWs_space hra.1
      simp only [e3, e4]
      rw [hra.2 n _ (by simp at hn; omega) (delim_cons (by decide))]
      rfl
  | (j, y) :: ys, h, hk => by
    obtain ⟨a', ha', hra'⟩ := back ft hf y h.1 hk.1
    obtain ⟨b', hb', hc', hrb'⟩ := backM ft hf ys h.2 hk.2
    refine ⟨_, dumpsM_sep ha' hb', .inr rfl, fun k x a hra n r hn => ?_⟩
    cases n with
    | zero => omega
    | succ n =>
      have e : ", ".toList ++ jsonStr j ++ ": ".toList ++ a' ++ b' ++ '}' :: r =
        ',' :: ' ' :: (jsonStr j ++ (": ".toList ++ (a' ++ (b' ++ '}' :: r)))) := by simp
      simp only [List.length_append] at hn
      rw [e]
      obtain ⟨t, e1, e2⟩ := readStr_json k (": ".toList ++ (a ++ ',' :: ' ' :: (jsonStr j ++ (": ".toList ++ (a' ++ (b' ++ '}' :: r))))))
      rw [e1]
      simp only [scanM, e2]
      generalize hT : ',' :: ' ' :: (jsonStr j ++ (": ".toList ++ (a' ++ (b' ++ '}' :: r)))) = T
      have e3 : skipWs (": ".toList ++ (a ++ T)) = ':' :: ' ' :: (a ++ T) := rfl
      have e4 : skipWs (' ' :: (a ++ T)) = a ++ T := skipWs_space hra.1
      simp only [e3, e4]
      rw [hra.2 n _ (by simp at hn; omega) (by rw [← hT]; exact delim_cons (by decide))]
      simp only
      subst hT
      have e5 : skipWs (',' :: ' ' :: (jsonStr j ++ (": ".toList ++ (a' ++ (b' ++ '}' :: r))))) =
        ',' :: ' ' :: (jsonStr j ++ (": ".toList ++ (a' ++ (b' ++ '}' :: r)))) := rfl
      have e6 : skipWs (' ' :: (jsonStr j ++ (": ".toList ++ (a' ++ (b' ++ '}' :: r))))) =
        jsonStr j ++ (": ".toList ++ (a' ++ (b' ++ '}' :: r))) := skipWs_space (back_str ft j).1
      simp only [e5, e6]
      rw [hrb' j y a' hra' n r (by simp at hn; omega)]
end

end Verif
