import Verif.Proof.Json
/-
JSON text that stops too early is refused.
-/
set_option linter.unusedSimpArgs false
namespace Verif
open Spec

/-- what follows cannot continue a list or dict -/
def Bad (r : Str) : Prop := ∀ c, (skipWs r).head? = some c → c ≠ ',' ∧ c ≠ ']' ∧ c ≠ '}'

/-- no proper beginning of `s` is read as a value that something can follow -/
def Trunc (ft : FloatText) (s : Str) : Prop := ∀ p n, p <+: s → p ≠ s → 2 * p.length + 1 ≤ n →
  scan ft n p = .error .value ∨ ∃ o r, scan ft n p = .ok (o, r) ∧ Bad r

theorem scan_nil {ft : FloatText} {n : Nat} (h : 1 ≤ n) : scan ft n [] = .error .value := by
  cases n with
  | zero => omega
  | succ n => rfl

/-! strings -/

theorem prefix_cut {q a b : Str} (h : q <+: a ++ b) : (q <+: a ∧ q ≠ a) ∨ ∃ t, q = a ++ t ∧ t <+: b := by
  rcases List.prefix_or_prefix_of_prefix h (List.prefix_append a b) with h1 | ⟨t, rfl⟩
  · by_cases e : q = a
    · exact .inr ⟨[], by simp [e], List.nil_prefix⟩
    · exact .inl ⟨h1, e⟩
  · exact .inr ⟨t, rfl, (List.prefix_append_right_inj a).mp h⟩

theorem prefix_take {q a : Str} (h : q <+: a) (hn : q ≠ a) : ∃ k, k < a.length ∧ q = a.take k := by
  refine ⟨q.length, ?_, List.prefix_iff_eq_take.mp h⟩
  rcases Nat.lt_or_ge q.length a.length with h1 | h1
  · exact h1
  · exact (hn (h.eq_of_length (Nat.le_antisymm h.length_le h1))).elim

theorem scanStr_step {n : Nat} {q : Str} (hn : 1 ≤ n) (h : strStep q = .error .value) : scanStr n q = .error .value := by
  cases n with
  | zero => omega
  | succ n => simp only [scanStr, h]

theorem readHex4_short {t : Str} (h : t.length < 4) : readHex4 t = none := by
  unfold readHex4
  split
  · simp at h; omega
  · rfl

theorem strStep_unit_short {u k : Nat} (hk : k < 6) : strStep ((escUnit u).take k) = .error .value := by
  match k with
  | 0 => rfl
  | 1 => rfl
  | 2 => rfl
  | 3 => rfl
  | 4 => rfl
  | 5 => rfl
  | k + 6 => omega

theorem escUnit_length (u : Nat) : (escUnit u).length = 6 := rfl

theorem scanStr_esc_short {c : Char} {q : Str} (h : q <+: jsonChar c) (hn : q ≠ jsonChar c) {n : Nat} (hf : q.length + 1 ≤ n) :
    scanStr n q = .error .value := by
  obtain ⟨k, hk, rfl⟩ := prefix_take h hn
  clear h hn
  revert hf
  revert hk
  unfold jsonChar
  split
  · intro hk hf
    refine scanStr_step (by omega) ?_
    match k with
    | 0 => rfl
    | 1 => rfl
    | k + 2 => simp at hk; omega
  · split
    · intro hk hf
      have : k = 0 := by simp at hk; omega
      subst this
      exact scanStr_step (by omega) rfl
    · split
      · intro hk hf
        exact scanStr_step (by omega) (strStep_unit_short (by rw [escUnit_length] at hk; omega))
      · rename_i h1
        have hlt := toNat_lt c
        generalize c.toNat = m at *
        obtain ⟨hi, hhi⟩ : ∃ hi, hi = 0xd800 + (m - 0x10000) / 1024 := ⟨_, rfl⟩
        obtain ⟨lo, hlo⟩ : ∃ lo, lo = 0xdc00 + (m - 0x10000) % 1024 := ⟨_, rfl⟩
        rw [← hhi, ← hlo]
        intro hk hf
        by_cases h6 : k < 6
        · rw [List.take_append_of_le_length (by rw [escUnit_length]; omega)] at hf ⊢
          exact scanStr_step (by omega) (strStep_unit_short h6)
        · rw [List.take_append, escUnit_length, List.take_of_length_le (by rw [escUnit_length]; omega)] at hf ⊢
          have hk' : k - 6 < 6 := by simp only [List.length_append, escUnit_length] at hk; omega
          have e : ∀ t : Str, strStep (escUnit hi ++ t) = uStep (hex4 hi ++ t) := by
            intro t; rw [escUnit, List.cons_append, List.cons_append, strStep_u]
          have hd : 0xd800 ≤ hi ∧ hi ≤ 0xdbff := by omega
          have hu : ∀ t : Str, uStep (hex4 hi ++ t) = (match t with
              | a :: b :: r' =>
                if a = '\\' ∧ b = 'u' then
                  match readHex4 r' with
                  | none => .error .value
                  | some (m, r'') =>
                    if 0xdc00 ≤ m ∧ m ≤ 0xdfff then
                      .ok (.char (charOf? (0x10000 + (hi - 0xd800) * 1024 + (m - 0xdc00))) r'')
                    else .ok (.char none t)
                else .ok (.char none t)
              | _ => .ok (.char none t)) := by
            intro t
            unfold uStep
            rw [readHex4_hex4 (by omega)]
            simp only
            rw [if_pos hd]
            cases t with
            | nil => rfl
            | cons a t => cases t <;> rfl
          have hlen : (escUnit hi).length = 6 := rfl
          rw [List.length_append, hlen] at hf
          match hj : k - 6 with
          | 0 =>
            rw [hj] at hf
            obtain ⟨n, rfl⟩ : ∃ n', n = n' + 2 := ⟨n - 2, by omega⟩
            simp only [scanStr, e, hu, List.take_zero]
            rfl
          | 1 =>
            obtain ⟨n, rfl⟩ : ∃ n', n = n' + 2 := ⟨n - 2, by omega⟩
            have : (escUnit lo).take 1 = ['\\'] := rfl
            simp only [scanStr, e, hu, this]
            rfl
          | j + 2 =>
            refine scanStr_step (by omega) ?_
            have : (escUnit lo).take (j + 2) = '\\' :: 'u' :: (hex4 lo).take j := rfl
            rw [e, hu, this]
            simp only [true_and, and_true, if_true, and_self]
            rw [readHex4_short]
            rw [List.length_take]; omega

theorem scanStr_short (s : Str) : ∀ (q : Str) (n : Nat), q <+: s.flatMap jsonChar ++ ['"'] → q ≠ s.flatMap jsonChar ++ ['"'] →
    q.length + 1 ≤ n → scanStr n q = .error .value := by
  induction s with
  | nil =>
    intro q n h1 h2 hn
    obtain ⟨k, hk, rfl⟩ := prefix_take h1 h2
    have : k = 0 := by simp at hk; omega
    subst this
    exact scanStr_step (by omega) rfl
  | cons c s ih =>
    intro q n h1 h2 hn
    rw [List.flatMap_cons, List.append_assoc] at h1 h2
    rcases prefix_cut h1 with ⟨h3, h4⟩ | ⟨t, rfl, ht⟩
    · exact scanStr_esc_short h3 h4 hn
    · have := jsonChar_length c
      rw [List.length_append] at hn
      obtain ⟨n, rfl⟩ : ∃ n', n = n' + 1 := ⟨n - 1, by omega⟩
      simp only [scanStr, strStep_esc]
      rw [ih t n ht (fun h => h2 (by rw [h])) (by omega)]

theorem readStr_short {s q : Str} (h1 : q <+: s.flatMap jsonChar ++ ['"']) (h2 : q ≠ s.flatMap jsonChar ++ ['"']) :
    readStr q = .error .value := by
  unfold readStr
  rw [scanStr_short s q _ h1 h2 (Nat.le_refl _)]

/-- a proper beginning of a string: empty, or refused -/
theorem jsonStr_short {s q : Str} (h1 : q <+: jsonStr s) (h2 : q ≠ jsonStr s) : q = [] ∨ ∃ t, q = '"' :: t ∧ readStr t = .error .value := by
  cases q with
  | nil => exact .inl rfl
  | cons c t =>
    unfold jsonStr at h1 h2
    rw [List.cons_prefix_cons] at h1
    obtain ⟨rfl, h1⟩ := h1
    exact .inr ⟨t, rfl, readStr_short h1 (fun h => h2 (by rw [h]))⟩

theorem trunc_str (ft : FloatText) (s : Str) : Trunc ft (jsonStr s) := by
  intro p n h1 h2 hn
  refine .inl ?_
  rcases jsonStr_short h1 h2 with rfl | ⟨t, rfl, ht⟩
  · exact scan_nil (by omega)
  · obtain ⟨n, rfl⟩ : ∃ n', n = n' + 1 := ⟨n - 1, by omega⟩
    simp only [scan, if_true, ht]

/-! constants -/

theorem scan_other {ft : FloatText} {n : Nat} {p : Str} (hn : 1 ≤ n) (hh : ∀ c, p.head? = some c → c ≠ '"' ∧ c ≠ '[' ∧ c ≠ '{')
    (hc : readConst p = none) : scan ft n p = .error .value ∨ scan ft n p = readNum ft p := by
  obtain ⟨n, rfl⟩ : ∃ n', n = n' + 1 := ⟨n - 1, by omega⟩
  cases p with
  | nil => exact .inl rfl
  | cons c l =>
    have := hh c rfl
    refine .inr ?_
    simp only [scan]
    rw [if_neg this.1, if_neg this.2.1, if_neg this.2.2, hc]

/-- the proper beginnings of a constant are neither constants nor numbers -/
def constShort (lit : Str) : Bool :=
  (List.range lit.length).all (fun k => (readConst (lit.take k)).isNone && (intPart (minusPart (lit.take k)).2).isNone) &&
    match lit with
    | [] => false
    | c :: _ => decide (c ≠ '"' ∧ c ≠ '[' ∧ c ≠ '{')

theorem trunc_const (ft : FloatText) {lit : Str} (h : constShort lit = true) : Trunc ft lit := by
  intro p n h1 h2 hn
  refine .inl ?_
  simp only [constShort, Bool.and_eq_true, List.all_eq_true, List.mem_range, Option.isNone_iff_eq_none] at h
  obtain ⟨k, hk, rfl⟩ := prefix_take h1 h2
  obtain ⟨h3, h4⟩ := h.1 k hk
  have hh : ∀ c, (lit.take k).head? = some c → c ≠ '"' ∧ c ≠ '[' ∧ c ≠ '{' := by
    intro c hc
    have := h.2
    cases lit with
    | nil => simp at hk
    | cons d l =>
      simp only [decide_eq_true_eq] at this
      cases k with
      | zero => simp at hc
      | succ k => simp at hc; subst hc; exact this
  rcases scan_other (ft := ft) (n := n) (by omega) hh h3 with h5 | h5
  · exact h5
  · rw [h5, readNum, h4]

/-! numbers -/

/-- characters of numbers -/
def numChar (c : Char) : Bool := c.isDigit || c = '.' || c = 'e' || c = 'E' || c = '-' || c = '+'

theorem bad_num {r : Str} (h : ∀ c ∈ r, numChar c = true) : Bad r := by
  have hw : ∀ c, numChar c = true → isWs c = false ∧ c ≠ ',' ∧ c ≠ ']' ∧ c ≠ '}' := by
    intro c hc
    have hne : ∀ d, numChar d = false → c ≠ d := by rintro d hd rfl; rw [hc] at hd; cases hd
    refine ⟨?_, hne _ (by decide), hne _ (by decide), hne _ (by decide)⟩
    simp only [isWs, Bool.or_eq_false_iff, decide_eq_false_iff_not]
    exact ⟨⟨⟨hne _ (by decide), hne _ (by decide)⟩, hne _ (by decide)⟩, hne _ (by decide)⟩
  intro c hc
  cases r with
  | nil => simp [skipWs] at hc
  | cons d r =>
    have := hw d (h d (by simp))
    simp [skipWs, List.dropWhile_cons, this.1] at hc
    subst hc
    exact this.2

theorem minusPart_suffix (s : Str) : (minusPart s).2 <:+ s := by
  unfold minusPart
  split
  · exact List.suffix_cons _ _
  · exact List.suffix_refl _

theorem dropWhile_suffix (p : Char → Bool) (s : Str) : s.dropWhile p <:+ s := List.dropWhile_suffix p

theorem intPart_suffix {s ds r : Str} (h : intPart s = some (ds, r)) : r <:+ s := by
  unfold intPart at h
  split at h
  · cases h
  · split at h
    · cases h; exact List.suffix_cons _ _
    · split at h
      · cases h; exact (dropWhile_suffix _ _).trans (List.suffix_cons _ _)
      · cases h

theorem fracPart_suffix (s : Str) : (fracPart s).2 <:+ s := by
  unfold fracPart
  split
  · split
    · exact List.suffix_refl _
    · exact (dropWhile_suffix _ _).trans (List.suffix_cons _ _)
  · exact List.suffix_refl _

theorem signPart_suffix (s : Str) : (signPart s).2 <:+ s := by
  unfold signPart
  split
  · exact List.suffix_cons _ _
  · exact List.suffix_cons _ _
  · exact List.suffix_refl _

theorem expPart_suffix (s : Str) : (expPart s).2 <:+ s := by
  unfold expPart
  split
  · exact List.suffix_refl _
  · split
    · exact (dropWhile_suffix _ _).trans ((signPart_suffix _).trans (List.suffix_cons _ _))
    · exact List.suffix_refl _

theorem readNum_suffix {ft : FloatText} {s : Str} : readNum ft s = .error .value ∨ ∃ o r, readNum ft s = .ok (o, r) ∧ r <:+ s := by
  unfold readNum
  split
  · exact .inl rfl
  · rename_i ds r hi
    have hs : (expPart (fracPart r).2).2 <:+ s :=
      (expPart_suffix _).trans ((fracPart_suffix _).trans ((intPart_suffix hi).trans (minusPart_suffix s)))
    refine .inr ?_
    simp only
    split
    · exact ⟨_, _, rfl, hs⟩
    · exact ⟨_, _, rfl, hs⟩

theorem readConst_alien {p : Str} (h : ∀ c ∈ p, numChar c = true) : readConst p = none := by
  have ha : ∀ lit : Str, lit.any (fun c => !numChar c) = true → after lit p = none := by
    intro lit hl
    unfold after
    rw [if_neg]
    rw [List.isPrefixOf_iff_prefix]
    intro hp
    rw [List.any_eq_true] at hl
    obtain ⟨c, hc, hcn⟩ := hl
    rw [h c (hp.subset hc)] at hcn
    cases hcn
  simp only [readConst, constants, List.findSome?]
  rw [ha "null".toList (by decide), ha "true".toList (by decide), ha "false".toList (by decide), ha "NaN".toList (by decide),
    ha "Infinity".toList (by decide), ha "-Infinity".toList (by decide)]
  rfl

theorem trunc_num (ft : FloatText) {s : Str} (h : ∀ c ∈ s, numChar c = true) : Trunc ft s := by
  intro p n h1 h2 hn
  have hp : ∀ c ∈ p, numChar c = true := fun c hc => h c (h1.subset hc)
  have hh : ∀ c, p.head? = some c → c ≠ '"' ∧ c ≠ '[' ∧ c ≠ '{' := by
    intro c hc
    have hcn := hp c (List.mem_of_head? hc)
    have hne : ∀ d, numChar d = false → c ≠ d := by rintro d hd rfl; rw [hcn] at hd; cases hd
    exact ⟨hne _ (by decide), hne _ (by decide), hne _ (by decide)⟩
  rcases scan_other (ft := ft) (n := n) (by omega) hh (readConst_alien hp) with h5 | h5
  · exact .inl h5
  · rw [h5]
    rcases readNum_suffix (ft := ft) (s := p) with h6 | ⟨o, r, h6, h7⟩
    · exact .inl h6
    · exact .inr ⟨o, r, h6, bad_num (fun c hc => hp c (h7.subset hc))⟩

theorem numChar_digit {c : Char} (h : c.isDigit = true) : numChar c = true := by simp [numChar, h]

theorem intStr_numChar (i : Int) : ∀ c ∈ intStr i, numChar c = true := by
  intro c hc
  unfold intStr at hc
  split at hc
  · rcases List.mem_cons.mp hc with rfl | hc
    · decide
    · exact numChar_digit (natStr_digits hc)
  · exact numChar_digit (natStr_digits hc)

theorem intText_digits {s : Str} (h : IntText s) : Digits s := by
  rcases h with rfl | ⟨c, l, rfl, h1, -, h3⟩
  · intro c hc; simp at hc; subst hc; rfl
  · intro d hd
    rcases List.mem_cons.mp hd with rfl | hd
    · exact h1
    · exact h3 d hd

theorem numText_numChar {s : Str} (h : NumText s) : ∀ c ∈ s, numChar c = true := by
  obtain ⟨neg, int, frac, exp, rfl, hn, hi, hf, he, -⟩ := h
  intro c hc
  rw [List.mem_append, List.mem_append, List.mem_append] at hc
  rcases hc with hc | hc | hc | hc
  · rcases hn with rfl | rfl
    · simp at hc
    · simp at hc; subst hc; decide
  · exact numChar_digit (intText_digits hi c hc)
  · rcases hf with rfl | ⟨l, rfl, -, hd⟩
    · simp at hc
    · rcases List.mem_cons.mp hc with rfl | hc
      · decide
      · exact numChar_digit (hd c hc)
  · rcases he with rfl | ⟨e, sg, l, rfl, h1, h2, -, hd⟩
    · simp at hc
    · rcases List.mem_cons.mp hc with rfl | hc
      · rcases h1 with rfl | rfl <;> decide
      · rcases List.mem_append.mp hc with hc | hc
        · rcases h2 with rfl | rfl | rfl
          · simp at hc
          · simp at hc; subst hc; decide
          · simp at hc; subst hc; decide
        · exact numChar_digit (hd c hc)

theorem trunc_float {ft : FloatText} (hf : FloatsExact ft) (b : UInt64) : Trunc ft (floatStr ft b) := by
  unfold floatStr
  cases hk : floatKind b with
  | finite => exact trunc_num ft (numText_numChar (hf.shape b hk))
  | nan => exact trunc_const ft (lit := _) (show constShort _ = true by dsimp only; decide)
  | inf => exact trunc_const ft (lit := _) (show constShort _ = true by dsimp only; decide)
  | negInf => exact trunc_const ft (lit := _) (show constShort _ = true by dsimp only; decide)

/-! lists and dicts -/

def TruncL (ft : FloatText) (xs : List Obj) : Prop := ∀ b, dumpsL ft ", ".toList xs = .ok b →
  ∀ x a, ReadsBack ft x a → Trunc ft a → ∀ q n, q <+: a ++ (b ++ [']']) → q ≠ a ++ (b ++ [']']) → 2 * q.length + 2 ≤ n →
    scanL ft n q = .error .value

def TruncM (ft : FloatText) (xs : List (Str × Obj)) : Prop := ∀ b, dumpsM ft ", ".toList xs = .ok b →
  ∀ k x a, ReadsBack ft x a → Trunc ft a → ∀ q n, q <+: jsonStr k ++ (": ".toList ++ (a ++ (b ++ ['}']))) →
    q ≠ jsonStr k ++ (": ".toList ++ (a ++ (b ++ ['}']))) → 2 * q.length + 2 ≤ n → scanM ft n q = .error .value

/-- a beginning of something that does not start with white space -/
theorem skipWs_prefix {a q r : Str} (h : Start a) (hq : q <+: a ++ r) : skipWs q = q := by
  obtain ⟨c, l, rfl, h1, -⟩ := h.ex
  cases q with
  | nil => rfl
  | cons d q =>
    rw [List.cons_append, List.cons_prefix_cons] at hq
    rw [hq.1]
    simp [skipWs, List.dropWhile_cons, h1]

theorem scanL_bad {ft : FloatText} {n : Nat} {q : Str} (hn : 1 ≤ n)
    (h : scan ft (n - 1) q = .error .value ∨ ∃ o r, scan ft (n - 1) q = .ok (o, r) ∧ Bad r) : scanL ft n q = .error .value := by
  obtain ⟨n, rfl⟩ : ∃ n', n = n' + 1 := ⟨n - 1, by omega⟩
  simp only [Nat.add_sub_cancel] at h
  simp only [scanL]
  rcases h with h | ⟨o, r, h, hb⟩
  · rw [h]
  · rw [h]
    simp only
    split
    · rename_i heq; exact ((hb _ (by rw [heq]; rfl)).2.1 rfl).elim
    · rename_i heq; exact ((hb _ (by rw [heq]; rfl)).1 rfl).elim
    · rfl

theorem delim_nil : Delim [] := by intro c hc; simp at hc

theorem delim_prefix {q r : Str} (hq : q <+: r) (hr : Delim r) : Delim q := by
  cases q with
  | nil => exact delim_nil
  | cons c q =>
    obtain ⟨t, rfl⟩ := hq
    exact hr

theorem prefix_two {q r : Str} {c d : Char} (h : q <+: c :: d :: r) : q = [] ∨ q = [c] ∨ ∃ t, q = c :: d :: t ∧ t <+: r := by
  cases q with
  | nil => exact .inl rfl
  | cons x q =>
    rw [List.cons_prefix_cons] at h
    obtain ⟨rfl, h⟩ := h
    cases q with
    | nil => exact .inr (.inl rfl)
    | cons y q =>
      rw [List.cons_prefix_cons] at h
      obtain ⟨rfl, h⟩ := h
      exact .inr (.inr ⟨q, rfl, h⟩)

theorem skipWs_sp (t : Str) : skipWs (' ' :: t) = skipWs t := rfl

/-- every proper prefix is a syntax error -/
def TruncC (ft : FloatText) (s : Str) : Prop :=
  ∀ p n, p <+: s → p ≠ s → 2 * p.length < n → scan ft n p = .error .value

mutual
theorem trunc (ft : FloatText) (hf : FloatsExact ft) : ∀ o : Obj, Jsonable o → o.KeysOk → ∀ s, dumps ft o = .ok s → Trunc ft s
  | .nil, _, _, _, h => by cases h; exact trunc_const ft (by decide)
  | .bool true, _, _, _, h => by cases h; exact trunc_const ft (by decide)
  | .bool false, _, _, _, h => by cases h; exact trunc_const ft (by decide)
  | .int i, _, _, _, h => by cases h; exact trunc_num ft (intStr_numChar i)
  | .float b, _, _, _, h => by cases h; exact trunc_float hf b
  | .str s, _, _, _, h => by cases h; exact trunc_str ft s
  | .bin _, h, _, _, _ => h.elim
  | .arr l, h, hk, s, hs => fun p n h1 h2 hn => .inl (truncA ft hf l h hk s hs p n h1 h2 hn)
  | .map l, h, hk, s, hs => fun p n h1 h2 hn => .inl (truncO ft hf l h hk s hs p n h1 h2 hn)
/-- a list that is cut short is never read -/
theorem truncA (ft : FloatText) (hf : FloatsExact ft) : ∀ l : List Obj, JsonableL l → Obj.KeysOkL l → ∀ s, dumps ft (.arr l) = .ok s →
    TruncC ft s
  | l, h, hk, s, hs => by
    intro p n h1 h2 hn
    cases p with
    | nil => exact scan_nil (by omega)
    | cons c q =>
      obtain ⟨n, rfl⟩ : ∃ n', n = n' + 1 := ⟨n - 1, by omega⟩
      simp only [List.length_cons] at hn
      match l, h, hk, hs with
      | [], _, _, hs =>
        cases hs
        have h1' : c :: q <+: ['[', ']'] := h1
        rw [List.cons_prefix_cons] at h1'
        obtain ⟨rfl, h1'⟩ := h1'
        have : q = [] := by
          cases q with
          | nil => rfl
          | cons d q =>
            rw [List.cons_prefix_cons] at h1'
            obtain ⟨rfl, h1'⟩ := h1'
            rw [List.prefix_nil] at h1'
            subst h1'
            exact (h2 rfl).elim
        subst this
        obtain ⟨n, rfl⟩ : ∃ n', n = n' + 2 := ⟨n - 2, by simp at hn; omega⟩
        rfl
      | x :: xs, h, hk, hs =>
        obtain ⟨a, ha, hra⟩ := back ft hf x h.1 hk.1
        obtain ⟨b, hb, -⟩ := backL ft hf xs h.2 hk.2
        simp only [dumps, dumpsL_sep ha hb, List.nil_append] at hs
        cases hs
        rw [List.cons_append, List.cons_prefix_cons, List.append_assoc] at h1
        rw [List.cons_append, List.append_assoc] at h2
        obtain ⟨rfl, h1⟩ := h1
        have hs := truncL ft hf xs h.2 hk.2 b hb x a hra (trunc ft hf x h.1 hk.1 a ha) q n h1 (fun h => h2 (by rw [h])) (by omega)
        simp only [scan]
        rw [if_neg (by decide), if_pos trivial, skipWs_prefix hra.1 h1]
        obtain ⟨c, t, e1, -, hc, -⟩ := hra.1.ex
        split
        · subst e1
          rw [List.cons_append, List.cons_prefix_cons] at h1
          exact (hc h1.1.symm).elim
        · rw [hs]
/-- a dict that is cut short is never read -/
theorem truncO (ft : FloatText) (hf : FloatsExact ft) : ∀ l : List (Str × Obj), JsonableM l → (Obj.map l).KeysOk →
    ∀ s, dumps ft (.map l) = .ok s → TruncC ft s
  | l, h, hk, s, hs => by
    intro p n h1 h2 hn
    cases p with
    | nil => exact scan_nil (by omega)
    | cons c q =>
      obtain ⟨n, rfl⟩ : ∃ n', n = n' + 1 := ⟨n - 1, by omega⟩
      simp only [List.length_cons] at hn
      match l, h, hk, hs with
      | [], _, _, hs =>
        cases hs
        have h1' : c :: q <+: ['{', '}'] := h1
        rw [List.cons_prefix_cons] at h1'
        obtain ⟨rfl, h1'⟩ := h1'
        have : q = [] := by
          cases q with
          | nil => rfl
          | cons d q =>
            rw [List.cons_prefix_cons] at h1'
            obtain ⟨rfl, h1'⟩ := h1'
            rw [List.prefix_nil] at h1'
            subst h1'
            exact (h2 rfl).elim
        subst this
        obtain ⟨n, rfl⟩ : ∃ n', n = n' + 2 := ⟨n - 2, by simp at hn; omega⟩
        rfl
      | (k, x) :: xs, h, hk, hs =>
        obtain ⟨a, ha, hra⟩ := back ft hf x h.1 hk.2.1
        obtain ⟨b, hb, -⟩ := backM ft hf xs h.2 hk.2.2
        simp only [dumps, dumpsM_sep ha hb, List.nil_append] at hs
        cases hs
        rw [List.cons_append, List.cons_prefix_cons] at h1
        rw [List.cons_append] at h2
        simp only [List.append_assoc] at h1 h2
        obtain ⟨rfl, h1⟩ := h1
        have hs := truncM ft hf xs h.2 hk.2.2 b hb k x a hra (trunc ft hf x h.1 hk.2.1 a ha) q n h1 (fun h => h2 (by rw [h])) (by omega)
        have hq : Start (jsonStr k) := (back_str ft k).1
        simp only [scan]
        rw [if_neg (by decide), if_neg (by decide), if_pos trivial, skipWs_prefix hq h1]
        split
        · obtain ⟨t, e1, -⟩ := readStr_json k (": ".toList ++ (a ++ (b ++ ['}'])))
          rw [e1, List.cons_prefix_cons] at h1
          exact absurd h1.1 (by decide)
        · rw [hs]
theorem truncL (ft : FloatText) (hf : FloatsExact ft) : ∀ l : List Obj, JsonableL l → Obj.KeysOkL l → TruncL ft l
  | [], _, _ => by
    intro b hb x a hra hta q n h1 h2 hn
    cases hb
    rcases prefix_cut h1 with ⟨h3, h4⟩ | ⟨t, rfl, ht⟩
    · exact scanL_bad (by omega) (hta q (n - 1) h3 h4 (by omega))
    · obtain ⟨n, rfl⟩ : ∃ n', n = n' + 1 := ⟨n - 1, by omega⟩
      have : t = [] := by
        cases t with
        | nil => rfl
        | cons d t =>
          rw [List.nil_append, List.cons_prefix_cons, List.prefix_nil] at ht
          obtain ⟨rfl, rfl⟩ := ht
          exact (h2 rfl).elim
      subst this
      simp only [scanL]
      rw [hra.2 n [] (by simp at hn; omega) delim_nil]
      rfl
  | y :: ys, h, hk => by
    intro b hb x a hra hta q n h1 h2 hn
    obtain ⟨a', ha', hra'⟩ := back ft hf y h.1 hk.1
    obtain ⟨b', hb', -⟩ := backL ft hf ys h.2 hk.2
    rw [dumpsL_sep ha' hb'] at hb
    cases hb
    have e : ", ".toList ++ a' ++ b' ++ [']'] = ',' :: ' ' :: (a' ++ (b' ++ [']'])) := by simp
    rw [e] at h1 h2
    rcases prefix_cut h1 with ⟨h3, h4⟩ | ⟨t, rfl, ht⟩
    · exact scanL_bad (by omega) (hta q (n - 1) h3 h4 (by omega))
    · obtain ⟨n, rfl⟩ : ∃ n', n = n' + 1 := ⟨n - 1, by omega⟩
      rw [List.length_append] at hn
      simp only [scanL]
      rw [hra.2 n t (by omega) (delim_prefix ht (delim_cons (by decide)))]
      rcases prefix_two ht with rfl | rfl | ⟨u, rfl, hu⟩
      · rfl
      · have : scanL ft n [] = .error .value := scanL_bad (by simp at hn; omega) (.inl (scan_nil (by simp at hn; omega)))
        have e1 : skipWs [','] = [','] := rfl
        have e2 : skipWs [] = [] := rfl
        simp only [e1, e2, this]
      · have e1 : skipWs (',' :: ' ' :: u) = ',' :: ' ' :: u := rfl
        simp only [e1, skipWs_sp, skipWs_prefix hra'.1 hu]
        rw [truncL ft hf ys h.2 hk.2 b' hb' y a' hra' (trunc ft hf y h.1 hk.1 a' ha') u n hu (fun h => h2 (by rw [h])) (by simp at hn; omega)]
theorem truncM (ft : FloatText) (hf : FloatsExact ft) : ∀ l : List (Str × Obj), JsonableM l → Obj.KeysOkM l → TruncM ft l
  | l, h, hk => by
    intro b hb k x a hra hta q n h1 h2 hn
    obtain ⟨n, rfl⟩ : ∃ n', n = n' + 1 := ⟨n - 1, by omega⟩
    rcases prefix_cut h1 with ⟨h3, h4⟩ | ⟨t, rfl, ht⟩
    · rcases jsonStr_short h3 h4 with rfl | ⟨t, rfl, ht⟩
      · rfl
      · simp only [scanM, ht]
    · rw [List.length_append] at hn
      have hkl := jsonStr_length k
      obtain ⟨t', e1, e2⟩ := readStr_json k t
      rw [e1]
      simp only [scanM, e2]
      have ht' : t <+: ':' :: ' ' :: (a ++ (b ++ ['}'])) := ht
      rcases prefix_two ht' with rfl | rfl | ⟨u, rfl, hu⟩
      · rfl
      · have e3 : skipWs [':'] = [':'] := rfl
        have e4 : skipWs [] = [] := rfl
        simp only [e3, e4]
        rw [scan_nil (by omega)]
      · have e3 : skipWs (':' :: ' ' :: u) = ':' :: ' ' :: u := rfl
        have hu' : u <+: a ++ (b ++ ['}']) := hu
        simp only [e3, skipWs_sp, skipWs_prefix hra.1 hu']
        simp only [List.length_cons] at hn
        rcases prefix_cut hu' with ⟨h5, h6⟩ | ⟨v, rfl, hv⟩
        · rcases hta u n h5 h6 (by omega) with h7 | ⟨o, r, h7, hbad⟩
          · rw [h7]
          · rw [h7]
            simp only
            split
            · rename_i heq; exact ((hbad _ (by rw [heq]; rfl)).2.2 rfl).elim
            · rename_i heq; exact ((hbad _ (by rw [heq]; rfl)).1 rfl).elim
            · rfl
        · have hne : v ≠ b ++ ['}'] := fun h => h2 (by rw [h]; simp)
          rw [List.length_append] at hn
          cases l with
          | nil =>
            cases hb
            have : v = [] := by
              cases v with
              | nil => rfl
              | cons d t =>
                rw [List.nil_append, List.cons_prefix_cons, List.prefix_nil] at hv
                obtain ⟨rfl, rfl⟩ := hv
                exact (hne rfl).elim
            subst this
            rw [hra.2 n [] (by omega) delim_nil]
            rfl
          | cons e ys =>
            obtain ⟨j, y⟩ := e
            obtain ⟨a', ha', hra'⟩ := back ft hf y h.1 hk.1
            obtain ⟨b', hb', -⟩ := backM ft hf ys h.2 hk.2
            rw [dumpsM_sep ha' hb'] at hb
            cases hb
            have e : ", ".toList ++ jsonStr j ++ ": ".toList ++ a' ++ b' ++ ['}'] =
              ',' :: ' ' :: (jsonStr j ++ (": ".toList ++ (a' ++ (b' ++ ['}'])))) := by simp
            rw [e] at hv hne
            rw [hra.2 n v (by omega) (delim_prefix hv (delim_cons (by decide)))]
            rcases prefix_two hv with rfl | rfl | ⟨z, rfl, hz⟩
            · rfl
            · have : scanM ft n [] = .error .value := by
                obtain ⟨n, rfl⟩ : ∃ n', n = n' + 1 := ⟨n - 1, by omega⟩
                rfl
              have e1 : skipWs [','] = [','] := rfl
              have e2 : skipWs [] = [] := rfl
              simp only [e1, e2, this]
            · have e1 : skipWs (',' :: ' ' :: z) = ',' :: ' ' :: z := rfl
              simp only [e1, skipWs_sp, skipWs_prefix (back_str ft j).1 hz]
              rw [truncM ft hf ys h.2 hk.2 b' hb' j y a' hra' (trunc ft hf y h.1 hk.1 a' ha') z n hz (fun h => hne (by rw [h]))
                (by simp at hn; omega)]
end

end Verif
