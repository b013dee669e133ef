import Verif.Model.Text
/-
C01-C09: texts and spans.
-/
set_option linter.unusedSimpArgs false
namespace Verif
namespace Spec

/-- Python's documented rule for one slice bound on a sequence of length `n`: a negative bound counts
from the end; the result is then clamped into `[0, n]`. -/
def bound (n : Nat) (i : Int) : Int := max 0 (min n (if i < 0 then n + i else i))

/-- lower bound of a slice, 0 when omitted -/
def lower (n : Nat) (a : Option Int) : Int := (a.map (bound n)).getD 0

/-- upper bound of a slice, `n` when omitted -/
def upper (n : Nat) (b : Option Int) : Int := (b.map (bound n)).getD n

/-- the characters at positions `lo ≤ p < hi` -/
def between (t : Str) (lo hi : Int) : Str := (t.take hi.toNat).drop lo.toNat

/-- a span lying inside its text -/
def Inside (s : TextSpan) : Prop := 0 ≤ s.start ∧ s.start ≤ s.stop ∧ s.stop ≤ s.text.text.length

instance (s : TextSpan) : Decidable (Inside s) := by unfold Inside; infer_instance

/-- position `p` belongs to the interval `[a, b)` -/
def posIn (p a b : Int) : Prop := a ≤ p ∧ p < b

end Spec

theorem bound_eq (n : Nat) (i : Int) : Spec.bound n i = adjustIdx n i := by
  unfold Spec.bound adjustIdx; split <;> split <;> omega

theorem sliceIndices_eq (n : Nat) (a b : Option Int) :
    sliceIndices n a b = (Spec.lower n a, Spec.upper n b) := by
  unfold sliceIndices Spec.lower Spec.upper
  cases a <;> cases b <;> simp [bound_eq]

theorem lower_range (n a) : 0 ≤ Spec.lower n a ∧ Spec.lower n a ≤ n := by
  have := sliceIndices_range n a none; rw [sliceIndices_eq] at this; simp at this; omega

theorem upper_range (n b) : 0 ≤ Spec.upper n b ∧ Spec.upper n b ≤ n := by
  have := sliceIndices_range n none b; rw [sliceIndices_eq] at this; simp at this; omega

theorem between_eq {t : Str} {lo hi : Int} (h0 : 0 ≤ lo) (h : lo ≤ hi) (h2 : hi ≤ t.length) :
    pySlice t (some lo) (some hi) = Spec.between t lo hi := by
  rw [pySlice_inrange _ _ _ h0 (by omega) (by omega) h2, Spec.between, List.drop_take]
  congr 1; omega

theorem pySlice_eq_between (t : Str) (a b : Option Int) :
    pySlice t a b = Spec.between t (Spec.lower t.length a) (Spec.upper t.length b) := by
  have h := lower_range t.length a
  have h' := upper_range t.length b
  simp only [pySlice, sliceIndices_eq, Spec.between, List.drop_take]
  congr 1; omega

theorem getSlice_eq (t : TextObj) (a b : Option Int) :
    t.getSlice a b none =
      if Spec.upper t.text.length b < Spec.lower t.text.length a then .error .dataValidation
      else .ok ⟨t, Spec.lower t.text.length a, Spec.upper t.text.length b⟩ := by
  have h := lower_range t.text.length a
  have h' := upper_range t.text.length b
  simp only [TextObj.getSlice, sliceIndices_eq]
  simp only [ne_eq, not_true_eq_false, reduceCtorEq, not_false_eq_true, and_true, if_false]
  split
  · rfl
  · rw [if_neg (by omega), TextSpan.mk', if_pos (by omega)]

/-! ### C01 -/

/-- **C01** `text[a:b]` (step omitted or 1): DataValidationError exactly when the resolved stop lies
before the resolved start; otherwise the span with exactly the resolved offsets, inside the text, and
whose string is the characters between them. -/
theorem C01_text_slice (t : TextObj) (a b step : Option Int) (hs : step = none ∨ step = some 1) :
    let n := t.text.length
    let lo := Spec.lower n a
    let hi := Spec.upper n b
    (hi < lo → t.getItem (.slice a b step) = .error .dataValidation) ∧
    (lo ≤ hi → ∃ s : TextSpan, t.getItem (.slice a b step) = .ok (.span s) ∧ s.text = t ∧
      s.start = lo ∧ s.stop = hi ∧ Spec.Inside s ∧ s.str = Spec.between t.text lo hi) := by
  intro n lo hi
  have hg : t.getSlice a b step = t.getSlice a b none := by
    rcases hs with rfl | rfl <;> simp [TextObj.getSlice]
  have h := lower_range n a
  have h' := upper_range n b
  refine ⟨fun hlt => ?_, fun hle => ⟨⟨t, lo, hi⟩, ?_, rfl, rfl, rfl, ?_, ?_⟩⟩
  · simp only [TextObj.getItem, hg, getSlice_eq]; rw [if_pos hlt]; rfl
  · simp only [TextObj.getItem, hg, getSlice_eq]; rw [if_neg (show ¬ hi < lo by omega)]; rfl
  · exact ⟨h.1, hle, h'.2⟩
  · exact between_eq h.1 hle h'.2

/-- **C01** the string of the slice is Python's `str(text)[a:b]`. -/
theorem C01_text_slice_str (t : TextObj) (a b : Option Int) (s : TextSpan)
    (h : t.getItem (.slice a b none) = .ok (.span s)) : s.str = pySlice t.text a b := by
  have := C01_text_slice t a b none (.inl rfl)
  rcases Int.lt_or_le (Spec.upper t.text.length b) (Spec.lower t.text.length a) with hl | hl
  · rw [this.1 hl] at h; simp at h
  · obtain ⟨s', h1, -, -, -, -, h6⟩ := this.2 hl
    rw [h1] at h; cases h
    rw [h6, pySlice_eq_between]

/-- **C01** any other step is refused. -/
theorem C01_text_slice_step (t : TextObj) (a b : Option Int) (k : Int) (hk : k ≠ 1) :
    t.getItem (.slice a b (some k)) = .error .notImplemented := by
  simp [TextObj.getItem, TextObj.getSlice, hk]; rfl

def exText : TextObj := ⟨0, "main".toList, "ab  cd".toList⟩

example : exText.getItem (.slice (some (-4)) (some 100) none) = .ok (.span ⟨exText, 2, 6⟩) := by decide
example : exText.getItem (.slice (some 3) (some 1) none) = .error .dataValidation := by decide

/-! ### C02 -/

/-- **C02** `text[a, b]` succeeds exactly on `0 ≤ a ≤ b ≤ len`, with that very span; every other pair
is a DataValidationError. -/
theorem C02_pair_index (t : TextObj) (a b : Int) :
    (0 ≤ a ∧ a ≤ b ∧ b ≤ t.text.length → t.getItem (.pair a b) = .ok (.span ⟨t, a, b⟩)) ∧
    (¬ (0 ≤ a ∧ a ≤ b ∧ b ≤ t.text.length) → t.getItem (.pair a b) = .error .dataValidation) := by
  constructor
  · rintro ⟨h1, h2, h3⟩
    simp only [TextObj.getItem, TextObj.getPair, TextSpan.mk']
    rw [if_neg (by omega), if_neg (by omega), if_pos h2]; rfl
  · intro h
    simp only [TextObj.getItem, TextObj.getPair]
    split
    · rfl
    · rw [if_pos (by omega)]; rfl

example : exText.getItem (.pair 4 6) = .ok (.span ⟨exText, 4, 6⟩) := by decide
example : exText.getItem (.pair (-2) 6) = .error .dataValidation := by decide

/-! ### C03 -/

theorem Spec.Inside.str_eq {s : TextSpan} (h : Spec.Inside s) :
    s.str = Spec.between s.text.text s.start s.stop := between_eq h.1 h.2.1 h.2.2

theorem Spec.Inside.str_length {s : TextSpan} (h : Spec.Inside s) : (s.str.length : Int) = s.len := by
  rw [h.str_eq, Spec.between, TextSpan.len]; simp; obtain ⟨_, _, _⟩ := h; omega

theorem lower_some_mem {n : Nat} {i : Int} (h0 : 0 ≤ i) (h : i ≤ n) : Spec.lower n (some i) = i := by
  simp [Spec.lower, bound_eq, adjustIdx_of_mem _ _ h0 h]
theorem upper_some_mem {n : Nat} {i : Int} (h0 : 0 ≤ i) (h : i ≤ n) : Spec.upper n (some i) = i := by
  simp [Spec.upper, bound_eq, adjustIdx_of_mem _ _ h0 h]

theorem between_between (t : Str) {s e lo hi : Int} (h0 : 0 ≤ s) (h1 : 0 ≤ lo) (h2 : lo ≤ hi)
    (h3 : hi ≤ e - s) :
    Spec.between (Spec.between t s e) lo hi = Spec.between t (s + lo) (s + hi) := by
  simp only [Spec.between, List.drop_take, List.drop_drop, List.take_take]
  congr 1
  · omega
  · congr 1; omega

/-- **C03** slicing a span: relative to the span, contained in it, string = slice of the span's
string; DataValidationError exactly for reversed bounds. -/
theorem C03_span_slice (s : TextSpan) (hs : Spec.Inside s) (a b : Option Int) :
    let n := s.str.length
    let lo := Spec.lower n a
    let hi := Spec.upper n b
    (hi < lo → s.getItem (.slice a b none) = .error .dataValidation) ∧
    (lo ≤ hi → ∃ r : TextSpan, s.getItem (.slice a b none) = .ok (.span r) ∧ r.text = s.text ∧
      r.start = s.start + lo ∧ r.stop = s.start + hi ∧ s.start ≤ r.start ∧ r.stop ≤ s.stop ∧
      Spec.Inside r ∧ r.str = pySlice s.str a b) := by
  intro n lo hi
  have hn : s.len.toNat = n := by have := hs.str_length; simp only [n]; omega
  have hn' : (n : Int) = s.stop - s.start := by have := hs.str_length; simp only [n, TextSpan.len] at *; omega
  have h := lower_range n a
  have h' := upper_range n b
  obtain ⟨i1, i2, i3⟩ := hs
  have key : s.getItem (.slice a b none) =
      (if hi + s.start < lo + s.start then Except.error PyErr.dataValidation
       else .ok (Item.span ⟨s.text, lo + s.start, hi + s.start⟩)) := by
    simp only [TextSpan.getItem, TextSpan.getSlice, sliceIndices_eq, hn]
    simp only [ne_eq, not_true_eq_false, reduceCtorEq, not_false_eq_true, and_true, if_false]
    rw [getSlice_eq, lower_some_mem (by omega) (by omega), upper_some_mem (by omega) (by omega)]
    split <;> rfl
  refine ⟨fun hlt => ?_, fun hle =>
    ⟨⟨s.text, lo + s.start, hi + s.start⟩, ?_, rfl, ?_, ?_, ?_, ?_, ?_, ?_⟩⟩
  · rw [key, if_pos (by omega)]
  · rw [key, if_neg (by omega)]
  · exact Int.add_comm _ _
  · exact Int.add_comm _ _
  · show s.start ≤ lo + s.start; omega
  · show hi + s.start ≤ s.stop; omega
  · refine ⟨?_, ?_, ?_⟩ <;> simp only <;> omega
  · rw [pySlice_eq_between, Spec.Inside.str_eq ⟨i1, i2, i3⟩]
    have : Spec.between (Spec.between s.text.text s.start s.stop) lo hi = _ :=
      between_between s.text.text i1 h.1 hle (by omega)
    show TextSpan.str _ = _
    rw [Spec.Inside.str_eq (s := ⟨s.text, lo + s.start, hi + s.start⟩)
      ⟨by simp only; omega, by simp only; omega, by simp only; omega⟩]
    simp only [Int.add_comm lo, Int.add_comm hi]
    rw [← this, ← Spec.Inside.str_eq ⟨i1, i2, i3⟩]

def exSpan : TextSpan := ⟨exText, 1, 5⟩
example : Spec.Inside exSpan := by decide
example : exSpan.getItem (.slice (some (-2)) none none) = .ok (.span ⟨exText, 3, 5⟩) := by decide

/-- **C03** full statement for the pair form (kept in view; refuted by `C03_pair_escapes`). -/
def C03_pair_full : Prop :=
  ∀ (s : TextSpan) (a b : Int) (r : TextSpan), Spec.Inside s →
    s.getItem (.pair a b) = .ok (.span r) → s.start ≤ r.start ∧ r.stop ≤ s.stop

/-- **C03** (code violates the pair form) `span[0, 9]` runs past the end of the span. -/
theorem C03_pair_escapes : ¬ C03_pair_full := by
  intro h
  have := h exSpan 0 9 ⟨exText, 1, 6⟩ (by decide) (by decide)
  revert this; decide

/-- **C03** (code violates the pair form) a negative pair bound counts from the end of the whole text,
not of the span: on the span `[1, 5)`, the pair `(-3, 4)` gives `[4, 5)`. -/
theorem C03_pair_wraps : exSpan.getItem (.pair (-3) 4) = .ok (.span ⟨exText, 4, 5⟩) := by decide

/-- **C03** pair form, for pairs `0 ≤ a ≤ b ≤ len(span)`. Missing: other pairs, where the code does not
reject (see the counterexamples). -/
theorem C03_span_pair_partial (s : TextSpan) (hs : Spec.Inside s) (a b : Int)
    (h0 : 0 ≤ a) (h1 : a ≤ b) (h2 : b ≤ s.str.length) :
    ∃ r : TextSpan, s.getItem (.pair a b) = .ok (.span r) ∧ r.text = s.text ∧
      r.start = s.start + a ∧ r.stop = s.start + b ∧ r.stop ≤ s.stop ∧ Spec.Inside r ∧
      r.str = Spec.between s.str a b := by
  have hn := hs.str_length
  rw [TextSpan.len] at hn
  have hs' := hs
  obtain ⟨i1, i2, i3⟩ := hs
  have hins : Spec.Inside ⟨s.text, s.start + a, s.start + b⟩ :=
    ⟨by simp only; omega, by simp only; omega, by simp only; omega⟩
  refine ⟨⟨s.text, s.start + a, s.start + b⟩, ?_, rfl, rfl, rfl, ?_, hins, ?_⟩
  · simp only [TextSpan.getItem, TextSpan.getPair, getSlice_eq]
    rw [lower_some_mem (by omega) (by omega), upper_some_mem (by omega) (by omega),
      if_neg (by omega), Int.add_comm a, Int.add_comm b]; rfl
  · show s.start + b ≤ s.stop; omega
  · rw [hins.str_eq, hs'.str_eq, between_between _ i1 h0 h1 (by omega)]

example : (0:Int) ≤ 1 ∧ (1:Int) ≤ 3 ∧ (3:Int) ≤ exSpan.str.length := by decide

/-! ### C04 -/

/-- **C04** full statement (refuted below). -/
def C04_full : Prop :=
  ∀ (s : TextSpan) (i : Int), Spec.Inside s → s.getItem (.int i) = (pyIndex s.str i).map .char

/-- **C04** (code violates) an index past the end of the span returns a character outside of it. -/
theorem C04_out_of_range_leaks :
    exSpan.str = "b  c".toList ∧ exSpan.getItem (.int 4) = .ok (.char 'd') ∧
    exSpan.getItem (.int (-9)) = .ok (.char 'b') := by decide

theorem C04_not_full : ¬ C04_full := by
  intro h
  have := h exSpan 4 (by decide)
  revert this; decide

/-- **C04** for `-len ≤ i < len` the answer is the i-th character of the span's string. Missing: the
rejection of other indices, which the code does not perform. -/
theorem C04_span_index_partial (s : TextSpan) (hs : Spec.Inside s) (i : Int)
    (h0 : -(s.str.length : Int) ≤ i) (h1 : i < s.str.length) :
    ∃ c, s.getItem (.int i) = .ok (.char c) ∧
      s.str[(if i < 0 then s.str.length + i else i).toNat]? = some c := by
  have hn := hs.str_length
  have hl : s.len.toNat = s.str.length := by omega
  have hstr := hs.str_eq
  rw [TextSpan.len] at hn
  obtain ⟨i1, i2, i3⟩ := hs
  let j : Int := if i < 0 then s.str.length + i else i
  have hj : 0 ≤ j ∧ j < s.str.length := by simp only [j]; split <;> omega
  have ha : adjustIdx s.str.length i = j := by
    simp only [adjustIdx, j]; split <;> split <;> omega
  have hlt : (j + s.start).toNat < s.text.text.length := by omega
  refine ⟨s.text.text[(j + s.start).toNat], ?_, ?_⟩
  · simp only [TextSpan.getItem, TextSpan.getInt, hl, sliceIndices, ha, pyIndex]
    rw [if_neg (by omega), if_neg (by omega), List.getElem?_eq_getElem hlt]; rfl
  · show s.str[j.toNat]? = _
    rw [hstr, Spec.between, List.getElem?_drop, List.getElem?_take, if_pos (by omega),
      ← List.getElem?_eq_getElem hlt]
    congr 1; omega

example : exSpan.getItem (.int (-1)) = .ok (.char 'c') := by decide

/-! ### C05 -/

/-- **C05** `a.covered_by(b)`, for a non-empty `a`, iff every position of `a` is a position of `b`. -/
theorem C05_covered_by (s o : TextSpan) (hs : s.start < s.stop) :
    s.coveredBy o = true ↔ ∀ p, Spec.posIn p s.start s.stop → Spec.posIn p o.start o.stop := by
  simp only [TextSpan.coveredBy, Bool.and_eq_true, decide_eq_true_eq, Spec.posIn]
  constructor
  · intro h p; omega
  · intro h
    have h1 := h s.start (by omega)
    have h2 := h (s.stop - 1) (by omega)
    omega

/-- **C05** `a.intersected_by(b)`, for non-empty spans, iff they share a position. -/
theorem C05_intersected_by (s o : TextSpan) (hs : s.start < s.stop) (ho : o.start < o.stop) :
    s.intersectedBy o = true ↔ ∃ p, Spec.posIn p s.start s.stop ∧ Spec.posIn p o.start o.stop := by
  simp only [TextSpan.intersectedBy, Bool.and_eq_true, decide_eq_true_eq, Spec.posIn]
  constructor
  · intro h; exact ⟨max s.start o.start, by omega⟩
  · rintro ⟨p, h⟩; omega

/-- **C05** symmetry of `intersected_by`, for all spans. -/
theorem C05_intersected_symm (s o : TextSpan) : s.intersectedBy o = o.intersectedBy s := by
  rw [Bool.eq_iff_iff]; simp only [TextSpan.intersectedBy, Bool.and_eq_true, decide_eq_true_eq]; omega

/-- **C05** `covered_by` is a partial order on offsets. -/
theorem C05_covered_order :
    (∀ s, TextSpan.coveredBy s s = true) ∧
    (∀ a b c : TextSpan, a.coveredBy b = true → b.coveredBy c = true → a.coveredBy c = true) ∧
    (∀ a b : TextSpan, a.coveredBy b = true → b.coveredBy a = true →
      a.start = b.start ∧ a.stop = b.stop) := by
  simp only [TextSpan.coveredBy, Bool.and_eq_true, decide_eq_true_eq]
  refine ⟨?_, ?_, ?_⟩ <;> intros <;> omega

/-- **C05** the tuple overloads agree with the span overloads. -/
theorem C05_overloads (s o : TextSpan) :
    s.coveredByPair (o.start, o.stop) = s.coveredBy o ∧
    s.intersectedByPair (o.start, o.stop) = s.intersectedBy o := ⟨rfl, rfl⟩

example : exSpan.start < exSpan.stop ∧ exSpan.coveredBy ⟨exText, 0, 5⟩ = true ∧
    exSpan.intersectedBy ⟨exText, 4, 6⟩ = true ∧ exSpan.intersectedBy ⟨exText, 5, 6⟩ = false := by decide

/-! ### C06 -/

theorem countLead_eq (ws : Char → Bool) (l : Str) :
    TextSpan.countLead ws l = (l.takeWhile ws).length := by
  induction l with
  | nil => rfl
  | cons c l ih =>
    simp only [TextSpan.countLead, List.takeWhile_cons]
    cases ws c <;> simp [ih]; omega

namespace Spec
/-- remove leading whitespace -/
def trimLeft (ws : Char → Bool) (l : Str) : Str := l.dropWhile ws
/-- remove trailing whitespace -/
def trimRight (ws : Char → Bool) (l : Str) : Str := (l.reverse.dropWhile ws).reverse
end Spec

theorem trimRight_append_singleton (ws : Char → Bool) (l : Str) (c : Char) :
    Spec.trimRight ws (l ++ [c]) = if ws c then Spec.trimRight ws l else l ++ [c] := by
  simp only [Spec.trimRight, List.reverse_append, List.reverse_cons, List.reverse_nil, List.nil_append,
    List.singleton_append, List.dropWhile_cons]
  split <;> simp

theorem trimRight_length_le (ws : Char → Bool) (l : Str) : (Spec.trimRight ws l).length ≤ l.length := by
  have := (List.dropWhile_suffix (l := l.reverse) ws).length_le
  simpa [Spec.trimRight] using this

theorem trimRight_eq_take (ws : Char → Bool) (l : Str) :
    Spec.trimRight ws l = l.take (Spec.trimRight ws l).length := by
  have h : Spec.trimRight ws l <+: l := by
    have := (List.dropWhile_suffix (l := l.reverse) ws)
    rw [← List.reverse_prefix] at this
    simpa [Spec.trimRight] using this
  exact List.prefix_iff_eq_take.mp h

theorem pyIndex_nonneg {α} (l : List α) (i : Int) (h0 : 0 ≤ i) (h : i < l.length) :
    pyIndex l i = .ok (l[i.toNat]'(by omega)) := by
  simp only [pyIndex]
  rw [if_neg (by omega), if_neg (by omega), List.getElem?_eq_getElem (by omega)]

theorem between_snoc {t : Str} {lo hi : Int} (h0 : 0 ≤ lo) (h : lo < hi) (h2 : hi ≤ t.length) :
    Spec.between t lo hi = Spec.between t lo (hi - 1) ++ [t[(hi - 1).toNat]'(by omega)] := by
  have : hi.toNat = (hi - 1).toNat + 1 := by omega
  simp only [Spec.between, this]
  rw [List.take_succ_eq_append_getElem (by omega), List.drop_append_of_le_length (by simp; omega)]

theorem between_length {t : Str} {lo hi : Int} (h0 : 0 ≤ lo) (h : lo ≤ hi) (h2 : hi ≤ t.length) :
    ((Spec.between t lo hi).length : Int) = hi - lo := by
  simp [Spec.between]; omega

theorem backLoop_eq (ws : Char → Bool) (t : Str) (k : Nat) : ∀ (lo hi : Int), 0 ≤ lo → lo + k = hi →
    hi ≤ t.length →
    TextSpan.backLoop ws t k hi = lo + (Spec.trimRight ws (Spec.between t lo hi)).length := by
  induction k with
  | zero =>
    intro lo hi h0 h1 h2
    have hl := between_length h0 (by omega) h2
    have := trimRight_length_le ws (Spec.between t lo hi)
    simp only [TextSpan.backLoop]; omega
  | succ k ih =>
    intro lo hi h0 h1 h2
    rw [TextSpan.backLoop, pyIndex_nonneg _ _ (by omega) (by omega)]
    have hl := between_length h0 (by omega) h2
    rw [between_snoc h0 (by omega) h2, trimRight_append_singleton]
    simp only
    cases hw : ws (t[(hi - 1).toNat]'(by omega)) with
    | false =>
      have := between_length (t := t) h0 (show lo ≤ hi - 1 by omega) (by omega)
      simp; omega
    | true => simp only [Bool.not_true, Bool.false_eq_true, if_false, if_true]
              exact ih lo (hi - 1) h0 (by omega) (by omega)

theorem between_drop {t : Str} {lo hi : Int} (k : Nat) (h0 : 0 ≤ lo) :
    (Spec.between t lo hi).drop k = Spec.between t (lo + k) hi := by
  simp only [Spec.between, List.drop_drop]; congr 1; omega

theorem between_take {t : Str} {lo hi : Int} (k : Nat) (h0 : 0 ≤ lo) (h : lo + k ≤ hi) :
    (Spec.between t lo hi).take k = Spec.between t lo (lo + k) := by
  simp only [Spec.between, List.drop_take, List.take_take]; congr 1; omega

theorem dropWhile_eq_drop (ws : Char → Bool) (l : Str) :
    l.dropWhile ws = l.drop (l.takeWhile ws).length := by
  induction l with
  | nil => rfl
  | cons c l ih => simp only [List.dropWhile_cons, List.takeWhile_cons]; split <;> simp [ih]

theorem dropWhile_nil_all (ws : Char → Bool) (l : Str) (h : l.dropWhile ws = []) :
    ∀ c ∈ l, ws c = true := by
  induction l with
  | nil => simp
  | cons c l ih =>
    rw [List.dropWhile_cons] at h
    split at h
    · rename_i hc; intro x hx; rcases List.mem_cons.mp hx with rfl | hx
      · exact hc
      · exact ih h x hx
    · simp at h

/-- What one `trim` computes, on every span inside its text. -/
theorem trim_spec (ws : Char → Bool) (s : TextSpan) (hs : Spec.Inside s) :
    ∃ r, s.trim ws = .ok r ∧ s.trimInPlace ws = .ok r ∧ r.text = s.text ∧
      s.start ≤ r.start ∧ r.stop ≤ s.stop ∧ Spec.Inside r ∧
      r.str = (if (s.str.head?.any ws) then Spec.trimLeft ws s.str else Spec.trimRight ws s.str) := by
  have hstr := hs.str_eq
  have hlen := hs.str_length
  have hs' := hs
  obtain ⟨i1, i2, i3⟩ := hs
  by_cases h0 : s.len = 0
  · refine ⟨s, ?_, ?_, rfl, Int.le_refl _, Int.le_refl _, hs', ?_⟩
    · simp [TextSpan.trim, TextSpan.trimOffsets, h0]; rfl
    · simp [TextSpan.trimInPlace, TextSpan.trimOffsets, h0]; rfl
    · have : s.str = [] := List.length_eq_zero_iff.mp (by omega)
      simp [this, Spec.trimRight]
  have h0' : s.start < s.stop := by rw [TextSpan.len] at h0; omega
  rw [TextSpan.len] at hlen
  have hfirst := pyIndex_nonneg s.text.text s.start i1 (by omega)
  have hlast := pyIndex_nonneg s.text.text (s.stop - 1) (by omega) (by omega)
  have hhead : s.str.head? = some (s.text.text[s.start.toNat]'(by omega)) := by
    rw [hstr, Spec.between, List.head?_drop, List.getElem?_take, if_pos (by omega),
      List.getElem?_eq_getElem]
  have hany : s.str.head?.any ws = ws (s.text.text[s.start.toNat]'(by omega)) := by
    rw [hhead]; rfl
  rw [hany]
  cases hw : ws (s.text.text[s.start.toNat]'(by omega)) with
  | true =>
    -- forward
    have hc := countLead_eq ws s.str
    have hcle : (s.str.takeWhile ws).length ≤ s.str.length :=
      (List.takeWhile_prefix (l := s.str) ws).length_le
    have hcpos : 0 < (s.str.takeWhile ws).length := by
      cases hx : s.str with
      | nil => rw [hx] at hhead; simp at hhead
      | cons c l =>
        rw [hx] at hhead; simp only [List.head?_cons, Option.some.injEq] at hhead
        simp [List.takeWhile_cons, hhead, hw]
    by_cases hall : s.stop ≤ s.start + (s.str.takeWhile ws).length
    · have hoff : s.trimOffsets ws = .ok (some (s.start, s.start)) := by
        simp only [TextSpan.trimOffsets, if_neg h0, hfirst, hc]
        simp [bind, Except.bind, pure, Except.pure, hw, hall]
      refine ⟨⟨s.text, s.start, s.start⟩, ?_, ?_, rfl, Int.le_refl _, i2, ⟨i1, Int.le_refl _, ?_⟩, ?_⟩
      · simp [TextSpan.trim, hoff, bind, Except.bind, TextSpan.mk']
      · simp [TextSpan.trimInPlace, hoff, bind, Except.bind, pure, Except.pure]
      · show s.start ≤ s.text.text.length; omega
      · have e1 : TextSpan.str ⟨s.text, s.start, s.start⟩ = [] := by
          have := Spec.Inside.str_length (s := ⟨s.text, s.start, s.start⟩)
            ⟨i1, Int.le_refl _, by show s.start ≤ s.text.text.length; omega⟩
          simp only [TextSpan.len] at this
          exact List.length_eq_zero_iff.mp (by omega)
        rw [e1, if_pos rfl, Spec.trimLeft, dropWhile_eq_drop]
        rw [List.drop_eq_nil_of_le]; omega
    · have hoff : s.trimOffsets ws = .ok (some (s.start + (s.str.takeWhile ws).length, s.stop)) := by
        have hne : s.str.takeWhile ws ≠ [] := by
          intro h; rw [h] at hcpos; simp at hcpos
        simp only [TextSpan.trimOffsets, if_neg h0, hfirst, hc]
        simp only [bind, Except.bind, hw, if_true, pure, Except.pure]
        rw [if_neg (by omega), if_pos (by omega)]
        simp only [TextObj.offset]
        rw [if_pos (by omega)]
        simp only
        rw [if_pos (by omega)]
      have hins : Spec.Inside ⟨s.text, s.start + (s.str.takeWhile ws).length, s.stop⟩ :=
        ⟨by simp only; omega, by simp only; omega, i3⟩
      refine ⟨⟨s.text, s.start + (s.str.takeWhile ws).length, s.stop⟩, ?_, ?_, rfl,
        by simp only; omega, Int.le_refl _, hins, ?_⟩
      · simp only [TextSpan.trim, hoff, bind, Except.bind, TextSpan.mk']
        rw [if_pos (by omega)]
      · simp only [TextSpan.trimInPlace, hoff, bind, Except.bind, pure, Except.pure]
      · rw [hins.str_eq, if_pos rfl, Spec.trimLeft, dropWhile_eq_drop]
        simp only
        conv => rhs; rw [hstr]
        rw [between_drop _ i1, hstr]
  | false =>
    have hsn := between_snoc i1 h0' i3
    simp only [Bool.false_eq_true, if_false]
    have hb := backLoop_eq ws s.text.text s.len.toNat s.start s.stop i1
      (by rw [TextSpan.len]; omega) i3
    rw [← hstr] at hb
    have htl := trimRight_length_le ws s.str
    cases hw2 : ws (s.text.text[(s.stop - 1).toNat]'(by omega)) with
    | false =>
      have hoff : s.trimOffsets ws = .ok none := by
        simp only [TextSpan.trimOffsets, if_neg h0, hfirst, hlast, bind, Except.bind, hw, hw2,
          pure, Except.pure, Bool.false_eq_true, if_false]
        rw [if_neg (by omega), if_neg (by simp)]
      refine ⟨s, ?_, ?_, rfl, Int.le_refl _, Int.le_refl _, hs', ?_⟩
      · simp [TextSpan.trim, hoff, bind, Except.bind, pure, Except.pure]
      · simp [TextSpan.trimInPlace, hoff, bind, Except.bind, pure, Except.pure]
      · rw [hstr, hsn, trimRight_append_singleton, hw2]; simp
    | true =>
      -- the head is not whitespace so the right trim is non empty
      have htpos : 0 < (Spec.trimRight ws s.str).length := by
        rcases Nat.eq_zero_or_pos (Spec.trimRight ws s.str).length with hz | hz
        · exfalso
          have hnil : Spec.trimRight ws s.str = [] := List.length_eq_zero_iff.mp hz
          simp only [Spec.trimRight, List.reverse_eq_nil_iff] at hnil
          have hnil := dropWhile_nil_all ws _ hnil
          have hm : (s.text.text[s.start.toNat]'(by omega)) ∈ s.str.reverse :=
            List.mem_reverse.mpr (List.mem_of_head? hhead)
          have := hnil _ hm
          rw [hw] at this; simp at this
        · exact hz
      have hlt : (Spec.trimRight ws s.str).length < s.str.length := by
        rw [hstr, hsn, trimRight_append_singleton, hw2, if_pos rfl]
        have := trimRight_length_le ws (Spec.between s.text.text s.start (s.stop - 1))
        simp; omega
      have hoff : s.trimOffsets ws =
          .ok (some (s.start, s.start + (Spec.trimRight ws s.str).length)) := by
        simp only [TextSpan.trimOffsets, if_neg h0, hfirst, hlast, bind, Except.bind, hw, hw2,
          pure, Except.pure, Bool.false_eq_true, if_false, if_true, hb]
        rw [if_neg (by omega), if_pos (by omega)]
        simp only [TextObj.offset]
        rw [if_pos (by omega)]
        simp only
        rw [if_pos (by omega)]
      have hins : Spec.Inside ⟨s.text, s.start, s.start + (Spec.trimRight ws s.str).length⟩ :=
        ⟨i1, by simp only; omega, by simp only; omega⟩
      refine ⟨⟨s.text, s.start, s.start + (Spec.trimRight ws s.str).length⟩, ?_, ?_, rfl,
        Int.le_refl _, by simp only; omega, hins, ?_⟩
      · simp only [TextSpan.trim, hoff, bind, Except.bind, TextSpan.mk']
        rw [if_pos (by omega)]
      · simp only [TextSpan.trimInPlace, hoff, bind, Except.bind, pure, Except.pure]
      · rw [hins.str_eq]
        simp only
        conv => rhs; rw [trimRight_eq_take ws s.str]
        conv => rhs; rw [hstr]
        rw [between_take _ i1 (by rw [← hstr]; omega), hstr]

theorem dropWhile_filter (ws : Char → Bool) (l : Str) :
    (l.dropWhile ws).filter (fun c => !ws c) = l.filter (fun c => !ws c) := by
  induction l with
  | nil => rfl
  | cons c l ih =>
    simp only [List.dropWhile_cons]
    split
    · rename_i h; simp [ih, h]
    · rfl

theorem trimRight_filter (ws : Char → Bool) (l : Str) :
    (Spec.trimRight ws l).filter (fun c => !ws c) = l.filter (fun c => !ws c) := by
  rw [Spec.trimRight, List.filter_reverse, dropWhile_filter, List.filter_reverse, List.reverse_reverse]

/-- **C06** full statement: after `trim` both ends are non-whitespace. Refuted by `C06_both_ends`. -/
def C06_full : Prop :=
  ∀ (ws : Char → Bool) (s r : TextSpan), Spec.Inside s → s.trim ws = .ok r →
    (r.str.head?.any ws = false ∧ r.str.getLast?.any ws = false)

def exWs : Char → Bool := fun c => c == ' '
def exText2 : TextObj := ⟨1, "main".toList, " x ".toList⟩

/-- **C06** (code violates) whitespace on both ends: only the left end is trimmed. -/
theorem C06_both_ends : ¬ C06_full := by
  intro h
  have := h exWs ⟨exText2, 0, 3⟩ ⟨exText2, 1, 3⟩ (by decide) (by rfl)
  revert this; decide

/-- **C06** what holds of one `trim`/`trim_`: it never raises, both agree, the result lies inside the
original, keeps every non-whitespace character in order, and its string is the original with the left
whitespace removed if there is any, else with the right whitespace removed. Missing: the right end is
not trimmed when the left end was (see `C06_both_ends`). -/
theorem C06_trim_partial (ws : Char → Bool) (s : TextSpan) (hs : Spec.Inside s) :
    ∃ r, s.trim ws = .ok r ∧ s.trimInPlace ws = .ok r ∧ r.text = s.text ∧
      s.start ≤ r.start ∧ r.stop ≤ s.stop ∧ Spec.Inside r ∧
      r.str = (if s.str.head?.any ws then Spec.trimLeft ws s.str else Spec.trimRight ws s.str) ∧
      r.str.filter (fun c => !ws c) = s.str.filter (fun c => !ws c) := by
  obtain ⟨r, h1, h2, h3, h4, h5, h6, h7⟩ := trim_spec ws s hs
  refine ⟨r, h1, h2, h3, h4, h5, h6, h7, ?_⟩
  rw [h7]; split
  · exact dropWhile_filter ws _
  · exact trimRight_filter ws _

theorem trimLeft_head (ws : Char → Bool) (l : Str) : (Spec.trimLeft ws l).head?.any ws = false := by
  rw [Spec.trimLeft]
  have := List.head?_dropWhile_not ws l
  cases h : (l.dropWhile ws).head? with
  | none => rfl
  | some c => rw [h] at this; simpa using this

theorem trimRight_getLast (ws : Char → Bool) (l : Str) :
    (Spec.trimRight ws l).getLast?.any ws = false := by
  rw [Spec.trimRight, List.getLast?_reverse]
  exact trimLeft_head ws l.reverse

theorem trimRight_head (ws : Char → Bool) (l : Str) (h : l.head?.any ws = false) :
    (Spec.trimRight ws l).head?.any ws = false := by
  rw [trimRight_eq_take, List.head?_take]
  split
  · rfl
  · exact h

/-- **C06** `trim` applied twice does what the property asks for, on every span: both ends are
non-whitespace, or the result is empty, and the string is the original trimmed on both sides. -/
theorem C06_trim_twice (ws : Char → Bool) (s : TextSpan) (hs : Spec.Inside s) :
    ∃ r q, s.trim ws = .ok r ∧ r.trim ws = .ok q ∧ Spec.Inside q ∧ s.start ≤ q.start ∧ q.stop ≤ s.stop ∧
      q.str = Spec.trimRight ws (Spec.trimLeft ws s.str) ∧
      q.str.head?.any ws = false ∧ q.str.getLast?.any ws = false := by
  obtain ⟨r, h1, -, -, h4, h5, h6, h7⟩ := trim_spec ws s hs
  obtain ⟨q, g1, -, -, g4, g5, g6, g7⟩ := trim_spec ws r h6
  have hhead : r.str.head?.any ws = false := by
    rw [h7]; split
    · exact trimLeft_head ws _
    · rename_i hn; exact trimRight_head ws _ (by rw [Bool.not_eq_true] at hn; exact hn)
  rw [hhead] at g7
  simp only [Bool.false_eq_true, if_false] at g7
  have hq : q.str = Spec.trimRight ws (Spec.trimLeft ws s.str) := by
    rw [g7, h7]; split
    · rfl
    · rename_i hn
      have e1 : Spec.trimLeft ws s.str = s.str := by
        unfold Spec.trimLeft
        cases hx : s.str with
        | nil => rfl
        | cons c l => rw [hx] at hn; simp at hn; simp [List.dropWhile_cons, hn]
      rw [e1]
      simp only [Spec.trimRight, List.reverse_reverse]
      congr 1
      have := trimLeft_head ws s.str.reverse
      rw [Spec.trimLeft] at this
      cases hx : s.str.reverse.dropWhile ws with
      | nil => rfl
      | cons c l => rw [hx] at this; simp at this; simp [List.dropWhile_cons, this]
  refine ⟨r, q, h1, g1, g6, by omega, by omega, hq, ?_, ?_⟩
  · rw [g7]; exact trimRight_head ws _ hhead
  · rw [g7]; exact trimRight_getLast ws _

example : Spec.Inside ⟨exText2, 0, 3⟩ := by decide
example : TextSpan.trim exWs ⟨exText2, 1, 3⟩ = .ok ⟨exText2, 1, 2⟩ := by rfl

/-! ### C07 -/

namespace Spec
/-- offsets in non-decreasing order -/
def Sorted : List Int → Prop
  | a :: b :: rest => a ≤ b ∧ Sorted (b :: rest)
  | _ => True
/-- running sums of lengths, starting at `o` -/
def accum (o : Int) : List Str → List Int
  | [] => [o]
  | s :: rest => o :: accum (o + s.length) rest
end Spec

/-- **C07** cutting a text at any sorted offsets from `o` (here the first offset) to the last one:
the segments concatenate to the text between those, and accumulating their lengths gives the offsets
back. -/
theorem C07_compile_general (t : TextObj) (o : Int) (offs : List Int)
    (hsort : Spec.Sorted (o :: offs)) (h0 : 0 ≤ o)
    (hlast : (o :: offs).getLast (by simp) ≤ t.text.length) :
    (t.compile (o :: offs)).flatten = Spec.between t.text o ((o :: offs).getLast (by simp)) ∧
    Spec.accum o (t.compile (o :: offs)) = o :: offs := by
  induction offs generalizing o with
  | nil => simp [TextObj.compile, Spec.between, Spec.accum, List.drop_take]
  | cons b rest ih =>
    obtain ⟨hab, hrest⟩ := hsort
    have hl : (b :: rest).getLast (by simp) ≤ t.text.length := by simpa using hlast
    have hble : b ≤ (b :: rest).getLast (by simp) := by
      clear ih hlast hl
      induction rest generalizing b with
      | nil => simp
      | cons c rest ih2 =>
        have h3 := ih2 c (by have := hrest.1; omega) hrest.2
        have h4 := hrest.1
        simp only [List.getLast_cons_cons] at h3 ⊢; omega
    obtain ⟨e1, e2⟩ := ih b hrest (by omega) hl
    have hseg : pySlice t.text (some o) (some b) = Spec.between t.text o b :=
      between_eq h0 hab (by omega)
    constructor
    · simp only [TextObj.compile, List.flatten_cons, e1, hseg, List.getLast_cons_cons]
      generalize (b :: rest).getLast (by simp) = z at *
      simp only [Spec.between]
      have : z.toNat = b.toNat + (z.toNat - b.toNat) := by omega
      have hl2 : (t.text.take b.toNat).length = b.toNat := by simp; omega
      rw [this, List.take_add, List.drop_append_of_le_length (by omega)]
      congr 1
      rw [List.drop_append, hl2]
      simp [show o.toNat - b.toNat = 0 by omega]
    · simp only [TextObj.compile, Spec.accum, hseg]
      rw [between_length h0 hab (by omega)]
      rw [show o + (b - o) = b by omega, e2]

/-- **C07** with first offset 0 and last offset `len(text)`: nothing is lost. -/
theorem C07_compile_lossless (t : TextObj) (offs : List Int) (hsort : Spec.Sorted (0 :: offs))
    (hlast : (0 :: offs).getLast (by simp) = t.text.length) :
    (t.compile (0 :: offs)).flatten = t.text ∧ Spec.accum 0 (t.compile (0 :: offs)) = 0 :: offs := by
  have := C07_compile_general t 0 offs hsort (by omega) (by omega)
  rw [hlast] at this
  simpa [Spec.between] using this

example : exText.compile [0, 2, 2, 6] = ["ab".toList, [], "  cd".toList] := by decide
example : Spec.Sorted [0, 2, 2, 6] := by simp [Spec.Sorted]

/-! ### C08 -/

/-- **C08** full statement: equal spans hash equal, whatever the hash of the key tuple. -/
def C08_full : Prop :=
  ∀ (s o : TextSpan), s.eqArg (.span o) = true → s.hashKey = o.hashKey

/-- **C08** (code violates) spans with equal offsets over different texts are `==` but hash
differently. -/
theorem C08_eq_hash_mismatch : ¬ C08_full := by
  intro h
  have := h ⟨exText, 1, 2⟩ ⟨exText2, 1, 2⟩ (by decide)
  revert this; decide

/-- **C08** within one text object equal spans hash equal, for every hash function; and `==` is an
equivalence on spans. Missing: spans of different texts. -/
theorem C08_eq_hash_partial (H : Nat × Int × Int → Int) :
    (∀ s o : TextSpan, s.text.oid = o.text.oid → s.eqArg (.span o) = true →
      H s.hashKey = H o.hashKey) ∧
    (∀ s : TextSpan, s.eqArg (.span s) = true) ∧
    (∀ s o : TextSpan, s.eqArg (.span o) = o.eqArg (.span s)) ∧
    (∀ a b c : TextSpan, a.eqArg (.span b) = true → b.eqArg (.span c) = true →
      a.eqArg (.span c) = true) := by
  refine ⟨?_, ?_, ?_, ?_⟩
  · intro s o ht h
    simp only [TextSpan.eqArg, decide_eq_true_eq, Prod.mk.injEq] at h
    simp [TextSpan.hashKey, ht, h]
  · intro s; simp [TextSpan.eqArg]
  · intro s o; rw [Bool.eq_iff_iff]; simp only [TextSpan.eqArg, decide_eq_true_eq]; exact eq_comm
  · intro a b c h1 h2; simp only [TextSpan.eqArg, decide_eq_true_eq] at *; exact h1.trans h2

/-- **C08** within one text, `==` says exactly that both spans have the same offsets; comparing with a
string says that the covered text is that string. -/
theorem C08_eq_meaning (s o : TextSpan) (u : Str) :
    (s.eqArg (.span o) = true ↔ s.start = o.start ∧ s.stop = o.stop) ∧
    (s.eqArg (.str u) = true ↔ s.str = u) := by
  simp [TextSpan.eqArg]

example : TextSpan.eqArg ⟨exText, 1, 2⟩ (.span ⟨exText, 1, 2⟩) = true := by decide

/-! ### C09 -/

/-- **C09** text and span from the start of `l` to the end of `r`. -/
theorem C09_span_to (l r : TextSpan) (hl : Spec.Inside l) (hr : Spec.Inside r) (ht : l.text = r.text)
    (h : l.start ≤ r.stop) :
    l.textTo r = Spec.between l.text.text l.start r.stop ∧
    ∃ s, l.spanTo r = .ok s ∧ s.text = l.text ∧ s.start = l.start ∧ s.stop = r.stop ∧
      s.str = Spec.between l.text.text l.start r.stop := by
  obtain ⟨h1, h2, h3⟩ := hl
  obtain ⟨g1, g2, g3⟩ := hr
  rw [← ht] at g3
  have e := between_eq (t := l.text.text) h1 h g3
  refine ⟨e, ⟨l.text, l.start, r.stop⟩, ?_, rfl, rfl, rfl, e⟩
  rw [TextSpan.spanTo, getSlice_eq, lower_some_mem h1 (by omega), upper_some_mem (by omega) g3,
    if_neg (by omega)]

/-- **C09** when `r` ends before `l` starts: empty text, and `span_to` raises. -/
theorem C09_span_to_reversed (l r : TextSpan) (hl : Spec.Inside l) (hr : Spec.Inside r)
    (ht : l.text = r.text) (h : r.stop < l.start) :
    l.textTo r = [] ∧ l.spanTo r = .error .dataValidation := by
  obtain ⟨h1, h2, h3⟩ := hl
  obtain ⟨g1, g2, g3⟩ := hr
  rw [← ht] at g3
  constructor
  · rw [TextSpan.textTo, pySlice_inrange _ _ _ h1 (by omega) (by omega) g3]
    rw [show (r.stop - l.start).toNat = 0 by omega]; simp
  · rw [TextSpan.spanTo, getSlice_eq, lower_some_mem h1 (by omega), upper_some_mem (by omega) g3,
      if_pos h]

example : TextSpan.spanTo ⟨exText, 0, 2⟩ ⟨exText, 4, 5⟩ = .ok ⟨exText, 0, 5⟩ := by decide

end Verif
