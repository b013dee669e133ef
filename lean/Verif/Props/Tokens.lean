import Verif.Model.Tokens
/-
C55: sequence_to_textspans.
-/
namespace Verif
set_option linter.unusedSimpArgs false

namespace Spec.Tokens

/-- `tok` occurs in `s` at place `i` -/
def OccursAt (s tok : Str) (i : Nat) : Prop := ∃ a b, s = a ++ tok ++ b ∧ a.length = i

/-- `i` is the first place at or after `pos` where `tok` occurs -/
def FirstFrom (s tok : Str) (pos i : Nat) : Prop :=
  pos ≤ i ∧ OccursAt s tok i ∧ ∀ j, pos ≤ j → j < i → ¬ OccursAt s tok j

/-- what a token is given, when the previous span ended at `pos` and `ahead` are the next `k` tokens: its first
occurrence from there on; or nothing, at the place reached — but only when it does not occur any more, or one of
the next tokens occurs before it does -/
def Given (s : Str) (pos : Nat) (tok : Str) (ahead : List Str) (a b : Nat) : Prop :=
  (b = a + tok.length ∧ FirstFrom s tok pos a) ∨
  (a = pos ∧ b = pos ∧ ((∀ j, pos ≤ j → ¬ OccursAt s tok j) ∨
    ∃ l, FirstFrom s tok pos l ∧ ∃ t ∈ ahead, ∃ c, FirstFrom s t pos c ∧ c < l))

/-- every token is given its span, from left to right -/
def AllGiven (s : Str) (k : Nat) : Nat → List Str → List (Nat × Nat) → Prop
  | _, [], [] => True
  | pos, tok :: toks, (a, b) :: out => Given s pos tok (toks.take k) a b ∧ AllGiven s k b toks out
  | _, _, _ => False

end Spec.Tokens
open Spec.Tokens

theorem occursAt_iff (s tok : Str) (i : Nat) :
    OccursAt s tok i ↔ i + tok.length ≤ s.length ∧ (s.drop i).take tok.length = tok := by
  constructor
  · rintro ⟨a, b, rfl, rfl⟩
    simp [List.append_assoc, List.drop_append, List.take_append]
  · rintro ⟨h1, h2⟩
    refine ⟨s.take i, (s.drop i).drop tok.length, ?_, by simp; omega⟩
    have h3 := (List.take_append_drop tok.length (s.drop i)).symm
    rw [h2] at h3
    rw [List.append_assoc, ← h3, List.take_append_drop]

/-- when the stop does not cut into the string, `find` finds the first occurrence -/
theorem pyFind_spec (s tok : Str) (pos : Nat) (stop : Option Int)
    (hstop : ∀ e, stop = some e → (s.length : Int) ≤ e) :
    (∀ i, pyFind s tok pos stop = some i → FirstFrom s tok pos i) ∧
    (pyFind s tok pos stop = none → ∀ j, pos ≤ j → ¬ OccursAt s tok j) := by
  have he : findEnd s stop = s.length := by
    cases stop with
    | none => rfl
    | some e =>
      have := hstop e rfl
      unfold findEnd adjustIdx
      simp only
      split
      · omega
      · simp
  unfold pyFind
  simp only [he]
  constructor
  · intro i hi
    rw [List.find?_eq_some_iff_append] at hi
    obtain ⟨hp, as, bs, heq, hno⟩ := hi
    simp only [Bool.and_eq_true, decide_eq_true_eq] at hp
    refine ⟨hp.1.1, (occursAt_iff _ _ _).2 ⟨hp.1.2, hp.2⟩, ?_⟩
    intro j hj hji hocc
    have hmem : j ∈ as := by
      have hlen : as.length = i := by
        have h1 := congrArg (fun l => l[as.length]?) heq
        simp only [List.getElem?_append_right (Nat.le_refl _), Nat.sub_self, List.getElem?_cons_zero] at h1
        have h2 := List.getElem?_eq_some_iff.1 h1
        obtain ⟨h3, h4⟩ := h2
        simpa using h4
      have h2 : as = List.range i := by
        have := congrArg (List.take as.length) heq
        rw [List.take_left] at this
        rw [← this, List.take_range, hlen]
        congr 1
        have := (occursAt_iff s tok j).1 hocc
        omega
      rw [h2]; simpa using hji
    have := hno j hmem
    rw [occursAt_iff] at hocc
    simp [hj, hocc.1, hocc.2] at this
  · intro hn j hj hocc
    rw [List.find?_eq_none] at hn
    rw [occursAt_iff] at hocc
    have := hn j (by simp; omega)
    simp [hj, hocc.1, hocc.2] at this

theorem FirstFrom.unique {s tok : Str} {pos i j : Nat} (h1 : FirstFrom s tok pos i) (h2 : FirstFrom s tok pos j) :
    i = j := by
  rcases Nat.lt_trichotomy i j with h | h | h
  · exact absurd h1.2.1 (h2.2.2 i h1.1 h)
  · exact h
  · exact absurd h2.2.1 (h1.2.2 j h2.1 h)

theorem findCloser_some (raw : Str) (stop : Option Int) (hstop : ∀ e, stop = some e → (raw.length : Int) ≤ e)
    (pos location : Nat) (ahead : List Str) : ∀ {j c tok}, findCloser raw stop pos location ahead = some (j, c, tok) →
      c < location ∧ FirstFrom raw tok pos c ∧ ahead[j]? = some tok ∧
      ∀ i t, i < j → ahead[i]? = some t →
        (∀ p, pos ≤ p → ¬ OccursAt raw t p) ∨ ∃ l, FirstFrom raw t pos l ∧ location ≤ l := by
  induction ahead with
  | nil => intro j c tok h; simp [findCloser] at h
  | cons x ahead ih =>
    intro j c tok h
    have hspec := pyFind_spec raw x pos stop hstop
    have hrec : ∀ (hx : (∀ p, pos ≤ p → ¬ OccursAt raw x p) ∨ ∃ l, FirstFrom raw x pos l ∧ location ≤ l),
        (findCloser raw stop pos location ahead).map (fun x => (x.1 + 1, x.2)) = some (j, c, tok) →
        c < location ∧ FirstFrom raw tok pos c ∧ (x :: ahead)[j]? = some tok ∧
        ∀ i t, i < j → (x :: ahead)[i]? = some t →
          (∀ p, pos ≤ p → ¬ OccursAt raw t p) ∨ ∃ l, FirstFrom raw t pos l ∧ location ≤ l := by
      intro hx h
      cases hf : findCloser raw stop pos location ahead with
      | none => rw [hf] at h; simp at h
      | some r =>
        obtain ⟨j', c', tok'⟩ := r
        rw [hf] at h
        simp only [Option.map_some, Option.some.injEq, Prod.mk.injEq] at h
        obtain ⟨rfl, rfl, rfl⟩ := h
        obtain ⟨h1, h2, h3, h4⟩ := ih hf
        refine ⟨h1, h2, by simpa using h3, ?_⟩
        intro i t hi ht
        cases i with
        | zero => simp only [List.getElem?_cons_zero, Option.some.injEq] at ht; subst ht; exact hx
        | succ i => exact h4 i t (by omega) (by simpa using ht)
    simp only [findCloser] at h
    cases hf : pyFind raw x pos stop with
    | none => rw [hf] at h; exact hrec (Or.inl (hspec.2 hf)) h
    | some c0 =>
      rw [hf] at h
      simp only at h
      have h0 := hspec.1 c0 hf
      by_cases hc : c0 < location
      · simp only [hc, if_true, Option.some.injEq, Prod.mk.injEq] at h
        obtain ⟨rfl, rfl, rfl⟩ := h
        exact ⟨hc, h0, rfl, fun i t hi => by omega⟩
      · simp only [hc, if_false] at h
        exact hrec (Or.inr ⟨c0, h0, by omega⟩) h

/-- tokens passed over because a later token, number `m` of them, is closer -/
theorem allGiven_skip (s : Str) (k pos : Nat) (c : Nat) (tok' : Str) (rest : List Str) (out : List (Nat × Nat))
    (hc : FirstFrom s tok' pos c) (hrest : AllGiven s k (c + tok'.length) rest out) (m : Nat) :
    ∀ toks : List Str, m ≤ k → toks.length = m →
      (∀ t ∈ toks, (∀ p, pos ≤ p → ¬ OccursAt s t p) ∨ ∃ l, FirstFrom s t pos l ∧ c < l) →
      AllGiven s k pos (toks ++ tok' :: rest)
        (List.replicate m (pos, pos) ++ (c, c + tok'.length) :: out) := by
  induction m with
  | zero =>
    intro toks _ hl _
    have : toks = [] := List.length_eq_zero_iff.1 hl
    subst this
    exact ⟨Or.inl ⟨rfl, hc⟩, hrest⟩
  | succ m ih =>
    intro toks hk hl hall
    cases toks with
    | nil => simp at hl
    | cons t toks =>
      simp only [List.length_cons, Nat.add_right_cancel_iff] at hl
      rw [List.cons_append, List.replicate_succ, List.cons_append]
      refine ⟨Or.inr ⟨rfl, rfl, ?_⟩, ih toks (by omega) hl (fun x hx => hall x (List.mem_cons_of_mem _ hx))⟩
      rcases hall t (by simp) with h | ⟨l, h1, h2⟩
      · exact Or.inl h
      · refine Or.inr ⟨l, h1, tok', ?_, c, hc, h2⟩
        rw [List.take_append]
        apply List.mem_append_right
        obtain ⟨d, hd⟩ : ∃ d, k - toks.length = d + 1 := ⟨k - toks.length - 1, by omega⟩
        rw [hd]; simp

theorem seqLoop_given (raw : Str) (stop : Option Int) (hstop : ∀ e, stop = some e → (raw.length : Int) ≤ e)
    (k : Int) (fuel : Nat) : ∀ (toks : List Str) (pos : Nat), toks.length ≤ fuel →
      AllGiven raw k.toNat pos toks (seqLoop raw stop k fuel toks pos) := by
  induction fuel with
  | zero =>
    intro toks pos h
    have : toks = [] := List.length_eq_zero_iff.1 (by omega)
    subst this
    simp [seqLoop, AllGiven]
  | succ fuel ih =>
    intro toks pos h
    cases toks with
    | nil => simp [seqLoop, AllGiven]
    | cons tok rest =>
      simp only [List.length_cons] at h
      have hspec := pyFind_spec raw tok pos stop hstop
      simp only [seqLoop]
      cases hf : pyFind raw tok pos stop with
      | none => exact ⟨Or.inr ⟨rfl, rfl, Or.inl (hspec.2 hf)⟩, ih rest pos (by omega)⟩
      | some location =>
        have hloc := hspec.1 location hf
        simp only
        cases hc : findCloser raw stop pos location (rest.take k.toNat) with
        | none => exact ⟨Or.inl ⟨rfl, hloc⟩, ih rest _ (by omega)⟩
        | some r =>
          obtain ⟨j, c, tok'⟩ := r
          obtain ⟨h1, h2, h3, h4⟩ := findCloser_some raw stop hstop pos location _ hc
          simp only
          have hj : j < k.toNat ∧ rest[j]? = some tok' := by
            rw [List.getElem?_take] at h3
            split at h3
            · exact ⟨by assumption, h3⟩
            · simp at h3
          obtain ⟨hjl, hje⟩ := List.getElem?_eq_some_iff.1 hj.2
          have hsplit : tok :: rest = (tok :: rest.take j) ++ tok' :: rest.drop (j + 1) := by
            rw [List.cons_append, ← hje, ← List.drop_eq_getElem_cons hjl, List.take_append_drop]
          conv => arg 4; rw [hsplit]
          refine allGiven_skip raw k.toNat pos c tok' _ _ h2 (ih _ _ (by rw [List.length_drop]; omega)) (j + 1) _
            (by omega) (by rw [List.length_cons, List.length_take]; omega) ?_
          intro t ht
          rcases List.mem_cons.1 ht with rfl | ht
          · exact Or.inr ⟨location, hloc, h1⟩
          · obtain ⟨i, hi, hit⟩ := List.mem_iff_getElem.1 ht
            have hi' : i < j := by simp at hi; omega
            rcases h4 i t hi' (by
              rw [List.getElem?_take]
              simp only [show i < k.toNat by omega, if_true]
              rw [← hit, List.getElem_take]
              exact List.getElem?_eq_getElem _) with h | ⟨l, hl, hll⟩
            · exact Or.inl h
            · exact Or.inr ⟨l, hl, by omega⟩

/-- the window of the text that is searched -/
def winLo (t : TextObj) (start : Int) : Int := min start t.text.length
/-- its end -/
def winHi (t : TextObj) (start : Int) (stop : Option Int) : Int :=
  match stop with
  | none => t.text.length
  | some e => max (winLo t start) (min e t.text.length)

theorem window_raw (t : TextObj) (start : Int) (stop : Option Int) (h0 : 0 ≤ start)
    (hs : ∀ e, stop = some e → 0 ≤ e) :
    pySlice t.text (some start) stop =
      (t.text.drop (winLo t start).toNat).take (winHi t start stop - winLo t start).toNat ∧
    (0 ≤ winLo t start ∧ winLo t start ≤ winHi t start stop ∧ winHi t start stop ≤ t.text.length) := by
  have h1 : adjustIdx t.text.length start = winLo t start := by
    unfold adjustIdx winLo
    split
    · omega
    · split <;> omega
  constructor
  · unfold pySlice sliceIndices
    simp only [h1]
    cases stop with
    | none => rfl
    | some e =>
      have := hs e rfl
      have h2 : adjustIdx t.text.length e = min e t.text.length := by
        unfold adjustIdx
        split
        · omega
        · split <;> omega
      simp only [h2, winHi]
      congr 1
      omega
  · unfold winHi winLo
    cases stop with
    | none => simp; omega
    | some e => simp; omega

theorem allGiven_bounds (s : Str) (k : Nat) : ∀ (toks : List Str) (out : List (Nat × Nat)) (pos : Nat),
    pos ≤ s.length → AllGiven s k pos toks out →
    out.length = toks.length ∧ (∀ p ∈ out, pos ≤ p.1 ∧ p.1 ≤ p.2 ∧ p.2 ≤ s.length) ∧
    out.Pairwise (fun p q => p.2 ≤ q.1) ∧
    ∀ (i : Nat) tok p, toks[i]? = some tok → out[i]? = some p →
      p.1 = p.2 ∨ (s.drop p.1).take (p.2 - p.1) = tok := by
  intro toks
  induction toks with
  | nil =>
    intro out pos _ h
    cases out with
    | nil => simp
    | cons p out => simp [AllGiven] at h
  | cons tok toks ih =>
    intro out pos hpos h
    cases out with
    | nil => simp [AllGiven] at h
    | cons p out =>
      obtain ⟨a, b⟩ := p
      obtain ⟨hg, hr⟩ := h
      have hab : pos ≤ a ∧ a ≤ b ∧ b ≤ s.length ∧ (a = b ∨ (s.drop a).take (b - a) = tok) := by
        rcases hg with ⟨rfl, h1, h2, _⟩ | ⟨rfl, rfl, _⟩
        · have := (occursAt_iff _ _ _).1 h2
          refine ⟨h1, by omega, by omega, Or.inr ?_⟩
          rw [show a + tok.length - a = tok.length by omega]
          exact this.2
        · exact ⟨Nat.le_refl _, Nat.le_refl _, hpos, Or.inl rfl⟩
      obtain ⟨i1, i2, i3, i4⟩ := ih out b hab.2.2.1 hr
      refine ⟨by simp [i1], ?_, List.pairwise_cons.2 ⟨fun q hq => (i2 q hq).1, i3⟩, ?_⟩
      · intro q hq
        rcases List.mem_cons.1 hq with rfl | hq
        · exact ⟨hab.1, hab.2.1, hab.2.2.1⟩
        · have := i2 q hq
          exact ⟨by omega, this.2⟩
      · intro i tok' q ht hq
        cases i with
        | zero =>
          simp only [List.getElem?_cons_zero, Option.some.injEq] at ht hq
          subst ht hq
          exact hab.2.2.2
        | succ i => exact i4 i tok' q (by simpa using ht) (by simpa using hq)

/-- the spans and the offsets they come from -/
theorem textspans_eq (toks : List Str) (t : TextObj) (start : Int) (stop : Option Int) (k : Int) (h0 : 0 ≤ start)
    (hs : ∀ e, stop = some e → 0 ≤ e) :
    ∃ ps : List (Nat × Nat),
      AllGiven (pySlice t.text (some start) stop) k.toNat 0 toks ps ∧
      sequenceToTextspans toks t start stop k =
        .ok (ps.map (fun p => ⟨t, winLo t start + p.1, winLo t start + p.2⟩)) := by
  obtain ⟨hraw, hw⟩ := window_raw t start stop h0 hs
  have hlen : ((pySlice t.text (some start) stop).length : Int) = winHi t start stop - winLo t start := by
    rw [hraw]; simp only [List.length_take, List.length_drop]; omega
  have hstop : ∀ e, stop = some e → ((pySlice t.text (some start) stop).length : Int) ≤ e := by
    intro e he
    rw [hlen, he]
    have := hs e he
    unfold winHi winLo
    simp only
    omega
  have hg := seqLoop_given (pySlice t.text (some start) stop) stop hstop k toks.length toks 0 (Nat.le_refl _)
  refine ⟨_, hg, ?_⟩
  obtain ⟨_, hb, _, _⟩ := allGiven_bounds _ _ _ _ _ (Nat.zero_le _) hg
  unfold sequenceToTextspans
  simp only
  rw [mapE_ok (g := fun p => ⟨t, winLo t start + p.1, winLo t start + p.2⟩), List.map_map]
  · rfl
  · intro p hp
    obtain ⟨q, hq, rfl⟩ := List.mem_map.1 hp
    have h1 := hb q hq
    have hadj : ∀ x : Nat, x ≤ (pySlice t.text (some start) stop).length →
        adjustIdx t.text.length (start + (x : Int)) = winLo t start + x := by
      intro x hx
      have hx' : (x : Int) ≤ winHi t start stop - winLo t start := by omega
      unfold adjustIdx
      unfold winHi winLo at *
      split
      · omega
      · split
        · cases stop with
          | none => simp only at hx'; omega
          | some e => simp only at hx'; omega
        · cases stop with
          | none => simp only at hx'; omega
          | some e => simp only at hx'; omega
    unfold TextObj.getSlice sliceIndices
    simp only [hadj _ (show q.1 ≤ _ by omega), hadj _ h1.2.2]
    simp only [ne_eq, not_true_eq_false, false_and, if_false]
    rw [if_neg (by omega), if_neg (by omega)]
    unfold TextSpan.mk'
    rw [if_pos (by omega)]

/-- C55. For a window given by nonnegative offsets, `sequence_to_textspans` returns one span of the text per
token; the spans lie inside the window, do not overlap and come in order; each is empty or spells its token. -/
theorem C55_textspans (toks : List Str) (t : TextObj) (start : Int) (stop : Option Int) (k : Int) (h0 : 0 ≤ start)
    (hs : ∀ e, stop = some e → 0 ≤ e) :
    ∃ out, sequenceToTextspans toks t start stop k = .ok out ∧ out.length = toks.length ∧
      (∀ s ∈ out, s.text = t ∧ min start t.text.length ≤ s.start ∧ s.start ≤ s.stop ∧ s.stop ≤ t.text.length ∧
        ∀ e, stop = some e → start ≤ e → s.stop ≤ e) ∧
      out.Pairwise (fun x y => x.stop ≤ y.start) ∧
      ∀ (i : Nat) tok s, toks[i]? = some tok → out[i]? = some s → s.start = s.stop ∨ s.str = tok := by
  obtain ⟨ps, hg, ho⟩ := textspans_eq toks t start stop k h0 hs
  obtain ⟨hraw, hw⟩ := window_raw t start stop h0 hs
  have hlen : ((pySlice t.text (some start) stop).length : Int) = winHi t start stop - winLo t start := by
    rw [hraw]; simp only [List.length_take, List.length_drop]; omega
  obtain ⟨b1, b2, b3, b4⟩ := allGiven_bounds _ _ _ _ _ (Nat.zero_le _) hg
  refine ⟨_, ho, by simp [b1], ?_, ?_, ?_⟩
  · intro s hsm
    obtain ⟨p, hp, rfl⟩ := List.mem_map.1 hsm
    have := b2 p hp
    refine ⟨rfl, ?_, ?_, ?_, ?_⟩
    · simp only [winLo]; omega
    · simp only; omega
    · simp only; omega
    · intro e he hse
      have : winHi t start stop ≤ e := by
        rw [he]; unfold winHi winLo; simp only; omega
      simp only; omega
  · rw [List.pairwise_map]
    exact b3.imp (fun h => by simp only; omega)
  · intro i tok s ht hsm
    rw [List.getElem?_map] at hsm
    cases hp : ps[i]? with
    | none => rw [hp] at hsm; simp at hsm
    | some p =>
      rw [hp] at hsm
      simp only [Option.map_some, Option.some.injEq] at hsm
      subst hsm
      have hb := b2 p (List.mem_of_getElem? hp)
      rcases b4 i tok p ht hp with h | h
      · exact Or.inl (by simp only; omega)
      · refine Or.inr ?_
        rw [← h]
        unfold TextSpan.str
        rw [pySlice_inrange _ _ _ (by simp only; omega) (by simp only; omega) (by simp only; omega)
          (by simp only; omega), hraw, List.drop_take, List.drop_drop, List.take_take]
        congr 1
        · simp only; omega
        · congr 1
          simp only; omega

/-- C55, which spans: every token gets its first occurrence after the previous span; it gets an empty span at the
place reached only if it does not occur any more, or one of the next `k` tokens occurs before it. The offsets are
relative to the window. -/
theorem C55_greedy (toks : List Str) (t : TextObj) (start : Int) (stop : Option Int) (k : Int) (h0 : 0 ≤ start)
    (hs : ∀ e, stop = some e → 0 ≤ e) :
    ∃ ps : List (Nat × Nat), AllGiven (pySlice t.text (some start) stop) k.toNat 0 toks ps ∧
      sequenceToTextspans toks t start stop k =
        .ok (ps.map (fun p => ⟨t, min start t.text.length + p.1, min start t.text.length + p.2⟩)) :=
  textspans_eq toks t start stop k h0 hs

namespace Ex

/-- a text with a word missing from the token list -/
def catText : TextObj := ⟨0, "main".toList, "the cat sat on the mat".toList⟩

def spansOf (toks : List String) (start : Int) (stop : Option Int) (k : Int) : List (Int × Int) :=
  match sequenceToTextspans (toks.map String.toList) catText start stop k with
  | .ok l => l.map (fun s => (s.start, s.stop))
  | .error _ => []

example : spansOf ["the", "cat", "on", "mat"] 0 none 1 = [(0, 3), (4, 7), (12, 14), (19, 22)] := by decide +kernel
-- "the" after "cat" would be found at 15, but "sat" occurs before it: "the" gets an empty span
example : spansOf ["the", "cat", "the", "sat"] 0 none 1 = [(0, 3), (4, 7), (7, 7), (8, 11)] := by decide +kernel
-- without looking ahead "sat" is lost instead
example : spansOf ["the", "cat", "the", "sat"] 0 none 0 = [(0, 3), (4, 7), (15, 18), (18, 18)] := by decide +kernel
-- a window, and a token that does not occur
example : spansOf ["dog", "on", "mat"] 4 (some 20) 1 = [(4, 4), (12, 14), (14, 14)] := by decide +kernel

end Ex

/-- C55 does not extend to a negative start offset (which Python slicing of the window allows): the spans are built
with the same negative offset and end up elsewhere; here the call fails. -/
theorem C55_negative_start_fails : ∃ (toks : List Str) (t : TextObj),
    sequenceToTextspans toks t (-3) none 1 = .error .dataValidation ∧ pySlice t.text (some (-3)) none = toks.flatten :=
  ⟨["mat".toList], Ex.catText, by decide +kernel, by decide +kernel⟩

end Verif
