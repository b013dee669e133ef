/-
The regular expressions of Python's `re` that docria uses with `fullmatch`: character classes, sequence,
alternatives, repetition. `fullmatch` only says whether there is a match, so greedy and lazy quantifiers are
the same; `^` and `$` hold at the ends of a full match and are left out. A capture group is its content.
-/
namespace Verif

/-- a pattern -/
inductive Re
  | never
  | eps
  | cls (p : Char → Bool)
  | seq (a b : Re)
  | alt (a b : Re)
  | star (a : Re)

namespace Re

/-- the character `c` -/
def chr (c : Char) : Re := cls (fun x => x == c)

/-- the characters of `s`, one after the other -/
def lit : List Char → Re
  | [] => eps
  | c :: s => seq (chr c) (lit s)

/-- `r+` -/
def plus (r : Re) : Re := seq r (star r)

/-- `r?` -/
def opt (r : Re) : Re := alt r eps

/-- matches the empty string -/
def nullable : Re → Bool
  | never => false
  | eps => true
  | cls _ => false
  | seq a b => a.nullable && b.nullable
  | alt a b => a.nullable || b.nullable
  | star _ => true

/-- what is left to match after the character `c` -/
def deriv (c : Char) : Re → Re
  | never => never
  | eps => never
  | cls p => if p c then eps else never
  | seq a b => if a.nullable then alt (seq (a.deriv c) b) (b.deriv c) else seq (a.deriv c) b
  | alt a b => alt (a.deriv c) (b.deriv c)
  | star a => seq (a.deriv c) (star a)

/-- `pattern.fullmatch(s) is not None` -/
def fullmatch (r : Re) : List Char → Bool
  | [] => r.nullable
  | c :: s => (r.deriv c).fullmatch s

/-- the strings that a pattern describes -/
inductive Lang : Re → List Char → Prop
  | eps : Lang eps []
  | cls {p c} : p c = true → Lang (cls p) [c]
  | seq {a b s t} : Lang a s → Lang b t → Lang (seq a b) (s ++ t)
  | altL {a b s} : Lang a s → Lang (alt a b) s
  | altR {a b s} : Lang b s → Lang (alt a b) s
  | starN {a} : Lang (star a) []
  | starC {a s t} : Lang a s → Lang (star a) t → Lang (star a) (s ++ t)

theorem lang_seq {a b : Re} {s} : Lang (seq a b) s ↔ ∃ x y, s = x ++ y ∧ Lang a x ∧ Lang b y := by
  constructor
  · intro h; cases h with | seq h1 h2 => exact ⟨_, _, rfl, h1, h2⟩
  · rintro ⟨x, y, rfl, h1, h2⟩; exact .seq h1 h2

theorem lang_alt {a b : Re} {s} : Lang (alt a b) s ↔ Lang a s ∨ Lang b s := by
  constructor
  · intro h
    cases h with
    | altL h => exact .inl h
    | altR h => exact .inr h
  · rintro (h | h)
    · exact .altL h
    · exact .altR h

theorem lang_cls {p : Char → Bool} {s} : Lang (cls p) s ↔ ∃ c, s = [c] ∧ p c = true := by
  constructor
  · intro h; cases h with | cls h => exact ⟨_, rfl, h⟩
  · rintro ⟨c, rfl, h⟩; exact .cls h

theorem lang_eps {s} : Lang eps s ↔ s = [] := by
  constructor
  · intro h; cases h; rfl
  · rintro rfl; exact .eps

theorem not_lang_never {s} : ¬ Lang never s := by intro h; cases h

theorem lang_nullable {r : Re} : Lang r [] ↔ r.nullable = true := by
  induction r with
  | never => simp [nullable, not_lang_never]
  | eps => simp [nullable, lang_eps]
  | cls p => simp [nullable, lang_cls]
  | seq a b iha ihb =>
    rw [lang_seq]
    simp only [nullable, Bool.and_eq_true, ← iha, ← ihb]
    constructor
    · rintro ⟨x, y, h, h1, h2⟩
      obtain ⟨rfl, rfl⟩ := List.append_eq_nil_iff.mp h.symm
      exact ⟨h1, h2⟩
    · rintro ⟨h1, h2⟩; exact ⟨[], [], rfl, h1, h2⟩
  | alt a b iha ihb => rw [lang_alt]; simp only [nullable, Bool.or_eq_true, iha, ihb]
  | star a _ => simp only [nullable, iff_true]; exact .starN

theorem lang_star_cons {a : Re} {s : List Char} (h : Lang (star a) s) : s = [] ∨
    ∃ c x y, s = c :: x ++ y ∧ Lang a (c :: x) ∧ Lang (star a) y := by
  generalize hr : star a = r at h
  induction h with
  | starN => exact .inl rfl
  | @starC a' s t h1 h2 _ ih =>
    cases hr
    cases s with
    | nil => exact ih rfl
    | cons c x => exact .inr ⟨c, x, t, rfl, h1, h2⟩
  | _ => cases hr

theorem lang_deriv {r : Re} {c : Char} : ∀ {s}, Lang (r.deriv c) s ↔ Lang r (c :: s) := by
  induction r with
  | never => intro s; simp only [deriv]; exact ⟨fun h => absurd h not_lang_never, fun h => absurd h not_lang_never⟩
  | eps =>
    intro s; simp only [deriv]
    exact ⟨fun h => absurd h not_lang_never, fun h => by cases lang_eps.mp h⟩
  | cls p =>
    intro s
    simp only [deriv]
    rw [lang_cls]
    split
    · rename_i hp
      rw [lang_eps]
      constructor
      · rintro rfl; exact ⟨c, rfl, hp⟩
      · rintro ⟨d, h, -⟩; cases h; rfl
    · rename_i hp
      constructor
      · intro h; exact absurd h not_lang_never
      · rintro ⟨d, h, hd⟩; cases h; exact absurd hd hp
  | alt a b iha ihb => intro s; simp only [deriv]; rw [lang_alt, lang_alt, iha, ihb]
  | seq a b iha ihb =>
    intro s
    have one : Lang (seq (a.deriv c) b) s ↔ ∃ x y, s = x ++ y ∧ Lang a (c :: x) ∧ Lang b y := by
      rw [lang_seq]; simp only [iha]
    have two : Lang (seq a b) (c :: s) ↔ (Lang a [] ∧ Lang b (c :: s)) ∨ ∃ x y, s = x ++ y ∧ Lang a (c :: x) ∧ Lang b y := by
      rw [lang_seq]
      constructor
      · rintro ⟨x, y, h, h1, h2⟩
        cases x with
        | nil => rw [List.nil_append] at h; subst h; exact .inl ⟨h1, h2⟩
        | cons d x =>
          rw [List.cons_append] at h
          injection h with h3 h4
          subst h3
          exact .inr ⟨x, y, h4, h1, h2⟩
      · rintro (⟨h1, h2⟩ | ⟨x, y, rfl, h1, h2⟩)
        · exact ⟨[], c :: s, rfl, h1, h2⟩
        · exact ⟨c :: x, y, rfl, h1, h2⟩
    simp only [deriv]
    rw [two, lang_nullable]
    split
    · rename_i hn
      rw [lang_alt, one, ihb]
      simp only [hn, true_and]
      exact or_comm
    · rename_i hn
      rw [one]
      simp only [hn, false_and, false_or, Bool.false_eq_true]
  | star a iha =>
    intro s
    simp only [deriv]
    rw [lang_seq]
    constructor
    · rintro ⟨x, y, rfl, h1, h2⟩
      exact .starC (s := c :: x) (iha.mp h1) h2
    · intro h
      rcases lang_star_cons h with h | ⟨d, x, y, h, h1, h2⟩
      · cases h
      · rw [List.cons_append] at h
        injection h with h3 h4
        subst h3
        exact ⟨x, y, h4, iha.mpr h1, h2⟩

/-- the matcher decides the language -/
theorem fullmatch_iff {r : Re} : ∀ {s}, r.fullmatch s = true ↔ Lang r s := by
  intro s
  induction s generalizing r with
  | nil => exact lang_nullable.symm
  | cons c s ih => rw [fullmatch, ih, lang_deriv]

theorem lang_lit {s : List Char} : ∀ {t}, Lang (lit s) t ↔ t = s := by
  induction s with
  | nil => intro t; exact lang_eps
  | cons c s ih =>
    intro t
    rw [lit, lang_seq, chr]
    simp only [lang_cls, ih]
    constructor
    · rintro ⟨x, y, rfl, ⟨d, rfl, hd⟩, rfl⟩
      simp only [beq_iff_eq] at hd
      rw [hd]; rfl
    · rintro rfl
      exact ⟨[c], s, rfl, ⟨c, rfl, by simp⟩, rfl⟩

theorem lang_star_cls {p : Char → Bool} {s : List Char} : Lang (star (cls p)) s ↔ ∀ c ∈ s, p c = true := by
  induction s with
  | nil => simp only [List.not_mem_nil, false_implies, implies_true, iff_true]; exact .starN
  | cons c s ih =>
    constructor
    · intro h
      rcases lang_star_cons h with h | ⟨d, x, y, h, h1, h2⟩
      · cases h
      · obtain ⟨e, he, hp⟩ := lang_cls.mp h1
        cases he
        simp only [List.cons_append, List.nil_append, List.cons.injEq] at h
        obtain ⟨rfl, rfl⟩ := h
        intro e he
        rcases List.mem_cons.mp he with rfl | he
        · exact hp
        · exact ih.mp h2 e he
    · intro h
      exact .starC (s := [c]) (.cls (h c (by simp))) (ih.mpr (fun e he => h e (by simp [he])))

theorem lang_plus_cls {p : Char → Bool} {s : List Char} : Lang (plus (cls p)) s ↔ s ≠ [] ∧ ∀ c ∈ s, p c = true := by
  rw [plus, lang_seq]
  simp only [lang_cls, lang_star_cls]
  constructor
  · rintro ⟨x, y, rfl, ⟨c, rfl, hc⟩, hy⟩
    refine ⟨by simp, fun d hd => ?_⟩
    rcases List.mem_cons.mp hd with rfl | hd
    · exact hc
    · exact hy d hd
  · rintro ⟨h1, h2⟩
    cases s with
    | nil => exact absurd rfl h1
    | cons c s => exact ⟨[c], s, rfl, ⟨c, rfl, h2 c (by simp)⟩, fun d hd => h2 d (by simp [hd])⟩

theorem lang_opt {r : Re} {s : List Char} : Lang (opt r) s ↔ s = [] ∨ Lang r s := by
  rw [opt, lang_alt, lang_eps]; exact or_comm

end Re
end Verif
