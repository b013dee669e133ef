import Verif.Model.JavaCodec
/-
For C86-C89: UTF-16 strings and TreeMaps.
-/
set_option linter.unusedSimpArgs false
namespace Verif

/-! ### UTF-16 -/

theorem char_valid (c : Char) : c.toNat < 0xD800 ∨ (0xE000 ≤ c.toNat ∧ c.toNat < 0x110000) := by
  have := c.valid
  simp only [UInt32.isValidChar, Nat.isValidChar] at this
  show c.val.toNat < _ ∨ (_ ≤ c.val.toNat ∧ c.val.toNat < _)
  omega

theorem ofNat_toNat (c : Char) : Char.ofNat c.toNat = c := Char.ofNat_toNat c

theorem ofUtf16_char (c : Char) (r : JStr) : ofUtf16 (utf16Char c ++ r) = c :: ofUtf16 r := by
  have hv := char_valid c
  unfold utf16Char
  split
  · rename_i h
    cases r with
    | nil => simp only [List.append_nil, ofUtf16]; rw [if_neg (by omega), ofNat_toNat]
    | cons b r =>
      simp only [List.cons_append, List.nil_append]
      rw [ofUtf16, if_neg (by omega), if_neg (by omega), ofNat_toNat]
  · rename_i h
    simp only [List.cons_append, List.nil_append]
    rw [ofUtf16, if_pos (by omega)]
    have e : 0x10000 + (0xD800 + (c.toNat - 0x10000) / 0x400 - 0xD800) * 0x400 + (0xDC00 + (c.toNat - 0x10000) % 0x400 - 0xDC00) = c.toNat := by
      generalize c.toNat = n at *
      omega
    rw [pairChar, e, ofNat_toNat]

theorem ofUtf16_utf16 (s : Str) : ofUtf16 (utf16 s) = s := by
  induction s with
  | nil => rfl
  | cons c s ih =>
    have : utf16 (c :: s) = utf16Char c ++ utf16 s := by simp [utf16]
    rw [this, ofUtf16_char, ih]

theorem utf16_inj {a b : Str} (h : utf16 a = utf16 b) : a = b := by rw [← ofUtf16_utf16 a, h, ofUtf16_utf16]

/-! ### the order of keys -/

theorem unitsLt_irrefl (a : JStr) : unitsLt a a = false := by
  induction a with
  | nil => rfl
  | cons x a ih => simp [unitsLt, ih]

theorem unitsLt_trans : ∀ {a b c : JStr}, unitsLt a b = true → unitsLt b c = true → unitsLt a c = true := by
  intro a
  induction a with
  | nil =>
    intro b c h1 h2
    cases b with
    | nil => exact h2
    | cons y b => cases c with
      | nil => simp [unitsLt] at h2
      | cons z c => rfl
  | cons x a ih =>
    intro b c h1 h2
    cases b with
    | nil => simp [unitsLt] at h1
    | cons y b =>
      cases c with
      | nil => simp [unitsLt] at h2
      | cons z c =>
        simp only [unitsLt, Bool.or_eq_true, decide_eq_true_eq, Bool.and_eq_true] at *
        rcases h1 with h1 | ⟨rfl, h1⟩
        · rcases h2 with h2 | ⟨rfl, h2⟩
          · exact .inl (by omega)
          · exact .inl h1
        · rcases h2 with h2 | ⟨rfl, h2⟩
          · exact .inl h2
          · exact .inr ⟨rfl, ih h1 h2⟩

theorem unitsLt_total : ∀ {a b : JStr}, a ≠ b → unitsLt a b = false → unitsLt b a = true := by
  intro a
  induction a with
  | nil =>
    intro b h1 h2
    cases b with
    | nil => exact absurd rfl h1
    | cons y b => simp [unitsLt] at h2
  | cons x a ih =>
    intro b h1 h2
    cases b with
    | nil => rfl
    | cons y b =>
      simp only [unitsLt, Bool.or_eq_false_iff, decide_eq_false_iff_not, Bool.and_eq_false_iff, Bool.or_eq_true, decide_eq_true_eq,
        Bool.and_eq_true] at *
      by_cases hxy : x = y
      · subst hxy
        refine .inr ⟨rfl, ih (by simpa using h1) ?_⟩
        rcases h2.2 with h | h
        · exact absurd rfl h
        · exact h
      · exact .inl (by omega)

/-- the keys are in order -/
def InOrder {ν : Type} (d : Dict Str ν) : Prop := (dkeys d).Pairwise (fun a b => unitsLt (utf16 a) (utf16 b) = true)

theorem InOrder.nodup {ν : Type} {d : Dict Str ν} (h : InOrder d) : (dkeys d).Nodup := by
  refine List.Pairwise.imp ?_ h
  intro a b hab e
  subst e
  rw [unitsLt_irrefl] at hab
  cases hab

/-! ### put -/

theorem dget_tput {ν : Type} (d : Dict Str ν) (k k' : Str) (v : ν) : dget (tput d k v) k' = if k = k' then some v else dget d k' := by
  induction d with
  | nil => simp [tput, dget]
  | cons e d ih =>
    obtain ⟨a, b⟩ := e
    unfold tput
    split
    · rename_i h
      subst h
      simp only [dget]
      split <;> simp_all
    · split
      · simp only [dget]
      · rename_i h1 _
        simp only [dget, ih]
        by_cases h2 : a = k'
        · subst h2; simp [h1]
        · simp [h2]

theorem mem_dkeys_tput {ν : Type} {d : Dict Str ν} {k k' : Str} {v : ν} : k' ∈ dkeys (tput d k v) ↔ k' = k ∨ k' ∈ dkeys d := by
  rw [← dget_isSome_iff, dget_tput, ← dget_isSome_iff]
  by_cases h : k = k'
  · simp [h]
  · simp [h, Ne.symm h]

theorem inOrder_tput {ν : Type} {d : Dict Str ν} (h : InOrder d) (k : Str) (v : ν) : InOrder (tput d k v) := by
  induction d with
  | nil => simp [tput, InOrder, dkeys]
  | cons e d ih =>
    obtain ⟨a, b⟩ := e
    have h' := h
    simp only [InOrder, dkeys, List.map_cons, List.pairwise_cons] at h
    unfold tput
    split
    · rename_i e; subst e; exact h'
    · rename_i hne
      split
      · rename_i hlt
        simp only [InOrder, dkeys, List.map_cons, List.pairwise_cons, List.mem_cons]
        refine ⟨?_, h⟩
        rintro c (rfl | hc)
        · exact hlt
        · exact unitsLt_trans hlt (h.1 c hc)
      · rename_i hlt
        simp only [InOrder, dkeys, List.map_cons, List.pairwise_cons]
        refine ⟨?_, ih h.2⟩
        intro c hc
        rcases (mem_dkeys_tput (d := d)).mp hc with rfl | hc
        · exact unitsLt_total (fun e => hne (utf16_inj e)) (by simpa using hlt)
        · exact h.1 c hc

theorem tmap_loop {ν : Type} (l : List (Str × ν)) : ∀ (d : Dict Str ν), InOrder d → (dkeys l).Nodup →
    InOrder (l.foldl (fun d e => tput d e.1 e.2) d) ∧
    ∀ k, dget (l.foldl (fun d e => tput d e.1 e.2) d) k = if k ∈ dkeys l then dget l k else dget d k := by
  induction l with
  | nil => intro d h _; exact ⟨h, fun k => by simp [dkeys]⟩
  | cons e l ih =>
    intro d h hn
    simp only [dkeys, List.map_cons, List.nodup_cons] at hn
    obtain ⟨h1, h2⟩ := ih (tput d e.1 e.2) (inOrder_tput h _ _) hn.2
    refine ⟨h1, fun k => ?_⟩
    rw [List.foldl_cons, h2, dget_tput]
    obtain ⟨a, b⟩ := e
    simp only [dkeys, List.map_cons, List.mem_cons, dget] at hn ⊢
    by_cases hk : a = k
    · subst hk
      simp [hn.1]
    · have : ¬ k = a := fun e => hk e.symm
      rw [if_neg hk, if_neg hk]
      by_cases hm : k ∈ List.map (fun x => x.fst) l
      · rw [if_pos hm, if_pos (.inr hm)]
      · rw [if_neg hm, if_neg (fun e => e.elim this hm)]

theorem dget_tmap {ν : Type} {l : List (Str × ν)} (h : (dkeys l).Nodup) (k : Str) : dget (tmap l) k = dget l k := by
  have := (tmap_loop l [] (by simp [InOrder, dkeys]) h).2 k
  unfold tmap
  rw [this]
  split
  · rfl
  · rename_i hk
    rw [(dget_none_iff _ _).mpr hk]
    rfl

theorem inOrder_tmap {ν : Type} {l : List (Str × ν)} (h : (dkeys l).Nodup) : InOrder (tmap l) :=
  (tmap_loop l [] (by simp [InOrder, dkeys]) h).1

theorem mem_tmap {ν : Type} {l : List (Str × ν)} (h : (dkeys l).Nodup) {e : Str × ν} : e ∈ tmap l ↔ e ∈ l := by
  obtain ⟨k, v⟩ := e
  constructor
  · intro hm
    have := dget_of_mem (inOrder_tmap h).nodup hm
    rw [dget_tmap h] at this
    exact dget_mem this
  · intro hm
    have := dget_of_mem h hm
    rw [← dget_tmap h] at this
    exact dget_mem this

end Verif
