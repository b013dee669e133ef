import Verif.Proof.XmlRead
set_option linter.unusedSimpArgs false
/-
What a reader of XML text returns at all (C108): the trees that XML can have.
-/
namespace Verif
open World Spec.XmlText

/-- all characters are allowed -/
def CharsOk (s : Str) : Prop := ∀ c ∈ s, allowed c = true

theorem charOf_ok {n : Nat} {c : Char} (h : charOf n = some c) : allowed c = true := by
  unfold charOf at h
  split at h
  · rename_i h'; cases h; exact h'.2
  · cases h

theorem reference_ok {s : Str} {c : Char} (h : reference s = some c) : allowed c = true := by
  unfold reference at h
  split at h
  · cases h; decide
  · cases h; decide
  · cases h; decide
  · cases h; decide
  · cases h; decide
  · obtain ⟨n, -, h⟩ := Option.bind_eq_some_iff.mp h
    exact charOf_ok h
  · obtain ⟨n, -, h⟩ := Option.bind_eq_some_iff.mp h
    exact charOf_ok h
  · cases h

theorem rValue_ok (q : Char) (s : Str) : ∀ (ref : Option Str) (v r : Str), CharsOk s → rValue q ref s = some (v, r) → CharsOk v ∧ CharsOk r := by
  induction s with
  | nil => intro ref v r _ h; cases ref <;> cases h
  | cons c s ih =>
    intro ref v r hs h
    have hs' : CharsOk s := fun d hd => hs d (by simp [hd])
    cases ref with
    | none =>
      simp only [rValue] at h
      split at h
      · cases h; exact ⟨(fun d hd => nomatch hd), hs'⟩
      split at h
      · cases h
      split at h
      · exact ih _ v r hs' h
      · obtain ⟨⟨v', r'⟩, h1, h2⟩ := Option.map_eq_some_iff.mp h
        cases h2
        obtain ⟨a, b⟩ := ih none v' r' hs' h1
        refine ⟨?_, b⟩
        intro d hd
        rcases List.mem_cons.mp hd with rfl | hd
        · split
          · decide
          · exact hs c (by simp)
        · exact a d hd
    | some ref =>
      simp only [rValue] at h
      split at h
      · split at h
        · cases h
        · rename_i x hx
          obtain ⟨⟨v', r'⟩, h1, h2⟩ := Option.map_eq_some_iff.mp h
          cases h2
          obtain ⟨a, b⟩ := ih none v' r' hs' h1
          refine ⟨?_, b⟩
          intro d hd
          rcases List.mem_cons.mp hd with rfl | hd
          · exact reference_ok hx
          · exact a d hd
      · exact ih _ v r hs' h

theorem ok_dropWhile {p : Char → Bool} {s : Str} (h : CharsOk s) : CharsOk (s.dropWhile p) :=
  fun c hc => h c (List.IsSuffix.mem hc (List.dropWhile_suffix p))

theorem ok_skip {s t : Str} (h : CharsOk s) (e : skipBlank s = t) : CharsOk t := e ▸ ok_dropWhile h

theorem ok_tail {c : Char} {s : Str} (h : CharsOk (c :: s)) : CharsOk s := fun d hd => h d (by simp [hd])

theorem rName_ok {s n r : Str} (h : CharsOk s) (e : rName s = some (n, r)) : CharsOk r := by
  cases s with
  | nil => cases e
  | cons c s =>
    simp only [rName] at e
    split at e
    · cases e; exact ok_dropWhile (ok_tail h)
    · cases e

theorem rAttrs_ok (f : Nat) : ∀ {s as b r}, CharsOk s → rAttrs f s = some (as, b, r) → (∀ e ∈ as, CharsOk e.2) ∧ CharsOk r := by
  induction f with
  | zero => intro s as b r _ h; cases h
  | succ f ih =>
    intro s as b r hs h
    have hk : CharsOk (skipBlank s) := ok_skip hs rfl
    rw [rAttrs] at h
    split at h
    · rename_i r' e
      cases h
      exact ⟨by simp, ok_tail (e ▸ hk)⟩
    · rename_i r' e
      cases h
      exact ⟨by simp, ok_tail (ok_tail (e ▸ hk))⟩
    · split at h
      · cases h
      split at h
      · cases h
      · rename_i n r1 e1
        have k1 := rName_ok hk e1
        split at h
        · rename_i r2 e2
          have k2 := ok_tail (ok_skip k1 e2)
          split at h
          · rename_i q r3 e3
            have k3 := ok_tail (ok_skip k2 e3)
            split at h
            · split at h
              · cases h
              · rename_i v r4 e4
                obtain ⟨k4, k5⟩ := rValue_ok q _ _ _ _ k3 e4
                split at h
                · cases h
                · rename_i as' b' r5 e5
                  obtain ⟨k6, k7⟩ := ih k5 e5
                  cases h
                  refine ⟨?_, k7⟩
                  intro e he
                  rcases List.mem_cons.mp he with rfl | he
                  · exact k4
                  · exact k6 e he
            · cases h
          · cases h
        · cases h

/-- all values of attributes have allowed characters -/
abbrev ValsOk : Xml → Prop := Every (fun _ a => ∀ e ∈ a, CharsOk e.2)

theorem rElement_ok (f : Nat) : (∀ {s x r}, CharsOk s → rElement f s = some (x, r) → ValsOk x ∧ CharsOk r) ∧
    ∀ {s l r}, CharsOk s → rContent f s = some (l, r) → EveryL (fun _ a => ∀ e ∈ a, CharsOk e.2) l ∧ CharsOk r := by
  induction f with
  | zero =>
    refine ⟨?_, ?_⟩
    · intro s x r _ h; simp [rElement] at h
    · intro s l r hs h
      unfold rContent at h
      split at h
      · cases h; exact ⟨trivial, ok_tail (ok_tail hs)⟩
      · rename_i heq _; cases heq
      · cases h
  | succ f ih =>
    obtain ⟨ih1, ih2⟩ := ih
    refine ⟨?_, ?_⟩
    · intro s x r hs h
      unfold rElement at h
      split at h
      · rename_i f' s' heq
        cases heq
        split at h
        · cases h
        · rename_i n r1 e1
          have k1 := rName_ok (ok_tail hs) e1
          split at h
          · cases h
          · rename_i as r2 e2
            obtain ⟨k2, k3⟩ := rAttrs_ok _ k1 e2
            cases h
            exact ⟨⟨k2, trivial⟩, k3⟩
          · rename_i as r2 e2
            obtain ⟨k2, k3⟩ := rAttrs_ok _ k1 e2
            split at h
            · cases h
            · rename_i c r3 e3
              obtain ⟨k4, k5⟩ := ih2 k3 e3
              split at h
              · cases h
              · rename_i m r4 e4
                have k6 := rName_ok k5 e4
                split at h
                · split at h
                  · rename_i r5 e5
                    cases h
                    exact ⟨⟨k2, k4⟩, ok_tail (ok_skip k6 e5)⟩
                  · cases h
                · cases h
      · cases h
    · intro s l r hs h
      unfold rContent at h
      split at h
      · cases h; exact ⟨trivial, ok_tail (ok_tail hs)⟩
      · rename_i f' heq hne
        cases heq
        split at h
        · cases h
        · rename_i x r1 e1
          obtain ⟨k1, k2⟩ := ih1 hs e1
          split at h
          · cases h
          · rename_i xs r2 e2
            obtain ⟨k3, k4⟩ := ih2 k2 e2
            cases h
            exact ⟨⟨k1, k3⟩, k4⟩
      · cases h

/-! ### namespaces -/

/-- a name in braces notation -/
def Braced (k : Str) : Prop := ∃ s, k = '{' :: s

/-- tags and attributes of what can be read -/
def ProperTag (t : Str) (a : Dict Str Str) : Prop :=
  (ncName t = true ∨ Braced t) ∧ (∀ e ∈ a, (ncName e.1 = true ∧ e.1 ≠ "xmlns".toList ∨ Braced e.1) ∧ CharsOk e.2) ∧ (dkeys a).Nodup

theorem qualified_some {k : Str} {p : Option Str} {l : Str} (h : qualified k = some (p, l)) :
    ncName l = true ∧ (∀ x, p = some x → ncName x = true) ∧ (p = none → l = k) := by
  unfold qualified at h
  generalize ht : k.takeWhile (· != ':') = a at h
  generalize hd : k.dropWhile (· != ':') = b at h
  have hk : a ++ b = k := by rw [← ht, ← hd]; exact List.takeWhile_append_dropWhile
  cases b with
  | nil =>
    simp only at h
    split at h
    · cases h
      rw [List.append_nil] at hk
      exact ⟨‹_›, by simp, fun _ => hk⟩
    · cases h
  | cons c b =>
    simp only at h
    split at h
    · rename_i hh
      simp only [Bool.and_eq_true] at hh
      cases h
      exact ⟨hh.2, fun x hx => by cases hx; exact hh.1, by simp⟩
    · cases h

/-- only the default may be unbound -/
def EnvOk (env : Dict Str Str) : Prop := ∀ e ∈ env, e.1 ≠ [] → e.2 ≠ []

theorem expandName_tag_ok {env : Dict Str Str} {k t : Str} (h : expandName env false k = some t) : ncName t = true ∨ Braced t := by
  unfold expandName at h
  split at h
  · cases h
  · rename_i l hl
    cases h
    simp only [Bool.false_eq_true, if_false, braces]
    split
    · exact .inl (qualified_some hl).1
    · exact .inr ⟨_, rfl⟩
  · rename_i p l hl
    obtain ⟨u, -, rfl⟩ := Option.map_eq_some_iff.mp h
    unfold braces
    split
    · exact .inl (qualified_some hl).1
    · exact .inr ⟨_, rfl⟩

theorem expandName_attr_ok {env : Dict Str Str} (he : EnvOk env) {k t : Str} (hd : declares k = none)
    (h : expandName env true k = some t) : ncName t = true ∧ t ≠ "xmlns".toList ∨ Braced t := by
  unfold expandName at h
  split at h
  · cases h
  · rename_i l hl
    cases h
    obtain ⟨h1, -, h2⟩ := qualified_some hl
    have := h2 rfl; subst this
    refine .inl ⟨by simpa using h1, ?_⟩
    intro e
    simp only [if_true] at e
    simp [declares, e] at hd
  · rename_i p l hl
    obtain ⟨u, hu, rfl⟩ := Option.map_eq_some_iff.mp h
    obtain ⟨-, h2, -⟩ := qualified_some hl
    have hp : p ≠ [] := by rintro rfl; exact absurd (h2 _ rfl) (by decide)
    have := he _ (dget_mem hu) hp
    unfold braces
    rw [if_neg this]
    exact .inr ⟨_, rfl⟩

theorem mapO_mem {α β : Type} {f : α → Option β} {l : List α} : ∀ {r}, mapO f l = some r → ∀ b ∈ r, ∃ a ∈ l, f a = some b := by
  induction l with
  | nil => intro r h b hb; cases h; cases hb
  | cons a l ih =>
    intro r h b hb
    simp only [mapO] at h
    split at h
    · rename_i b' bs h1 h2
      cases h
      rcases List.mem_cons.mp hb with rfl | hb
      · exact ⟨a, by simp, h1⟩
      · obtain ⟨a', h3, h4⟩ := ih h2 b hb
        exact ⟨a', by simp [h3], h4⟩
    · cases h

mutual
theorem expand_ok : ∀ (x : Xml) {env : Dict Str Str} {y : Xml}, EnvOk env → ValsOk x → expand env x = some y → Every ProperTag y
  | .el t a c, env, y, he, hv, h => by
    rw [expand] at h
    split at h
    · rename_i hh
      have he' : EnvOk (declared a ++ env) := by
        intro e hm hne
        rcases List.mem_append.mp hm with hm | hm
        · have := List.all_eq_true.mp hh.2 e hm
          simp only [mayBind, Bool.and_eq_true, Bool.or_eq_true, decide_eq_true_eq, bne_iff_ne] at this
          exact this.1.2.resolve_left hne
        · exact he e hm hne
      split at h
      · rename_i t' a' c' h1 h2 h3
        split at h
        · rename_i hn
          cases h
          refine ⟨⟨expandName_tag_ok h1, ?_, hn⟩, expandL_ok c he' hv.2 h3⟩
          intro e hm
          obtain ⟨d, hd, hf⟩ := mapO_mem h2 e hm
          obtain ⟨k, hk, rfl⟩ := Option.map_eq_some_iff.mp hf
          rw [List.mem_filter] at hd
          exact ⟨expandName_attr_ok he' (Option.isNone_iff_eq_none.mp hd.2) hk, hv.1 d hd.1⟩
        · cases h
      · cases h
    · cases h
theorem expandL_ok : ∀ (l : List Xml) {env : Dict Str Str} {ys : List Xml}, EnvOk env → EveryL (fun _ a => ∀ e ∈ a, CharsOk e.2) l →
    expandL env l = some ys → EveryL ProperTag ys
  | [], _, _, _, _, h => by cases h; trivial
  | x :: xs, env, ys, he, hv, h => by
    rw [expandL] at h
    split at h
    · rename_i y ys' h1 h2
      cases h
      exact ⟨expand_ok x he hv.1 h1, expandL_ok xs he hv.2 h2⟩
    · cases h
end

/-- what is read is a tree that XML can have -/
theorem read_proper {s : Str} {x : Xml} (h : Spec.XmlText.read s = some x) : Every ProperTag x := by
  unfold Spec.XmlText.read at h
  split at h
  · rename_i ha
    split at h
    · rename_i y r hr
      split at h
      · refine expand_ok y ?_ ((rElement_ok _).1 (lineEnds_allowed (List.all_eq_true.mp ha)) hr).1 h
        intro e he _
        simp only [List.mem_singleton] at he
        subst he
        decide
      · cases h
    · cases h
  · cases h

theorem proper_fit {x : Xml} (h : Every ProperTag x) (hb : ∀ k ∈ ET.namesOf x, (∀ s, k ≠ '{' :: s) ∨ k = xmlId)
    (ht : Every (fun t _ => ∀ s, t ≠ '{' :: s) x) : Fit x := by
  have h1 := (every_names (P := fun k => (∀ s, k ≠ '{' :: s) ∨ k = xmlId) x).mpr hb
  revert h ht h1
  clear hb
  exact Xml.rec (motive_1 := fun x => Every ProperTag x → Every (fun t _ => ∀ s, t ≠ '{' :: s) x →
      Every (fun t a => ((∀ s, t ≠ '{' :: s) ∨ t = xmlId) ∧ ∀ e ∈ a, (∀ s, e.1 ≠ '{' :: s) ∨ e.1 = xmlId) x → Fit x)
    (motive_2 := fun l => EveryL ProperTag l → EveryL (fun t _ => ∀ s, t ≠ '{' :: s) l →
      EveryL (fun t a => ((∀ s, t ≠ '{' :: s) ∨ t = xmlId) ∧ ∀ e ∈ a, (∀ s, e.1 ≠ '{' :: s) ∨ e.1 = xmlId) l → EveryL FitTag l)
    (fun t a c ih h ht h1 => ⟨⟨h.1.1.resolve_right (fun ⟨s, e⟩ => ht.1 s e), fun e he =>
        ⟨by
          rcases (h.1.2.1 e he).1 with h2 | ⟨s, h2⟩
          · exact .inl h2
          · rcases h1.1.2 e he with h3 | h3
            · exact (h3 s h2).elim
            · exact .inr h3, fun c hc => (allowed_iff c).mp ((h.1.2.1 e he).2 c hc)⟩, h.1.2.2⟩, ih h.2 ht.2 h1.2⟩)
    (fun _ _ _ => trivial) (fun x xs i1 i2 h ht h1 => ⟨i1 h.1 ht.1 h1.1, i2 h.2 ht.2 h1.2⟩) x

end Verif
