import Verif.Model.JavaEquals
import Verif.Props.JavaLayer
import Verif.Props.JavaText
/-
C99: `equals` and `hashCode` of the Java library.
-/
set_option linter.unusedSimpArgs false

namespace Verif

namespace Spec

/-- a double that is not a number: all bits of the exponent are set, and some of the fraction -/
def NaN (f : UInt64) : Prop := 0x7FF0000000000000 < f.toNat % 2 ^ 63

/-- two plain values are alike: of one class and with one value, all NaNs being one -/
inductive SameScal : JScal → JScal → Prop
  | same (a : JScal) : SameScal a a
  | nan {f g : UInt64} : NaN f → NaN g → SameScal (.double f) (.double g)

/-- both are missing, or both are there and alike -/
def SameArg : Option JScal → Option JScal → Prop
  | some a, some b => SameScal a b
  | none, none => True
  | _, _ => False

/-- the arguments of a type have distinct names, as in a TreeMap -/
def Proper : JRef → Prop
  | .type _ _ a => (dkeys a).Nodup
  | _ => True

/-- the value that the last of some puts left for a key, if any -/
def lastPut {V : Type} (same : JRef → Prop) [DecidablePred same] : List (JRef × V) → Option V
  | [] => none
  | (k, v) :: r => (lastPut same r).or (if same k then some v else none)

end Spec

open Spec

/-! ### plain values -/

theorem nan_iff (f : UInt64) : NaN f ↔ dExp f = 2047 ∧ dFrac f ≠ 0 := by
  unfold NaN dExp dFrac
  have := f.toNat_lt
  omega

theorem nan_bits : NaN 0x7FF8000000000000 := by unfold NaN; decide

theorem sameScal_iff (a b : JScal) : a.equals b = true ↔ SameScal a b := by
  constructor
  · intro h
    cases a <;> cases b <;> simp only [JScal.equals, decide_eq_true_eq, beq_iff_eq, Bool.false_eq_true] at h
    case double.double f g =>
      unfold dBits at h
      by_cases hf : dExp f = 2047 ∧ dFrac f ≠ 0
      · by_cases hg : dExp g = 2047 ∧ dFrac g ≠ 0
        · exact .nan ((nan_iff f).mpr hf) ((nan_iff g).mpr hg)
        · rw [if_pos hf, if_neg hg] at h
          exact .nan ((nan_iff f).mpr hf) (h ▸ nan_bits)
      · by_cases hg : dExp g = 2047 ∧ dFrac g ≠ 0
        · rw [if_neg hf, if_pos hg] at h
          exact .nan (h.symm ▸ nan_bits) ((nan_iff g).mpr hg)
        · rw [if_neg hf, if_neg hg] at h
          subst h; exact .same _
    all_goals (subst h; exact .same _)
  · intro h
    cases h with
    | same a => cases a <;> simp [JScal.equals]
    | nan hf hg =>
      have hf := (nan_iff _).mp hf
      have hg := (nan_iff _).mp hg
      simp [JScal.equals, dBits, hf, hg]

theorem sameScal_symm {a b : JScal} (h : SameScal a b) : SameScal b a := by
  cases h with
  | same a => exact .same a
  | nan hf hg => exact .nan hg hf

theorem sameScal_trans {a b c : JScal} (h : SameScal a b) (k : SameScal b c) : SameScal a c := by
  cases h with
  | same a => exact k
  | nan hf hg =>
    cases k with
    | same => exact .nan hf hg
    | nan _ hh => exact .nan hf hh

theorem sameScal_hash {a b : JScal} (h : SameScal a b) : a.hash = b.hash := by
  cases h with
  | same a => rfl
  | nan hf hg =>
    have hf := (nan_iff _).mp hf
    have hg := (nan_iff _).mp hg
    simp [JScal.hash, dBits, hf, hg]

/-! ### arguments of types -/

theorem perm_ddel {b : Dict Str JScal} (hb : (dkeys b).Nodup) {k : Str} {v : JScal} (h : dget b k = some v) :
    b.Perm ((k, v) :: ddel b k) := by
  induction b with
  | nil => simp [dget] at h
  | cons e b ih =>
    obtain ⟨k', v'⟩ := e
    simp only [dkeys, List.map_cons, List.nodup_cons] at hb
    by_cases hk : k' = k
    · subst hk
      have hv : v' = v := by simpa [dget] using h
      subst hv
      have : ddel ((k', v') :: b) k' = b := by
        have h1 : ddel ((k', v') :: b) k' = ddel b k' := by simp [ddel]
        rw [h1, ddel_absent (by simpa [dkeys] using hb.1)]
      rw [this]
    · have h1 : ddel ((k', v') :: b) k = (k', v') :: ddel b k := by simp [ddel, hk]
      rw [h1]
      have h2 : dget b k = some v := by simpa [dget, hk] using h
      exact ((ih hb.2 h2).cons _).trans (.swap _ _ _)

theorem argsEquals_cons {k : Str} {v : JScal} {a b : Dict Str JScal} (ha : (dkeys ((k, v) :: a)).Nodup) (hb : (dkeys b).Nodup) :
    JHeap.argsEquals ((k, v) :: a) b = true ↔ ∃ u, dget b k = some u ∧ v.equals u = true ∧ JHeap.argsEquals a (ddel b k) = true := by
  simp only [dkeys, List.map_cons, List.nodup_cons] at ha
  have hin : ∀ e ∈ a, dget (ddel b k) e.1 = dget b e.1 := by
    intro e he
    rw [dget_ddel, if_neg]
    rintro rfl
    exact ha.1 (List.mem_map.mpr ⟨e, he, rfl⟩)
  have hall : a.all (JHeap.hasArg (ddel b k)) = a.all (JHeap.hasArg b) := by
    rw [Bool.eq_iff_iff, List.all_eq_true, List.all_eq_true]
    exact forall_congr' fun e => imp_congr_right fun he => by unfold JHeap.hasArg; rw [hin e he]
  unfold JHeap.argsEquals
  rw [hall]
  simp only [List.all_cons, Bool.and_eq_true, decide_eq_true_eq, List.length_cons]
  have hk : JHeap.hasArg b (k, v) = true ↔ ∃ u, dget b k = some u ∧ v.equals u = true := by
    unfold JHeap.hasArg
    cases dget b k <;> simp
  rw [hk]
  cases hu : dget b k with
  | none => simp
  | some u =>
    have := (perm_ddel hb hu).length_eq
    simp only [List.length_cons] at this
    constructor
    · rintro ⟨h1, ⟨u', e, h2⟩, h3⟩; exact ⟨u', e, h2, by omega, h3⟩
    · rintro ⟨u', e, h2, h1, h3⟩
      exact ⟨by omega, ⟨u', e, h2⟩, h3⟩

theorem argsEquals_iff {a b : Dict Str JScal} (ha : (dkeys a).Nodup) (hb : (dkeys b).Nodup) :
    JHeap.argsEquals a b = true ↔ ∀ k, SameArg (dget a k) (dget b k) := by
  induction a generalizing b with
  | nil =>
    simp only [JHeap.argsEquals, List.all_nil, Bool.and_true, decide_eq_true_eq, List.length_nil]
    cases b with
    | nil => simp [dget, SameArg]
    | cons e b =>
      constructor
      · intro h; simp at h
      · intro h
        have := h e.1
        simp [dget, SameArg] at this
  | cons e a ih =>
    obtain ⟨k, v⟩ := e
    rw [argsEquals_cons ha hb]
    have ha' := ha
    simp only [dkeys, List.map_cons, List.nodup_cons] at ha'
    have hka : dget a k = none := by
      cases hx : dget a k with
      | none => rfl
      | some x => exact absurd (List.mem_map.mpr ⟨_, dget_mem hx, rfl⟩) ha'.1
    constructor
    · rintro ⟨u, hu, h1, h2⟩ k'
      have := (ih ha'.2 (nodup_ddel hb k)).mp h2 k'
      rw [dget_ddel] at this
      by_cases hk : k = k'
      · subst hk
        simp only [dget, if_true, hu, SameArg]
        exact (sameScal_iff v u).mp h1
      · rw [if_neg hk] at this
        simpa [dget, hk] using this
    · intro h
      have hk := h k
      simp only [dget, if_true] at hk
      cases hu : dget b k with
      | none => rw [hu] at hk; exact hk.elim
      | some u =>
        rw [hu] at hk
        refine ⟨u, rfl, (sameScal_iff v u).mpr hk, (ih ha'.2 (nodup_ddel hb k)).mpr fun k' => ?_⟩
        rw [dget_ddel]
        by_cases e : k = k'
        · subst e
          simp [hka, SameArg]
        · have := h k'
          simp only [dget, if_neg e] at this
          rw [if_neg e]
          exact this

theorem perm_sum {l m : List Int} (h : l.Perm m) : l.sum = m.sum := by
  induction h with
  | nil => rfl
  | cons x _ ih => simp [ih]
  | swap x y l => simp only [List.sum_cons]; omega
  | trans _ _ h k => exact h.trans k

theorem argsSum_eq (F : Str → Int → Int) {a b : Dict Str JScal} (ha : (dkeys a).Nodup) (hb : (dkeys b).Nodup) (h : JHeap.argsEquals a b = true) :
    (a.map fun e => F e.1 e.2.hash).sum = (b.map fun e => F e.1 e.2.hash).sum := by
  induction a generalizing b with
  | nil =>
    cases b with
    | nil => rfl
    | cons e b => simp [JHeap.argsEquals] at h
  | cons e a ih =>
    obtain ⟨k, v⟩ := e
    obtain ⟨u, hu, h1, h2⟩ := (argsEquals_cons ha hb).mp h
    have ha' := ha
    simp only [dkeys, List.map_cons, List.nodup_cons] at ha'
    have := ih ha'.2 (nodup_ddel hb k) h2
    rw [perm_sum ((perm_ddel hb hu).map fun e => F e.1 e.2.hash)]
    simp only [List.map_cons, List.sum_cons]
    rw [this, sameScal_hash ((sameScal_iff v u).mp h1)]

theorem argsHash_eq {a b : Dict Str JScal} (ha : (dkeys a).Nodup) (hb : (dkeys b).Nodup) (h : JHeap.argsEquals a b = true) :
    argsHash a = argsHash b := by
  unfold argsHash
  rw [argsSum_eq (fun k x => xor32 (strHash (utf16 k)) x) ha hb h]

/-! ### parts of objects -/

theorem layerEquals_iff (w : JHeap) (l m : Nat) : w.layerEquals l m = true ↔ l = m ∨ (w.parent l = w.parent m ∧ w.schema l = w.schema m) := by
  simp [JHeap.layerEquals]

theorem layerEquals_iff' (w : JHeap) (l m : Nat) : w.layerEquals l m = true ↔ w.parent l = w.parent m ∧ w.schema l = w.schema m := by
  rw [layerEquals_iff]
  constructor
  · rintro (rfl | h)
    · exact ⟨rfl, rfl⟩
    · exact h
  · exact .inr

theorem textEquals_iff (w : JHeap) (t u : Nat) : w.textEquals t u = true ↔ w.name t = w.name u ∧ (w.text t).text = (w.text u).text := by
  simp only [JHeap.textEquals, Bool.or_eq_true, Bool.and_eq_true, decide_eq_true_eq]
  constructor
  · rintro (rfl | h)
    · exact ⟨rfl, rfl⟩
    · exact h
  · exact .inr

theorem offEquals_iff (w : JHeap) (t o u p : Nat) : w.offEquals t o u p = true ↔
    ((w.text t).off o).id = ((w.text u).off p).id ∧ ((w.text t).off o).offset = ((w.text u).off p).offset := by
  simp only [JHeap.offEquals, Bool.or_eq_true, Bool.and_eq_true, decide_eq_true_eq]
  constructor
  · rintro (⟨rfl, rfl⟩ | h)
    · exact ⟨rfl, rfl⟩
    · exact h
  · exact .inr

/-- what is compared, for two objects that are found equal -/
inductive Alike (w : JHeap) : JRef → JRef → Prop
  | refl (a) : Alike w a a
  | scal {j k u v} : SameScal u v → Alike w (.scal j u) (.scal k v)
  | node {n m l l'} : w.cls n = w.cls m → w.ids n = w.ids m → w.lay n = some l → w.lay m = some l' → w.parent l = w.parent l' →
      w.schema l = w.schema l' → Alike w (.node n) (.node m)
  | layer {l m} : w.parent l = w.parent m → w.schema l = w.schema m → Alike w (.layer l) (.layer m)
  | text {t u} : w.name t = w.name u → (w.text t).text = (w.text u).text → Alike w (.text t) (.text u)
  | offset {t o u p} : ((w.text t).off o).id = ((w.text u).off p).id → ((w.text t).off o).offset = ((w.text u).off p).offset →
      Alike w (.offset t o) (.offset u p)
  | span {j k t u s r} : w.name t = w.name u → (w.text t).text = (w.text u).text →
      ((w.text t).off s.1).id = ((w.text u).off r.1).id → ((w.text t).off s.1).offset = ((w.text u).off r.1).offset →
      ((w.text t).off s.2).id = ((w.text u).off r.2).id → ((w.text t).off s.2).offset = ((w.text u).off r.2).offset →
      Alike w (.span j t s) (.span k u r)
  | type {j k x a b} : JHeap.argsEquals a b = true → Alike w (.type j x a) (.type k x b)

theorem equals_iff (w : JHeap) (a b : JRef) : w.equals a b = .ok true ↔ Alike w a b := by
  constructor
  · intro h
    unfold JHeap.equals at h
    split at h
    · rename_i e; subst e; exact .refl _
    · split at h
      · exact .scal ((sameScal_iff _ _).mp (Except.ok.inj h))
      · split at h
        · cases h
        · rename_i h1
          split at h
          · cases h
          · rename_i h2
            split at h
            · cases h
            · cases h
            · rename_i l l' h3 h4
              obtain ⟨p, q⟩ := (layerEquals_iff' w l l').mp (Except.ok.inj h)
              exact .node (by simpa using h1) (by simpa using h2) h3 h4 p q
      · obtain ⟨p, q⟩ := (layerEquals_iff' w _ _).mp (Except.ok.inj h)
        exact .layer p q
      · obtain ⟨p, q⟩ := (textEquals_iff w _ _).mp (Except.ok.inj h)
        exact .text p q
      · obtain ⟨p, q⟩ := (offEquals_iff w _ _ _ _).mp (Except.ok.inj h)
        exact .offset p q
      · have h := Except.ok.inj h
        simp only [Bool.and_eq_true, textEquals_iff, offEquals_iff] at h
        obtain ⟨⟨h1, h2⟩, ⟨h3, h4⟩, h5, h6⟩ := h
        exact .span h1 h2 h3 h4 h5 h6
      · have h := Except.ok.inj h
        simp only [Bool.and_eq_true, decide_eq_true_eq] at h
        obtain ⟨rfl, h2⟩ := h
        exact .type h2
      · cases h
  · intro h
    unfold JHeap.equals
    split
    · rfl
    · rename_i hne
      cases h with
      | refl => exact absurd rfl hne
      | scal h => simp only; rw [(sameScal_iff _ _).mpr h]
      | node h1 h2 h3 h4 h5 h6 => simp only [h1, h2, h3, h4, (layerEquals_iff' w _ _).mpr ⟨h5, h6⟩, ne_eq, not_true_eq_false, if_false]
      | layer h1 h2 => simp only; rw [(layerEquals_iff' w _ _).mpr ⟨h1, h2⟩]
      | text h1 h2 => simp only; rw [(textEquals_iff w _ _).mpr ⟨h1, h2⟩]
      | offset h1 h2 => simp only; rw [(offEquals_iff w _ _ _ _).mpr ⟨h1, h2⟩]
      | span h1 h2 h3 h4 h5 h6 =>
        simp only
        rw [(textEquals_iff w _ _).mpr ⟨h1, h2⟩, (offEquals_iff w _ _ _ _).mpr ⟨h3, h4⟩, (offEquals_iff w _ _ _ _).mpr ⟨h5, h6⟩]
        rfl
      | type h => simp [h]

/-! ### C99: the contract -/

/-- C99. Every object is equal to itself. -/
theorem C99_refl (w : JHeap) (a : JRef) : w.equals a a = .ok true := (equals_iff w a a).mpr (.refl a)

theorem sameArg_symm {a b : Option JScal} (h : SameArg a b) : SameArg b a := by
  cases a <;> cases b <;> simp only [SameArg] at h ⊢
  exact sameScal_symm h

theorem sameArg_trans {a b c : Option JScal} (h : SameArg a b) (k : SameArg b c) : SameArg a c := by
  cases a <;> cases b <;> cases c <;> simp only [SameArg] at h k ⊢
  exact sameScal_trans h k

/-- C99. If one is equal to another, so is the other to the one. -/
theorem C99_symm (w : JHeap) {a b : JRef} (ha : Proper a) (hb : Proper b) (h : w.equals a b = .ok true) : w.equals b a = .ok true := by
  rw [equals_iff] at h ⊢
  cases h with
  | refl => exact .refl _
  | scal h => exact .scal (sameScal_symm h)
  | node h1 h2 h3 h4 h5 h6 => exact .node h1.symm h2.symm h4 h3 h5.symm h6.symm
  | layer h1 h2 => exact .layer h1.symm h2.symm
  | text h1 h2 => exact .text h1.symm h2.symm
  | offset h1 h2 => exact .offset h1.symm h2.symm
  | span h1 h2 h3 h4 h5 h6 => exact .span h1.symm h2.symm h3.symm h4.symm h5.symm h6.symm
  | type h => exact .type ((argsEquals_iff hb ha).mpr fun k => sameArg_symm ((argsEquals_iff ha hb).mp h k))

/-- C99. If one is equal to another and that to a third, so is the first to the third. -/
theorem C99_trans (w : JHeap) {a b c : JRef} (ha : Proper a) (hb : Proper b) (hc : Proper c) (h : w.equals a b = .ok true)
    (k : w.equals b c = .ok true) : w.equals a c = .ok true := by
  rw [equals_iff] at h k ⊢
  cases h with
  | refl => exact k
  | scal h =>
    cases k with
    | refl => exact .scal h
    | scal k => exact .scal (sameScal_trans h k)
  | node h1 h2 h3 h4 h5 h6 =>
    cases k with
    | refl => exact .node h1 h2 h3 h4 h5 h6
    | node k1 k2 k3 k4 k5 k6 =>
      have e := h4.symm.trans k3
      cases e
      exact .node (h1.trans k1) (h2.trans k2) h3 k4 (h5.trans k5) (h6.trans k6)
  | layer h1 h2 =>
    cases k with
    | refl => exact .layer h1 h2
    | layer k1 k2 => exact .layer (h1.trans k1) (h2.trans k2)
  | text h1 h2 =>
    cases k with
    | refl => exact .text h1 h2
    | text k1 k2 => exact .text (h1.trans k1) (h2.trans k2)
  | offset h1 h2 =>
    cases k with
    | refl => exact .offset h1 h2
    | offset k1 k2 => exact .offset (h1.trans k1) (h2.trans k2)
  | span h1 h2 h3 h4 h5 h6 =>
    cases k with
    | refl => exact .span h1 h2 h3 h4 h5 h6
    | span k1 k2 k3 k4 k5 k6 => exact .span (h1.trans k1) (h2.trans k2) (h3.trans k3) (h4.trans k4) (h5.trans k5) (h6.trans k6)
  | type h =>
    cases k with
    | refl => exact .type h
    | type k => exact .type ((argsEquals_iff ha hc).mpr fun x => sameArg_trans ((argsEquals_iff ha hb).mp h x) ((argsEquals_iff hb hc).mp k x))

/-- C99. Equal objects have the same hash code. -/
theorem C99_hash (w : JHeap) (g : JHashes) {a b : JRef} (ha : Proper a) (hb : Proper b) (h : w.equals a b = .ok true) :
    w.hash g a = w.hash g b := by
  rw [equals_iff] at h
  cases h with
  | refl => rfl
  | scal h => simp only [JHeap.hash, sameScal_hash h]
  | node h1 h2 h3 h4 h5 h6 => simp only [JHeap.hash, h2, h3, h4, JHeap.layerHash, h5, h6]
  | layer h1 h2 => simp only [JHeap.hash, JHeap.layerHash, h1, h2]
  | text h1 h2 => simp only [JHeap.hash, JHeap.textHash, h1, h2]
  | offset h1 h2 => simp only [JHeap.hash, JHeap.offHash, h1, h2]
  | span h1 h2 h3 h4 h5 h6 => simp only [JHeap.hash, JHeap.offHash, JHeap.textHash, h1, h2, h3, h4, h5, h6]
  | type h => simp only [JHeap.hash, argsHash_eq ha hb h]

/-! ### C99: what is equal to what -/

/-- C99. Plain values are equal exactly if they are of one class and have one value, all NaNs being one. -/
theorem C99_values (w : JHeap) (j k : Nat) (u v : JScal) : w.equals (.scal j u) (.scal k v) = .ok true ↔ SameScal u v := by
  rw [equals_iff]
  constructor
  · intro h
    cases h with
    | refl => exact .same _
    | scal h => exact h
  · exact .scal

/-- C99. Types are equal exactly if they have the same name and the same arguments. -/
theorem C99_types (w : JHeap) (j k : Nat) (x y : JTName) {a b : Dict Str JScal} (ha : (dkeys a).Nodup) (hb : (dkeys b).Nodup) :
    w.equals (.type j x a) (.type k y b) = .ok true ↔ x = y ∧ ∀ n, SameArg (dget a n) (dget b n) := by
  rw [equals_iff, ← argsEquals_iff ha hb]
  constructor
  · intro h
    cases h with
    | refl => exact ⟨rfl, (argsEquals_iff ha ha).mpr fun n => by cases dget a n <;> simp [SameArg, SameScal.same]⟩
    | type h => exact ⟨rfl, h⟩
  · rintro ⟨rfl, h⟩; exact .type h

/-- C99. Texts are equal exactly if they have the same name and the same characters. -/
theorem C99_texts (w : JHeap) (t u : Nat) : w.equals (.text t) (.text u) = .ok true ↔ w.name t = w.name u ∧ (w.text t).text = (w.text u).text := by
  rw [equals_iff]
  constructor
  · intro h
    cases h with
    | refl => exact ⟨rfl, rfl⟩
    | text h1 h2 => exact ⟨h1, h2⟩
  · rintro ⟨h1, h2⟩; exact .text h1 h2

/-- C99. Spans of one text whose Offsets are in its table are equal exactly if they have the same ends. -/
theorem C99_spans_partial (w : JHeap) (j k t : Nat) {s r : JSpan} (h : JTInv (w.text t)) (hs : LiveSpan (w.text t) s) (hr : LiveSpan (w.text t) r) :
    w.equals (.span j t s) (.span k t r) = .ok true ↔ (w.text t).start s = (w.text t).start r ∧ (w.text t).stop s = (w.text t).stop r := by
  rw [← C85_equals_partial h hs hr, equals_iff]
  simp only [JText.equals, Bool.and_eq_true, decide_eq_true_eq]
  constructor
  · intro e
    cases e with
    | refl => exact ⟨⟨rfl, rfl⟩, rfl, rfl⟩
    | span _ _ h3 h4 h5 h6 => exact ⟨⟨h3, h4⟩, h5, h6⟩
  · rintro ⟨⟨h3, h4⟩, h5, h6⟩; exact .span rfl rfl h3 h4 h5 h6

/-- C99. Equal spans have the same ends and are of texts with the same name and characters: they cover the same. -/
theorem C99_spans_cover (w : JHeap) {j k t u : Nat} {s r : JSpan} (h : w.equals (.span j t s) (.span k u r) = .ok true) :
    w.name t = w.name u ∧ (w.text t).start s = (w.text u).start r ∧ (w.text t).stop s = (w.text u).stop r ∧ (w.text t).str s = (w.text u).str r := by
  rw [equals_iff] at h
  cases h with
  | refl => exact ⟨rfl, rfl, rfl, rfl⟩
  | span h1 h2 h3 h4 h5 h6 => exact ⟨h1, h4, h6, by simp only [JText.str, JText.start, JText.stop, h2, h4, h6]⟩

/-- C99. In a layer where the id of each node is its position, nodes are equal only to themselves, and have hash codes. -/
theorem C99_nodes_partial (w : JHeap) (g : JHashes) {s : JLayer} {l : List Nat} (h : JLOk s l) (hi : w.ids = s.ids) (hl : w.lay = s.lay)
    {n m : Nat} (hn : n ∈ l) (hm : m ∈ l) : (w.equals (.node n) (.node m) = .ok (decide (n = m))) ∧ ∃ c, w.hash g (.node n) = .ok c := by
  obtain ⟨p, p1, p2, -⟩ := slot_of h hn
  obtain ⟨q, q1, q2, -⟩ := slot_of h hm
  have ln := (h.lay n).mpr hn
  constructor
  · by_cases e : n = m
    · subst e; simp [C99_refl]
    · have hne : w.ids n ≠ w.ids m := by
        rw [hi, p2, q2]
        intro e'
        have : p = q := by omega
        subst this
        exact e (by simpa using p1.symm.trans q1)
      unfold JHeap.equals
      rw [if_neg (by simpa using e)]
      simp only [e, decide_false]
      split
      · rfl
      · simp only [hne, ne_eq, not_false_eq_true, if_true]
  · exact ⟨mix (w.ids n) (w.layerHash g 0), by simp only [JHeap.hash, hl, ln]⟩

/-- C99. That is so after calls on a layer, if `add` and `clear` are only called when no slot is empty. -/
theorem C99_sequence_partial (w : JHeap) {lay : Nat → Option Nat} {ids : Nat → Int} (hl : ∀ n, lay n ≠ some 0) (os : List JLayer.Op)
    (hw : Spec.WhenFull ⟨[], 0, ids, lay⟩ os) (hi : w.ids = (JLayer.run ⟨[], 0, ids, lay⟩ os).1.ids)
    (hy : w.lay = (JLayer.run ⟨[], 0, ids, lay⟩ os).1.lay) {n m : Nat} (hn : n ∈ (JLayer.run ⟨[], 0, ids, lay⟩ os).1.nodes)
    (hm : m ∈ (JLayer.run ⟨[], 0, ids, lay⟩ os).1.nodes) : w.equals (.node n) (.node m) = .ok (decide (n = m)) := by
  have h0 : JLOk ⟨[], 0, ids, lay⟩ [] := ⟨⟨rfl, by simp, rfl, fun n => by simp [hl n]⟩, by simp⟩
  have hb : ∀ n, (fun n => (lay n).isSome) n = true ↔ ∃ k, (JLayer.mk [] 0 ids lay).lay n = some k ∧ k ≠ 0 := by
    intro n
    simp only [Option.isSome_iff_exists]
    constructor
    · rintro ⟨k, hk⟩; exact ⟨k, hk, fun e => hl n (by rw [hk, e])⟩
    · rintro ⟨k, hk, -⟩; exact ⟨k, hk⟩
  obtain ⟨-, g2⟩ := jlRun_ok os h0 hb hw
  have e : (JLayer.run ⟨[], 0, ids, lay⟩ os).1.nodes = _ := g2.nodes
  rw [e] at hn hm
  exact (C99_nodes_partial w ⟨fun _ => 0, fun _ => 0, fun _ => 0, fun _ => 0⟩ g2 hi hy hn hm).1

/-- C99. Nodes of layers of two documents, or of two layers of a schema, are not equal. -/
theorem C99_layers (w : JHeap) {n m l l' : Nat} (hn : w.lay n = some l) (hm : w.lay m = some l')
    (h : w.parent l ≠ w.parent l' ∨ w.schema l ≠ w.schema l') : w.equals (.node n) (.node m) = .ok false := by
  have hne : n ≠ m := by
    rintro rfl
    cases hn.symm.trans hm
    simp at h
  unfold JHeap.equals
  rw [if_neg (by simpa using hne)]
  simp only
  split
  · rfl
  · split
    · rfl
    · simp only [hn, hm]
      have : ¬ w.layerEquals l l' = true := by
        rw [layerEquals_iff']
        rintro ⟨a, b⟩
        rcases h with h | h
        · exact h a
        · exact h b
      simp [this]

/-- C99. `equals` always answers but for a node without a layer that is asked about another node with its id. -/
theorem C99_answers (w : JHeap) (a b : JRef) : (∃ r, w.equals a b = .ok r) ∨ (w.equals a b = .error .attribute ∧
    ∃ n m, a = .node n ∧ b = .node m ∧ n ≠ m ∧ w.lay n = none ∧ w.ids n = w.ids m) := by
  by_cases e : a = b
  · exact .inl ⟨true, by subst e; exact C99_refl w a⟩
  · unfold JHeap.equals
    rw [if_neg e]
    split
    case h_2 n m =>
      split
      · exact .inl ⟨_, rfl⟩
      · split
        · exact .inl ⟨_, rfl⟩
        · rename_i h
          cases hn : w.lay n with
          | none => exact .inr ⟨rfl, n, m, rfl, rfl, fun q => e (by rw [q]), hn, by simpa using h⟩
          | some l =>
            cases hm : w.lay m with
            | none => exact .inl ⟨_, rfl⟩
            | some l' => exact .inl ⟨_, rfl⟩
    all_goals exact .inl ⟨_, rfl⟩

/-- C99. `hashCode` fails exactly for nodes without a layer, which includes all that were removed. -/
theorem C99_hash_fails (w : JHeap) (g : JHashes) (a : JRef) : w.hash g a = .error .attribute ↔ ∃ n, a = .node n ∧ w.lay n = none := by
  cases a with
  | node n =>
    simp only [JHeap.hash]
    cases h : w.lay n with
    | none => simp [h]
    | some l => simp [h]
  | _ => simp [JHeap.hash]

/-! ### C99: hash maps -/

namespace JHashMap

variable {V : Type}

/-- the hash codes that a map holds are those of the keys -/
def Fresh (m : JHashMap V) (w : JHeap) (g : JHashes) : Prop := ∀ e ∈ m, w.hash g e.2.1 = .ok e.1 ∧ Proper e.2.1

theorem equals_ok {w : JHeap} {g : JHashes} {a : JRef} {h : Int} (ha : w.hash g a = .ok h) (b : JRef) : ∃ r, w.equals a b = .ok r := by
  rcases C99_answers w a b with h1 | ⟨-, n, m, rfl, -, -, hn, -⟩
  · exact h1
  · rw [(C99_hash_fails w g _).mpr ⟨n, rfl, hn⟩] at ha
    cases ha

theorem hit_ok {w : JHeap} {g : JHashes} {k : JRef} {h : Int} (hk : w.hash g k = .ok h) (pk : Proper k) {e : Int × JRef × V}
    (he : w.hash g e.2.1 = .ok e.1 ∧ Proper e.2.1) : hit w h k e = w.equals k e.2.1 := by
  unfold hit
  split
  · rfl
  · rename_i hne
    obtain ⟨r, hr⟩ := equals_ok hk e.2.1
    cases r with
    | false => exact hr.symm
    | true =>
      have := C99_hash w g pk he.2 hr
      rw [hk, he.1] at this
      exact absurd (Except.ok.inj this).symm hne

/-- put finds its place, and afterwards equal keys read the new value and other keys what they did before -/
theorem store_ok {w : JHeap} {g : JHashes} {k : JRef} {h : Int} (hk : w.hash g k = .ok h) (pk : Proper k) (v : V) (m : JHashMap V)
    (hm : m.Fresh w g) : ∃ m', store w h k v m = .ok m' ∧ m'.Fresh w g ∧
    ∀ (k' : JRef) (h' : Int), w.hash g k' = .ok h' → Proper k' →
      lookup w h' k' m' = if w.equals k' k = .ok true then .ok (some v) else lookup w h' k' m := by
  induction m with
  | nil =>
    refine ⟨_, rfl, fun e he => by simp only [List.mem_singleton] at he; subst he; exact ⟨hk, pk⟩, fun k' h' hk' pk' => ?_⟩
    simp only [lookup]
    rw [hit_ok hk' pk' ⟨hk, pk⟩]
    obtain ⟨r, hr⟩ := equals_ok hk' k
    rw [hr]
    cases r <;> simp
  | cons e m ih =>
    have he := hm e (List.mem_cons_self ..)
    have hm' : Fresh m w g := fun x hx => hm x (List.mem_cons_of_mem _ hx)
    obtain ⟨r, hr⟩ := equals_ok hk e.2.1
    simp only [store, hit_ok hk pk he, hr]
    cases r with
    | true =>
      refine ⟨_, rfl, ?_, fun k' h' hk' pk' => ?_⟩
      · intro x hx
        rcases List.mem_cons.mp hx with rfl | hx
        · exact he
        · exact hm' x hx
      · simp only [lookup]
        rw [hit_ok hk' pk' he, hit_ok (e := (e.1, e.2.1, v)) hk' pk' he]
        obtain ⟨q, hq⟩ := equals_ok hk' e.2.1
        simp only [hq]
        cases q with
        | true =>
          rw [if_pos (C99_trans w pk' he.2 pk hq (C99_symm w pk he.2 hr))]
        | false =>
          rw [if_neg]
          intro hkk
          rw [C99_trans w pk' pk he.2 hkk hr] at hq
          cases hq
    | false =>
      obtain ⟨m', g1, g2, g3⟩ := ih hm'
      simp only [g1]
      refine ⟨_, rfl, ?_, fun k' h' hk' pk' => ?_⟩
      · intro x hx
        rcases List.mem_cons.mp hx with rfl | hx
        · exact he
        · exact g2 x hx
      · simp only [lookup]
        rw [hit_ok hk' pk' he]
        obtain ⟨q, hq⟩ := equals_ok hk' e.2.1
        simp only [hq]
        cases q with
        | true =>
          rw [if_neg]
          intro hkk
          rw [C99_trans w pk pk' he.2 (C99_symm w pk' pk hkk) hq] at hr
          cases hr
        | false => exact g3 k' h' hk' pk'

theorem puts_ok {w : JHeap} {g : JHashes} (kvs : List (JRef × V)) : ∀ (m : JHashMap V), m.Fresh w g →
    (∀ e ∈ kvs, Proper e.1 ∧ ∃ h, w.hash g e.1 = .ok h) → ∃ m', m.puts w g kvs = .ok m' ∧ m'.Fresh w g ∧
    ∀ (k' : JRef) (h' : Int), w.hash g k' = .ok h' → Proper k' →
      lookup w h' k' m' = match lastPut (fun k => w.equals k' k = .ok true) kvs with | some v => .ok (some v) | none => lookup w h' k' m := by
  induction kvs with
  | nil => intro m hm _; exact ⟨m, rfl, hm, fun _ _ _ _ => rfl⟩
  | cons e r ih =>
    intro m hm hr
    obtain ⟨k, v⟩ := e
    obtain ⟨pk, h, hk⟩ := hr _ (List.mem_cons_self ..)
    obtain ⟨m1, g1, g2, g3⟩ := store_ok hk pk v m hm
    obtain ⟨m2, q1, q2, q3⟩ := ih m1 g2 fun e he => hr e (List.mem_cons_of_mem _ he)
    refine ⟨m2, by simp only [puts, put, hk, g1, q1], q2, fun k' h' hk' pk' => ?_⟩
    rw [q3 k' h' hk' pk']
    simp only [lastPut]
    cases lastPut (fun k => w.equals k' k = .ok true) r with
    | some x => simp
    | none =>
      simp only [Option.none_or]
      rw [g3 k' h' hk' pk']
      split <;> simp

end JHashMap

/-- C99. A hash map reads for a key the value of the last put of an equal key, as long as no key changes, for all keys but nodes
without a layer. -/
theorem C99_map_partial {V : Type} (w : JHeap) (g : JHashes) (kvs : List (JRef × V)) (k : JRef)
    (hp : ∀ e ∈ kvs, Proper e.1 ∧ ∀ n, e.1 = .node n → w.lay n ≠ none) (pk : Proper k) (hk : ∀ n, k = .node n → w.lay n ≠ none) :
    ∃ m, JHashMap.puts [] w g kvs = .ok m ∧ JHashMap.get m w g k = .ok (lastPut (fun k' => w.equals k k' = .ok true) kvs) := by
  have hash_ok : ∀ a : JRef, (∀ n, a = .node n → w.lay n ≠ none) → ∃ h, w.hash g a = .ok h := by
    intro a ha
    cases a with
    | node n =>
      have := ha n rfl
      cases hl : w.lay n with
      | none => exact absurd hl this
      | some l => exact ⟨mix (w.ids n) (w.layerHash g l), by simp only [JHeap.hash, hl]⟩
    | _ => exact ⟨_, rfl⟩
  obtain ⟨m, g1, -, g3⟩ := JHashMap.puts_ok (w := w) (g := g) kvs [] (by intro e he; cases he) fun e he => ⟨(hp e he).1, hash_ok _ (hp e he).2⟩
  obtain ⟨h, hh⟩ := hash_ok k hk
  refine ⟨m, g1, ?_⟩
  simp only [JHashMap.get, hh, g3 k h hh pk]
  cases lastPut (fun k' => w.equals k k' = .ok true) kvs with
  | some v => rfl
  | none => rfl

/-! ### C99: changes -/

/-- C99. Adding a node to a layer changes neither hash code nor equality of the others. -/
theorem C99_add_partial (w w' : JHeap) (g : JHashes) (s : JLayer) {n m x : Nat} (hn : n ≠ x) (hm : m ≠ x) (hi : w.ids = s.ids) (hl : w.lay = s.lay)
    (h' : w' = { w with ids := (s.add x).1.ids, lay := (s.add x).1.lay }) :
    w'.hash g (.node n) = w.hash g (.node n) ∧ w'.equals (.node n) (.node m) = w.equals (.node n) (.node m) := by
  have key : ∀ y, y ≠ x → (s.add x).1.ids y = s.ids y ∧ (s.add x).1.lay y = s.lay y := by
    intro y hy
    unfold JLayer.add
    split
    · exact ⟨rfl, rfl⟩
    · dsimp only
      split
      · split <;> simp [JLayer.upd, hy]
      · simp [JLayer.upd, hy]
  subst h'
  simp only [JHeap.hash, JHeap.equals, JHeap.layerHash, JHeap.layerEquals, (key n hn).1, (key n hn).2, (key m hm).1, (key m hm).2, hi, hl]
  exact ⟨trivial, trivial⟩

/-- C99. Making a span changes no hash code of the other spans of the text. -/
theorem C99_span_partial (w w' : JHeap) (g : JHashes) (k t : Nat) {s : JSpan} (a b : Int) (h1 : s.1 < (w.text t).heap.length)
    (h2 : s.2 < (w.text t).heap.length) (h' : w' = { w with text := fun u => if u = t then ((w.text t).span a b).1 else w.text u }) :
    w'.hash g (.span k t s) = w.hash g (.span k t s) := by
  have key : ∀ (T : JText) (p : Int), (T.intern p).1.text = T.text ∧ T.heap.length ≤ (T.intern p).1.heap.length ∧
      ∀ o, o < T.heap.length → (T.intern p).1.off o = T.off o := by
    intro T p
    unfold JText.intern
    split
    · exact ⟨rfl, Nat.le_refl _, fun _ _ => rfl⟩
    · refine ⟨rfl, by simp, fun o ho => ?_⟩
      unfold JText.off
      rw [List.getElem?_append_left ho]
  have key2 : ((w.text t).span a b).1.text = (w.text t).text ∧ ∀ o, o < (w.text t).heap.length → ((w.text t).span a b).1.off o = (w.text t).off o := by
    unfold JText.span
    split
    · exact ⟨rfl, fun _ _ => rfl⟩
    · obtain ⟨e1, e2, e3⟩ := key (w.text t) a
      obtain ⟨f1, f2, f3⟩ := key ((w.text t).intern a).1 b
      exact ⟨f1.trans e1, fun o ho => (f3 o (by omega)).trans (e3 o ho)⟩
  subst h'
  simp only [JHeap.hash, JHeap.textHash, JHeap.offHash, if_true, key2.1, key2.2 _ h1, key2.2 _ h2]

theorem mix_inj {a b c : Int} (ha : -0x80000000 ≤ a ∧ a < 0x80000000) (hb : -0x80000000 ≤ b ∧ b < 0x80000000) (h : mix a c = mix b c) : a = b := by
  unfold mix wrap32 at h
  omega

/-- C99, a violation. A node whose id changes, as it does when its layer is compacted, has another hash code, and a hash map
does not find it any more. -/
theorem C99_moved_lost {V : Type} (w w' : JHeap) (g : JHashes) {n l : Nat} (v : V) (h1 : w.lay n = some l) (h2 : w'.lay n = some l)
    (hp : w'.parent l = w.parent l) (hs : w'.schema l = w.schema l) (hne : w'.ids n ≠ w.ids n)
    (r1 : -0x80000000 ≤ w.ids n ∧ w.ids n < 0x80000000) (r2 : -0x80000000 ≤ w'.ids n ∧ w'.ids n < 0x80000000) :
    ∃ m, JHashMap.puts [] w g [(.node n, v)] = .ok m ∧ JHashMap.get m w g (.node n) = .ok (some v) ∧ JHashMap.get m w' g (.node n) = .ok none := by
  have e : w'.layerHash g l = w.layerHash g l := by simp only [JHeap.layerHash, hp, hs]
  refine ⟨[(mix (w.ids n) (w.layerHash g l), .node n, v)], ?_, ?_, ?_⟩
  · simp only [JHashMap.puts, JHashMap.put, JHeap.hash, h1, JHashMap.store]
  · simp only [JHashMap.get, JHeap.hash, h1, JHashMap.lookup, JHashMap.hit, if_true, C99_refl]
  · simp only [JHashMap.get, JHeap.hash, h2, JHashMap.lookup, JHashMap.hit, e]
    rw [if_neg fun q => hne (mix_inj r2 r1 q.symm)]

namespace Ex

/-- a heap with the nodes of a layer -/
def layHeap (s : JLayer) : JHeap := ⟨fun _ => 0, s.ids, s.lay, fun _ => 0, fun _ => 0, fun _ => [], fun _ => JText.new []⟩

/-- a heap with one text -/
def textHeap (t : JText) : JHeap := ⟨fun _ => 0, fun _ => 0, fun _ => none, fun _ => 0, fun _ => 0, fun _ => "main".toList, fun _ => t⟩

end Ex

/-- a layer with 20 nodes, and what removing six leaves -/
def Ex.before20 : JLayer := (JLayer.run .new ((List.range 20).map .add)).1
def Ex.after20 : JLayer := (JLayer.run Ex.before20 ((List.range 6).map .remove)).1

/-- the removal that leaves less than three quarters of the slots compacts the layer: node 19 of 20 gets id 13 -/
theorem C99_compact_lost : Ex.before20.ids 19 = 19 ∧ Ex.before20.lay 19 = some 0 ∧ Ex.after20.ids 19 = 13 ∧ Ex.after20.lay 19 = some 0 := by
  decide +kernel

/-- C99, a violation. The span [2, 3) of "abcd" is a key of a map; after the text is compiled its Offsets have other ids, and the
map does not find it. -/
theorem C99_compiled_lost (g : JHashes) : ∃ m,
    JHashMap.puts [] (Ex.textHeap ((newState [97, 98, 99, 100]).run [.span 2 3]).t) g [(.span 0 0 (0, 1), 7)] = .ok m ∧
    JHashMap.get m (Ex.textHeap ((newState [97, 98, 99, 100]).run [.span 2 3]).t) g (.span 1 0 (0, 1)) = .ok (some 7) ∧
    JHashMap.get m (Ex.textHeap ((newState [97, 98, 99, 100]).run [.span 2 3, .compile [0]]).t) g (.span 0 0 (0, 1)) = .ok none :=
  ⟨_, rfl, rfl, rfl⟩

/-- C99, a violation. Two nodes of a layer are equal: after a removal and two additions both have id 2. A hash map takes
the one for the other. -/
theorem C99_nodes_over (g : JHashes) : (JLayer.run .new [.add 0, .add 1, .remove 1, .add 2, .add 3]).1.nodes = [0, 2, 3] ∧
    (Ex.layHeap (JLayer.run .new [.add 0, .add 1, .remove 1, .add 2, .add 3]).1).equals (.node 2) (.node 3) = .ok true ∧
    ∃ m, JHashMap.puts [] (Ex.layHeap (JLayer.run .new [.add 0, .add 1, .remove 1, .add 2, .add 3]).1) g [(.node 2, 20), (.node 3, 30)] = .ok m ∧
      JHashMap.get m (Ex.layHeap (JLayer.run .new [.add 0, .add 1, .remove 1, .add 2, .add 3]).1) g (.node 2) = .ok (some 30) := by
  have hids : (JLayer.run .new [.add 0, .add 1, .remove 1, .add 2, .add 3]).1.ids 2 = 2 ∧
      (JLayer.run .new [.add 0, .add 1, .remove 1, .add 2, .add 3]).1.ids 3 = 2 ∧
      (JLayer.run .new [.add 0, .add 1, .remove 1, .add 2, .add 3]).1.lay 2 = some 0 ∧
      (JLayer.run .new [.add 0, .add 1, .remove 1, .add 2, .add 3]).1.lay 3 = some 0 := by decide
  have heq : (Ex.layHeap (JLayer.run .new [.add 0, .add 1, .remove 1, .add 2, .add 3]).1).equals (.node 2) (.node 3) = .ok true :=
    (equals_iff _ _ _).mpr (.node rfl (hids.1.trans hids.2.1.symm) hids.2.2.1 hids.2.2.2 rfl rfl)
  obtain ⟨m, h1, h2⟩ := C99_map_partial (V := Nat) (Ex.layHeap (JLayer.run .new [.add 0, .add 1, .remove 1, .add 2, .add 3]).1) g
    [(.node 2, 20), (.node 3, 30)] (.node 2)
    (by
      intro e he
      simp only [List.mem_cons, List.not_mem_nil, or_false] at he
      rcases he with rfl | rfl
      · refine ⟨trivial, fun n hn => ?_⟩
        cases hn
        exact fun q => Option.some_ne_none 0 (hids.2.2.1.symm.trans q)
      · refine ⟨trivial, fun n hn => ?_⟩
        cases hn
        exact fun q => Option.some_ne_none 0 (hids.2.2.2.symm.trans q))
    trivial (by
      intro n hn
      cases hn
      exact fun q => Option.some_ne_none 0 (hids.2.2.1.symm.trans q))
  refine ⟨by decide, heq, m, h1, h2.trans ?_⟩
  simp only [lastPut, Option.none_or]
  rw [if_pos heq]
  rfl

/-- C99, a violation. When a layer of a schema is added to a document again (Document.java:89-94), the nodes of the layer
that is replaced are equal to those of the new one with the same ids. -/
theorem C99_again_over (w : JHeap) {n m l l' : Nat} (hn : w.lay n = some l) (hm : w.lay m = some l') (hp : w.parent l = w.parent l')
    (hs : w.schema l = w.schema l') (hi : w.ids n = w.ids m) (hc : w.cls n = w.cls m) : w.equals (.node n) (.node m) = .ok true :=
  (equals_iff _ _ _).mpr (.node hc hi hn hm hp hs)

/-- C99, a violation. Arrays of nodes, spans of nodes and extension values are equal to no other, whatever they hold. -/
theorem C99_arrays_differ (w : JHeap) {j k : Nat} (h : j ≠ k) (ns : List Nat) (l r : Nat) (x : Str) (b : Bytes) :
    w.equals (.nodes j ns) (.nodes k ns) = .ok false ∧ w.equals (.nodespan j l r) (.nodespan k l r) = .ok false ∧
    w.equals (.ext j x b) (.ext k x b) = .ok false := by
  simp [JHeap.equals, h]

/-- C99, a violation. Spans of two texts with the same name and characters that cover the same are not equal if one text was
compiled: those of a document that was read from the bytes of another differ from those of the other. -/
theorem C99_spans_differ : let w : JHeap := ⟨fun _ => 0, fun _ => 0, fun _ => none, fun _ => 0, fun _ => 0, fun _ => "main".toList,
      fun t => if t = 0 then ((newState [97, 98, 99, 100]).run [.span 2 3]).t else ((newState [97, 98, 99, 100]).run [.span 2 3, .compile [0]]).t⟩
    w.equals (.text 0) (.text 1) = .ok true ∧ (w.text 0).str (0, 1) = (w.text 1).str (0, 1) ∧
    w.equals (.span 0 0 (0, 1)) (.span 1 1 (0, 1)) = .ok false := ⟨rfl, rfl, rfl⟩

/-- C99. A node without a layer has no hash code: after `remove` it cannot be looked up, and asked about another node with
its id it fails, while the other answers. -/
theorem C99_removed_fails (g : JHashes) :
    (Ex.layHeap (JLayer.run .new [.add 0, .add 1, .remove 0]).1).hash g (.node 0) = .error .attribute ∧
    (Ex.layHeap (JLayer.run .new [.add 0, .add 1, .remove 0]).1).equals (.node 0) (.node 5) = .error .attribute ∧
    (Ex.layHeap (JLayer.run .new [.add 0, .add 1, .remove 0, .compact]).1).equals (.node 0) (.node 1) = .error .attribute ∧
    (Ex.layHeap (JLayer.run .new [.add 0, .add 1, .remove 0, .compact]).1).equals (.node 1) (.node 0) = .ok false := ⟨rfl, rfl, rfl, rfl⟩

/-- C99, the full statement for nodes: in a layer made by calls, nodes are equal only to themselves. -/
def C99_full : Prop := ∀ (os : List JLayer.Op) (n m : Nat), n ∈ (JLayer.run .new os).1.nodes → m ∈ (JLayer.run .new os).1.nodes →
  (Ex.layHeap (JLayer.run .new os).1).equals (.node n) (.node m) = .ok (decide (n = m))

/-- C99. The full statement is false. -/
theorem C99_full_false : ¬ C99_full := by
  intro h
  obtain ⟨h1, h2, -⟩ := C99_nodes_over ⟨fun _ => 0, fun _ => 0, fun _ => 0, fun _ => 0⟩
  have := h [.add 0, .add 1, .remove 1, .add 2, .add 3] 2 3 (by rw [h1]; simp) (by rw [h1]; simp)
  rw [h2] at this
  cases this

/-! ### cases -/

namespace Ex

/-- two NaNs are equal, zeros of both signs are not -/
example : (textHeap (JText.new [])).equals (.scal 0 (.double 0x7FF8000000000000)) (.scal 1 (.double 0xFFF0000000000001)) = .ok true ∧
    (textHeap (JText.new [])).equals (.scal 0 (.double 0)) (.scal 1 (.double 0x8000000000000000)) = .ok false ∧
    (textHeap (JText.new [])).equals (.scal 0 (.int 1)) (.scal 1 (.long 1)) = .ok false := ⟨rfl, rfl, rfl⟩

/-- hash codes: "ab".hashCode() is 3105, of the value 31 more; `Long.hashCode(-1)` is 0; two bytes -/
example : (JScal.str "ab".toList).hash = 3136 ∧ (JScal.long (-1)).hash = 31 ∧ (JScal.bin [1, 255]).hash = 991 ∧
    (JScal.bool true).hash = 1262 ∧ (JScal.int (-32)).hash = -1 ∧ strHash (lit "polygenelubricants") = -2147483648 := by decide +kernel

/-- types with the same arguments put in another order -/
def typeA : JRef := .type 0 .span [("a".toList, .int 1), ("context".toList, .str "main".toList)]
def typeB : JRef := .type 1 .span [("context".toList, .str "main".toList), ("a".toList, .int 1)]

example (g : JHashes) : (textHeap (JText.new [])).equals typeA typeB = .ok true ∧ Proper typeA ∧ Proper typeB ∧
    (textHeap (JText.new [])).hash g typeA = (textHeap (JText.new [])).hash g typeB := by
  have h : (textHeap (JText.new [])).equals typeA typeB = .ok true := rfl
  have ha : Proper typeA := by show (dkeys _).Nodup; decide
  have hb : Proper typeB := by show (dkeys _).Nodup; decide
  exact ⟨h, ha, hb, C99_hash _ g ha hb h⟩

/-- a layer of 20 nodes, six removed: node 19 has moved and is lost to a map that had it -/
example (g : JHashes) : ∃ m, JHashMap.puts [] (layHeap before20) g [(.node 19, 5)] = .ok m ∧
    JHashMap.get m (layHeap after20) g (.node 19) = .ok none := by
  obtain ⟨h1, h2, h3, h4⟩ := C99_compact_lost
  obtain ⟨m, q1, -, q3⟩ := C99_moved_lost (layHeap before20) (layHeap after20) g (n := 19) (l := 0) 5 h2 h4 rfl rfl
    (by show after20.ids 19 ≠ before20.ids 19; rw [h1, h3]; decide)
    (by show _ ≤ before20.ids 19 ∧ before20.ids 19 < _; rw [h1]; decide)
    (by show _ ≤ after20.ids 19 ∧ after20.ids 19 < _; rw [h3]; decide)
  exact ⟨m, q1, q3⟩

/-- calls that meet the hypothesis of C99_sequence_partial -/
example : (layHeap (JLayer.run .new [.add 4, .add 7, .add 9, .remove 7]).1).equals (.node 4) (.node 9) = .ok false :=
  C99_sequence_partial (layHeap (JLayer.run .new [.add 4, .add 7, .add 9, .remove 7]).1) (lay := fun _ => none) (ids := fun _ => 0)
    (by simp) [.add 4, .add 7, .add 9, .remove 7] (by simp [Spec.WhenFull, Spec.needsFull, Spec.Full, JLayer.op, JLayer.add, JLayer.upd]) rfl rfl (by decide) (by decide)

/-- two spans of "hello" with the same ends, made as two objects, and one with other ends -/
example : let w := textHeap ⟨utf16 "hello".toList, true, [⟨0, 1, 0⟩, ⟨0, 3, 0⟩], [(1, 0), (3, 1)]⟩
    LiveSpan (w.text 0) (0, 1) ∧ w.equals (.span 0 0 (0, 1)) (.span 1 0 (0, 1)) = .ok true ∧ w.equals (.span 0 0 (0, 1)) (.span 1 0 (0, 0)) = .ok false :=
  ⟨⟨1, 3, rfl, rfl, by decide⟩, rfl, rfl⟩

/-- nodes with id 0 of the layers of two documents -/
example : (⟨fun _ => 0, fun _ => 0, fun n => some n, fun l => l, fun _ => 0, fun _ => [], fun _ => JText.new []⟩ : JHeap).equals (.node 0) (.node 1) = .ok false :=
  C99_layers _ rfl rfl (.inl (by decide))

end Ex

end Verif
