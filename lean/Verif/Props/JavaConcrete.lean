import Verif.Model.JavaConcrete
import Verif.Proof.TreeMap
/-
C98: nodes whose fields are fields of an object (ConcreteNode of the Java library) read and write as nodes.
-/
set_option linter.unusedSimpArgs false
namespace Verif

/-! ## What is claimed -/

namespace Spec

/-- a node as a map: the fields that have been set -/
abbrev Fields := Str → Option JVal

/-- the map after a put -/
def setField (m : Fields) (f : Str) (v : JVal) : Fields := fun g => if g = f then some v else m g

/-- the map after a list of puts -/
def setFields (m : Fields) : List (Str × JVal) → Fields
  | [] => m
  | (f, v) :: ps => setFields (setField m f v) ps

/-- a field is a field of the object -/
def Own {σ : Type} (I : JIface σ) (f : Str) : Prop := (dget I.getters f).isSome = true

/-- getters and setters are what one writes for a class with a field for each: the setter of a field takes the values
that suit the field, the getter gives what was set, and the fields do not share storage -/
structure Lawful {σ : Type} (I : JIface σ) (suits : Str → JVal → Prop) : Prop where
  both : ∀ f, (dget I.getters f).isSome = (dget I.setters f).isSome
  order : (dkeys I.getters).Nodup ∧ (dkeys I.setters).Nodup
  set : ∀ f s, dget I.setters f = some s → ∀ st v, suits f v → ∃ st', s st v = .ok st' ∧
    (∀ g, dget I.getters f = some g → g st' = .ok (some v)) ∧
    ∀ f' g, f' ≠ f → dget I.getters f' = some g → g st' = g st

/-- the object holds the map: the fields of the object that are set give their values, the others are in `data` -/
structure ObjHolds {σ : Type} (I : JIface σ) (c : JCon σ) (m : Fields) : Prop where
  own : ∀ f v, Own I f → m f = some v → I.get c f = .ok (some v)
  other : ∀ f, ¬ Own I f → dget c.data f = m f
  apart : ∀ f, Own I f → dget c.data f = none

/-- what a class of nodes should do: reading, asking, removing and the default behave as on a map -/
def NodeLike {σ : Type} (I : JIface σ) (suits : Str → JVal → Prop) (new : σ) : Prop :=
  ∀ (r : Dict Str JVal) (ps : List (Str × JVal)), (dkeys r).Nodup → (∀ e ∈ r, suits e.1 e.2) → (∀ e ∈ ps, suits e.1 e.2) →
    ∃ c0 c, I.setData ⟨new, []⟩ r = .ok c0 ∧ I.puts c0 ps = .ok c ∧
      ∀ f v, (setFields (dget r) ps f = some v → I.get c f = .ok (some v)) ∧
        (I.has c f = (setFields (dget r) ps f).isSome) ∧
        (I.getOr c f v = (setFields (dget r) ps f).getD v) ∧
        (I.has (I.remove c f) f = false)

end Spec

/-! ## Proofs -/

open Spec

theorem dget_tremove {ν : Type} (d : Dict Str ν) (k f : Str) : dget (tremove d k) f = if f = k then none else dget d f := by
  induction d with
  | nil => simp [tremove, dget]
  | cons e d ih =>
    obtain ⟨a, b⟩ := e
    simp only [tremove, List.filter_cons] at ih ⊢
    by_cases h : a = k
    · subst h
      simp only [decide_true, Bool.not_true, Bool.false_eq_true, if_false, ih, dget]
      by_cases h2 : f = a
      · simp [h2]
      · simp [h2, Ne.symm h2]
    · simp only [decide_eq_false h, Bool.not_false, if_true, dget, ih]
      by_cases h2 : a = f
      · subst h2; simp [h]
      · simp [h2]

theorem own_setter {σ : Type} {I : JIface σ} {suits} (hI : Lawful I suits) {f : Str} : Own I f ↔ ∃ s, dget I.setters f = some s := by
  rw [Own, hI.both f, Option.isSome_iff_exists]

theorem own_getter {σ : Type} {I : JIface σ} {f : Str} : Own I f ↔ ∃ g, dget I.getters f = some g := by
  rw [Own, Option.isSome_iff_exists]

theorem get_own {σ : Type} {I : JIface σ} {c : JCon σ} {f : Str} {g} (h : dget I.getters f = some g) : I.get c f = g c.st := by
  simp only [JIface.get, h]

theorem not_own {σ : Type} {I : JIface σ} {f : Str} (h : ¬ Own I f) : dget I.getters f = none := by
  cases hg : dget I.getters f with
  | none => rfl
  | some g => exact absurd (own_getter.mpr ⟨g, hg⟩) h

/-- a put of a value that suits the field succeeds, and is a put on the map -/
theorem C98_put {σ : Type} {I : JIface σ} {suits} (hI : Lawful I suits) {c : JCon σ} {m : Fields} (hc : ObjHolds I c m) {f : Str} {v : JVal}
    (hv : suits f v) : ∃ c', I.put c f v = .ok c' ∧ ObjHolds I c' (setField m f v) := by
  by_cases hf : Own I f
  · obtain ⟨s, hs⟩ := (own_setter hI).mp hf
    obtain ⟨st', h1, h2, h3⟩ := hI.set f s hs c.st v hv
    refine ⟨⟨st', c.data⟩, by simp only [JIface.put, hs, h1], ?_, ?_, hc.apart⟩
    · intro f' v' hf' hm
      obtain ⟨g, hg⟩ := own_getter.mp hf'
      rw [get_own hg]
      simp only [setField] at hm
      by_cases he : f' = f
      · subst he
        rw [if_pos rfl] at hm
        rw [← Option.some.inj hm]
        exact h2 g hg
      · rw [if_neg he] at hm
        have := hc.own f' v' hf' hm
        rw [get_own hg] at this
        show g st' = _
        rw [h3 f' g he hg, this]
    · intro f' hf'
      have he : f' ≠ f := fun e => hf' (e ▸ hf)
      simp only [setField, if_neg he]
      exact hc.other f' hf'
  · have hs : dget I.setters f = none := by
      cases hs : dget I.setters f with
      | none => rfl
      | some s => exact absurd ((own_setter hI).mpr ⟨s, hs⟩) hf
    refine ⟨⟨c.st, tput c.data f v⟩, by simp only [JIface.put, hs], ?_, ?_, ?_⟩
    · intro f' v' hf' hm
      have he : f' ≠ f := fun e => hf (e ▸ hf')
      simp only [setField, if_neg he] at hm
      have := hc.own f' v' hf' hm
      obtain ⟨g, hg⟩ := own_getter.mp hf'
      rw [get_own hg] at this ⊢
      exact this
    · intro f' hf'
      show dget (tput c.data f v) f' = _
      rw [dget_tput]
      simp only [setField]
      by_cases he : f' = f
      · simp [he]
      · rw [if_neg (Ne.symm he), if_neg he]
        exact hc.other f' hf'
    · intro f' hf'
      have he : f' ≠ f := fun e => hf (e ▸ hf')
      show dget (tput c.data f v) f' = _
      rw [dget_tput, if_neg (Ne.symm he)]
      exact hc.apart f' hf'

/-- any number of puts -/
theorem C98_puts {σ : Type} {I : JIface σ} {suits} (hI : Lawful I suits) : ∀ (ps : List (Str × JVal)) {c : JCon σ} {m : Fields}, ObjHolds I c m →
    (∀ e ∈ ps, suits e.1 e.2) → ∃ c', I.puts c ps = .ok c' ∧ ObjHolds I c' (setFields m ps)
  | [], c, m, hc, _ => ⟨c, rfl, hc⟩
  | (f, v) :: ps, c, m, hc, hs => by
    obtain ⟨c1, h1, h2⟩ := C98_put hI hc (hs (f, v) (by simp))
    obtain ⟨c2, h3, h4⟩ := C98_puts hI ps h2 (fun e he => hs e (by simp [he]))
    exact ⟨c2, by simp only [JIface.puts, h1, h3], h4⟩

theorem mem_dkeys_cons {ν : Type} {k f : Str} {s : ν} {ss : Dict Str ν} : f ∈ dkeys ((k, s) :: ss) ↔ f = k ∨ f ∈ dkeys ss := by
  simp only [dkeys, List.map_cons, List.mem_cons]

theorem setLoop_spec {σ : Type} {I : JIface σ} {suits} (hI : Lawful I suits) : ∀ (ss : Dict Str (σ → JVal → Except PyErr σ)), (dkeys ss).Nodup →
    (∀ e ∈ ss, dget I.setters e.1 = some e.2) → ∀ (st : σ) (data : Dict Str JVal), (∀ f v, dget data f = some v → suits f v) →
    ∃ c, JIface.setLoop st data ss = .ok c ∧
      (∀ f, dget c.data f = if f ∈ dkeys ss then none else dget data f) ∧
      (∀ f g v, dget I.getters f = some g → f ∈ dkeys ss → dget data f = some v → g c.st = .ok (some v)) ∧
      (∀ f g, dget I.getters f = some g → (f ∉ dkeys ss ∨ dget data f = none) → g c.st = g st)
  | [], _, _, st, data, _ => ⟨⟨st, data⟩, rfl, by simp [dkeys], by simp [dkeys], by simp⟩
  | (k, s) :: ss, hn, hin, st, data, hs => by
    have hks := hin (k, s) (by simp)
    simp only [dkeys, List.map_cons, List.nodup_cons] at hn
    have hin' : ∀ e ∈ ss, dget I.setters e.1 = some e.2 := fun e he => hin e (by simp [he])
    cases hd : dget data k with
    | none =>
      obtain ⟨c, h1, h2, h3, h4⟩ := setLoop_spec hI ss hn.2 hin' st data hs
      refine ⟨c, by simp only [JIface.setLoop, hd, h1], ?_, ?_, ?_⟩
      · intro f
        rw [h2]
        by_cases hf : f = k
        · subst hf
          rw [if_pos (mem_dkeys_cons.mpr (.inl rfl)), hd]
          split <;> rfl
        · simp only [mem_dkeys_cons, hf, false_or]
      · intro f g v hg hf hv
        simp only [dkeys, List.map_cons, List.mem_cons] at hf
        rcases hf with rfl | hf
        · rw [hd] at hv; cases hv
        · exact h3 f g v hg hf hv
      · intro f g hg hf
        refine h4 f g hg ?_
        rcases hf with hf | hf
        · exact .inl (fun h => hf (by simp only [dkeys, List.map_cons, List.mem_cons]; exact .inr h))
        · exact .inr hf
    | some v =>
      obtain ⟨st', e1, e2, e3⟩ := hI.set k s hks st v (hs k v hd)
      obtain ⟨c, h1, h2, h3, h4⟩ := setLoop_spec hI ss hn.2 hin' st' (tremove data k) (by
        intro f w hw
        rw [dget_tremove] at hw
        split at hw
        · cases hw
        · exact hs f w hw)
      refine ⟨c, by simp only [JIface.setLoop, hd, e1, h1], ?_, ?_, ?_⟩
      · intro f
        rw [h2, dget_tremove]
        by_cases hf : f = k
        · subst hf
          rw [if_pos (mem_dkeys_cons.mpr (.inl rfl)), if_pos rfl]
          split <;> rfl
        · simp only [mem_dkeys_cons, hf, false_or, if_false]
      · intro f g w hg hf hw
        by_cases hfk : f = k
        · subst hfk
          rw [hd] at hw
          rw [h4 f g hg (.inr (by rw [dget_tremove, if_pos rfl])), e2 g hg, Option.some.inj hw]
        · simp only [dkeys, List.map_cons, List.mem_cons, hfk, false_or] at hf
          exact h3 f g w hg hf (by rw [dget_tremove, if_neg hfk]; exact hw)
      · intro f g hg hf
        by_cases hfk : f = k
        · subst hfk
          rcases hf with hf | hf
          · exact absurd (by simp [dkeys]) hf
          · rw [hd] at hf; cases hf
        · rw [h4 f g hg, e3 f g hfk hg]
          rcases hf with hf | hf
          · exact .inl (fun h => hf (by simp only [dkeys, List.map_cons, List.mem_cons]; exact .inr h))
          · exact .inr (by rw [dget_tremove, if_neg hfk]; exact hf)

/-- a node made with the values of its builder holds them, whatever the object held before for the fields that are not given -/
theorem C98_setData {σ : Type} {I : JIface σ} {suits} (hI : Lawful I suits) (c : JCon σ) (r : Dict Str JVal) (hr : ∀ f v, dget r f = some v → suits f v) :
    ∃ c', I.setData c r = .ok c' ∧ ObjHolds I c' (dget r) ∧ ∀ f g, dget I.getters f = some g → dget r f = none → g c'.st = g c.st := by
  obtain ⟨c', h1, h2, h3, h4⟩ := setLoop_spec hI I.setters hI.order.2 (fun e he => dget_of_mem hI.order.2 he) c.st r hr
  have key : ∀ f, Own I f ↔ f ∈ dkeys I.setters := fun f => by
    rw [Own, hI.both f, dget_isSome_iff]
  refine ⟨c', h1, ⟨?_, ?_, ?_⟩, ?_⟩
  · intro f v hf hv
    obtain ⟨g, hg⟩ := own_getter.mp hf
    rw [get_own hg]
    exact h3 f g v hg ((key f).mp hf) hv
  · intro f hf
    rw [h2, if_neg (fun h => hf ((key f).mpr h))]
  · intro f hf
    rw [h2, if_pos ((key f).mp hf)]
  · intro f g hg hf
    exact h4 f g hg (.inr hf)

/-- what a node reads: a field that is set gives its value; a field that is not set and not a field of the object gives null -/
theorem C98_get {σ : Type} {I : JIface σ} {c : JCon σ} {m : Fields} (hc : ObjHolds I c m) (f : Str) :
    (∀ v, m f = some v → I.get c f = .ok (some v)) ∧ (¬ Own I f → m f = none → I.get c f = .ok (some .null)) := by
  constructor
  · intro v hv
    by_cases hf : Own I f
    · exact hc.own f v hf hv
    · simp only [JIface.get, not_own hf, hc.other f hf, hv, Option.getD_some]
  · intro hf hm
    simp only [JIface.get, not_own hf, hc.other f hf, hm, Option.getD_none]

/-- `has` says yes for every field of the object, set or not, and otherwise for the fields that are set -/
theorem C98_has {σ : Type} {I : JIface σ} {c : JCon σ} {m : Fields} (hc : ObjHolds I c m) (f : Str) :
    I.has c f = true ↔ Own I f ∨ m f ≠ none := by
  by_cases hf : Own I f
  · have : (dget I.getters f).isSome = true := hf
    simp [JIface.has, this, hf]
  · simp only [JIface.has, not_own hf, Option.isSome_none, Bool.false_or, hc.other f hf, hf, false_or]
    cases m f <;> simp

/-- removing a field that is not a field of the object removes it; removing a field of the object leaves it -/
theorem C98_remove {σ : Type} {I : JIface σ} {c : JCon σ} {m : Fields} (hc : ObjHolds I c m) (f : Str) :
    (¬ Own I f → ObjHolds I (I.remove c f) (fun g => if g = f then none else m g)) ∧
    (Own I f → ObjHolds I (I.remove c f) m ∧ ∀ g, I.get (I.remove c f) g = I.get c g) := by
  constructor
  · intro hf
    refine ⟨?_, ?_, ?_⟩
    · intro f' v hf' hm
      have he : f' ≠ f := fun e => hf (e ▸ hf')
      simp only [if_neg he] at hm
      have := hc.own f' v hf' hm
      obtain ⟨g, hg⟩ := own_getter.mp hf'
      rw [get_own hg] at this ⊢
      exact this
    · intro f' hf'
      show dget (tremove c.data f) f' = _
      rw [dget_tremove]
      split
      · rfl
      · exact hc.other f' hf'
    · intro f' hf'
      show dget (tremove c.data f) f' = _
      rw [dget_tremove]
      split
      · rfl
      · exact hc.apart f' hf'
  · intro hf
    have hd : ∀ g, dget (tremove c.data f) g = dget c.data g := fun g => by
      rw [dget_tremove]
      split
      · rename_i e; subst e; exact (hc.apart g hf).symm
      · rfl
    have hg : ∀ g, I.get (I.remove c f) g = I.get c g := fun g => by
      simp only [JIface.get, JIface.remove, hd]
    exact ⟨⟨fun f' v hf' hm => by rw [hg]; exact hc.own f' v hf' hm, fun f' hf' => (hd f').trans (hc.other f' hf'),
      fun f' hf' => (hd f').trans (hc.apart f' hf')⟩, hg⟩

/-- reading with a default: right for the fields that are not fields of the object; for these the default, whatever they hold -/
theorem C98_default {σ : Type} {I : JIface σ} {c : JCon σ} {m : Fields} (hc : ObjHolds I c m) (f : Str) (v : JVal) :
    (¬ Own I f → I.getOr c f v = (m f).getD v) ∧ (Own I f → I.getOr c f v = v) := by
  constructor
  · intro hf
    simp only [JIface.getOr, hc.other f hf]
  · intro hf
    simp only [JIface.getOr, hc.apart f hf, Option.getD_none]

theorem apply_spec {σ : Type} (st : σ) : ∀ (gs : Dict Str (σ → Except PyErr (Option JVal))), (∀ e ∈ gs, ∃ v, e.2 st = .ok v) →
    ∃ vs, JIface.apply st gs = .ok vs ∧ vs.map (·.1) = dkeys gs ∧ ∀ k v, (k, v) ∈ vs ↔ ∃ g, (k, g) ∈ gs ∧ g st = .ok v
  | [], _ => ⟨[], rfl, rfl, by simp⟩
  | (k, g) :: gs, h => by
    obtain ⟨v, hv⟩ : ∃ v, g st = .ok v := h (k, g) (by simp)
    obtain ⟨vs, h1, h2, h3⟩ := apply_spec st gs (fun e he => h e (by simp [he]))
    refine ⟨(k, v) :: vs, by simp only [JIface.apply, hv, h1], by simp [dkeys] at h2 ⊢; exact h2, ?_⟩
    intro k' v'
    simp only [List.mem_cons, h3, Prod.mk.injEq]
    constructor
    · rintro (⟨rfl, rfl⟩ | ⟨g', hg, hv'⟩)
      · exact ⟨g, .inl ⟨rfl, rfl⟩, hv⟩
      · exact ⟨g', .inr hg, hv'⟩
    · rintro ⟨g', ⟨rfl, rfl⟩ | hg, hv'⟩
      · rw [hv] at hv'
        exact .inl ⟨rfl, (Except.ok.inj hv').symm⟩
      · exact .inr ⟨g', hg, hv'⟩

/-- visiting the fields: when every field of the object is set, each field that is set is visited once, with its value -/
theorem C98_forEach_partial {σ : Type} {I : JIface σ} {suits} (hI : Lawful I suits) {c : JCon σ} {m : Fields} (hc : ObjHolds I c m) (hn : (dkeys c.data).Nodup)
    (hset : ∀ f, Own I f → m f ≠ none) :
    ∃ vs, I.forEach c = .ok vs ∧ (vs.map (·.1)).Nodup ∧ ∀ f v, (f, v) ∈ vs ↔ ∃ w, v = some w ∧ m f = some w := by
  have hown : ∀ e ∈ I.getters, Own I e.1 ∧ dget I.getters e.1 = some e.2 := fun e he => by
    have := dget_of_mem hI.order.1 he
    exact ⟨own_getter.mpr ⟨_, this⟩, this⟩
  have hval : ∀ e ∈ I.getters, ∃ v, m e.1 = some v ∧ e.2 c.st = .ok (some v) := fun e he => by
    obtain ⟨ho, hg⟩ := hown e he
    cases hm : m e.1 with
    | none => exact absurd hm (hset e.1 ho)
    | some v =>
      refine ⟨v, rfl, ?_⟩
      rw [← get_own hg]
      exact hc.own e.1 v ho hm
  obtain ⟨vs, h1, h2, h3⟩ := apply_spec c.st I.getters (fun e he => (hval e he).elim (fun v hv => ⟨some v, hv.2⟩))
  have hkeys : (c.data.map (fun e => (e.1, some e.2))).map (·.1) = dkeys c.data := by
    simp [dkeys, List.map_map, Function.comp_def]
  refine ⟨c.data.map (fun e => (e.1, some e.2)) ++ vs, by simp only [JIface.forEach, h1], ?_, ?_⟩
  · rw [List.map_append, hkeys, h2, List.nodup_append]
    refine ⟨hn, hI.order.1, ?_⟩
    intro a ha b hb e
    subst e
    rw [← dget_isSome_iff] at ha hb
    rw [hc.apart a hb] at ha
    cases ha
  · intro f v
    simp only [List.mem_append, List.mem_map, Prod.mk.injEq, h3, Prod.exists]
    constructor
    · rintro (⟨a, b, hab, rfl, rfl⟩ | ⟨g, hg, hv⟩)
      · refine ⟨b, rfl, ?_⟩
        have hd := dget_of_mem hn hab
        have : ¬ Own I a := fun ho => by rw [hc.apart a ho] at hd; cases hd
        rw [← hc.other a this, hd]
      · obtain ⟨w, hw, hgw⟩ := hval (f, g) hg
        simp only at hgw hw
        rw [hgw] at hv
        exact ⟨w, (Except.ok.inj hv).symm, hw⟩
    · rintro ⟨w, rfl, hw⟩
      by_cases hf : Own I f
      · obtain ⟨g, hg⟩ := own_getter.mp hf
        refine .inr ⟨g, dget_mem hg, ?_⟩
        rw [← get_own hg]
        exact hc.own f w hf hw
      · rw [← hc.other f hf] at hw
        exact .inl ⟨f, w, dget_mem hw, rfl, rfl⟩

/-- made by a builder and then written to, an object reads as a node, asks as one about fields that are not its own, and about its own once they are set -/
theorem C98_node_partial {σ : Type} {I : JIface σ} {suits} (hI : Lawful I suits) (new : σ) (r : Dict Str JVal) (ps : List (Str × JVal))
    (hr : ∀ e ∈ r, suits e.1 e.2) (hp : ∀ e ∈ ps, suits e.1 e.2) :
    ∃ c0 c, I.setData ⟨new, []⟩ r = .ok c0 ∧ I.puts c0 ps = .ok c ∧
      ∀ f v, (setFields (dget r) ps f = some v → I.get c f = .ok (some v)) ∧
        (¬ Own I f ∨ setFields (dget r) ps f ≠ none → I.has c f = (setFields (dget r) ps f).isSome) ∧
        (¬ Own I f → I.getOr c f v = (setFields (dget r) ps f).getD v) ∧
        (¬ Own I f → I.has (I.remove c f) f = false) := by
  obtain ⟨c0, h1, h2, _⟩ := C98_setData hI ⟨new, []⟩ r (fun f v h => hr (f, v) (dget_mem h))
  obtain ⟨c, h3, h4⟩ := C98_puts hI ps h2 hp
  refine ⟨c0, c, h1, h3, ?_⟩
  intro f v
  refine ⟨(C98_get h4 f).1 v, ?_, (C98_default h4 f v).1, ?_⟩
  · intro h
    rw [Bool.eq_iff_iff, C98_has h4 f]
    cases hm : setFields (dget r) ps f with
    | none => rcases h with h | h <;> simp_all
    | some w => simp
  · intro hf
    have := C98_has ((C98_remove h4 f).1 hf) f
    rw [if_pos rfl] at this
    cases hb : I.has (I.remove c f) f with
    | false => rfl
    | true => rw [hb] at this; simp [hf] at this

/-- the builder of an interface: the last getter and setter added for a name are those of the name, the other names keep theirs -/
theorem C98_addField {σ : Type} (I : JIface σ) (name : Str) (g : σ → Except PyErr (Option JVal)) (s : σ → JVal → Except PyErr σ) :
    (∀ c : JCon σ, (I.addField name g s).get c name = g c.st) ∧
    (∀ (c : JCon σ) v, (I.addField name g s).put c name v = (s c.st v).map (fun st => ⟨st, c.data⟩)) ∧
    (∀ (c : JCon σ) f, f ≠ name → (I.addField name g s).get c f = I.get c f ∧ ∀ v, (I.addField name g s).put c f v = I.put c f v) ∧
    ∀ f, Own (I.addField name g s) f ↔ f = name ∨ Own I f := by
  refine ⟨fun c => ?_, fun c v => ?_, fun c f hf => ⟨?_, fun v => ?_⟩, fun f => ?_⟩
  · simp only [JIface.get, JIface.addField, dget_tput, if_true]
  · simp only [JIface.put, JIface.addField, dget_tput, if_true]
    cases s c.st v <;> rfl
  · simp only [JIface.get, JIface.addField, dget_tput, if_neg (Ne.symm hf)]
  · simp only [JIface.put, JIface.addField, dget_tput, if_neg (Ne.symm hf)]
  · simp only [Own, JIface.addField, dget_tput]
    by_cases h : name = f
    · simp [h]
    · simp [h, Ne.symm h]

/-- with no fields of its own the object is a node -/
theorem C98_plain (new : Unit) : NodeLike (JIface.new (σ := Unit)) (fun _ _ => True) new := by
  have hI : Lawful (JIface.new (σ := Unit)) (fun _ _ => True) :=
    ⟨fun f => rfl, ⟨List.nodup_nil, List.nodup_nil⟩, fun f s hs => by cases hs⟩
  have ho : ∀ f, ¬ Own (JIface.new (σ := Unit)) f := fun f h => by cases h
  intro r ps _ _ _
  obtain ⟨c0, c, h1, h2, h3⟩ := C98_node_partial hI new r ps (fun _ _ => trivial) (fun _ _ => trivial)
  exact ⟨c0, c, h1, h2, fun f v => ⟨(h3 f v).1, (h3 f v).2.1 (.inl (ho f)), (h3 f v).2.2.1 (ho f), (h3 f v).2.2.2 (ho f)⟩⟩

/-- a field of its own and a value that suits it: the object is not like a node, whatever the getters and setters are -/
theorem C98_node_false {σ : Type} {I : JIface σ} {suits} {f : Str} (hf : Own I f) (new : σ) : ¬ NodeLike I suits new := by
  intro h
  obtain ⟨c0, c, _, _, h3⟩ := h [] [] (by simp [dkeys]) (by simp) (by simp)
  have := (h3 f .null).2.2.2
  have ho : (dget I.getters f).isSome = true := hf
  simp [JIface.has, ho] at this

/-! ### references of a document that is read -/

/-- a field of the object whose setter does not take integers: no reference in it can be read -/
theorem C98_reference_refused {σ : Type} {I : JIface σ} {f : Str} {s : σ → JVal → Except PyErr σ} (hs : dget I.setters f = some s)
    {e : PyErr} (c : JCon σ) (i : Int) (he : s c.st (.int i) = .error e) (d : JDoc) (nodes : Int → Except PyErr JVal) :
    I.readRef d nodes c f (some i) = .error e := by
  simp only [JIface.readRef, JIface.put, hs, he]

/-- a field of the object that holds any value reads a reference that is there -/
theorem C98_reference_read {σ : Type} {I : JIface σ} {suits} (hI : Lawful I suits) {c : JCon σ} {m : Fields} (hc : ObjHolds I c m) {f : Str} {i : Int} {v : JVal}
    (hi : suits f (.int i)) (hv : suits f v) (d : JDoc) (nodes : Int → Except PyErr JVal) (hn : nodes i = .ok v) :
    ∃ c', I.readRef d nodes c f (some i) = .ok c' ∧ ObjHolds I c' (setField m f v) := by
  obtain ⟨c1, h1, h2⟩ := C98_put hI hc hi
  have hm : setField m f (.int i) f = some (.int i) := by simp [setField]
  have hh : I.has c1 f = true := (C98_has h2 f).mpr (.inr (by rw [hm]; simp))
  have hg := (C98_get h2 f).1 _ hm
  obtain ⟨c2, h3, h4⟩ := C98_put hI h2 hv
  refine ⟨c2, by simp only [JIface.readRef, h1, JIface.resolve, hh, if_true, hg, JDoc.intValue, hn, h3], ?_⟩
  have : setField (setField m f (.int i)) f v = setField m f v := by
    funext g
    simp only [setField]
    split <;> rfl
  exact this ▸ h4

/-- but a reference that is not there reads as a reference to the first node, when the field starts out as the null value -/
theorem C98_reference_invented {σ : Type} {I : JIface σ} {suits} (hI : Lawful I suits) {c : JCon σ} {m : Fields} (hc : ObjHolds I c m) {f : Str} (hf : Own I f) {v : JVal}
    (h0 : I.get c f = .ok (some .null)) (hv : suits f v) (d : JDoc) (nodes : Int → Except PyErr JVal) (hn : nodes 0 = .ok v) :
    ∃ c', I.readRef d nodes c f none = .ok c' ∧ I.get c' f = .ok (some v) := by
  have hh : I.has c f = true := (C98_has hc f).mpr (.inl hf)
  obtain ⟨c2, h3, h4⟩ := C98_put hI hc hv
  exact ⟨c2, by simp only [JIface.readRef, JIface.resolve, hh, if_true, h0, JDoc.intValue, hn, h3], (C98_get h4 f).1 v (by simp [setField])⟩

/-- and when it starts out as Java's null, the document cannot be read -/
theorem C98_reference_missing {σ : Type} {I : JIface σ} {c : JCon σ} {f : Str} (hf : Own I f) (h0 : I.get c f = .ok none) (d : JDoc) (nodes : Int → Except PyErr JVal) :
    I.readRef d nodes c f none = .error .attribute := by
  have ho : (dget I.getters f).isSome = true := hf
  have hh : I.has c f = true := by simp [JIface.has, ho]
  simp only [JIface.readRef, JIface.resolve, hh, if_true, h0]

/-- a node that is not an object of a class leaves a missing reference missing -/
theorem C98_reference_plain {σ : Type} {I : JIface σ} {c : JCon σ} {m : Fields} (hc : ObjHolds I c m) {f : Str} (hf : ¬ Own I f) (hm : m f = none) (d : JDoc)
    (nodes : Int → Except PyErr JVal) : I.readRef d nodes c f none = .ok c := by
  have hh : I.has c f = false := by
    cases hb : I.has c f with
    | false => rfl
    | true => rcases (C98_has hc f).mp hb with h | h <;> contradiction
  simp only [JIface.readRef, JIface.resolve, hh, Bool.false_eq_true, if_false]

/-! ## Concrete cases -/

namespace Ex

/-- NamedEntity of the library's own tests (java/core/src/test/java/se/lth/cs/docria/MainTest.java:60-90): a span and a
string. `Values.get(null)` for a string that is not set is not modelled -/
def entity : JIface (Option (Str × JSpan) × Option Str) :=
  (JIface.new.addField "text".toList
    (fun s => .ok (s.1.map (fun p => .span p.1 p.2)))
    (fun s v => (JDoc.spanValue v).map (fun p => (some p, s.2)))).addField "cls".toList
    (fun s => match s.2 with
      | some c => .ok (some (.str c))
      | none => .error .unmodelled)
    (fun s v => match v with
      | .str c => .ok (s.1, some c)
      | _ => .error .unmodelled)

/-- what suits its fields: a span, a string; anything for other names -/
def suitsEntity (f : Str) (v : JVal) : Prop :=
  (f = "text".toList → ∃ c p, v = .span c p) ∧ (f = "cls".toList → ∃ c, v = .str c)

/-- a class with one field that holds any value, null at first -/
def link : JIface JVal := JIface.new.addField "head".toList (fun s => .ok (some s)) (fun _ v => .ok v)

/-- a class whose field is a node -/
def typed : JIface (Option Nat) :=
  JIface.new.addField "head".toList (fun s => .ok (s.map .node)) (fun _ v => (JDoc.nodeValue v).map some)

end Ex

theorem entity_lawful : Lawful Ex.entity Ex.suitsEntity := by
  have hne : "text".toList ≠ "cls".toList := by decide
  refine ⟨?_, by decide +kernel, ?_⟩
  · intro f
    simp only [Ex.entity, JIface.addField, JIface.new, dget_tput]
    split
    · rfl
    · split <;> rfl
  · intro f s hs st v hv
    simp only [Ex.entity, JIface.addField, JIface.new, dget_tput] at hs
    split at hs
    · rename_i he
      subst he
      obtain ⟨c, rfl⟩ := hv.2 rfl
      obtain rfl := Option.some.inj hs
      refine ⟨(st.1, some c), rfl, ?_, ?_⟩
      · intro g hg
        simp only [Ex.entity, JIface.addField, JIface.new, dget_tput, if_true] at hg
        obtain rfl := Option.some.inj hg
        rfl
      · intro f' g hf' hg
        simp only [Ex.entity, JIface.addField, JIface.new, dget_tput, if_neg (Ne.symm hf')] at hg
        split at hg
        · obtain rfl := Option.some.inj hg
          rfl
        · cases hg
    · split at hs
      · rename_i hc he
        subst he
        obtain ⟨c, p, rfl⟩ := hv.1 rfl
        obtain rfl := Option.some.inj hs
        refine ⟨(some (c, p), st.2), rfl, ?_, ?_⟩
        · intro g hg
          simp only [Ex.entity, JIface.addField, JIface.new, dget_tput, if_neg hc, if_true] at hg
          obtain rfl := Option.some.inj hg
          rfl
        · intro f' g hf' hg
          simp only [Ex.entity, JIface.addField, JIface.new, dget_tput] at hg
          split at hg
          · obtain rfl := Option.some.inj hg
            rfl
          · rw [if_neg (Ne.symm hf')] at hg
            cases hg
      · cases hs

theorem link_lawful : Lawful Ex.link (fun _ _ => True) := by
  refine ⟨?_, by decide +kernel, ?_⟩
  · intro f
    simp only [Ex.link, JIface.addField, JIface.new, dget_tput]
    split <;> rfl
  · intro f s hs st v _
    simp only [Ex.link, JIface.addField, JIface.new, dget_tput] at hs
    split at hs
    · rename_i he
      subst he
      obtain rfl := Option.some.inj hs
      refine ⟨v, rfl, ?_, ?_⟩
      · intro g hg
        simp only [Ex.link, JIface.addField, JIface.new, dget_tput, if_true] at hg
        obtain rfl := Option.some.inj hg
        rfl
      · intro f' g hf' hg
        simp only [Ex.link, JIface.addField, JIface.new, dget_tput, if_neg (Ne.symm hf')] at hg
        cases hg
    · cases hs

/-- an entity made by a builder with a text and then given a class and a score reads as it should -/
example : ∃ c0 c, Ex.entity.setData ⟨(none, none), []⟩ [("text".toList, .span "main".toList (0, 4))] = .ok c0 ∧
    Ex.entity.puts c0 [("cls".toList, .str "person".toList), ("score".toList, .double 0), ("cls".toList, .str "city".toList)] = .ok c ∧
    Ex.entity.get c "cls".toList = .ok (some (.str "city".toList)) ∧ Ex.entity.get c "text".toList = .ok (some (.span "main".toList (0, 4))) ∧
    Ex.entity.has (Ex.entity.remove c "score".toList) "score".toList = false := by
  obtain ⟨c0, c, h1, h2, h3⟩ := C98_node_partial entity_lawful (none, none) [("text".toList, .span "main".toList (0, 4))]
    [("cls".toList, .str "person".toList), ("score".toList, .double 0), ("cls".toList, .str "city".toList)]
    (by
      intro e he
      simp only [List.mem_singleton] at he
      subst he
      exact ⟨fun _ => ⟨_, _, rfl⟩, fun h => absurd h (by decide)⟩)
    (by
      intro e he
      simp only [List.mem_cons, List.not_mem_nil, or_false] at he
      rcases he with rfl | rfl | rfl
      · exact ⟨fun h => absurd h (by decide), fun _ => ⟨_, rfl⟩⟩
      · exact ⟨fun h => absurd h (by decide), fun h => absurd h (by decide)⟩
      · exact ⟨fun h => absurd h (by decide), fun _ => ⟨_, rfl⟩⟩)
  refine ⟨c0, c, h1, h2, (h3 _ _).1 (by decide +kernel), (h3 _ _).1 (by decide +kernel), (h3 _ .null).2.2.2 ?_⟩
  intro h
  exact absurd (show (dget Ex.entity.getters "score".toList).isSome = true from h) (by decide +kernel)

/-- its fields are visited, once both are set -/
example : ∃ vs, Ex.entity.forEach ⟨(some ("main".toList, (0, 4)), some "city".toList), [("score".toList, .double 0)]⟩ = .ok vs ∧ (vs.map (·.1)).Nodup := by
  obtain ⟨c0, h1, h2, -⟩ := C98_setData entity_lawful ⟨(none, none), []⟩
    [("cls".toList, .str "city".toList), ("score".toList, .double 0), ("text".toList, .span "main".toList (0, 4))] (by
      intro f v h
      have := dget_mem h
      simp only [List.mem_cons, List.not_mem_nil, or_false, Prod.mk.injEq] at this
      rcases this with ⟨rfl, rfl⟩ | ⟨rfl, rfl⟩ | ⟨rfl, rfl⟩
      · exact ⟨fun h => absurd h (by decide), fun _ => ⟨_, rfl⟩⟩
      · exact ⟨fun h => absurd h (by decide), fun h => absurd h (by decide)⟩
      · exact ⟨fun _ => ⟨_, _, rfl⟩, fun h => absurd h (by decide)⟩)
  obtain rfl : (⟨(some ("main".toList, (0, 4)), some "city".toList), [("score".toList, .double 0)]⟩ : JCon _) = c0 := by
    exact Except.ok.inj (show Except.ok _ = _ from h1)
  obtain ⟨vs, h3, h4, -⟩ := C98_forEach_partial entity_lawful h2 (by decide) (by
    intro f hf
    obtain ⟨g, hg⟩ := own_getter.mp hf
    simp only [Ex.entity, JIface.addField, JIface.new, dget_tput] at hg
    split at hg
    · rename_i e; subst e; decide +kernel
    · split at hg
      · rename_i e; subst e; decide +kernel
      · cases hg)
  exact ⟨vs, h3, h4⟩

/-- the entity of the tests is not like a node -/
theorem C98_full_false : ¬ ∀ (σ : Type) (I : JIface σ) (suits : Str → JVal → Prop) (new : σ), Lawful I suits → NodeLike I suits new :=
  fun h => C98_node_false (I := Ex.entity) (f := "text".toList) (show (dget Ex.entity.getters "text".toList).isSome = true by decide +kernel) (none, none) (h _ _ _ _ entity_lawful)

example : Ex.entity.get ⟨(none, some "city".toList), []⟩ "cls".toList = .ok (some (.str "city".toList)) ∧ Own Ex.entity "text".toList :=
  ⟨(C98_addField _ _ _ _).1 _, ((C98_addField _ _ _ _).2.2.2 _).mpr (.inr (((C98_addField _ _ _ _).2.2.2 _).mpr (.inl rfl)))⟩

/-- a new one says it has a text; it gives null -/
example : Ex.entity.has ⟨(none, none), []⟩ "text".toList = true ∧ Ex.entity.get ⟨(none, none), []⟩ "text".toList = .ok none := ⟨by decide +kernel, rfl⟩

/-- two nodes; the second has a head, the first has none: the first reads as its own head -/
example : (∃ c, Ex.link.readRef JDoc.new (fun i => if i = 0 then .ok (.node 7) else .error .index) ⟨.null, []⟩ "head".toList none = .ok c ∧
    Ex.link.get c "head".toList = .ok (some (.node 7))) :=
  C98_reference_invented link_lawful (m := fun _ => none) ⟨fun _ _ _ h => (by cases h), fun _ _ => rfl, fun _ _ => rfl⟩ (show (dget Ex.link.getters "head".toList).isSome = true by decide +kernel) rfl trivial _ _ rfl

example : ∃ c, Ex.link.readRef JDoc.new (fun i => if i = 0 then .ok (.node 7) else .error .index) ⟨.null, []⟩ "head".toList (some 0) = .ok c ∧
    ObjHolds Ex.link c (setField (fun _ => none) "head".toList (.node 7)) :=
  C98_reference_read link_lawful (m := fun _ => none) ⟨fun _ _ _ h => (by cases h), fun _ _ => rfl, fun _ _ => rfl⟩ trivial trivial _ _ rfl

/-- a class whose field is a node reads no reference -/
example : Ex.typed.readRef JDoc.new (fun _ => .ok (.node 7)) ⟨none, []⟩ "head".toList (some 0) = .error .notImplemented :=
  C98_reference_refused (I := Ex.typed) (f := "head".toList) rfl ⟨none, []⟩ 0 rfl _ _

example : Ex.typed.readRef JDoc.new (fun _ => .ok (.node 7)) ⟨none, []⟩ "head".toList none = .error .attribute :=
  C98_reference_missing (show (dget Ex.typed.getters "head".toList).isSome = true by decide +kernel) rfl _ _

end Verif
