import Verif.Proof.JavaWire
import Verif.Proof.PyWrite
import Verif.Props.JavaEdit
import Verif.Props.MsgpackCodec
/-
C87-C89: documents between the Python library and the Java library.
-/
set_option linter.unusedSimpArgs false
namespace Verif
open World
open Spec (Both Cell LayerC Content FieldType Good TypeGood CellGood IsRef PyHas PyCell PyField PyLayer JHas JSound JCell JField JLayerHas JTypeHas JPlain JProp UnitAt JavaReadable)

/-! ### C87: Java to Python -/

theorem noExt_readable {c : Content} (hg : Good c) (h : Spec.NoExt c) : Spec.PythonReadable c := by
  intro k l row f b hl hrow he
  obtain ⟨t, h1, h2⟩ := hg.cells k l row f _ hl hrow he
  cases h2 with
  | ext e => exact h k l f t hl h1 e

/-- C87. What the Java encoder writes for a sound document with a valid content, and nothing in extended fields (see C101),
the Python decoder reads as a document with that content, whatever bytes are behind it; the Java document keeps its content
and stays sound. -/
theorem C87_java_to_python {d d' : JDoc} {c : Content} (hs : JSound d) (h : JHas d c) (hg : Good c) (hp : Spec.PythonReadable c) {bs : Bytes} (he : d.encode = (d', .ok bs)) :
    (∃ w, (∀ rest, decodeMsgpack (bs ++ rest) = .ok w) ∧ PyHas w c) ∧ JHas d' c ∧ JSound d' := by
  obtain ⟨d1, x, h1, h2, h3, h4, -⟩ := j_write hs h hg
  rw [he] at h1
  simp only [Prod.mk.injEq] at h1
  obtain ⟨rfl, h1⟩ := h1
  obtain ⟨w, h5, h6, -⟩ := py_read h2 hg hp
  exact ⟨⟨w, fun rest => by rw [decode_encode h2.ok h1.symm, h5], h6⟩, h3, h4⟩

/-- C87. Encoding keeps the content of the document and leaves it sound, also if a value or size is beyond the limits of the
format. -/
theorem C87_keeps {d : JDoc} {c : Content} (hs : JSound d) (h : JHas d c) (hg : Good c) : JHas d.encode.1 c ∧ JSound d.encode.1 := by
  obtain ⟨d1, x, h1, h2, h3, h4, -⟩ := j_write hs h hg
  rw [h1]
  exact ⟨h3, h4⟩

/-! ### C89: Java to Java -/

/-- what C89 would say: the Java decoder can read what the Java encoder writes for a sound document with a valid content -/
def C89_full : Prop := ∀ (d d' : JDoc) (c : Content) (bs : Bytes), JSound d → JHas d c → Good c → d.encode = (d', .ok bs) → bs.length < 2 ^ 31 →
  ∃ d2, jDecode bs = .ok d2 ∧ JHas d2 c

/-- C89. What the Java encoder writes for a sound document with a valid content that the decoder can read, the Java decoder
reads as a document with that content. -/
theorem C89_java_to_java_partial {d d' : JDoc} {c : Content} (hs : JSound d) (h : JHas d c) (hg : Good c) (hr : JavaReadable c) {bs : Bytes}
    (he : d.encode = (d', .ok bs)) (hl : bs.length < 2 ^ 31) : ∃ d2, (∀ rest, jDecode (bs ++ rest) = .ok d2) ∧ JHas d2 c := by
  obtain ⟨d1, x, h1, h2, h3, h4, -⟩ := j_write hs h hg
  rw [he] at h1
  simp only [Prod.mk.injEq] at h1
  obtain ⟨d2, g1, -, g2, -⟩ := j_read h2 hg hr h1.2.symm hl
  exact ⟨d2, g1, g2⟩

/-! ### C88: Python to Java -/

/-- what C88 would say: the Java decoder can read what the Python encoder writes for a valid document -/
def C88_full : Prop := ∀ (w w1 : World) (x t : Bool) (bs : Bytes), Reachable w → Spec.Encodable w → w.encodeMsgpack x t = (w1, .ok bs) → bs.length < 2 ^ 31 →
  ∃ d c, jDecode bs = .ok d ∧ PyHas w c ∧ JHas d c

theorem both_unique {α β : Type} {R : α → β → Prop} {a : Option α} {b b' : Option β} (h : Both R a b) (h' : Both R a b') (hR : ∀ x y y', a = some x → R x y → R x y' → y = y') :
    b = b' := by
  cases h with
  | none => cases h'; rfl
  | some h =>
    cases h' with
    | some h' => rw [hR _ _ _ rfl h h']

theorem at_unique {w : World} (hi : Inv w) {s : Str} {i j : Nat} {n : NodeId} (h : Spec.At w s i n) (h' : Spec.At w s j n) : i = j := by
  obtain ⟨L, h1, h2⟩ := h
  obtain ⟨L', h1', h2'⟩ := h'
  rw [h1] at h1'
  cases h1'
  have hn : (w.iter L).Nodup := by
    rw [hi.iter_eq]
    exact List.Pairwise.map some (fun _ _ h => by simpa using h) (hi.nodup L)
  obtain ⟨a, a'⟩ := List.getElem?_eq_some_iff.mp h2
  obtain ⟨b, b'⟩ := List.getElem?_eq_some_iff.mp h2'
  exact (List.getElem_inj hn).mp (a'.trans b'.symm)

theorem pyCell_unique {w : World} (hi : Inv w) {t : DataType} {v : Option Value} {x y : Option Cell} (h : PyCell w t v x) (h' : PyCell w t v y) : x = y := by
  have tgt : ∀ {s s'}, Spec.PyTarget t s → Spec.PyTarget t s' → s = s' := by
    intro s s' a b
    unfold Spec.PyTarget at a b
    rw [a] at b
    cases b; rfl
  cases h with
  | unset => cases h'; rfl
  | null => cases h'; rfl
  | empty => cases h' with
    | empty => rfl
    | nodes _ h => exact absurd rfl h
  | int => cases h'; rfl
  | intBool e => cases h' with
    | intBool => rfl
    | bool e' => rw [e'] at e; simp at e
  | float => cases h'; rfl
  | bool e => cases h' with
    | intBool e' => rw [e] at e'; simp at e'
    | bool => rfl
  | str => cases h'; rfl
  | bytes => cases h'; rfl
  | node a b => cases h' with
    | node a' b' => cases tgt a a'; rw [at_unique hi b b']
  | nodes a b c e => cases h' with
    | empty => exact absurd rfl b
    | @nodes _ is' _ a' b' c' e' =>
      cases tgt a a'
      congr 2
      apply List.ext_getElem?
      intro j
      rename_i ns is _
      by_cases hj : j < ns.length
      · rw [List.getElem?_eq_getElem (by omega), List.getElem?_eq_getElem (by omega)]
        congr 1
        exact at_unique hi (e j ns[j] _ (List.getElem?_eq_getElem hj) (List.getElem?_eq_getElem (by omega)))
          (e' j ns[j] _ (List.getElem?_eq_getElem hj) (List.getElem?_eq_getElem (by omega)))
      · rw [List.getElem?_eq_none (by omega), List.getElem?_eq_none (by omega)]
  | nodespan a b c => cases h' with
    | nodespan a' b' c' => cases tgt a a'; rw [at_unique hi b b', at_unique hi c c']
  | @span T e a b c1 c2 =>
    generalize hv : (some (Value.span T (a : Int) (b : Int))) = v at h'
    cases h' with
    | span d1 d2 =>
      simp only [Option.some.injEq, Value.span.injEq] at hv
      obtain ⟨-, h1, h2⟩ := hv
      have h1 : a = _ := Int.ofNat.inj h1
      have h2 : b = _ := Int.ofNat.inj h2
      rw [h1, h2]
    | _ => cases hv

/-- a Python document has one content -/
theorem pyHas_unique {w : World} (hi : Inv w) {c c' : Content} (h : PyHas w c) (h' : PyHas w c') : c = c' := by
  have plain : ∀ {v : Value} {o o' : Obj}, Spec.PyPlain v o → Spec.PyPlain v o' → o = o' := by
    intro v o o' a b
    unfold Spec.PyPlain at a b
    rw [a] at b; cases b; rfl
  have ht : c.texts = c'.texts := funext fun k => both_unique (h.texts k) (h'.texts k) (fun _ _ _ _ a b => a.symm.trans b)
  have hp : c.props = c'.props := funext fun k => both_unique (h.props k) (h'.props k) (fun _ _ _ _ a b => plain a b)
  have hl : c.layers = c'.layers := by
    funext k
    refine both_unique (h.layers k) (h'.layers k) ?_
    rintro L ⟨f, r⟩ ⟨f', r'⟩ hL ⟨a1, a2, a3⟩ ⟨b1, b2, b3⟩
    simp only at a1 a2 a3 b1 b2 b3
    have hf : f = f' := by
      funext e
      refine both_unique (a1 e) (b1 e) ?_
      rintro t ⟨n, o⟩ ⟨n', o'⟩ - ⟨p1, p2⟩ ⟨q1, q2⟩
      simp only at p1 p2 q1 q2
      rw [p1] at q1
      have e1 : n = n' := Except.ok.inj q1
      have e2 : o = o' := funext fun a => both_unique (p2 a) (q2 a) (fun _ _ _ _ a b => plain a b)
      rw [e1, e2]
    have hr : r = r' := by
      apply List.ext_getElem?
      intro i
      by_cases hi' : i < (w.iter L).length
      · have e1 : i < r.length := by omega
        have e2 : i < r'.length := by omega
        rw [List.getElem?_eq_getElem e1, List.getElem?_eq_getElem e2]
        congr 1
        funext e
        have hn : ∃ n, (w.iter L)[i]? = some (some n) := by
          rw [hi.iter_eq] at hi' ⊢
          simp only [List.length_map] at hi'
          exact ⟨_, by rw [List.getElem?_map, List.getElem?_eq_getElem hi']; rfl⟩
        obtain ⟨n, hn⟩ := hn
        have u := a3 i n _ e hn (List.getElem?_eq_getElem e1)
        have v := b3 i n _ e hn (List.getElem?_eq_getElem e2)
        generalize r[i] e = x at u
        generalize r'[i] e = y at v
        generalize dget (w.layers L).fields e = ot at u v
        generalize dget (w.nodes n).fields e = ov at u v
        cases u with
        | undeclared => cases v; rfl
        | declared u =>
          cases v with
          | declared v => exact pyCell_unique hi u v
      · rw [List.getElem?_eq_none (by omega), List.getElem?_eq_none (by omega)]
    rw [hf, hr]
  cases c; cases c'
  simp only at ht hp hl
  rw [ht, hp, hl]

/-- C88. A valid Python document has one content, and it is valid. -/
theorem C88_content {w : World} (h : Reachable w) (he : Spec.Encodable w) : ∃ c, PyHas w c ∧ Good c ∧ ∀ c', PyHas w c' → c' = c := by
  obtain ⟨w1, offs, hc, so, hr⟩ := ready_of h.inv h.wf he false false
  have := sameObs_has so h.inv hr.inv (content_has hr)
  exact ⟨contentOf w1, this, content_good hr, fun c' h' => pyHas_unique h.inv h' this⟩

/-- C88. What the Python encoder writes for a valid document whose content the Java decoder can read, the Java decoder
reads as a document with the same content, whatever bytes are behind it. -/
theorem C88_python_to_java_partial {w w1 : World} (h : Reachable w) (he : Spec.Encodable w) {c : Content} (hc : PyHas w c) (hr : JavaReadable c) {x t : Bool} {bs : Bytes}
    (hb : w.encodeMsgpack x t = (w1, .ok bs)) (hl : bs.length < 2 ^ 31) : ∃ d, (∀ rest, jDecode (bs ++ rest) = .ok d) ∧ JHas d c := by
  obtain ⟨w1', offs, hcm, so, hrd⟩ := ready_of h.inv h.wf he x t
  have hcc := sameObs_has so h.inv hrd.inv (content_has hrd)
  have := pyHas_unique h.inv hc hcc
  subst this
  unfold encodeMsgpack toWire at hb
  rw [hcm] at hb
  simp only at hb
  cases hw : w1'.wireOf offs with
  | error e => rw [hw] at hb; simp at hb
  | ok wx =>
    rw [hw] at hb
    simp only [Prod.mk.injEq] at hb
    obtain ⟨d, g1, -, g2, -⟩ := j_read (py_write hrd hw) (content_good hrd) hr hb.2 hl
    exact ⟨d, g1, g2⟩

namespace Spec

/-- a Python value that the Java decoder can read as an argument of a type -/
inductive PyArgReadable : Value → Prop
  | bool {b} : PyArgReadable (.bool b)
  | int {i : Int} : i < 2 ^ 63 → PyArgReadable (.int i)
  | str {s} : PyArgReadable (.str s)
  | bytes {b} : PyArgReadable (.bytes b)

/-- a Python document that the Java decoder can read: properties are bools, integers below 2^63, floats, strings or bytes,
and so are options of types but for floats; integers in fields are ints or longs; there are no bytes in fields -/
structure PyReadable (w : World) : Prop where
  props : ∀ k v, dget w.props k = some v → PyArgReadable v ∨ ∃ x, v = .float x
  args : ∀ k L f t a v, dget w.dl k = some L → dget (w.layers L).fields f = some t → dget t.options a = some v → PyArgReadable v
  bytes : ∀ k L n f b, dget w.dl k = some L → some n ∈ w.iter L → dget (w.nodes n).fields f ≠ some (.bytes b)
  ints : ∀ k L n f t i, dget w.dl k = some L → some n ∈ w.iter L → dget (w.layers L).fields f = some t →
    dget (w.nodes n).fields f = some (.int i) → (t.tname = .i32 → -2 ^ 31 ≤ i ∧ i < 2 ^ 31) ∧ (t.tname = .i64 → -2 ^ 63 ≤ i ∧ i < 2 ^ 63)
  sizes : ∀ k L, dget w.dl k = some L → (w.iter L).length < 2 ^ 31

end Spec

theorem arg_readable {v : Value} {o : Obj} (h : Spec.PyArgReadable v) (hp : Spec.PyPlain v o) : Spec.ArgReadable o := by
  unfold Spec.PyPlain at hp
  cases h with
  | bool => cases hp; exact .bool
  | int h => cases hp; exact .int h
  | str => cases hp; exact .str
  | bytes => cases hp; exact .bin

/-- C88. The content of such a document is one that the Java decoder can read. -/
theorem C88_readable {w : World} (h : Reachable w) (hr : Spec.PyReadable w) {c : Content} (hc : PyHas w c) : JavaReadable c where
  props k o ho := by
    have := hc.props k
    rw [ho] at this
    generalize hv : dget w.props k = v at this
    cases this with
    | some hp =>
      rcases hr.props k _ hv with h | ⟨x, rfl⟩
      · exact .arg (arg_readable h hp)
      · cases hp; exact .float
  args k l f t a o hl hf ho := by
    have h1 := hc.layers k
    rw [hl] at h1
    generalize hL : dget w.dl k = L at h1
    cases h1 with
    | some h1 =>
      have h2 := h1.fields f
      rw [hf] at h2
      rename_i L
      generalize hT : dget (w.layers L).fields f = T at h2
      cases h2 with
      | some h2 =>
        have h3 := h2.2 a
        rw [ho] at h3
        rename_i T
        generalize hv : dget T.options a = v at h3
        cases h3 with
        | some hp => exact arg_readable (hr.args k L f T a _ hL hT hv) hp
  sizes k l hl := by
    have h1 := hc.layers k
    rw [hl] at h1
    generalize hL : dget w.dl k = L at h1
    cases h1 with
    | some h1 => rw [← h1.size]; exact hr.sizes k _ hL
  cells k l row f t x hl hrow hf hx := by
    have h1 := hc.layers k
    rw [hl] at h1
    generalize hL : dget w.dl k = L at h1
    cases h1 with
    | some h1 =>
      rename_i L
      have h2 := h1.fields f
      rw [hf] at h2
      generalize hT : dget (w.layers L).fields f = T at h2
      cases h2 with
      | some h2 =>
        rename_i T
        obtain ⟨i, hi, rfl⟩ := List.getElem_of_mem hrow
        have hi' : i < (w.iter L).length := by rw [h1.size]; exact hi
        have hn : ∃ n, (w.iter L)[i]? = some (some n) := by
          rw [h.inv.iter_eq] at hi' ⊢
          simp only [List.length_map] at hi'
          exact ⟨_, by rw [List.getElem?_map, List.getElem?_eq_getElem hi']; rfl⟩
        obtain ⟨n, hn⟩ := hn
        have hm : some n ∈ w.iter L := List.mem_of_getElem? hn
        have h3 := h1.cells i n _ f hn (List.getElem?_eq_getElem hi)
        rw [hT, hx] at h3
        generalize hv : dget (w.nodes n).fields f = v at h3
        cases h3 with
        | declared h3 =>
          cases h3 with
          | int =>
            obtain ⟨r1, r2⟩ := hr.ints k L n f T _ hL hm hT hv
            exact .int (fun e => r1 (wire_inj h2.1 (by rw [e]; rfl))) (fun e => r2 (wire_inj h2.1 (by rw [e]; rfl)))
          | intBool e => exact .int (by intro _; split <;> decide) (by intro _; split <;> decide)
          | float => exact .float
          | bool => exact .bool
          | str => exact .str
          | bytes => exact absurd hv (hr.bytes k L n f _ hL hm)
          | node => exact .node
          | nodes => exact .nodes
          | nodespan => exact .nodespan
          | span => exact .span

namespace Ex

/-- `PyArgReadable`, checked by evaluation -/
def argReadable : Value → Bool
  | .bool _ => true
  | .int i => decide (i < 2 ^ 63)
  | .str _ => true
  | .bytes _ => true
  | _ => false

theorem argReadable_ok {v : Value} (h : argReadable v = true) : Spec.PyArgReadable v := by
  cases v <;> simp only [argReadable, decide_eq_true_eq, Bool.false_eq_true] at h
  · exact .bool
  · exact .int h
  · exact .str
  · exact .bytes

/-- `PyReadable`, checked by evaluation -/
def pyReadable (w : World) : Bool :=
  w.props.all (fun e => argReadable e.2 || (match e.2 with
    | .float _ => true
    | _ => false)) &&
  w.dl.all (fun e => (w.layers e.2).fields.all (fun t => t.2.options.all (fun o => argReadable o.2)) && decide ((w.iter e.2).length < 2 ^ 31) &&
    (w.iter e.2).all (fun n => match n with
      | none => true
      | some n => (w.nodes n).fields.all (fun v => match v.2 with
        | .bytes _ => false
        | .int i => decide (-2 ^ 31 ≤ i ∧ i < 2 ^ 31)
        | _ => true)))

theorem pyReadable_ok {w : World} (h : pyReadable w = true) : Spec.PyReadable w := by
  simp only [pyReadable, Bool.and_eq_true] at h
  obtain ⟨h1, h2⟩ := h
  have a := fun k L (hm : dget w.dl k = some L) => List.all_eq_true.mp h2 _ (dget_mem hm)
  simp only [Bool.and_eq_true, decide_eq_true_eq] at a
  refine ⟨?_, ?_, ?_, ?_, fun k L hL => (a k L hL).1.2⟩
  · intro k v hv
    have := List.all_eq_true.mp h1 _ (dget_mem hv)
    simp only [Bool.or_eq_true] at this
    rcases this with h | h
    · exact .inl (argReadable_ok h)
    · cases v <;> simp only [Bool.false_eq_true] at h
      exact .inr ⟨_, rfl⟩
  · intro k L f t o v hL hf ho
    exact argReadable_ok (List.all_eq_true.mp (List.all_eq_true.mp (a k L hL).1.1 _ (dget_mem hf)) _ (dget_mem ho))
  · intro k L n f b hL hn hv
    have := List.all_eq_true.mp (List.all_eq_true.mp (a k L hL).2 _ hn) _ (dget_mem hv)
    simp at this
  · intro k L n f t i hL hn _ hv
    have := List.all_eq_true.mp (List.all_eq_true.mp (a k L hL).2 _ hn) _ (dget_mem hv)
    simp only [decide_eq_true_eq] at this
    exact ⟨fun _ => this, fun _ => by omega⟩

/-- `wfull` (a field of every kind) without its binary value and its nested property -/
def wjava : World := World.empty.run (opsFull ++ [.delField 0 "bin".toList, .setProp "meta".toList (.float 4611686018427387904)])
set_option maxRecDepth 20000 in
theorem wjava_reachable : Reachable wjava := reachable_run _ (by decide)
set_option maxRecDepth 20000 in
theorem wjava_encodable : Spec.Encodable wjava := Check.doc_ok (by decide)
theorem wjava_readable : Spec.PyReadable wjava := pyReadable_ok (by decide +kernel)

/-- its bytes -/
def bjava : Bytes := match (wjava.encodeMsgpack false true).2 with
  | .ok b => b
  | .error _ => []

theorem bjava_ok : (wjava.encodeMsgpack false true).2 = .ok bjava := by decide +kernel

end Ex

-- C88_content, C88_readable, C88_python_to_java_partial: a document with a field of every kind but bytes
example : ∃ c d, PyHas Ex.wjava c ∧ JavaReadable c ∧ jDecode (Ex.bjava ++ [1, 2]) = .ok d ∧ JHas d c := by
  obtain ⟨c, hc, -, -⟩ := C88_content Ex.wjava_reachable Ex.wjava_encodable
  have hr := C88_readable Ex.wjava_reachable Ex.wjava_readable hc
  obtain ⟨d, h1, h2⟩ := C88_python_to_java_partial Ex.wjava_reachable Ex.wjava_encodable hc hr (x := false) (t := true) (w1 := (Ex.wjava.encodeMsgpack false true).1) (by rw [← Ex.bjava_ok]) (by decide +kernel)
  exact ⟨c, d, hc, hr, h1 _, h2⟩

end Verif
