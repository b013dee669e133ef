import Verif.Proof.JsonCodec
import Verif.Proof.JsonTrunc
import Verif.Props.MsgpackCodec
/-
C65: JSON text. C66: documents as JSON (JsonCodec, codec.py:176-347).
-/
set_option linter.unusedSimpArgs false
namespace Verif
open World

/-! ### C65 -/

theorem dropWhile_blank {a : Str} (h : Spec.Blank a) (s : Str) : skipWs (a ++ s) = skipWs s := by
  induction a with
  | nil => rfl
  | cons c a ih =>
    have hc : isWs c = true := by
      rcases h c (by simp) with rfl | rfl | rfl | rfl <;> decide
    unfold skipWs at *
    rw [List.cons_append, List.dropWhile_cons, if_pos hc]
    exact ih (fun c hc => h c (by simp [hc]))

theorem delim_blank {b : Str} (h : Spec.Blank b) : Delim b := by
  intro c hc
  cases b with
  | nil => cases hc
  | cons d b =>
    cases hc
    rcases h c (by simp) with rfl | rfl | rfl | rfl <;> decide

/-- C65. Data without bytes is written as JSON, and reading the JSON, with any white space around it, gives
the data back. -/
theorem C65_round_trip {ft : FloatText} (hf : Spec.FloatsExact ft) {o : Obj} (hj : Spec.Jsonable o) (hk : o.KeysOk) :
    ∃ s, dumps ft o = .ok s ∧ ∀ a b, Spec.Blank a → Spec.Blank b → loads ft (a ++ s ++ b) = .ok o := by
  obtain ⟨s, h1, h2, h3⟩ := back ft hf o hj hk
  refine ⟨s, h1, fun a b ha hb => ?_⟩
  unfold loads
  rw [List.append_assoc, dropWhile_blank ha, skipWs_start h2, h3 _ b (by simp; omega) (delim_blank hb)]
  have : skipWs b = [] := by
    have := dropWhile_blank hb []
    rwa [List.append_nil] at this
  simp only [this, if_true]

/-- C65. Different data is written differently. -/
theorem C65_injective {ft : FloatText} (hf : Spec.FloatsExact ft) {o o' : Obj} (hj : Spec.Jsonable o) (hk : o.KeysOk)
    (hj' : Spec.Jsonable o') (hk' : o'.KeysOk) (h : dumps ft o = dumps ft o') : o = o' := by
  obtain ⟨s, h1, h2⟩ := C65_round_trip hf hj hk
  obtain ⟨s', h1', h2'⟩ := C65_round_trip hf hj' hk'
  rw [h1, h1'] at h
  cases h
  have e1 := h2 [] [] (by simp [Spec.Blank]) (by simp [Spec.Blank])
  have e2 := h2' [] [] (by simp [Spec.Blank]) (by simp [Spec.Blank])
  rw [e1] at e2
  cases e2
  rfl

open Spec in
mutual
theorem dumps_dec (ft : FloatText) : ∀ o : Obj, HasBytes o ∧ dumps ft o = .error .type ∨ ¬ HasBytes o ∧ ∃ s, dumps ft o = .ok s
  | .nil => .inr ⟨id, _, rfl⟩
  | .bool _ => .inr ⟨id, _, rfl⟩
  | .int _ => .inr ⟨id, _, rfl⟩
  | .float _ => .inr ⟨id, _, rfl⟩
  | .str _ => .inr ⟨id, _, rfl⟩
  | .bin _ => .inl ⟨trivial, rfl⟩
  | .arr l => by
    rcases dumpsL_dec ft l [] with ⟨h1, h2⟩ | ⟨h1, s, h2⟩
    · exact .inl ⟨h1, by simp only [dumps, h2]⟩
    · exact .inr ⟨h1, _, by simp only [dumps, h2]; rfl⟩
  | .map l => by
    rcases dumpsM_dec ft l [] with ⟨h1, h2⟩ | ⟨h1, s, h2⟩
    · exact .inl ⟨h1, by simp only [dumps, h2]⟩
    · exact .inr ⟨h1, _, by simp only [dumps, h2]; rfl⟩
theorem dumpsL_dec (ft : FloatText) : ∀ (l : List Obj) (sep : Str),
    HasBytesL l ∧ dumpsL ft sep l = .error .type ∨ ¬ HasBytesL l ∧ ∃ s, dumpsL ft sep l = .ok s
  | [], _ => .inr ⟨id, _, rfl⟩
  | x :: xs, sep => by
    rcases dumps_dec ft x with ⟨h1, h2⟩ | ⟨h1, s, h2⟩
    · exact .inl ⟨.inl h1, by simp only [dumpsL, h2]⟩
    · rcases dumpsL_dec ft xs ", ".toList with ⟨h3, h4⟩ | ⟨h3, t, h4⟩
      · exact .inl ⟨.inr h3, by simp only [dumpsL, h2, h4]⟩
      · exact .inr ⟨fun h => h.elim h1 h3, _, by simp only [dumpsL, h2, h4]; rfl⟩
theorem dumpsM_dec (ft : FloatText) : ∀ (l : List (Str × Obj)) (sep : Str),
    HasBytesM l ∧ dumpsM ft sep l = .error .type ∨ ¬ HasBytesM l ∧ ∃ s, dumpsM ft sep l = .ok s
  | [], _ => .inr ⟨id, _, rfl⟩
  | (k, x) :: xs, sep => by
    rcases dumps_dec ft x with ⟨h1, h2⟩ | ⟨h1, s, h2⟩
    · exact .inl ⟨.inl h1, by simp only [dumpsM, h2]⟩
    · rcases dumpsM_dec ft xs ", ".toList with ⟨h3, h4⟩ | ⟨h3, t, h4⟩
      · exact .inl ⟨.inr h3, by simp only [dumpsM, h2, h4]⟩
      · exact .inr ⟨fun h => h.elim h1 h3, _, by simp only [dumpsM, h2, h4]; rfl⟩
end

/-- C65. `json.dumps` raises TypeError exactly when there are bytes inside. -/
theorem C65_bytes_raise (ft : FloatText) (o : Obj) :
    (Spec.HasBytes o → dumps ft o = .error .type) ∧ (¬ Spec.HasBytes o → ∃ s, dumps ft o = .ok s) := by
  rcases dumps_dec ft o with ⟨h1, h2⟩ | ⟨h1, h2⟩
  · exact ⟨fun _ => h2, fun h => (h h1).elim⟩
  · exact ⟨fun h => (h1 h).elim, fun _ => h2⟩

theorem Printable.append {a b : Str} (ha : Spec.Printable a) (hb : Spec.Printable b) : Spec.Printable (a ++ b) := by
  intro c hc
  rcases List.mem_append.mp hc with h | h
  · exact ha c h
  · exact hb c h

theorem Printable.cons {c : Char} {b : Str} (hc : ' ' ≤ c ∧ c ≤ '~') (hb : Spec.Printable b) : Spec.Printable (c :: b) := by
  intro d hd
  rcases List.mem_cons.mp hd with rfl | h
  · exact hc
  · exact hb d h

theorem printable_nil : Spec.Printable [] := by intro c hc; cases hc

theorem digit_printable {c : Char} (h : c.isDigit = true) : ' ' ≤ c ∧ c ≤ '~' := by
  simp only [Char.isDigit, Bool.and_eq_true, decide_eq_true_eq] at h
  have h1 := h.1
  have h2 := h.2
  simp only [Char.le_def] at *
  rw [ge_iff_le, UInt32.le_iff_toNat_le] at h1
  rw [UInt32.le_iff_toNat_le] at h2
  rw [UInt32.le_iff_toNat_le, UInt32.le_iff_toNat_le]
  have e0 : '0'.val.toNat = 48 := rfl
  have e5 : '9'.val.toNat = 57 := rfl
  have e1 : ' '.val.toNat = 32 := rfl
  have e2 : '~'.val.toNat = 126 := rfl
  omega

theorem Digits.printable {s : Str} (h : Spec.Digits s) : Spec.Printable s := fun c hc => digit_printable (h c hc)

theorem hexDigit_printable : ∀ d : Fin 16, ' ' ≤ Nat.digitChar d ∧ Nat.digitChar d ≤ '~' := by decide

theorem escUnit_printable (n : Nat) : Spec.Printable (escUnit n) := by
  have h : ∀ m : Nat, ' ' ≤ Nat.digitChar (m % 16) ∧ Nat.digitChar (m % 16) ≤ '~' :=
    fun m => hexDigit_printable ⟨m % 16, Nat.mod_lt _ (by decide)⟩
  exact Printable.cons (by decide) (Printable.cons (by decide)
    (Printable.cons (h _) (Printable.cons (h _) (Printable.cons (h _) (Printable.cons (h _) printable_nil)))))

theorem jsonChar_printable (c : Char) : Spec.Printable (jsonChar c) := by
  unfold jsonChar
  split
  · rename_i e he
    have : ∀ p ∈ shortEsc, ' ' ≤ p.2 ∧ p.2 ≤ '~' := by decide
    exact Printable.cons (by decide) (Printable.cons (this _ (dget_mem he)) printable_nil)
  · split
    · rename_i h
      refine Printable.cons ?_ printable_nil
      simp only [Char.le_def, UInt32.le_iff_toNat_le]
      exact h
    · split
      · exact escUnit_printable _
      · exact Printable.append (escUnit_printable _) (escUnit_printable _)

theorem jsonStr_printable (s : Str) : Spec.Printable (jsonStr s) := by
  refine Printable.cons (by decide) (Printable.append ?_ (Printable.cons (by decide) printable_nil))
  intro c hc
  obtain ⟨d, -, hd⟩ := List.mem_flatMap.mp hc
  exact jsonChar_printable d c hd

theorem intStr_printable (i : Int) : Spec.Printable (intStr i) := by
  have : ∀ n, Spec.Printable (natStr n) := fun n => Digits.printable (fun c hc => natStr_digits hc)
  unfold intStr
  split
  · exact Printable.cons (by decide) (this _)
  · exact this _

theorem numText_printable {s : Str} (h : Spec.NumText s) : Spec.Printable s := by
  obtain ⟨neg, int, frac, exp, rfl, h1, h2, h3, h4, -⟩ := h
  refine Printable.append ?_ (Printable.append ?_ (Printable.append ?_ ?_))
  · rcases h1 with rfl | rfl
    · exact printable_nil
    · exact Printable.cons (by decide) printable_nil
  · rcases h2 with rfl | ⟨c, l, rfl, hc, -, hl⟩
    · exact Printable.cons (by decide) printable_nil
    · exact Printable.cons (digit_printable hc) (Digits.printable hl)
  · rcases h3 with rfl | ⟨l, rfl, -, hl⟩
    · exact printable_nil
    · exact Printable.cons (by decide) (Digits.printable hl)
  · rcases h4 with rfl | ⟨e, sg, l, rfl, he, hs, -, hl⟩
    · exact printable_nil
    · refine Printable.cons (by rcases he with rfl | rfl <;> decide) (Printable.append ?_ (Digits.printable hl))
      rcases hs with rfl | rfl | rfl
      · exact printable_nil
      · exact Printable.cons (by decide) printable_nil
      · exact Printable.cons (by decide) printable_nil

theorem floatStr_printable {ft : FloatText} (hf : Spec.FloatsExact ft) (b : UInt64) : Spec.Printable (floatStr ft b) := by
  unfold floatStr
  split
  · rename_i h; exact numText_printable (hf.shape b h)
  all_goals (unfold Spec.Printable; decide)

mutual
theorem dumps_printable {ft : FloatText} (hf : Spec.FloatsExact ft) : ∀ (o : Obj) s, dumps ft o = .ok s → Spec.Printable s
  | .nil, _, h => by cases h; unfold Spec.Printable; decide
  | .bool true, _, h => by cases h; unfold Spec.Printable; decide
  | .bool false, _, h => by cases h; unfold Spec.Printable; decide
  | .int i, _, h => by cases h; exact intStr_printable i
  | .float b, _, h => by cases h; exact floatStr_printable hf b
  | .str s, _, h => by cases h; exact jsonStr_printable s
  | .bin _, _, h => by cases h
  | .arr l, s, h => by
    simp only [dumps] at h
    split at h
    · rename_i t ht
      cases h
      exact Printable.cons (by decide) (Printable.append (dumpsL_printable hf l [] t printable_nil ht) (Printable.cons (by decide) printable_nil))
    · cases h
  | .map l, s, h => by
    simp only [dumps] at h
    split at h
    · rename_i t ht
      cases h
      exact Printable.cons (by decide) (Printable.append (dumpsM_printable hf l [] t printable_nil ht) (Printable.cons (by decide) printable_nil))
    · cases h
theorem dumpsL_printable {ft : FloatText} (hf : Spec.FloatsExact ft) : ∀ (l : List Obj) (sep : Str) s, Spec.Printable sep →
    dumpsL ft sep l = .ok s → Spec.Printable s
  | [], _, _, _, h => by cases h; exact printable_nil
  | x :: xs, sep, s, hs, h => by
    simp only [dumpsL] at h
    split at h
    · cases h
    rename_i a ha
    split at h
    · cases h
    rename_i b hb
    cases h
    exact Printable.append (Printable.append hs (dumps_printable hf x a ha))
      (dumpsL_printable hf xs _ b (Printable.cons (by decide) (Printable.cons (by decide) printable_nil)) hb)
theorem dumpsM_printable {ft : FloatText} (hf : Spec.FloatsExact ft) : ∀ (l : List (Str × Obj)) (sep : Str) s, Spec.Printable sep →
    dumpsM ft sep l = .ok s → Spec.Printable s
  | [], _, _, _, h => by cases h; exact printable_nil
  | (k, x) :: xs, sep, s, hs, h => by
    simp only [dumpsM] at h
    split at h
    · cases h
    rename_i a ha
    split at h
    · cases h
    rename_i b hb
    cases h
    exact Printable.append (Printable.append (Printable.append (Printable.append hs (jsonStr_printable k))
      (Printable.cons (by decide) (Printable.cons (by decide) printable_nil))) (dumps_printable hf x a ha))
      (dumpsM_printable hf xs _ b (Printable.cons (by decide) (Printable.cons (by decide) printable_nil)) hb)
end

/-- C65. JSON text is printable ASCII on one line, whatever strings and keys are inside. -/
theorem C65_printable {ft : FloatText} (hf : Spec.FloatsExact ft) {o : Obj} {s : Str} (h : dumps ft o = .ok s) : Spec.Printable s :=
  dumps_printable hf o s h

theorem skipWs_cut {s p : Str} (h1 : p <+: s) {c t} (hs : s = c :: t) (hc : isWs c = false) : skipWs p = p := by
  cases p with
  | nil => rfl
  | cons d q =>
    rw [hs, List.cons_prefix_cons] at h1
    obtain ⟨rfl, -⟩ := h1
    unfold skipWs
    rw [List.dropWhile_cons, hc]
    rfl

/-- C65. A list or dict whose text is cut off anywhere is refused (ValueError). -/
theorem C65_truncated {ft : FloatText} (hf : Spec.FloatsExact ft) {o : Obj} (hj : Spec.Jsonable o) (hk : o.KeysOk)
    (ho : (∃ l, o = .arr l) ∨ (∃ l, o = .map l)) {s : Str} (h : dumps ft o = .ok s) {p : Str} (hp : p <+: s) (hne : p ≠ s) :
    loads ft p = .error .value := by
  unfold loads
  have hsc : skipWs p = p ∧ scan ft (2 * p.length + 2) p = .error .value := by
    rcases ho with ⟨l, rfl⟩ | ⟨l, rfl⟩
    · refine ⟨?_, truncA ft hf l hj hk s h p _ hp hne (by omega)⟩
      simp only [dumps] at h
      split at h
      · cases h; exact skipWs_cut hp (List.cons_append ..) (by decide)
      · cases h
    · refine ⟨?_, truncO ft hf l hj hk s h p _ hp hne (by omega)⟩
      simp only [dumps] at h
      split at h
      · cases h; exact skipWs_cut hp (List.cons_append ..) (by decide)
      · cases h
  rw [hsc.1, hsc.2]

/-! ### C66 -/

namespace Spec

/-- a value JSON can carry -/
def JsonVal : Value → Prop
  | .bytes _ => False
  | .float b => FloatOk b
  | .data o => Jsonable o
  | _ => True

/-- a document whose properties, type options and fields hold no bytes (and no unusual NaN) -/
structure JsonDoc (w : World) : Prop where
  props : ∀ k v, (k, v) ∈ w.props → JsonVal v
  options : ∀ k L f t o v, (k, L) ∈ w.dl → (f, t) ∈ (w.layers L).fields → (o, v) ∈ t.options → JsonVal v
  cells : ∀ k L n f v, (k, L) ∈ w.dl → some n ∈ w.iter L → dget (w.nodes n).fields f = some v → JsonVal v

end Spec

open Spec

theorem toObj_jsonable {v : Value} {o : Obj} (h : v.toObj = .ok o) (hv : JsonVal v) : Jsonable o := by
  cases v <;> simp only [Value.toObj, reduceCtorEq, Except.ok.injEq] at h <;> first | (subst h; exact hv) | trivial

theorem dict_jsonable {d : Dict Str Value} {r} (h : dictToObj d = .ok r) (hd : ∀ k v, (k, v) ∈ d → JsonVal v) : JsonableM r := by
  refine jsonableM_iff.mpr ?_
  intro e he
  obtain ⟨a, ha, hae⟩ := mapE_mem h he
  split at hae
  · rename_i o ho
    cases hae
    exact toObj_jsonable ho (hd a.1 a.2 ha)
  · cases hae

theorem cell_jsonable {w : World} {idx : Dict Int Nat} {t : DataType} {v l} (h : w.encodeCell idx t.tname v = .ok l)
    (hv : JsonVal v) (hc : CellOk w t v ∨ v = .none) : ∀ o ∈ l, Jsonable o := by
  intro o ho
  have hk := encodeCell_kind h o ho
  have hb : t.tname = .binary → o = .nil := by
    intro ht
    rw [ht] at h
    rcases hc with hc | rfl
    · cases hc with
      | null => simp only [encodeCell, Except.ok.injEq] at h; subst h; simpa using ho
      | _ => simp_all [encodeCell, JsonVal]
    · simp only [encodeCell, Except.ok.injEq] at h; subst h; simpa using ho
  have hf : ∀ x, t.tname = .f64 → o = .float x → FloatOk x := by
    intro x ht hx
    rw [ht] at h
    rcases hc with hc | rfl
    · cases hc with
      | null => simp only [encodeCell, Except.ok.injEq] at h; subst h; simp [hx] at ho
      | float => simp only [encodeCell, Except.ok.injEq] at h; subst h; simp [hx] at ho; subst ho; exact hv
      | _ => simp_all [encodeCell, JsonVal]
    · simp only [encodeCell, Except.ok.injEq] at h; subst h; simp [hx] at ho
  generalize t.tname = tn at hk hb hf
  cases hk with
  | nodes =>
    refine jsonableL_iff.mpr ?_
    intro o ho
    obtain ⟨i, -, rfl⟩ := List.mem_map.mp ho
    trivial
  | pair => exact ⟨trivial, trivial, trivial⟩
  | bin => cases hb rfl
  | float => exact hf _ rfl rfl
  | _ => trivial

theorem col_jsonable {w : World} {offs ns f t l} (h : w.encodeCol offs ns f t = .ok l)
    (hv : ∀ n v, some n ∈ ns → dget (w.nodes n).fields f = some v → JsonVal v ∧ CellOk w t v) : JsonableL l := by
  unfold encodeCol at h
  split at h
  · cases h
  split at h
  · cases h
  split at h
  · cases h
  rename_i cells hc
  cases h
  refine jsonableL_iff.mpr ?_
  intro o ho
  obtain ⟨c, hcm, ho⟩ := List.mem_flatten.mp ho
  obtain ⟨n, hn, hnc⟩ := mapE_mem hc hcm
  split at hnc
  · cases hnc
  rename_i m
  cases hg : dget (w.nodes m).fields f with
  | none => rw [hg] at hnc; exact cell_jsonable hnc trivial (.inr rfl) o ho
  | some v => rw [hg] at hnc; exact cell_jsonable hnc (hv m v hn hg).1 (.inl (hv m v hn hg).2) o ho

theorem type_jsonable {t : DataType} {tw : TypeWire} (h : t.encode = .ok tw) (ho : ∀ o v, (o, v) ∈ t.options → JsonVal v) :
    ∀ d, tw.args = some d → JsonableM d := by
  intro d hd
  unfold DataType.encode at h
  split at h
  · cases h
  split at h
  · cases h; cases hd
  · split at h
    · rename_i a ha
      cases h
      cases hd
      exact dict_jsonable ha ho
    · cases h

theorem JsonDoc.same {w w1 : World} (h : JsonDoc w) (hi : Inv w) (hi1 : Inv w1) (s : SameObs w w1) : JsonDoc w1 where
  props := by rw [s.props]; exact h.props
  options k L f t o v h1 h2 h3 := by
    rw [s.dl] at h1; rw [(s.attrs L).2.1] at h2
    exact h.options k L f t o v h1 h2 h3
  cells k L n f v h1 h2 h3 := by
    rw [s.dl] at h1; rw [World.SameObs.iter s hi hi1] at h2; rw [(s.node n).2] at h3
    exact h.cells k L n f v h1 h2 h3

theorem wire_json {w : World} {offs} {wire} (h : Ready w offs) (hj : JsonDoc w) (hw : w.wireOf offs = .ok wire) : WireJson wire where
  props := dict_jsonable (wire_layers h hw).2.1 hj.props
  args l hl c hc := by
    obtain ⟨L, t, hL, ht, he, -⟩ := (wire_cols h hw l hl).2 c hc
    exact type_jsonable he (fun o v => hj.options l.1 L c.1 t o v hL ht)
  cols l hl c hc := by
    obtain ⟨L, t, hL, ht, -, he⟩ := (wire_cols h hw l hl).2 c hc
    exact col_jsonable he (fun n v hn hv => ⟨hj.cells l.1 L n c.1 v hL hn hv, h.enc.cells l.1 L n c.1 t v hL hn ht hv⟩)

/-- what encoding and decoding go through -/
theorem json_parts {w : World} (h : Reachable w) (he : Encodable w) :
    ∃ w1 wire w2, w.toWire false true = (w1, .ok wire) ∧ (jsonObj wire).KeysOk ∧ decodeObject (jsonBody wire) = .ok w2 ∧
      fromWire wire = .ok w2 ∧ SameDoc w w2 ∧ Reachable w2 ∧ Encodable w2 ∧ (JsonDoc w → Jsonable (jsonObj wire)) := by
  obtain ⟨w1, wire, w2, h1, h2, h3, h4, h5⟩ := C29_round_trip h he false true
  obtain ⟨w1', offs, hc, so, hr⟩ := ready_of h.inv h.wf he false true
  have hw : w1'.wireOf offs = .ok wire := by
    unfold toWire at h1; rw [hc] at h1
    simp only [Prod.mk.injEq] at h1
    exact h1.2
  have hok := wire_ok hr hw
  have hn : ∀ l ∈ wire.layers, (l.2.cols.map (·.1)).Nodup := fun l hl => (wire_cols hr hw l hl).1
  refine ⟨w1, wire, w2, h1, jsonObj_keys hok hn, ?_, h2, h3, h4, h5, fun hj => ?_⟩
  · simp only [decodeObject, jsonWire_body hok hn, jsonCheck_ok hr hw, h2, bind, Except.bind]
  · exact jsonObj_jsonable (wire_json hr (JsonDoc.same hj h.inv hr.inv so) hw)

theorem decodeJson_obj {ft : FloatText} {s : Str} {x : Wire} (h : loads ft s = .ok (jsonObj x)) : decodeJson ft s = decodeObject (jsonBody x) := by
  unfold decodeJson jsonObj at *
  rw [h]
  rfl

section
variable {ft : FloatText} (hf : FloatsExact ft) {w : World} (h : Reachable w) (he : Encodable w)
include hf h he

/-- C66. A valid document without bytes is written as JSON; reading the JSON, with any white space around it,
gives the same document. -/
theorem C66_round_trip (hj : JsonDoc w) :
    ∃ w1 s w2, w.encodeJson ft = (w1, .ok s) ∧ SameDoc w w2 ∧ Reachable w2 ∧ Encodable w2 ∧
      ∀ a b, Blank a → Blank b → decodeJson ft (a ++ s ++ b) = .ok w2 := by
  obtain ⟨w1, wire, w2, h1, h2, h3, h4, h5, h6, h7, h8⟩ := json_parts h he
  obtain ⟨s, g1, g2⟩ := C65_round_trip hf (h8 hj) h2
  refine ⟨w1, s, w2, ?_, h5, h6, h7, fun a b ha hb => ?_⟩
  · unfold encodeJson; rw [h1]; simp only [g1]
  · rw [decodeJson_obj (g2 a b ha hb), h3]

/-- C66. Encoding the decoded document gives the same JSON again. -/
theorem C66_stable (hj : JsonDoc w) {s : Str} (hs : (w.encodeJson ft).2 = .ok s) :
    ∃ w2, decodeJson ft s = .ok w2 ∧ (w2.encodeJson ft).2 = .ok s := by
  obtain ⟨w1, wire, w2, h1, h2, h3, h4, h5, h6, h7, h8⟩ := json_parts h he
  obtain ⟨s', g1, g2⟩ := C65_round_trip hf (h8 hj) h2
  unfold encodeJson at hs
  rw [h1] at hs
  simp only [g1] at hs
  cases hs
  have hd := decodeJson_obj (g2 [] [] (by simp [Blank]) (by simp [Blank]))
  rw [List.nil_append, List.append_nil, h3] at hd
  refine ⟨w2, hd, ?_⟩
  obtain ⟨wire', w2', k1, k2, k3⟩ := C32_stable_data h he false true false true
  rw [h1] at k1; cases k1
  rw [h4] at k2; cases k2
  unfold encodeJson
  generalize hg : w2.toWire false true = r at k3
  obtain ⟨w3, r⟩ := r
  simp only at k3
  subst k3
  exact g1

/-- C66. The JSON codec and the MessagePack codec give exactly the same document. -/
theorem C66_codecs_agree (hj : JsonDoc w) {s : Str} (hs : (w.encodeJson ft).2 = .ok s) {x t : Bool} {bs : Bytes}
    (hb : (w.encodeMsgpack x t).2 = .ok bs) : ∃ w2, decodeJson ft s = .ok w2 ∧ decodeMsgpack bs = .ok w2 := by
  obtain ⟨w1, wire, w2, h1, h2, h3, h4, h5, h6, h7, h8⟩ := json_parts h he
  obtain ⟨s', g1, g2⟩ := C65_round_trip hf (h8 hj) h2
  unfold encodeJson at hs
  rw [h1] at hs
  simp only [g1] at hs
  cases hs
  have hd := decodeJson_obj (g2 [] [] (by simp [Blank]) (by simp [Blank]))
  rw [List.nil_append, List.append_nil, h3] at hd
  refine ⟨w2, hd, ?_⟩
  obtain ⟨w1', wire', w2', k1, k2, k3, k4, -⟩ := encode_parts h he x t
  have hw : wire = wire' := by
    obtain ⟨a1, o1, c1, s1, r1⟩ := ready_of h.inv h.wf he false true
    obtain ⟨a2, o2, c2, s2, r2⟩ := ready_of h.inv h.wf he x t
    have e := wireOf_sameObs r2 r1 ((SameObs.symm s2).trans s1)
    unfold toWire at h1 k1
    rw [c1] at h1
    rw [c2] at k1
    simp only [Prod.mk.injEq] at h1 k1
    rw [h1.2, k1.2] at e
    cases e; rfl
  subst hw
  rw [k2] at hb
  have hd := decode_encode k3 hb []
  rw [List.append_nil] at hd
  rw [hd, h4]

/-- C66. JSON of a document that is cut off anywhere is refused. -/
theorem C66_truncated (hj : JsonDoc w) {s : Str} (hs : (w.encodeJson ft).2 = .ok s) {p : Str} (hp : p <+: s) (hne : p ≠ s) :
    decodeJson ft p = .error .value := by
  obtain ⟨w1, wire, w2, h1, h2, h3, h4, h5, h6, h7, h8⟩ := json_parts h he
  unfold encodeJson at hs
  rw [h1] at hs
  unfold decodeJson
  rw [C65_truncated hf (h8 hj) h2 (.inr ⟨_, rfl⟩) hs hp hne]

omit hf in
/-- C66, the other documents: bytes in any field make the encoder fail (TypeError). -/
theorem C66_bytes_refused {k L n f ty b} (hL : (k, L) ∈ w.dl) (hn : some n ∈ w.iter L) (hft : (f, ty) ∈ (w.layers L).fields)
    (hv : dget (w.nodes n).fields f = some (.bytes b)) : (w.encodeJson ft).2 = .error .type := by
  obtain ⟨w1, wire, w2, h1, -⟩ := json_parts h he
  have hL' : dget w.dl k = some L := dget_of_mem h.wf.dlKeys hL
  obtain ⟨i, hi⟩ := List.getElem?_of_mem hn
  obtain ⟨a1, offs, idx, wl, tw, col, cell, a2, a3, a4, a5, a6, a7, a8, a9⟩ :=
    wire_cell h (by rw [h1]) hL' ⟨L, hL', hi⟩ hft
  have hty : ty.tname = .binary := by
    have := he.cells k L n f ty _ hL hn hft hv
    cases this; assumption
  rw [hty, hv] at a8
  simp only [Option.getD_some, encodeCell] at a8
  cases a8
  have hc := a9 0 (by rw [hty]; decide)
  rw [hty] at hc
  have hmem : Obj.bin b ∈ col := List.mem_of_getElem? (by simpa [cellWidth] using hc)
  unfold encodeJson
  rw [h1]
  exact (C65_bytes_raise ft _).1 (jsonObj_bytes (dget_mem a5) a6 (hasBytesL_iff.mpr ⟨_, hmem, trivial⟩))

end

/-- C66. Text that is not JSON is refused (ValueError); JSON that is not an object with a "DM10" entry is
refused (DataError). -/
theorem C66_foreign (ft : FloatText) (s : Str) :
    (loads ft s = .error .value → decodeJson ft s = .error .value) ∧
    (∀ o, loads ft s = .ok o → (∀ d, o = .map d → "DM10".toList ∉ dkeys d) → decodeJson ft s = .error .data) := by
  refine ⟨fun h => by unfold decodeJson; rw [h], fun o h hd => ?_⟩
  unfold decodeJson
  rw [h]
  cases o with
  | map d =>
    have := hd d rfl
    simp only [(dget_none_iff _ _).mpr this]
  | _ => rfl

theorem mapE_all {α β : Type} {f : α → Except PyErr β} {l : List α} {r : List β} (h : mapE f l = .ok r) {a : α} (ha : a ∈ l) :
    ∃ b, f a = .ok b := by
  obtain ⟨h1, h2⟩ := mapE_inv h
  obtain ⟨i, hi, rfl⟩ := List.getElem_of_mem ha
  exact ⟨_, h2 i hi (by omega)⟩

/-- C66. In a document read from JSON every span field is declared on a text of the document. -/
theorem C66_texts_present {ft : FloatText} {s : Str} {w : World} (h : decodeJson ft s = .ok w) {k L f t}
    (hL : dget w.dl k = some L) (hf : dget (w.layers L).fields f = some t) (ht : t.tname = .span) :
    ∃ c, dget t.options "context".toList = some (.str c) ∧ c ∈ dkeys w.dt := by
  have key : ∀ x, jsonCheck x = .ok () → fromWire x = .ok w → ∃ c, dget t.options "context".toList = some (.str c) ∧ c ∈ dkeys w.dt := by
    intro x hx hw
    have hp := fromWire_parts hw
    have hdt : dkeys w.dt = dkeys x.texts := by
      have := congrArg (List.map (·.1)) hp.texts
      simpa [dkeys, Function.comp_def] using this
    rw [hdt]
    unfold fromWire fromWireN at hw
    split at hw
    · cases hw
    split at hw
    · cases hw
    rename_i sch hs
    split at hw
    · cases hw
    rename_i ls hl
    split at hw
    · cases hw
    rename_i ls' hl'
    cases hw
    have hm : (k, L) ∈ (ls'.map (·.name)).zipIdx := dget_mem hL
    obtain ⟨l', hl1, hl2⟩ : ∃ l', ls'[L]? = some l' ∧ l'.name = k := by
      have := List.mk_mem_zipIdx_iff_getElem?.mp hm
      simpa using this
    rw [build_layer hl1] at hf
    simp only at hf
    have hfm : (f, t) ∈ l'.fields := dget_mem hf
    obtain ⟨l, hlm, e1⟩ := mapE_mem hl' (List.mem_of_getElem? hl1)
    obtain ⟨sc, hsm, e2⟩ := mapE_mem hl hlm
    obtain ⟨wl, hwm, e3⟩ := mapE_mem hs hsm
    have f1 : l'.fields = l.fields := by
      unfold resolveLayer at e1
      split at e1
      · cases e1
      · cases e1; rfl
    have f2 : l.fields = sc.2.1.map (fun c => (c.1, c.2.1)) := by
      unfold decodeLayer at e2
      split at e2
      · cases e2
      · cases e2; rfl
    rw [f1, f2, List.mem_map] at hfm
    obtain ⟨c, hc, hce⟩ := hfm
    obtain ⟨cw, hcw, hdec⟩ : ∃ cw ∈ wl.2.cols, cw.2.1.decode = .ok c.2.1 := by
      unfold decodeSchema at e3
      split at e3
      · cases e3
      · rename_i cols hcols
        split at e3
        · cases e3
          obtain ⟨cw, hcw, e⟩ := mapE_mem hcols hc
          refine ⟨cw, hcw, ?_⟩
          split at e
          · rename_i hd; cases e; exact hd
          · cases e
        · cases e3
    unfold jsonCheck at hx
    split at hx
    · cases hx
    · rename_i r hr
      obtain ⟨b, hb⟩ := mapE_all hr hwm
      obtain ⟨b', hb'⟩ := mapE_all hb hcw
      have htt : c.2.1 = t := by cases hce; rfl
      unfold jsonColOk at hb'
      rw [hdec, htt] at hb'
      simp only [ht] at hb'
      split at hb'
      · rename_i c' hc'
        split at hb'
        · exact ⟨c', hc', by assumption⟩
        · cases hb'
      · cases hb'
      · cases hb'
  unfold decodeJson at h
  split at h
  · cases h
  · split at h
    · cases h
    · rename_i o _
      unfold decodeObject at h
      cases hx : jsonWire o with
      | error e => rw [hx] at h; cases h
      | ok x =>
        cases hc : jsonCheck x with
        | error e => rw [hx] at h; simp only [bind, Except.bind, hc] at h; cases h
        | ok u =>
          rw [hx] at h; simp only [bind, Except.bind, hc] at h
          exact key x hc h
  · cases h
/-! ### C28 -/

/-- C28. Encoding, with either codec and also when it raises, leaves the document as it was. -/
theorem C28_encode_pure {w : World} (h : Reachable w) (x t : Bool) (ft : FloatText) :
    Spec.Unchanged w (w.encodeMsgpack x t).1 ∧ Spec.Unchanged w (w.encodeJson ft).1 := by
  have hw : ∀ x t, (w.toWire x t).1 = (w.compile x t).1 := by
    intro x t
    unfold toWire
    split <;> simp_all
  constructor
  · have : (w.encodeMsgpack x t).1 = (w.toWire x t).1 := by unfold encodeMsgpack; split <;> simp_all
    rw [this, hw]
    exact C28_compile_pure h x t
  · have : (w.encodeJson ft).1 = (w.toWire false true).1 := by unfold encodeJson; split <;> simp_all
    rw [this, hw]
    exact C28_compile_pure h false true

/-! ### concrete cases -/

namespace Ex

/-- a way of writing floats that reads back -/
def bitsText : FloatText := ⟨fun b => natStr b.toNat ++ ".0".toList, fun s => UInt64.ofNat (Nat.ofDigitChars 10 (s.takeWhile Char.isDigit) 0)⟩

theorem bitsText_exact : FloatsExact bitsText where
  shape b _ := ⟨[], natStr b.toNat, ".0".toList, [], by simp [bitsText], .inl rfl, natStr_int _, .inr ⟨['0'], rfl, by simp, by simp [Digits]⟩,
    .inl rfl, .inl (by simp)⟩
  exact b _ := by
    have : (bitsText.repr b).takeWhile Char.isDigit = natStr b.toNat := by
      show (natStr b.toNat ++ ['.', '0']).takeWhile Char.isDigit = _
      rw [List.takeWhile_append_of_pos (fun c hc => natStr_digits hc)]
      simp
    show UInt64.ofNat (Nat.ofDigitChars 10 ((bitsText.repr b).takeWhile Char.isDigit) 0) = b
    rw [this, natStr, Nat.ofDigitChars_ten_toDigits]
    simp

/-- everything JSON has: control characters, quotes, characters beyond the BMP, nested containers, specials -/
def jdata : Obj := .map [("a\"\\\n".toList, .arr [.int (-120), .nil, .bool true, .arr [], .map []]), ("é😀".toList, .str "x\u0001\u007f€/".toList),
  ([], .arr [.float 4607182418800017408, .float nanBits, .float infBits, .float negInfBits])]

/-- `wfull` (a field of every kind) without its binary value -/
def wjson : World := World.empty.run (opsFull ++ [.delField 0 "bin".toList])
set_option maxRecDepth 20000 in
theorem wjson_reachable : Reachable wjson := reachable_run _ (by decide)
set_option maxRecDepth 20000 in
theorem wjson_encodable : Encodable wjson := Check.doc_ok (by decide)

mutual
/-- `Jsonable`, checked by evaluation -/
def jsonable : Obj → Bool
  | .bin _ => false
  | .float b => decide (floatKind b ≠ .nan ∨ b = nanBits)
  | .arr l => jsonableL l
  | .map l => jsonableM l
  | _ => true
def jsonableL : List Obj → Bool
  | [] => true
  | x :: xs => jsonable x && jsonableL xs
def jsonableM : List (Str × Obj) → Bool
  | [] => true
  | (_, x) :: xs => jsonable x && jsonableM xs
end

mutual
theorem jsonable_ok : ∀ {o : Obj}, jsonable o = true → Jsonable o
  | .nil, _ => trivial
  | .bool _, _ => trivial
  | .int _, _ => trivial
  | .str _, _ => trivial
  | .bin _, h => by cases h
  | .float b, h => fun hn => (of_decide_eq_true h).resolve_left (fun h => h hn)
  | .arr _, h => jsonableL_ok h
  | .map _, h => jsonableM_ok h
theorem jsonableL_ok : ∀ {l : List Obj}, jsonableL l = true → JsonableL l
  | [], _ => trivial
  | _ :: _, h => ⟨jsonable_ok (Bool.and_eq_true _ _ ▸ h).1, jsonableL_ok (Bool.and_eq_true _ _ ▸ h).2⟩
theorem jsonableM_ok : ∀ {l : List (Str × Obj)}, jsonableM l = true → JsonableM l
  | [], _ => trivial
  | (_, _) :: _, h => ⟨jsonable_ok (Bool.and_eq_true _ _ ▸ h).1, jsonableM_ok (Bool.and_eq_true _ _ ▸ h).2⟩
end

def jsonVal : Value → Bool
  | .bytes b => jsonable (.bin b)
  | .float b => jsonable (.float b)
  | .data o => jsonable o
  | _ => true

theorem jsonVal_ok : ∀ {v : Value}, jsonVal v = true → JsonVal v := by
  intro v h
  cases v <;> first | trivial | exact jsonable_ok h

/-- `JsonDoc`, checked by evaluation -/
def jsonDoc (w : World) : Bool :=
  w.props.all (fun e => jsonVal e.2) &&
  w.dl.all (fun e => (w.layers e.2).fields.all (fun t => t.2.options.all (fun o => jsonVal o.2)) &&
    (w.iter e.2).all (fun n => match n with
      | some n => (w.nodes n).fields.all (fun v => jsonVal v.2)
      | none => true))

theorem jsonDoc_ok {w : World} (h : jsonDoc w = true) : JsonDoc w := by
  simp only [jsonDoc, Bool.and_eq_true] at h
  obtain ⟨h1, h2⟩ := h
  refine ⟨fun k v hv => jsonVal_ok (List.all_eq_true.mp h1 _ hv), ?_, ?_⟩
  · intro k L f t o v hL hf ho
    have := List.all_eq_true.mp h2 _ hL
    simp only [Bool.and_eq_true] at this
    exact jsonVal_ok (List.all_eq_true.mp (List.all_eq_true.mp this.1 _ hf) _ ho)
  · intro k L n f v hL hn hv
    have := List.all_eq_true.mp h2 _ hL
    simp only [Bool.and_eq_true] at this
    have := List.all_eq_true.mp this.2 _ hn
    exact jsonVal_ok (List.all_eq_true.mp this _ (dget_mem hv))

theorem wjson_json : JsonDoc wjson := jsonDoc_ok (by decide +kernel)

/-- its JSON -/
def sjson : Str := match (wjson.encodeJson bitsText).2 with
  | .ok s => s
  | .error _ => []

theorem sjson_ok : (wjson.encodeJson bitsText).2 = .ok sjson := by decide +kernel

end Ex

-- C65 on data with everything JSON has; its text
example : Jsonable Ex.jdata ∧ Ex.jdata.KeysOk := by
  refine ⟨Ex.jsonable_ok (by decide +kernel), ?_⟩
  simp only [Ex.jdata, Obj.KeysOk, Obj.KeysOkM, Obj.KeysOkL, and_true, true_and]
  decide
example : dumps Ex.bitsText Ex.jdata = .ok
    "{\"a\\\"\\\\\\n\": [-120, null, true, [], {}], \"\\u00e9\\ud83d\\ude00\": \"x\\u0001\\u007f\\u20ac/\", \"\": [4607182418800017408.0, NaN, Infinity, -Infinity]}".toList := by decide +kernel
example : loads Ex.bitsText " [1,\n-2.5 , {} ]\t".toList = .ok (.arr [.int 1, .float 0, .map []]) ∧ loads Ex.bitsText "[1, ]".toList = .error .value ∧
    loads Ex.bitsText "[1] 2".toList = .error .value ∧ loads Ex.bitsText "{\"a\": 01}".toList = .error .value := by decide +kernel
example : HasBytes (.map [("k".toList, .arr [.int 1, .bin []])]) := .inl (.inr (.inl trivial))
-- C66 on a document with a field of every kind but binary
example : Ex.sjson.length > 300 ∧ "{\"DM10\": {\"props\": {".toList <+: Ex.sjson := by decide +kernel
example : ∃ w2, decodeJson Ex.bitsText (Ex.sjson ++ "\n".toList) = .ok w2 ∧ SameDoc Ex.wjson w2 := by
  obtain ⟨w1, s, w2, h1, h2, -, -, h3⟩ := C66_round_trip Ex.bitsText_exact Ex.wjson_reachable Ex.wjson_encodable Ex.wjson_json
  have : Ex.sjson = s := by
    have := Ex.sjson_ok
    rw [h1] at this
    cases this; rfl
  subst this
  exact ⟨w2, h3 [] _ (by simp [Blank]) (by simp [Blank]), h2⟩
example : (Ex.wjson.iter 0).length = 2 ∧ (Ex.wjson.layers 0).fields.length = 6 := by decide
-- C66_bytes_refused: `wfull` has a binary value
example : (Ex.wfull.encodeJson Ex.bitsText).2 = .error .type :=
  C66_bytes_refused Ex.wfull_reachable Ex.wfull_encodable (k := "tok".toList) (L := 0) (n := 0) (f := "bin".toList) (ty := DataTypes.binary)
    (b := [1, 2, 255]) (by decide) (by decide) (by decide) (by decide)
-- C66_foreign
example : errOf (decodeJson Ex.bitsText ("{\"DM10\": {\"props\": {}, \"texts\": {}, \"num_nodes\": {\"tok\": 0}, \"types\": {\"tok\": {\"s\": []}}, ".toList ++
    "\"schema\": {\"tok\": {\"s\": {\"type\": \"span\", \"args\": {\"context\": \"main\"}}}}}}".toList)) = some .key := by decide +kernel
/-- with the text there -/
example : (match decodeJson Ex.bitsText ("{\"DM10\": {\"props\": {}, \"texts\": {\"main\": [\"a\"]}, \"num_nodes\": {\"tok\": 0}, \"types\": {\"tok\": {\"s\": []}}, ".toList ++
    "\"schema\": {\"tok\": {\"s\": {\"type\": \"span\", \"args\": {\"context\": \"main\"}}}}}}".toList) with
    | .ok w => decide (dget w.dl "tok".toList = some 0 ∧ (dget (w.layers 0).fields "s".toList).map (·.tname) = some .span ∧ dkeys w.dt = ["main".toList])
    | .error _ => false) = true := by decide +kernel
example : decodeJson Ex.bitsText "{\"DM20\": {}}".toList = .error .data ∧ decodeJson Ex.bitsText "[\"DM10\"]".toList = .error .data ∧
    decodeJson Ex.bitsText "DM10".toList = .error .value := by
  refine ⟨?_, ?_, ?_⟩
  · exact (C66_foreign _ _).2 (.map [("DM20".toList, .map [])]) (by decide +kernel) (fun d hd => by cases hd; decide)
  · exact (C66_foreign _ _).2 (.arr [.str "DM10".toList]) (by decide +kernel) (fun d hd => by cases hd)
  · exact (C66_foreign _ _).1 (by decide +kernel)

end Verif
