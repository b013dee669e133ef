import Verif.Proof.PyRead
import Verif.Proof.JavaUnpack
/-
For C88 and C89: what the Java unpacker makes of single values.
-/
set_option linter.unusedSimpArgs false
namespace Verif
open World

/-! ### the parts of packed arrays and maps -/

theorem packList_catL (lim : Nat) (l : List Obj) : packList lim l = catL (l.map (packAt lim)) := by
  induction l with
  | nil => simp [packList, catL]
  | cons o l ih =>
    simp only [packList, List.map_cons, catL, ← ih, bind, Except.bind, cat]
    cases packAt lim o with
    | error e => rfl
    | ok x => cases packList lim l <;> rfl

theorem packPairs_catL (lim : Nat) (l : List (Str × Obj)) :
    packPairs (lim + 1) l = catL (l.map (fun e => cat (pack (.str e.1)) (packAt (lim + 1) e.2))) := by
  induction l with
  | nil => simp [packPairs, catL]
  | cons o l ih =>
    obtain ⟨k, o⟩ := o
    have : pack (.str k) = packStr k := by simp [pack, packAt]
    simp only [packPairs, packKey, List.map_cons, catL, this]
    rw [← ih]
    generalize packPairs (lim + 1) l = z
    simp only [bind, Except.bind, cat]
    cases packStr k with
    | error e => rfl
    | ok x =>
      cases packAt (lim + 1) o with
      | error e => rfl
      | ok y => cases z <;> rfl

theorem packAt_arr {lim : Nat} {l : List Obj} : packAt (lim + 1) (.arr l) = cat (packArrHead l.length) (catL (l.map (packAt lim))) := by
  rw [packAt, ← packList_catL]
  simp only [bind, Except.bind, cat]
  cases packArrHead l.length with
  | error e => rfl
  | ok x => cases packList lim l <;> rfl

theorem packAt_map {lim : Nat} {l : List (Str × Obj)} : packAt (lim + 2) (.map l) =
    cat (packMapHead l.length) (catL (l.map (fun e => cat (pack (.str e.1)) (packAt (lim + 1) e.2)))) := by
  rw [packAt, ← packPairs_catL]
  simp only [bind, Except.bind, cat]
  cases packMapHead l.length with
  | error e => rfl
  | ok x => cases packPairs (lim + 1) l <;> rfl

theorem cat_length {a b : Except PyErr Bytes} {bs : Bytes} (h : cat a b = .ok bs) {x y : Bytes} (ha : a = .ok x) (hb : b = .ok y) :
    bs.length = x.length + y.length := by
  subst ha; subst hb
  cases h
  simp

theorem catL_length {l : List (Except PyErr Bytes)} {bs : Bytes} (h : catL l = .ok bs) (h1 : ∀ a ∈ l, ∀ b, a = .ok b → 1 ≤ b.length) : l.length ≤ bs.length := by
  induction l generalizing bs with
  | nil => simp
  | cons a l ih =>
    obtain ⟨x, y, e1, e2, rfl⟩ := cat_ok h
    have := h1 a (by simp) x e1
    have := ih e2 (fun a ha => h1 a (by simp [ha]))
    simp only [List.length_cons, List.length_append]
    omega

theorem catL_mem {l : List (Except PyErr Bytes)} {bs : Bytes} (h : catL l = .ok bs) {a : Except PyErr Bytes} (ha : a ∈ l) : ∃ b, a = .ok b ∧ b.length ≤ bs.length := by
  induction l generalizing bs with
  | nil => simp at ha
  | cons a' l ih =>
    obtain ⟨x, y, e1, e2, rfl⟩ := cat_ok h
    rcases List.mem_cons.mp ha with rfl | ha
    · exact ⟨x, e1, by simp⟩
    · obtain ⟨b, e, hl⟩ := ih e2 ha
      exact ⟨b, e, by simp only [List.length_append]; omega⟩

theorem catL_append (l m : List (Except PyErr Bytes)) : catL (l ++ m) = cat (catL l) (catL m) := by
  induction l with
  | nil =>
    simp only [List.nil_append, catL, cat]
    cases catL m <;> rfl
  | cons a l ih =>
    simp only [List.cons_append, catL, ih, cat]
    cases a with
    | error e => rfl
    | ok x =>
      cases catL l with
      | error e => rfl
      | ok y => cases catL m with
        | error e => rfl
        | ok z => simp

theorem catL_flatten {α : Type} (g : α → Except PyErr Bytes) (ess : List (List α)) : catL (ess.flatten.map g) = catL (ess.map (fun es => catL (es.map g))) := by
  induction ess with
  | nil => rfl
  | cons es ess ih => simp only [List.flatten_cons, List.map_append, catL_append, ih, List.map_cons, catL]

/-! ### the first bytes -/

theorem int_head {i : Int} {bs : Bytes} (h : pack (.int i) = .ok bs) :
    ∃ b r, bs = b :: r ∧ (b.toNat < 0x80 ∨ (0xcc ≤ b.toNat ∧ b.toNat < 0xd4) ∨ 0xe0 ≤ b.toNat) := by
  simp only [pack, packAt] at h
  unfold packInt at h
  simp only at h
  repeat' split at h
  all_goals cases h
  all_goals refine ⟨_, _, rfl, ?_⟩
  all_goals first | decide | (rw [u8 (by omega)]; omega)

theorem str_head {s : Str} {bs : Bytes} (h : pack (.str s) = .ok bs) :
    ∃ b r, bs = b :: r ∧ ((0xa0 ≤ b.toNat ∧ b.toNat < 0xc0) ∨ (0xd9 ≤ b.toNat ∧ b.toNat < 0xdc)) ∧ (utf8Encode s).length ≤ bs.length := by
  simp only [pack, packAt, packStr, bind, Except.bind] at h
  split at h
  · cases h
  · rename_i hd hh
    cases h
    unfold packStrHead at hh
    repeat' split at hh
    all_goals cases hh
    all_goals refine ⟨_, _, rfl, ?_, by simp only [List.cons_append, List.length_cons, List.length_append]; omega⟩
    all_goals first | decide | (rw [u8 (by omega)]; omega)

theorem bin_head {d : Bytes} {bs : Bytes} (h : pack (.bin d) = .ok bs) : ∃ b r, bs = b :: r ∧ 0xc4 ≤ b.toNat ∧ b.toNat < 0xc7 ∧ d.length ≤ bs.length := by
  simp only [pack, packAt, bind, Except.bind] at h
  split at h
  · cases h
  · rename_i hd hh
    cases h
    unfold packBinHead at hh
    repeat' split at hh
    all_goals cases hh
    all_goals refine ⟨_, _, rfl, by decide, by decide, by simp only [List.cons_append, List.length_cons, List.length_append]; omega⟩

theorem arr_head {n : Nat} {bs : Bytes} (h : packArrHead n = .ok bs) : ∃ b r, bs = b :: r ∧ b.toNat ≠ 0xc0 := by
  unfold packArrHead at h
  repeat' split at h
  all_goals cases h
  all_goals refine ⟨_, _, rfl, ?_⟩
  all_goals first | decide | (rw [u8 (by omega)]; omega)

theorem packAt_pos {n : Nat} {o : Obj} {bs : Bytes} (h : packAt n o = .ok bs) : 1 ≤ bs.length := by
  cases n with
  | zero => simp [packAt] at h
  | succ n =>
    cases o with
    | nil => simp only [packAt] at h; cases h; simp
    | bool b => cases b <;> (simp only [packAt] at h; cases h; simp)
    | int i =>
      obtain ⟨b, r, rfl, -⟩ := int_head (i := i) (bs := bs) (by simpa [pack, packAt] using h)
      simp
    | float f => simp only [packAt] at h; cases h; simp
    | str s =>
      obtain ⟨b, r, rfl, -⟩ := str_head (s := s) (bs := bs) (by simpa [pack, packAt] using h)
      simp
    | bin d =>
      obtain ⟨b, r, rfl, -⟩ := bin_head (d := d) (bs := bs) (by simpa [pack, packAt] using h)
      simp
    | arr l =>
      rw [packAt_arr] at h
      obtain ⟨x, y, h1, -, rfl⟩ := cat_ok h
      obtain ⟨b, r, rfl, -⟩ := arr_head h1
      simp only [List.cons_append, List.length_cons]; omega
    | map l =>
      simp only [packAt, bind, Except.bind] at h
      split at h
      · cases h
      · rename_i hd hh
        split at h
        · cases h
        · cases h
          unfold packMapHead at hh
          repeat' split at hh
          all_goals cases hh
          all_goals simp only [List.cons_append, List.length_cons]; omega

theorem str_pos {s : Str} {bs : Bytes} (h : pack (.str s) = .ok bs) : 1 ≤ bs.length := packAt_pos (n := 512) h

/-! ### reading single values -/

theorem reads_int {i : Int} {bs : Bytes} (h : pack (.int i) = .ok bs) (h1 : -2 ^ 31 ≤ i) (h2 : i < 2 ^ 31) : Reads jInt bs i := jInt_int h h1 h2

theorem reads_len {n : Nat} {bs : Bytes} (h : pack (.int n) = .ok bs) (hn : n < 2 ^ 31) : Reads jInt bs (n : Int) := jInt_int h (by omega) (by omega)

theorem reads_long {i : Int} {bs : Bytes} (h : pack (.int i) = .ok bs) (h1 : -2 ^ 63 ≤ i) (h2 : i < 2 ^ 63) : Reads jLong bs i := by
  intro r
  have hr : jLongRange i = .ok i := by unfold jLongRange; rw [if_pos (by omega)]
  simp [jLong, P.bind_eq, jInteger_int h, hr, P.lift]

theorem reads_integer {i : Int} {bs : Bytes} (h : pack (.int i) = .ok bs) : Reads jInteger bs i := jInteger_int h

theorem reads_str {s : Str} {bs : Bytes} (h : pack (.str s) = .ok bs) (hl : bs.length < 2 ^ 31) : Reads jStr bs s := by
  obtain ⟨b, r, -, -, hle⟩ := str_head h
  intro rest
  simp [jStr, P.bind_eq, jBin_str h (by omega) rest, asUtf8, utf8Decode_encode, P.lift]

theorem reads_bin {d : Bytes} {bs : Bytes} (h : pack (.bin d) = .ok bs) (hl : bs.length < 2 ^ 31) : Reads jBin bs d := by
  obtain ⟨b, r, -, -, -, hle⟩ := bin_head h
  have : Spec.bpack d = bs := by
    have := pack_bin (d := d) (by omega)
    rw [h] at this
    exact (Except.ok.inj this).symm
  rw [← this]
  exact jBin_bpack (by omega)

theorem reads_bool {v : Bool} {bs : Bytes} (h : pack (.bool v) = .ok bs) : Reads jBool bs v := by
  cases v <;> (simp only [pack, packAt] at h; cases h; intro r; simp [jBool, P.bind_eq, take_one, ofBe, jBoolOf, P.lift])

theorem reads_double {f : UInt64} {bs : Bytes} (h : pack (.float f) = .ok bs) : Reads jDouble bs f := by
  simp only [pack, packAt] at h
  cases h
  intro r
  simp only [jDouble, P.bind_eq, List.cons_append, take_one]
  simp [ofBe, jDoubleOf, P.bind_eq, P.pure_eq]
  rw [takeNat_be 8 _ _ f.toNat_lt]
  simp

theorem reads_arr {n : Nat} {bs : Bytes} (h : packArrHead n = .ok bs) (hn : n < 2 ^ 31) : Reads jArr bs n := by
  intro r
  unfold packArrHead at h
  repeat' split at h
  all_goals cases h
  all_goals simp only [jArr, P.bind_eq, List.cons_append, List.nil_append, take_one]
  · have : ofBe [UInt8.ofNat (0x90 + n)] = 0x90 + n := by simp only [ofBe, List.foldl_cons, List.foldl_nil]; rw [u8 (by omega)]; omega
    rw [this, jArrLen, if_pos (by omega), Nat.add_sub_cancel_left]
    rfl
  · simp [ofBe, jArrLen]
    exact takeNat_be 2 _ _ (by omega)
  · simp [ofBe, jArrLen, jLen32, P.bind_eq]
    rw [takeNat_be 4 _ _ (by omega)]
    simp only
    rw [if_pos (by omega)]
    rfl

theorem reads_map {n : Nat} {bs : Bytes} (h : packMapHead n = .ok bs) (hn : n < 2 ^ 31) : Reads jMap bs n := by
  intro r
  unfold packMapHead at h
  repeat' split at h
  all_goals cases h
  all_goals simp only [jMap, P.bind_eq, List.cons_append, List.nil_append, take_one]
  · have : ofBe [UInt8.ofNat (0x80 + n)] = 0x80 + n := by simp only [ofBe, List.foldl_cons, List.foldl_nil]; rw [u8 (by omega)]; omega
    rw [this, jMapLen, if_pos (by omega), Nat.add_sub_cancel_left]
    rfl
  · simp [ofBe, jMapLen]
    exact takeNat_be 2 _ _ (by omega)
  · simp [ofBe, jMapLen, jLen32, P.bind_eq]
    rw [takeNat_be 4 _ _ (by omega)]
    simp only
    rw [if_pos (by omega)]
    rfl

theorem jTryNil_nil (r : Bytes) : jTryNil (0xc0 :: r) = .ok (true, r) := by
  simp [jTryNil, jPeek, P.bind_eq, take_one, P.pure_eq]

theorem jTryNil_other {b : UInt8} (h : b.toNat ≠ 0xc0) (r : Bytes) : jTryNil (b :: r) = .ok (false, b :: r) := by
  simp [jTryNil, jPeek, P.bind_eq, P.pure_eq, h]

theorem reads_opt_nil {p : P JVal} : Reads (jOpt p) [0xc0] none := by
  intro r
  simp only [List.cons_append, List.nil_append, jOpt, P.bind_eq, jTryNil_nil]
  rfl

theorem reads_opt {p : P JVal} {b : UInt8} {r : Bytes} {v : JVal} (h : Reads p (b :: r) v) (hb : b.toNat ≠ 0xc0) : Reads (jOpt p) (b :: r) (some v) := by
  intro rest
  simp only [List.cons_append, jOpt, P.bind_eq, jTryNil_other hb]
  have := h rest
  rw [List.cons_append] at this
  simp only [Bool.false_eq_true, if_false]
  rw [P.bind_eq, this]
  rfl

theorem times_rel {β γ : Type} {p : P β} {g : γ → Except PyErr Bytes} : ∀ {l : List γ} {Q : Nat → β → Prop} {bs : Bytes}, catL (l.map g) = .ok bs →
    (∀ (i : Nat) a b, l[i]? = some a → g a = .ok b → b.length ≤ bs.length → ∃ v, Reads p b v ∧ Q i v) →
    ∃ vs, vs.length = l.length ∧ Reads (P.times p l.length) bs vs ∧ ∀ (i : Nat) v, vs[i]? = some v → Q i v := by
  intro l
  induction l with
  | nil => intro Q bs h _; cases h; exact ⟨[], rfl, Reads.pure _, fun i v h => by simp at h⟩
  | cons a l ih =>
    intro Q bs h hp
    obtain ⟨x, y, h1, h2, rfl⟩ := cat_ok h
    obtain ⟨v, hv, hq⟩ := hp 0 a x (by simp) h1 (by simp)
    obtain ⟨vs, g1, g2, g3⟩ := ih (Q := fun i => Q (i + 1)) h2 (fun i a b ha hb hl => hp (i + 1) a b (by simpa using ha) hb (by simp only [List.length_append]; omega))
    refine ⟨v :: vs, by simp [g1], hv.bind (g2.bind0 (Reads.pure _)), ?_⟩
    intro i v' hv'
    cases i with
    | zero => cases hv'; exact hq
    | succ i => exact g3 i v' (by simpa using hv')

/-- as `Reads.times`, with the lengths -/
theorem times_len {β γ : Type} {p : P β} {g : γ → Except PyErr Bytes} {v : γ → β} {l : List γ} {bs : Bytes} (h : catL (l.map g) = .ok bs)
    (hp : ∀ a ∈ l, ∀ b, g a = .ok b → b.length ≤ bs.length → Reads p b (v a)) : Reads (P.times p l.length) bs (l.map v) := by
  refine Reads.times h (fun a ha b hb => hp a ha b hb ?_)
  obtain ⟨b', e, hl⟩ := catL_mem h (List.mem_map_of_mem ha)
  rw [hb] at e
  cases e
  exact hl

/-- as `Reads.each`, with the lengths -/
theorem each_len {α β γ : Type} {f : α → P β} {k : γ → α} {g : γ → Except PyErr Bytes} {v : γ → β} {l : List γ} {bs : Bytes} (h : catL (l.map g) = .ok bs)
    (hp : ∀ a ∈ l, ∀ b, g a = .ok b → b.length ≤ bs.length → Reads (f (k a)) b (v a)) : Reads (P.each f (l.map k)) bs (l.map v) := by
  refine Reads.each h (fun a ha b hb => hp a ha b hb ?_)
  obtain ⟨b', e, hl⟩ := catL_mem h (List.mem_map_of_mem ha)
  rw [hb] at e
  cases e
  exact hl

theorem reads_ret {α β : Type} {p : P α} {b : Bytes} {a : α} (f : α → β) (h : Reads p b a) : Reads (p >>= fun x => pure (f x)) b (f a) :=
  h.bind0 (Reads.pure _)

/-! ### values of properties and arguments -/

/-- the value that the decoder makes -/
def jVal : Obj → JVal
  | .bool b => .bool b
  | .int i => jIntVal i
  | .float f => .double f
  | .str s => .str s
  | .bin b => .bin b
  | _ => .null

theorem jVal_plain {o : Obj} (h : Spec.PropReadable o) : Spec.JPlain (jVal o) o := by
  have hint : ∀ i : Int, i < 2 ^ 63 → Spec.JPlain (jVal (.int i)) (.int i) := by
    intro i hi
    simp only [jVal, jIntVal]
    split
    · exact .int
    · rw [if_pos (by omega)]; exact .long
  cases h with
  | float => exact .double
  | arg h =>
    cases h with
    | bool => exact .bool
    | int h => exact hint _ h
    | str => exact .str
    | bin => exact .bin

theorem reads_value {o : Obj} {n : Nat} {bs : Bytes} {prop : Bool} (h : packAt (n + 1) o = .ok bs) (hl : bs.length < 2 ^ 31)
    (ho : if prop = true then Spec.PropReadable o else Spec.ArgReadable o) : Reads (jValue prop) bs (jVal o) := by
  have peek : ∀ (b : UInt8) (r rest : Bytes), jValue prop ((b :: r) ++ rest) = (do
      if b.toNat < 0x80 ∨ (0xcc ≤ b.toNat ∧ b.toNat < 0xd4) ∨ 0xe0 ≤ b.toNat then return jIntVal (← jInteger)
      else if b.toNat = 0xc2 ∨ b.toNat = 0xc3 then return .bool (← jBool)
      else if b.toNat = 0xca ∨ b.toNat = 0xcb then jFloatVal prop
      else if (0xa0 ≤ b.toNat ∧ b.toNat < 0xc0) ∨ (0xd9 ≤ b.toNat ∧ b.toNat < 0xdc) then return .str (← jStr)
      else if 0xc4 ≤ b.toNat ∧ b.toNat < 0xc7 then return .bin (← jBin)
      else if b.toNat = 0xc1 then P.fail .type
      else P.fail .notImplemented : P JVal) ((b :: r) ++ rest) := by
    intro b r rest
    rfl
  have hargs : Spec.ArgReadable o → Reads (jValue prop) bs (jVal o) := by
    intro ha
    cases ha with
    | @bool v =>
      have hb : pack (.bool v) = .ok bs := by cases v <;> simpa [pack, packAt] using h
      have hr := reads_bool hb
      have : ∃ b, bs = [b] ∧ (b.toNat = 0xc2 ∨ b.toNat = 0xc3) := by
        cases v <;> (simp only [pack, packAt] at hb; cases hb; exact ⟨_, rfl, by decide⟩)
      obtain ⟨b, rfl, hb2⟩ := this
      intro rest
      rw [peek, if_neg (by omega), if_pos hb2]
      exact (reads_ret JVal.bool hr) rest
    | @int i hi =>
      have hb : pack (.int i) = .ok bs := by simpa [pack, packAt] using h
      have hr := reads_integer hb
      obtain ⟨b, r, rfl, hb2⟩ := int_head hb
      intro rest
      rw [peek, if_pos hb2]
      exact (reads_ret jIntVal hr) rest
    | @str s =>
      have hb : pack (.str s) = .ok bs := by simpa [pack, packAt] using h
      have hr := reads_str hb hl
      obtain ⟨b, r, rfl, hb, -⟩ := str_head hb
      intro rest
      rw [peek, if_neg (by omega), if_neg (by omega), if_neg (by omega), if_pos hb]
      exact (reads_ret JVal.str hr) rest
    | @bin d =>
      have hb : pack (.bin d) = .ok bs := by simpa [pack, packAt] using h
      have hr := reads_bin hb hl
      obtain ⟨b, r, rfl, hb, hb', -⟩ := bin_head hb
      intro rest
      rw [peek, if_neg (by omega), if_neg (by omega), if_neg (by omega), if_neg (by omega), if_pos (by omega)]
      exact (reads_ret JVal.bin hr) rest
  cases prop with
  | false => exact hargs (by simpa using ho)
  | true =>
    simp only [if_true] at ho
    cases ho with
    | arg ha => exact hargs ha
    | @float f =>
      have hb : pack (.float f) = .ok bs := by simpa [pack, packAt] using h
      have hr := reads_double hb
      simp only [packAt] at h
      cases h
      intro rest
      rw [peek, if_neg (by decide), if_neg (by decide), if_pos (by decide)]
      simp only [jFloatVal, if_true]
      exact (reads_ret JVal.double hr) rest

theorem reads_entries {l : List (Str × Obj)} {n : Nat} {bs : Bytes} {prop : Bool}
    (h : packAt (n + 2) (.map l) = .ok bs) (hl : bs.length < 2 ^ 31)
    (ho : ∀ e ∈ l, if prop = true then Spec.PropReadable e.2 else Spec.ArgReadable e.2) :
    Reads (do P.times (jEntry prop) (← jMap)) bs (l.map (fun e => (e.1, jVal e.2))) := by
  rw [packAt_map] at h
  obtain ⟨x, y, h1, h2, rfl⟩ := cat_ok h
  rw [List.length_append] at hl
  have hlen : l.length ≤ y.length := by
    have := catL_length h2 (by
      intro a ha b hb
      obtain ⟨e, -, rfl⟩ := List.mem_map.mp ha
      obtain ⟨p, q, g1, g2, rfl⟩ := cat_ok hb
      have := str_pos g1
      simp only [List.length_append]; omega)
    simpa using this
  refine (reads_map h1 (by omega)).bind ?_
  refine times_len h2 ?_
  intro e he b hb hbl
  obtain ⟨p, q, g1, g2, rfl⟩ := cat_ok hb
  rw [List.length_append] at hbl
  unfold jEntry
  exact (reads_str g1 (by omega)).bind ((reads_value g2 (by omega) (ho e he)).bind0 (Reads.pure _))

theorem reads_strs {l : List Str} {n : Nat} {bs : Bytes} (h : packAt (n + 2) (.arr (l.map .str)) = .ok bs) (hl : bs.length < 2 ^ 31) :
    Reads (do P.times jStr (← jArr)) bs l := by
  rw [packAt_arr] at h
  obtain ⟨x, y, h1, h2, rfl⟩ := cat_ok h
  rw [List.length_append] at hl
  rw [List.map_map, List.length_map] at *
  have hlen : l.length ≤ y.length := by
    have := catL_length h2 (by
      intro a ha b hb
      obtain ⟨e, -, rfl⟩ := List.mem_map.mp ha
      exact packAt_pos hb)
    simpa using this
  refine (reads_arr h1 (by omega)).bind ?_
  have := times_len (p := jStr) (v := fun s : Str => s) h2 (fun s _ b hb hbl => reads_str (by simpa [pack, packAt] using hb) (by omega))
  simpa using this

theorem reads_ints {l : List Nat} {n : Nat} {bs : Bytes} (h : packAt (n + 2) (.arr (l.map (fun i : Nat => .int i))) = .ok bs) (hl : bs.length < 2 ^ 31)
    (hb : ∀ i ∈ l, i < 2 ^ 31) : Reads (do P.times jInt (← jArr)) bs (l.map (fun i : Nat => (i : Int))) := by
  rw [packAt_arr] at h
  obtain ⟨x, y, h1, h2, rfl⟩ := cat_ok h
  rw [List.length_append] at hl
  rw [List.map_map, List.length_map] at *
  have hlen : l.length ≤ y.length := by
    have := catL_length h2 (by
      intro a ha b hb
      obtain ⟨e, -, rfl⟩ := List.mem_map.mp ha
      exact packAt_pos hb)
    simpa using this
  refine (reads_arr h1 (by omega)).bind ?_
  exact times_len (p := jInt) h2 (fun i hi b hb' hbl => reads_len (by simpa [pack, packAt] using hb') (hb i hi))

end Verif
