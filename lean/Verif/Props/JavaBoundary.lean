import Verif.Model.JavaBoundary
import Verif.Props.BoundaryReader
/-
C76-C78: the boundary streams of the Java library.
-/
set_option linter.unusedSimpArgs false
namespace Verif

namespace Spec

/-- what an InputStream over `data` returns for the calls, when it always reads as much as it can: the bytes
one after the other, -1 (`none`) when something is asked for and nothing is left -/
def inputCalls (data : Bytes) : List JReader.Call → List (Option Bytes)
  | [] => []
  | .one :: cs => (match data with | [] => none | c :: _ => some [c]) :: inputCalls (data.drop 1) cs
  | .arr n :: cs => (if n ≠ 0 ∧ data = [] then none else some (data.take n)) :: inputCalls (data.drop n) cs

/-- what is left of `data` after the calls -/
def inputRest (data : Bytes) : List JReader.Call → Bytes
  | [] => data
  | .one :: cs => inputRest (data.drop 1) cs
  | .arr n :: cs => inputRest (data.drop n) cs

/-- a position that is not inside a marker: of payload, or where a marker begins -/
def Edge (b p : Nat) : Prop := p ≠ 0 ∧ (isPay b p = true ∨ 2 ^ b ∣ p)

end Spec

/-! ### the writer -/

/-- the same fields -/
def JWriter.toB (s : JWriter) : BWriter := ⟨s.out, s.boundary, s.written, s.lastsplit, s.seg⟩

theorem packI32_ok {i : Int} {b : Bytes} (h : packI32 i = .ok b) : b = be 4 (i % 0x100000000).toNat := by
  unfold packI32 at h
  split at h <;> cases h
  rfl

theorem clamp_eq (d c : Int) : (if d < c then c else d) = (if d ≤ c then c else d) := by
  by_cases h : d < c
  · rw [if_pos h, if_pos (by omega)]
  · rw [if_neg h]
    by_cases e : d ≤ c
    · rw [if_pos e]; omega
    · rw [if_neg e]

theorem jwriteBoundary {s : JWriter} {t : BWriter} (h : s.toB.writeBoundary = .ok t) : s.writeBoundary.toB = t := by
  unfold BWriter.writeBoundary at h
  by_cases h1 : (s.toB.written >>> s.toB.boundary) <<< s.toB.boundary ≠ s.toB.written
  · rw [if_pos h1] at h; cases h
  · rw [if_neg h1] at h
    simp only at h
    split at h
    · cases h
    · rename_i b hb
      cases h
      have hb := packI32_ok hb
      subst hb
      simp only [JWriter.writeBoundary, JWriter.toB]
      rw [clamp_eq]
      rfl

theorem jwriteLoop : ∀ (fuel : Nat) {s : JWriter} {data : Bytes} {m : Int} {t : BWriter}, s.toB.writeLoop fuel data m = .ok t →
    ∃ s', s.writeLoop (fuel + 1) data m = .ok s' ∧ s'.toB = t := by
  intro fuel
  induction fuel with
  | zero => intro s data m t h; cases h
  | succ fuel ih =>
    intro s data m t h
    rw [BWriter.writeLoop] at h
    rw [JWriter.writeLoop]
    by_cases h1 : data.length = 0
    · rw [if_pos h1] at h; cases h
      rw [if_neg (by omega)]; exact ⟨s, rfl, rfl⟩
    · rw [if_neg h1] at h
      rw [if_pos (by omega)]
      by_cases h2 : m < 0
      · rw [if_pos h2] at h; cases h
      · rw [if_neg h2] at h ⊢
        simp only at h ⊢
        by_cases h3 : (data.drop m.toNat).length = 0
        · rw [if_pos h3] at h; cases h
          rw [if_neg (by omega), JWriter.writeLoop, if_neg (by omega)]
          exact ⟨_, rfl, rfl⟩
        · rw [if_neg h3] at h
          rw [if_pos (by omega)]
          split at h
          · cases h
          · rename_i s1 hs1
            have hj := jwriteBoundary (s := { s with out := s.out ++ data.take m.toNat, written := s.written + m.toNat }) hs1
            rw [← hj] at h
            exact ih h

theorem jwrite {s : JWriter} {data : Bytes} {t : BWriter} (h : s.toB.write data = .ok t) :
    ∃ s', s.write data = .ok s' ∧ s'.toB = t := jwriteLoop _ h

theorem jrun (ops : List BWriter.Op) : ∀ {s : JWriter} {t : BWriter}, s.toB.run ops = .ok t → ∃ s', s.run ops = .ok s' ∧ s'.toB = t := by
  induction ops with
  | nil => intro s t h; cases h; exact ⟨s, rfl, rfl⟩
  | cons o ops ih =>
    intro s t h
    cases o with
    | split => exact ih (s := s.split) h
    | write d =>
      simp only [BWriter.run] at h
      split at h
      · cases h
      · rename_i t1 h1
        obtain ⟨s1, g1, g2⟩ := jwrite h1
        subst g2
        obtain ⟨s', g3, g4⟩ := ih h
        exact ⟨s', by simp only [JWriter.run, g1, g3], g4⟩

/-- C76. For every boundary value, all array writes and splits: the Java writer does not throw and its file is
byte for byte the file of the Python writer. -/
theorem C76_same_file {b : Nat} (hb : 12 ≤ b ∧ b ≤ 30) (ops : List BWriter.Op) :
    ∃ j0 j s0 s, JWriter.new b = .ok j0 ∧ j0.run ops = .ok j ∧ BWriter.new b = .ok s0 ∧ s0.run ops = .ok s ∧ j.out = s.out := by
  obtain ⟨s0, h0, hi, ht, -⟩ := new_ok hb
  obtain ⟨s, h1, -, -, -⟩ := run_ok ops hi ht
  have h2 : JWriter.new b = .ok ⟨[.ofNat b], b, 1, 1, 0⟩ := by unfold JWriter.new; rw [if_neg (by omega)]
  have h3 : (⟨[.ofNat b], b, 1, 1, 0⟩ : JWriter).toB = s0 := by
    unfold BWriter.new at h0; rw [if_pos hb] at h0; cases h0; rfl
  rw [← h3] at h1
  obtain ⟨j, g1, g2⟩ := jrun ops h1
  exact ⟨_, j, s0, s, h2, g1, h0, by rw [← h3]; exact h1, by rw [← g2]; rfl⟩

/-- C76. Both refuse the same boundary values. -/
theorem C76_refuses (b : Nat) : (∃ j, JWriter.new b = .ok j) ↔ ∃ s, BWriter.new b = .ok s := by
  unfold JWriter.new BWriter.new
  by_cases h : 12 ≤ b ∧ b ≤ 30
  · rw [if_neg (by omega), if_pos h]; exact ⟨fun _ => ⟨_, rfl⟩, fun _ => ⟨_, rfl⟩⟩
  · rw [if_pos (by omega), if_neg h]
    exact ⟨fun ⟨_, h⟩ => (by cases h), fun ⟨_, h⟩ => (by cases h)⟩

theorem jinv {b : Nat} (hb : 12 ≤ b ∧ b ≤ 30) (ops : List BWriter.Op) {j0 j} (h0 : JWriter.new b = .ok j0) (h : j0.run ops = .ok j) :
    WInv b j.toB (Spec.payload ops) ∧ WTight b j.toB := by
  obtain ⟨s0, g0, hi, ht, -⟩ := new_ok hb
  obtain ⟨s, h1, h2, h3, -⟩ := run_ok ops hi ht
  have h4 : j0.toB = s0 := by
    unfold BWriter.new at g0; rw [if_pos hb] at g0; cases g0
    unfold JWriter.new at h0; rw [if_neg (by omega)] at h0; cases h0; rfl
  rw [← h4] at h1
  obtain ⟨j', g1, g2⟩ := jrun ops h1
  rw [h] at g1; cases g1
  rw [g2]; exact ⟨by simpa using h2, h3⟩

/-- C76, without the Python code: without its first byte and the markers the file is what was written, and it
does not end with (a part of) a marker. -/
theorem C76_layout {b : Nat} (hb : 12 ≤ b ∧ b ≤ 30) (ops : List BWriter.Op) {j0 j} (h0 : JWriter.new b = .ok j0) (h : j0.run ops = .ok j) :
    j.out[0]? = some (.ofNat b) ∧ Spec.strip b j.out = Spec.payload ops ∧ (j.out.length = 1 ∨ Spec.isPay b (j.out.length - 1) = true) := by
  obtain ⟨h2, h3⟩ := jinv hb ops h0 h
  refine ⟨h2.first, h2.pay, ?_⟩
  have hl := h2.len
  have hp := h2.pos
  have hhi := h2.hi
  simp only [JWriter.toB] at hl hp hhi h3 ⊢
  by_cases h : j.out.length = 1
  · exact .inl h
  · right
    exact isPay_in (k := j.seg) (fun _ => by omega) (fun hk => by have := h3 hk; simp only at this; omega) (by omega)

theorem aligned_in {b k w : Nat} (h1 : k * 2 ^ b < w) (h2 : w ≤ (k + 1) * 2 ^ b) (h : 2 ^ b ∣ w) : w = (k + 1) * 2 ^ b := by
  obtain ⟨q, rfl⟩ := h
  have hB : 0 < 2 ^ b := Nat.pos_of_ne_zero (by simp)
  have h3 : k < q := Nat.lt_of_mul_lt_mul_left (a := 2 ^ b) (by rw [Nat.mul_comm] at h1; exact h1)
  have h4 : q ≤ k + 1 := Nat.le_of_mul_le_mul_left (c := 2 ^ b) (by rw [Nat.mul_comm (k + 1)] at h2; exact h2) hB
  rw [show q = k + 1 by omega, Nat.mul_comm]

theorem shiftRight_gt {w b k : Nat} : w >>> b > k ↔ (k + 1) * 2 ^ b ≤ w := by
  rw [Nat.shiftRight_eq_div_pow]
  exact Nat.le_div_iff_mul_le (Nat.pos_of_ne_zero (by simp))

/-- C76, full statement for single bytes: `write(int)` adds its byte to the payload. It is false
(`C76_full_false`). -/
def C76_full : Prop := ∀ {b : Nat}, 12 ≤ b ∧ b ≤ 30 → ∀ (ops : List BWriter.Op) {j0 j}, JWriter.new b = .ok j0 → j0.run ops = .ok j →
  ∀ c, Spec.strip b (j.writeByte c).out = Spec.payload ops ++ [c]

/-- C76, what holds: unless the byte is the last one before a marker, `write(int)` does what an array write of
one byte does. -/
theorem C76_byte_partial {b : Nat} (hb : 12 ≤ b ∧ b ≤ 30) (ops : List BWriter.Op) {j0 j} (h0 : JWriter.new b = .ok j0)
    (h : j0.run ops = .ok j) (hlast : ¬ 2 ^ b ∣ j.out.length + 1) (c : UInt8) : j.write [c] = .ok (j.writeByte c) := by
  obtain ⟨hi, ht⟩ := jinv hb ops h0 h
  have hl := hi.len; have hhi := hi.hi; have hbb := hi.hb
  simp only [JWriter.toB] at hl hhi hbb
  have h1 : j.written + 1 ≠ (j.seg + 1) * 2 ^ b := fun e => hlast (by rw [← hl, e]; exact Nat.dvd_mul_left _ _)
  have hB := pow_big hb.1
  have h2 : (j.seg + 1 + 1) * 2 ^ b = (j.seg + 1) * 2 ^ b + 2 ^ b := Nat.succ_mul _ _
  unfold JWriter.write JWriter.writeByte
  simp only [shiftRight_gt, hbb, JWriter.maxWrite, Nat.shiftLeft_eq, List.length_singleton]
  by_cases e : j.written = (j.seg + 1) * 2 ^ b
  · rw [if_pos (by omega)]
    have hz : (min (((j.seg + 1) * 2 ^ b : Nat) - (j.written : Int)) ((1 : Nat) : Int)) = 0 := by omega
    rw [hz]
    have hw : (⟨j.out ++ [], j.boundary, j.written + 0, j.lastsplit, j.seg⟩ : JWriter) = j := by simp
    simp only [JWriter.writeLoop, List.length_singleton, Int.toNat_zero, List.take_zero, List.drop_zero, Nat.lt_add_one,
      if_true, Int.lt_irrefl, if_false, hw, JWriter.maxWrite, Nat.shiftLeft_eq, gt_iff_lt]
    have hm : min ((((j.writeBoundary.seg + 1) * 2 ^ j.writeBoundary.boundary : Nat) : Int) - (j.writeBoundary.written : Int)) ((1 : Nat) : Int) = 1 := by
      simp only [JWriter.writeBoundary, hbb]; omega
    rw [hm]
    simp
  · rw [if_neg (by omega)]
    have hm : min ((((j.seg + 1) * 2 ^ b : Nat) : Int) - (j.written : Int)) ((1 : Nat) : Int) = 1 := by omega
    rw [hm]
    simp [JWriter.writeLoop]

/-- C76. The byte that is the last one before a marker is lost: what a reader finds in its place does not
depend on it. -/
theorem C76_byte_lost {b : Nat} (hb : 12 ≤ b ∧ b ≤ 30) (ops : List BWriter.Op) {j0 j} (h0 : JWriter.new b = .ok j0)
    (h : j0.run ops = .ok j) (hlast : 2 ^ b ∣ j.out.length + 1) :
    ∃ x, ∀ c, Spec.strip b (j.writeByte c).out = Spec.payload ops ++ [x] := by
  obtain ⟨hi, ht⟩ := jinv hb ops h0 h
  have hl := hi.len; have hhi := hi.hi; have hbb := hi.hb; have hpay := hi.pay; have hlo := hi.lo; have hpos := hi.pos
  simp only [JWriter.toB] at hl hhi hbb hpay hlo hpos
  have hB := pow_big hb.1
  have h2 : (j.seg + 1 + 1) * 2 ^ b = (j.seg + 1) * 2 ^ b + 2 ^ b := Nat.succ_mul _ _
  have h3 : (j.seg + 1) * 2 ^ b = j.seg * 2 ^ b + 2 ^ b := Nat.succ_mul _ _
  have hw : j.written + 1 = (j.seg + 1) * 2 ^ b := by
    rw [← hl] at hlast
    rcases Nat.lt_or_ge (j.written + 1) ((j.seg + 1) * 2 ^ b + 1) with g | g
    · exact aligned_in (by by_cases hk : j.seg = 0
                           · rw [hk]; omega
                           · have := hlo hk; omega) (by omega) hlast
    · have : j.written = (j.seg + 1) * 2 ^ b := by omega
      rw [this] at hlast
      have := (Nat.dvd_add_right (Nat.dvd_mul_left (2 ^ b) (j.seg + 1))).mp hlast
      exact absurd (Nat.le_of_dvd (by decide) this) (by omega)
  obtain ⟨d, hd⟩ : ∃ d, be 4 ((if (j.lastsplit : Int) - j.written < -0x80000000 then (-0x80000000 : Int) else (j.lastsplit : Int) - j.written) % 0x100000000).toNat = d := ⟨_, rfl⟩
  have hdl : d.length = 4 := by rw [← hd]; exact be_length _ _
  match d, hdl with
  | [x, y, z, u], _ =>
    refine ⟨x, fun c => ?_⟩
    have ho : (j.writeByte c).out = j.out ++ ([x] ++ [y, z, u, c]) := by
      unfold JWriter.writeByte
      rw [hbb, if_pos (shiftRight_gt.mpr (by omega))]
      simp only [JWriter.writeBoundary, hd]
      simp
    rw [ho, Spec.strip, stripFrom_append, stripFrom_append]
    rw [show Spec.stripFrom b 0 j.out = Spec.payload ops from hpay]
    congr 1
    rw [stripFrom_all, stripFrom_none]
    · rfl
    · intro q g1 g2
      simp only [List.length_cons, List.length_nil] at g1 g2
      exact isPay_marker hb.1 (k := j.seg + 1) (by omega) (by omega) (by omega)
    · intro q g1 g2
      simp only [List.length_cons, List.length_nil] at g1 g2
      exact isPay_in (k := j.seg) (by omega) (fun hk => by have := hlo hk; omega) (by omega)

/-- C76. The full statement is false. -/
theorem C76_full_false : ¬ C76_full := by
  intro hf
  obtain ⟨d, hd⟩ : ∃ d : Bytes, d.length = 4094 := ⟨List.replicate 4094 0, List.length_replicate⟩
  obtain ⟨j0, j, s0, s, h0, h1, g0, g1, e⟩ := C76_same_file (b := 12) (by omega) [.write d]
  obtain ⟨hi, ht⟩ := jinv (by omega) _ h0 h1
  have hl := hi.len; have hhi := hi.hi; have hcn := hi.cnt; have hlo := hi.lo
  simp only [JWriter.toB, Spec.payload, List.length_append, hd, List.length_nil] at hl hhi hcn hlo
  have hs : j.seg = 0 := by
    rcases Nat.eq_zero_or_pos j.seg with h | h
    · exact h
    · have := hlo (by omega); omega
  obtain ⟨x, hx⟩ := C76_byte_lost (by omega) _ h0 h1 (by rw [show j.out.length + 1 = 2 ^ 12 by omega]; exact Nat.dvd_refl _)
  have h5 := hx 0; have h6 := hx 1
  rw [hf (by omega) _ h0 h1] at h5 h6
  rw [← h6] at h5
  simp at h5

/-! ### the reader -/

/-- a file in which no marker is cut off -/
def Whole (b : Nat) (raw : Bytes) : Prop := ∀ k, k ≠ 0 → k * 2 ^ b < raw.length → k * 2 ^ b + 4 ≤ raw.length

/-- the reader agrees with its stream -/
structure JInv (b : Nat) (raw : Bytes) (r : JReader) : Prop where
  hraw : r.inp.raw = raw
  hpos : r.inp.pos = r.read
  hb : r.boundary = b
  one : 1 ≤ r.read
  lo : r.seg ≠ 0 → r.seg * 2 ^ b + 4 ≤ r.read
  hi : r.read ≤ (r.seg + 1) * 2 ^ b
  len : r.read ≤ raw.length

/-- the payload that has not been read -/
def JReader.rest (r : JReader) : Bytes := Spec.stripFrom r.boundary r.read (r.inp.raw.drop r.read)

theorem read1_lt {s : JStream} (h : s.pos < s.raw.length) : ∃ c, s.read1 = ({ s with pos := s.pos + 1 }, some c) := by
  refine ⟨s.raw[s.pos], ?_⟩
  unfold JStream.read1
  rw [List.getElem?_eq_getElem h]

theorem read1_end {s : JStream} (h : s.raw.length ≤ s.pos) : s.read1 = (s, none) := by
  unfold JStream.read1
  rw [List.getElem?_eq_none h]

theorem skipLoop_ok {s : JStream} (h : s.pos + 4 ≤ s.raw.length) : JReader.skipLoop 4 0 s = ({ s with pos := s.pos + 4 }, .ok true) := by
  obtain ⟨a, ha⟩ := read1_lt (s := s) (by omega)
  obtain ⟨b, hb⟩ := read1_lt (s := { s with pos := s.pos + 1 }) (by simp only; omega)
  obtain ⟨c, hc⟩ := read1_lt (s := { s with pos := s.pos + 1 + 1 }) (by simp only; omega)
  obtain ⟨d, hd⟩ := read1_lt (s := { s with pos := s.pos + 1 + 1 + 1 }) (by simp only; omega)
  simp only [JReader.skipLoop, ha, hb, hc, hd]

theorem atBoundary_ok {b : Nat} (hb : 12 ≤ b) {raw : Bytes} (hw : Whole b raw) {r : JReader} (h : JInv b raw r) :
    ∃ r', r.atBoundary = (r', none) ∧ JInv b raw r' ∧ r'.rest = r.rest ∧ r'.inp.endFirst = r.inp.endFirst ∧
      (r'.read < (r'.seg + 1) * 2 ^ b ∨ (r'.read = (r'.seg + 1) * 2 ^ b ∧ r'.read = raw.length)) := by
  have hB := pow_big hb
  have h1 := h.hraw; have h2 := h.hpos; have h3 := h.hb; have h4 := h.hi; have h5 := h.len
  unfold JReader.atBoundary
  rw [h3, Nat.shiftLeft_eq]
  by_cases e : r.read = (r.seg + 1) * 2 ^ b
  · rw [if_pos e]
    unfold JReader.skipBoundaryValue
    by_cases f : r.read = raw.length
    · have : JReader.skipLoop 4 0 r.inp = (r.inp, .ok false) := by
        simp only [JReader.skipLoop, read1_end (s := r.inp) (by rw [h1, h2]; omega), if_true]
      rw [this]
      exact ⟨r, rfl, h, rfl, rfl, .inr ⟨e, f⟩⟩
    · have hl := hw (r.seg + 1) (by omega) (by omega)
      rw [skipLoop_ok (by rw [h1, h2]; omega)]
      have h6 : (r.seg + 1 + 1) * 2 ^ b = (r.seg + 1) * 2 ^ b + 2 ^ b := Nat.succ_mul _ _
      refine ⟨_, rfl, ⟨h1, by simp only; omega, h3, by simp only; omega, fun _ => by simp only; omega, by simp only; omega, by simp only; omega⟩, ?_, rfl, .inl (by simp only; omega)⟩
      simp only [JReader.rest, h1, h3]
      rw [← List.take_append_drop 4 (raw.drop r.read), stripFrom_append, List.drop_drop]
      rw [stripFrom_none (x := (raw.drop r.read).take 4), List.nil_append]
      · congr 1
        simp only [List.length_take, List.length_drop]; omega
      · intro q g1 g2
        simp only [List.length_take, List.length_drop] at g2
        exact isPay_marker hb (k := r.seg + 1) (by omega) (by omega) (by omega)
  · rw [if_neg e]
    exact ⟨r, rfl, h, rfl, rfl, .inl (by omega)⟩

theorem rest_take {b : Nat} {raw : Bytes} {r : JReader} (h : JInv b raw r) {n : Nat} (hn : r.read + n ≤ (r.seg + 1) * 2 ^ b)
    (hl : r.read + n ≤ raw.length) : r.rest = (raw.drop r.read).take n ++ Spec.stripFrom b (r.read + n) (raw.drop (r.read + n)) := by
  have h1 := h.hraw; have h3 := h.hb; have h4 := h.one
  have hx : r.rest = Spec.stripFrom b r.read ((raw.drop r.read).take n ++ raw.drop (r.read + n)) := by
    simp only [JReader.rest, h1, h3]
    rw [← List.drop_drop, List.take_append_drop]
  rw [hx, stripFrom_append, stripFrom_all (x := (raw.drop r.read).take n)]
  · simp only [List.length_take, List.length_drop]
    rw [show min n (raw.length - r.read) = n by omega]
  · intro q g1 g2
    simp only [List.length_take, List.length_drop] at g2
    exact isPay_in (k := r.seg) (by omega) (fun hk => by have := h.lo hk; omega) (by omega)

theorem rest_end {b : Nat} {raw : Bytes} {r : JReader} (h : JInv b raw r) (hl : r.read = raw.length) : r.rest = [] := by
  simp only [JReader.rest, h.hraw, hl, List.drop_length, Spec.stripFrom]

theorem readOne_ok {b : Nat} (hb : 12 ≤ b) {raw : Bytes} (hw : Whole b raw) {r : JReader} (h : JInv b raw r) :
    ∃ r', r.readOne = (r', .ok r.rest.head?) ∧ JInv b raw r' ∧ r'.rest = r.rest.drop 1 ∧ r'.inp.endFirst = r.inp.endFirst := by
  obtain ⟨r1, g1, g2, g3, g4, g5⟩ := atBoundary_ok hb hw h
  have h1 := g2.hraw; have h2 := g2.hpos; have h5 := g2.len; have h6 := g2.one; have h7 := g2.lo
  unfold JReader.readOne
  rw [g1, ← g3]
  simp only
  by_cases e : r1.read = raw.length
  · rw [read1_end (s := r1.inp) (by rw [h1, h2]; omega)]
    have hr := rest_end g2 e
    exact ⟨r1, by rw [hr]; rfl, g2, by rw [hr]; rfl, g4⟩
  · have hlt : r1.read < raw.length := by omega
    have hr := rest_take g2 (n := 1) (by omega) (by omega)
    have hd : (raw.drop r1.read).take 1 = [raw[r1.read]] := by
      rw [List.drop_eq_getElem_cons hlt, List.take_succ_cons, List.take_zero]
    rw [hd] at hr
    have hrd : r1.inp.read1 = ({ r1.inp with pos := r1.inp.pos + 1 }, some raw[r1.read]) := by
      unfold JStream.read1
      simp only [h1, h2]
      rw [List.getElem?_eq_getElem hlt]
    rw [hrd]
    refine ⟨{ r1 with inp := { r1.inp with pos := r1.inp.pos + 1 }, read := r1.read + 1 }, by rw [hr]; rfl, ⟨h1, by simp only; omega, g2.hb, by simp only; omega, fun hk => ?_, by simp only; omega, by simp only; omega⟩, ?_, g4⟩
    · have := h7 hk; simp only; omega
    · rw [hr]
      simp only [JReader.rest, h1, g2.hb, List.singleton_append, List.drop_succ_cons, List.drop_zero]

/-- the stream answers -1 at its end, or it does not end where a marker would begin -/
def Ends (b : Nat) (raw : Bytes) (r : JReader) : Prop := r.inp.endFirst = true ∨ ¬ 2 ^ b ∣ raw.length

theorem readN_ok {b : Nat} {raw : Bytes} {r : JReader} (h : JInv b raw r) {m : Nat} (hm : m ≠ 0)
    (hl : r.read < raw.length) : ∃ n s, 0 < n ∧ n ≤ m ∧ r.read + n ≤ raw.length ∧ r.inp.readN m = (s, some ((raw.drop r.read).take n)) ∧
      s.raw = raw ∧ s.pos = r.read + n ∧ s.endFirst = r.inp.endFirst := by
  have h1 := h.hraw; have h2 := h.hpos
  have hlim : 0 < r.inp.limit m ∧ r.inp.limit m ≤ m := by
    unfold JStream.limit; split <;> omega
  refine ⟨min (r.inp.limit m) (raw.length - r.read), { r.inp with pos := r.read + min (r.inp.limit m) (raw.length - r.read), chunks := r.inp.chunks.tail },
    by omega, by omega, by omega, ?_, h1, rfl, rfl⟩
  unfold JStream.readN
  rw [h1, h2, if_neg (by omega), if_neg hm]
  simp only [List.length_take, List.length_drop]
  rw [← List.length_drop, ← List.take_eq_take_min]
  simp only [h1]

theorem readLoop_ok {b : Nat} (hb : 12 ≤ b) {raw : Bytes} (hw : Whole b raw) : ∀ (fuel : Nat) {r : JReader} {got : Bytes} {left : Nat},
    JInv b raw r → Ends b raw r → left < fuel →
    ∃ r', JReader.readLoop fuel r got left = (r', .ok (if left ≠ 0 ∧ got ++ r.rest = [] then none else some (got ++ r.rest.take left))) ∧
      JInv b raw r' ∧ r'.rest = r.rest.drop left ∧ Ends b raw r' := by
  intro fuel
  induction fuel with
  | zero => intro r got left _ _ h; omega
  | succ fuel ih =>
    intro r got left h he hf
    rw [JReader.readLoop]
    by_cases hz : left = 0
    · subst hz
      rw [if_neg (by omega), if_neg (by omega)]
      exact ⟨r, by simp, h, by simp, he⟩
    · rw [if_pos (by omega)]
      obtain ⟨r1, g1, g2, g3, g4, g5⟩ := atBoundary_ok hb hw h
      have he1 : Ends b raw r1 := by unfold Ends at he ⊢; rw [g4]; exact he
      have h1 := g2.hraw; have h2 := g2.hpos; have h5 := g2.len; have h6 := g2.one; have h7 := g2.lo
      rw [g1, ← g3]
      have hsh : (r1.seg + 1) <<< r1.boundary = (r1.seg + 1) * 2 ^ b := by rw [g2.hb, Nat.shiftLeft_eq]
      simp only [hsh]
      rw [if_neg (by omega)]
      by_cases e : r1.read = raw.length
      · have hr := rest_end g2 e
        have hN : r1.inp.readN (min (left : Int) (((r1.seg + 1) * 2 ^ b : Nat) - (r1.read : Int))).toNat = (r1.inp, none) := by
          unfold JStream.readN
          rw [if_pos (by rw [h1, h2]; omega), if_neg]
          rintro ⟨k1, k2⟩
          rcases he1 with k3 | k3
          · rw [k2] at k3; cases k3
          · rcases g5 with k4 | ⟨k4, k5⟩
            · omega
            · exact k3 (by rw [← k5, k4]; exact Nat.dvd_mul_left _ _)
        rw [hN, hr]
        refine ⟨r1, ?_, g2, by rw [hr]; simp, he1⟩
        simp only [List.append_nil, List.take_nil]
        by_cases hg : got = []
        · rw [if_neg (by simp [hg]), if_pos ⟨hz, hg⟩]
        · rw [if_pos hg, if_neg (by simp [hg])]
      · have hlt : r1.read < raw.length := by omega
        have hlt2 : r1.read < (r1.seg + 1) * 2 ^ b := by omega
        obtain ⟨n, s, k1, k2, k3, k4, k5, k6, k7⟩ := readN_ok g2 (m := (min (left : Int) (((r1.seg + 1) * 2 ^ b : Nat) - (r1.read : Int))).toNat) (by omega) hlt
        rw [k4]
        have hr := rest_take g2 (n := n) (by omega) k3
        have hxl : ((raw.drop r1.read).take n).length = n := by
          rw [List.length_take, List.length_drop]; omega
        generalize (raw.drop r1.read).take n = x at hr hxl ⊢
        have hinv : JInv b raw { r1 with inp := s, read := r1.read + x.length } :=
          ⟨k5, by simp only; omega, g2.hb, by simp only; omega, fun hk => by have := h7 hk; simp only; omega, by simp only; omega, by simp only; omega⟩
        have hends : Ends b raw { r1 with inp := s, read := r1.read + x.length } := by
          unfold Ends at he1 ⊢; simp only [k7]; exact he1
        obtain ⟨r2, m1, m2, m3, m4⟩ := ih (got := got ++ x) (left := left - x.length) hinv hends (by omega)
        have hrest : ({ r1 with inp := s, read := r1.read + x.length } : JReader).rest = r1.rest.drop x.length := by
          rw [hr, List.drop_left]
          simp only [JReader.rest, k5, g2.hb, hxl]
        rw [hrest] at m1 m3
        have hx : x ≠ [] := by intro hx; rw [hx] at hxl; simp at hxl; omega
        refine ⟨r2, ?_, m2, ?_, m4⟩
        · simp only [m1]
          have hrx : r1.rest = x ++ r1.rest.drop x.length := by rw [hr, List.drop_left]
          have c1 : ¬ (left - x.length ≠ 0 ∧ got ++ x ++ r1.rest.drop x.length = []) := by
            rintro ⟨-, c⟩; exact hx (List.append_eq_nil_iff.mp (List.append_eq_nil_iff.mp c).1).2
          have c2 : ¬ (left ≠ 0 ∧ got ++ r1.rest = []) := by
            rintro ⟨-, c⟩; rw [hrx] at c; exact hx (List.append_eq_nil_iff.mp (List.append_eq_nil_iff.mp c).2).1
          rw [if_neg c1, if_neg c2]
          have hle : x.length ≤ left := by omega
          generalize r1.rest.drop x.length = y at hrx
          rw [hrx, List.take_append, List.take_of_length_le hle, List.append_assoc]
        · rw [m3, List.drop_drop]; congr 1; omega

theorem call_ok {b : Nat} (hb : 12 ≤ b) {raw : Bytes} (hw : Whole b raw) (cs : List JReader.Call) : ∀ {r : JReader},
    JInv b raw r → Ends b raw r → r.calls cs = (Spec.inputCalls r.rest cs).map .ok := by
  induction cs with
  | nil => intro r _ _; rfl
  | cons c cs ih =>
    intro r h he
    cases c with
    | one =>
      obtain ⟨r1, g1, g2, g3, g4⟩ := readOne_ok hb hw h
      have he1 : Ends b raw r1 := by unfold Ends at he ⊢; rw [g4]; exact he
      simp only [JReader.calls, JReader.call, g1, Spec.inputCalls, List.map_cons]
      rw [← g3]
      cases hr : r.rest with
      | nil => simp only [List.head?_nil]; rw [ih g2 he1]
      | cons x xs => simp only [List.head?_cons]; rw [ih g2 he1]
    | arr n =>
      obtain ⟨r1, g1, g2, g3, g4⟩ := readLoop_ok hb hw (n + 1) (got := []) (left := n) h he (by omega)
      simp only [JReader.calls, JReader.call, JReader.readArr, g1, Spec.inputCalls, List.map_cons, List.nil_append]
      rw [← g3, ih g2 g4]

theorem jopen {b : Nat} (hb : 12 ≤ b ∧ b ≤ 30) (ops : List BWriter.Op) {s0 s} (h0 : BWriter.new b = .ok s0) (h : s0.run ops = .ok s)
    (chunks : List Nat) (ef : Bool) :
    ∃ r, JReader.new ⟨s.out, 0, chunks, ef⟩ = .ok r ∧ JInv b s.out r ∧ r.rest = Spec.payload ops ∧ r.inp.endFirst = ef ∧ Whole b s.out := by
  obtain ⟨t0, k0, hi, ht, -⟩ := new_ok hb
  rw [h0] at k0; cases k0
  obtain ⟨t, k1, h2, h3, -⟩ := run_ok ops hi ht
  rw [h] at k1; cases k1
  rw [List.nil_append] at h2
  have hf := h2.first; have hl := h2.len; have hp := h2.pos; have hpay := h2.pay; have hhi := h2.hi
  have hB := pow_big hb.1
  have hlen : 1 ≤ s.out.length := by omega
  have hbn : (UInt8.ofNat b).toNat = b := by
    rw [UInt8.toNat_ofNat']; omega
  have hnew : JReader.new ⟨s.out, 0, chunks, ef⟩ = .ok ⟨⟨s.out, 1, chunks, ef⟩, 0, b, 1⟩ := by
    unfold JReader.new JStream.read1
    simp only [hf, hbn]
    rw [if_neg (by omega)]
  refine ⟨_, hnew, ⟨rfl, rfl, rfl, by simp, by simp, by simp; omega, hlen⟩, ?_, rfl, ?_⟩
  · rw [← hpay]
    simp only [JReader.rest, Spec.strip]
    match hs : s.out, hlen with
    | x :: xs, _ =>
      simp only [List.drop_succ_cons, List.drop_zero, Spec.stripFrom]
      rw [if_neg (by simp [Spec.isPay])]
  · intro k hk hlt
    have hk2 : k ≤ s.seg := by
      rcases Nat.lt_or_ge s.seg k with c | c
      · have : (s.seg + 1) * 2 ^ b ≤ k * 2 ^ b := Nat.mul_le_mul_right _ c
        omega
      · exact c
    have h4 : s.seg * 2 ^ b + 4 ≤ s.written := h2.lo (by omega)
    have : k * 2 ^ b ≤ s.seg * 2 ^ b := Nat.mul_le_mul_right _ hk2
    omega

/-- C77, full statement: a BoundaryReader over a file that either writer made is an InputStream over the
payload, however the file's own stream cuts its reads. It is false (`C77_full_false`). -/
def C77_full : Prop := ∀ {b : Nat}, 12 ≤ b ∧ b ≤ 30 → ∀ (ops : List BWriter.Op) {s0 s}, BWriter.new b = .ok s0 → s0.run ops = .ok s →
  ∀ (chunks : List Nat) (endFirst : Bool) (cs : List JReader.Call),
    ∃ r, JReader.new ⟨s.out, 0, chunks, endFirst⟩ = .ok r ∧ r.calls cs = (Spec.inputCalls (Spec.payload ops) cs).map .ok

/-- C77, what holds: it is, when the stream answers -1 to every read at its end, or the file does not end
exactly where a marker would begin. -/
theorem C77_reads_partial {b : Nat} (hb : 12 ≤ b ∧ b ≤ 30) (ops : List BWriter.Op) {s0 s} (h0 : BWriter.new b = .ok s0) (h : s0.run ops = .ok s)
    (chunks : List Nat) (endFirst : Bool) (hend : endFirst = true ∨ ¬ 2 ^ b ∣ s.out.length) (cs : List JReader.Call) :
    ∃ r, JReader.new ⟨s.out, 0, chunks, endFirst⟩ = .ok r ∧ r.calls cs = (Spec.inputCalls (Spec.payload ops) cs).map .ok := by
  obtain ⟨r, g1, g2, g3, g4, g5⟩ := jopen hb ops h0 h chunks endFirst
  refine ⟨r, g1, ?_⟩
  rw [← g3]
  exact call_ok hb.1 g5 cs g2 (by unfold Ends; rw [g4]; exact hend)

theorem readLoop_hangs {b : Nat} (hb : 12 ≤ b) {raw : Bytes} (hw : Whole b raw) (hd : 2 ^ b ∣ raw.length) : ∀ (fuel : Nat) {r : JReader} {got : Bytes} {left : Nat},
    JInv b raw r → r.inp.endFirst = false → r.rest.length < left → (JReader.readLoop fuel r got left).2 = .error .unmodelled := by
  intro fuel
  induction fuel with
  | zero => intro r got left _ _ _; rfl
  | succ fuel ih =>
    intro r got left h he hf
    rw [JReader.readLoop, if_pos (by omega)]
    obtain ⟨r1, g1, g2, g3, g4, g5⟩ := atBoundary_ok hb hw h
    have h1 := g2.hraw; have h2 := g2.hpos; have h5 := g2.len; have h6 := g2.one; have h7 := g2.lo; have h8 := g2.hi
    rw [← g3] at hf
    rw [g1]
    have hsh : (r1.seg + 1) <<< r1.boundary = (r1.seg + 1) * 2 ^ b := by rw [g2.hb, Nat.shiftLeft_eq]
    simp only [hsh]
    rw [if_neg (by omega)]
    by_cases e : r1.read = raw.length
    · have hal : r1.read = (r1.seg + 1) * 2 ^ b := by
        refine aligned_in ?_ h8 (by rw [e]; exact hd)
        by_cases hk : r1.seg = 0
        · rw [hk]; omega
        · have := h7 hk; omega
      have hN : r1.inp.readN (min (left : Int) (((r1.seg + 1) * 2 ^ b : Nat) - (r1.read : Int))).toNat = (r1.inp, some []) := by
        unfold JStream.readN
        rw [if_pos (by rw [h1, h2]; omega), if_pos ⟨by omega, by rw [g4]; exact he⟩]
      rw [hN]
      exact ih (got := got ++ []) g2 (by rw [g4]; exact he) (by simp only [List.length_nil]; exact hf)
    · have hlt : r1.read < raw.length := by omega
      obtain ⟨n, s, k1, k2, k3, k4, k5, k6, k7⟩ := readN_ok g2 (m := (min (left : Int) (((r1.seg + 1) * 2 ^ b : Nat) - (r1.read : Int))).toNat) (by omega) hlt
      rw [k4]
      have hr := rest_take g2 (n := n) (by omega) k3
      have hxl : ((raw.drop r1.read).take n).length = n := by
        rw [List.length_take, List.length_drop]; omega
      generalize (raw.drop r1.read).take n = x at hr hxl ⊢
      have hinv : JInv b raw { r1 with inp := s, read := r1.read + x.length } :=
        ⟨k5, by simp only; omega, g2.hb, by simp only; omega, fun hk => by have := h7 hk; simp only; omega, by simp only; omega, by simp only; omega⟩
      refine ih hinv (by simp only [k7, g4]; exact he) ?_
      have hrest : ({ r1 with inp := s, read := r1.read + x.length } : JReader).rest = Spec.stripFrom b (r1.read + n) (raw.drop (r1.read + n)) := by
        simp only [JReader.rest, k5, g2.hb, hxl]
      rw [hrest]
      rw [hr, List.length_append] at hf
      omega

/-- C77. A file that ends exactly where a marker would begin, over a stream that answers 0 to a read of no
bytes (as the contract of InputStream says): whoever asks for more than there is never gets an answer, the
loop goes on for ever. -/
theorem C77_hangs {b : Nat} (hb : 12 ≤ b ∧ b ≤ 30) (ops : List BWriter.Op) {s0 s} (h0 : BWriter.new b = .ok s0) (h : s0.run ops = .ok s)
    (chunks : List Nat) (hd : 2 ^ b ∣ s.out.length) {n : Nat} (hn : (Spec.payload ops).length < n) :
    ∃ r, JReader.new ⟨s.out, 0, chunks, false⟩ = .ok r ∧ ∀ fuel, (JReader.readLoop fuel r [] n).2 = .error .unmodelled := by
  obtain ⟨r, g1, g2, g3, g4, g5⟩ := jopen hb ops h0 h chunks false
  exact ⟨r, g1, fun fuel => readLoop_hangs hb.1 g5 hd fuel g2 g4 (by rw [g3]; exact hn)⟩

theorem full_segment : ∃ (d : Bytes) (s0 s : BWriter), d.length = 4095 ∧ BWriter.new 12 = .ok s0 ∧ s0.run [.write d] = .ok s ∧ s.out.length = 2 ^ 12 := by
  obtain ⟨d, hd⟩ : ∃ d : Bytes, d.length = 4095 := ⟨List.replicate 4095 0, List.length_replicate⟩
  obtain ⟨s0, h0, hi, ht, -⟩ := new_ok (b := 12) (by omega)
  obtain ⟨s, h1, h2, h3, -⟩ := run_ok [.write d] hi ht
  have hl := h2.len; have hhi := h2.hi; have hcn := h2.cnt; have hlo := h2.lo
  simp only [Spec.payload, List.length_append, hd, List.length_nil] at hcn
  have hs : s.seg = 0 := by
    rcases Nat.eq_zero_or_pos s.seg with h | h
    · exact h
    · have := h3 (by omega); omega
  exact ⟨d, s0, s, hd, h0, h1, by omega⟩

/-- C77. The full statement is false. -/
theorem C77_full_false : ¬ C77_full := by
  intro hf
  obtain ⟨d, s0, s, hd, h0, h1, hl⟩ := full_segment
  obtain ⟨r, g1, g2⟩ := C77_hangs (by omega) _ h0 h1 [] (by rw [hl]; exact Nat.dvd_refl _) (n := 4096) (by simp only [Spec.payload, List.length_append, List.length_nil]; omega)
  obtain ⟨r', g3, g4⟩ := hf (by omega) _ h0 h1 [] false [.arr 4096]
  rw [g1] at g3; cases g3
  simp only [JReader.calls, JReader.call, JReader.readArr, g2, Spec.inputCalls, List.map_cons] at g4
  cases g4

/-! ### lengths -/

theorem cnt_edge {b p : Nat} (hb : 12 ≤ b) (h : Spec.Edge b p) :
    (cnt b p : Int) = p - 4 * (p / 2 ^ b : Nat) - 1 + (if p = (p >>> b) <<< b then 4 else 0) := by
  obtain ⟨h0, h | h⟩ := h
  · have h1 := cnt_pay hb h
    rw [if_neg (fun e => pay_not_aligned hb h ((aligned_iff b p).mp e.symm))]
    omega
  · obtain ⟨k, rfl⟩ := h
    rw [if_pos ((aligned_iff b _).mpr (Nat.dvd_mul_right _ _)).symm]
    have hk : k ≠ 0 := by rintro rfl; exact h0 (Nat.mul_zero _)
    have h1 := cnt_aligned hb k hk
    rw [Nat.mul_comm (2 ^ b) k, Nat.mul_div_cancel _ (Nat.pos_of_ne_zero (by simp))]
    omega

/-- C78. Between two positions that are neither the first byte nor inside a marker, `computeLength` is the
number of payload bytes. -/
theorem C78_length_partial {b : Nat} (hb : 12 ≤ b) {start : Nat} (x : Bytes) (h1 : Spec.Edge b start) (h2 : Spec.Edge b (start + x.length)) :
    computeLength b start (start + x.length) = (Spec.stripFrom b start x).length := by
  have h3 := stripFrom_length b x start
  have h4 := cnt_edge hb h1
  have h5 := cnt_edge hb h2
  unfold computeLength
  simp only [Nat.shiftRight_eq_div_pow] at h4 h5 ⊢
  generalize start / 2 ^ b = p at *
  generalize (start + x.length) / 2 ^ b = q at *
  generalize p <<< b = u at *
  generalize q <<< b = v at *
  generalize (Spec.stripFrom b start x).length = l at *
  by_cases c1 : start = u
  · by_cases c2 : start + x.length = v
    · rw [if_pos c1] at h4 ⊢; rw [if_pos c2] at h5 ⊢; omega
    · rw [if_pos c1] at h4 ⊢; rw [if_neg c2] at h5 ⊢; omega
  · by_cases c2 : start + x.length = v
    · rw [if_neg c1] at h4 ⊢; rw [if_pos c2] at h5 ⊢; omega
    · rw [if_neg c1] at h4 ⊢; rw [if_neg c2] at h5 ⊢; omega

/-- C78, full statement: between any two positions. It is false (`C78_full_false`). -/
def C78_full : Prop := ∀ {b : Nat}, 12 ≤ b → ∀ (start : Nat) (x : Bytes),
  computeLength b start (start + x.length) = (Spec.stripFrom b start x).length

/-- C78. From the beginning of the file three bytes too few are counted. -/
theorem C78_from_zero {b : Nat} (hb : 12 ≤ b) (x : Bytes) (h : Spec.Edge b x.length) :
    computeLength b 0 x.length + 3 = (Spec.strip b x).length := by
  have h3 := strip_length b x
  have h5 := cnt_edge hb h
  unfold computeLength
  simp only [Nat.shiftRight_eq_div_pow, Nat.zero_div, Nat.zero_shiftLeft, if_true] at h5 ⊢
  generalize x.length / 2 ^ b = q at *
  generalize q <<< b = v at *
  by_cases c2 : x.length = v
  · rw [if_pos c2] at h5 ⊢; omega
  · rw [if_neg c2] at h5 ⊢; omega

/-- C78. The full statement is false. -/
theorem C78_full_false : ¬ C78_full := by
  intro hf
  have h1 := C78_from_zero (b := 12) (by omega) [12, 0] ⟨by decide, .inl (by decide)⟩
  have h2 := hf (b := 12) (by omega) 0 [12, 0]
  rw [Nat.zero_add] at h2
  rw [h2] at h1
  simp only [Spec.strip] at h1
  omega

/-! ### skipping -/

/-- C77, for `skip`, full statement: after `skip` has answered `k`, the reader stands `k` bytes further in the
payload. It is false (`C77_skip_full_false`). -/
def C77_skip_full : Prop := ∀ {b : Nat}, 12 ≤ b ∧ b ≤ 30 → ∀ (ops : List BWriter.Op) {s0 s}, BWriter.new b = .ok s0 → s0.run ops = .ok s →
  ∀ {r : JReader}, JReader.new ⟨s.out, 0, [], true⟩ = .ok r → ∀ {n k : Nat} {r' : JReader}, r.skip n = (r', .ok k) →
  ∀ cs, r'.calls cs = (Spec.inputCalls ((Spec.payload ops).drop k) cs).map .ok

/-- C77. What `skip` forgets: the stream moves on and the position in the file is not counted, so the reader
no longer agrees with its stream. -/
theorem C77_skip_uncounted {b : Nat} (hb : 12 ≤ b ∧ b ≤ 30) (ops : List BWriter.Op) {s0 s} (h0 : BWriter.new b = .ok s0) (h : s0.run ops = .ok s)
    {r : JReader} (hr : JReader.new ⟨s.out, 0, [], true⟩ = .ok r) {n : Nat} (hn : 0 < n) (hp : Spec.payload ops ≠ []) :
    ∃ r' k, r.skip n = (r', .ok k) ∧ 0 < k ∧ r'.read = r.read ∧ r'.inp.pos = r.inp.pos + k := by
  obtain ⟨r1, g1, g2, g3, -, g5⟩ := jopen hb ops h0 h [] true
  rw [hr] at g1; cases g1
  obtain ⟨r2, k1, k2, k3, -, k5⟩ := atBoundary_ok hb.1 g5 g2
  have hB := pow_big hb.1
  have hnew : r.read = 1 ∧ r.seg = 0 := by
    unfold JReader.new at hr
    split at hr
    · cases hr
    · split at hr
      · cases hr
      · cases hr; exact ⟨rfl, rfl⟩
  have hsame : r2 = r := by
    unfold JReader.atBoundary at k1
    rw [g2.hb, hnew.1, hnew.2, Nat.shiftLeft_eq, if_neg (by omega)] at k1
    cases k1; rfl
  subst hsame
  have hlt : r2.read < s.out.length := by
    have := k2.len
    rcases Nat.lt_or_ge r2.read s.out.length with c | c
    · exact c
    · exact absurd (g3 ▸ rest_end k2 (by omega)) hp
  have h1 := k2.hraw; have h2 := k2.hpos; have h3 := k2.hb
  have hk : r2.skip n = ({ r2 with inp := { r2.inp with pos := r2.inp.pos + min (min n ((r2.seg + 1) <<< r2.boundary - r2.read)) (r2.inp.raw.length - r2.inp.pos) } },
      .ok (min (min n ((r2.seg + 1) <<< r2.boundary - r2.read)) (r2.inp.raw.length - r2.inp.pos))) := by
    unfold JReader.skip; rw [k1]
  refine ⟨_, _, hk, ?_, rfl, rfl⟩
  rw [h1, h2, h3, Nat.shiftLeft_eq]
  omega

namespace Ex

/-- the last byte of what a reader gets that skips one byte of the file of 4096 zeros and reads 4095 -/
def afterSkip : Option UInt8 :=
  match BWriter.new 12 with
  | .error _ => none
  | .ok s0 =>
    match s0.run [.write (List.replicate 4096 0)] with
    | .error _ => none
    | .ok s =>
      match JReader.new ⟨s.out, 0, [], true⟩ with
      | .error _ => none
      | .ok r =>
        match (r.skip 1).1.calls [.arr 4095] with
        | [.ok (some x)] => x.getLast?
        | _ => none

theorem afterSkip_marker : afterSkip = some 0xff := by decide +kernel

end Ex

/-- C77. The full statement for `skip` is false: a byte of a marker is taken for payload. -/
theorem C77_skip_full_false : ¬ C77_skip_full := by
  intro hf
  obtain ⟨z, hz⟩ : ∃ z : Bytes, z = List.replicate 4096 0 := ⟨_, rfl⟩
  have hm := Ex.afterSkip_marker
  unfold Ex.afterSkip at hm
  rw [← hz] at hm
  split at hm
  · cases hm
  · rename_i s0 h0
    split at hm
    · cases hm
    · rename_i s h1
      split at hm
      · cases hm
      · rename_i r hr
        obtain ⟨r', k, g1, g2, g3, g4⟩ := C77_skip_uncounted (by omega) _ h0 h1 hr (n := 1) (by omega) (by
          simp only [Spec.payload, List.append_nil]; rw [hz]; intro e; have := congrArg List.length e; rw [List.length_replicate] at this; cases this)
        have g5 := hf (by omega) _ h0 h1 hr g1 [.arr 4095]
        rw [g1] at hm
        rw [g5] at hm
        simp only [Spec.inputCalls, Spec.payload, List.append_nil, List.map_cons, List.map_nil] at hm
        split at hm
        · rename_i x hx
          rw [hz] at hx
          split at hx
          · cases hx
          · simp only [List.cons.injEq, Except.ok.injEq, Option.some.injEq, and_true] at hx
            subst hx
            have := List.mem_of_getLast? hm
            have := List.mem_of_mem_drop (List.mem_of_mem_take this)
            have := (List.mem_replicate.mp this).2
            cases this
        · cases hm

/-! ### available -/

theorem after_ok {b : Nat} (hb : 12 ≤ b) {raw : Bytes} (hw : Whole b raw) (cs : List JReader.Call) : ∀ {r : JReader},
    JInv b raw r → Ends b raw r → JInv b raw (r.after cs) ∧ (r.after cs).rest = Spec.inputRest r.rest cs := by
  induction cs with
  | nil => intro r h _; exact ⟨h, rfl⟩
  | cons c cs ih =>
    intro r h he
    cases c with
    | one =>
      obtain ⟨r1, g1, g2, g3, g4⟩ := readOne_ok hb hw h
      have he1 : Ends b raw r1 := by unfold Ends at he ⊢; rw [g4]; exact he
      have hc : (r.call .one).1 = r1 := by
        simp only [JReader.call, g1]
        cases r.rest.head? <;> rfl
      simp only [JReader.after, hc, Spec.inputRest]
      rw [← g3]; exact ih g2 he1
    | arr n =>
      obtain ⟨r1, g1, g2, g3, g4⟩ := readLoop_ok hb hw (n + 1) (got := []) (left := n) h he (by omega)
      simp only [JReader.after, JReader.call, JReader.readArr, g1, Spec.inputRest]
      rw [← g3]; exact ih g2 g4

/-- C77. Unless the next thing in the file is a marker, `available` never promises more than is left of the
payload, and promises something as long as anything is left. -/
theorem C77_available_partial {b : Nat} (hb : 12 ≤ b ∧ b ≤ 30) (ops : List BWriter.Op) {s0 s} (h0 : BWriter.new b = .ok s0) (h : s0.run ops = .ok s)
    (chunks : List Nat) (cs : List JReader.Call) {r : JReader} (hr : JReader.new ⟨s.out, 0, chunks, true⟩ = .ok r)
    (hm : ¬ 2 ^ b ∣ (r.after cs).inp.pos) :
    (r.after cs).available ≤ (Spec.inputRest (Spec.payload ops) cs).length ∧
      (Spec.inputRest (Spec.payload ops) cs ≠ [] → 0 < (r.after cs).available) := by
  obtain ⟨r1, g1, g2, g3, g4, g5⟩ := jopen hb ops h0 h chunks true
  rw [hr] at g1; cases g1
  obtain ⟨k1, k2⟩ := after_ok hb.1 g5 cs g2 (.inl g4)
  rw [← g3, ← k2]
  generalize r.after cs = q at *
  have h1 := k1.hraw; have h2 := k1.hpos; have h3 := k1.hb; have h4 := k1.hi; have h5 := k1.len
  have h6 : q.read ≠ (q.seg + 1) * 2 ^ b := fun e => hm (by rw [h2, e]; exact Nat.dvd_mul_left _ _)
  have hav : q.available = min s.out.length ((q.seg + 1) * 2 ^ b) - q.read := by
    unfold JReader.available
    rw [h3, Nat.shiftLeft_eq]
    simp only
    rw [if_neg h6, h1, h2]
    omega
  rw [hav]
  refine ⟨?_, fun hne => ?_⟩
  · rw [rest_take k1 (n := min s.out.length ((q.seg + 1) * 2 ^ b) - q.read) (by omega) (by omega), List.length_append, List.length_take, List.length_drop]
    omega
  · have : q.read ≠ s.out.length := fun e => hne (rest_end k1 e)
    omega

/-- payload from a marker on -/
theorem strip_marker {b : Nat} (hb : 12 ≤ b) (m : Nat) (x : Bytes) (h : x.length ≤ 2 ^ b) : (Spec.stripFrom b ((m + 1) * 2 ^ b) x).length = x.length - 4 := by
  have hp : 2 ^ 12 ≤ 2 ^ b := Nat.pow_le_pow_right (by omega) hb
  have hlo : 2 ^ b ≤ (m + 1) * 2 ^ b := by rw [Nat.add_mul]; omega
  have e : x = x.take 4 ++ x.drop 4 := (List.take_append_drop 4 x).symm
  have hmod : ∀ q, (m + 1) * 2 ^ b ≤ q → q < (m + 1) * 2 ^ b + 2 ^ b → q % 2 ^ b = q - (m + 1) * 2 ^ b := by
    intro q h1 h2
    have : q = (q - (m + 1) * 2 ^ b) + (m + 1) * 2 ^ b := by omega
    rw [this, Nat.add_mul_mod_self_right, Nat.mod_eq_of_lt (by omega)]
    omega
  have e1 : Spec.stripFrom b ((m + 1) * 2 ^ b) (x.take 4) = [] := stripFrom_none (fun q h1 h2 => by
    rw [List.length_take] at h2
    have := hmod q h1 (by omega)
    simp only [Spec.isPay, decide_eq_false_iff_not]
    omega)
  have e2 : Spec.stripFrom b ((m + 1) * 2 ^ b + (x.take 4).length) (x.drop 4) = x.drop 4 := stripFrom_all (fun q h1 h2 => by
    rw [List.length_take] at h1 h2
    rw [List.length_drop] at h2
    have := hmod q (by omega) (by omega)
    simp only [Spec.isPay, decide_eq_true_eq]
    omega)
  have := congrArg (fun x => (Spec.stripFrom b ((m + 1) * 2 ^ b) x).length) e
  simp only [stripFrom_append, e1, e2, List.nil_append, List.length_drop] at this
  exact this

/-- payload and later markers -/
theorem strip_markers {b : Nat} (hb : 12 ≤ b) : ∀ (n m : Nat) (x : Bytes), x.length ≤ n → x.length - 4 ≤ (Spec.stripFrom b ((m + 1) * 2 ^ b) x).length + 4 * (x.length / 2 ^ b) ∧
    (Spec.stripFrom b ((m + 1) * 2 ^ b) x).length ≤ x.length - 4 := by
  have hp : 2 ^ 12 ≤ 2 ^ b := Nat.pow_le_pow_right (by omega) hb
  intro n
  induction n with
  | zero => intro m x h; rw [strip_marker hb m x (by omega)]; omega
  | succ n ih =>
    intro m x h
    by_cases hl : x.length ≤ 2 ^ b
    · rw [strip_marker hb m x hl]; omega
    · have e : x = x.take (2 ^ b) ++ x.drop (2 ^ b) := (List.take_append_drop _ x).symm
      have h1 := strip_marker hb m (x.take (2 ^ b)) (by rw [List.length_take]; omega)
      have h2 := ih (m + 1) (x.drop (2 ^ b)) (by rw [List.length_drop]; omega)
      have h3 := congrArg (fun x => (Spec.stripFrom b ((m + 1) * 2 ^ b) x).length) e
      simp only [stripFrom_append, List.length_append, h1] at h3
      have hlt : (x.take (2 ^ b)).length = 2 ^ b := by rw [List.length_take]; omega
      have hld : (x.drop (2 ^ b)).length = x.length - 2 ^ b := List.length_drop
      have hk : (m + 1) * 2 ^ b + 2 ^ b = (m + 1 + 1) * 2 ^ b := by rw [Nat.add_mul (m + 1)]; omega
      rw [hlt, hk] at h3
      rw [hld] at h2
      have hdv : x.length / 2 ^ b = (x.length - 2 ^ b) / 2 ^ b + 1 := by
        rw [Nat.div_eq_sub_div (by omega) (by omega)]
      rw [hdv, h3]
      omega

/-- C77. If the next thing in the file is a marker, `available` promises what is left of the payload and at most the later
markers besides; it is exact if there is no further marker. -/
theorem C77_available_marker {b : Nat} (hb : 12 ≤ b ∧ b ≤ 30) (ops : List BWriter.Op) {s0 s} (h0 : BWriter.new b = .ok s0) (h : s0.run ops = .ok s)
    (chunks : List Nat) (cs : List JReader.Call) {r : JReader} (hr : JReader.new ⟨s.out, 0, chunks, true⟩ = .ok r)
    (hm : 2 ^ b ∣ (r.after cs).inp.pos) :
    (Spec.inputRest (Spec.payload ops) cs).length ≤ (r.after cs).available ∧
      (r.after cs).available ≤ (Spec.inputRest (Spec.payload ops) cs).length + 4 * ((s.out.length - (r.after cs).inp.pos) / 2 ^ b) ∧
      (s.out.length ≤ (r.after cs).inp.pos + 2 ^ b → (r.after cs).available = (Spec.inputRest (Spec.payload ops) cs).length) := by
  obtain ⟨r1, g1, g2, g3, g4, g5⟩ := jopen hb ops h0 h chunks true
  rw [hr] at g1; cases g1
  obtain ⟨k1, k2⟩ := after_ok hb.1 g5 cs g2 (.inl g4)
  rw [← g3, ← k2]
  generalize r.after cs = q at *
  have h1 := k1.hraw; have h2 := k1.hpos; have h3 := k1.hb; have h4 := k1.hi; have h5 := k1.len; have h6 := k1.one; have h7 := k1.lo
  have hp : 2 ^ 12 ≤ 2 ^ b := Nat.pow_le_pow_right (by omega) hb.1
  have hq : q.read = (q.seg + 1) * 2 ^ b := by
    rw [h2] at hm
    obtain ⟨m, hm⟩ := hm
    rw [Nat.mul_comm] at hm
    have hle : m ≤ q.seg + 1 := by
      apply Nat.le_of_not_lt
      intro hlt
      have := Nat.mul_le_mul_right (2 ^ b) (show q.seg + 2 ≤ m by omega)
      rw [← hm, show q.seg + 2 = (q.seg + 1) + 1 from rfl, Nat.add_mul (q.seg + 1)] at this
      omega
    have hge : q.seg + 1 ≤ m := by
      apply Nat.le_of_not_lt
      intro hlt
      by_cases hs : q.seg = 0
      · have : m = 0 := by omega
        subst this; omega
      · have := Nat.mul_le_mul_right (2 ^ b) (show m ≤ q.seg by omega)
        have := h7 hs
        omega
    rw [hm, Nat.le_antisymm hle hge]
  have hav : q.available = s.out.length - q.read - 4 := by
    unfold JReader.available
    rw [h3, Nat.shiftLeft_eq]
    simp only
    rw [if_pos hq, h1, h2]
  have hrest : q.rest = Spec.stripFrom b ((q.seg + 1) * 2 ^ b) (s.out.drop q.read) := by
    simp only [JReader.rest, h1, h3, hq]
  have hlen : (s.out.drop q.read).length = s.out.length - q.read := List.length_drop
  have hk := strip_markers hb.1 _ q.seg (s.out.drop q.read) (Nat.le_refl _)
  rw [hlen] at hk
  rw [hav, hrest, h2]
  refine ⟨hk.2, hk.1, fun hl => ?_⟩
  rw [strip_marker hb.1 q.seg _ (by rw [hlen]; omega), hlen]

/-! ### examples -/

namespace Ex

/-- a reader over the file of a payload, written by the Java writer -/
def jover (b : Nat) (d : Bytes) (chunks : List Nat) (ef : Bool) : Except PyErr JReader :=
  match JWriter.new b with
  | .error e => .error e
  | .ok j =>
    match j.run [.write (d.take 10), .split, .write (d.drop 10)] with
    | .error e => .error e
    | .ok j => JReader.new ⟨j.out, 0, chunks, ef⟩

/-- sizes of what the calls return -/
def sizes (r : Except PyErr JReader) (cs : List JReader.Call) : Option (List (Option Nat)) :=
  match r with
  | .error _ => none
  | .ok r => some ((r.calls cs).map (fun x => match x with | .ok (some b) => some b.length | _ => none))

/-- what `available` says after the calls, and what the next read of everything returns -/
def promised (r : Except PyErr JReader) (cs : List JReader.Call) : Option (Nat × Option Nat) :=
  match r with
  | .error _ => none
  | .ok r => some ((r.after cs).available, match ((r.after cs).readArr 20000).2 with | .ok (some b) => some b.length | _ => none)

end Ex

/-- C77. When the next thing in the file is a marker, `available` counts the later markers as payload: here it
promises 5909 bytes and 5905 are left. -/
theorem C77_available_over :
    Ex.promised (Ex.jover 12 (List.replicate 10000 7) [] true) [.arr 4095] = some (5909, some 5905) := by decide +kernel

/-- before the last marker (C77_available_marker) -/
example : Ex.promised (Ex.jover 12 (List.replicate 6000 7) [] true) [.arr 4095] = some (1905, some 1905) := by decide +kernel

/-- a file of two segments, read in three pieces while the stream cuts its reads; the end is reported -/
example : Ex.sizes (Ex.jover 12 (List.replicate 5000 7) [99, 0, 3000] false) [.one, .arr 4500, .arr 9000, .arr 1, .one] =
    some [some 1, some 4500, some 499, none, none] := by decide +kernel

/-- the numbers of the library's own test (IoTest.java:32-45) -/
example : computeLength 12 1 4096 = 4095 ∧ computeLength 12 1 4100 = 4095 ∧ computeLength 12 1 4101 = 4096 ∧
    computeLength 12 4096 8192 = 4092 ∧ computeLength 12 1 8201 = 8192 ∧ computeLength 12 4100 8200 = 4096 := by decide +kernel

example : Spec.Edge 12 1 ∧ Spec.Edge 12 4096 ∧ Spec.Edge 12 8200 ∧ ¬ Spec.Edge 12 4098 := by
  refine ⟨⟨by decide, .inl (by decide +kernel)⟩, ⟨by decide, .inr ⟨1, by decide⟩⟩, ⟨by decide, .inl (by decide +kernel)⟩, ?_⟩
  rintro ⟨-, h | ⟨k, h⟩⟩
  · revert h; decide +kernel
  · omega

/-- the hypotheses of `C76_byte_lost` and `C77_hangs` -/
example : ∃ (d : Bytes) (j0 j : JWriter), JWriter.new 12 = .ok j0 ∧ j0.run [.write d] = .ok j ∧ 2 ^ 12 ∣ j.out.length := by
  obtain ⟨d, s0, s, -, h0, h1, hl⟩ := full_segment
  obtain ⟨j0, j, t0, t, k0, k1, k2, k3, k4⟩ := C76_same_file (b := 12) (by omega) [.write d]
  rw [h0] at k2; cases k2
  rw [h1] at k3; cases k3
  exact ⟨d, j0, j, k0, k1, by rw [k4, hl]; exact Nat.dvd_refl _⟩

end Verif
