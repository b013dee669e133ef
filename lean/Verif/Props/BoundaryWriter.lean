import Verif.Model.Boundary
import Verif.Proof.Msgpack
/-
C38, C39: what a boundary writer puts into the stream.
-/
set_option linter.unusedSimpArgs false
namespace Verif

namespace Spec

/-- file positions that hold payload: not the first byte, and not the four bytes from any positive multiple
of 2^b -/
def isPay (b p : Nat) : Bool := decide (p ≠ 0 ∧ (p < 2 ^ b ∨ 4 ≤ p % 2 ^ b))

/-- the payload bytes of a part of the file that lies at position `p` -/
def stripFrom (b : Nat) : Nat → Bytes → Bytes
  | _, [] => []
  | p, x :: xs => if isPay b p then x :: stripFrom b (p + 1) xs else stripFrom b (p + 1) xs

/-- the file without its first byte and without markers -/
def strip (b : Nat) (out : Bytes) : Bytes := stripFrom b 0 out

/-- everything handed to `write`, in order -/
def payload : List BWriter.Op → Bytes
  | [] => []
  | .write d :: ops => d ++ payload ops
  | .split :: ops => payload ops

/-- a signed 32 bit big endian number -/
def i32 : Bytes → Option Int
  | [a, b, c, d] =>
    let n : Int := ((a.toNat * 256 + b.toNat) * 256 + c.toNat) * 256 + d.toNat
    some (if n < 0x80000000 then n else n - 0x100000000)
  | _ => none

/-- `S` is where the last `split` of the calls was done: the size of the file at that time, 1 without any -/
def LastSplit (s0 : BWriter) (calls : List BWriter.Op) (S : Nat) : Prop :=
  (.split ∉ calls ∧ S = 1) ∨ ∃ p1 p2 s1, calls = p1 ++ .split :: p2 ∧ .split ∉ p2 ∧ s0.run p1 = .ok s1 ∧ S = s1.out.length

end Spec

theorem stripFrom_append (b : Nat) (x y : Bytes) : ∀ p, Spec.stripFrom b p (x ++ y) =
    Spec.stripFrom b p x ++ Spec.stripFrom b (p + x.length) y := by
  induction x with
  | nil => intro p; simp [Spec.stripFrom]
  | cons a x ih =>
    intro p
    simp only [List.cons_append, Spec.stripFrom, List.length_cons]
    rw [ih, show p + 1 + x.length = p + (x.length + 1) by omega]
    split <;> simp

theorem stripFrom_all {b : Nat} {x : Bytes} : ∀ {p}, (∀ q, p ≤ q → q < p + x.length → Spec.isPay b q = true) →
    Spec.stripFrom b p x = x := by
  induction x with
  | nil => intro p _; rfl
  | cons a x ih =>
    intro p h
    simp only [Spec.stripFrom, h p (Nat.le_refl _) (by simp), if_true]
    rw [ih (fun q h1 h2 => h q (by omega) (by simp only [List.length_cons]; omega))]

theorem stripFrom_none {b : Nat} {x : Bytes} : ∀ {p}, (∀ q, p ≤ q → q < p + x.length → Spec.isPay b q = false) →
    Spec.stripFrom b p x = [] := by
  induction x with
  | nil => intro p _; rfl
  | cons a x ih =>
    intro p h
    simp only [Spec.stripFrom, h p (Nat.le_refl _) (by simp)]
    rw [ih (fun q h1 h2 => h q (by omega) (by simp only [List.length_cons]; omega))]
    rfl

theorem isPay_in {b k p : Nat} (h1 : k = 0 → p ≠ 0) (h2 : k ≠ 0 → k * 2 ^ b + 4 ≤ p) (h3 : p < (k + 1) * 2 ^ b) :
    Spec.isPay b p = true := by
  simp only [Spec.isPay, decide_eq_true_eq]
  by_cases hk : k = 0
  · subst hk; exact ⟨h1 rfl, .inl (by omega)⟩
  · have h4 := h2 hk
    refine ⟨by omega, .inr ?_⟩
    obtain ⟨r, rfl⟩ : ∃ r, p = k * 2 ^ b + r := ⟨p - k * 2 ^ b, by omega⟩
    have hr : r < 2 ^ b := by rw [Nat.add_mul] at h3; omega
    rw [Nat.mul_comm, Nat.mul_add_mod, Nat.mod_eq_of_lt hr]
    omega

theorem isPay_marker {b k p : Nat} (hb : 12 ≤ b) (hk : k ≠ 0) (h1 : k * 2 ^ b ≤ p) (h2 : p < k * 2 ^ b + 4) :
    Spec.isPay b p = false := by
  have hB : 4096 ≤ 2 ^ b := by
    have := Nat.pow_le_pow_right (n := 2) (by decide) hb
    simpa using this
  simp only [Spec.isPay, decide_eq_false_iff_not]
  obtain ⟨r, rfl⟩ : ∃ r, p = k * 2 ^ b + r := ⟨p - k * 2 ^ b, by omega⟩
  rintro ⟨-, h | h⟩
  · have : 2 ^ b ≤ k * 2 ^ b := Nat.le_mul_of_pos_left _ (by omega)
    omega
  · rw [Nat.mul_comm, Nat.mul_add_mod, Nat.mod_eq_of_lt (by omega)] at h
    omega

theorem i32_be {i : Int} (h1 : -0x80000000 ≤ i) (h2 : i < 0x80000000) : Spec.i32 (be 4 (i % 0x100000000).toNat) = some i := by
  have hn : (i % 0x100000000).toNat < 256 ^ 4 := by omega
  have hv := ofBe_be 4 _ hn
  generalize he : (i % 0x100000000).toNat = n at *
  have hl := be_length 4 n
  match hbe : be 4 n, hl with
  | [a, b, c, d], _ =>
    rw [hbe] at hv
    simp only [ofBe, List.foldl_cons, List.foldl_nil, Nat.zero_mul, Nat.zero_add] at hv
    simp only [Spec.i32, Option.some.injEq]
    have : (((a.toNat * 256 + b.toNat) * 256 + c.toNat) * 256 + d.toNat : Int) = (n : Int) := by omega
    rw [this]
    split <;> omega

/-- what the marker at `p` should be -/
def Spec.markerIs (out : Bytes) (last p : Nat) : Prop :=
  Spec.i32 ((out.drop p).take 4) = some (max (-0x80000000) ((last : Int) - p))

/-- the state of the writer after `pl` has been written -/
structure WInv (b : Nat) (s : BWriter) (pl : Bytes) : Prop where
  hb : s.boundary = b
  range : 12 ≤ b ∧ b ≤ 30
  len : s.written = s.out.length
  first : s.out[0]? = some (.ofNat b)
  pos : 1 ≤ s.written
  lo : s.seg ≠ 0 → s.seg * 2 ^ b + 4 ≤ s.written
  hi : s.written ≤ (s.seg + 1) * 2 ^ b
  pay : Spec.strip b s.out = pl
  last : s.lastsplit ≤ s.written
  cnt : s.written = 1 + pl.length + 4 * s.seg

/-- between calls the file does not end with a marker -/
def WTight (b : Nat) (s : BWriter) : Prop := s.seg ≠ 0 → s.seg * 2 ^ b + 4 < s.written

theorem pow_big {b : Nat} (hb : 12 ≤ b) : 4096 ≤ 2 ^ b := by
  have := Nat.pow_le_pow_right (n := 2) (by decide) hb
  simpa using this

theorem writeBoundary_ok {b s pl} (h : WInv b s pl) (hw : s.written = (s.seg + 1) * 2 ^ b) :
    ∃ mk, mk.length = 4 ∧ Spec.i32 mk = some (max (-0x80000000) ((s.lastsplit : Int) - s.written)) ∧
      s.writeBoundary = .ok { s with out := s.out ++ mk, written := s.written + 4, seg := s.seg + 1 } ∧
      WInv b { s with out := s.out ++ mk, written := s.written + 4, seg := s.seg + 1 } pl := by
  have hB := pow_big h.range.1
  have hal : (s.written >>> s.boundary) <<< s.boundary = s.written := by
    rw [h.hb, Nat.shiftRight_eq_div_pow, Nat.shiftLeft_eq, hw, Nat.mul_div_cancel _ (by omega)]
  have hl := h.last
  obtain ⟨d, hdd⟩ : ∃ d : Int, d = if (s.lastsplit : Int) - s.written ≤ -0x80000000 then -0x80000000 else (s.lastsplit : Int) - s.written := ⟨_, rfl⟩
  have hd : d = max (-0x80000000) ((s.lastsplit : Int) - s.written) := by
    clear hal
    omega
  have h1 : -0x80000000 ≤ d := by rw [hd]; omega
  have h2 : d < 0x80000000 := by rw [hd]; omega
  refine ⟨be 4 (d % 0x100000000).toNat, be_length _ _, by rw [i32_be h1 h2, hd], ?_, ?_⟩
  · unfold BWriter.writeBoundary
    rw [if_neg (by simp [hal])]
    have : packI32 d = .ok (be 4 (d % 0x100000000).toNat) := by unfold packI32; rw [if_pos ⟨h1, h2⟩]
    simp only
    rw [← hdd, this]
  · have hpos := h.pos
    refine ⟨h.hb, h.range, ?_, ?_, ?_, ?_, ?_, ?_, ?_, ?_⟩
    · simp [h.len, be_length]
    · have := h.first
      rw [List.getElem?_append_left (by rw [← h.len]; omega)]; exact this
    · simp only; omega
    · intro _; simp only; omega
    · simp only [hw]; rw [Nat.add_mul (s.seg + 1) 1]; omega
    · show Spec.stripFrom b 0 (s.out ++ _) = pl
      rw [stripFrom_append, show Spec.stripFrom b 0 s.out = pl from h.pay, stripFrom_none, List.append_nil]
      intro q h1 h2
      rw [be_length] at h2
      have := h.len
      exact isPay_marker (k := s.seg + 1) h.range.1 (by omega) (by omega) (by omega)
    · simp only; omega
    · have := h.cnt; simp only; omega

theorem drop_append_take {α : Type} (a c : List α) {p n : Nat} (h : p + n ≤ a.length) :
    ((a ++ c).drop p).take n = (a.drop p).take n := by
  rw [List.drop_append_of_le_length (by omega), List.take_append_of_le_length (by simp; omega)]

theorem writeLoop_ok {b : Nat} : ∀ (fuel : Nat) {s : BWriter} {pl data}, WInv b s pl →
    data.length + (if s.written = (s.seg + 1) * 2 ^ b then 2 else 1) ≤ fuel →
    ∃ s', BWriter.writeLoop fuel s data (s.maxWrite data.length) = .ok s' ∧ WInv b s' (pl ++ data) ∧
      (data ≠ [] → WTight b s') ∧ (data = [] → s' = s) ∧ s'.lastsplit = s.lastsplit ∧ (∃ t, s'.out = s.out ++ t) ∧
      ∀ k, k ≠ 0 → s.out.length ≤ k * 2 ^ b → k * 2 ^ b < s'.out.length → Spec.markerIs s'.out s.lastsplit (k * 2 ^ b) := by
  intro fuel
  induction fuel with
  | zero => intro s pl data _ h; split at h <;> omega
  | succ fuel ih =>
    intro s pl data h hf
    have hB := pow_big h.range.1
    unfold BWriter.writeLoop
    by_cases hd : data = []
    · subst hd
      exact ⟨s, by simp, by simpa using h, by simp, by simp, rfl, ⟨[], by simp⟩, fun k _ h1 h2 => by omega⟩
    have hdl : data.length ≠ 0 := by simpa using hd
    have hm : s.maxWrite data.length = ((min ((s.seg + 1) * 2 ^ b - s.written) data.length : Nat) : Int) := by
      unfold BWriter.maxWrite
      rw [h.hb, Nat.shiftLeft_eq]
      have := h.hi
      omega
    rw [if_neg hdl, hm, if_neg (by omega)]
    simp only [Int.toNat_natCast]
    generalize hmm : min ((s.seg + 1) * 2 ^ b - s.written) data.length = m
    have hhi := h.hi
    have hpos := h.pos
    have hlen := h.len
    -- the state after copying `m` bytes
    have h1 : WInv b { s with out := s.out ++ data.take m, written := s.written + m } (pl ++ data.take m) := by
      refine ⟨h.hb, h.range, ?_, ?_, ?_, ?_, ?_, ?_, ?_, ?_⟩
      · simp only [List.length_append, List.length_take, ← hlen]; omega
      · have := h.first
        rw [List.getElem?_append_left (by omega)]; exact this
      · simp only; omega
      · intro hs; have := h.lo hs; simp only; omega
      · simp only; omega
      · show Spec.stripFrom b 0 (s.out ++ _) = _
        rw [stripFrom_append, show Spec.stripFrom b 0 s.out = pl from h.pay, stripFrom_all]
        intro q g1 g2
        simp only [List.length_take] at g2
        have := h.lo
        exact isPay_in (k := s.seg) (fun _ => by omega) (fun hk => by have := this hk; omega) (by omega)
      · have := h.last; simp only; omega
      · have := h.cnt; simp only [List.length_append, List.length_take]; omega
    by_cases hdm : data.drop m = []
    · rw [if_pos (by simp [hdm])]
      have hml : data.length ≤ m := by simpa using hdm
      have hme : data.take m = data := List.take_of_length_le hml
      have hmeq : m = data.length := by omega
      rw [hme] at h1 ⊢
      refine ⟨_, rfl, h1, ?_, by simp [hd], rfl, ⟨_, rfl⟩, ?_⟩
      · intro _ hs
        have := h.lo hs
        simp only; omega
      · -- no marker was written
        intro k hk g1 g2
        exfalso
        simp only [List.length_append] at g2
        have hk1 : k * 2 ^ b < (s.seg + 1) * 2 ^ b := by omega
        have hk2 : k < s.seg + 1 := Nat.lt_of_mul_lt_mul_right hk1
        have hk3 : k * 2 ^ b ≤ s.seg * 2 ^ b := Nat.mul_le_mul_right _ (by omega)
        by_cases hs : s.seg = 0
        · omega
        · have := h.lo hs; omega
    · rw [if_neg (by simpa only [List.length_eq_zero_iff] using hdm)]
      have hml : m < data.length := by simpa using hdm
      have hroom : m = (s.seg + 1) * 2 ^ b - s.written := by omega
      have hw : s.written + m = (s.seg + 1) * 2 ^ b := by omega
      obtain ⟨mk, hmk1, hmk2, hmk3, h2⟩ := writeBoundary_ok h1 hw
      simp only at hmk3
      rw [hmk3]
      simp only
      have hf' : (data.drop m).length + (if s.written + m + 4 = (s.seg + 1 + 1) * 2 ^ b then 2 else 1) ≤ fuel := by
        rw [if_neg (by rw [Nat.add_mul (s.seg + 1) 1]; omega), List.length_drop]
        split at hf <;> omega
      obtain ⟨s', g1, g2, g3, g4, g5, ⟨t, g6⟩, g7⟩ := ih (data := data.drop m) h2 hf'
      refine ⟨s', g1, ?_, fun _ => g3 hdm, by simp [hd], g5, ?_, ?_⟩
      · rw [List.append_assoc, List.take_append_drop] at g2; exact g2
      · refine ⟨data.take m ++ mk ++ t, ?_⟩
        rw [g6]; simp
      · intro k hk k1 k2
        by_cases hke : k * 2 ^ b < s.written + m + 4
        · -- the marker just written
          have e : k * 2 ^ b = s.written + m := by
            by_cases hlt : k < s.seg + 1
            · exfalso
              have hk3 : k * 2 ^ b ≤ s.seg * 2 ^ b := Nat.mul_le_mul_right _ (by omega)
              by_cases hs : s.seg = 0
              · have : k = 0 := by omega
                exact hk this
              · have := h.lo hs; omega
            · by_cases hgt : k = s.seg + 1
              · rw [hgt, hw]
              · have : (s.seg + 1 + 1) * 2 ^ b ≤ k * 2 ^ b := Nat.mul_le_mul_right _ (by omega)
                rw [Nat.add_mul (s.seg + 1) 1] at this
                omega
          have hlo : (s.out ++ data.take m).length = s.written + m := by
            have := h1.len; simp only at this; omega
          unfold Spec.markerIs
          rw [e, g6]
          have : ((s.out ++ data.take m ++ mk ++ t).drop (s.written + m)).take 4 = mk := by
            rw [← hlo, List.append_assoc, List.drop_left, ← hmk1, List.take_left]
          rw [this, hmk2]
        · have hge : s.written + m + 4 ≤ k * 2 ^ b := by omega
          have := g7 k hk (by
            have := h2.len; simp only at this ⊢
            omega) k2
          exact this

theorem write_ok {b : Nat} {s : BWriter} {pl} (h : WInv b s pl) (ht : WTight b s) (data : Bytes) :
    ∃ s', s.write data = .ok s' ∧ WInv b s' (pl ++ data) ∧ WTight b s' ∧ s'.lastsplit = s.lastsplit ∧
      (∃ t, s'.out = s.out ++ t) ∧
      ∀ k, k ≠ 0 → s.out.length ≤ k * 2 ^ b → k * 2 ^ b < s'.out.length → Spec.markerIs s'.out s.lastsplit (k * 2 ^ b) := by
  obtain ⟨s', h1, h2, h3, h4, h5⟩ := writeLoop_ok (data.length + 2) (data := data) h (by split <;> omega)
  refine ⟨s', h1, h2, ?_, h5⟩
  by_cases hd : data = []
  · rw [h4 hd]; exact ht
  · exact h3 hd

theorem split_ok {b : Nat} {s : BWriter} {pl} (h : WInv b s pl) : WInv b s.split pl :=
  ⟨h.hb, h.range, h.len, h.first, h.pos, h.lo, h.hi, h.pay, Nat.le_refl _, h.cnt⟩

theorem new_ok {b : Nat} (hb : 12 ≤ b ∧ b ≤ 30) : ∃ s, BWriter.new b = .ok s ∧ WInv b s [] ∧ WTight b s ∧
    s.out = [.ofNat b] ∧ s.lastsplit = 1 := by
  refine ⟨_, by unfold BWriter.new; rw [if_pos hb], ⟨rfl, hb, rfl, rfl, by simp, by simp, ?_, ?_, by simp, by simp⟩, by simp [WTight], rfl, rfl⟩
  · have := pow_big hb.1; simp; omega
  · rfl

theorem run_append {s : BWriter} (a c : List BWriter.Op) {s'} (h : s.run a = .ok s') : s.run (a ++ c) = s'.run c := by
  induction a generalizing s with
  | nil => cases h; rfl
  | cons o a ih =>
    cases o with
    | split => exact ih h
    | write d =>
      simp only [List.cons_append, BWriter.run] at h ⊢
      split at h
      · cases h
      · exact ih h

theorem run_ok {b : Nat} (ops : List BWriter.Op) : ∀ {s : BWriter} {pl}, WInv b s pl → WTight b s →
    ∃ s', s.run ops = .ok s' ∧ WInv b s' (pl ++ Spec.payload ops) ∧ WTight b s' ∧ ∃ t, s'.out = s.out ++ t := by
  induction ops with
  | nil => intro s pl h ht; exact ⟨s, rfl, by simpa [Spec.payload] using h, ht, [], by simp⟩
  | cons o ops ih =>
    intro s pl h ht
    cases o with
    | split =>
      obtain ⟨s', h1, h2, h3, h4⟩ := ih (split_ok h) ht
      exact ⟨s', h1, h2, h3, h4⟩
    | write d =>
      obtain ⟨s1, g1, g2, g3, -, ⟨t1, g4⟩, -⟩ := write_ok h ht d
      obtain ⟨s', h1, h2, h3, t2, h4⟩ := ih g2 g3
      refine ⟨s', by simp only [BWriter.run, g1, h1], by simpa [Spec.payload] using h2, h3, t1 ++ t2, ?_⟩
      rw [h4, g4, List.append_assoc]

/-- C38. For every boundary value and all calls: nothing raises; the file starts with the boundary value;
without its first byte and the markers it is what was written; it does not end with (a part of) a marker. -/
theorem C38_layout {b : Nat} (hb : 12 ≤ b ∧ b ≤ 30) (ops : List BWriter.Op) :
    ∃ s0 s, BWriter.new b = .ok s0 ∧ s0.run ops = .ok s ∧ s.out[0]? = some (.ofNat b) ∧
      Spec.strip b s.out = Spec.payload ops ∧ (s.out.length = 1 ∨ Spec.isPay b (s.out.length - 1) = true) := by
  obtain ⟨s0, h0, hi, ht, -⟩ := new_ok hb
  obtain ⟨s, h1, h2, h3, -⟩ := run_ok ops hi ht
  rw [List.nil_append] at h2
  refine ⟨s0, s, h0, h1, h2.first, h2.pay, ?_⟩
  have hl := h2.len
  have hp := h2.pos
  have hhi := h2.hi
  by_cases h : s.out.length = 1
  · exact .inl h
  · right
    exact isPay_in (k := s.seg) (fun _ => by omega) (fun hk => by have := h3 hk; omega) (by omega)

/-- C38. The file has exactly the length that follows: as many bytes as the payload, the first byte and four
bytes for every multiple of 2^b inside it. -/
theorem C38_length {b : Nat} (hb : 12 ≤ b ∧ b ≤ 30) (ops : List BWriter.Op) {s0 s}
    (h0 : BWriter.new b = .ok s0) (h : s0.run ops = .ok s) :
    s.out.length = 1 + (Spec.payload ops).length + 4 * ((s.out.length - 1) / 2 ^ b) := by
  obtain ⟨s0', h0', hi, ht, ho, -⟩ := new_ok hb
  rw [h0] at h0'; cases h0'
  obtain ⟨s', h1, h2, h3, -⟩ := run_ok ops hi ht
  rw [h] at h1; cases h1
  rw [List.nil_append] at h2
  have hB := pow_big hb.1
  have e : (s.out.length - 1) / 2 ^ b = s.seg := by
    rw [← h2.len]
    have h4 := h2.hi
    have h5 := h2.pos
    refine Nat.div_eq_of_lt_le ?_ (by omega)
    by_cases hs : s.seg = 0
    · simp [hs]
    · have := h2.lo hs; omega
  rw [e, ← h2.len]
  exact h2.cnt

theorem i32_four {x : Bytes} {v} (h : Spec.i32 x = some v) : ∃ a b c d : UInt8, x = [a, b, c, d] ∧
    ∃ n : Int, n = ((a.toNat * 256 + b.toNat) * 256 + c.toNat) * 256 + d.toNat ∧
      v = if n < 0x80000000 then n else n - 0x100000000 := by
  unfold Spec.i32 at h
  split at h
  · rename_i a b c d
    exact ⟨a, b, c, d, rfl, _, rfl, (Option.some.inj h).symm⟩
  · cases h

theorem i32_inj {x y : Bytes} {v} (hx : Spec.i32 x = some v) (hy : Spec.i32 y = some v) : x = y := by
  obtain ⟨a, b, c, d, rfl, n, hn, h1⟩ := i32_four hx
  obtain ⟨a', b', c', d', rfl, n', hn', h1'⟩ := i32_four hy
  have g1 := a.toNat_lt; have g2 := b.toNat_lt; have g3 := c.toNat_lt; have g4 := d.toNat_lt
  have g5 := a'.toNat_lt; have g6 := b'.toNat_lt; have g7 := c'.toNat_lt; have g8 := d'.toNat_lt
  clear hx hy
  have e : n = n' := by omega
  have ea : a = a' := UInt8.toNat_inj.mp (by omega)
  have eb : b = b' := UInt8.toNat_inj.mp (by omega)
  have ec : c = c' := UInt8.toNat_inj.mp (by omega)
  have ed : d = d' := UInt8.toNat_inj.mp (by omega)
  rw [ea, eb, ec, ed]

/-- equal payload and equal bytes elsewhere: equal files -/
theorem strip_inj {b : Nat} : ∀ {x y : Bytes} {p}, x.length = y.length → Spec.stripFrom b p x = Spec.stripFrom b p y →
    (∀ i, i < x.length → Spec.isPay b (p + i) = false → x[i]? = y[i]?) → x = y := by
  intro x
  induction x with
  | nil => intro y p h _ _; cases y <;> simp at h ⊢
  | cons a x ih =>
    intro y p hl hs hm
    cases y with
    | nil => simp at hl
    | cons c y =>
      simp only [List.length_cons, Nat.add_right_cancel_iff] at hl
      simp only [Spec.stripFrom] at hs
      have hrest : (∀ i, i < x.length → Spec.isPay b (p + 1 + i) = false → x[i]? = y[i]?) := by
        intro i hi hp
        have := hm (i + 1) (by simp only [List.length_cons]; omega) (by rw [show p + (i + 1) = p + 1 + i by omega]; exact hp)
        simpa using this
      by_cases hp : Spec.isPay b p = true
      · rw [if_pos hp, if_pos hp] at hs
        simp only [List.cons.injEq] at hs
        rw [hs.1, ih hl hs.2 hrest]
      · rw [if_neg hp, if_neg hp] at hs
        have h0 := hm 0 (by simp) (by simpa using hp)
        simp only [List.getElem?_cons_zero, Option.some.injEq] at h0
        rw [h0, ih hl hs hrest]

theorem not_isPay {b p : Nat} (hb : 12 ≤ b) (h : Spec.isPay b p = false) (hp : p ≠ 0) :
    ∃ k, k ≠ 0 ∧ k * 2 ^ b ≤ p ∧ p < k * 2 ^ b + 4 := by
  have hB := pow_big hb
  simp only [Spec.isPay, decide_eq_false_iff_not, not_and, not_or] at h
  obtain ⟨h1, h2⟩ := h hp
  have hd := Nat.div_add_mod p (2 ^ b)
  refine ⟨p / 2 ^ b, ?_, ?_, ?_⟩
  · intro e
    rw [e] at hd
    have := Nat.mod_lt p (show 0 < 2 ^ b by omega)
    omega
  · rw [Nat.mul_comm]; omega
  · rw [Nat.mul_comm]; omega

theorem take4_get {x y : Bytes} {p i : Nat} (h : (x.drop p).take 4 = (y.drop p).take 4) (h1 : p ≤ i) (h2 : i < p + 4) :
    x[i]? = y[i]? := by
  have := congrArg (·[i - p]?) h
  simp only [List.getElem?_take, List.getElem?_drop] at this
  rw [if_pos (by omega), if_pos (by omega), show p + (i - p) = i by omega] at this
  exact this

/-- the same state -/
theorem winv_ext {b : Nat} {s s1 s2 : BWriter} {pl : Bytes} (h1 : WInv b s1 pl) (h2 : WInv b s2 pl) (t1 : WTight b s1)
    (t2 : WTight b s2) (l : s1.lastsplit = s2.lastsplit) {r1 r2} (p1 : s1.out = s.out ++ r1) (p2 : s2.out = s.out ++ r2)
    (hs : 1 ≤ s.out.length)
    (hend : ∀ k, k ≠ 0 → k * 2 ^ b < s.out.length → k * 2 ^ b + 4 ≤ s.out.length)
    (m1 : ∀ k, k ≠ 0 → s.out.length ≤ k * 2 ^ b → k * 2 ^ b < s1.out.length → Spec.markerIs s1.out s1.lastsplit (k * 2 ^ b))
    (m2 : ∀ k, k ≠ 0 → s.out.length ≤ k * 2 ^ b → k * 2 ^ b < s2.out.length → Spec.markerIs s2.out s2.lastsplit (k * 2 ^ b)) :
    s1 = s2 := by
  have hB := pow_big h1.range.1
  have key : ∀ {x y : BWriter}, WInv b x pl → WInv b y pl → WTight b y → ¬ x.seg < y.seg := by
    intro x y hx hy ty hlt
    have c1 := hx.cnt; have c2 := hy.cnt
    have u1 := hx.hi; have u2 := ty (by omega)
    obtain ⟨d, hd⟩ : ∃ d, y.seg = x.seg + 1 + d := ⟨y.seg - x.seg - 1, by omega⟩
    rw [hd] at u2
    rw [Nat.add_mul (x.seg + 1)] at u2
    have : 4 * d ≤ d * 2 ^ b := by rw [Nat.mul_comm 4]; exact Nat.mul_le_mul_left _ (by omega)
    omega
  have eseg : s1.seg = s2.seg := by
    have := key h1 h2 t2; have := key h2 h1 t1; omega
  have ewr : s1.written = s2.written := by rw [h1.cnt, h2.cnt, eseg]
  have eout : s1.out = s2.out := by
    have hl : s1.out.length = s2.out.length := by rw [← h1.len, ← h2.len, ewr]
    refine strip_inj (b := b) (p := 0) hl (by rw [show Spec.stripFrom b 0 s1.out = pl from h1.pay]; exact h2.pay.symm) ?_
    intro i hi hp
    rw [Nat.zero_add] at hp
    by_cases hio : i < s.out.length
    · rw [p1, p2, List.getElem?_append_left hio, List.getElem?_append_left hio]
    · obtain ⟨k, hk, k1, k2⟩ := not_isPay h1.range.1 hp (by omega)
      have hsk : s.out.length ≤ k * 2 ^ b := by
        rcases Nat.lt_or_ge (k * 2 ^ b) s.out.length with h | h
        · have := hend k hk h; omega
        · exact h
      have a1 := m1 k hk hsk (by omega)
      have a2 := m2 k hk hsk (by omega)
      unfold Spec.markerIs at a1 a2
      rw [l] at a1
      exact take4_get (i32_inj a1 a2) k1 k2
  cases s1; cases s2
  simp only at *
  subst eseg ewr eout l
  have e1 := h1.hb
  have e2 := h2.hb
  simp only at e1 e2
  rw [e1, e2]

theorem tight_end {b : Nat} {s : BWriter} {pl} (h : WInv b s pl) (ht : WTight b s) {k} (hk : k ≠ 0)
    (hl : k * 2 ^ b < s.out.length) : k * 2 ^ b + 4 ≤ s.out.length := by
  have h1 := h.hi; have h2 := h.len
  have hk1 : k * 2 ^ b < (s.seg + 1) * 2 ^ b := by omega
  have hk2 : k < s.seg + 1 := Nat.lt_of_mul_lt_mul_right hk1
  have hk3 : k * 2 ^ b ≤ s.seg * 2 ^ b := Nat.mul_le_mul_right _ (by omega)
  have := ht (by omega)
  omega

/-- C38. How the payload is cut into writes makes no difference. -/
theorem C38_chunks {b : Nat} (hb : 12 ≤ b ∧ b ≤ 30) (pre post : List BWriter.Op) (x y : Bytes) {s0} (h0 : BWriter.new b = .ok s0) :
    s0.run (pre ++ .write x :: .write y :: post) = s0.run (pre ++ .write (x ++ y) :: post) := by
  obtain ⟨s0', h0', hi, ht, ho, -⟩ := new_ok hb
  rw [h0] at h0'; cases h0'
  obtain ⟨s, h1, h2, h3, -⟩ := run_ok pre hi ht
  rw [run_append _ _ h1, run_append _ _ h1]
  obtain ⟨a1, f1, f2, f3, f4, ⟨r1, f5⟩, f6⟩ := write_ok h2 h3 x
  obtain ⟨a2, g1, g2, g3, g4, ⟨r2, g5⟩, g6⟩ := write_ok f2 f3 y
  obtain ⟨a3, e1, e2, e3, e4, ⟨r3, e5⟩, e6⟩ := write_ok h2 h3 (x ++ y)
  rw [List.append_assoc] at g2
  have : a2 = a3 := by
    refine winv_ext (s := s) g2 e2 g3 e3 (by rw [g4, f4, e4]) (r1 := r1 ++ r2) (r2 := r3) (by rw [g5, f5, List.append_assoc]) e5
      (by rw [← h2.len]; exact h2.pos) (fun k hk hl => tight_end h2 h3 hk hl) ?_ (by rw [e4]; exact e6)
    intro k hk k1 k2
    rw [g4, f4]
    by_cases hin : k * 2 ^ b < a1.out.length
    · have := f6 k hk k1 hin
      unfold Spec.markerIs at this ⊢
      have hend := tight_end f2 f3 hk hin
      rw [g5, drop_append_take _ _ (by omega)]
      exact this
    · have := g6 k hk (by omega) k2
      rw [f4] at this
      exact this
  simp only [BWriter.run, f1, g1, e1, this]

theorem run_nosplit (ops : List BWriter.Op) : ∀ {s s' : BWriter}, BWriter.Op.split ∉ ops → s.run ops = .ok s' →
    ∀ {b pl}, WInv b s pl → WTight b s → s'.lastsplit = s.lastsplit := by
  induction ops with
  | nil => intro s s' _ h; cases h; simp
  | cons o ops ih =>
    intro s s' hn h b pl hi ht
    cases o with
    | split => simp at hn
    | write d =>
      obtain ⟨s1, g1, g2, g3, g4, -⟩ := write_ok hi ht d
      simp only [BWriter.run, g1] at h
      rw [ih (by simpa using hn) h g2 g3, g4]

/-- C39. The marker at any multiple of 2^b holds the distance to where the last split before the write was
done, as a signed 32 bit big endian number, at least -2^31. -/
theorem C39_markers {b : Nat} (hb : 12 ≤ b ∧ b ≤ 30) (pre post : List BWriter.Op) (d : Bytes) {s0 s1 s2 s : BWriter}
    (h0 : BWriter.new b = .ok s0) (h1 : s0.run pre = .ok s1) (h2 : s0.run (pre ++ [.write d]) = .ok s2)
    (h3 : s0.run (pre ++ .write d :: post) = .ok s) {S : Nat} (hS : Spec.LastSplit s0 pre S)
    {p : Nat} (hp : p ≠ 0) (hm : 2 ^ b ∣ p) (hlo : s1.out.length ≤ p) (hhi : p < s2.out.length) :
    Spec.i32 ((s.out.drop p).take 4) = some (max (-0x80000000) ((S : Int) - p)) := by
  obtain ⟨s0', h0', hi, ht, ho, hls⟩ := new_ok hb
  rw [h0] at h0'; cases h0'
  obtain ⟨s1', h1', i1, t1, -⟩ := run_ok pre hi ht
  rw [h1] at h1'; cases h1'
  obtain ⟨a, f1, f2, f3, f4, ⟨r1, f5⟩, f6⟩ := write_ok i1 t1 d
  rw [run_append _ _ h1] at h2 h3
  simp only [BWriter.run, f1] at h2 h3
  cases h2
  obtain ⟨s', g1, g2, g3, t, g4⟩ := run_ok post f2 f3
  rw [h3] at g1; cases g1
  have eS : S = s1.lastsplit := by
    rcases hS with ⟨hn, rfl⟩ | ⟨p1, p2, q, rfl, hn, hq, rfl⟩
    · rw [run_nosplit pre hn h1 hi ht, hls]
    · obtain ⟨q', hq', iq, tq, -⟩ := run_ok p1 hi ht
      rw [hq] at hq'; cases hq'
      rw [run_append _ _ hq] at h1
      rw [run_nosplit p2 hn h1 (split_ok iq) tq]
      show q.out.length = q.written
      exact iq.len.symm
  obtain ⟨k, hk⟩ := hm
  have hk' : p = k * 2 ^ b := by rw [hk, Nat.mul_comm]
  subst hk'
  have hk0 : k ≠ 0 := by rintro rfl; simp at hp
  have := f6 k hk0 hlo hhi
  unfold Spec.markerIs at this
  rw [eS, g4, drop_append_take _ _ (tight_end f2 f3 hk0 hhi)]
  exact this

-- 5000 bytes in two writes with a split in between: one marker, at 4096, pointing 3095 back
example : (match BWriter.new 12 with
    | .error _ => none
    | .ok s0 => match s0.run [.write (List.replicate 1000 7), .split, .write (List.replicate 4000 9)] with
      | .error _ => none
      | .ok s => some (s.out.length, (s.out.drop 4095).take 6)) = some (5005, [9, 0xff, 0xff, 0xf3, 0xe9, 9]) := by decide +kernel

end Verif
