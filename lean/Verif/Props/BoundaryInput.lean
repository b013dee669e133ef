import Verif.Model.BoundaryInput
import Verif.Props.BoundaryReader
/-
C113: the Python boundary reader on a file object that returns less than it is asked for.
-/
set_option linter.unusedSimpArgs false
namespace Verif

namespace Spec

/-- what reads are to return: of each a beginning of what is left, no more than was asked for, and nothing only at the end or when
nothing was asked for -/
inductive Chunked : Bytes → List Nat → List (Except PyErr Bytes) → Prop
  | nil {data : Bytes} : Chunked data [] []
  | cons {data : Bytes} {n j : Nat} {ns : List Nat} {rs : List (Except PyErr Bytes)} (h1 : j ≤ n) (h2 : j = 0 → n = 0 ∨ data = [])
      (h : Chunked (data.drop j) ns rs) : Chunked data (n :: ns) (.ok (data.take j) :: rs)

/-- a file position that is not within a marker, nor in its segment, of number `k`, before the place `4 k` -/
def Settled (b p : Nat) : Prop := 0 < p ∧ 4 * (p / 2 ^ b) ≤ p % 2 ^ b

end Spec

theorem settled_pay {b p : Nat} (h : Spec.Settled b p) : Spec.isPay b p = true := by
  obtain ⟨h1, h2⟩ := h
  simp only [Spec.isPay, decide_eq_true_eq]
  refine ⟨by omega, ?_⟩
  rcases Nat.lt_or_ge p (2 ^ b) with h | h
  · exact .inl h
  · have : 1 ≤ p / 2 ^ b := (Nat.le_div_iff_mul_le (Nat.two_pow_pos b)).mpr (by omega)
    omega

theorem settled_guess {b p : Nat} (hb : 12 ≤ b) (h : Spec.Settled b p) : BReader.guess b (cnt b p) = p := by
  have c := cnt_pay hb (settled_pay h)
  have hB := pow_big hb
  have hd := Nat.div_add_mod p (2 ^ b)
  have hm := Nat.mod_lt p (Nat.two_pow_pos b)
  have h2 := h.2
  rw [guess_eq]
  have : (cnt b p + 1) / 2 ^ b = p / 2 ^ b := by
    generalize p / 2 ^ b = k at *
    rw [Nat.mul_comm] at hd
    refine Nat.div_eq_of_lt_le (by omega) ?_
    rw [Nat.add_mul]; omega
  omega

theorem pay_absolute {b p : Nat} (hb : 12 ≤ b) (h : Spec.isPay b p = true) : BReader.toAbsolute b (cnt b p) = p := by
  obtain ⟨p1, p2⟩ := toAbsolute_spec hb (cnt b p)
  have key : ∀ q q' : Nat, Spec.isPay b q = true → q < q' → cnt b q < cnt b q' := by
    intro q q' hq hlt
    have : cnt b (q + 1) = cnt b q + 1 := by simp [cnt, hq]
    have := cnt_mono (b := b) (show q + 1 ≤ q' by omega)
    omega
  rcases Nat.lt_trichotomy (BReader.toAbsolute b (cnt b p)) p with g | g | g
  · have := key _ _ p1 g; omega
  · exact g
  · have := key _ _ h g; omega

/-- `use` looks at the part that it is given, not at the file -/
theorem use_raw (s : BReader) (raw : Bytes) (all : Bytes) :
    ({ s with raw := raw }.use all).2 = (s.use all).2 ∧ ({ s with raw := raw }.use all).1 = { (s.use all).1 with raw := raw } := by
  unfold BReader.use
  simp only
  repeat' split
  all_goals exact ⟨rfl, rfl⟩

theorem use_keeps (s : BReader) (all : Bytes) :
    (s.use all).1.raw = s.raw ∧ (s.use all).1.boundary = s.boundary ∧ (s.use all).1.pos = s.pos + all.length := by
  unfold BReader.use
  simp only
  repeat' split
  all_goals exact ⟨rfl, rfl, rfl⟩

theorem read_use (s : BReader) (n : Option Nat) : s.read n = s.use (s.rawPart n) := rfl

/-- a part that ends at a payload position -/
theorem use_slice {s : BReader} (hb : 12 ≤ s.boundary) {stop : Nat} (h1 : s.pos = BReader.toAbsolute s.boundary s.offset)
    (h2 : s.pos = BReader.guess s.boundary s.offset) (hs : Spec.isPay s.boundary stop = true) (hlt : s.pos < stop) (hle : stop ≤ s.raw.length) :
    s.use (slice s.raw s.pos stop) = ({ s with pos := stop, offset := cnt s.boundary stop },
      .ok (((Spec.strip s.boundary s.raw).drop s.offset).take (cnt s.boundary stop - s.offset))) := by
  have e : ({ s with raw := s.raw.take stop } : BReader).rawPart none = slice s.raw s.pos stop := by
    simp only [BReader.rawPart, slice, List.drop_take]
  have hl : (s.raw.take stop).length = stop := by rw [List.length_take]; omega
  have hr := read_slice (s := { s with raw := s.raw.take stop }) hb (n := none) (stop := stop) h1 h2 hs hlt (by rw [hl]; exact Nat.le_refl _) (by
    rw [e]
    simp only [slice, List.drop_take, List.take_take, Nat.min_self])
  rw [read_use, e] at hr
  obtain ⟨u1, u2⟩ := use_raw s (s.raw.take stop) (slice s.raw s.pos stop)
  rw [hr] at u1 u2
  have hst : Spec.strip s.boundary (s.raw.take stop) = (Spec.strip s.boundary s.raw).take (cnt s.boundary stop) := by
    have := strip_length s.boundary (s.raw.take stop)
    rw [hl] at this
    rw [← this]
    unfold Spec.strip
    conv => rhs; rw [← List.take_append_drop stop s.raw, stripFrom_append]
    rw [List.take_append_drop, List.take_left]
  have hc := cnt_mono (b := s.boundary) (Nat.le_of_lt hlt)
  obtain ⟨-, p2⟩ := toAbsolute_spec hb s.offset
  rw [← h1] at p2
  have u3 := (use_keeps s (slice s.raw s.pos stop)).1
  generalize s.use (slice s.raw s.pos stop) = x at u1 u2 u3
  obtain ⟨t, r⟩ := x
  simp only at u1 u2
  rw [← u1, hst, List.drop_take, List.take_take, Nat.min_self]
  obtain ⟨a, b, c, d⟩ := t
  simp only [BReader.mk.injEq] at u2 u3
  obtain ⟨-, g1, g2, g3⟩ := u2
  rw [u3, ← g1, ← g2, ← g3]

theorem copyLoop_any {b : Nat} (hb : 12 ≤ b) {all : Bytes} {stop : Nat} :
    ∀ (fuel : Nat) {output outPos rel cur}, Spec.isPay b cur = true ∨ stop ≤ cur → stop - cur < fuel →
    ∃ out, BReader.copyLoop b all stop fuel output outPos rel cur =
      .ok (out, if stop ≤ cur then outPos else outPos + (cnt b stop - cnt b cur)) := by
  intro fuel
  induction fuel with
  | zero => intro output outPos rel cur h hf; exact ⟨output, by exfalso; omega⟩
  | succ fuel ih =>
    intro output outPos rel cur h hf
    by_cases hs : Spec.isPay b stop = true ∨ 2 ^ b ∣ stop
    · exact copyLoop_count hb hs (fuel + 1) h hf
    unfold BReader.copyLoop
    by_cases hc : cur < stop
    · have hp : Spec.isPay b cur = true := h.resolve_right (by omega)
      obtain ⟨e1, e2⟩ := seg_end hb hp
      rw [if_pos hc]
      simp only
      rw [Nat.shiftRight_eq_div_pow, Nat.shiftLeft_eq]
      have c1 := cnt_all (b := b) (p := cur) ((cur / 2 ^ b + 1) * 2 ^ b - cur) (fun q h1 h2 => e2 q h1 (by omega))
      rw [show cur + ((cur / 2 ^ b + 1) * 2 ^ b - cur) = (cur / 2 ^ b + 1) * 2 ^ b by omega] at c1
      have hlt : (cur / 2 ^ b + 1) * 2 ^ b < stop := by
        rcases Nat.lt_trichotomy ((cur / 2 ^ b + 1) * 2 ^ b) stop with g | g | g
        · exact g
        · exact absurd (.inr ⟨cur / 2 ^ b + 1, by rw [Nat.mul_comm]; exact g.symm⟩) hs
        · exact absurd (.inl (e2 stop (by omega) g)) hs
      rw [Nat.min_eq_left (by omega)]
      have e3 : cur + ((cur / 2 ^ b + 1) * 2 ^ b - cur) + 4 = (cur / 2 ^ b + 1) * 2 ^ b + 4 := by omega
      rw [e3]
      have hnext : Spec.isPay b ((cur / 2 ^ b + 1) * 2 ^ b + 4) = true :=
        isPay_in (k := cur / 2 ^ b + 1) (by simp) (fun _ => Nat.le_refl _) (by have := pow_big hb; rw [Nat.add_mul (cur / 2 ^ b + 1) 1]; omega)
      obtain ⟨out, ho⟩ := ih (output := output.take outPos ++ (all.drop rel).take ((cur / 2 ^ b + 1) * 2 ^ b - cur) ++
        output.drop (outPos + ((cur / 2 ^ b + 1) * 2 ^ b - cur))) (outPos := outPos + ((cur / 2 ^ b + 1) * 2 ^ b - cur))
        (rel := rel + 4 + ((cur / 2 ^ b + 1) * 2 ^ b - cur)) (.inl hnext) (by omega)
      refine ⟨out, ?_⟩
      rw [ho, if_neg (show ¬ stop ≤ cur by omega)]
      by_cases hn : (cur / 2 ^ b + 1) * 2 ^ b + 4 < stop
      · have c2 := cnt_none (b := b) (p := (cur / 2 ^ b + 1) * 2 ^ b) 4 (fun q h1 h2 => isPay_marker hb (Nat.succ_ne_zero _) h1 h2)
        have c3 := cnt_mono (b := b) (Nat.le_of_lt hn)
        rw [if_neg (by omega)]
        congr 2; omega
      · have c2 := cnt_none (b := b) (p := (cur / 2 ^ b + 1) * 2 ^ b) (stop - (cur / 2 ^ b + 1) * 2 ^ b)
          (fun q h1 h2 => isPay_marker (k := cur / 2 ^ b + 1) hb (Nat.succ_ne_zero _) h1 (by omega))
        rw [show (cur / 2 ^ b + 1) * 2 ^ b + (stop - (cur / 2 ^ b + 1) * 2 ^ b) = stop by omega] at c2
        rw [if_pos (by omega), c2, c1]
        congr 2; omega
    · exact ⟨output, by rw [if_neg hc, if_pos (by omega)]⟩

/-- a part that ends before a marker or within it -/
theorem use_inside {s : BReader} (hb : 12 ≤ s.boundary) {all : Bytes} {k j : Nat} (h1 : s.pos = BReader.toAbsolute s.boundary s.offset)
    (h2 : s.pos = BReader.guess s.boundary s.offset) (hk : 0 < k) (hj : j < 4) (he : s.pos + all.length = k * 2 ^ s.boundary + j) (ha : all ≠ []) :
    ((s.use all).2 = .error .assertion ∨ (s.use all).2 = .error .value) ∧ (s.use all).1 = { s with pos := s.pos + all.length } := by
  obtain ⟨p1, p2⟩ := toAbsolute_spec hb s.offset
  rw [← h1] at p1 p2
  have c1 := cnt_pay hb p1
  have hal : all.length ≠ 0 := fun h => ha (List.eq_nil_of_length_eq_zero h)
  have hB := pow_big hb
  have c2 : cnt s.boundary (k * 2 ^ s.boundary + j) + 4 * k + 1 = k * 2 ^ s.boundary + 4 := by
    rw [cnt_none j (fun q g1 g2 => isPay_marker hb (by omega) g1 (by omega))]
    exact cnt_aligned hb k (by omega)
  have hdiv : (k * 2 ^ s.boundary + j) / 2 ^ s.boundary = k := Nat.div_eq_of_lt_le (by omega) (by rw [Nat.add_mul]; omega)
  have cm := cnt_mono (b := s.boundary) (show s.pos ≤ k * 2 ^ s.boundary + j by omega)
  unfold BReader.use
  simp only
  rw [if_neg hal, ← h2, he]
  have na1 : ¬ (s.pos >>> s.boundary) <<< s.boundary = s.pos := by rw [aligned_iff]; exact pay_not_aligned hb p1
  rw [if_neg na1]
  have hdm : s.pos / 2 ^ s.boundary ≤ k := by rw [← hdiv]; exact Nat.div_le_div_right (by omega)
  generalize hreal : (if ((k * 2 ^ s.boundary + j) >>> s.boundary) <<< s.boundary = k * 2 ^ s.boundary + j then
    ((k * 2 ^ s.boundary + j : Nat) : Int) - (s.pos : Int) - (((k * 2 ^ s.boundary + j) >>> s.boundary : Nat) - ((s.pos >>> s.boundary : Nat) : Int)) * 4 - 4
    else ((k * 2 ^ s.boundary + j : Nat) : Int) - (s.pos : Int) - (((k * 2 ^ s.boundary + j) >>> s.boundary : Nat) - ((s.pos >>> s.boundary : Nat) : Int)) * 4) = real
  have hne : ((cnt s.boundary (k * 2 ^ s.boundary + j) - cnt s.boundary s.pos : Nat) : Int) ≠ real := by
    rw [← hreal, Nat.shiftRight_eq_div_pow, Nat.shiftRight_eq_div_pow, hdiv]
    generalize k * 2 ^ s.boundary = q at *
    split <;> omega
  split
  · exact ⟨.inr rfl, rfl⟩
  · obtain ⟨out, ho⟩ := copyLoop_any hb (all := all) (stop := k * 2 ^ s.boundary + j) (k * 2 ^ s.boundary + j + 1)
      (output := List.replicate real.toNat 0) (outPos := 0) (rel := 0) (cur := s.pos) (.inl p1) (by omega)
    rw [ho, if_neg (show ¬ k * 2 ^ s.boundary + j ≤ s.pos by omega)]
    simp only [Nat.zero_add]
    rw [if_pos hne]
    exact ⟨.inl rfl, rfl⟩

theorem guess_lt {b o o' : Nat} (h : o < o') : BReader.guess b o < BReader.guess b o' := by
  rw [guess_eq, guess_eq]
  have : (o + 1) / 2 ^ b ≤ (o' + 1) / 2 ^ b := Nat.div_le_div_right (by omega)
  omega

theorem cut_length_le (plan : List Nat) (b : Bytes) : (BInput.cut plan b).length ≤ b.length := by
  cases plan with
  | nil => exact Nat.le_refl _
  | cons k ks => simp only [BInput.cut, List.length_take]; omega

theorem cut_take (plan : List Nat) (b : Bytes) : BInput.cut plan b = b.take (BInput.cut plan b).length := by
  cases plan with
  | nil => simp only [BInput.cut, List.take_length]
  | cons k ks => simp only [BInput.cut, List.length_take, ← List.take_take, List.take_length]

theorem cut_nil {plan : List Nat} (hp : ∀ k ∈ plan, 0 < k) {b : Bytes} (h : BInput.cut plan b = []) : b = [] := by
  cases plan with
  | nil => exact h
  | cons k ks =>
    have := hp k (List.mem_cons_self ..)
    simp only [BInput.cut, List.take_eq_nil_iff] at h
    rcases h with h | h
    · omega
    · exact h

theorem bin_keeps (s : BInput) (n : Nat) : (s.read n).1.r.raw = s.r.raw ∧ (s.read n).1.r.boundary = s.r.boundary ∧
    (s.read n).1.r.pos = s.r.pos + (BInput.cut s.plan (s.r.rawPart (some n))).length ∧ (s.read n).1.plan = s.plan.tail := by
  obtain ⟨h1, h2, h3⟩ := use_keeps s.r (BInput.cut s.plan (s.r.rawPart (some n)))
  exact ⟨h1, h2, h3, rfl⟩

/-- a read of the file object that ends at a settled position, or at the end of the file -/
theorem bin_read {s : BInput} (hb : 12 ≤ s.r.boundary) (hend : Spec.isPay s.r.boundary s.r.raw.length = true) (hs : Synced s.r)
    (hp : ∀ k ∈ s.plan, 0 < k) {n : Nat} (hst : Spec.Settled s.r.boundary (s.read n).1.r.pos ∨ s.r.raw.length ≤ (s.read n).1.r.pos) :
    ∃ j, (s.read n).2 = .ok (((Spec.strip s.r.boundary s.r.raw).drop s.r.offset).take j) ∧ j ≤ n ∧
      (j = 0 → n = 0 ∨ (Spec.strip s.r.boundary s.r.raw).drop s.r.offset = []) ∧ Synced (s.read n).1.r ∧ (s.read n).1.r.offset = s.r.offset + j := by
  obtain ⟨k1, k2, k3, -⟩ := bin_keeps s n
  rw [k3] at hst
  have hrp : s.r.rawPart (some n) = (s.r.raw.drop s.r.pos).take (BReader.guess s.r.boundary (s.r.offset + n) - BReader.guess s.r.boundary s.r.offset) := rfl
  have hle := cut_length_le s.plan (s.r.rawPart (some n))
  have hct := cut_take s.plan (s.r.rawPart (some n))
  have hcn := cut_nil hp (b := s.r.rawPart (some n))
  have hrd : s.read n = (⟨(s.r.use (BInput.cut s.plan (s.r.rawPart (some n)))).1, s.plan.tail⟩, (s.r.use (BInput.cut s.plan (s.r.rawPart (some n)))).2) := rfl
  rw [hrd]
  generalize BInput.cut s.plan (s.r.rawPart (some n)) = c at *
  rw [hrp] at hct hle hcn
  rw [List.take_take] at hct
  rw [List.length_take, List.length_drop] at hle
  by_cases hc : c = []
  · subst hc
    have hu : s.r.use [] = (s.r, .ok []) := by
      unfold BReader.use
      simp only [List.length_nil, Nat.add_zero, if_true]
    rw [hu]
    refine ⟨0, by rw [List.take_zero], Nat.zero_le _, fun _ => ?_, hs, rfl⟩
    have := hcn rfl
    rw [List.take_eq_nil_iff, List.drop_eq_nil_iff] at this
    rcases this with g | g
    · rcases Nat.eq_zero_or_pos n with h0 | h0
      · exact .inl h0
      · have := guess_lt (b := s.r.boundary) (show s.r.offset < s.r.offset + n by omega)
        omega
    · refine .inr (List.drop_of_length_le ?_)
      rcases hs with ⟨h1, -⟩ | h
      · exact strip_end hb (by omega)
      · exact h.2
  · have hcl : 0 < c.length := List.length_pos_iff.mpr hc
    rcases hs with ⟨h1, h2⟩ | h
    rotate_left
    · exfalso; have := h.1; omega
    have hstop : Spec.isPay s.r.boundary (s.r.pos + c.length) = true ∧ ((s.r.pos + c.length = BReader.guess s.r.boundary (cnt s.r.boundary (s.r.pos + c.length))) ∨
        s.r.pos + c.length = s.r.raw.length) := by
      rcases hst with g | g
      · exact ⟨settled_pay g, .inl (settled_guess hb g).symm⟩
      · have : s.r.pos + c.length = s.r.raw.length := by omega
        rw [this]
        exact ⟨hend, .inr rfl⟩
    have hcs : c = slice s.r.raw s.r.pos (s.r.pos + c.length) := by
      unfold slice
      rw [Nat.add_sub_cancel_left]
      rw [Nat.min_eq_left (by omega)] at hct
      exact hct
    have hu := use_slice hb (s := s.r) h1 h2 hstop.1 (by omega) (by omega)
    rw [← hcs] at hu
    rw [hu]
    have p1 := (toAbsolute_spec hb s.r.offset)
    rw [← h1] at p1
    have hgt : s.r.offset < cnt s.r.boundary (s.r.pos + c.length) := by
      have e : cnt s.r.boundary (s.r.pos + 1) = cnt s.r.boundary s.r.pos + 1 := by simp [cnt, p1.1]
      have := cnt_mono (b := s.r.boundary) (show s.r.pos + 1 ≤ s.r.pos + c.length by omega)
      omega
    have hn : cnt s.r.boundary (s.r.pos + c.length) ≤ s.r.offset + n := by
      have g := guess_le hb (o := s.r.offset + n)
      obtain ⟨-, q2⟩ := toAbsolute_spec hb (s.r.offset + n)
      rw [← q2]
      exact cnt_mono (by omega)
    refine ⟨cnt s.r.boundary (s.r.pos + c.length) - s.r.offset, rfl, by omega, fun h0 => by omega, ?_, by simp only; omega⟩
    rcases hstop.2 with g | g
    · exact .inl ⟨(pay_absolute hb hstop.1).symm, g⟩
    · refine .inr ⟨by simp only; omega, ?_⟩
      simp only
      rw [strip_length, g]
      exact Nat.le_refl _

theorem bin_reads (ns : List Nat) : ∀ {s : BInput}, 12 ≤ s.r.boundary → Spec.isPay s.r.boundary s.r.raw.length = true → Synced s.r →
    (∀ k ∈ s.plan, 0 < k) →
    (∀ j, 0 < j → j ≤ ns.length → Spec.Settled s.r.boundary (s.after ((ns.take j).map .read)).r.pos ∨ s.r.raw.length ≤ (s.after ((ns.take j).map .read)).r.pos) →
    Spec.Chunked ((Spec.strip s.r.boundary s.r.raw).drop s.r.offset) ns (s.reads ns) := by
  induction ns with
  | nil => intros; exact .nil
  | cons n ns ih =>
    intro s hb hend hs hp h
    obtain ⟨j, e1, e2, e3, e4, e5⟩ := bin_read hb hend hs hp (n := n) (h 1 (by omega) (by simp))
    obtain ⟨k1, k2, -, k3⟩ := bin_keeps s n
    have := ih (s := (s.read n).1) (by rw [k2]; exact hb) (by rw [k1, k2]; exact hend) e4
      (by rw [k3]; exact fun k hk => hp k (List.mem_of_mem_tail hk))
      (fun i h0 hi => by
        rw [k1, k2]
        exact h (i + 1) (by omega) (by simp; omega))
    rw [k1, k2, e5, ← List.drop_drop] at this
    show Spec.Chunked _ _ ((s.read n).2 :: (s.read n).1.reads ns)
    rw [e1]
    exact .cons e2 e3 this

theorem bin_after (cs : List BInput.Call) : ∀ (s : BInput), (s.after cs).r.raw = s.r.raw ∧ (s.after cs).r.boundary = s.r.boundary ∧
    ((∀ k ∈ s.plan, 0 < k) → ∀ k ∈ (s.after cs).plan, 0 < k) := by
  induction cs with
  | nil => intro s; exact ⟨rfl, rfl, id⟩
  | cons c cs ih =>
    intro s
    obtain ⟨h1, h2, h3⟩ := ih (s.call c).1
    have hc : (s.call c).1.r.raw = s.r.raw ∧ (s.call c).1.r.boundary = s.r.boundary ∧ ((∀ k ∈ s.plan, 0 < k) → ∀ k ∈ (s.call c).1.plan, 0 < k) := by
      cases c with
      | seek o => exact ⟨rfl, rfl, id⟩
      | read n =>
        obtain ⟨k1, k2, -, k3⟩ := bin_keeps s n
        exact ⟨k1, k2, fun hp k hk => hp k (List.mem_of_mem_tail (by rw [← k3]; exact hk))⟩
    exact ⟨h1.trans hc.1, h2.trans hc.2.1, fun hp => h3 (hc.2.2 hp)⟩

theorem bin_pos (ns : List Nat) : ∀ (s : BInput), s.r.pos ≤ (s.after (ns.map .read)).r.pos := by
  induction ns with
  | nil => intro s; exact Nat.le_refl _
  | cons n ns ih =>
    intro s
    obtain ⟨-, -, k, -⟩ := bin_keeps s n
    refine Nat.le_trans ?_ (ih (s.read n).1)
    omega

/-- a written file, opened on a file object that returns something whenever it is asked -/
theorem bin_of {b : Nat} (hb : 12 ≤ b ∧ b ≤ 30) (ops : List BWriter.Op) {s0 s : BWriter} (h0 : BWriter.new b = .ok s0)
    (h : s0.run ops = .ok s) (plan : List Nat) (hp : ∀ k ∈ plan, 0 < k) :
    ∃ r, BInput.new s.out plan = .ok ⟨r, plan.tail⟩ ∧ BReader.new s.out = .ok r ∧ r.raw = s.out ∧ r.boundary = b ∧ r.offset = 0 ∧ r.pos = 1 ∧
      Spec.strip b s.out = Spec.payload ops ∧ (¬ 2 ^ b ∣ s.out.length → Spec.isPay b s.out.length = true) := by
  obtain ⟨r, e, r1, r2, r3, r4, g2, g3⟩ := reader_of hb ops h0 h
  refine ⟨r, ?_, e, r1, r2, r3, r4, g2, fun hend => ?_⟩
  · cases ho : s.out with
    | nil => rw [ho] at e; cases e
    | cons x xs =>
      rw [ho] at e
      have hc : BInput.cut plan [x] = [x] := by
        cases plan with
        | nil => rfl
        | cons k ks =>
          have := hp k (List.mem_cons_self ..)
          exact List.take_of_length_le (by simp only [List.length_cons, List.length_nil]; omega)
      simp only [BInput.new, BReader.new, List.take_succ_cons, List.take_zero, hc] at e ⊢
      split at e
      · cases e
      · rename_i hn
        cases e
        rw [if_neg hn]
  · have hpos : 0 < s.out.length := by
      cases ho : s.out with
      | nil => rw [ho] at e; cases e
      | cons a l => simp
    exact end_pay hb.1 g3 hend hpos

/-- C113. On any file object that returns something whenever it is asked: if its reads end at places that are `Settled`, or at the
end of the file, the reads of the boundary reader return the payload piece by piece.
Missing: reads that end elsewhere, for which it is false (`C113_marker_false`, `C113_behind_false`), and files that end before a marker (`C41_fails_at_end`). -/
theorem C113_reads_partial {b : Nat} (hb : 12 ≤ b ∧ b ≤ 30) (ops : List BWriter.Op) {s0 s : BWriter} (h0 : BWriter.new b = .ok s0)
    (h : s0.run ops = .ok s) (hend : ¬ 2 ^ b ∣ s.out.length) {plan : List Nat} (hp : ∀ k ∈ plan, 0 < k) :
    ∃ r, BInput.new s.out plan = .ok r ∧ ∀ ns,
      (∀ j, 0 < j → j ≤ ns.length → Spec.Settled b (r.after ((ns.take j).map .read)).r.pos ∨ s.out.length ≤ (r.after ((ns.take j).map .read)).r.pos) →
      Spec.Chunked (Spec.payload ops) ns (r.reads ns) := by
  obtain ⟨r, e, -, r1, r2, r3, r4, g2, g3⟩ := bin_of hb ops h0 h plan hp
  refine ⟨_, e, fun ns hns => ?_⟩
  have hb' : 12 ≤ r.boundary := by omega
  have := bin_reads ns (s := ⟨r, plan.tail⟩) hb' (by simp only [r1, r2]; exact g3 hend)
    (start_synced hb' r3 r4) (fun k hk => hp k (List.mem_of_mem_tail hk)) (by simp only [r1, r2]; exact hns)
  simp only [r1, r2, r3, List.drop_zero, g2] at this
  exact this

/-- C113 for files of one segment (with the default boundary, files below 1 MiB): all file objects that return something whenever they are
asked, and all reads. -/
theorem C113_one_segment_partial {b : Nat} (hb : 12 ≤ b ∧ b ≤ 30) (ops : List BWriter.Op) {s0 s : BWriter} (h0 : BWriter.new b = .ok s0)
    (h : s0.run ops = .ok s) (hl : s.out.length < 2 ^ b) {plan : List Nat} (hp : ∀ k ∈ plan, 0 < k) :
    ∃ r, BInput.new s.out plan = .ok r ∧ ∀ ns, Spec.Chunked (Spec.payload ops) ns (r.reads ns) := by
  obtain ⟨r, e, e', r1, r2, r3, r4, g2, g3⟩ := bin_of hb ops h0 h plan hp
  have hpos : 0 < s.out.length := by
    cases ho : s.out with
    | nil => rw [ho] at e'; cases e'
    | cons a l => simp
  obtain ⟨r', e2, h2⟩ := C113_reads_partial hb ops h0 h (fun hd => by have := Nat.le_of_dvd hpos hd; omega) hp
  refine ⟨r', e2, fun ns => h2 ns (fun j _ _ => ?_)⟩
  rw [e] at e2
  cases e2
  have hge := bin_pos (ns.take j) ⟨r, plan.tail⟩
  simp only [r4] at hge
  rcases Nat.lt_or_ge (BInput.after ⟨r, plan.tail⟩ ((ns.take j).map .read)).r.pos s.out.length with g | g
  · refine .inl ⟨by omega, ?_⟩
    rw [Nat.div_eq_of_lt (by omega)]
    omega
  · exact .inr g

/-- C113: `seek` to an offset that is `Safe` makes good whatever went wrong before. -/
theorem C113_seek_partial {b : Nat} (hb : 12 ≤ b ∧ b ≤ 30) (ops : List BWriter.Op) {s0 s : BWriter} (h0 : BWriter.new b = .ok s0)
    (h : s0.run ops = .ok s) (hend : ¬ 2 ^ b ∣ s.out.length) {plan : List Nat} (hp : ∀ k ∈ plan, 0 < k) :
    ∃ r, BInput.new s.out plan = .ok r ∧ ∀ (cs : List BInput.Call) (o : Nat) (ns : List Nat), Spec.Safe b o →
      (∀ j, 0 < j → j ≤ ns.length → Spec.Settled b (((r.after cs).seek o).after ((ns.take j).map .read)).r.pos ∨
        s.out.length ≤ (((r.after cs).seek o).after ((ns.take j).map .read)).r.pos) →
      Spec.Chunked ((Spec.payload ops).drop o) ns (((r.after cs).seek o).reads ns) := by
  obtain ⟨r, e, -, r1, r2, r3, r4, g2, g3⟩ := bin_of hb ops h0 h plan hp
  refine ⟨_, e, fun cs o ns ho hns => ?_⟩
  obtain ⟨a1, a2, a3⟩ := bin_after cs ⟨r, plan.tail⟩
  simp only [r1, r2] at a1 a2
  have a3 := a3 (fun k hk => hp k (List.mem_of_mem_tail hk))
  generalize BInput.after ⟨r, plan.tail⟩ cs = t at *
  have hsr : (t.seek o).r.raw = s.out ∧ (t.seek o).r.boundary = b ∧ (t.seek o).r.offset = o ∧ (t.seek o).r.pos = BReader.toAbsolute b o :=
    ⟨a1, a2, rfl, by rw [← a2]; rfl⟩
  have := bin_reads ns (s := t.seek o) (by rw [hsr.2.1]; exact hb.1) (by rw [hsr.1, hsr.2.1]; exact g3 hend)
    (.inl (by rw [hsr.2.1, hsr.2.2.1, hsr.2.2.2]; exact ⟨rfl, (safe_guess hb.1 ho).symm⟩)) a3 (by rw [hsr.1, hsr.2.1]; exact hns)
  rw [hsr.1, hsr.2.1, hsr.2.2.1, g2] at this
  exact this

/-- C113 fails: whenever the file object returns a part that ends before a marker or within it, `read` raises, and the part is lost: the file
object has moved on, and the offset has not. -/
theorem C113_marker_false {b : Nat} (hb : 12 ≤ b ∧ b ≤ 30) (ops : List BWriter.Op) {s0 s : BWriter} (h0 : BWriter.new b = .ok s0)
    (h : s0.run ops = .ok s) {k j : Nat} (hk : 0 < k) (hj : j < 4) (hl : k * 2 ^ b + j ≤ s.out.length) (n : Nat) (hn : k * 2 ^ b + j ≤ n) :
    ∃ r, BInput.new s.out [1, k * 2 ^ b + j - 1] = .ok r ∧ ((r.read n).2 = .error .assertion ∨ (r.read n).2 = .error .value) ∧
      (r.read n).1.r.pos = k * 2 ^ b + j ∧ (r.read n).1.r.offset = 0 := by
  have hB := pow_big hb.1
  have hk1 : 2 ^ b ≤ k * 2 ^ b := Nat.le_mul_of_pos_left _ hk
  obtain ⟨r, e, -, r1, r2, r3, r4, g2, g3⟩ := bin_of hb ops h0 h [1, k * 2 ^ b + j - 1] (by
    intro q hq
    simp only [List.mem_cons, List.not_mem_nil, or_false] at hq
    omega)
  refine ⟨_, e, ?_⟩
  have hb' : 12 ≤ r.boundary := by omega
  have hcl : (BInput.cut [k * 2 ^ b + j - 1] (r.rawPart (some n))).length = k * 2 ^ b + j - 1 := by
    have : n ≤ BReader.guess b n - BReader.guess b 0 := by
      rw [guess_eq, guess_eq, Nat.div_eq_of_lt (show 0 + 1 < 2 ^ b by omega)]; omega
    simp only [BInput.cut, BReader.rawPart, List.length_take, List.length_drop, r1, r2, r3, r4, Nat.zero_add]
    omega
  rcases start_synced hb' r3 r4 with ⟨s1, s2⟩ | ⟨s1, -⟩
  · obtain ⟨u1, u2⟩ := use_inside (s := r) (all := BInput.cut [k * 2 ^ b + j - 1] (r.rawPart (some n))) (k := k) (j := j) hb' s1 s2 hk hj
      (by rw [hcl, r2, r4]; omega) (by intro h; rw [h] at hcl; simp at hcl; omega)
    refine ⟨u1, ?_, ?_⟩
    · show (r.use _).1.pos = _
      rw [List.tail_cons, u2]
      show r.pos + _ = _
      rw [r4, hcl]
      omega
    · show (r.use _).1.offset = _
      rw [List.tail_cons, u2]
      exact r3
  · rw [r1, r4] at s1; omega

namespace Ex

/-- a file with 4200 sevens in segments of 4096 bytes -/
def sevenFile : Bytes := ((BWriter.new 12).toOption.bind (fun s => (s.run [.write (List.replicate 4200 7)]).toOption)).elim [] BWriter.out

/-- reads of it on a file object: how many bytes each returned and whether all were sevens, `none` for an exception -/
def sevenReads (plan : List Nat) (ns : List Nat) : Option (List (Option (Nat × Bool))) :=
  (BInput.new sevenFile plan).toOption.map (fun r => (r.reads ns).map (fun x => x.toOption.map (fun d => (d.length, d.all (· = 7)))))

end Ex

/-- C113: what follows the exception. A file object that returns 4095 bytes, up to the marker: the read raises, and the next ones return
the marker and what follows it as if it were the beginning of the payload, without an exception; `seek` would have made it good. The same
for one, two and three bytes of the marker. -/
theorem C113_after_false :
    Ex.sevenReads [1, 4095] [4200, 10, 200] = some [none, some (10, false), some (99, true)] ∧
    Ex.sevenReads [1, 4096] [4200, 10] = some [none, some (10, false)] ∧
    Ex.sevenReads [1, 4097] [4200, 10] = some [none, some (10, false)] ∧
    Ex.sevenReads [1, 4098] [4200, 10] = some [none, some (10, false)] ∧
    Ex.sevenReads [1, 4099] [4200, 4200] = some [some (4095, true), some (105, true)] := by
  decide +kernel

namespace Ex

/-- a file with 8400 sevens, of three segments -/
def longFile : Bytes := ((BWriter.new 12).toOption.bind (fun s => (s.run [.write (List.replicate 8400 7)]).toOption)).elim [] BWriter.out

/-- how many bytes the reads return, `none` for an exception -/
def longReads (plan : List Nat) (ns : List Nat) : Option (List (Option Nat)) :=
  (BInput.new longFile plan).toOption.map (fun r => (r.reads ns).map (fun x => x.toOption.map List.length))

end Ex

/-- C113: reads that end behind the marker but not at a `Settled` place. Of 8400 bytes in three segments four are lost without an
exception, when the file object's read ends right behind the second marker; when it ends three bytes later, the next read returns
104 bytes for 100. -/
theorem C113_behind_false :
    Ex.longReads [1, 8195] [9000, 100, 9000, 9000] = some [some 8187, some 100, some 109, some 0] ∧ 8187 + 100 + 109 = 8400 - 4 ∧
    Ex.longReads [1, 8198] [9000, 100, 9000, 9000] = some [some 8190, some 104, some 106, some 0] := by
  decide +kernel

/-- C113 in full, for files that do not end before a marker. -/
def C113_full : Prop := ∀ (b : Nat), 12 ≤ b ∧ b ≤ 30 → ∀ (ops : List BWriter.Op) (s0 s : BWriter) (plan : List Nat), BWriter.new b = .ok s0 →
  s0.run ops = .ok s → ¬ 2 ^ b ∣ s.out.length → (∀ k ∈ plan, 0 < k) →
  ∃ r, BInput.new s.out plan = .ok r ∧ ∀ ns, Spec.Chunked (Spec.payload ops) ns (r.reads ns)

theorem C113_full_false : ¬ C113_full := by
  intro h
  obtain ⟨s0, s, g0, g1, -, g2, -⟩ := C38_layout (b := 12) (by omega) [.write (List.replicate 4200 7)]
  have hl := strip_length 12 s.out
  have hpl : (Spec.payload [.write (List.replicate 4200 7)]).length = 4200 := by decide +kernel
  rw [g2, hpl] at hl
  have hlen : 4096 < s.out.length := by
    rcases Nat.lt_or_ge 4096 s.out.length with g | g
    · exact g
    · have := cnt_mono (b := 12) g
      have e : cnt 12 4096 + 4 * 1 + 1 = 4096 + 4 := cnt_aligned (b := 12) (by omega) 1 (by omega)
      omega
  have hlt : s.out.length < 8192 := by
    rcases Nat.lt_or_ge s.out.length 8192 with g | g
    · exact g
    · have := cnt_mono (b := 12) g
      have e : cnt 12 8192 + 4 * 2 + 1 = 8192 + 4 := cnt_aligned (b := 12) (by omega) 2 (by omega)
      omega
  obtain ⟨r, e, h1, -⟩ := C113_marker_false (b := 12) (k := 1) (j := 0) (by omega) _ g0 g1 (by omega) (by omega) (by omega) 4200 (by omega)
  obtain ⟨r', e', h2⟩ := h 12 (by omega) _ s0 s [1, 1 * 2 ^ 12 + 0 - 1] g0 g1 (by omega) (by decide)
  rw [e] at e'
  cases e'
  have hc := h2 [4200]
  unfold BInput.reads at hc
  generalize (r.read 4200).2 = x at h1 hc
  cases hc
  rcases h1 with h1 | h1 <;> cases h1

/-- the hypotheses of C113_reads_partial and C113_seek_partial hold for a file object that returns 1000 bytes at a time, and a few around
the marker -/
example : (∃ r, BInput.new Ex.sevenFile [1, 1000, 1000, 1000, 1094, 50, 20] = .ok r ∧
      (∀ j, 0 < j → j ≤ [4200, 4200, 4200, 2000, 100, 100, 100].length →
        Spec.Settled 12 (r.after (([4200, 4200, 4200, 2000, 100, 100, 100].take j).map .read)).r.pos ∨
          Ex.sevenFile.length ≤ (r.after (([4200, 4200, 4200, 2000, 100, 100, 100].take j).map .read)).r.pos)) ∧
    ¬ 2 ^ 12 ∣ Ex.sevenFile.length ∧ Spec.Safe 12 4000 ∧
    Ex.sevenReads [1, 1000, 1000, 1000, 1094, 50, 20] [4200, 4200, 4200, 2000, 100, 100, 100] =
      some [some (1000, true), some (1000, true), some (1000, true), some (1094, true), some (46, true), some (20, true), some (40, true)] := by
  have h1 : Ex.sevenFile.take 1 = [12] := by decide +kernel
  refine ⟨⟨⟨⟨Ex.sevenFile, 1, 12, 0⟩, [1000, 1000, 1000, 1094, 50, 20]⟩, by simp [BInput.new, BInput.cut, h1], ?_⟩, by decide +kernel, ?_, by decide +kernel⟩
  · intro j h0 hj
    have : j = 1 ∨ j = 2 ∨ j = 3 ∨ j = 4 ∨ j = 5 ∨ j = 6 ∨ j = 7 := by
      simp only [List.length_cons, List.length_nil] at hj; omega
    unfold Spec.Settled
    rcases this with rfl | rfl | rfl | rfl | rfl | rfl | rfl <;> decide +kernel
  · intro k hk ⟨g1, g2⟩
    omega

/-- the hypotheses of C113_one_segment_partial: a byte at a time -/
example : (∃ s0 s, BWriter.new 12 = .ok s0 ∧ s0.run [.write [1, 2], .split, .write [3]] = .ok s ∧ s.out.length < 2 ^ 12 ∧
    ((BInput.new s.out [1, 1, 2]).toOption.map (fun r => (r.reads [3, 3, 3]).map Except.toOption)) = some [some [1], some [2, 3], some []]) :=
  ⟨_, _, rfl, rfl, by decide +kernel, by decide +kernel⟩

end Verif
