import Verif.Props.BoundaryWriter
/-
C40, C41: reading a boundary stream.
-/
set_option linter.unusedSimpArgs false
namespace Verif

/-- payload positions below `q` -/
def cnt (b : Nat) : Nat → Nat
  | 0 => 0
  | q + 1 => cnt b q + (if Spec.isPay b q then 1 else 0)

theorem cnt_mono {b p q : Nat} (h : p ≤ q) : cnt b p ≤ cnt b q := by
  induction q with
  | zero => have : p = 0 := by omega
            rw [this]; exact Nat.le_refl _
  | succ q ih =>
    by_cases e : p = q + 1
    · rw [e]; exact Nat.le_refl _
    · exact Nat.le_trans (ih (by omega)) (Nat.le_add_right _ _)

theorem stripFrom_length (b : Nat) (x : Bytes) : ∀ p, (Spec.stripFrom b p x).length + cnt b p = cnt b (p + x.length) := by
  induction x with
  | nil => intro p; simp [Spec.stripFrom]
  | cons a x ih =>
    intro p
    have := ih (p + 1)
    simp only [cnt] at this
    simp only [Spec.stripFrom, List.length_cons]
    rw [show p + (x.length + 1) = p + 1 + x.length by omega]
    split
    · rename_i hp
      rw [if_pos hp] at this
      simp only [List.length_cons]; omega
    · rename_i hp
      rw [if_neg hp] at this
      omega

theorem strip_length (b : Nat) (x : Bytes) : (Spec.strip b x).length = cnt b x.length := by
  have := stripFrom_length b x 0
  simp only [cnt, Nat.zero_add, Nat.add_zero] at this
  exact this

theorem cnt_all {b p : Nat} : ∀ n, (∀ q, p ≤ q → q < p + n → Spec.isPay b q = true) → cnt b (p + n) = cnt b p + n := by
  intro n
  induction n with
  | zero => intro _; rfl
  | succ n ih =>
    intro h
    rw [show p + (n + 1) = (p + n) + 1 by omega, cnt, ih (fun q h1 h2 => h q h1 (by omega)), if_pos (h (p + n) (by omega) (by omega))]
    omega

theorem cnt_none {b p : Nat} : ∀ n, (∀ q, p ≤ q → q < p + n → Spec.isPay b q = false) → cnt b (p + n) = cnt b p := by
  intro n
  induction n with
  | zero => intro _; rfl
  | succ n ih =>
    intro h
    rw [show p + (n + 1) = (p + n) + 1 by omega, cnt, ih (fun q h1 h2 => h q h1 (by omega)),
      if_neg (by rw [h (p + n) (by omega) (by omega)]; decide), Nat.add_zero]

section
variable {b : Nat} (hb : 12 ≤ b)
include hb

theorem cnt_aligned : ∀ k, k ≠ 0 → cnt b (k * 2 ^ b) + 4 * k + 1 = k * 2 ^ b + 4 := by
  have hB := pow_big hb
  intro k
  induction k with
  | zero => intro h; exact absurd rfl h
  | succ k ih =>
    intro _
    by_cases hk : k = 0
    · subst hk
      have := cnt_all (b := b) (p := 1) (2 ^ b - 1) (fun q h1 h2 => isPay_in (k := 0) (fun _ => by omega) (by simp) (by omega))
      have h1 : cnt b 1 = 0 := by simp [cnt, Spec.isPay]
      rw [h1, show 1 + (2 ^ b - 1) = 2 ^ b by omega] at this
      simp only [Nat.zero_add, Nat.one_mul, this]
      omega
    · have e1 := cnt_none (b := b) (p := k * 2 ^ b) 4 (fun q h1 h2 => isPay_marker hb hk h1 h2)
      have e2 := cnt_all (b := b) (p := k * 2 ^ b + 4) (2 ^ b - 4) (fun q h1 h2 =>
        isPay_in (k := k) (fun h => absurd h hk) (fun _ => h1) (by rw [Nat.add_mul]; omega))
      have := ih hk
      rw [show (k + 1) * 2 ^ b = k * 2 ^ b + 4 + (2 ^ b - 4) by rw [Nat.add_mul]; omega, e2, e1]
      omega

/-- a payload position, its segment and the payload bytes before it -/
theorem cnt_pay {p : Nat} (hp : Spec.isPay b p = true) : cnt b p + 4 * (p / 2 ^ b) + 1 = p := by
  have hB := pow_big hb
  have hd := Nat.div_add_mod p (2 ^ b)
  have hm := Nat.mod_lt p (show 0 < 2 ^ b by omega)
  simp only [Spec.isPay, decide_eq_true_eq] at hp
  generalize p / 2 ^ b = k at *
  rw [Nat.mul_comm] at hd
  by_cases hk : k = 0
  · subst hk
    have := cnt_all (b := b) (p := 1) (p - 1) (fun q h1 h2 => isPay_in (k := 0) (fun _ => by omega) (by simp) (by omega))
    have h1 : cnt b 1 = 0 := by simp [cnt, Spec.isPay]
    rw [h1, show 1 + (p - 1) = p by omega] at this
    omega
  · have hge : 4 ≤ p % 2 ^ b := by
      rcases hp.2 with h | h
      · have : 2 ^ b ≤ k * 2 ^ b := Nat.le_mul_of_pos_left _ (by omega)
        omega
      · exact h
    have e0 := cnt_aligned hb k hk
    have e1 := cnt_none (b := b) (p := k * 2 ^ b) 4 (fun q h1 h2 => isPay_marker hb hk h1 h2)
    have e2 := cnt_all (b := b) (p := k * 2 ^ b + 4) (p % 2 ^ b - 4) (fun q h1 h2 =>
        isPay_in (k := k) (fun h => absurd h hk) (fun _ => h1) (by rw [Nat.add_mul]; omega))
    rw [show k * 2 ^ b + 4 + (p % 2 ^ b - 4) = p by omega] at e2
    omega

/-- `_to_absolute`: a payload position with that many payload bytes before it -/
theorem toAbsolute_spec (o : Nat) : Spec.isPay b (BReader.toAbsolute b o) = true ∧ cnt b (BReader.toAbsolute b o) = o := by
  have hB := pow_big hb
  have key : Spec.isPay b (BReader.toAbsolute b o) = true ∧
      o + 4 * (BReader.toAbsolute b o / 2 ^ b) + 1 = BReader.toAbsolute b o := by
    unfold BReader.toAbsolute
    rw [Nat.shiftLeft_eq, Nat.one_mul]
    split
    · rename_i h
      refine ⟨isPay_in (k := 0) (fun _ => by omega) (by simp) (by omega), ?_⟩
      rw [Nat.div_eq_of_lt (by omega)]
    · rename_i h
      simp only
      have hd := Nat.div_add_mod (o + 1 - 2 ^ b) (2 ^ b - 4)
      have hm := Nat.mod_lt (o + 1 - 2 ^ b) (show 0 < 2 ^ b - 4 by omega)
      generalize (o + 1 - 2 ^ b) / (2 ^ b - 4) = k at *
      rw [Nat.mul_comm, Nat.mul_sub] at hd
      have hk4 : k * 4 ≤ k * 2 ^ b := Nat.mul_le_mul_left _ (by omega)
      have e : k * 4 + 2 ^ b + 4 + (o + 1 - 2 ^ b) = (k + 1) * 2 ^ b + 4 + (o + 1 - 2 ^ b) % (2 ^ b - 4) := by
        rw [Nat.add_mul]; omega
      rw [e]
      refine ⟨isPay_in (k := k + 1) (by simp) (fun _ => by omega) (by rw [Nat.add_mul (k + 1) 1]; omega), ?_⟩
      have : ((k + 1) * 2 ^ b + 4 + (o + 1 - 2 ^ b) % (2 ^ b - 4)) / 2 ^ b = k + 1 :=
        Nat.div_eq_of_lt_le (by omega) (by rw [Nat.add_mul (k + 1) 1]; omega)
      rw [this]
      rw [Nat.add_mul] at e ⊢
      omega
  refine ⟨key.1, ?_⟩
  have := cnt_pay hb key.1
  omega

omit hb in
/-- the payload byte at a payload position -/
theorem strip_get (raw : Bytes) {q : Nat} (hq : Spec.isPay b q = true) : (Spec.strip b raw)[cnt b q]? = raw[q]? := by
  by_cases h : q < raw.length
  · have e : raw = raw.take q ++ raw[q] :: raw.drop (q + 1) := by
      rw [List.getElem_cons_drop, List.take_append_drop]
    have hl : (Spec.stripFrom b 0 (raw.take q)).length = cnt b q := by
      have := strip_length b (raw.take q)
      rw [List.length_take, Nat.min_eq_left (by omega)] at this
      exact this
    have : Spec.strip b raw = Spec.stripFrom b 0 (raw.take q) ++ raw[q] :: Spec.stripFrom b (q + 1) (raw.drop (q + 1)) := by
      unfold Spec.strip
      conv => lhs; rw [e]
      rw [stripFrom_append, List.length_take, Nat.min_eq_left (by omega), Nat.zero_add]
      simp only [Spec.stripFrom, hq, if_true]
    rw [this, List.getElem?_append_right (by omega), hl]
    simp [h]
  · have h1 : (Spec.strip b raw).length ≤ cnt b q := by
      rw [strip_length]
      exact cnt_mono (by omega)
    rw [List.getElem?_eq_none h1, List.getElem?_eq_none (by omega)]

end

/-! ### C40 -/

/-- C40. The file position computed for a payload offset is where that payload byte lies (and there is none
if there is no such payload byte). -/
theorem C40_translation {b : Nat} (hb : 12 ≤ b ∧ b ≤ 30) (ops : List BWriter.Op) {s0 s} (h0 : BWriter.new b = .ok s0)
    (h : s0.run ops = .ok s) (i : Nat) : s.out[BReader.toAbsolute b i]? = (Spec.payload ops)[i]? := by
  obtain ⟨s0', s', g0, g1, -, g2, -⟩ := C38_layout hb ops
  rw [h0] at g0; cases g0
  rw [h] at g1; cases g1
  obtain ⟨h1, h2⟩ := toAbsolute_spec hb.1 i
  rw [← g2, ← strip_get s.out h1, h2]

/-- C40. Different offsets have different positions, in the same order. -/
theorem C40_increasing {b : Nat} (hb : 12 ≤ b) {i j : Nat} (h : i < j) : BReader.toAbsolute b i < BReader.toAbsolute b j := by
  obtain ⟨-, h1⟩ := toAbsolute_spec hb i
  obtain ⟨-, h2⟩ := toAbsolute_spec hb j
  rcases Nat.lt_or_ge (BReader.toAbsolute b i) (BReader.toAbsolute b j) with g | g
  · exact g
  · have := cnt_mono (b := b) g
    omega

/-- C40. After a seek, tell() is the offset. -/
theorem C40_tell (r : BReader) (hb : 12 ≤ r.boundary) (i : Nat) : (r.seek i).tell = i := by
  obtain ⟨h1, h2⟩ := toAbsolute_spec hb i
  have := cnt_pay hb h1
  simp only [BReader.tell, BReader.seek, Nat.shiftRight_eq_div_pow]
  omega

/-- C40. When the stream stands before a marker, as it does when everything before it has been read, tell() is
4 less than the number of payload bytes before. -/
theorem C40_tell_before_marker (r : BReader) (hb : 12 ≤ r.boundary) {k : Nat} (hk : k ≠ 0) (hp : r.pos = k * 2 ^ r.boundary) :
    r.tell = (cnt r.boundary r.pos : Int) - 4 := by
  have := cnt_aligned hb k hk
  have hB := pow_big hb
  simp only [BReader.tell, Nat.shiftRight_eq_div_pow]
  rw [hp, Nat.mul_div_cancel _ (by omega)]
  omega

/-! ### C41 -/

theorem guess_eq (b o : Nat) : BReader.guess b o = 4 * ((o + 1) / 2 ^ b) + o + 1 := by
  unfold BReader.guess
  rw [Nat.shiftRight_eq_div_pow]
  omega

theorem aligned_iff (b q : Nat) : (q >>> b) <<< b = q ↔ 2 ^ b ∣ q := by
  rw [Nat.shiftRight_eq_div_pow, Nat.shiftLeft_eq]
  exact ⟨fun h => ⟨q / 2 ^ b, by rw [Nat.mul_comm]; exact h.symm⟩, fun h => Nat.div_mul_cancel h⟩

theorem pay_not_aligned {b q : Nat} (hb : 12 ≤ b) (h : Spec.isPay b q = true) : ¬ 2 ^ b ∣ q := by
  have hB := pow_big hb
  rintro ⟨k, rfl⟩
  simp only [Spec.isPay, decide_eq_true_eq, Nat.mul_mod_right] at h
  obtain ⟨h1, h2 | h2⟩ := h
  · have : 0 < k := Nat.pos_of_ne_zero (by rintro rfl; simp at h1)
    have := Nat.le_mul_of_pos_right (2 ^ b) this
    omega
  · omega

/-- the part of the file between two positions -/
def slice (raw : Bytes) (a c : Nat) : Bytes := (raw.drop a).take (c - a)

theorem slice_length {raw : Bytes} {a c : Nat} (h : c ≤ raw.length) : (slice raw a c).length = c - a := by
  simp [slice]; omega

theorem slice_split {raw : Bytes} {a m c : Nat} (h1 : a ≤ m) (h2 : m ≤ c) : slice raw a c = slice raw a m ++ slice raw m c := by
  unfold slice
  rw [show c - a = (m - a) + (c - m) by omega, List.take_add, List.drop_drop, show a + (m - a) = m by omega]

theorem slice_self (raw : Bytes) {a c : Nat} (h : c ≤ a) : slice raw a c = [] := by
  unfold slice; rw [Nat.sub_eq_zero_of_le h]; rfl

/-- the end of a copy step -/
theorem seg_end {b cur : Nat} (hb : 12 ≤ b) (hc : Spec.isPay b cur = true) :
    cur < (cur / 2 ^ b + 1) * 2 ^ b ∧ ∀ q, cur ≤ q → q < (cur / 2 ^ b + 1) * 2 ^ b → Spec.isPay b q = true := by
  have hB := pow_big hb
  have hd := Nat.div_add_mod cur (2 ^ b)
  have hm := Nat.mod_lt cur (show 0 < 2 ^ b by omega)
  have hp := hc
  simp only [Spec.isPay, decide_eq_true_eq] at hp
  generalize cur / 2 ^ b = k at *
  rw [Nat.mul_comm] at hd
  refine ⟨by rw [Nat.add_mul]; omega, fun q h1 h2 => isPay_in (k := k) (fun _ => by omega) (fun hk => ?_) h2⟩
  have : 4 ≤ cur % 2 ^ b := by
    rcases hp.2 with h | h
    · have : 2 ^ b ≤ k * 2 ^ b := Nat.le_mul_of_pos_left _ (by omega)
      omega
    · exact h
  omega

/-- positions that are not inside or right after a marker -/
theorem seg_next {b cur stop : Nat} (hb : 12 ≤ b) (hs : Spec.isPay b stop = true ∨ 2 ^ b ∣ stop)
    (h : (cur / 2 ^ b + 1) * 2 ^ b < stop) : (cur / 2 ^ b + 1) * 2 ^ b + 4 ≤ stop := by
  have hB := pow_big hb
  rcases Nat.lt_or_ge stop ((cur / 2 ^ b + 1) * 2 ^ b + 4) with hlt | hge
  · exfalso
    rcases hs with hs | ⟨j, rfl⟩
    · rw [isPay_marker (k := cur / 2 ^ b + 1) hb (Nat.succ_ne_zero _) (by omega) hlt] at hs
      cases hs
    · rw [Nat.mul_comm (2 ^ b)] at h hlt
      have h1 : cur / 2 ^ b + 1 < j := Nat.lt_of_mul_lt_mul_right h
      have : (cur / 2 ^ b + 1 + 1) * 2 ^ b ≤ j * 2 ^ b := Nat.mul_le_mul_right _ h1
      rw [Nat.add_mul (cur / 2 ^ b + 1) 1] at this
      omega
  · exact hge

theorem copyLoop_count {b : Nat} (hb : 12 ≤ b) {all : Bytes} {stop : Nat} (hs : Spec.isPay b stop = true ∨ 2 ^ b ∣ stop) :
    ∀ (fuel : Nat) {output outPos rel cur}, Spec.isPay b cur = true ∨ stop ≤ cur → stop - cur < fuel →
    ∃ out, BReader.copyLoop b all stop fuel output outPos rel cur =
      .ok (out, if stop ≤ cur then outPos else outPos + (cnt b stop - cnt b cur)) := by
  intro fuel
  induction fuel with
  | zero => intro output outPos rel cur h hf; exact ⟨output, by exfalso; omega⟩
  | succ fuel ih =>
    intro output outPos rel cur h hf
    unfold BReader.copyLoop
    by_cases hc : cur < stop
    · have hp : Spec.isPay b cur = true := h.resolve_right (by omega)
      obtain ⟨e1, e2⟩ := seg_end hb hp
      rw [if_pos hc]
      simp only
      rw [Nat.shiftRight_eq_div_pow, Nat.shiftLeft_eq]
      by_cases hlt : (cur / 2 ^ b + 1) * 2 ^ b < stop
      · have hn := seg_next hb hs hlt
        rw [Nat.min_eq_left (by omega)]
        have e3 : cur + ((cur / 2 ^ b + 1) * 2 ^ b - cur) + 4 = (cur / 2 ^ b + 1) * 2 ^ b + 4 := by omega
        have hnext : Spec.isPay b ((cur / 2 ^ b + 1) * 2 ^ b + 4) = true :=
          isPay_in (k := cur / 2 ^ b + 1) (by simp) (fun _ => Nat.le_refl _) (by have := pow_big hb; rw [Nat.add_mul (cur / 2 ^ b + 1) 1]; omega)
        rw [e3]
        obtain ⟨out, ho⟩ := ih (output := output.take outPos ++ (all.drop rel).take ((cur / 2 ^ b + 1) * 2 ^ b - cur) ++
          output.drop (outPos + ((cur / 2 ^ b + 1) * 2 ^ b - cur))) (outPos := outPos + ((cur / 2 ^ b + 1) * 2 ^ b - cur))
          (rel := rel + 4 + ((cur / 2 ^ b + 1) * 2 ^ b - cur)) (.inl hnext) (by omega)
        refine ⟨out, ?_⟩
        rw [ho, if_neg (show ¬ stop ≤ cur by omega)]
        have c1 := cnt_all (b := b) (p := cur) ((cur / 2 ^ b + 1) * 2 ^ b - cur) (fun q h1 h2 => e2 q h1 (by omega))
        rw [show cur + ((cur / 2 ^ b + 1) * 2 ^ b - cur) = (cur / 2 ^ b + 1) * 2 ^ b by omega] at c1
        have c2 := cnt_none (b := b) (p := (cur / 2 ^ b + 1) * 2 ^ b) 4 (fun q h1 h2 => isPay_marker hb (Nat.succ_ne_zero _) h1 h2)
        have c3 := cnt_mono (b := b) hn
        split
        · rename_i hle
          have : stop = (cur / 2 ^ b + 1) * 2 ^ b + 4 := by omega
          have hcur : ¬ (cur / 2 ^ b + 1) * 2 ^ b + 4 ≤ cur := by omega
          rw [this, c2, c1]
          simp only [Except.ok.injEq, Prod.mk.injEq, true_and, hcur, if_false]
          omega
        · congr 2; omega
      · rw [Nat.min_eq_right (by omega)]
        obtain ⟨out, ho⟩ := ih (output := output.take outPos ++ (all.drop rel).take (stop - cur) ++
          output.drop (outPos + (stop - cur))) (outPos := outPos + (stop - cur)) (rel := rel + 4 + (stop - cur))
          (cur := cur + (stop - cur) + 4) (.inr (by omega)) (by omega)
        refine ⟨out, ?_⟩
        rw [ho, if_pos (by omega), if_neg (by omega)]
        have c1 := cnt_all (b := b) (p := cur) (stop - cur) (fun q h1 h2 => e2 q h1 (by omega))
        rw [show cur + (stop - cur) = stop by omega] at c1
        congr 2; omega
    · exact ⟨output, by rw [if_neg hc, if_pos (by omega)]⟩

theorem copyLoop_ok {b : Nat} (hb : 12 ≤ b) {raw : Bytes} {start stop : Nat} (hs : Spec.isPay b stop = true)
    (hle : stop ≤ raw.length) :
    ∀ (fuel : Nat) {done : Bytes} {cur}, Spec.isPay b cur = true ∨ stop ≤ cur → start ≤ cur → stop - cur < fuel →
    BReader.copyLoop b (slice raw start stop) stop fuel
      (done ++ List.replicate (Spec.stripFrom b cur (slice raw cur stop)).length 0) done.length (cur - start) cur =
      .ok (done ++ Spec.stripFrom b cur (slice raw cur stop), (done ++ Spec.stripFrom b cur (slice raw cur stop)).length) := by
  intro fuel
  induction fuel with
  | zero => intro done cur h _ hf; exfalso; omega
  | succ fuel ih =>
    intro done cur h hst hf
    unfold BReader.copyLoop
    by_cases hc : cur < stop
    · have hp : Spec.isPay b cur = true := h.resolve_right (by omega)
      obtain ⟨e1, e2⟩ := seg_end hb hp
      rw [if_pos hc]
      simp only
      rw [Nat.shiftRight_eq_div_pow, Nat.shiftLeft_eq]
      -- one step, for a piece that ends at `e`
      have step : ∀ e, cur < e → e ≤ stop → e ≤ (cur / 2 ^ b + 1) * 2 ^ b →
          Spec.stripFrom b cur (slice raw cur stop) = slice raw cur e ++ Spec.stripFrom b (e + 4) (slice raw (e + 4) stop) →
          BReader.copyLoop b (slice raw start stop) stop fuel
            ((done ++ List.replicate (Spec.stripFrom b cur (slice raw cur stop)).length 0).take done.length ++
              ((slice raw start stop).drop (cur - start)).take (e - cur) ++
              (done ++ List.replicate (Spec.stripFrom b cur (slice raw cur stop)).length 0).drop (done.length + (e - cur)))
            (done.length + (e - cur)) (cur - start + 4 + (e - cur)) (cur + (e - cur) + 4) =
          BReader.copyLoop b (slice raw start stop) stop fuel
            ((done ++ slice raw cur e) ++ List.replicate (Spec.stripFrom b (e + 4) (slice raw (e + 4) stop)).length 0)
            (done ++ slice raw cur e).length (e + 4 - start) (e + 4) := by
        intro e h1 h2 h3 hsp
        have hlen : (slice raw cur e).length = e - cur := slice_length (by omega)
        have a1 : ((slice raw start stop).drop (cur - start)).take (e - cur) = slice raw cur e := by
          unfold slice
          rw [List.drop_take, List.drop_drop, List.take_take, show start + (cur - start) = cur by omega,
            Nat.min_eq_left (by omega)]
        rw [a1, List.take_left, hsp]
        congr 1
        · rw [List.length_append, hlen, List.drop_append, List.drop_of_length_le (by omega), List.nil_append,
            List.drop_replicate]
          congr 2
          omega
        · rw [List.length_append, hlen]
        · omega
        · omega
      by_cases hlt : (cur / 2 ^ b + 1) * 2 ^ b < stop
      · have hn := seg_next hb (.inl hs) hlt
        rw [Nat.min_eq_left (by omega)]
        have hnext : Spec.isPay b ((cur / 2 ^ b + 1) * 2 ^ b + 4) = true :=
          isPay_in (k := cur / 2 ^ b + 1) (by simp) (fun _ => Nat.le_refl _) (by have := pow_big hb; rw [Nat.add_mul (cur / 2 ^ b + 1) 1]; omega)
        generalize hE : (cur / 2 ^ b + 1) * 2 ^ b = E at *
        have hsp : Spec.stripFrom b cur (slice raw cur stop) = slice raw cur E ++ Spec.stripFrom b (E + 4) (slice raw (E + 4) stop) := by
          rw [slice_split (m := E) (by omega) (by omega), stripFrom_append, slice_length (by omega)]
          rw [slice_split (a := E) (m := E + 4) (by omega) (by omega), stripFrom_append, slice_length (by omega)]
          rw [stripFrom_all (x := slice raw cur E) (fun q h1 h2 => e2 q h1 (by rw [slice_length (by omega)] at h2; omega))]
          rw [stripFrom_none (x := slice raw E (E + 4)) (fun q h1 h2 => by
            rw [slice_length (by omega)] at h2
            exact isPay_marker (k := cur / 2 ^ b + 1) hb (Nat.succ_ne_zero _) (by omega) (by omega))]
          rw [show cur + (E - cur) + (E + 4 - E) = E + 4 by omega, List.nil_append]
        rw [step E e1 (by omega) (Nat.le_refl _) hsp]
        rw [ih (.inl hnext) (by omega) (by omega), hsp, List.append_assoc]
      · rw [Nat.min_eq_right (by omega)]
        have hsp : Spec.stripFrom b cur (slice raw cur stop) = slice raw cur stop ++ Spec.stripFrom b (stop + 4) (slice raw (stop + 4) stop) := by
          rw [slice_self raw (show stop ≤ stop + 4 by omega)]
          rw [stripFrom_all (x := slice raw cur stop) (fun q h1 h2 => e2 q h1 (by rw [slice_length hle] at h2; omega))]
          simp [Spec.stripFrom]
        rw [step stop hc (Nat.le_refl _) (by omega) hsp]
        rw [ih (.inr (by omega)) (by omega) (by omega), hsp, List.append_assoc]
    · rw [if_neg hc, slice_self raw (show stop ≤ cur by omega)]
      simp [Spec.stripFrom]

section
variable {s : BReader} (hb : 12 ≤ s.boundary)
include hb

/-- a read that ends at the position `stop` of the file -/
theorem read_slice {n : Option Nat} {stop : Nat} (h1 : s.pos = BReader.toAbsolute s.boundary s.offset)
    (h2 : s.pos = BReader.guess s.boundary s.offset) (hs : Spec.isPay s.boundary stop = true)
    (hlt : s.pos < stop) (hle : stop ≤ s.raw.length)
    (hn : s.rawPart n = slice s.raw s.pos stop) :
    s.read n = ({ s with pos := stop, offset := cnt s.boundary stop },
      .ok (((Spec.strip s.boundary s.raw).drop s.offset).take (cnt s.boundary stop - s.offset))) := by
  obtain ⟨p1, p2⟩ := toAbsolute_spec hb s.offset
  rw [← h1] at p1 p2
  have c1 := cnt_pay hb p1
  have c2 := cnt_pay hb hs
  have cm := cnt_mono (b := s.boundary) (Nat.le_of_lt hlt)
  have hl := slice_length (a := s.pos) hle
  have hcopy := copyLoop_ok hb (start := s.pos) hs hle (stop + 1) (done := []) (cur := s.pos) (.inl p1) (Nat.le_refl _) (by omega)
  have hsl : (Spec.stripFrom s.boundary s.pos (slice s.raw s.pos stop)).length = cnt s.boundary stop - s.offset := by
    have := stripFrom_length s.boundary (slice s.raw s.pos stop) s.pos
    rw [hl, show s.pos + (stop - s.pos) = stop by omega] at this
    omega
  rw [hsl, Nat.sub_self, List.nil_append, List.nil_append, List.length_nil] at hcopy
  have hstrip : Spec.stripFrom s.boundary s.pos (slice s.raw s.pos stop) =
      ((Spec.strip s.boundary s.raw).drop s.offset).take (cnt s.boundary stop - s.offset) := by
    have e : s.raw = s.raw.take s.pos ++ (slice s.raw s.pos stop ++ s.raw.drop stop) := by
      have : s.raw.drop s.pos = slice s.raw s.pos stop ++ s.raw.drop stop := by
        unfold slice
        conv => lhs; rw [← List.take_append_drop (stop - s.pos) (s.raw.drop s.pos)]
        rw [List.drop_drop, show s.pos + (stop - s.pos) = stop by omega]
      rw [← this, List.take_append_drop]
    have hlt : (Spec.stripFrom s.boundary 0 (s.raw.take s.pos)).length = s.offset := by
      have := strip_length s.boundary (s.raw.take s.pos)
      rw [List.length_take, Nat.min_eq_left (by omega), p2] at this
      exact this
    unfold Spec.strip
    conv => rhs; rw [e]
    rw [stripFrom_append, stripFrom_append, List.length_take, Nat.min_eq_left (by omega), Nat.zero_add,
      ← hlt, List.drop_left, hlt, ← hsl, List.take_left]
  unfold BReader.read
  simp only [hn]
  rw [hl, if_neg (by omega), ← h2, show s.pos + (stop - s.pos) = stop by omega]
  have na1 : ¬ (s.pos >>> s.boundary) <<< s.boundary = s.pos := by rw [aligned_iff]; exact pay_not_aligned hb p1
  have na2 : ¬ (stop >>> s.boundary) <<< s.boundary = stop := by rw [aligned_iff]; exact pay_not_aligned hb hs
  rw [if_neg na1, if_neg na2]
  have hreal : (stop : Int) - (s.pos : Int) - ((stop >>> s.boundary : Nat) - ((s.pos >>> s.boundary : Nat) : Int)) * 4 =
      ((cnt s.boundary stop - s.offset : Nat) : Int) := by
    rw [Nat.shiftRight_eq_div_pow, Nat.shiftRight_eq_div_pow]
    omega
  rw [hreal, if_neg (by omega), Int.toNat_natCast, hcopy]
  simp only [hsl, ne_eq, not_true_eq_false, if_false]
  rw [← hstrip]
  congr 2
  omega

/-- a read that ends before a marker raises -/
theorem read_aligned {n : Option Nat} {stop : Nat} (h1 : s.pos = BReader.toAbsolute s.boundary s.offset)
    (h2 : s.pos = BReader.guess s.boundary s.offset) (hs : 2 ^ s.boundary ∣ stop)
    (hlt : s.pos + 8 < stop) (hle : stop ≤ s.raw.length)
    (hn : s.rawPart n = slice s.raw s.pos stop) :
    (s.read n).2 = .error .assertion ∨ (s.read n).2 = .error .value := by
  obtain ⟨p1, p2⟩ := toAbsolute_spec hb s.offset
  rw [← h1] at p1 p2
  have c1 := cnt_pay hb p1
  have cm := cnt_mono (b := s.boundary) (show s.pos ≤ stop by omega)
  have hB := pow_big hb
  have hl := slice_length (a := s.pos) hle
  have c2 : cnt s.boundary stop + 4 * (stop / 2 ^ s.boundary) + 1 = stop + 4 := by
    obtain ⟨k, rfl⟩ := hs
    have := cnt_aligned hb k (by rintro rfl; simp at hlt)
    rw [Nat.mul_div_cancel_left _ (by omega), Nat.mul_comm]
    exact this
  unfold BReader.read
  simp only [hn]
  rw [hl, if_neg (by omega), ← h2, show s.pos + (stop - s.pos) = stop by omega]
  have na1 : ¬ (s.pos >>> s.boundary) <<< s.boundary = s.pos := by rw [aligned_iff]; exact pay_not_aligned hb p1
  have na2 : (stop >>> s.boundary) <<< s.boundary = stop := by rw [aligned_iff]; exact hs
  rw [if_neg na1, if_pos na2]
  split
  · exact .inr rfl
  · obtain ⟨out, ho⟩ := copyLoop_count hb (all := slice s.raw s.pos stop) (.inr hs) (stop + 1)
      (output := List.replicate ((stop : Int) - (s.pos : Int) - ((stop >>> s.boundary : Nat) - ((s.pos >>> s.boundary : Nat) : Int)) * 4 - 4).toNat 0)
      (outPos := 0) (rel := 0) (cur := s.pos) (.inl p1) (by omega)
    rw [ho, if_neg (show ¬ stop ≤ s.pos by omega)]
    simp only
    rw [if_pos]
    · exact .inl rfl
    · rw [Nat.shiftRight_eq_div_pow, Nat.shiftRight_eq_div_pow]
      omega

end

namespace Spec

/-- an offset whose position `read` guesses right: not one of the first `4(k-1)` bytes of segment `k` -/
def Safe (b o : Nat) : Prop := ∀ k, 2 ≤ k → ¬ (k * 2 ^ b ≤ o + 1 + 4 * (k - 1) ∧ o + 1 < k * 2 ^ b)

/-- what a sequence of reads is to return: consecutive pieces of the payload -/
def pieces (data : Bytes) : List Nat → List Bytes
  | [] => []
  | n :: ns => data.take n :: pieces (data.drop n) ns

end Spec

/-- a sequence of `read` calls: what they return -/
def BReader.reads (s : BReader) : List Nat → List (Except PyErr Bytes)
  | [] => []
  | n :: ns => (s.read (some n)).2 :: BReader.reads (s.read (some n)).1 ns

theorem safe_guess {b o : Nat} (hb : 12 ≤ b) (h : Spec.Safe b o) : BReader.guess b o = BReader.toAbsolute b o := by
  obtain ⟨p1, p2⟩ := toAbsolute_spec hb o
  have c := cnt_pay hb p1
  have hB := pow_big hb
  rw [p2] at c
  have hd := Nat.div_add_mod (BReader.toAbsolute b o) (2 ^ b)
  have hm := Nat.mod_lt (BReader.toAbsolute b o) (show 0 < 2 ^ b by omega)
  have hp := p1
  simp only [Spec.isPay, decide_eq_true_eq] at hp
  rw [guess_eq]
  generalize BReader.toAbsolute b o = A at *
  have hk := h (A / 2 ^ b)
  generalize A / 2 ^ b = k at *
  rw [Nat.mul_comm] at hd
  have hr : k = 0 ∨ 4 ≤ A % 2 ^ b := by
    rcases hp.2 with g | g
    · left
      rcases Nat.eq_zero_or_pos k with h | h
      · exact h
      · have : 2 ^ b ≤ k * 2 ^ b := Nat.le_mul_of_pos_left _ h
        omega
    · exact .inr g
  have hlo : k * 2 ^ b ≤ o + 1 := by
    by_cases h2 : 2 ≤ k
    · have := hk h2
      rcases Nat.lt_or_ge (o + 1) (k * 2 ^ b) with g | g
      · exact absurd ⟨by omega, g⟩ this
      · exact g
    · rcases Nat.eq_zero_or_pos k with h | h
      · rw [h]; omega
      · have : k = 1 := by omega
        subst this; omega
  have : (o + 1) / 2 ^ b = k := Nat.div_eq_of_lt_le hlo (by rw [Nat.add_mul]; omega)
  rw [this]
  omega

theorem guess_le {b o : Nat} (hb : 12 ≤ b) : BReader.guess b o ≤ BReader.toAbsolute b o := by
  obtain ⟨p1, p2⟩ := toAbsolute_spec hb o
  have c := cnt_pay hb p1
  rw [p2] at c
  rw [guess_eq]
  have : (o + 1) / 2 ^ b ≤ BReader.toAbsolute b o / 2 ^ b := Nat.div_le_div_right (by omega)
  omega

/-- the stream stands at the offset, or everything has been read -/
def Synced (s : BReader) : Prop :=
  (s.pos = BReader.toAbsolute s.boundary s.offset ∧ s.pos = BReader.guess s.boundary s.offset) ∨
  (s.raw.length ≤ s.pos ∧ (Spec.strip s.boundary s.raw).length ≤ s.offset)

theorem read_end {s : BReader} {n} (h : s.raw.length ≤ s.pos) : s.read n = (s, .ok []) := by
  have : s.rawPart n = [] := by
    unfold BReader.rawPart
    rw [List.drop_of_length_le h]
    cases n <;> simp
  unfold BReader.read
  simp only [this, List.length_nil, if_true, Nat.add_zero]

theorem strip_end {b : Nat} {raw : Bytes} (hb : 12 ≤ b) {o : Nat} (h : raw.length ≤ BReader.toAbsolute b o) :
    (Spec.strip b raw).length ≤ o := by
  obtain ⟨p1, p2⟩ := toAbsolute_spec hb o
  rw [strip_length, ← p2]
  exact cnt_mono h

theorem strip_before {b : Nat} {raw : Bytes} (hb : 12 ≤ b) {o : Nat} (h : BReader.toAbsolute b o ≤ raw.length) :
    o ≤ (Spec.strip b raw).length := by
  obtain ⟨p1, p2⟩ := toAbsolute_spec hb o
  rw [strip_length, ← p2]
  exact cnt_mono h

theorem read_some {s : BReader} (hb : 12 ≤ s.boundary) (hend : Spec.isPay s.boundary s.raw.length = true)
    (hs : Synced s) {n : Nat} (hn : Spec.Safe s.boundary (s.offset + n) ∨
      s.raw.length ≤ BReader.guess s.boundary (s.offset + n)) :
    ∃ s', s.read (some n) = (s', .ok (((Spec.strip s.boundary s.raw).drop s.offset).take n)) ∧ Synced s' ∧
      s'.raw = s.raw ∧ s'.boundary = s.boundary ∧
      (s'.offset = s.offset + n ∨ ((Spec.strip s.boundary s.raw).length ≤ s'.offset ∧
        (Spec.strip s.boundary s.raw).length ≤ s.offset + n)) := by
  by_cases he : s.raw.length ≤ s.pos
  · have hl : (Spec.strip s.boundary s.raw).length ≤ s.offset := by
      rcases hs with ⟨h1, -⟩ | h
      · exact strip_end hb (by omega)
      · exact h.2
    refine ⟨s, ?_, hs, rfl, rfl, .inr ⟨hl, by omega⟩⟩
    rw [read_end he, List.drop_of_length_le hl, List.take_nil]
  · rcases hs with ⟨h1, h2⟩ | h
    rotate_left
    · exact absurd h.1 he
    have hoff : s.offset < (Spec.strip s.boundary s.raw).length := by
      obtain ⟨p1, p2⟩ := toAbsolute_spec hb s.offset
      have := strip_get s.raw p1
      rw [p2, ← h1, List.getElem?_eq_getElem (show s.pos < s.raw.length by omega)] at this
      obtain ⟨h, -⟩ := List.getElem?_eq_some_iff.mp this
      exact h
    have hmono : BReader.guess s.boundary s.offset ≤ BReader.guess s.boundary (s.offset + n) := by
      rw [guess_eq, guess_eq]
      have : (s.offset + 1) / 2 ^ s.boundary ≤ (s.offset + n + 1) / 2 ^ s.boundary := Nat.div_le_div_right (by omega)
      omega
    by_cases hg : BReader.guess s.boundary (s.offset + n) < s.raw.length
    · have hsafe := hn.resolve_right (by omega)
      have e := safe_guess hb hsafe
      obtain ⟨p1, p2⟩ := toAbsolute_spec hb (s.offset + n)
      by_cases h0 : n = 0
      · subst h0
        refine ⟨s, ?_, .inl ⟨h1, h2⟩, rfl, rfl, .inl rfl⟩
        unfold BReader.read BReader.rawPart
        simp only [Nat.add_zero, Nat.sub_self, List.take_zero, List.length_nil, if_true]
      · have hlt : s.pos < BReader.toAbsolute s.boundary (s.offset + n) := by
          rw [h1]; exact C40_increasing hb (by omega)
        have := read_slice hb (n := some n) h1 h2 p1 hlt (by omega) (by simp only [BReader.rawPart, slice, e, ← h2])
        rw [p2, show s.offset + n - s.offset = n by omega] at this
        exact ⟨_, this, .inl ⟨rfl, e.symm⟩, rfl, rfl, .inl rfl⟩
    · have hge : s.raw.length ≤ BReader.guess s.boundary (s.offset + n) := by omega
      have htot : (Spec.strip s.boundary s.raw).length ≤ s.offset + n :=
        strip_end hb (Nat.le_trans hge (guess_le hb))
      have hlen := strip_length s.boundary s.raw
      have := read_slice hb (n := some n) (stop := s.raw.length) h1 h2 hend (by omega) (Nat.le_refl _) (by
        simp only [BReader.rawPart, slice]
        rw [List.take_of_length_le (by rw [List.length_drop]; omega), List.take_of_length_le (by rw [List.length_drop]; omega)])
      rw [← hlen, List.take_of_length_le (by rw [List.length_drop]; omega)] at this
      refine ⟨{ s with pos := s.raw.length, offset := (Spec.strip s.boundary s.raw).length }, ?_, .inr ⟨Nat.le_refl _, Nat.le_refl _⟩, rfl, rfl, .inr ⟨Nat.le_refl _, htot⟩⟩
      rw [this, List.take_of_length_le (by rw [List.length_drop]; omega)]

theorem reads_ok (ns : List Nat) : ∀ {s : BReader} {o : Nat}, 12 ≤ s.boundary → Spec.isPay s.boundary s.raw.length = true →
    Synced s → (s.offset = o ∨ ((Spec.strip s.boundary s.raw).length ≤ s.offset ∧ (Spec.strip s.boundary s.raw).length ≤ o)) →
    (∀ j, 0 < j → j ≤ ns.length → Spec.Safe s.boundary (o + (ns.take j).sum) ∨
      s.raw.length ≤ BReader.guess s.boundary (o + (ns.take j).sum)) →
    s.reads ns = (Spec.pieces ((Spec.strip s.boundary s.raw).drop o) ns).map .ok := by
  induction ns with
  | nil => intros; rfl
  | cons n ns ih =>
    intro s o hb hend hs ho h
    by_cases hend2 : s.raw.length ≤ s.pos
    · -- everything has been read
      have hl : (Spec.strip s.boundary s.raw).length ≤ o := by
        rcases ho with ho | ho
        · rcases hs with ⟨h1, -⟩ | h
          · rw [← ho]; exact strip_end hb (by omega)
          · rw [← ho]; exact h.2
        · exact ho.2
      have hall : ∀ ms : List Nat, s.reads ms = (Spec.pieces ((Spec.strip s.boundary s.raw).drop o) ms).map .ok := by
        intro ms
        rw [List.drop_of_length_le hl]
        induction ms with
        | nil => rfl
        | cons m ms ih2 =>
          simp only [BReader.reads, Spec.pieces, List.map_cons, read_end hend2, List.take_nil, List.drop_nil, ih2]
      exact hall _
    · have ho' : s.offset = o := by
        rcases ho with ho | ho
        · exact ho
        · rcases hs with ⟨h1, -⟩ | h
          · have := strip_before hb (raw := s.raw) (o := s.offset) (by omega)
            obtain ⟨p1, p2⟩ := toAbsolute_spec hb s.offset
            have g := strip_get s.raw p1
            rw [p2, ← h1, List.getElem?_eq_getElem (show s.pos < s.raw.length by omega)] at g
            obtain ⟨h, -⟩ := List.getElem?_eq_some_iff.mp g
            omega
          · exact absurd h.1 hend2
      subst ho'
      have hn := h 1 (by omega) (by simp)
      simp only [List.take_succ_cons, List.take_zero, List.sum_cons, List.sum_nil, Nat.add_zero] at hn
      obtain ⟨s', e, hs', r1, r2, r3⟩ := read_some hb hend hs hn
      simp only [BReader.reads, Spec.pieces, List.map_cons, e]
      have hb' : 12 ≤ s'.boundary := by rw [r2]; exact hb
      have := ih (s := s') (o := s.offset + n) hb' (by rw [r1, r2]; exact hend) hs' (by rw [r1, r2]; exact r3)
        (fun j h0 hj => by
          have := h (j + 1) (by omega) (by simp; omega)
          simp only [List.take_succ_cons, List.sum_cons] at this
          rw [r1, r2, Nat.add_assoc]
          exact this)
      rw [this, r1, r2, List.drop_drop]

/-- a written file, opened for reading -/
theorem reader_of {b : Nat} (hb : 12 ≤ b ∧ b ≤ 30) (ops : List BWriter.Op) {s0 s} (h0 : BWriter.new b = .ok s0)
    (h : s0.run ops = .ok s) : ∃ r, BReader.new s.out = .ok r ∧ r.raw = s.out ∧ r.boundary = b ∧ r.offset = 0 ∧ r.pos = 1 ∧
      Spec.strip b s.out = Spec.payload ops ∧ (s.out.length = 1 ∨ Spec.isPay b (s.out.length - 1) = true) := by
  obtain ⟨s0', s', g0, g1, hd, g2, g3⟩ := C38_layout hb ops
  rw [h0] at g0; cases g0
  rw [h] at g1; cases g1
  match ho : s.out with
  | [] => rw [ho] at hd; cases hd
  | x :: xs =>
    rw [ho] at hd
    simp only [List.getElem?_cons_zero, Option.some.injEq] at hd
    have hx : x.toNat = b := by rw [hd, UInt8.toNat_ofNat']; exact Nat.mod_eq_of_lt (by omega)
    refine ⟨⟨x :: xs, 1, b, 0⟩, ?_, rfl, rfl, rfl, rfl, by rw [← ho]; exact g2, by rw [← ho]; exact g3⟩
    simp only [BReader.new, hx]
    rw [if_neg (by omega)]

theorem end_pay {b len : Nat} (hb : 12 ≤ b) (h : len = 1 ∨ Spec.isPay b (len - 1) = true) (hl : ¬ 2 ^ b ∣ len) (h1 : 0 < len) :
    Spec.isPay b len = true := by
  have hB := pow_big hb
  rcases h with rfl | h
  · simp only [Spec.isPay, decide_eq_true_eq]; omega
  · obtain ⟨e1, e2⟩ := seg_end hb h
    rcases Nat.lt_or_ge len (((len - 1) / 2 ^ b + 1) * 2 ^ b) with g | g
    · exact e2 len (by omega) g
    · exact absurd ⟨(len - 1) / 2 ^ b + 1, by rw [Nat.mul_comm]; omega⟩ hl

theorem start_synced {r : BReader} (hb : 12 ≤ r.boundary) (h1 : r.offset = 0) (h2 : r.pos = 1) : Synced r := by
  have hB := pow_big hb
  left
  rw [h1, h2, guess_eq, Nat.div_eq_of_lt (by omega)]
  refine ⟨?_, rfl⟩
  unfold BReader.toAbsolute
  rw [Nat.shiftLeft_eq, Nat.one_mul, if_pos (by omega)]

/-- C41, the property as wished for: any reads return consecutive pieces of the payload. `C41_fails_*` below. -/
def C41_full : Prop := ∀ (b : Nat), 12 ≤ b ∧ b ≤ 30 → ∀ (ops : List BWriter.Op) {s0 s}, BWriter.new b = .ok s0 →
  s0.run ops = .ok s → ∃ r, BReader.new s.out = .ok r ∧
    (∀ ns, r.reads ns = (Spec.pieces (Spec.payload ops) ns).map .ok) ∧ (r.read none).2 = .ok (Spec.payload ops)

/-- C41 for files that do not end right before a marker and reads that do not stop inside the region at the
beginning of a segment where the position is guessed wrongly.
Missing: the other files and reads, for which the claim is false (`C41_fails_at_end`, `C41_fails_inside`). -/
theorem C41_reads_partial {b : Nat} (hb : 12 ≤ b ∧ b ≤ 30) (ops : List BWriter.Op) {s0 s} (h0 : BWriter.new b = .ok s0)
    (h : s0.run ops = .ok s) (hend : ¬ 2 ^ b ∣ s.out.length) (ns : List Nat)
    (hns : ∀ j, 0 < j → j ≤ ns.length → Spec.Safe b (ns.take j).sum ∨
      s.out.length ≤ (ns.take j).sum + 1 + 4 * (((ns.take j).sum + 1) / 2 ^ b)) :
    ∃ r, BReader.new s.out = .ok r ∧ r.reads ns = (Spec.pieces (Spec.payload ops) ns).map .ok := by
  obtain ⟨r, e, r1, r2, r3, r4, g2, g3⟩ := reader_of hb ops h0 h
  have hlen : 0 < s.out.length := by
    rcases g3 with g | g
    · omega
    · rcases Nat.eq_zero_or_pos s.out.length with h | h
      · rw [h] at g; simp [Spec.isPay] at g
      · exact h
  have hp := end_pay hb.1 g3 hend hlen
  refine ⟨r, e, ?_⟩
  have := reads_ok ns (s := r) (o := 0) (by omega) (by rw [r1, r2]; exact hp) (start_synced (by omega) r3 r4) (.inl r3)
    (fun j hj1 hj => by
      rw [r1, r2, Nat.zero_add]
      rcases hns j hj1 hj with g | g
      · exact .inl g
      · exact .inr (by rw [guess_eq]; omega))
  rw [r1, r2, g2, List.drop_zero] at this
  exact this

/-- C41 for files of at most two segments (payloads of fewer than `2^(b+1) - 4` bytes, file length other than
`2^b`): any sequence of reads. Missing: longer files, see `C41_reads_partial`. -/
theorem C41_small_partial {b : Nat} (hb : 12 ≤ b ∧ b ≤ 30) (ops : List BWriter.Op) {s0 s} (h0 : BWriter.new b = .ok s0)
    (h : s0.run ops = .ok s) (hend : s.out.length ≠ 2 ^ b) (hlen : s.out.length < 2 ^ (b + 1)) (ns : List Nat) :
    ∃ r, BReader.new s.out = .ok r ∧ r.reads ns = (Spec.pieces (Spec.payload ops) ns).map .ok := by
  have hB := pow_big hb.1
  rw [Nat.pow_succ] at hlen
  have hpos : 0 < s.out.length := by
    obtain ⟨r, e, r1, -, -, -, -, g3⟩ := reader_of hb ops h0 h
    cases ho : s.out with
    | nil => rw [ho] at e; cases e
    | cons a l => simp
  refine C41_reads_partial hb ops h0 h ?_ ns (fun j _ _ => ?_)
  · rintro ⟨k, hk⟩
    have : k < 2 := by
      have : 2 ^ b * k < 2 ^ b * 2 := by omega
      exact Nat.lt_of_mul_lt_mul_left this
    have : k = 0 ∨ k = 1 := by omega
    rcases this with rfl | rfl <;> omega
  · generalize (ns.take j).sum = x
    by_cases hx : x + 1 + 4 < 2 ^ b * 2
    · left
      intro k hk ⟨g1, g2⟩
      have hk2 : 2 ^ b * 2 ≤ k * 2 ^ b := by rw [Nat.mul_comm]; exact Nat.mul_le_mul_right _ hk
      -- k segments less 4 (k-1) bytes are at least two segments less 4
      have : (k - 2) * 4 ≤ (k - 2) * 2 ^ b := Nat.mul_le_mul_left _ (by omega)
      have e : k * 2 ^ b = (k - 2) * 2 ^ b + 2 * 2 ^ b := by rw [← Nat.add_mul]; congr 1; omega
      omega
    · right
      have : 1 ≤ (x + 1) / 2 ^ b := (Nat.le_div_iff_mul_le (by omega)).mpr (by omega)
      omega

/-- C41, reading everything at once, for files that do not end right before a marker.
Missing: files that do, for which it raises (`C41_fails_at_end`). -/
theorem C41_all_partial {b : Nat} (hb : 12 ≤ b ∧ b ≤ 30) (ops : List BWriter.Op) {s0 s} (h0 : BWriter.new b = .ok s0)
    (h : s0.run ops = .ok s) (hend : ¬ 2 ^ b ∣ s.out.length) :
    ∃ r, BReader.new s.out = .ok r ∧ (r.read none).2 = .ok (Spec.payload ops) := by
  obtain ⟨r, e, r1, r2, r3, r4, g2, g3⟩ := reader_of hb ops h0 h
  have hpos : 0 < s.out.length := by
    cases ho : s.out with
    | nil => rw [ho] at e; cases e
    | cons a l => simp
  have hp := end_pay hb.1 g3 hend hpos
  refine ⟨r, e, ?_⟩
  have hb' : 12 ≤ r.boundary := by omega
  by_cases h1 : s.out.length = 1
  · rw [read_end (by rw [r1, r4]; omega)]
    have := strip_length b s.out
    have h1' : cnt b 1 = 0 := by simp [cnt, Spec.isPay]
    rw [h1, h1', g2] at this
    rw [List.eq_nil_of_length_eq_zero this]
  · have hsy := start_synced hb' r3 r4
    rcases hsy with ⟨s1, s2⟩ | ⟨s1, -⟩
    · have := read_slice hb' (n := none) (stop := s.out.length) s1 s2 (by rw [r2]; exact hp) (by rw [r4]; omega)
        (by rw [r1]; exact Nat.le_refl _) (by
          simp only [BReader.rawPart, slice]
          rw [List.take_of_length_le (by rw [List.length_drop, r1]; omega)])
      rw [this]
      simp only [r1, r2, r3, List.drop_zero, Nat.sub_zero]
      rw [← strip_length, List.take_length, g2]
    · rw [r1, r4] at s1; omega

/-- C41 fails: a file that ends right before a marker (payload of `k (2^b - 4) + 3` bytes, `k ≥ 1`) cannot be
read to its end. -/
theorem C41_fails_at_end {b : Nat} (hb : 12 ≤ b ∧ b ≤ 30) (ops : List BWriter.Op) {s0 s} (h0 : BWriter.new b = .ok s0)
    (h : s0.run ops = .ok s) (hend : 2 ^ b ∣ s.out.length) :
    ∃ r, BReader.new s.out = .ok r ∧ ((r.read none).2 = .error .assertion ∨ (r.read none).2 = .error .value) := by
  have hB := pow_big hb.1
  obtain ⟨r, e, r1, r2, r3, r4, g2, g3⟩ := reader_of hb ops h0 h
  have hpos : 0 < s.out.length := by
    cases ho : s.out with
    | nil => rw [ho] at e; cases e
    | cons a l => simp
  have hge := Nat.le_of_dvd hpos hend
  have hb' : 12 ≤ r.boundary := by omega
  refine ⟨r, e, ?_⟩
  rcases start_synced hb' r3 r4 with ⟨s1, s2⟩ | ⟨s1, -⟩
  · exact read_aligned hb' (n := none) (stop := s.out.length) s1 s2 (by rw [r2]; exact hend) (by rw [r4]; omega)
      (by rw [r1]; exact Nat.le_refl _) (by
        simp only [BReader.rawPart, slice]
        rw [List.take_of_length_le (by rw [List.length_drop, r1]; omega)])
  · rw [r1, r4] at s1; omega

/-- C41 fails: in any file with at least `2^(b+1)` bytes, reading the first `2^(b+1) - 5` payload bytes raises. -/
theorem C41_fails_inside {b : Nat} (hb : 12 ≤ b ∧ b ≤ 30) (ops : List BWriter.Op) {s0 s} (h0 : BWriter.new b = .ok s0)
    (h : s0.run ops = .ok s) (hlen : 2 ^ (b + 1) ≤ s.out.length) :
    ∃ r, BReader.new s.out = .ok r ∧ ((r.read (some (2 ^ (b + 1) - 5))).2 = .error .assertion ∨
      (r.read (some (2 ^ (b + 1) - 5))).2 = .error .value) := by
  have hB := pow_big hb.1
  obtain ⟨r, e, r1, r2, r3, r4, g2, g3⟩ := reader_of hb ops h0 h
  have hb' : 12 ≤ r.boundary := by omega
  rw [Nat.pow_succ] at hlen ⊢
  refine ⟨r, e, ?_⟩
  have hg : BReader.guess b (2 ^ b * 2 - 5) = 2 ^ b * 2 := by
    rw [guess_eq]
    have : (2 ^ b * 2 - 5 + 1) / 2 ^ b = 1 := Nat.div_eq_of_lt_le (by omega) (by omega)
    rw [this]; omega
  have hg0 : BReader.guess b 0 = 1 := by
    rw [guess_eq, Nat.div_eq_of_lt (by omega)]
  rcases start_synced hb' r3 r4 with ⟨s1, s2⟩ | ⟨s1, -⟩
  · exact read_aligned hb' (n := some (2 ^ b * 2 - 5)) (stop := 2 ^ b * 2) s1 s2 (by rw [r2]; exact ⟨2, rfl⟩) (by rw [r4]; omega)
      (by rw [r1]; exact hlen) (by
        simp only [BReader.rawPart, slice, r1, r2, r3, r4, Nat.zero_add, hg, hg0])
  · rw [r1, r4] at s1; omega

/-- C41 does not hold for all files and reads. -/
theorem C41_full_fails : ¬ C41_full := by
  intro hf
  obtain ⟨s0, s, h0, h, -, -, g3⟩ := C38_layout (b := 12) (by decide) [.write (List.replicate 4095 7)]
  obtain ⟨r, hr, -, h1⟩ := hf 12 (by decide) [.write (List.replicate 4095 7)] h0 h
  have hl := C38_length (by decide) _ h0 h
  have hlen : s.out.length = 4096 := by
    have hp : (Spec.payload [.write (List.replicate 4095 7)]).length = 4095 := by
      simp only [Spec.payload, List.append_nil, List.length_replicate]
    rw [hp] at hl
    simp only [Spec.isPay, decide_eq_true_eq] at g3
    omega
  obtain ⟨r', hr', h2⟩ := C41_fails_at_end (b := 12) (by decide) _ h0 h (by rw [hlen]; exact ⟨1, rfl⟩)
  rw [hr] at hr'; cases hr'
  rw [h1] at h2
  rcases h2 with h2 | h2 <;> cases h2

-- 5000 bytes read in pieces of 4000, 500 and the rest: reads across the marker at 4096
example : (match BWriter.new 12 with
    | .error _ => none
    | .ok s0 => match s0.run [.write (List.replicate 4095 7 ++ List.replicate 905 9)] with
      | .error _ => none
      | .ok s => match BReader.new s.out with
        | .error _ => none
        | .ok r => some (r.reads [4000, 500, 5000, 1])) =
    some [.ok (List.replicate 4000 7), .ok (List.replicate 95 7 ++ List.replicate 405 9), .ok (List.replicate 500 9), .ok []] := by
  decide +kernel

end Verif
