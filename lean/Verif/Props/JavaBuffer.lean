import Verif.Model.JavaStream
/-
C79: ByteOutputBuffer and DeflateCodec of the Java library.
-/
set_option linter.unusedSimpArgs false
namespace Verif

namespace Spec

/-- the bytes of some writes -/
def bytesOf : List JBuffer.Op → Bytes
  | [] => []
  | .byte c :: ops => c :: bytesOf ops
  | .arr d :: ops => d ++ bytesOf ops

end Spec

/-- `data` has been written -/
structure BufInv (s : JBuffer) (data : Bytes) : Prop where
  pos0 : 0 < s.buffersize
  cur : s.current.length = s.buffersize
  full : ∀ b ∈ s.full, b.length = s.buffersize
  le : s.pos ≤ s.buffersize
  eq : data = s.full.flatten ++ s.current.take s.pos
  num : s.written = data.length

theorem bufNew {n : Nat} (h : 0 < n) : BufInv (JBuffer.new n) [] :=
  ⟨h, by simp [JBuffer.new], by simp [JBuffer.new], by simp [JBuffer.new], by simp [JBuffer.new], rfl⟩

theorem bufGrow {s : JBuffer} {data : Bytes} (h : BufInv s data) (he : s.pos = s.current.length) : BufInv s.grow data := by
  refine ⟨h.pos0, by simp [JBuffer.grow], ?_, by simp [JBuffer.grow], ?_, h.num⟩
  · intro b hb
    simp only [JBuffer.grow, List.mem_append, List.mem_singleton] at hb
    rcases hb with hb | rfl
    · exact h.full b hb
    · exact h.cur
  · rw [h.eq, he]
    simp [JBuffer.grow]

theorem bufReady {s : JBuffer} {data : Bytes} (h : BufInv s data) :
    BufInv (if s.pos = s.current.length then s.grow else s) data ∧
    (if s.pos = s.current.length then s.grow else s).pos < (if s.pos = s.current.length then s.grow else s).current.length := by
  by_cases he : s.pos = s.current.length
  · rw [if_pos he]
    refine ⟨bufGrow h he, ?_⟩
    simp only [JBuffer.grow, List.length_replicate]
    exact h.pos0
  · rw [if_neg he]
    refine ⟨h, ?_⟩
    have := h.le; have := h.cur; omega

theorem set_take {l : Bytes} {i : Nat} (c : UInt8) (h : i < l.length) : (l.set i c).take (i + 1) = l.take i ++ [c] := by
  rw [List.take_add_one, List.getElem?_set_self h, Option.toList_some, List.take_set_of_le (Nat.le_refl i)]

theorem bufByte {s : JBuffer} {data : Bytes} (h : BufInv s data) (c : UInt8) : ∃ s', s.writeByte c = .ok s' ∧ BufInv s' (data ++ [c]) := by
  obtain ⟨h1, h2⟩ := bufReady h
  unfold JBuffer.writeByte
  generalize (if s.pos = s.current.length then s.grow else s) = s1 at h1 h2
  simp only [if_pos h2]
  refine ⟨_, rfl, h1.pos0, by simp [h1.cur], h1.full, ?_, ?_, ?_⟩
  · have := h1.cur
    show s1.pos + 1 ≤ s1.buffersize
    omega
  · simp only [set_take c h2, ← List.append_assoc, ← h1.eq]
  · simp only [List.length_append, List.length_singleton, h1.num]

theorem blit_take {l d : Bytes} {i : Nat} (h : i + d.length ≤ l.length) : (JBuffer.blit l i d).take (i + d.length) = l.take i ++ d := by
  have e : (l.take i ++ d).length = i + d.length := by simp; omega
  unfold JBuffer.blit
  rw [← e, List.take_left]

theorem blit_length {l d : Bytes} {i : Nat} (h : i + d.length ≤ l.length) : (JBuffer.blit l i d).length = l.length := by
  simp only [JBuffer.blit, List.length_append, List.length_take, List.length_drop]; omega

theorem bufLoop (fuel : Nat) : ∀ {s : JBuffer} {data : Bytes} (d : Bytes), BufInv s data → (d ≠ [] → s.pos < s.current.length) → d.length < fuel →
    ∃ s', s.writeLoop fuel d = .ok s' ∧ BufInv s' (data ++ d) := by
  induction fuel with
  | zero => intro s data d _ _ h; omega
  | succ fuel ih =>
    intro s data d h hp hf
    unfold JBuffer.writeLoop
    by_cases hd : d.length > 0
    · rw [if_pos hd]
      have hp := hp (by intro e; simp [e] at hd)
      have hcur := h.cur
      obtain ⟨m, hm⟩ : ∃ m, min (s.current.length - s.pos) d.length = m := ⟨_, rfl⟩
      have hm1 : 0 < m := by omega
      have hm2 : (d.take m).length = m := by rw [List.length_take]; omega
      have hm3 : s.pos + (d.take m).length ≤ s.current.length := by omega
      have hinv : BufInv { s with current := JBuffer.blit s.current s.pos (d.take m), pos := s.pos + m, written := s.written + m } (data ++ d.take m) := by
        refine ⟨h.pos0, ?_, h.full, ?_, ?_, ?_⟩
        · show (JBuffer.blit _ _ _).length = s.buffersize
          rw [blit_length hm3, hcur]
        · show s.pos + m ≤ s.buffersize
          omega
        · have := blit_take hm3
          rw [hm2] at this
          simp only [this, ← List.append_assoc, ← h.eq]
        · simp only [List.length_append, hm2, h.num]
      have hlen : (d.drop m).length < fuel := by rw [List.length_drop]; omega
      have hsplit : data ++ d = data ++ d.take m ++ d.drop m := by rw [List.append_assoc, List.take_append_drop]
      rw [hsplit]
      have key : ∀ s1 : JBuffer, BufInv s1 (data ++ d.take m) → ∃ s', JBuffer.writeLoop fuel
          (if s1.pos = s1.current.length ∧ (d.drop m).length > 0 then s1.grow else s1) (d.drop m) = .ok s' ∧
          BufInv s' (data ++ d.take m ++ d.drop m) := by
        intro s1 hi
        by_cases hg : s1.pos = s1.current.length ∧ (d.drop m).length > 0
        · rw [if_pos hg]
          refine ih (d.drop m) (bufGrow hi hg.1) (fun _ => ?_) hlen
          simp only [JBuffer.grow, List.length_replicate]
          exact hi.pos0
        · rw [if_neg hg]
          refine ih (d.drop m) hi (fun hne => ?_) hlen
          have : (d.drop m).length > 0 := List.length_pos_iff.mpr hne
          have := hi.le
          have := hi.cur
          omega
      subst hm
      exact key _ hinv
    · rw [if_neg hd]
      have : d = [] := List.eq_nil_of_length_eq_zero (by omega)
      subst this
      exact ⟨s, rfl, by rw [List.append_nil]; exact h⟩

theorem bufWrite {s : JBuffer} {data : Bytes} (h : BufInv s data) (d : Bytes) : ∃ s', s.write d = .ok s' ∧ BufInv s' (data ++ d) := by
  obtain ⟨h1, h2⟩ := bufReady h
  exact bufLoop _ d h1 (fun _ => h2) (by omega)

theorem collect_ok : ∀ (bs : List Bytes) (k : Nat), k ≤ bs.flatten.length → JBuffer.collect bs k = .ok (bs.flatten.take k) := by
  intro bs
  induction bs with
  | nil => intro k h; simp at h; subst h; rfl
  | cons b bs ih =>
    intro k h
    unfold JBuffer.collect
    by_cases hk : k > 0
    · rw [if_pos hk]
      simp only [List.flatten_cons, List.length_append] at h
      rw [ih _ (by omega)]
      simp only [List.flatten_cons, List.take_append]
      congr 2
      · rw [Nat.min_comm, List.take_eq_take_iff]; omega
      · congr 1; omega
    · rw [if_neg hk]
      have : k = 0 := by omega
      subst this; rfl

theorem bufArray {s : JBuffer} {data : Bytes} (h : BufInv s data) : s.toByteArray = .ok data := by
  have hle : s.written ≤ (s.full ++ [s.current]).flatten.length := by
    rw [h.num, h.eq]
    simp only [List.flatten_append, List.length_append, List.length_take, List.flatten_cons, List.flatten_nil, List.append_nil]
    omega
  unfold JBuffer.toByteArray
  rw [collect_ok _ _ hle, h.num, h.eq]
  congr 1
  have : (s.full ++ [s.current]).flatten = s.full.flatten ++ s.current.take s.pos ++ s.current.drop s.pos := by
    rw [List.append_assoc, List.take_append_drop]; simp
  rw [this, List.take_left]

/-- C79. A ByteOutputBuffer of any size but 0 takes every sequence of writes; `toByteArray()` is what was written and
`length()` its length. -/
theorem C79_buffer {n : Nat} (hn : 0 < n) (ops : List JBuffer.Op) : ∃ s, (JBuffer.new n).run ops = .ok s ∧
    s.toByteArray = .ok (Spec.bytesOf ops) ∧ s.written = (Spec.bytesOf ops).length := by
  have gen : ∀ (ops : List JBuffer.Op) {s : JBuffer} {data : Bytes}, BufInv s data → ∃ s', s.run ops = .ok s' ∧ BufInv s' (data ++ Spec.bytesOf ops) := by
    intro ops
    induction ops with
    | nil => intro s data h; exact ⟨s, rfl, by simpa [Spec.bytesOf] using h⟩
    | cons op ops ih =>
      intro s data h
      cases op with
      | byte c =>
        obtain ⟨s1, e1, h1⟩ := bufByte h c
        obtain ⟨s2, e2, h2⟩ := ih h1
        refine ⟨s2, by simp only [JBuffer.run, e1, e2], ?_⟩
        simpa [Spec.bytesOf] using h2
      | arr d =>
        obtain ⟨s1, e1, h1⟩ := bufWrite h d
        obtain ⟨s2, e2, h2⟩ := ih h1
        refine ⟨s2, by simp only [JBuffer.run, e1, e2], ?_⟩
        simpa [Spec.bytesOf] using h2
  obtain ⟨s, e, h⟩ := gen ops (bufNew hn)
  rw [List.nil_append] at h
  exact ⟨s, e, bufArray h, h.num⟩

/-- non-vacuity: writes that fill several arrays -/
example : ((JBuffer.new 2).run [.arr [1, 2, 3], .byte 4, .arr [], .arr [5, 6, 7, 8]]).bind (·.toByteArray) = .ok [1, 2, 3, 4, 5, 6, 7, 8] := by
  decide

/-- C79 fails for a buffer of size 0: a byte is refused, an array makes the loop go on for ever. -/
theorem C79_size_zero : (JBuffer.new 0).writeByte 1 = .error .index ∧
    ∀ fuel s (d : Bytes), s.current = [] → s.buffersize = 0 → s.pos = 0 → d ≠ [] → JBuffer.writeLoop fuel s d = .error .unmodelled := by
  refine ⟨by decide, fun fuel => ?_⟩
  induction fuel with
  | zero => intro s d _ _ _ _; rfl
  | succ fuel ih =>
    intro s d hc hb hp hd
    have hl : d.length > 0 := List.length_pos_iff.mpr hd
    unfold JBuffer.writeLoop
    rw [if_pos hl]
    simp only [hc, hp, List.length_nil, Nat.sub_self, Nat.zero_min, List.drop_zero, List.take_zero]
    refine ih _ d ?_ ?_ ?_ hd
    · split <;> simp [JBuffer.grow, JBuffer.blit, hb]
    · split <;> simp [JBuffer.grow, hb]
    · split <;> simp [JBuffer.grow, hp]

/-! ### DeflateCodec -/

theorem flTake (f : JFlater) : (f.take 1024).2 ++ (f.take 1024).1.out = f.out ∧ (f.take 1024).1.whole = f.whole ∧
    (f.out ≠ [] → (f.take 1024).1.out.length < f.out.length) := by
  unfold JFlater.take
  cases hc : f.chunks with
  | nil =>
    refine ⟨by simp, rfl, fun h => ?_⟩
    have := List.length_pos_iff.mpr h
    simp only [List.length_drop]; omega
  | cons c cs =>
    refine ⟨by simp, rfl, fun h => ?_⟩
    have := List.length_pos_iff.mpr h
    simp only [List.length_drop]; omega

/-- C79. `compress` and `decompress` return what the library gives, in whatever pieces it gives it, if the input is
complete. -/
theorem C79_deflate_partial {f : JFlater} (h : f.whole = true) {fuel : Nat} (hf : f.out.length < fuel) : f.codec fuel = .ok f.out := by
  have gen : ∀ (fuel : Nat) {f : JFlater} {b : JBuffer} {data : Bytes}, f.whole = true → f.out.length < fuel → BufInv b data →
      JFlater.drain fuel f b = .ok (data ++ f.out) := by
    intro fuel
    induction fuel with
    | zero => intro f b data _ h; omega
    | succ fuel ih =>
      intro f b data hw hf hb
      obtain ⟨e, h1⟩ := bufWrite hb (f.take 1024).2
      obtain ⟨t1, t2, t3⟩ := flTake f
      unfold JFlater.drain
      rw [h1.1]
      simp only
      by_cases hfin : (f.take 1024).1.finished = true
      · rw [if_pos hfin]
        simp only [JFlater.finished, Bool.and_eq_true, List.isEmpty_iff] at hfin
        rw [hfin.2, List.append_nil] at t1
        rw [bufArray h1.2, t1]
      · rw [if_neg hfin]
        have hne : (f.take 1024).1.out ≠ [] := by
          intro he
          apply hfin
          simp [JFlater.finished, he, t2, hw]
        have hne' : f.out ≠ [] := by
          intro he
          rw [he] at t1
          exact hne (List.append_eq_nil_iff.mp t1).2
        rw [ih (by rw [t2, hw]) (by have := t3 hne'; omega) h1.2, List.append_assoc, t1]
  rw [JFlater.codec, gen fuel h hf (bufNew (by decide)), List.nil_append]

/-- non-vacuity: a library that gives 3000 bytes in pieces of at most 700 -/
example : (JFlater.mk (List.replicate 3000 7) [699, 699] true).codec 10 = .ok (List.replicate 3000 7) := by
  decide +kernel

/-- C79 in full: `decompress` comes to an end on every input. -/
def C79_full : Prop := ∀ f : JFlater, ∃ fuel, f.codec fuel ≠ .error .unmodelled

/-- C79 fails for input that ends too early: the loop goes on for ever. -/
theorem C79_truncated_hangs {f : JFlater} (h : f.whole = false) (fuel : Nat) : f.codec fuel = .error .unmodelled := by
  have gen : ∀ (fuel : Nat) {f : JFlater} {b : JBuffer} {data : Bytes}, f.whole = false → BufInv b data → JFlater.drain fuel f b = .error .unmodelled := by
    intro fuel
    induction fuel with
    | zero => intro f b data _ _; rfl
    | succ fuel ih =>
      intro f b data hw hb
      obtain ⟨e, h1, h2⟩ := bufWrite hb (f.take 1024).2
      obtain ⟨-, t2, -⟩ := flTake f
      unfold JFlater.drain
      rw [h1]
      simp only
      rw [if_neg (by simp [JFlater.finished, t2, hw])]
      exact ih (by rw [t2, hw]) h2
  exact gen fuel h (bufNew (by decide))

theorem C79_full_false : ¬ C79_full := by
  intro h
  obtain ⟨fuel, hf⟩ := h ⟨[], [], false⟩
  exact hf (C79_truncated_hangs rfl fuel)

end Verif
