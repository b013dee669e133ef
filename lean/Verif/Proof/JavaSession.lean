import Verif.Model.JavaSession
import Verif.Props.JavaCut
import Verif.Proof.FileSession
/-
The packer and the writer of Verif.Model.JavaSession: what a call puts on the stream, whether or not it raises.
-/
set_option linter.unusedSimpArgs false
namespace Verif

/-- what has arrived and what is in the buffer -/
def JPacker.all (p : JPacker) : Bytes := p.sink.out ++ p.buf.getD []

/-- the call adds these bytes; if it raises, some of them may have arrived, after all that was there before -/
structure Adds (a : JPacker.Act) (b : Bytes) : Prop where
  ok : ∀ p, (a p).2 = none → (a p).1.all = p.all ++ b
  sub : ∀ p, (a p).1.sink.out <+: p.all ++ b
  grows : ∀ p, p.sink.out <+: (a p).1.sink.out
  closed : ∀ p, (a p).1.sink.closed = p.sink.closed
  still : ∀ p, p.sink.closed = true → (a p).1.sink.out = p.sink.out

theorem sink_write_ok {s : JSink} {b : Bytes} (h : (s.write b).2 = none) : (s.write b).1.out = s.out ++ b := by
  unfold JSink.write at h ⊢
  by_cases hc : s.closed = true
  · rw [if_pos hc] at h; cases h
  · rw [if_neg hc] at h ⊢
    cases hr : s.rule.headD none with
    | none => rfl
    | some k => rw [hr] at h; cases h

theorem sink_write_sub (s : JSink) (b : Bytes) : (s.write b).1.out <+: s.out ++ b := by
  unfold JSink.write
  by_cases hc : s.closed = true
  · rw [if_pos hc]; exact List.prefix_append _ _
  · rw [if_neg hc]
    cases hr : s.rule.headD none with
    | none => exact List.prefix_rfl
    | some k => exact (List.prefix_append_right_inj _).mpr (List.take_prefix _ _)

theorem sink_write_grows (s : JSink) (b : Bytes) : s.out <+: (s.write b).1.out := by
  unfold JSink.write
  by_cases hc : s.closed = true
  · rw [if_pos hc]; exact List.prefix_rfl
  · rw [if_neg hc]
    cases hr : s.rule.headD none with
    | none => exact List.prefix_append _ _
    | some k => exact List.prefix_append _ _

theorem sink_write_closed (s : JSink) (b : Bytes) : (s.write b).1.closed = s.closed := by
  unfold JSink.write
  by_cases hc : s.closed = true
  · rw [if_pos hc]
  · rw [if_neg hc]
    cases hr : s.rule.headD none <;> rfl

theorem sink_write_still {s : JSink} (b : Bytes) (h : s.closed = true) : (s.write b).1.out = s.out := by
  unfold JSink.write; rw [if_pos h]

theorem sink_flush_out (s : JSink) : s.flush.1.out = s.out ∧ s.flush.1.closed = s.closed := by
  unfold JSink.flush
  by_cases hc : s.closed = true
  · rw [if_pos hc]; exact ⟨rfl, rfl⟩
  · rw [if_neg hc]; exact ⟨rfl, rfl⟩

theorem sink_close_out (s : JSink) : s.close.1.out = s.out ∧ s.close.1.closed = true := by
  unfold JSink.close
  by_cases hc : s.closed = true
  · rw [if_pos hc]; exact ⟨rfl, hc⟩
  · rw [if_neg hc]; exact ⟨rfl, rfl⟩

theorem prefix_all (p : JPacker) (b : Bytes) : p.sink.out <+: p.all ++ b := by
  unfold JPacker.all; rw [List.append_assoc]; exact List.prefix_append _ _

theorem adds_seq_nil : Adds (JPacker.seq []) [] :=
  ⟨fun p _ => by simp [JPacker.seq], fun p => prefix_all p [], fun p => List.prefix_rfl, fun p => rfl, fun p _ => rfl⟩

theorem adds_seq_cons {a : JPacker.Act} {as : List JPacker.Act} {b c : Bytes} (h : Adds a b) (hs : Adds (JPacker.seq as) c) :
    Adds (JPacker.seq (a :: as)) (b ++ c) := by
  have key : ∀ p, JPacker.seq (a :: as) p = if (a p).2 = none then JPacker.seq as (a p).1 else a p := by
    intro p
    simp only [JPacker.seq]
    cases e : a p with
    | mk p1 r =>
      cases r with
      | none => rfl
      | some x => rfl
  refine ⟨fun p => ?_, fun p => ?_, fun p => ?_, fun p => ?_, fun p hcl => ?_⟩
  · rw [key]
    by_cases e : (a p).2 = none
    · rw [if_pos e]; intro g; rw [hs.ok _ g, h.ok p e, List.append_assoc]
    · rw [if_neg e]; intro g; exact absurd g e
  · rw [key]
    by_cases e : (a p).2 = none
    · rw [if_pos e, ← List.append_assoc, ← h.ok p e]; exact hs.sub _
    · rw [if_neg e, ← List.append_assoc]; exact (h.sub p).trans (List.prefix_append _ _)
  · rw [key]
    by_cases e : (a p).2 = none
    · rw [if_pos e]; exact (h.grows p).trans (hs.grows _)
    · rw [if_neg e]; exact h.grows p
  · rw [key]
    by_cases e : (a p).2 = none
    · rw [if_pos e, hs.closed, h.closed]
    · rw [if_neg e]; exact h.closed p
  · rw [key]
    by_cases e : (a p).2 = none
    · rw [if_pos e, hs.still _ ((h.closed p).trans hcl), h.still p hcl]
    · rw [if_neg e]; exact h.still p hcl

theorem adds_two {a b : JPacker.Act} {x y : Bytes} (h : Adds a x) (g : Adds b y) : Adds (JPacker.seq [a, b]) (x ++ y) := by
  have := adds_seq_cons h (adds_seq_cons g adds_seq_nil)
  rwa [List.append_nil] at this

theorem flushBuffer_eq (p : JPacker) : JPacker.flushBuffer p =
    (if (p.sink.write (p.buf.getD [])).2 = none then { p with sink := (p.sink.write (p.buf.getD [])).1, buf := none }
      else { p with sink := (p.sink.write (p.buf.getD [])).1 }, (p.sink.write (p.buf.getD [])).2) := by
  unfold JPacker.flushBuffer
  cases h : p.sink.write (p.buf.getD []) with
  | mk k r =>
    cases r with
    | none => rfl
    | some e => rfl

theorem adds_flushBuffer : Adds JPacker.flushBuffer [] := by
  refine ⟨fun p h => ?_, fun p => ?_, fun p => ?_, fun p => ?_, fun p hcl => ?_⟩
  · rw [flushBuffer_eq] at h ⊢
    simp only at h ⊢
    rw [if_pos h]
    simp only [JPacker.all, sink_write_ok h, Option.getD_none, List.append_nil]
  · rw [flushBuffer_eq]
    have := sink_write_sub p.sink (p.buf.getD [])
    simp only
    split <;> simpa only [JPacker.all, List.append_nil] using this
  · rw [flushBuffer_eq]
    simp only
    split <;> exact sink_write_grows _ _
  · rw [flushBuffer_eq]
    simp only
    split <;> exact sink_write_closed _ _
  · rw [flushBuffer_eq]
    simp only
    split <;> exact sink_write_still _ hcl

theorem adds_flushSink : Adds JPacker.flushSink [] := by
  refine ⟨fun p h => ?_, fun p => ?_, fun p => ?_, fun p => ?_, fun p hcl => ?_⟩
  · simp only [JPacker.all, JPacker.flushSink, (sink_flush_out _).1, List.append_nil]
  · simp only [JPacker.flushSink, (sink_flush_out _).1]; exact prefix_all p []
  · simp only [JPacker.flushSink, (sink_flush_out _).1]; exact List.prefix_rfl
  · simp only [JPacker.flushSink, (sink_flush_out _).2]
  · simp only [JPacker.flushSink, (sink_flush_out _).1]

theorem adds_append (b : Bytes) : Adds (JPacker.append b) b := by
  refine ⟨fun p _ => ?_, fun p => prefix_all p b, fun p => List.prefix_rfl, fun p => rfl, fun p _ => rfl⟩
  simp only [JPacker.append, JPacker.all, Option.getD_some, List.append_assoc]

theorem adds_flush : Adds JPacker.flush [] := by
  have h := adds_two adds_flushBuffer adds_flushSink
  have g := adds_flushSink
  have key : ∀ p, JPacker.flush p = JPacker.flushSink p ∨ JPacker.flush p = JPacker.seq [JPacker.flushBuffer, JPacker.flushSink] p := by
    intro p
    unfold JPacker.flush
    split
    · exact .inl rfl
    · exact .inr rfl
  refine ⟨fun p e => ?_, fun p => ?_, fun p => ?_, fun p => ?_, fun p hcl => ?_⟩
  · rcases key p with k | k
    · rw [k] at e ⊢; exact g.ok p e
    · rw [k] at e ⊢; exact h.ok p e
  · rcases key p with k | k
    · rw [k]; exact g.sub p
    · rw [k]; exact h.sub p
  · rcases key p with k | k
    · rw [k]; exact g.grows p
    · rw [k]; exact h.grows p
  · rcases key p with k | k
    · rw [k]; exact g.closed p
    · rw [k]; exact h.closed p
  · rcases key p with k | k
    · rw [k]; exact g.still p hcl
    · rw [k]; exact h.still p hcl

/-- nothing is left in the buffer -/
theorem flush_empties {p : JPacker} (h : (JPacker.flush p).2 = none) : (JPacker.flush p).1.buf.getD [] = [] := by
  unfold JPacker.flush at h ⊢
  split
  · rename_i e
    simp only [JPacker.flushSink]
    exact List.isEmpty_iff.mp e
  · rename_i e
    rw [if_neg e] at h
    simp only [JPacker.seq] at h ⊢
    rw [flushBuffer_eq] at h ⊢
    by_cases hw : (p.sink.write (p.buf.getD [])).2 = none
    · simp only [hw, if_true, JPacker.flushSink] at h ⊢
      cases hf : (p.sink.write (p.buf.getD [])).1.flush.2 <;> rfl
    · obtain ⟨x, hx⟩ := Option.ne_none_iff_exists'.mp hw
      simp only [hx] at h
      cases h

theorem adds_put (b : Bytes) : Adds (JPacker.put b) b := by
  have h := adds_two adds_flushBuffer (adds_append b)
  rw [List.nil_append] at h
  have g := adds_append b
  have key : ∀ p, JPacker.put b p = JPacker.append b p ∨ JPacker.put b p = JPacker.seq [JPacker.flushBuffer, JPacker.append b] p := by
    intro p
    unfold JPacker.put
    cases p.buf with
    | none => exact .inl rfl
    | some x =>
      simp only
      split
      · exact .inr rfl
      · exact .inl rfl
  refine ⟨fun p e => ?_, fun p => ?_, fun p => ?_, fun p => ?_, fun p hcl => ?_⟩
  · rcases key p with k | k
    · rw [k] at e ⊢; exact g.ok p e
    · rw [k] at e ⊢; exact h.ok p e
  · rcases key p with k | k
    · rw [k]; exact g.sub p
    · rw [k]; exact h.sub p
  · rcases key p with k | k
    · rw [k]; exact g.grows p
    · rw [k]; exact h.grows p
  · rcases key p with k | k
    · rw [k]; exact g.closed p
    · rw [k]; exact h.closed p
  · rcases key p with k | k
    · rw [k]; exact g.still p hcl
    · rw [k]; exact h.still p hcl

/-- the buffer is empty when bytes go to the stream directly -/
theorem adds_flush_add (b : Bytes) : Adds (JPacker.seq [JPacker.flush, JPacker.add b]) b := by
  have key : ∀ p, JPacker.seq [JPacker.flush, JPacker.add b] p =
      if (JPacker.flush p).2 = none then JPacker.add b (JPacker.flush p).1 else JPacker.flush p := by
    intro p
    simp only [JPacker.seq]
    cases e : JPacker.flush p with
    | mk p1 r =>
      cases r with
      | none =>
        simp only [if_true]
        cases e2 : JPacker.add b p1 with
        | mk p2 r2 => cases r2 <;> rfl
      | some x => rfl
  have h := adds_flush
  have hall : ∀ p, (JPacker.flush p).2 = none → (JPacker.flush p).1.sink.out = p.all := by
    intro p e
    have h1 := h.ok p e
    rw [List.append_nil] at h1
    rw [← h1, JPacker.all, flush_empties e, List.append_nil]
  refine ⟨fun p => ?_, fun p => ?_, fun p => ?_, fun p => ?_, fun p hcl => ?_⟩
  · rw [key]
    by_cases e : (JPacker.flush p).2 = none
    · rw [if_pos e]
      intro g
      simp only [JPacker.add] at g ⊢
      simp only [JPacker.all, sink_write_ok g, flush_empties e, List.append_nil]
      rw [hall p e]; rfl
    · rw [if_neg e]; intro g; exact absurd g e
  · rw [key]
    by_cases e : (JPacker.flush p).2 = none
    · rw [if_pos e]
      simp only [JPacker.add]
      have := sink_write_sub (JPacker.flush p).1.sink b
      rwa [hall p e] at this
    · rw [if_neg e]
      have := h.sub p
      rw [List.append_nil] at this
      exact this.trans (List.prefix_append _ _)
  · rw [key]
    by_cases e : (JPacker.flush p).2 = none
    · rw [if_pos e]; exact (h.grows p).trans (sink_write_grows _ _)
    · rw [if_neg e]; exact h.grows p
  · rw [key]
    by_cases e : (JPacker.flush p).2 = none
    · rw [if_pos e]; exact (sink_write_closed _ _).trans (h.closed p)
    · rw [if_neg e]; exact h.closed p
  · rw [key]
    by_cases e : (JPacker.flush p).2 = none
    · rw [if_pos e]; exact (sink_write_still _ ((h.closed p).trans hcl)).trans (h.still p hcl)
    · rw [if_neg e]; exact h.still p hcl

theorem adds_payload (b : Bytes) : Adds (JPacker.payload b) b := by
  have h := adds_flush_add b
  have g := adds_append b
  have key : ∀ p, JPacker.payload b p = JPacker.append b p ∨ JPacker.payload b p = JPacker.seq [JPacker.flush, JPacker.add b] p := by
    intro p
    unfold JPacker.payload
    cases p.buf with
    | none => exact .inr rfl
    | some x =>
      simp only
      split
      · exact .inr rfl
      · exact .inl rfl
  refine ⟨fun p e => ?_, fun p => ?_, fun p => ?_, fun p => ?_, fun p hcl => ?_⟩
  · rcases key p with k | k
    · rw [k] at e ⊢; exact g.ok p e
    · rw [k] at e ⊢; exact h.ok p e
  · rcases key p with k | k
    · rw [k]; exact g.sub p
    · rw [k]; exact h.sub p
  · rcases key p with k | k
    · rw [k]; exact g.grows p
    · rw [k]; exact h.grows p
  · rcases key p with k | k
    · rw [k]; exact g.closed p
    · rw [k]; exact h.closed p
  · rcases key p with k | k
    · rw [k]; exact g.still p hcl
    · rw [k]; exact h.still p hcl

theorem bpack_of_head {z h : Bytes} (e : packBinHead z.length = .ok h) : Spec.bpack z = h ++ z ∧ z.length < 2 ^ 32 := by
  have : pack (.bin z) = .ok (h ++ z) := by
    show packAt _ (.bin z) = _
    simp only [packAt, e]
    rfl
  exact ⟨(pack_bin_eq this).symm, pack_bin_short this⟩

theorem adds_block {z h : Bytes} (e : packBinHead z.length = .ok h) :
    Adds (JPacker.seq [JPacker.put h, JPacker.payload z, JPacker.flush]) (Spec.bpack z) := by
  have := adds_seq_cons (adds_put h) (adds_two (adds_payload z) adds_flush)
  rw [List.append_nil] at this
  rw [(bpack_of_head e).1]
  exact this

theorem block_empties {z h : Bytes} {p : JPacker} (e : (JPacker.seq [JPacker.put h, JPacker.payload z, JPacker.flush] p).2 = none) :
    (JPacker.seq [JPacker.put h, JPacker.payload z, JPacker.flush] p).1.buf.getD [] = [] := by
  simp only [JPacker.seq] at e ⊢
  cases e1 : JPacker.put h p with
  | mk p1 r1 =>
    rw [e1] at e
    cases r1 with
    | some x => cases e
    | none =>
      simp only at e ⊢
      cases e2 : JPacker.payload z p1 with
      | mk p2 r2 =>
        rw [e2] at e
        cases r2 with
        | some x => cases e
        | none =>
          simp only at e ⊢
          have := @flush_empties p2
          cases e3 : JPacker.flush p2 with
          | mk p3 r3 =>
            rw [e3] at e this
            cases r3 with
            | some x => cases e
            | none => exact this rfl

end Verif
