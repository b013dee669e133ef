import Verif.Model.BoundarySession
import Verif.Props.BoundaryReader
import Verif.Props.PySession
/-
C112: the Python boundary writer on a file object that may raise or write less than it is given.
-/
set_option linter.unusedSimpArgs false
namespace Verif

namespace Spec

/-- what the file should hold of a call: of one that returned everything, of one that raised a beginning -/
inductive Arrives : List BWriter.Op → List (Option PyErr) → Bytes → Prop
  | nil : Arrives [] [] []
  | split {ops : List BWriter.Op} {rs : List (Option PyErr)} {pl : Bytes} (h : Arrives ops rs pl) : Arrives (.split :: ops) (none :: rs) pl
  | whole {d : Bytes} {ops : List BWriter.Op} {rs : List (Option PyErr)} {pl : Bytes} (h : Arrives ops rs pl) : Arrives (.write d :: ops) (none :: rs) (d ++ pl)
  | part {d : Bytes} {e : PyErr} {ops : List BWriter.Op} {rs : List (Option PyErr)} {pl : Bytes} (k : Nat) (h : Arrives ops rs pl) :
      Arrives (.write d :: ops) (some e :: rs) (d.take k ++ pl)

end Spec

/-- the writer on a stream that takes every write, with the same file -/
def BFile.plainly (s : BFile) : BWriter := ⟨s.sink.out, s.boundary, s.written, s.lastsplit, s.seg⟩

/-- what became of a write of `b` on the file object -/
theorem psink_write_nothing {s : PSink} (b : Bytes) (h : Spec.AllOrNothing s.rule) :
    Spec.AllOrNothing (s.write b).1.rule ∧ (((s.write b).2 = none ∧ (s.write b).1.out = s.out ++ b) ∨ ((s.write b).2 ≠ none ∧ (s.write b).1.out = s.out)) := by
  obtain ⟨h1, -, -, -, h2⟩ := psink_write b (allOrNothing_noShort h)
  obtain ⟨h3, h4⟩ := h2 h
  refine ⟨h3, ?_⟩
  by_cases hn : (s.write b).2 = none
  · exact .inl ⟨hn, h1 hn⟩
  · exact .inr ⟨hn, h4 hn⟩

/-- copying `m` bytes that do not reach beyond the segment -/
theorem winv_copy {b : Nat} {s : BWriter} {pl x : Bytes} (h : WInv b s pl) (hm : s.written + x.length ≤ (s.seg + 1) * 2 ^ b) :
    WInv b { s with out := s.out ++ x, written := s.written + x.length } (pl ++ x) := by
  have hpos := h.pos
  have hlen := h.len
  refine ⟨h.hb, h.range, ?_, ?_, ?_, ?_, ?_, ?_, ?_, ?_⟩
  · simp only [List.length_append, ← hlen]
  · have := h.first
    rw [List.getElem?_append_left (by omega)]; exact this
  · simp only; omega
  · intro hs; have := h.lo hs; simp only; omega
  · simp only; omega
  · show Spec.stripFrom b 0 (s.out ++ _) = _
    rw [stripFrom_append, show Spec.stripFrom b 0 s.out = pl from h.pay, stripFrom_all]
    intro q g1 g2
    have := h.lo
    exact isPay_in (k := s.seg) (fun _ => by omega) (fun hk => by have := this hk; omega) (by omega)
  · have := h.last; simp only; omega
  · have := h.cnt; simp only [List.length_append]; omega

theorem bwriteBoundary_ok {b : Nat} {s : BFile} {pl : Bytes} (h : WInv b s.plainly pl) (hw : s.written = (s.seg + 1) * 2 ^ b) (ha : Spec.AllOrNothing s.sink.rule) :
    WInv b s.writeBoundary.1.plainly pl ∧ Spec.AllOrNothing s.writeBoundary.1.sink.rule ∧
    (s.writeBoundary.2 = none → s.writeBoundary.1.written = s.written + 4 ∧ s.writeBoundary.1.seg = s.seg + 1) := by
  obtain ⟨mk, h1, -, h2, h3⟩ := writeBoundary_ok h hw
  unfold BFile.plainly BWriter.writeBoundary at h2
  unfold BFile.writeBoundary
  simp only at h2 ⊢
  split at h2
  · cases h2
  · rename_i hal
    rw [if_neg hal]
    split at h2
    · cases h2
    · rename_i b' hb'
      simp only [Except.ok.injEq, BWriter.mk.injEq, and_true, List.append_cancel_left_eq] at h2
      subst h2
      rw [hb']
      simp only
      obtain ⟨g1, g2⟩ := psink_write_nothing b' ha
      generalize s.sink.write b' = x at g1 g2
      obtain ⟨k, r⟩ := x
      simp only at g1 g2
      cases r with
      | none =>
        rcases g2 with ⟨-, g2⟩ | ⟨g2, -⟩
        · refine ⟨?_, g1, fun _ => ⟨rfl, rfl⟩⟩
          unfold BFile.plainly at h3 ⊢
          simp only [g2]
          exact h3
        · exact absurd rfl g2
      | some e =>
        rcases g2 with ⟨g2, -⟩ | ⟨-, g2⟩
        · cases g2
        · refine ⟨?_, g1, nofun⟩
          unfold BFile.plainly at h ⊢
          simp only [g2]
          exact h

theorem bwriteLoop_ok {b : Nat} : ∀ (fuel : Nat) {s : BFile} {pl data : Bytes}, WInv b s.plainly pl → Spec.AllOrNothing s.sink.rule →
    data.length + (if s.written = (s.seg + 1) * 2 ^ b then 2 else 1) ≤ fuel →
    ∃ k, WInv b (BFile.writeLoop fuel s data (s.maxWrite data.length)).1.plainly (pl ++ data.take k) ∧
      Spec.AllOrNothing (BFile.writeLoop fuel s data (s.maxWrite data.length)).1.sink.rule ∧
      ((BFile.writeLoop fuel s data (s.maxWrite data.length)).2 = none → data.length ≤ k) := by
  intro fuel
  induction fuel with
  | zero => intro s pl data _ _ h; split at h <;> omega
  | succ fuel ih =>
    intro s pl data h ha hf
    have hB := pow_big h.range.1
    unfold BFile.writeLoop
    by_cases hd : data.length = 0
    · rw [if_pos hd]
      exact ⟨0, by simpa using h, ha, fun _ => by omega⟩
    have hhi := h.hi
    have hbb := h.hb
    simp only [BFile.plainly] at hhi hbb
    have hm : s.maxWrite data.length = ((min ((s.seg + 1) * 2 ^ b - s.written) data.length : Nat) : Int) := by
      unfold BFile.maxWrite
      rw [hbb, Nat.shiftLeft_eq]
      omega
    rw [if_neg hd, hm, if_neg (by omega)]
    simp only [Int.toNat_natCast]
    generalize hmm : min ((s.seg + 1) * 2 ^ b - s.written) data.length = m
    have hml : (data.take m).length = m := by rw [List.length_take]; omega
    obtain ⟨g1, g2⟩ := psink_write_nothing (data.take m) ha
    generalize s.sink.write (data.take m) = x at g1 g2
    obtain ⟨k, r⟩ := x
    simp only at g1 g2
    cases r with
    | some e =>
      rcases g2 with ⟨g2, -⟩ | ⟨-, g2⟩
      · cases g2
      · refine ⟨0, ?_, g1, nofun⟩
        unfold BFile.plainly at h ⊢
        simp only [g2, List.take_zero, List.append_nil]
        exact h
    | none =>
      rcases g2 with ⟨-, g2⟩ | ⟨g2, -⟩
      · have h1 : WInv b (BFile.plainly { s with sink := k, written := s.written + m }) (pl ++ data.take m) := by
          have := winv_copy (x := data.take m) h (by rw [hml]; simp only [BFile.plainly]; omega)
          unfold BFile.plainly at this ⊢
          simp only [hml] at this
          simp only [g2]
          exact this
        simp only
        by_cases hdm : (data.drop m).length = 0
        · rw [if_pos hdm]
          rw [List.length_drop] at hdm
          exact ⟨m, h1, g1, fun _ => by omega⟩
        · rw [if_neg hdm]
          have hdm' : m < data.length := by rw [List.length_drop] at hdm; omega
          have hw : s.written + m = (s.seg + 1) * 2 ^ b := by omega
          obtain ⟨q1, q2, q3⟩ := bwriteBoundary_ok h1 hw g1
          generalize BFile.writeBoundary _ = y at q1 q2 q3
          obtain ⟨s2, r⟩ := y
          simp only at q1 q2 q3
          cases r with
          | some e => exact ⟨m, q1, q2, nofun⟩
          | none =>
            obtain ⟨q4, q5⟩ := q3 rfl
            simp only
            obtain ⟨j, j1, j2, j3⟩ := ih (data := data.drop m) q1 q2 (by
              rw [q4, q5, if_neg (by rw [Nat.add_mul (s.seg + 1) 1]; omega), List.length_drop]
              split at hf <;> omega)
            refine ⟨m + j, ?_, j2, fun e => ?_⟩
            · rw [List.take_add, ← List.append_assoc]
              exact j1
            · have := j3 e
              rw [List.length_drop] at this
              omega
      · exact absurd rfl g2

theorem bnew_ok {sink k : PSink} {b : Nat} {s : BFile} (h0 : sink.out = []) (h : BFile.new sink b = (k, .ok s)) (hw : Spec.NoShort sink.rule) :
    BWriter.new b = .ok s.plainly ∧ (12 ≤ b ∧ b ≤ 30) ∧ Spec.NoShort s.sink.rule ∧ (Spec.AllOrNothing sink.rule → Spec.AllOrNothing s.sink.rule) := by
  unfold BFile.new at h
  split at h
  · rename_i hb
    obtain ⟨h1, -, -, h2, h3⟩ := psink_write [.ofNat b] hw
    generalize sink.write [.ofNat b] = x at h h1 h2 h3
    obtain ⟨k', r⟩ := x
    cases r with
    | some e => cases h
    | none =>
      simp only [Prod.mk.injEq, Except.ok.injEq] at h
      obtain ⟨rfl, rfl⟩ := h
      have h1 := h1 rfl
      rw [h0, List.nil_append] at h1
      refine ⟨?_, hb, h2, fun g => (h3 g).1⟩
      unfold BWriter.new BFile.plainly
      rw [if_pos hb, h1]
  · cases h

theorem brun_nothing {b : Nat} (ops : List BWriter.Op) : ∀ {s : BFile} {pl : Bytes}, WInv b s.plainly pl → Spec.AllOrNothing s.sink.rule →
    ∃ pl', Spec.Arrives ops (s.run ops).2 pl' ∧ WInv b (s.run ops).1.plainly (pl ++ pl') := by
  induction ops with
  | nil => intro s pl h _; exact ⟨[], .nil, by simpa [BFile.run] using h⟩
  | cons o ops ih =>
    intro s pl h ha
    cases o with
    | split =>
      obtain ⟨pl', h1, h2⟩ := ih (s := s.split) (split_ok h) ha
      exact ⟨pl', .split h1, h2⟩
    | write d =>
      obtain ⟨k, g1, g2, g3⟩ := bwriteLoop_ok (d.length + 2) (data := d) h ha (by split <;> omega)
      obtain ⟨pl', h1, h2⟩ := ih (s := (s.write d).1) g1 g2
      rw [List.append_assoc] at h2
      refine ⟨d.take k ++ pl', ?_, h2⟩
      show Spec.Arrives _ ((s.write d).2 :: ((s.write d).1.run ops).2) _
      have g3 : (s.write d).2 = none → d.length ≤ k := g3
      cases hx : (s.write d).2 with
      | none =>
        rw [List.take_of_length_le (g3 hx)]
        exact .whole h1
      | some e => exact .part k h1

/-- C112. On a file object that has written nothing whenever it raises: whatever raised, and however often, the file is a boundary file,
and its payload is, call by call, all of what was given to a call that returned and a beginning of what was given to one that
raised. -/
theorem C112_nothing_partial {sink k : PSink} {b : Nat} {s : BFile} (h0 : sink.out = []) (hw : Spec.AllOrNothing sink.rule) (h : BFile.new sink b = (k, .ok s))
    (ops : List BWriter.Op) : Spec.Arrives ops (s.run ops).2 (Spec.strip b (s.run ops).1.sink.out) ∧ (s.run ops).1.sink.out[0]? = some (.ofNat b) := by
  obtain ⟨h1, hb, -, h2⟩ := bnew_ok h0 h (allOrNothing_noShort hw)
  obtain ⟨s0, g1, g2, -⟩ := new_ok hb
  rw [h1] at g1
  cases g1
  obtain ⟨pl, q1, q2⟩ := brun_nothing ops g2 (h2 hw)
  have := q2.pay
  simp only [BFile.plainly, List.nil_append] at this
  rw [this]
  exact ⟨q1, q2.first⟩

/-! ### up to the first exception -/

/-- what a call did, compared with the writer on a stream that takes every write -/
structure BDid (s : BFile) (x : BFile × Option PyErr) (t : BWriter) : Prop where
  ok : x.2 = none → x.1.plainly = t ∧ Spec.NoShort x.1.sink.rule
  bad : x.1.sink.out <+: t.out
  more : s.sink.out <+: x.1.sink.out

theorem bwriteBoundary_did {s : BFile} {t : BWriter} (hw : Spec.NoShort s.sink.rule) (h : s.plainly.writeBoundary = .ok t) :
    BDid s s.writeBoundary t := by
  unfold BFile.plainly BWriter.writeBoundary at h
  unfold BFile.writeBoundary
  simp only at h ⊢
  split at h
  · cases h
  · rename_i hal
    rw [if_neg hal]
    split at h
    · cases h
    · rename_i b' hb'
      rw [hb']
      simp only
      obtain ⟨h1, h2, h3, h4, -⟩ := psink_write b' hw
      cases h
      generalize s.sink.write b' = x at h1 h2 h3 h4
      obtain ⟨k, r⟩ := x
      cases r with
      | none =>
        have : k.out = s.sink.out ++ b' := h1 rfl
        exact ⟨fun _ => ⟨by simp only [BFile.plainly, this], h4⟩, h2, h3⟩
      | some e => exact ⟨nofun, h2, h3⟩

theorem bwriter_grows {fuel : Nat} : ∀ {s t : BWriter} {data : Bytes} {m : Int}, BWriter.writeLoop fuel s data m = .ok t → s.out <+: t.out := by
  induction fuel with
  | zero => intro s t data m h; cases h
  | succ fuel ih =>
    intro s t data m h
    unfold BWriter.writeLoop at h
    split at h
    · cases h; exact List.prefix_rfl
    · split at h
      · cases h
      · simp only at h
        split at h
        · cases h; exact List.prefix_append _ _
        · split at h
          · cases h
          · rename_i s2 hs2
            refine List.IsPrefix.trans ?_ (ih h)
            unfold BWriter.writeBoundary at hs2
            split at hs2
            · cases hs2
            · simp only at hs2
              split at hs2
              · cases hs2
              · cases hs2
                rw [List.append_assoc]
                exact List.prefix_append _ _

theorem bwriteLoop_did : ∀ (fuel : Nat) {s : BFile} {t : BWriter} {data : Bytes} {m : Int}, Spec.NoShort s.sink.rule →
    BWriter.writeLoop fuel s.plainly data m = .ok t → BDid s (BFile.writeLoop fuel s data m) t := by
  intro fuel
  induction fuel with
  | zero => intro s t data m _ h; cases h
  | succ fuel ih =>
    intro s t data m hw h
    unfold BWriter.writeLoop at h
    unfold BFile.writeLoop
    split at h
    · rename_i hd
      rw [if_pos hd]
      cases h
      exact ⟨fun _ => ⟨rfl, hw⟩, List.prefix_rfl, List.prefix_rfl⟩
    · rename_i hd
      rw [if_neg hd]
      split at h
      · cases h
      · rename_i hm
        rw [if_neg hm]
        obtain ⟨h1, h2, h3, h4, -⟩ := psink_write (data.take m.toNat) hw
        have hgrow : s.sink.out ++ data.take m.toNat <+: t.out := by
          simp only at h
          split at h
          · cases h; exact List.prefix_rfl
          · split at h
            · cases h
            · rename_i s2 hs2
              refine List.IsPrefix.trans ?_ (bwriter_grows h)
              unfold BWriter.writeBoundary at hs2
              split at hs2
              · cases hs2
              · simp only at hs2
                split at hs2
                · cases hs2
                · cases hs2
                  exact List.prefix_append _ _
        generalize s.sink.write (data.take m.toNat) = x at h1 h2 h3 h4
        obtain ⟨k, r⟩ := x
        cases r with
        | some e => exact ⟨nofun, h2.trans hgrow, h3⟩
        | none =>
          have h1 := h1 rfl
          simp only at h1 h3 h4 h ⊢
          have hp : BFile.plainly { s with sink := k, written := s.written + m.toNat } =
              { s.plainly with out := s.plainly.out ++ data.take m.toNat, written := s.plainly.written + m.toNat } := by
            simp only [BFile.plainly, h1]
          rw [← hp] at h
          split at h
          · rename_i hdd
            rw [if_pos hdd]
            cases h
            exact ⟨fun _ => ⟨rfl, h4⟩, List.prefix_rfl, h3⟩
          · rename_i hdd
            rw [if_neg hdd]
            split at h
            · cases h
            · rename_i t2 ht2
              have hq := bwriteBoundary_did (s := { s with sink := k, written := s.written + m.toNat }) h4 ht2
              generalize BFile.writeBoundary _ = y at hq
              obtain ⟨s3, r⟩ := y
              cases r with
              | some e => exact ⟨nofun, hq.bad.trans (bwriter_grows h), h3.trans hq.more⟩
              | none =>
                obtain ⟨q1, q2⟩ := hq.ok rfl
                simp only at q1 q2 ⊢
                have hmx : t2.maxWrite (data.drop m.toNat).length = s3.maxWrite (data.drop m.toNat).length := by
                  rw [← q1]; rfl
                rw [hmx, ← q1] at h
                have := ih q2 h
                exact ⟨this.ok, this.bad, h3.trans (hq.more.trans this.more)⟩

theorem bcall_did {s : BFile} {t : BWriter} {o : BWriter.Op} (hw : Spec.NoShort s.sink.rule) (h : s.plainly.run [o] = .ok t) : BDid s (s.call o) t := by
  cases o with
  | split => cases h; exact ⟨fun _ => ⟨rfl, hw⟩, List.prefix_rfl, List.prefix_rfl⟩
  | write d =>
    simp only [BWriter.run] at h
    split at h
    · cases h
    · rename_i t' ht
      cases h
      exact bwriteLoop_did _ hw ht

theorem brun_did (ops : List BWriter.Op) : ∀ {s : BFile} {t : BWriter}, Spec.NoShort s.sink.rule → s.plainly.run ops = .ok t →
    (∀ r ∈ (s.run ops).2, r = none) → (s.run ops).1.plainly = t ∧ Spec.NoShort (s.run ops).1.sink.rule := by
  induction ops with
  | nil => intro s t hw h _; cases h; exact ⟨rfl, hw⟩
  | cons o ops ih =>
    intro s t hw h hr
    have : ∃ t1, s.plainly.run [o] = .ok t1 ∧ t1.run ops = .ok t := by
      cases o with
      | split => exact ⟨_, rfl, h⟩
      | write d =>
        simp only [BWriter.run] at h ⊢
        split at h
        · cases h
        · rename_i t1 ht1
          exact ⟨t1, by first | rfl | rw [ht1], h⟩
    obtain ⟨t1, h1, h2⟩ := this
    obtain ⟨g1, g2⟩ := (bcall_did hw h1).ok (hr _ (List.mem_cons_self ..))
    rw [← g1] at h2
    exact ih g2 h2 (fun r hm => hr r (List.mem_cons_of_mem _ hm))

theorem strip_prefix {b : Nat} {x y : Bytes} (h : x <+: y) : Spec.strip b x <+: Spec.strip b y := by
  obtain ⟨t, rfl⟩ := h
  unfold Spec.strip
  rw [stripFrom_append]
  exact List.prefix_append _ _

/-- C112. Up to and including the first call that raises, on a file object that raises after any number of bytes: as long as
every call returns the file is the one that C38 describes; when one raises, the file is a beginning of that, with all
that was there before. -/
theorem C112_first_exception {sink k : PSink} {b : Nat} {s : BFile} (h0 : sink.out = []) (hw : Spec.NoShort sink.rule) (h : BFile.new sink b = (k, .ok s))
    (ops : List BWriter.Op) (hr : ∀ r ∈ (s.run ops).2, r = none) (o : BWriter.Op) :
    ∃ s0 t t', BWriter.new b = .ok s0 ∧ s0.run ops = .ok t ∧ s0.run (ops ++ [o]) = .ok t' ∧ (s.run ops).1.sink.out = t.out ∧
      Spec.strip b t.out = Spec.payload ops ∧ t.out <+: ((s.run ops).1.call o).1.sink.out ∧ ((s.run ops).1.call o).1.sink.out <+: t'.out ∧
      Spec.strip b ((s.run ops).1.call o).1.sink.out <+: Spec.payload (ops ++ [o]) := by
  obtain ⟨h1, hb, h2, -⟩ := bnew_ok h0 h hw
  obtain ⟨s0, g1, g2, g3, -⟩ := new_ok hb
  rw [h1] at g1
  cases g1
  obtain ⟨t, q1, q2, q3, -⟩ := run_ok ops g2 g3
  obtain ⟨t', q4, q5, -⟩ := run_ok [o] q2 q3
  obtain ⟨e1, e2⟩ := brun_did ops h2 q1 hr
  have hd := bcall_did e2 (by rw [e1]; exact q4)
  have ho : (s.run ops).1.sink.out = t.out := by rw [← e1]; rfl
  refine ⟨s.plainly, t, t', h1, q1, by rw [run_append ops [o] q1]; exact q4, ho, by simpa using q2.pay, by rw [← ho]; exact hd.more, hd.bad, ?_⟩
  have hp := q5.pay
  rw [List.nil_append] at hp
  have hpl : Spec.payload (ops ++ [o]) = Spec.payload ops ++ Spec.payload [o] := payload_append ops [o]
  rw [hpl, ← hp]
  exact strip_prefix hd.bad

/-! ### what goes wrong -/

/-- how far the file is ahead of what the writer takes to be its size -/
def BFile.ahead (s : BFile) : Int := (s.sink.out.length : Int) - s.written

theorem psink_works {s : PSink} (b : Bytes) (h : s.rule = []) (hc : s.closed = false) : s.write b = ({ s with out := s.out ++ b }, none) := by
  unfold PSink.write
  rw [hc, h]
  simp [h]

/-- the file object works from now on -/
def BFile.Works (s : BFile) : Prop := s.sink.rule = [] ∧ s.sink.closed = false

theorem packI32_length {i : Int} {b : Bytes} (h : packI32 i = .ok b) : b.length = 4 := by
  unfold packI32 at h
  split at h
  · cases h; exact be_length _ _
  · cases h

theorem bwriteBoundary_ahead {s : BFile} (h : s.Works) : s.writeBoundary.1.ahead = s.ahead ∧ s.writeBoundary.1.Works := by
  unfold BFile.writeBoundary
  split
  · exact ⟨rfl, h⟩
  · simp only
    split
    · exact ⟨rfl, h⟩
    · rename_i b hb
      have hl : b.length = 4 := packI32_length hb
      rw [psink_works b h.1 h.2]
      refine ⟨?_, h⟩
      simp only [BFile.ahead, List.length_append, hl]
      omega

theorem bwriteLoop_ahead : ∀ (fuel : Nat) {s : BFile} {data : Bytes}, s.Works →
    (BFile.writeLoop fuel s data (s.maxWrite data.length)).1.ahead = s.ahead ∧ (BFile.writeLoop fuel s data (s.maxWrite data.length)).1.Works := by
  intro fuel
  induction fuel with
  | zero => intro s data h; exact ⟨rfl, h⟩
  | succ fuel ih =>
    intro s data h
    unfold BFile.writeLoop
    split
    · exact ⟨rfl, h⟩
    · split
      · exact ⟨rfl, h⟩
      · rename_i hm
        have hle : (s.maxWrite data.length).toNat ≤ data.length := by
          unfold BFile.maxWrite
          omega
        generalize (s.maxWrite data.length).toNat = m at hle
        rw [psink_works _ h.1 h.2]
        have ha : BFile.ahead { s with sink := { s.sink with out := s.sink.out ++ data.take m }, written := s.written + m } = s.ahead := by
          simp only [BFile.ahead, List.length_append, List.length_take]
          omega
        simp only
        split
        · exact ⟨ha, h⟩
        · have hq := bwriteBoundary_ahead (s := { s with sink := { s.sink with out := s.sink.out ++ data.take m }, written := s.written + m }) h
          generalize BFile.writeBoundary _ = y at hq
          obtain ⟨s2, r⟩ := y
          cases r with
          | some e => exact ⟨hq.1.trans ha, hq.2⟩
          | none =>
            obtain ⟨g1, g2⟩ := ih (data := data.drop m) hq.2
            exact ⟨g1.trans (hq.1.trans ha), g2⟩

/-- C112 fails for good once the file object has raised after a part, or written a part only: the writer takes the file to be shorter or longer than
it is, by the same number of bytes after all further calls, on a file object that works from then on. The markers, which it writes
where it takes a multiple of 2^b to be, are all off by this number. -/
theorem C112_position_lost {s : BFile} (h : s.Works) (ops : List BWriter.Op) : (s.run ops).1.ahead = s.ahead := by
  induction ops generalizing s with
  | nil => rfl
  | cons o ops ih =>
    cases o with
    | split => exact ih (s := s.split) h
    | write d =>
      obtain ⟨g1, g2⟩ := bwriteLoop_ahead (d.length + 2) (data := d) h
      exact (ih (s := (s.write d).1) g2).trans g1

theorem arrives_mem {ops : List BWriter.Op} {rs : List (Option PyErr)} {pl : Bytes} (h : Spec.Arrives ops rs pl) :
    ∀ x ∈ pl, ∃ d, BWriter.Op.write d ∈ ops ∧ x ∈ d := by
  induction h with
  | nil => intro x hx; cases hx
  | split _ ih => intro x hx; obtain ⟨d, h1, h2⟩ := ih x hx; exact ⟨d, List.mem_cons_of_mem _ h1, h2⟩
  | @whole d _ _ _ _ ih =>
    intro x hx
    rcases List.mem_append.mp hx with hx | hx
    · exact ⟨d, List.mem_cons_self .., hx⟩
    · obtain ⟨d, h1, h2⟩ := ih x hx; exact ⟨d, List.mem_cons_of_mem _ h1, h2⟩
  | @part d _ _ _ _ k _ ih =>
    intro x hx
    rcases List.mem_append.mp hx with hx | hx
    · exact ⟨d, List.mem_cons_self .., List.mem_of_mem_take hx⟩
    · obtain ⟨d, h1, h2⟩ := ih x hx; exact ⟨d, List.mem_cons_of_mem _ h1, h2⟩

namespace Ex

/-- calls on a boundary writer with segments of 4096 bytes, on a file object that follows the rule: which raised, and the file -/
def onBoundary (rule : List Fate) (ops : List BWriter.Op) : Option (List Bool × Bytes) :=
  match BFile.new ⟨[], false, rule⟩ 12 with
  | (_, .error _) => none
  | (_, .ok s) => some ((s.run ops).2.map Option.isSome, (s.run ops).1.sink.out)

/-- 7, 4200 times, after two times -/
def sevens : List BWriter.Op := [.write [7, 7], .split, .write (List.replicate 4200 7)]

end Ex

/-- C112 fails when the file object has written a byte and raises, or writes a byte of two and returns: of 4202 sevens the payload holds
bytes that are not 7. In the second case no call raised. -/
theorem C112_part_false :
    (Ex.onBoundary [.ok, .raise 1] Ex.sevens).map (fun x => (x.1, (Spec.strip 12 x.2).all (· = 7))) = some ([true, false, false], false) ∧
    (Ex.onBoundary [.ok, .short 1] Ex.sevens).map (fun x => (x.1, (Spec.strip 12 x.2).all (· = 7))) = some ([false, false, false], false) ∧
    (Ex.onBoundary [.ok, .raise 0] Ex.sevens).map (fun x => (x.1, (Spec.strip 12 x.2).all (· = 7))) = some ([true, false, false], true) := by
  decide +kernel

/-- C112 in full. -/
def C112_full : Prop := ∀ (sink k : PSink) (b : Nat) (s : BFile) (ops : List BWriter.Op), sink.out = [] → BFile.new sink b = (k, .ok s) →
  Spec.Arrives ops (s.run ops).2 (Spec.strip b (s.run ops).1.sink.out)

theorem C112_full_false : ¬ C112_full := by
  intro h
  have hw := C112_part_false.2.1
  unfold Ex.onBoundary at hw
  rcases hb : BFile.new ⟨[], false, [.ok, .short 1]⟩ 12 with ⟨k, r⟩
  rw [hb] at hw
  cases r with
  | error e => exact absurd hw (fun g => nomatch g)
  | ok s =>
    have hm := arrives_mem (h _ k 12 s Ex.sevens rfl hb)
    have hall : (Spec.strip 12 (s.run Ex.sevens).1.sink.out).all (· = 7) = true := by
      rw [List.all_eq_true]
      intro x hx
      obtain ⟨d, h1, h2⟩ := hm x hx
      simp only [Ex.sevens, List.mem_cons, List.not_mem_nil, or_false, BWriter.Op.write.injEq, reduceCtorEq, false_or] at h1
      rcases h1 with rfl | rfl
      · simp only [List.mem_cons, List.not_mem_nil, or_false, or_self] at h2
        simp [h2]
      · simp [List.eq_of_mem_replicate h2]
    simp only [Option.map_some, Option.some.injEq, Prod.mk.injEq] at hw
    exact absurd (hall.symm.trans hw.2) (by decide)

/-- the hypotheses of C112_nothing_partial, C112_first_exception and C112_position_lost hold for writers of which the first raises twice in
the middle of a call, the second in its third call after three bytes, and the third has fallen behind by a byte -/
example : (Spec.AllOrNothing [.ok, .ok, .ok, .raise 0, .raise 0] ∧
      (Ex.onBoundary [.ok, .ok, .ok, .raise 0, .raise 0] (Ex.sevens ++ Ex.sevens)).map (fun x => (x.1, (Spec.strip 12 x.2).length)) =
        some ([false, false, true, true, false, false], 4093 + 4200 + 2)) ∧
    (Spec.NoShort [.ok, .ok, .ok, .raise 3] ∧ (∃ k s, BFile.new ⟨[], false, [.ok, .ok, .ok, .raise 3]⟩ 12 = (k, .ok s) ∧
      (∀ r ∈ (s.run [.write [7, 7], .split]).2, r = none) ∧
      ((s.run [.write [7, 7], .split]).1.call (.write (List.replicate 4200 7))).1.sink.out.length = 4096 + 3)) ∧
    (∃ k s, BFile.new ⟨[], false, [.ok, .raise 1]⟩ 12 = (k, .ok s) ∧ (s.write [7, 7]).1.Works ∧ (s.write [7, 7]).1.ahead = 1) := by
  refine ⟨⟨by unfold Spec.AllOrNothing; decide, by decide +kernel⟩, ⟨fun x hx k e => by subst e; simp at hx, _, _, rfl, by decide +kernel, by decide +kernel⟩, _, _, rfl, ⟨rfl, rfl⟩, by decide +kernel⟩

namespace Ex

/-- a document of 4200 bytes and more -/
def longDoc : Bytes := tinyDoc 65 ++ List.replicate 4200 7

/-- what a MsgpackDocumentWriter does with a boundary writer: the header (collection.py:467-473), and the block with the document, once and,
when flush() is called again after the exception, again (collection.py:518-521) -/
def retried : List BWriter.Op :=
  [.write fileMagic, .write [0xa4, 110, 111, 110, 101], .write [2], .write [0xc2], .split,
    .write (Spec.blockBytes id [longDoc]), .write (Spec.blockBytes id [longDoc]), .split]

end Ex

/-- C112: a block that is written again, after the file object raised in its second segment and had written nothing then, is in the
file one and a half times (C112_nothing_partial says where), and a reader of the payload yields a document that nobody wrote. So what
C110 says of file objects that write nothing when they raise does not hold of a MsgpackDocumentWriter on a boundary writer. -/
theorem C112_retry_false :
    (Ex.onBoundary [.ok, .ok, .ok, .ok, .ok, .ok, .raise 0] Ex.retried).map (fun x =>
      (x.1, (Ex.pyRead (Spec.strip 12 x.2) 1).map (·.map (fun d => (d.isSome, d == some Ex.longDoc))))) =
        some ([false, false, false, false, false, true, false, false], some [(true, false)]) ∧
    (Ex.onBoundary [.ok, .ok, .ok, .ok, .ok, .raise 0] Ex.retried).map (fun x =>
      (x.1, (Ex.pyRead (Spec.strip 12 x.2) 1).map (·.map (fun d => (d.isSome, d == some Ex.longDoc))))) =
        some ([false, false, false, false, false, true, false, false], some [(true, true)]) := by
  decide +kernel

end Verif
