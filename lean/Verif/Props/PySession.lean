import Verif.Model.PySession
import Verif.Proof.FileSession
import Verif.Props.JavaSession
/-
C110: the Python writer of block files on a file object that may raise or write less than it is given.
-/
set_option linter.unusedSimpArgs false
namespace Verif

namespace Spec

/-- the documents that the calls hand over; one that cannot be encoded, or has 2^32 bytes or more, is none -/
def pyGiven : List PSession.Call → List Bytes
  | [] => []
  | .write (.ok d) :: cs => if d.length < 2 ^ 32 then d :: pyGiven cs else pyGiven cs
  | _ :: cs => pyGiven cs

/-- the documents whose `write` returned -/
def pyReturned (s : PSession) (cs : List PSession.Call) : List Bytes :=
  (cs.zip (s.run cs).2).flatMap (fun x => if x.2.isNone then pyGiven [x.1] else [])

/-- no call raised but `write` of something that is not a document -/
def PySmooth (s : PSession) (cs : List PSession.Call) : Prop :=
  ∀ x ∈ cs.zip (s.run cs).2, x.2 = none ∨ ∃ a, x.1 = .write a ∧ pyGiven [x.1] = []

/-- the file object writes all it is given or raises -/
def NoShort (rule : List Fate) : Prop := ∀ x ∈ rule, ∀ k, x ≠ .short k

/-- the file object writes all it is given, or raises and has written nothing -/
def AllOrNothing (rule : List Fate) : Prop := ∀ x ∈ rule, x = .ok ∨ x = .raise 0

/-- a reader yields exactly these documents, and then StopIteration for ever -/
def PyHolds (reg : Codecs) (file : Bytes) (docs : List Bytes) : Prop :=
  ∃ r, DocReader.new reg file = .ok r ∧ ∀ k,
    (r.nexts (docs.length + k)).map (fun x => x.map MDoc.raw) = docs.map .ok ++ List.replicate k (.error .stopIteration)

/-- the codec is registered and undoes the compression -/
def Undoes (reg : Codecs) (name : Str) (f : Bytes → Bytes) : Prop := ∃ c, getCodec reg name = .ok c ∧ ∀ x, c.decompress (f x) = .ok x

end Spec

theorem pyGiven_append (a b : List PSession.Call) : Spec.pyGiven (a ++ b) = Spec.pyGiven a ++ Spec.pyGiven b := by
  induction a with
  | nil => rfl
  | cons c a ih =>
    cases c with
    | write x =>
      cases x with
      | error e => simpa only [Spec.pyGiven, List.cons_append] using ih
      | ok d =>
        simp only [Spec.pyGiven, List.cons_append, ih]
        split <;> rfl
    | flush => simpa only [Spec.pyGiven, List.cons_append] using ih
    | close => simpa only [Spec.pyGiven, List.cons_append] using ih

theorem pyGiven_short (cs : List PSession.Call) : ∀ d ∈ Spec.pyGiven cs, d.length < 2 ^ 32 := by
  induction cs with
  | nil => intro d h; cases h
  | cons c cs ih =>
    intro d h
    cases c with
    | write a =>
      cases a with
      | error e => exact ih d h
      | ok x =>
        simp only [Spec.pyGiven] at h
        split at h
        · rcases List.mem_cons.mp h with rfl | h
          · assumption
          · exact ih d h
        · exact ih d h
    | flush => exact ih d h
    | close => exact ih d h

/-! ### the file object -/

theorem allOrNothing_noShort {r : List Fate} (h : Spec.AllOrNothing r) : Spec.NoShort r := by
  intro x hx k e
  subst e
  rcases h _ hx with h | h <;> cases h

theorem psink_write {s : PSink} (b : Bytes) (h : Spec.NoShort s.rule) :
    ((s.write b).2 = none → (s.write b).1.out = s.out ++ b) ∧ (s.write b).1.out <+: s.out ++ b ∧ s.out <+: (s.write b).1.out ∧
    Spec.NoShort (s.write b).1.rule ∧ (Spec.AllOrNothing s.rule → Spec.AllOrNothing (s.write b).1.rule ∧
      ((s.write b).2 ≠ none → (s.write b).1.out = s.out)) := by
  unfold PSink.write
  by_cases hc : s.closed = true
  · rw [if_pos hc]
    exact ⟨(fun g => nomatch g), List.prefix_append _ _, List.prefix_rfl, h, fun g => ⟨g, fun _ => rfl⟩⟩
  rw [if_neg hc]
  have ht : Spec.NoShort s.rule.tail := fun x hx => h x (List.mem_of_mem_tail hx)
  have ht2 : Spec.AllOrNothing s.rule → Spec.AllOrNothing s.rule.tail := fun g x hx => g x (List.mem_of_mem_tail hx)
  have hmem : ∀ x, s.rule.headD .ok = x → x = .ok ∨ x ∈ s.rule := by
    intro x e
    cases hr : s.rule with
    | nil => rw [hr] at e; exact .inl e.symm
    | cons y l => rw [hr] at e; right; rw [← e]; exact List.mem_cons_self ..
  cases hr : s.rule.headD .ok with
  | ok => exact ⟨fun _ => rfl, List.prefix_rfl, List.prefix_append _ _, ht, fun g => ⟨ht2 g, fun q => absurd rfl q⟩⟩
  | short k =>
    rcases hmem _ hr with q | q
    · cases q
    · exact absurd rfl (h _ q k)
  | raise k =>
    refine ⟨(fun g => nomatch g), (List.prefix_append_right_inj _).mpr (List.take_prefix _ _), List.prefix_append _ _, ht, fun g => ⟨ht2 g, fun _ => ?_⟩⟩
    rcases hmem _ hr with q | q
    · cases q
    · rcases g _ q with q | q
      · cases q
      · cases q; simp

theorem psink_close (s : PSink) : s.close.1.out = s.out ∧ s.close.1.closed = true ∧ (Spec.NoShort s.rule → Spec.NoShort s.close.1.rule) ∧
    (Spec.AllOrNothing s.rule → Spec.AllOrNothing s.close.1.rule) := by
  unfold PSink.close
  by_cases hc : s.closed = true
  · rw [if_pos hc]; exact ⟨rfl, hc, id, id⟩
  · rw [if_neg hc]
    exact ⟨rfl, rfl, fun g x hx => g x (List.mem_of_mem_tail hx), fun g x hx => g x (List.mem_of_mem_tail hx)⟩

/-! ### the invariant -/

/-- `blocks` have been written, `cur` is collected -/
structure PGood (f : Bytes → Bytes) (hd : Bytes) (num : Int) (s : PSession) (blocks : List (List Bytes)) (cur : List Bytes) : Prop where
  all : s.sink.out = hd ++ Spec.blocksBytes f blocks
  block : s.block = Spec.blockData cur
  count : s.count = cur.length
  comp : s.compress = f
  num : s.num = num
  fits : ∀ ds ∈ blocks, (f (Spec.blockData ds)).length < 2 ^ 32
  whole : Spec.NoShort s.sink.rule

/-- what has arrived is the beginning of these blocks -/
def PCutOff (f : Bytes → Bytes) (hd : Bytes) (s : PSession) (blocks : List (List Bytes)) : Prop :=
  hd <+: s.sink.out ∧ s.sink.out <+: hd ++ Spec.blocksBytes f blocks ∧ ∀ ds ∈ blocks, (f (Spec.blockData ds)).length < 2 ^ 32

theorem PGood.cutOff {f hd num s blocks cur} (h : PGood f hd num s blocks cur) : PCutOff f hd s blocks :=
  ⟨by rw [h.all]; exact List.prefix_append _ _, by rw [h.all]; exact List.prefix_rfl, h.fits⟩

/-- a call does what it should, or leaves the beginning of it; and all of it is still to come if the file object writes
nothing when it raises -/
structure PDid (f : Bytes → Bytes) (hd : Bytes) (num : Int) (s : PSession) (blocks : List (List Bytes)) (r : PSession × Option PyErr) (docs : List Bytes)
    (emptied : Prop) : Prop where
  cut : ∃ more, PCutOff f hd r.1 (blocks ++ more) ∧ (blocks ++ more).flatten <+: docs ∧ hd ++ Spec.blocksBytes f blocks <+: r.1.sink.out
  ok : r.2 = none → ∃ blocks cur, PGood f hd num r.1 blocks cur ∧ blocks.flatten ++ cur = docs ∧ (emptied → cur = [])
  atomic : Spec.AllOrNothing s.sink.rule → Spec.AllOrNothing r.1.sink.rule ∧ ∃ blocks cur, PGood f hd num r.1 blocks cur ∧ blocks.flatten ++ cur = docs

theorem snoc_blocksBytes (f : Bytes → Bytes) (blocks : List (List Bytes)) (cur : List Bytes) :
    Spec.blocksBytes f (blocks ++ [cur]) = Spec.blocksBytes f blocks ++ Spec.bpack (f (Spec.blockData cur)) := by
  rw [blocksBytes_append]; simp [Spec.blocksBytes, Spec.blockBytes]

theorem pflush_did {f hd num s blocks cur} (h : PGood f hd num s blocks cur) : PDid f hd num s blocks s.flush (blocks.flatten ++ cur) True := by
  have same : ∀ e : Option PyErr, (e = none → cur = []) → PDid f hd num s blocks (s, e) (blocks.flatten ++ cur) True := fun e he =>
    ⟨⟨[], by rw [List.append_nil]; exact h.cutOff, by rw [List.append_nil]; exact List.prefix_append _ _, by rw [h.all]; exact List.prefix_rfl⟩, fun g => ⟨blocks, cur, h, rfl, fun _ => he g⟩, fun g => ⟨g, blocks, cur, h, rfl⟩⟩
  unfold PSession.flush
  by_cases hc : s.count > 0
  · rw [if_pos hc, h.comp, h.block]
    cases hp : pack (.bin (f (Spec.blockData cur))) with
    | error e => exact same _ nofun
    | ok b =>
      have hb := pack_bin_eq hp
      have hfit : ∀ ds ∈ blocks ++ [cur], (f (Spec.blockData ds)).length < 2 ^ 32 := by
        intro ds hds
        rcases List.mem_append.mp hds with m | m
        · exact h.fits ds m
        · rw [List.mem_singleton.mp m]; exact pack_bin_short hp
      have hfl : (blocks ++ [cur]).flatten = blocks.flatten ++ cur := by simp
      obtain ⟨h1, h2, h3, h4, h5⟩ := psink_write b h.whole
      have hhd : hd <+: s.sink.out := h.cutOff.1
      have e0 : s.sink.out ++ b = hd ++ Spec.blocksBytes f (blocks ++ [cur]) := by
        rw [snoc_blocksBytes, h.all, hb, List.append_assoc]
      rw [e0] at h1 h2
      simp only
      cases hq : s.sink.write b with
      | mk k r =>
        rw [hq] at h1 h2 h3 h4 h5
        cases r with
        | some e =>
          refine ⟨⟨[cur], ⟨hhd.trans h3, h2, hfit⟩, by rw [hfl]; exact List.prefix_rfl, by rw [← h.all]; exact h3⟩, (fun g => nomatch g), fun g => ?_⟩
          obtain ⟨g1, g2⟩ := h5 g
          exact ⟨g1, blocks, cur, ⟨(g2 nofun).trans h.all, rfl, h.count, rfl, h.num, h.fits, h4⟩, rfl⟩
        | none =>
          have hg : PGood f hd num { sink := k, block := [], count := 0, compress := f, num := s.num } (blocks ++ [cur]) [] :=
            ⟨h1 rfl, rfl, rfl, rfl, h.num, hfit, h4⟩
          exact ⟨⟨[cur], hg.cutOff, by rw [hfl]; exact List.prefix_rfl, by rw [← h.all]; exact h3⟩, fun _ => ⟨_, _, hg, by rw [hfl, List.append_nil], fun _ => rfl⟩,
            fun g => ⟨(h5 g).1, _, _, hg, by rw [hfl, List.append_nil]⟩⟩
  · rw [if_neg hc]
    exact same _ fun _ => List.eq_nil_of_length_eq_zero (by rw [← h.count]; omega)

theorem pcall_did {f hd num s blocks cur} (h : PGood f hd num s blocks cur) (c : PSession.Call) :
    PDid f hd num s blocks (s.call c) (blocks.flatten ++ cur ++ Spec.pyGiven [c]) (c = .flush ∨ c = .close) := by
  cases c with
  | flush =>
    obtain ⟨g1, g2, g3⟩ := pflush_did h
    simp only [Spec.pyGiven, List.append_nil]
    exact ⟨g1, fun e => by obtain ⟨b, c, q1, q2, q3⟩ := g2 e; exact ⟨b, c, q1, q2, fun _ => q3 trivial⟩, g3⟩
  | close =>
    obtain ⟨g1, g2, g3⟩ := pflush_did h
    simp only [Spec.pyGiven, List.append_nil, PSession.call]
    unfold PSession.close
    cases hq : s.flush with
    | mk s1 r =>
      rw [hq] at g1 g2 g3
      cases r with
      | some e => exact ⟨g1, (fun g => nomatch g), g3⟩
      | none =>
        obtain ⟨b, c, q1, q2, q3⟩ := g2 rfl
        obtain ⟨w1, w2, w3, w4⟩ := psink_close s1.sink
        have q5 : PGood f hd num { s1 with sink := s1.sink.close.1 } b c :=
          ⟨w1.trans q1.all, q1.block, q1.count, q1.comp, q1.num, q1.fits, w3 q1.whole⟩
        refine ⟨?_, fun _ => ⟨b, c, q5, q2, fun _ => q3 trivial⟩,
          fun g => ⟨w4 (g3 g).1, b, c, q5, q2⟩⟩
        obtain ⟨more, ⟨p1, p2, p3⟩, p4, p5⟩ := g1
        exact ⟨more, ⟨by simp only [w1]; exact p1, by simp only [w1]; exact p2, p3⟩, p4, by simp only [w1]; exact p5⟩
  | write a =>
    have same : ∀ e : PyErr, Spec.pyGiven [PSession.Call.write a] = [] →
        PDid f hd num s blocks (s, some e) (blocks.flatten ++ cur ++ Spec.pyGiven [PSession.Call.write a])
          (PSession.Call.write a = .flush ∨ PSession.Call.write a = .close) :=
      fun e hg => ⟨⟨[], by rw [List.append_nil]; exact h.cutOff, by rw [List.append_nil, List.append_assoc]; exact List.prefix_append _ _, by rw [h.all]; exact List.prefix_rfl⟩, (fun g => nomatch g),
        fun g => ⟨g, blocks, cur, h, by rw [hg, List.append_nil]⟩⟩
    simp only [PSession.call]
    unfold PSession.write
    cases a with
    | error e => exact same e rfl
    | ok d =>
      simp only
      cases hp : pack (.bin d) with
      | error e =>
        refine same e ?_
        simp only [Spec.pyGiven]
        rw [if_neg]
        intro hl
        rw [pack_bin hl] at hp; cases hp
      | ok b =>
        have hb := pack_bin_eq hp
        simp only
        have hg : Spec.pyGiven [PSession.Call.write (.ok d)] = [d] := by simp only [Spec.pyGiven, if_pos (pack_bin_short hp)]
        rw [hg]
        have h1 : PGood f hd num { s with block := s.block ++ b, count := s.count + 1 } blocks (cur ++ [d]) := by
          refine ⟨h.all, ?_, ?_, h.comp, h.num, h.fits, h.whole⟩
          · simp only [h.block, hb, blockData_append, blockData_cons]; simp [Spec.blockData]
          · simp only [h.count, List.length_append, List.length_singleton]
        have hno : ¬ (PSession.Call.write (.ok d) = .flush ∨ PSession.Call.write (.ok d) = .close) := by rintro (g | g) <;> cases g
        split
        · obtain ⟨g1, g2, g3⟩ := pflush_did h1
          rw [← List.append_assoc] at g1 g2 g3
          refine ⟨g1, fun e => ?_, g3⟩
          obtain ⟨b', c', q1, q2, q3⟩ := g2 e
          exact ⟨b', c', q1, q2, fun g => absurd g hno⟩
        · exact ⟨⟨[], by rw [List.append_nil]; exact h1.cutOff, by rw [List.append_nil, List.append_assoc]; exact List.prefix_append _ _, by simp only [h.all]; exact List.prefix_rfl⟩,
            fun _ => ⟨_, _, h1, by rw [List.append_assoc], fun g => absurd g hno⟩, fun g => ⟨g, _, _, h1, by rw [List.append_assoc]⟩⟩

/-- something that is not a document changes nothing -/
theorem pbad_write {s : PSession} {a : Except PyErr Bytes} (h : Spec.pyGiven [.write a] = []) : (s.write a).1 = s := by
  unfold PSession.write
  cases a with
  | error e => rfl
  | ok d =>
    simp only [Spec.pyGiven] at h
    simp only
    cases hp : pack (.bin d) with
    | error e => rfl
    | ok b => rw [if_pos (pack_bin_short hp)] at h; cases h

theorem parts_ok (ps : List (Except PyErr Bytes)) : ∀ (s : PSink), Spec.NoShort s.rule →
    ((s.writeParts ps).2 = none → ∃ bs : List Bytes, ps = bs.map .ok ∧ (s.writeParts ps).1.out = s.out ++ bs.flatten) ∧
    Spec.NoShort (s.writeParts ps).1.rule ∧
    (∀ bs : List Bytes, ps = bs.map .ok → (s.writeParts ps).1.out <+: s.out ++ bs.flatten) := by
  induction ps with
  | nil =>
    intro s h
    refine ⟨fun _ => ⟨[], rfl, by simp [PSink.writeParts]⟩, h, fun bs e => ?_⟩
    simp only [PSink.writeParts]; exact List.prefix_append _ _
  | cons p ps ih =>
    intro s h
    cases p with
    | error e =>
      refine ⟨(fun g => nomatch g), h, fun bs e => ?_⟩
      cases bs <;> cases e
    | ok b =>
      obtain ⟨h1, h2, h3, h4, -⟩ := psink_write b h
      simp only [PSink.writeParts]
      cases hq : s.write b with
      | mk k r =>
        rw [hq] at h1 h2 h3 h4
        cases r with
        | some e =>
          refine ⟨(fun g => nomatch g), h4, fun bs e => ?_⟩
          cases bs with
          | nil => cases e
          | cons x bs =>
            simp only [List.map_cons, List.cons.injEq, Except.ok.injEq] at e
            rw [← e.1, List.flatten_cons, ← List.append_assoc]
            exact h2.trans (List.prefix_append _ _)
        | none =>
          obtain ⟨g1, g2, g3⟩ := ih k h4
          refine ⟨fun e => ?_, g2, fun bs e => ?_⟩
          · obtain ⟨bs, q1, q2⟩ := g1 e
            exact ⟨b :: bs, by rw [q1]; rfl, by simp only; rw [q2, h1 rfl, List.flatten_cons, List.append_assoc]⟩
          · cases bs with
            | nil => cases e
            | cons x bs =>
              simp only [List.map_cons, List.cons.injEq, Except.ok.injEq] at e
              have := g3 bs e.2
              rw [h1 rfl] at this
              rw [← e.1, List.flatten_cons, ← List.append_assoc]
              exact this

theorem parts_atomic (ps : List (Except PyErr Bytes)) : ∀ (s : PSink), Spec.AllOrNothing s.rule → Spec.AllOrNothing (s.writeParts ps).1.rule := by
  induction ps with
  | nil => intro s h; exact h
  | cons p ps ih =>
    intro s h
    cases p with
    | error e => exact h
    | ok b =>
      have h5 := ((psink_write b (allOrNothing_noShort h)).2.2.2.2 h).1
      simp only [PSink.writeParts]
      cases hq : s.write b with
      | mk k r =>
        rw [hq] at h5
        cases r with
        | some e => exact h5
        | none => exact ih k h5

theorem pnew_good {sink k : PSink} {num : Int} {name : Str} {f : Bytes → Bytes} {s : PSession} (h0 : sink.out = []) (hw : Spec.NoShort sink.rule)
    (h : PSession.new sink num name f = (k, .ok s)) : ∃ hd, Nonempty (Header name num hd) ∧ PGood f hd num s [] [] ∧
      (Spec.AllOrNothing sink.rule → Spec.AllOrNothing s.sink.rule) := by
  unfold PSession.new at h
  obtain ⟨h1, h2, -⟩ := parts_ok [.ok fileMagic, pack (.str name), pack (.int num), pack (.bool false)] sink hw
  have h3 := parts_atomic [.ok fileMagic, pack (.str name), pack (.int num), pack (.bool false)] sink
  cases hq : sink.writeParts [.ok fileMagic, pack (.str name), pack (.int num), pack (.bool false)] with
  | mk k' r =>
    rw [hq] at h h1 h2 h3
    cases r with
    | some e => cases h
    | none =>
      simp only [Prod.mk.injEq, Except.ok.injEq] at h
      obtain ⟨-, rfl⟩ := h
      obtain ⟨bs, e1, e2⟩ := h1 rfl
      obtain ⟨m, a, b, c, rfl⟩ : ∃ m a b c, bs = [m, a, b, c] := by
        have := congrArg List.length e1
        simp only [List.length_cons, List.length_nil, List.length_map] at this
        match bs, this with
        | [m, a, b, c], _ => exact ⟨m, a, b, c, rfl⟩
      simp only [List.map_cons, List.map_nil, List.cons.injEq, Except.ok.injEq, and_true] at e1
      obtain ⟨rfl, pa, pb, pc⟩ := e1
      refine ⟨_, ⟨⟨a, b, c, pa, pb, pc, rfl⟩⟩, ⟨?_, rfl, rfl, rfl, rfl, (fun ds hds => nomatch hds), h2⟩, h3⟩
      simp only at e2
      rw [e2, h0]
      simp [Spec.blocksBytes, List.append_assoc]

theorem prun_good {f hd num} (cs : List PSession.Call) : ∀ {s blocks cur}, PGood f hd num s blocks cur → Spec.PySmooth s cs →
    ∃ blocks' cur', PGood f hd num (s.run cs).1 blocks' cur' ∧ blocks'.flatten ++ cur' = blocks.flatten ++ cur ++ Spec.pyGiven cs := by
  induction cs with
  | nil => intro s blocks cur h _; exact ⟨blocks, cur, h, by simp [Spec.pyGiven]⟩
  | cons c cs ih =>
    intro s blocks cur h hs
    have hs1 := hs (c, (s.call c).2) (by simp [PSession.run])
    have hs2 : Spec.PySmooth (s.call c).1 cs := fun x hx => hs x (by simp only [PSession.run, List.zip_cons_cons]; exact List.mem_cons_of_mem _ hx)
    have hcons : Spec.pyGiven (c :: cs) = Spec.pyGiven [c] ++ Spec.pyGiven cs := pyGiven_append [c] cs
    rcases hs1 with hs1 | ⟨a, ha, hg⟩
    · obtain ⟨b1, c1, g1, g2, -⟩ := (pcall_did h c).ok hs1
      obtain ⟨b2, c2, q1, q2⟩ := ih g1 hs2
      exact ⟨b2, c2, q1, by rw [q2, g2, hcons, List.append_assoc]⟩
    · simp only at ha hg
      subst ha
      have e := pbad_write (s := s) hg
      obtain ⟨b2, c2, q1, q2⟩ := ih (s := (s.call (.write a)).1) (by simp only [PSession.call, e]; exact h) hs2
      exact ⟨b2, c2, q1, by rw [q2, hcons, hg, List.nil_append]⟩

theorem prun_atomic {f hd num} (cs : List PSession.Call) : ∀ {s blocks cur}, PGood f hd num s blocks cur → Spec.AllOrNothing s.sink.rule →
    ∃ blocks' cur', PGood f hd num (s.run cs).1 blocks' cur' ∧ blocks'.flatten ++ cur' = blocks.flatten ++ cur ++ Spec.pyGiven cs ∧
      Spec.AllOrNothing (s.run cs).1.sink.rule := by
  induction cs with
  | nil => intro s blocks cur h ha; exact ⟨blocks, cur, h, by simp [Spec.pyGiven], ha⟩
  | cons c cs ih =>
    intro s blocks cur h ha
    obtain ⟨g0, b1, c1, g1, g2⟩ := (pcall_did h c).atomic ha
    obtain ⟨b2, c2, q1, q2, q3⟩ := ih g1 g0
    have hcons : Spec.pyGiven (c :: cs) = Spec.pyGiven [c] ++ Spec.pyGiven cs := pyGiven_append [c] cs
    exact ⟨b2, c2, q1, by rw [q2, g2, hcons, List.append_assoc], q3⟩

theorem prun_snoc (s : PSession) (cs : List PSession.Call) (c : PSession.Call) : (s.run (cs ++ [c])).1 = ((s.run cs).1.call c).1 := by
  induction cs generalizing s with
  | nil => rfl
  | cons d cs ih => simp only [PSession.run, List.cons_append]; exact ih _

theorem prefix_flatten {a b : List (List Bytes)} (h : a <+: b) : a.flatten <+: b.flatten := by
  obtain ⟨t, rfl⟩ := h
  rw [List.flatten_append]
  exact List.prefix_append _ _

theorem pcut_read {reg : Codecs} {name : Str} {f : Bytes → Bytes} {hd : Bytes} {num : Int} {blocks : List (List Bytes)} {docs : List Bytes} {file : Bytes}
    (hb : Spec.Undoes reg name f) (hh : Header name num hd) (hfit : ∀ ds ∈ blocks, (f (Spec.blockData ds)).length < 2 ^ 32)
    (hpre : blocks.flatten <+: docs) (hd1 : ∀ d ∈ docs, d.length < 2 ^ 32 ∧ Spec.ascii "DM_1" <+: d) (hf : file <+: hd ++ Spec.blocksBytes f blocks) :
    (hd.length ≤ file.length → ∃ j ≤ blocks.length, (∀ i, j < i → i ≤ blocks.length → file.length < hd.length + (Spec.blocksBytes f (blocks.take i)).length) ∧
      hd.length + (Spec.blocksBytes f (blocks.take j)).length ≤ file.length ∧ Spec.PyHolds reg file (blocks.take j).flatten) ∧
    (file.length < hd.length → ∃ e, DocReader.new reg file = .error e) ∧
    (file = hd ++ Spec.blocksBytes f blocks → Spec.PyHolds reg file blocks.flatten) := by
  obtain ⟨c', hc', hinv⟩ := hb
  have hok : BF.Ok ⟨hd, f, c'.decompress, blocks, []⟩ := by
    have hmem : ∀ ds ∈ blocks, ∀ d ∈ ds, d.length < 2 ^ 32 ∧ Spec.ascii "DM_1" <+: d := fun ds h d hm =>
      hd1 d (hpre.subset (List.mem_flatten.mpr ⟨ds, h, hm⟩))
    exact ⟨unpack_nil, hfit, fun ds _ => hinv _, fun ds h d hm => (hmem ds h d hm).1,
      fun ds h d hm => (List.prefix_iff_eq_take.mp (hmem ds h d hm).2).symm⟩
  have hle := hf.length_le
  have htake : file = (hd ++ Spec.blocksBytes f blocks).take file.length := List.prefix_iff_eq_take.mp hf
  refine ⟨fun hn => ?_, fun hn => ?_, fun he => ?_⟩
  · obtain ⟨r, j, e, hj, -, hj2, hr⟩ := prefix_reads_at hh hc' hok hn hle
    rw [← htake] at e
    exact ⟨j, hj, hj2.2, hj2.1, r, e, hr⟩
  · have g1 := header_cut (more := Spec.blocksBytes f blocks) hh hc' hn
    rw [← htake] at g1
    rcases g1 with g | g <;> exact ⟨_, g⟩
  · obtain ⟨r, j, e, hj, hj2, hr⟩ := prefix_reads hh hc' hok (by rw [List.length_append]; omega) (Nat.le_refl _)
    have := hj2 rfl
    subst this
    rw [List.take_length] at hr
    rw [List.take_length, ← he] at e
    exact ⟨r, e, hr⟩

/-! ### the theorems -/

/-- C110. On a file object that writes all it is given or raises: once flush() or close() has returned, and no call has
raised but `write` of something that is not a document, the file holds exactly the documents. (Partial: not for sessions that
go on after an exception of the file object, not for file objects that write less than they are given, and not for
documents written after close(), see the negations below.) -/
theorem C110_closed_partial {reg : Codecs} {name : Str} {f : Bytes → Bytes} {sink k : PSink} {num : Int} {s : PSession} {cs : List PSession.Call}
    {c : PSession.Call} (hb : Spec.Undoes reg name f) (h0 : sink.out = []) (hw : Spec.NoShort sink.rule)
    (hnew : PSession.new sink num name f = (k, .ok s)) (hs : Spec.PySmooth s cs) (hc : c = .flush ∨ c = .close)
    (he : ((s.run cs).1.call c).2 = none) (hd : ∀ d ∈ Spec.pyGiven cs, Spec.ascii "DM_1" <+: d) :
    Spec.PyHolds reg ((s.run cs).1.call c).1.sink.out (Spec.pyGiven cs) := by
  obtain ⟨hdr, ⟨hh⟩, hg, -⟩ := pnew_good h0 hw hnew
  obtain ⟨b1, c1, g1, g2⟩ := prun_good cs hg hs
  obtain ⟨b2, c2, q1, q2, q3⟩ := (pcall_did g1 c).ok he
  have hgc : Spec.pyGiven [c] = [] := by rcases hc with rfl | rfl <;> rfl
  have hc2 := q3 hc
  subst hc2
  simp only [List.flatten_nil, List.nil_append, List.append_nil] at g2 q2
  rw [g2, hgc, List.append_nil] at q2
  have := (pcut_read hb hh q1.fits (by rw [q2]; exact List.prefix_rfl) (fun d hm => ⟨pyGiven_short cs d hm, hd d hm⟩) q1.cutOff.2.1).2.2 q1.all
  rwa [q2] at this

/-- C110. On a file object that has written nothing when it raises: whatever raised before, and however often, once flush() or
close() returns, the file holds exactly the documents handed over, those included whose `write` raised. -/
theorem C110_all_or_nothing {reg : Codecs} {name : Str} {f : Bytes → Bytes} {sink k : PSink} {num : Int} {s : PSession} {cs : List PSession.Call}
    {c : PSession.Call} (hb : Spec.Undoes reg name f) (h0 : sink.out = []) (hw : Spec.AllOrNothing sink.rule)
    (hnew : PSession.new sink num name f = (k, .ok s)) (hc : c = .flush ∨ c = .close)
    (he : ((s.run cs).1.call c).2 = none) (hd : ∀ d ∈ Spec.pyGiven cs, Spec.ascii "DM_1" <+: d) :
    Spec.PyHolds reg ((s.run cs).1.call c).1.sink.out (Spec.pyGiven cs) := by
  obtain ⟨hdr, ⟨hh⟩, hg, ha⟩ := pnew_good h0 (allOrNothing_noShort hw) hnew
  obtain ⟨b1, c1, g1, g2, -⟩ := prun_atomic cs hg (ha hw)
  obtain ⟨b2, c2, q1, q2, q3⟩ := (pcall_did g1 c).ok he
  have hgc : Spec.pyGiven [c] = [] := by rcases hc with rfl | rfl <;> rfl
  have hc2 := q3 hc
  subst hc2
  simp only [List.flatten_nil, List.nil_append, List.append_nil] at g2 q2
  rw [g2, hgc, List.append_nil] at q2
  have := (pcut_read hb hh q1.fits (by rw [q2]; exact List.prefix_rfl) (fun d hm => ⟨pyGiven_short cs d hm, hd d hm⟩) q1.cutOff.2.1).2.2 q1.all
  rwa [q2] at this

theorem pcount_lt {s : PSession} (h : (s.count : Int) < s.num) (c : PSession.Call) (he : (s.call c).2 = none) :
    ((s.call c).1.count : Int) < (s.call c).1.num := by
  have hf : ∀ {t : PSession}, t.flush.2 = none → 0 < t.num → t.flush.1.count = 0 ∧ t.flush.1.num = t.num := by
    intro t
    unfold PSession.flush
    split
    · split
      · intro g; cases g
      · split
        · intro g; cases g
        · intro _ _; exact ⟨rfl, rfl⟩
    · intro _ _; exact ⟨by simp only; omega, rfl⟩
  cases c with
  | flush =>
    obtain ⟨a, b⟩ := hf (t := s) he (by omega)
    simp only [PSession.call, a, b]; omega
  | close =>
    simp only [PSession.call] at he ⊢
    unfold PSession.close at he ⊢
    cases hq : s.flush with
    | mk s1 r =>
      rw [hq] at he
      cases r with
      | some e => cases he
      | none =>
        obtain ⟨a, b⟩ := hf (t := s) (by rw [hq]) (by omega)
        rw [hq] at a b
        simp only at a b ⊢
        rw [a, b]; omega
  | write a =>
    simp only [PSession.call] at he ⊢
    unfold PSession.write at he ⊢
    cases a with
    | error e => cases he
    | ok d =>
      simp only at he ⊢
      cases hp : pack (.bin d) with
      | error e => rw [hp] at he; cases he
      | ok b =>
        rw [hp] at he
        simp only at he ⊢
        split
        · rename_i hc
          rw [if_pos hc] at he
          obtain ⟨a, b⟩ := hf he (by simp only; omega)
          rw [a, b]
          simp only
          omega
        · simp only
          omega

theorem pcount_run (cs : List PSession.Call) : ∀ {s : PSession}, (s.count : Int) < s.num → Spec.PySmooth s cs → ((s.run cs).1.count : Int) < (s.run cs).1.num := by
  induction cs with
  | nil => intro s h _; exact h
  | cons c cs ih =>
    intro s h hs
    have hs1 := hs (c, (s.call c).2) (by simp [PSession.run])
    have hs2 : Spec.PySmooth (s.call c).1 cs := fun x hx => hs x (by simp only [PSession.run, List.zip_cons_cons]; exact List.mem_cons_of_mem _ hx)
    simp only [PSession.run]
    refine ih ?_ hs2
    rcases hs1 with hs1 | ⟨a, ha, hg⟩
    · exact pcount_lt h c hs1
    · simp only at ha hg
      subst ha
      simp only [PSession.call, pbad_write hg]
      exact h

/-- C110. If no call has raised but `write` of something that is not a document, what has arrived is a whole file, and fewer documents are
missing than fit into a block. -/
theorem C110_lag {reg : Codecs} {name : Str} {f : Bytes → Bytes} {sink k : PSink} {num : Int} {s : PSession} {cs : List PSession.Call}
    (hb : Spec.Undoes reg name f) (h0 : sink.out = []) (hw : Spec.NoShort sink.rule) (hnum : 0 < num)
    (hnew : PSession.new sink num name f = (k, .ok s)) (hs : Spec.PySmooth s cs) (hd : ∀ d ∈ Spec.pyGiven cs, Spec.ascii "DM_1" <+: d) :
    ∃ n : Nat, ((Spec.pyGiven cs).length : Int) < n + num ∧ Spec.PyHolds reg (s.run cs).1.sink.out ((Spec.pyGiven cs).take n) := by
  obtain ⟨hdr, ⟨hh⟩, hg, -⟩ := pnew_good h0 hw hnew
  obtain ⟨b1, c1, g1, g2⟩ := prun_good cs hg hs
  have hlt := pcount_run cs (s := s) (by rw [hg.count, hg.num]; simpa using hnum) hs
  rw [g1.count, g1.num] at hlt
  simp only [List.flatten_nil, List.nil_append] at g2
  have hlen : (Spec.pyGiven cs).length = b1.flatten.length + c1.length := by rw [← g2, List.length_append]
  have htake : (Spec.pyGiven cs).take b1.flatten.length = b1.flatten := by rw [← g2, List.take_left]
  refine ⟨b1.flatten.length, by omega, ?_⟩
  rw [htake]
  exact (pcut_read hb hh g1.fits ⟨c1, g2⟩ (fun d hm => ⟨pyGiven_short cs d hm, hd d hm⟩) g1.cutOff.2.1).2.2 g1.all

/-- C110. The first exception of the file object, wherever it comes and however much has been written: the file reads as the first of the
documents handed over, and none that was there before the call is lost. -/
theorem C110_first_exception {reg : Codecs} {name : Str} {f : Bytes → Bytes} {sink k : PSink} {num : Int} {s : PSession} {cs : List PSession.Call}
    (c : PSession.Call) (hb : Spec.Undoes reg name f) (h0 : sink.out = []) (hw : Spec.NoShort sink.rule)
    (hnew : PSession.new sink num name f = (k, .ok s)) (hs : Spec.PySmooth s cs) (hd : ∀ d ∈ Spec.pyGiven (cs ++ [c]), Spec.ascii "DM_1" <+: d) :
    ∃ n m, n ≤ m ∧ Spec.PyHolds reg (s.run cs).1.sink.out ((Spec.pyGiven cs).take n) ∧
      Spec.PyHolds reg ((s.run cs).1.call c).1.sink.out ((Spec.pyGiven (cs ++ [c])).take m) := by
  obtain ⟨hdr, ⟨hh⟩, hg, -⟩ := pnew_good h0 hw hnew
  obtain ⟨b1, c1, g1, g2⟩ := prun_good cs hg hs
  simp only [List.flatten_nil, List.nil_append] at g2
  have htake : (Spec.pyGiven cs).take b1.flatten.length = b1.flatten := by rw [← g2, List.take_left]
  have happ : Spec.pyGiven (cs ++ [c]) = Spec.pyGiven cs ++ Spec.pyGiven [c] := pyGiven_append cs [c]
  obtain ⟨more, ⟨p1, p2, p3⟩, p4, p5⟩ := (pcall_did g1 c).cut
  rw [g2, ← happ] at p4
  obtain ⟨j, j1, j2, j3, j4⟩ := (pcut_read hb hh p3 p4 (fun d hm => ⟨pyGiven_short _ d hm, hd d hm⟩) p2).1 p1.length_le
  have hj : b1.length ≤ j := by
    rcases Nat.lt_or_ge j b1.length with hlt | hge
    · have := j2 b1.length hlt (by rw [List.length_append]; omega)
      rw [List.take_left] at this
      have := p5.length_le
      rw [List.length_append] at this
      omega
    · exact hge
  have hpre : ((b1 ++ more).take j).flatten <+: Spec.pyGiven (cs ++ [c]) := (prefix_flatten (List.take_prefix j (b1 ++ more))).trans p4
  refine ⟨b1.flatten.length, ((b1 ++ more).take j).flatten.length, ?_, ?_, ?_⟩
  · have : b1 <+: (b1 ++ more).take j := by
      rw [List.take_append, List.take_of_length_le hj]
      exact List.prefix_append _ _
    exact (prefix_flatten this).length_le
  · rw [htake]
    exact (pcut_read hb hh g1.fits ⟨c1, g2⟩ (fun d hm => ⟨pyGiven_short cs d hm, hd d (by rw [happ]; exact List.mem_append_left _ hm)⟩) g1.cutOff.2.1).2.2 g1.all
  · rw [← List.prefix_iff_eq_take.mp hpre]
    exact j4

/-- C110. A constructor that raises leaves a file that is refused, or a whole file without a document. -/
theorem C110_failed_open {reg : Codecs} {name : Str} {f : Bytes → Bytes} {sink k : PSink} {num : Int} {e : PyErr} {a b : Bytes}
    (hb : Spec.Undoes reg name f) (h0 : sink.out = []) (hw : Spec.NoShort sink.rule) (ha : pack (.str name) = .ok a) (hn : pack (.int num) = .ok b)
    (hnew : PSession.new sink num name f = (k, .error e)) : (∃ e, DocReader.new reg k.out = .error e) ∨ Spec.PyHolds reg k.out [] := by
  have hh : Header name num (fileMagic ++ a ++ b ++ [0xc2]) := ⟨a, b, [0xc2], ha, hn, rfl, rfl⟩
  have hpre : k.out <+: (fileMagic ++ a ++ b ++ [0xc2]) ++ Spec.blocksBytes f [] := by
    unfold PSession.new at hnew
    have := (parts_ok [.ok fileMagic, pack (.str name), pack (.int num), pack (.bool false)] sink hw).2.2 [fileMagic, a, b, [0xc2]] (by rw [ha, hn]; rfl)
    cases hq : sink.writeParts [.ok fileMagic, pack (.str name), pack (.int num), pack (.bool false)] with
    | mk k' r =>
      rw [hq] at this hnew
      cases r with
      | none => cases hnew
      | some e =>
        simp only [Prod.mk.injEq] at hnew
        rw [← hnew.1]
        rw [h0] at this
        simpa [Spec.blocksBytes, List.append_assoc] using this
  obtain ⟨g1, g2, -⟩ := pcut_read (docs := []) hb hh (blocks := []) nofun List.prefix_rfl nofun hpre
  rcases Nat.lt_or_ge k.out.length (fileMagic ++ a ++ b ++ [0xc2]).length with hlt | hge
  · exact .inl (g2 hlt)
  · obtain ⟨j, -, -, -, h⟩ := g1 hge
    rw [List.take_nil] at h
    exact .inr h

/-- C110. When a `write` raises because the file object does, the writer never writes again by itself: as many documents as one likes are
taken by `write` without an exception, and kept in memory. -/
theorem C110_failed_block {s : PSession} {d : Bytes} {e : PyErr} (hd : d.length < 2 ^ 32) (he : (s.write (.ok d)).2 = some e)
    (ds : List Bytes) (hds : ∀ x ∈ ds, x.length < 2 ^ 32) :
    ((s.write (.ok d)).1.run (ds.map (fun x => .write (.ok x)))).2 = ds.map (fun _ => none) ∧
    ((s.write (.ok d)).1.run (ds.map (fun x => .write (.ok x)))).1.sink = (s.write (.ok d)).1.sink := by
  have hcnt : (((s.write (.ok d)).1.count : Int) = (s.write (.ok d)).1.num) := by
    unfold PSession.write at he ⊢
    simp only [pack_bin hd] at he ⊢
    split at he
    · rename_i hc
      rw [if_pos hc]
      revert he
      unfold PSession.flush
      split
      · split
        · intro _; exact hc
        · split
          · intro _; exact hc
          · intro g; cases g
      · intro g; cases g
    · cases he
  have gen : ∀ (ds : List Bytes) {t : PSession}, (∀ x ∈ ds, x.length < 2 ^ 32) → t.num ≤ (t.count : Int) →
      (t.run (ds.map (fun x => .write (.ok x)))).2 = ds.map (fun _ => none) ∧ (t.run (ds.map (fun x => .write (.ok x)))).1.sink = t.sink := by
    intro ds
    induction ds with
    | nil => intro t _ _; exact ⟨rfl, rfl⟩
    | cons x ds ih =>
      intro t hx ht
      have e : t.write (.ok x) = ({ t with block := t.block ++ Spec.bpack x, count := t.count + 1 }, none) := by
        unfold PSession.write
        simp only [pack_bin (hx x (List.mem_cons_self ..))]
        rw [if_neg (by omega)]
      have := ih (t := { t with block := t.block ++ Spec.bpack x, count := t.count + 1 }) (fun y hy => hx y (List.mem_cons_of_mem _ hy)) (by simp only; omega)
      simp only [List.map_cons, PSession.run, PSession.call, e, this.1, this.2]
      exact ⟨trivial, trivial⟩
  exact gen ds hds (by omega)

/-- nothing is written to a closed file -/
theorem pclosed_call {s : PSession} (h : s.sink.closed = true) (c : PSession.Call) : (s.call c).1.sink = s.sink := by
  have hf : ∀ {t : PSession}, t.sink.closed = true → t.flush.1.sink = t.sink := by
    intro t ht
    have hw : ∀ b, t.sink.write b = (t.sink, some .value) := fun b => by unfold PSink.write; rw [if_pos ht]
    unfold PSession.flush
    split
    · split
      · rfl
      · rw [hw]
    · rfl
  cases c with
  | flush => exact hf h
  | close =>
    simp only [PSession.call]
    unfold PSession.close
    have := hf h
    cases hq : s.flush with
    | mk s1 r =>
      rw [hq] at this
      simp only at this
      cases r with
      | some e => exact this
      | none =>
        simp only [this]
        unfold PSink.close
        rw [if_pos h]
  | write a =>
    simp only [PSession.call]
    unfold PSession.write
    cases a with
    | error e => rfl
    | ok d =>
      simp only
      split
      · rfl
      · split
        · rw [hf]; exact h
        · rfl

theorem pclose_closed {s : PSession} (h : s.close.2 = none) : s.close.1.sink.closed = true ∧ s.close.1.count = 0 := by
  unfold PSession.close at h ⊢
  have hf : s.flush.2 = none → s.flush.1.count = 0 := by
    unfold PSession.flush
    split
    · split
      · intro g; cases g
      · split
        · intro g; cases g
        · intro _; rfl
    · intro _; simp only; omega
  cases hq : s.flush with
  | mk s1 r =>
    rw [hq] at h hf
    cases r with
    | some e => cases h
    | none => exact ⟨(psink_close s1.sink).2.1, hf rfl⟩

/-- C110. After close() has returned nothing arrives at the file object any more. -/
theorem C110_frozen {s : PSession} (h : s.close.2 = none) (cs : List PSession.Call) : (s.close.1.run cs).1.sink = s.close.1.sink := by
  have gen : ∀ (cs : List PSession.Call) {t : PSession}, t.sink.closed = true → (t.run cs).1.sink = t.sink := by
    intro cs
    induction cs with
    | nil => intro t _; rfl
    | cons c cs ih =>
      intro t ht
      have e := pclosed_call ht c
      simp only [PSession.run]
      rw [ih (by rw [e]; exact ht), e]
  exact gen cs (pclose_closed h).1

/-- C110. close() again, after it has returned, returns and changes nothing. -/
theorem C110_close_twice {s : PSession} (h : s.close.2 = none) : s.close.1.close = (s.close.1, none) := by
  obtain ⟨h1, h2⟩ := pclose_closed h
  generalize s.close.1 = t at h1 h2
  have hf : t.flush = (t, none) := by unfold PSession.flush; rw [if_neg (by omega)]
  have hc : t.sink.close = (t.sink, none) := by unfold PSink.close; rw [if_pos h1]
  unfold PSession.close
  rw [hf]
  simp only [hc]

/-- C110 fails for documents written after close(): fewer than fit into a block are taken without an exception, and none of
them is written, whatever is called later. -/
theorem C110_late_write_false {s : PSession} (h : s.close.2 = none) (ds : List Bytes) (hds : ∀ x ∈ ds, x.length < 2 ^ 32)
    (hn : (ds.length : Int) < s.close.1.num) (cs : List PSession.Call) :
    (s.close.1.run (ds.map (fun x => .write (.ok x)))).2 = ds.map (fun _ => none) ∧
    (s.close.1.run (ds.map (fun x => .write (.ok x)) ++ cs)).1.sink = s.close.1.sink := by
  refine ⟨?_, C110_frozen h _⟩
  have gen : ∀ (ds : List Bytes) {t : PSession}, (∀ x ∈ ds, x.length < 2 ^ 32) → (t.count : Int) + ds.length < t.num →
      (t.run (ds.map (fun x => .write (.ok x)))).2 = ds.map (fun _ => none) := by
    intro ds
    induction ds with
    | nil => intro t _ _; rfl
    | cons x ds ih =>
      intro t hx ht
      rw [List.length_cons] at ht
      have e : t.write (.ok x) = ({ t with block := t.block ++ Spec.bpack x, count := t.count + 1 }, none) := by
        unfold PSession.write
        simp only [pack_bin (hx x (List.mem_cons_self ..))]
        rw [if_neg (by omega)]
      have := ih (t := { t with block := t.block ++ Spec.bpack x, count := t.count + 1 }) (fun y hy => hx y (List.mem_cons_of_mem _ hy)) (by simp only; omega)
      simp only [List.map_cons, PSession.run, PSession.call, e, this]
  exact gen ds hds (by rw [(pclose_closed h).2]; omega)

/-- C110 fails on every file object that writes less than it is given, without raising, as a raw file may: `flush` returns, the
writer forgets the block, and none of its documents is in the file. Here the file object has written all it was given
before, in any session, and writes `n` bytes of a block that has more. -/
theorem C110_short_lost {reg : Codecs} {name : Str} {f : Bytes → Bytes} {sink k : PSink} {num : Int} {s : PSession} {cs : List PSession.Call}
    {n : Nat} {rest : List Fate} {b : Bytes} (hb : Spec.Undoes reg name f) (h0 : sink.out = []) (hw : Spec.NoShort sink.rule)
    (hnew : PSession.new sink num name f = (k, .ok s)) (hs : Spec.PySmooth s cs) (hd : ∀ d ∈ Spec.pyGiven cs, Spec.ascii "DM_1" <+: d)
    (hopen : (s.run cs).1.sink.closed = false) (hcol : 0 < (s.run cs).1.count)
    (hp : pack (.bin (f (s.run cs).1.block)) = .ok b) (hn : n < b.length) {t : PSession}
    (ht : t = { (s.run cs).1 with sink := { (s.run cs).1.sink with rule := .short n :: rest } }) :
    t.flush.2 = none ∧ t.flush.1.block = [] ∧ t.flush.1.count = 0 ∧
    ∃ m, m + t.count = (Spec.pyGiven cs).length ∧ Spec.PyHolds reg t.flush.1.sink.out ((Spec.pyGiven cs).take m) := by
  obtain ⟨hdr, ⟨hh⟩, hg, -⟩ := pnew_good h0 hw hnew
  obtain ⟨b1, c1, g1, g2⟩ := prun_good cs hg hs
  simp only [List.flatten_nil, List.nil_append] at g2
  generalize hu : (s.run cs).1 = u at g1 hopen hcol hp ht
  have hfl : t.flush = ({ u with sink := { out := u.sink.out ++ b.take n, closed := u.sink.closed, rule := rest }, block := [], count := 0 }, none) := by
    subst ht
    unfold PSession.flush
    simp only
    rw [if_pos hcol, g1.comp, hp]
    simp only [PSink.write, hopen, List.headD_cons, List.tail_cons, Bool.false_eq_true, if_false]
  have htc : t.count = c1.length := by rw [ht]; exact g1.count
  rw [hfl]
  refine ⟨rfl, rfl, rfl, b1.flatten.length, by rw [htc, ← g2, List.length_append], ?_⟩
  rw [g1.block] at hp
  have hbe := pack_bin_eq hp
  have hfit : ∀ ds ∈ b1 ++ [c1], (f (Spec.blockData ds)).length < 2 ^ 32 := by
    intro ds hds
    rcases List.mem_append.mp hds with m | m
    · exact g1.fits ds m
    · rw [List.mem_singleton.mp m]; exact pack_bin_short hp
  have hle : (b.take n).length = n := by rw [List.length_take]; omega
  have hpre : u.sink.out ++ b.take n <+: hdr ++ Spec.blocksBytes f (b1 ++ [c1]) := by
    rw [snoc_blocksBytes, g1.all, ← hbe, ← List.append_assoc]
    exact (List.prefix_append_right_inj _).mpr (List.take_prefix _ _)
  have hlen : (u.sink.out ++ b.take n).length = hdr.length + (Spec.blocksBytes f b1).length + n := by
    rw [List.length_append, hle, g1.all, List.length_append]
  obtain ⟨j, j1, j2, j3, j4⟩ := (pcut_read hb hh hfit (by rw [List.flatten_append]; simp only [List.flatten_cons, List.flatten_nil, List.append_nil]; rw [g2]; exact List.prefix_rfl)
    (fun d hm => ⟨pyGiven_short cs d hm, hd d hm⟩) hpre).1 (by omega)
  have e1 : j = b1.length := by
    rw [List.length_append, List.length_singleton] at j1
    rcases Nat.lt_trichotomy j b1.length with hlt | heq | hgt
    · have := j2 b1.length hlt (by rw [List.length_append]; omega)
      rw [List.take_left] at this
      omega
    · exact heq
    · have : j = (b1 ++ [c1]).length := by rw [List.length_append, List.length_singleton]; omega
      rw [this, List.take_length, snoc_blocksBytes, ← hbe, List.length_append] at j3
      omega
  subst e1
  rw [List.take_left] at j4
  rw [← g2, List.take_left]
  exact j4

/-- C110. Nothing but close() closes the file object, and that only when everything collected has been written; so after a close() that
raised because a block could not be written, the file is open and the block still there. -/
theorem C110_stays_open {s : PSession} (h : s.sink.closed = false) {c : PSession.Call} (hc : (s.call c).1.sink.closed = true) :
    c = .close ∧ (s.call c).1.count = 0 ∧ s.flush.2 = none := by
  have hf : ∀ {t : PSession}, t.sink.closed = false → t.flush.1.sink.closed = false := by
    intro t ht
    have hw : ∀ b, (t.sink.write b).1.closed = false := fun b => by
      unfold PSink.write
      rw [if_neg (by rw [ht]; decide)]
      split <;> exact ht
    unfold PSession.flush
    split
    · split
      · exact ht
      · rename_i b _
        have := hw b
        split <;> (rename_i hq; rw [hq] at this; exact this)
    · exact ht
  cases c with
  | flush => rw [PSession.call, hf h] at hc; cases hc
  | close =>
    refine ⟨rfl, ?_⟩
    have h1 := hf h
    have hcnt : s.flush.2 = none → s.flush.1.count = 0 := by
      unfold PSession.flush
      split
      · split
        · intro g; cases g
        · split
          · intro g; cases g
          · intro _; rfl
      · intro _; simp only; omega
    simp only [PSession.call] at hc ⊢
    unfold PSession.close at hc ⊢
    cases hq : s.flush with
    | mk s1 r =>
      rw [hq] at hc h1 hcnt
      cases r with
      | some e => simp only at hc h1; rw [h1] at hc; cases hc
      | none => exact ⟨hcnt rfl, rfl⟩
  | write a =>
    exfalso
    simp only [PSession.call] at hc
    unfold PSession.write at hc
    cases a with
    | error e => rw [h] at hc; cases hc
    | ok d =>
      simp only at hc
      split at hc
      · rw [h] at hc; cases hc
      · split at hc
        · rw [hf] at hc
          · cases hc
          · exact h
        · simp only at hc; rw [h] at hc; cases hc

/-- C110. Once the file object raises no more, close() returns, and with C110_all_or_nothing everything is in the file. -/
theorem C110_recovers {s : PSession} (h : s.sink.closed = false) (hr : s.sink.rule = []) (hfit : (s.compress s.block).length < 2 ^ 32) :
    s.close.2 = none := by
  unfold PSession.close PSession.flush
  have hw : ∀ b, s.sink.write b = ({ s.sink with out := s.sink.out ++ b, rule := [] }, none) := fun b => by
    unfold PSink.write
    simp only [h, hr, List.headD_nil, List.tail_nil, Bool.false_eq_true, if_false]
  split
  · rename_i hq
    split at hq
    · rw [pack_bin hfit] at hq
      simp only [hw] at hq
      cases hq
    · cases hq
  · rename_i hq
    split at hq
    · rw [pack_bin hfit] at hq
      simp only [hw] at hq
      cases hq
      simp [PSink.close, h]
    · cases hq
      simp [PSink.close, h, hr]

namespace Ex

/-- a session on a file object that follows the rule, with a codec that stores what it is given -/
def onFile (rule : List Fate) (num : Int) (cs : List PSession.Call) : Option (PSession × List (Option PyErr)) :=
  match PSession.new ⟨[], false, rule⟩ num "none".toList id with
  | (_, .error _) => none
  | (_, .ok s) => some (s.run cs)

/-- which calls raised -/
def pyRaised (s : Option (PSession × List (Option PyErr))) : List Bool := (s.map (fun x => x.2.map Option.isSome)).getD []

/-- what is in the file -/
def pyArrived (s : Option (PSession × List (Option PyErr))) : Bytes := (s.map (fun x => x.1.sink.out)).getD []

/-- what `n` calls of next() of a reader yield, `none` for an exception -/
def pyRead (file : Bytes) (n : Nat) : Option (List (Option Bytes)) :=
  (DocReader.new [("none".toList, plain)] file).toOption.map (fun r => (r.nexts n).map (fun x => (x.map MDoc.raw).toOption))

/-- three documents in blocks of two, a flush between, one that cannot be encoded -/
def pyCalls : List PSession.Call :=
  [.write (.ok (tinyDoc 65)), .write (.error .value), .flush, .write (.ok (tinyDoc 66)), .write (.ok (tinyDoc 67)), .write (.ok (tinyDoc 68))]

end Ex

/-- the codec stores what it is given -/
theorem Ex.plainUndoes : Spec.Undoes [("none".toList, Ex.plain)] "none".toList id := ⟨Ex.plain, rfl, fun _ => rfl⟩

/-- the hypotheses of C110_closed_partial, C110_lag, C110_first_exception and C110_short_lost hold for a session with something
that is not a document, on a file object that raises later -/
example : ∃ k s b, PSession.new ⟨[], false, [.ok, .ok, .ok, .ok, .ok, .ok, .ok, .raise 3]⟩ 2 "none".toList id = (k, .ok s) ∧
    Spec.PySmooth s Ex.pyCalls ∧ ((s.run Ex.pyCalls).1.call .flush).2 = none ∧ (((s.run Ex.pyCalls).1.flush.1).call .close).2 = some .io ∧
    Spec.pyGiven Ex.pyCalls = [Ex.tinyDoc 65, Ex.tinyDoc 66, Ex.tinyDoc 67, Ex.tinyDoc 68] ∧
    (∀ d ∈ Spec.pyGiven Ex.pyCalls, Spec.ascii "DM_1" <+: d) ∧ (s.run Ex.pyCalls).1.sink.closed = false ∧ (s.run Ex.pyCalls).1.count = 1 ∧
    pack (.bin (s.run Ex.pyCalls).1.block) = .ok b ∧ b.length = 9 ∧
    (s.run Ex.pyCalls).1.sink.out = fileMagic ++ [0xa4, 110, 111, 110, 101, 2, 0xc2] ++
      Spec.blocksBytes id [[Ex.tinyDoc 65], [Ex.tinyDoc 66, Ex.tinyDoc 67]] := by
  refine ⟨_, _, _, rfl, ?_, by decide +kernel, by decide +kernel, by decide, by decide, by decide +kernel, by decide +kernel, rfl, by decide +kernel, by decide +kernel⟩
  have : ∀ x ∈ Ex.pyCalls.zip [none, some PyErr.value, none, none, none, none],
      x.2 = none ∨ ∃ a, x.1 = .write a ∧ Spec.pyGiven [x.1] = [] := by
    intro x hx
    simp only [Ex.pyCalls, List.zip_cons_cons, List.zip_nil_left, List.mem_cons, List.not_mem_nil, or_false] at hx
    rcases hx with rfl | rfl | rfl | rfl | rfl | rfl
    all_goals first | exact .inl rfl | exact .inr ⟨_, rfl, rfl⟩
  exact this

example : Spec.NoShort [.ok, .raise 3, .ok] ∧ Spec.AllOrNothing [.ok, .raise 0, .raise 0, .ok] := by
  constructor
  · intro x hx k e
    subst e
    simp at hx
  · unfold Spec.AllOrNothing; decide

/-- a file object that raises three times and has written nothing then: every document is there once (C110_all_or_nothing) -/
example : Ex.pyRaised (Ex.onFile [.ok, .ok, .ok, .ok, .raise 0, .raise 0, .ok, .raise 0] 1
      [.write (.ok (Ex.tinyDoc 65)), .flush, .write (.ok (Ex.tinyDoc 66)), .flush, .write (.ok (Ex.tinyDoc 67)), .close]) =
        [true, true, false, false, true, false] ∧
    Ex.pyRead (Ex.pyArrived (Ex.onFile [.ok, .ok, .ok, .ok, .raise 0, .raise 0, .ok, .raise 0] 1
      [.write (.ok (Ex.tinyDoc 65)), .flush, .write (.ok (Ex.tinyDoc 66)), .flush, .write (.ok (Ex.tinyDoc 67)), .close])) 4 =
        some [some (Ex.tinyDoc 65), some (Ex.tinyDoc 66), some (Ex.tinyDoc 67), none] := by
  decide +kernel

/-- close() raises twice as the block cannot be written, and returns the third time (C110_stays_open, C110_recovers) -/
example : Ex.pyRaised (Ex.onFile [.ok, .ok, .ok, .ok, .raise 0, .raise 0] 2 [.write (.ok (Ex.tinyDoc 65)), .close, .close, .close]) =
      [false, true, true, false] ∧
    (Ex.onFile [.ok, .ok, .ok, .ok, .raise 0, .raise 0] 2 [.write (.ok (Ex.tinyDoc 65)), .close, .close]).map
      (fun x => (x.1.sink.closed, x.1.sink.rule, x.1.count)) = some (false, [], 1) ∧
    Ex.pyRead (Ex.pyArrived (Ex.onFile [.ok, .ok, .ok, .ok, .raise 0, .raise 0] 2 [.write (.ok (Ex.tinyDoc 65)), .close, .close, .close])) 2 =
      some [some (Ex.tinyDoc 65), none] := by
  decide +kernel

/-- a file object that raises in the constructor (C110_failed_open) -/
example : (PSession.new ⟨[], false, [.ok, .raise 2]⟩ 2 "none".toList id).2.toOption.isNone ∧
    (PSession.new ⟨[], false, [.ok, .raise 2]⟩ 2 "none".toList id).1.out = fileMagic ++ [0xa4, 110] := by
  decide +kernel

/-- the file object raises once; five more documents in blocks of one are taken and none is written (C110_failed_block) -/
example : Ex.pyRaised (Ex.onFile [.ok, .ok, .ok, .ok, .raise 0] 1 ([65, 66, 67, 68, 69, 70].map (fun b => .write (.ok (Ex.tinyDoc b))))) =
    [true, false, false, false, false, false] ∧
    Ex.pyRead (Ex.pyArrived (Ex.onFile [.ok, .ok, .ok, .ok, .raise 0] 1 ([65, 66, 67, 68, 69, 70].map (fun b => .write (.ok (Ex.tinyDoc b)))))) 1 =
      some [none] := by
  decide +kernel

/-- after close(), a document is taken and lost; the one that fills the block raises (C110_late_write_false) -/
example : Ex.pyRaised (Ex.onFile [] 2 [.write (.ok (Ex.tinyDoc 65)), .close, .close, .write (.ok (Ex.tinyDoc 66)), .write (.ok (Ex.tinyDoc 67))]) =
    [false, false, false, false, true] := by
  decide +kernel

/-- C110 fails when the file object raises once in the middle of a block and close() is called: a reader yields a document
that nobody wrote, or, the block having been written to its end, its document twice. -/
theorem C110_retry_false :
    (Ex.pyRaised (Ex.onFile [.ok, .ok, .ok, .ok, .raise 8] 1 [.write (.ok (Ex.tinyDoc 65)), .close]) = [true, false] ∧
      Ex.pyRead (Ex.pyArrived (Ex.onFile [.ok, .ok, .ok, .ok, .raise 8] 1 [.write (.ok (Ex.tinyDoc 65)), .close])) 1 = some [some (Ex.tinyDoc 0xc4)]) ∧
    (Ex.pyRaised (Ex.onFile [.ok, .ok, .ok, .ok, .raise 9] 1 [.write (.ok (Ex.tinyDoc 65)), .close]) = [true, false] ∧
      Ex.pyRead (Ex.pyArrived (Ex.onFile [.ok, .ok, .ok, .ok, .raise 9] 1 [.write (.ok (Ex.tinyDoc 65)), .close])) 3 =
        some [some (Ex.tinyDoc 65), some (Ex.tinyDoc 65), none]) := by
  decide +kernel

/-- C110 fails on a file object that writes all but one byte of a block: no call raises, and a reader yields a document that nobody
wrote and none of the two that were written. -/
theorem C110_short_false :
    Ex.pyRaised (Ex.onFile [.ok, .ok, .ok, .ok, .short 8] 1 [.write (.ok (Ex.tinyDoc 65)), .write (.ok (Ex.tinyDoc 66)), .close]) = [false, false, false] ∧
    Ex.pyRead (Ex.pyArrived (Ex.onFile [.ok, .ok, .ok, .ok, .short 8] 1 [.write (.ok (Ex.tinyDoc 65)), .write (.ok (Ex.tinyDoc 66)), .close])) 3 =
      some [some (Ex.tinyDoc 0xc4), none, none] := by
  decide +kernel

/-- C110 in full: once close() has returned, the file holds the documents whose `write` returned. -/
def C110_full : Prop := ∀ (reg : Codecs) (name : Str) (f : Bytes → Bytes) (sink k : PSink) (num : Int) (s : PSession) (cs : List PSession.Call),
  Spec.Undoes reg name f → sink.out = [] → PSession.new sink num name f = (k, .ok s) → ((s.run cs).1.close).2 = none →
  (∀ d ∈ Spec.pyGiven cs, Spec.ascii "DM_1" <+: d) → Spec.PyHolds reg (s.run cs).1.close.1.sink.out (Spec.pyReturned s cs)

theorem C110_full_false : ¬ C110_full := by
  intro h
  have := h [("none".toList, Ex.plain)] "none".toList id ⟨[], false, [.ok, .ok, .ok, .ok, .short 8]⟩ _ 1 _
    [.write (.ok (Ex.tinyDoc 65)), .write (.ok (Ex.tinyDoc 66))] Ex.plainUndoes rfl rfl (by decide +kernel) (by decide)
  obtain ⟨r, e, hr⟩ := this
  have hk := hr 0
  have hq : ∀ {o : Bytes} {r : DocReader}, Ex.pyRead o 2 = some [some (Ex.tinyDoc 0xc4), none] → DocReader.new [("none".toList, Ex.plain)] o = .ok r →
      (r.nexts 2).map (fun x => (x.map MDoc.raw).toOption) = [some (Ex.tinyDoc 0xc4), none] := by
    intro o r h1 h2
    unfold Ex.pyRead at h1
    rw [h2] at h1
    exact Option.some.inj h1
  have h1 := hq (by decide +kernel) e
  have h2 := congrArg (List.map Except.toOption) hk
  rw [List.map_map] at h2
  have h3 : List.map (Except.toOption ∘ fun (x : Except PyErr MDoc) => x.map MDoc.raw) (r.nexts 2) = [some (Ex.tinyDoc 65), some (Ex.tinyDoc 66)] := h2
  have h4 : [some (Ex.tinyDoc 0xc4), none] = [some (Ex.tinyDoc 65), some (Ex.tinyDoc 66)] := h1.symm.trans h3
  revert h4
  decide

end Verif
