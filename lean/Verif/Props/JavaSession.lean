import Verif.Proof.JavaSession
/-
C109: the Java writer of block files on an output stream that may raise: flush(), close(), exceptions.
-/
set_option linter.unusedSimpArgs false
namespace Verif

namespace Spec

/-- the documents that the calls hand over; a document that cannot be encoded is not one, and no array of Java has
2^31 bytes or more -/
def given : List JSession.Call → List Bytes
  | [] => []
  | .write (.ok d) :: cs => if d.length < 2 ^ 31 then d :: given cs else given cs
  | _ :: cs => given cs

/-- no call raised but `write` of a document that cannot be encoded -/
def Smooth (s : JSession) (cs : List JSession.Call) : Prop :=
  ∀ x ∈ cs.zip (s.run cs).2, x.2 = none ∨ ∃ a, x.1 = .write a ∧ given [x.1] = []

/-- both libraries undo the compression: Python's has registered the name, Java's knows it -/
structure BothRead (reg : Codecs) (unzip : Bytes → Except PyErr Bytes) (name : Str) (f : Bytes → Bytes) : Prop where
  python : ∃ c, getCodec reg name = .ok c ∧ ∀ x, c.decompress (f x) = .ok x
  java : ∃ dec, JDocReader.codecOf unzip (utf8Encode name) = .ok dec ∧ ∀ x, dec (f x) = .ok x

/-- a reader of either library yields exactly these documents -/
def HoldsDocs (reg : Codecs) (unzip : Bytes → Except PyErr Bytes) (file : Bytes) (docs : List Bytes) : Prop :=
  (∃ r, DocReader.new reg file = .ok r ∧ ∀ k,
    (r.nexts (docs.length + k)).map (fun x => x.map MDoc.raw) = docs.map .ok ++ List.replicate k (.error .stopIteration)) ∧
  ∃ r, JDocReader.new unzip none file = .ok r ∧ ∀ calls bound, docs.length < bound → r.calls bound calls = answers docs calls

/-- neither library opens the file -/
def Refused (reg : Codecs) (unzip : Bytes → Except PyErr Bytes) (file : Bytes) : Prop :=
  (∃ e, DocReader.new reg file = .error e) ∧ ∃ e, JDocReader.new unzip none file = .error e

/-- Python's reader yields exactly these documents; Java's yields them, and may then raise -/
def HoldsFirst (reg : Codecs) (unzip : Bytes → Except PyErr Bytes) (file : Bytes) (docs : List Bytes) : Prop :=
  (∃ r, DocReader.new reg file = .ok r ∧ ∀ k,
    (r.nexts (docs.length + k)).map (fun x => x.map MDoc.raw) = docs.map .ok ++ List.replicate k (.error .stopIteration)) ∧
  ∃ r, JDocReader.new unzip none file = .ok r ∧ ∀ calls bound, docs.length < bound →
    r.calls bound calls = answers docs calls ∨ cutAnswers past docs calls <+: r.calls bound calls

/-- the documents whose `write` returned -/
def jReturned (s : JSession) (cs : List JSession.Call) : List Bytes :=
  (cs.zip (s.run cs).2).flatMap (fun x => if x.2.isNone then given [x.1] else [])

end Spec

theorem given_append (a b : List JSession.Call) : Spec.given (a ++ b) = Spec.given a ++ Spec.given b := by
  induction a with
  | nil => rfl
  | cons c a ih =>
    cases c with
    | write x =>
      cases x with
      | error e => simpa only [Spec.given, List.cons_append] using ih
      | ok d =>
        simp only [Spec.given, List.cons_append, ih]
        split
        · rfl
        · rfl
    | flush => simpa only [Spec.given, List.cons_append] using ih
    | close => simpa only [Spec.given, List.cons_append] using ih

/-! ### the invariant -/

/-- blocks whose compressed form is an array of Java -/
def ShortBlocks (f : Bytes → Bytes) (blocks : List (List Bytes)) : Prop :=
  ∀ ds ∈ blocks, (f (Spec.blockData ds)).length < 2 ^ 31 ∧ ds ≠ []

/-- `blocks` have been written, `cur` is collected -/
structure JGood (f : Bytes → Bytes) (hd : Bytes) (num : Int) (s : JSession) (blocks : List (List Bytes)) (cur : List Bytes) : Prop where
  all : s.packer.all = hd ++ Spec.blocksBytes f blocks
  buf : blocks = [] ∨ s.packer.buf.getD [] = []
  block : s.block = Spec.blockData cur
  count : s.count = cur.length
  comp : s.compress = f
  num : s.num = num
  short : ShortBlocks f blocks

/-- what has arrived is the beginning of these blocks -/
def JCutOff (f : Bytes → Bytes) (hd : Bytes) (s : JSession) (blocks : List (List Bytes)) : Prop :=
  s.out <+: hd ++ Spec.blocksBytes f blocks ∧ ShortBlocks f blocks

theorem JGood.cutOff {f hd num s blocks cur} (h : JGood f hd num s blocks cur) : JCutOff f hd s blocks :=
  ⟨by rw [← h.all]; exact List.prefix_append _ _, h.short⟩

theorem blocksBytes_snoc (f : Bytes → Bytes) (blocks : List (List Bytes)) (cur : List Bytes) :
    Spec.blocksBytes f (blocks ++ [cur]) = Spec.blocksBytes f blocks ++ Spec.bpack (f (Spec.blockData cur)) := by
  rw [blocksBytes_append]; simp [Spec.blocksBytes, Spec.blockBytes]

theorem flushblock_good {f hd num s blocks cur} (h : JGood f hd num s blocks cur) (hne : cur ≠ []) :
    (JCutOff f hd s.flushblock.1 blocks ∨ JCutOff f hd s.flushblock.1 (blocks ++ [cur])) ∧
    (s.flushblock.2 = none → JGood f hd num s.flushblock.1 (blocks ++ [cur]) []) ∧
    (s.flushblock.2 ≠ none → s.flushblock.1.count = s.count ∧ s.flushblock.1.num = s.num) := by
  have same : ∀ e : PyErr, (JCutOff f hd (s, some e).1 blocks ∨ JCutOff f hd (s, some e).1 (blocks ++ [cur])) ∧
      ((s, some e).2 = none → JGood f hd num (s, some e).1 (blocks ++ [cur]) []) ∧
      ((s, some e).2 ≠ none → (s, some e).1.count = s.count ∧ (s, some e).1.num = s.num) :=
    fun e => ⟨.inl h.cutOff, (fun g => nomatch g), fun _ => ⟨rfl, rfl⟩⟩
  unfold JSession.flushblock
  rw [h.comp, h.block]
  cases hz : jArray (f (Spec.blockData cur)) with
  | error e => exact same e
  | ok z =>
    have hzz : (f (Spec.blockData cur)).length < 2 ^ 31 ∧ f (Spec.blockData cur) = z := by
      unfold jArray at hz
      split at hz
      · cases hz; exact ⟨by assumption, rfl⟩
      · cases hz
    obtain ⟨hz1, rfl⟩ := hzz
    simp only
    cases hp : packBinHead (f (Spec.blockData cur)).length with
    | error e => exact same e
    | ok b =>
      simp only
      have ha := adds_block hp
      have hsh : ShortBlocks f (blocks ++ [cur]) := by
        intro ds hds
        rcases List.mem_append.mp hds with m | m
        · exact h.short ds m
        · rw [List.mem_singleton.mp m]; exact ⟨hz1, hne⟩
      have h1 := ha.ok s.packer
      have h2 := ha.sub s.packer
      have h3 := @block_empties (f (Spec.blockData cur)) b s.packer
      rw [h.all, List.append_assoc, ← blocksBytes_snoc] at h1 h2
      cases hq : JPacker.seq [JPacker.put b, JPacker.payload (f (Spec.blockData cur)), JPacker.flush] s.packer with
      | mk p r =>
        rw [hq] at h1 h2 h3
        cases r with
        | some e => exact ⟨.inr ⟨h2, hsh⟩, (fun g => nomatch g), fun _ => ⟨rfl, rfl⟩⟩
        | none =>
          exact ⟨.inr ⟨h2, hsh⟩, fun _ => ⟨h1 rfl, .inr (h3 rfl), rfl, rfl, rfl, h.num, hsh⟩, fun g => absurd rfl g⟩

theorem flushSink_good {f hd num s blocks cur} (h : JGood f hd num s blocks cur) :
    JGood f hd num { s with packer := (JPacker.flushSink s.packer).1 } blocks cur := by
  refine ⟨?_, h.buf, h.block, h.count, h.comp, h.num, h.short⟩
  simp only [JPacker.flushSink, JPacker.all, (sink_flush_out _).1]
  exact h.all

theorem closeSink_good {f hd num s blocks cur} (h : JGood f hd num s blocks cur) :
    JGood f hd num { s with packer := { s.packer with sink := s.packer.sink.close.1 } } blocks cur := by
  refine ⟨?_, h.buf, h.block, h.count, h.comp, h.num, h.short⟩
  simp only [JPacker.all, (sink_close_out _).1]
  exact h.all

/-- a call does what it should, or leaves the beginning of it -/
def Did (f : Bytes → Bytes) (hd : Bytes) (num : Int) (r : JSession × Option PyErr) (docs : List Bytes) (emptied : Prop) : Prop :=
  (∃ blocks, JCutOff f hd r.1 blocks ∧ blocks.flatten <+: docs) ∧
  (r.2 = none → ∃ blocks cur, JGood f hd num r.1 blocks cur ∧ blocks.flatten ++ cur = docs ∧ (cur.length : Int) < num ∧ (emptied → cur = []))

theorem flush_did {f hd num s blocks cur} (h : JGood f hd num s blocks cur) (hnum : 1 ≤ num) (hlt : (cur.length : Int) < num) :
    Did f hd num s.flush (blocks.flatten ++ cur) True := by
  have hpos : ((([] : List Bytes).length : Nat) : Int) < num := by simp only [List.length_nil]; omega
  unfold JSession.flush
  by_cases hc : s.count > 0
  · have hne : cur ≠ [] := by
      intro e; rw [h.count, e] at hc; exact absurd hc (Nat.lt_irrefl 0)
    simp only [hc, if_true]
    obtain ⟨g1, g2, -⟩ := flushblock_good h hne
    have hfl : (blocks ++ [cur]).flatten = blocks.flatten ++ cur := by simp
    cases hq : s.flushblock with
    | mk s1 r =>
      rw [hq] at g1 g2
      have g1' : ∃ bs, JCutOff f hd s1 bs ∧ bs.flatten <+: blocks.flatten ++ cur := by
        rcases g1 with g | g
        · exact ⟨_, g, List.prefix_append _ _⟩
        · exact ⟨_, g, by rw [hfl]; exact List.prefix_rfl⟩
      cases r with
      | some e => exact ⟨g1', fun g => nomatch g⟩
      | none =>
        have g3 := flushSink_good (g2 rfl)
        refine ⟨⟨_, g3.cutOff, by rw [hfl]; exact List.prefix_rfl⟩, fun _ => ⟨_, _, g3, by rw [List.append_nil, hfl], hpos, fun _ => rfl⟩⟩
  · have hne : cur = [] := by
      apply List.eq_nil_of_length_eq_zero; rw [← h.count]; omega
    simp only [hc, if_false]
    have g3 := flushSink_good h
    exact ⟨⟨_, g3.cutOff, List.prefix_append _ _⟩, fun _ => ⟨_, _, g3, rfl, hlt, fun _ => hne⟩⟩

theorem call_did {f hd num s blocks cur} (h : JGood f hd num s blocks cur) (hnum : 1 ≤ num) (hlt : (cur.length : Int) < num) (c : JSession.Call) :
    Did f hd num (s.call c) (blocks.flatten ++ cur ++ Spec.given [c]) (c = .flush ∨ c = .close) := by
  cases c with
  | flush =>
    obtain ⟨g1, g2⟩ := flush_did h hnum hlt
    simp only [Spec.given, List.append_nil]
    exact ⟨g1, fun e => by obtain ⟨b, c, q1, q2, q3, q4⟩ := g2 e; exact ⟨b, c, q1, q2, q3, fun _ => q4 trivial⟩⟩
  | close =>
    obtain ⟨g1, g2⟩ := flush_did h hnum hlt
    simp only [Spec.given, List.append_nil, JSession.call]
    unfold JSession.close
    cases hq : s.flush with
    | mk s1 r =>
      rw [hq] at g1 g2
      cases r with
      | some e => exact ⟨g1, fun g => nomatch g⟩
      | none =>
        obtain ⟨b, c, q1, q2, q3, q4⟩ := g2 rfl
        have q5 := closeSink_good q1
        exact ⟨⟨_, q5.cutOff, by rw [← q2]; exact List.prefix_append _ _⟩, fun _ => ⟨b, c, q5, q2, q3, fun _ => q4 trivial⟩⟩
  | write a =>
    have same : ∀ e : PyErr, Did f hd num (s, some e) (blocks.flatten ++ cur ++ Spec.given [JSession.Call.write a])
        (JSession.Call.write a = .flush ∨ JSession.Call.write a = .close) :=
      fun e => ⟨⟨blocks, h.cutOff, by rw [List.append_assoc]; exact List.prefix_append _ _⟩, fun g => nomatch g⟩
    simp only [JSession.call]
    unfold JSession.write
    cases a with
    | error e => exact same e
    | ok d =>
      simp only
      cases hz : jArray d with
      | error e => exact same e
      | ok z =>
        have hzz : d.length < 2 ^ 31 ∧ d = z := by
          unfold jArray at hz
          split at hz
          · cases hz; exact ⟨by assumption, rfl⟩
          · cases hz
        obtain ⟨hz1, rfl⟩ := hzz
        simp only
        cases hp : pack (.bin d) with
        | error e => exact same e
        | ok b =>
          have hb := pack_bin_eq hp
          simp only
          have hg : Spec.given [JSession.Call.write (.ok d)] = [d] := by simp only [Spec.given, if_pos hz1]
          rw [hg]
          have h1 : JGood f hd num { s with block := s.block ++ b, count := s.count + 1 } blocks (cur ++ [d]) := by
            refine ⟨h.all, h.buf, ?_, ?_, h.comp, h.num, h.short⟩
            · simp only [h.block, hb, blockData_append, blockData_cons]; simp [Spec.blockData]
            · simp only [h.count, List.length_append, List.length_singleton]
          have hno : ¬ (JSession.Call.write (.ok d) = .flush ∨ JSession.Call.write (.ok d) = .close) := by rintro (g | g) <;> cases g
          split
          · obtain ⟨g1, g2, -⟩ := flushblock_good h1 (by simp)
            have hfl : (blocks ++ [cur ++ [d]]).flatten = blocks.flatten ++ cur ++ [d] := by simp
            refine ⟨?_, fun e => ⟨_, _, g2 e, by rw [hfl, List.append_nil], by simp only [List.length_nil]; omega, fun g => absurd g hno⟩⟩
            rcases g1 with g | g
            · exact ⟨_, g, by rw [List.append_assoc]; exact List.prefix_append _ _⟩
            · exact ⟨_, g, by rw [hfl]; exact List.prefix_rfl⟩
          · rename_i hn
            refine ⟨⟨_, h1.cutOff, by rw [List.append_assoc]; exact List.prefix_append _ _⟩,
              fun _ => ⟨_, _, h1, by rw [List.append_assoc], ?_, fun g => absurd g hno⟩⟩
            have e1 : s.num = num := h.num
            have e2 := h.count
            simp only [List.length_append, List.length_singleton] at hn ⊢
            rw [e1, e2] at hn
            omega

/-- a document that cannot be encoded changes nothing -/
theorem bad_write {s : JSession} {a : Except PyErr Bytes} (h : Spec.given [.write a] = []) : (s.write a).1 = s := by
  unfold JSession.write
  cases a with
  | error e => rfl
  | ok d =>
    simp only [Spec.given] at h
    split at h
    · cases h
    · rename_i hn
      simp only [jArray, if_neg hn]

theorem new_good {sink k : JSink} {size : Nat} {num : Int} {name : Str} {f : Bytes → Bytes} {s : JSession} (h0 : sink.out = [])
    (h : JSession.new sink size num name f = (k, .ok s)) (hnum : num < 2 ^ 31) :
    ∃ hd, Nonempty (Header name num hd) ∧ JGood f hd num s [] [] ∧ 1 ≤ num := by
  unfold JSession.new at h
  by_cases hn : num < 1
  · rw [if_pos hn] at h; cases h
  rw [if_neg hn] at h
  cases pa : pack (.str name) with
  | error e => rw [pa] at h; cases hb : pack (.int num) <;> rw [hb] at h <;> cases h
  | ok a =>
    rw [pa] at h
    cases pb : pack (.int num) with
    | error e => rw [pb] at h; cases h
    | ok b =>
      rw [pb] at h
      simp only at h
      have ha := adds_seq_cons (adds_payload fileMagic) (adds_seq_cons (adds_put (a.take 1)) (adds_seq_cons (adds_payload (a.drop 1))
        (adds_two (adds_put b) (adds_put [0xc2]))))
      have h1 := ha.ok ⟨sink, none, size⟩
      cases hq : JPacker.seq [JPacker.payload fileMagic, JPacker.put (a.take 1), JPacker.payload (a.drop 1), JPacker.put b,
          JPacker.put [0xc2]] ⟨sink, none, size⟩ with
      | mk p r =>
        rw [hq] at h h1
        cases r with
        | some e => cases h
        | none =>
          simp only [Prod.mk.injEq, Except.ok.injEq] at h
          obtain ⟨-, rfl⟩ := h
          have h2 := h1 rfl
          refine ⟨fileMagic ++ a ++ b ++ [0xc2], ⟨⟨a, b, [0xc2], pa, pb, rfl, rfl⟩⟩, ⟨?_, .inl rfl, rfl, rfl, rfl, rfl, ?_⟩, by omega⟩
          · rw [h2]
            simp only [JPacker.all, h0, Option.getD_none, List.append_nil, List.nil_append, Spec.blocksBytes, List.map_nil, List.flatten_nil,
              List.append_assoc]
            rw [← List.append_assoc (a.take 1), List.take_append_drop]
          · intro ds hds; cases hds

theorem run_good {f hd num} (hnum : 1 ≤ num) (cs : List JSession.Call) : ∀ {s blocks cur}, JGood f hd num s blocks cur → (cur.length : Int) < num →
    Spec.Smooth s cs → ∃ blocks' cur', JGood f hd num (s.run cs).1 blocks' cur' ∧ blocks'.flatten ++ cur' = blocks.flatten ++ cur ++ Spec.given cs ∧
      (cur'.length : Int) < num := by
  induction cs with
  | nil => intro s blocks cur h hlt _; exact ⟨blocks, cur, h, by simp [Spec.given], hlt⟩
  | cons c cs ih =>
    intro s blocks cur h hlt hs
    have hs1 := hs (c, (s.call c).2) (by simp [JSession.run])
    have hs2 : Spec.Smooth (s.call c).1 cs := fun x hx => hs x (by simp only [JSession.run, List.zip_cons_cons]; exact List.mem_cons_of_mem _ hx)
    have hcons : Spec.given (c :: cs) = Spec.given [c] ++ Spec.given cs := given_append [c] cs
    rcases hs1 with hs1 | ⟨a, ha, hg⟩
    · obtain ⟨-, g⟩ := call_did h hnum hlt c
      obtain ⟨b1, c1, g1, g2, g3, -⟩ := g hs1
      obtain ⟨b2, c2, q1, q2, q3⟩ := ih g1 g3 hs2
      exact ⟨b2, c2, q1, by rw [q2, g2, hcons, List.append_assoc], q3⟩
    · simp only at ha hg
      subst ha
      have e := bad_write (s := s) hg
      obtain ⟨b2, c2, q1, q2, q3⟩ := ih (s := (s.call (.write a)).1) (by simp only [JSession.call, e]; exact h) hlt hs2
      exact ⟨b2, c2, q1, by rw [q2, hcons, hg, List.nil_append], q3⟩

theorem smooth_snoc {s : JSession} {cs : List JSession.Call} {c : JSession.Call} (h : Spec.Smooth s (cs ++ [c])) :
    Spec.Smooth s cs ∧ (((s.run cs).1.call c).2 = none ∨ ∃ a, c = .write a ∧ Spec.given [c] = []) := by
  induction cs generalizing s with
  | nil =>
    refine ⟨fun x hx => (by simp at hx), ?_⟩
    have := h (c, (s.call c).2) (by simp [JSession.run])
    exact this
  | cons d cs ih =>
    have h1 := h (d, (s.call d).2) (by simp [JSession.run])
    have h2 : Spec.Smooth (s.call d).1 (cs ++ [c]) := fun x hx => h x (by
      simp only [JSession.run, List.cons_append, List.zip_cons_cons]; exact List.mem_cons_of_mem _ hx)
    obtain ⟨g1, g2⟩ := ih h2
    refine ⟨fun x hx => ?_, g2⟩
    simp only [JSession.run, List.zip_cons_cons, List.mem_cons] at hx
    rcases hx with rfl | hx
    · exact h1
    · exact g1 x hx

theorem run_snoc (s : JSession) (cs : List JSession.Call) (c : JSession.Call) : (s.run (cs ++ [c])).1 = ((s.run cs).1.call c).1 := by
  induction cs generalizing s with
  | nil => rfl
  | cons d cs ih => simp only [JSession.run, List.cons_append]; exact ih _

/-! ### what the readers make of it -/

theorem given_short (cs : List JSession.Call) : ∀ d ∈ Spec.given cs, d.length < 2 ^ 31 := by
  induction cs with
  | nil => intro d h; cases h
  | cons c cs ih =>
    intro d h
    cases c with
    | write a =>
      cases a with
      | error e => exact ih d h
      | ok x =>
        simp only [Spec.given] at h
        split at h
        · rcases List.mem_cons.mp h with rfl | h
          · assumption
          · exact ih d h
        · exact ih d h
    | flush => exact ih d h
    | close => exact ih d h

/-- the beginning of a file -/
theorem cut_read {reg unzip name f hd} {num : Int} {blocks : List (List Bytes)} {docs : List Bytes} {file : Bytes} (hb : Spec.BothRead reg unzip name f) (hh : Header name num hd)
    (h1 : 1 ≤ num) (h2 : num < 2 ^ 31) (hsh : ShortBlocks f blocks) (hpre : blocks.flatten <+: docs)
    (hd1 : ∀ d ∈ docs, d.length < 2 ^ 31 ∧ Spec.ascii "DM_1" <+: d) (hf : file <+: hd ++ Spec.blocksBytes f blocks) :
    (hd.length ≤ file.length → ∃ j ≤ blocks.length, Spec.HoldsFirst reg unzip file (blocks.take j).flatten) ∧
    (file.length < hd.length → Spec.Refused reg unzip file) ∧
    (file = hd ++ Spec.blocksBytes f blocks → Spec.HoldsDocs reg unzip file blocks.flatten) := by
  obtain ⟨⟨c', hc', hinv⟩, dec, hdec, hjinv⟩ := hb
  have hmem : ∀ ds ∈ blocks, ∀ d ∈ ds, d.length < 2 ^ 31 ∧ Spec.ascii "DM_1" <+: d := fun ds h d hm =>
    hd1 d (hpre.subset (List.mem_flatten.mpr ⟨ds, h, hm⟩))
  have hok : BF.Ok ⟨hd, f, c'.decompress, blocks, []⟩ := by
    refine ⟨unpack_nil, fun ds h => ?_, fun ds _ => hinv _, fun ds h d hm => ?_, fun ds h d hm => ?_⟩
    · have := (hsh ds h).1; simp only at this ⊢; omega
    · have := (hmem ds h d hm).1; omega
    · exact (List.prefix_iff_eq_take.mp (hmem ds h d hm).2).symm
  have hread : ∀ ds ∈ blocks, Spec.Readable f dec ds := fun ds h => ⟨(hsh ds h).1, hjinv _, fun d hm => (hmem ds h d hm).1⟩
  have hle := hf.length_le
  have htake : file = (hd ++ Spec.blocksBytes f blocks).take file.length := List.prefix_iff_eq_take.mp hf
  refine ⟨fun hn => ?_, fun hn => ?_, fun he => ?_⟩
  · obtain ⟨r, j, e, hj, -, ⟨hj1, hj3⟩, hr⟩ := prefix_reads_at hh hc' hok hn hle
    rw [List.length_append] at hle
    obtain ⟨r', j', e', hj', hr'⟩ := C107_reads_partial hh (by omega) h2 hdec hread hn hle
    have hjj : j' = j := by
      have q1 := (hj'.2 j hj).mpr hj1
      have q2 := (hj'.2 j' hj'.1).mp (Nat.le_refl _)
      rcases Nat.lt_or_ge j j' with q | q
      · have := hj3 j' q hj'.1; omega
      · omega
    subst hjj
    rw [← htake] at e e'
    refine ⟨j', hj, ⟨r, e, hr⟩, r', e', fun calls bound hbd => ?_⟩
    obtain ⟨q1, q2⟩ := hr' calls bound hbd
    by_cases hc : Spec.CutInside f hd.length blocks file.length
    · exact .inr (q2 hc)
    · exact .inl (q1 hc)
  · have g1 := header_cut (more := Spec.blocksBytes f blocks) hh hc' hn
    have g2 := C107_header hh (by omega) h2 hdec (Spec.blocksBytes f blocks) hn
    rw [← htake] at g1 g2
    exact ⟨by rcases g1 with g | g <;> exact ⟨_, g⟩, _, g2⟩
  · obtain ⟨r, j, e, hj, hj2, hr⟩ := prefix_reads hh hc' hok (by rw [List.length_append]; omega) (Nat.le_refl _)
    have := hj2 rfl
    subst this
    rw [List.take_length] at hr
    rw [List.take_length] at e
    obtain ⟨r', e', hr'⟩ := C81_reads hh (codecOf_name hdec) (by omega) h2 hdec hread
    rw [he]
    exact ⟨⟨r, e, hr⟩, r', e', hr'⟩

theorem seq_cons (a : JPacker.Act) (as : List JPacker.Act) (p : JPacker) :
    JPacker.seq (a :: as) p = if (a p).2 = none then JPacker.seq as (a p).1 else a p := by
  simp only [JPacker.seq]
  cases e : a p with
  | mk p1 r => cases r <;> rfl

theorem seq_snoc (as : List JPacker.Act) (x : JPacker.Act) (p : JPacker) :
    JPacker.seq (as ++ [x]) p = if (JPacker.seq as p).2 = none then x (JPacker.seq as p).1 else JPacker.seq as p := by
  induction as generalizing p with
  | nil =>
    simp only [List.nil_append, JPacker.seq, if_true]
    cases x p with
    | mk q r => cases r <;> rfl
  | cons a as ih =>
    rw [List.cons_append, seq_cons, seq_cons, ih]
    by_cases h : (a p).2 = none
    · simp only [if_pos h]
    · simp only [if_neg h]

/-- a number that does not arrive in the buffer does not arrive at the stream -/
theorem put_fails (b : Bytes) (p : JPacker) (h : (JPacker.put b p).2 ≠ none) : (JPacker.put b p).1.sink.out <+: p.all := by
  have hf := adds_flushBuffer.sub p
  rw [List.append_nil] at hf
  have happ : ∀ q, (JPacker.append b q).2 = none := fun q => rfl
  have hs : (JPacker.seq [JPacker.flushBuffer, JPacker.append b] p).2 ≠ none →
      (JPacker.seq [JPacker.flushBuffer, JPacker.append b] p).1.sink.out <+: p.all := by
    have e := seq_snoc [JPacker.flushBuffer] (JPacker.append b) p
    have e1 : JPacker.seq [JPacker.flushBuffer] p = JPacker.flushBuffer p := by
      simp only [JPacker.seq]
      cases JPacker.flushBuffer p with
      | mk q r => cases r <;> rfl
    simp only [List.cons_append, List.nil_append, e1] at e
    rw [e]
    split
    · intro g; exact absurd (happ _) g
    · intro _; exact hf
  unfold JPacker.put at h ⊢
  cases hb : p.buf with
  | none => rw [hb] at h; exact absurd rfl h
  | some x =>
    rw [hb] at h
    simp only at h ⊢
    split at h
    · rename_i hc; rw [if_pos hc]; exact hs h
    · exact absurd rfl h

/-! ### the properties -/

theorem close_closed {s : JSession} (h : s.close.2 = none) : s.close.1.packer.sink.closed = true ∧ s.close.1.count = 0 ∧ s.close.1.num = s.num := by
  have hfb : s.flushblock.2 = none → s.flushblock.1.count = 0 ∧ s.flushblock.1.num = s.num := by
    unfold JSession.flushblock
    cases jArray (s.compress s.block) with
    | error e => exact fun g => nomatch g
    | ok z =>
      simp only
      cases packBinHead z.length with
      | error e => exact fun g => nomatch g
      | ok b =>
        simp only
        cases JPacker.seq [JPacker.put b, JPacker.payload z, JPacker.flush] s.packer with
        | mk p r =>
          cases r with
          | some e => exact fun g => nomatch g
          | none => exact fun _ => ⟨rfl, rfl⟩
  have hfl : s.flush.2 = none → s.flush.1.count = 0 ∧ s.flush.1.num = s.num := by
    unfold JSession.flush
    by_cases hc : s.count > 0
    · simp only [hc, if_true]
      cases hq : s.flushblock with
      | mk s1 r =>
        rw [hq] at hfb
        cases r with
        | some e => exact fun g => nomatch g
        | none => exact fun _ => hfb rfl
    · simp only [hc, if_false]
      exact fun _ => ⟨by omega, trivial⟩
  unfold JSession.close at h ⊢
  cases hq : s.flush with
  | mk s1 r =>
    rw [hq] at h hfl
    cases r with
    | some e => cases h
    | none => exact ⟨(sink_close_out _).2, hfl rfl⟩

/-- C109. Whatever calls are made, if none raised but `write` of documents that cannot be encoded, and the last is
flush() or close(): if there is a document, all have arrived at the stream; readers of both libraries yield exactly these. -/
theorem C109_closed_partial {reg : Codecs} {unzip : Bytes → Except PyErr Bytes} {name : Str} {f : Bytes → Bytes} {sink k : JSink} {size : Nat}
    {num : Int} {s : JSession} {cs : List JSession.Call} {last : JSession.Call} (hb : Spec.BothRead reg unzip name f) (h0 : sink.out = [])
    (hnum : num < 2 ^ 31) (hnew : JSession.new sink size num name f = (k, .ok s)) (hs : Spec.Smooth s (cs ++ [last]))
    (hl : last = .flush ∨ last = .close) (hne : Spec.given cs ≠ []) (hd : ∀ d ∈ Spec.given cs, Spec.ascii "DM_1" <+: d) :
    Spec.HoldsDocs reg unzip (s.run (cs ++ [last])).1.out (Spec.given cs) ∧ (last = .close → (s.run (cs ++ [last])).1.packer.sink.closed = true) := by
  obtain ⟨hdr, ⟨hh⟩, hg, h1⟩ := new_good h0 hnew hnum
  obtain ⟨hs1, hs2⟩ := smooth_snoc hs
  have hr : ((s.run cs).1.call last).2 = none := by
    rcases hs2 with h | ⟨a, h, -⟩
    · exact h
    · rcases hl with rfl | rfl <;> cases h
  obtain ⟨b1, c1, g1, g2, g3⟩ := run_good h1 cs hg (by simp only [List.length_nil]; omega) hs1
  obtain ⟨-, q⟩ := call_did g1 h1 g3 last
  obtain ⟨b2, c2, q1, q2, -, q4⟩ := q hr
  obtain rfl := q4 hl
  have hgl : Spec.given [last] = [] := by rcases hl with rfl | rfl <;> rfl
  rw [g2, hgl] at q2
  simp only [List.flatten_nil, List.nil_append, List.append_nil] at q2
  rw [run_snoc]
  have hbuf : ((s.run cs).1.call last).1.packer.buf.getD [] = [] := by
    rcases q1.buf with e | e
    · rw [e] at q2; exact absurd q2.symm hne
    · exact e
  have hout : ((s.run cs).1.call last).1.out = hdr ++ Spec.blocksBytes f b2 := by
    have := q1.all
    rw [JPacker.all, hbuf, List.append_nil] at this
    exact this
  have hx := (cut_read hb hh h1 hnum q1.short (by rw [q2]; exact List.prefix_rfl) (fun d hm => ⟨given_short cs d hm, hd d hm⟩) (by rw [hout]; exact List.prefix_rfl)).2.2 hout
  rw [q2] at hx
  refine ⟨hx, ?_⟩
  rintro rfl
  exact (close_closed hr).1

/-- C109. If no call has raised but `write` of documents that cannot be encoded, fewer documents are missing at the stream than fit
into a block; what has arrived is refused, none being there, or is a whole file of the others. So this is what a program
leaves that stops here. -/
theorem C109_lag {reg : Codecs} {unzip : Bytes → Except PyErr Bytes} {name : Str} {f : Bytes → Bytes} {sink k : JSink} {size : Nat}
    {num : Int} {s : JSession} {cs : List JSession.Call} (hb : Spec.BothRead reg unzip name f) (h0 : sink.out = [])
    (hnum : num < 2 ^ 31) (hnew : JSession.new sink size num name f = (k, .ok s)) (hs : Spec.Smooth s cs)
    (hd : ∀ d ∈ Spec.given cs, Spec.ascii "DM_1" <+: d) :
    ∃ n : Nat, ((Spec.given cs).length : Int) < n + num ∧
      (Spec.HoldsDocs reg unzip (s.run cs).1.out ((Spec.given cs).take n) ∨ n = 0 ∧ Spec.Refused reg unzip (s.run cs).1.out) := by
  obtain ⟨hdr, ⟨hh⟩, hg, h1⟩ := new_good h0 hnew hnum
  obtain ⟨b1, c1, g1, g2, g3⟩ := run_good h1 cs hg (by simp only [List.length_nil]; omega) hs
  simp only [List.flatten_nil, List.nil_append] at g2
  have hlen : (Spec.given cs).length = b1.flatten.length + c1.length := by rw [← g2, List.length_append]
  have htake : (Spec.given cs).take b1.flatten.length = b1.flatten := by rw [← g2, List.take_left]
  have hr := cut_read hb hh h1 hnum g1.short ⟨c1, g2⟩ (fun d hm => ⟨given_short cs d hm, hd d hm⟩) g1.cutOff.1
  refine ⟨b1.flatten.length, by omega, ?_⟩
  rw [htake]
  rcases g1.buf with e | e
  · subst e
    rcases Nat.lt_or_ge (s.run cs).1.out.length hdr.length with hlt | hge
    · exact .inr ⟨rfl, hr.2.1 hlt⟩
    · left
      apply hr.2.2
      have := g1.cutOff.1
      have e0 : Spec.blocksBytes f [] = [] := rfl
      rw [e0, List.append_nil] at this ⊢
      exact this.eq_of_length (by have := this.length_le; omega)
  · left
    apply hr.2.2
    have := g1.all
    rw [JPacker.all, e, List.append_nil] at this
    exact this

/-- C109. After the first exception of the stream, wherever it comes and however much of the data has arrived: what is there
is refused, or readers yield the first of the documents handed over, no other and none twice. -/
theorem C109_first_exception {reg : Codecs} {unzip : Bytes → Except PyErr Bytes} {name : Str} {f : Bytes → Bytes} {sink k : JSink} {size : Nat}
    {num : Int} {s : JSession} {cs : List JSession.Call} (hb : Spec.BothRead reg unzip name f) (h0 : sink.out = [])
    (hnum : num < 2 ^ 31) (hnew : JSession.new sink size num name f = (k, .ok s)) (hs : Spec.Smooth s cs) (c : JSession.Call)
    (hd : ∀ d ∈ Spec.given (cs ++ [c]), Spec.ascii "DM_1" <+: d) :
    Spec.Refused reg unzip (s.run (cs ++ [c])).1.out ∨
      ∃ n, Spec.HoldsFirst reg unzip (s.run (cs ++ [c])).1.out ((Spec.given (cs ++ [c])).take n) := by
  obtain ⟨hdr, ⟨hh⟩, hg, h1⟩ := new_good h0 hnew hnum
  obtain ⟨b1, c1, g1, g2, g3⟩ := run_good h1 cs hg (by simp only [List.length_nil]; omega) hs
  obtain ⟨⟨b2, q1, q2⟩, -⟩ := call_did g1 h1 g3 c
  rw [g2] at q2
  simp only [List.flatten_nil, List.nil_append] at q2
  rw [← given_append] at q2
  rw [run_snoc]
  have hr := cut_read hb hh h1 hnum q1.2 q2 (fun d hm => ⟨given_short _ d hm, hd d hm⟩) q1.1
  rcases Nat.lt_or_ge ((s.run cs).1.call c).1.out.length hdr.length with hlt | hge
  · exact .inl (hr.2.1 hlt)
  · obtain ⟨j, hj, hx⟩ := hr.1 hge
    refine .inr ⟨(b2.take j).flatten.length, ?_⟩
    have : (Spec.given (cs ++ [c])).take (b2.take j).flatten.length = (b2.take j).flatten := by
      obtain ⟨t, ht⟩ := q2
      have e : b2.flatten = (b2.take j).flatten ++ (b2.drop j).flatten := by rw [← List.flatten_append, List.take_append_drop]
      rw [← ht, e, List.append_assoc, List.take_left]
    rw [this]
    exact hx

/-- C109. The constructor: if the stream raises, or the block size is refused, what has arrived is refused by both libraries. -/
theorem C109_failed_open {reg : Codecs} {unzip : Bytes → Except PyErr Bytes} {name : Str} {f : Bytes → Bytes} {sink k : JSink} {size : Nat}
    {num : Int} {e : PyErr} (hb : Spec.BothRead reg unzip name f) (h0 : sink.out = []) (hnum : num < 2 ^ 31)
    (hnew : JSession.new sink size num name f = (k, .error e)) : Spec.Refused reg unzip k.out := by
  have hnil : Spec.Refused reg unzip sink.out := by rw [h0]; exact ⟨⟨_, rfl⟩, _, rfl⟩
  unfold JSession.new at hnew
  by_cases hn : num < 1
  · rw [if_pos hn] at hnew; cases hnew; exact hnil
  rw [if_neg hn] at hnew
  cases pa : pack (.str name) with
  | error x => rw [pa] at hnew; cases hb : pack (.int num) <;> rw [hb] at hnew <;> cases hnew <;> exact hnil
  | ok a =>
    rw [pa] at hnew
    cases pb : pack (.int num) with
    | error x => rw [pb] at hnew; cases hnew; exact hnil
    | ok b =>
      rw [pb] at hnew
      simp only at hnew
      have ha := adds_seq_cons (adds_payload fileMagic) (adds_seq_cons (adds_put (a.take 1)) (adds_two (adds_payload (a.drop 1)) (adds_put b)))
      have h1 := ha.ok ⟨sink, none, size⟩
      have h2 := ha.sub ⟨sink, none, size⟩
      have e1 := seq_snoc [JPacker.payload fileMagic, JPacker.put (a.take 1), JPacker.payload (a.drop 1), JPacker.put b] (JPacker.put [0xc2]) ⟨sink, none, size⟩
      simp only [List.cons_append, List.nil_append] at e1
      rw [e1] at hnew
      have hall : (⟨sink, none, size⟩ : JPacker).all = [] := by simp only [JPacker.all, h0, Option.getD_none, List.append_nil]
      have e2 : fileMagic ++ (a.take 1 ++ (a.drop 1 ++ b)) = fileMagic ++ a ++ b := by
        rw [← List.append_assoc (a.take 1), List.take_append_drop, List.append_assoc]
      rw [hall, List.nil_append, e2] at h1 h2
      have hpre : k.out <+: fileMagic ++ a ++ b := by
        cases hq : JPacker.seq [JPacker.payload fileMagic, JPacker.put (a.take 1), JPacker.payload (a.drop 1), JPacker.put b] ⟨sink, none, size⟩ with
        | mk p r =>
          rw [hq] at hnew h1 h2
          cases r with
          | some x =>
            rw [if_neg nofun] at hnew
            cases hnew
            exact h2
          | none =>
            rw [if_pos rfl] at hnew
            have h3 := put_fails [0xc2] p
            cases hq2 : JPacker.put [0xc2] p with
            | mk p2 r2 =>
              rw [hq2] at hnew h3
              cases r2 with
              | none => cases hnew
              | some x =>
                cases hnew
                have := h3 nofun
                rwa [h1 rfl] at this
      have hh : Header name num (fileMagic ++ a ++ b ++ [0xc2]) := ⟨a, b, [0xc2], pa, pb, rfl, rfl⟩
      refine (cut_read (blocks := []) (docs := []) hb hh (by omega) hnum (fun ds h => nomatch h) List.prefix_rfl (fun d h => nomatch h) ?_).2.1 ?_
      · rw [show Spec.blocksBytes f [] = [] from rfl, List.append_nil]
        exact hpre.trans (List.prefix_append _ _)
      · have := hpre.length_le
        rw [List.length_append, List.length_singleton]
        omega

/-- C109. When the stream raises while a block is being written, the writer never writes again by itself: as many documents as one
likes are taken by `write` without an exception, and kept in memory. -/
theorem C109_failed_block {name : Str} {f : Bytes → Bytes} {sink k : JSink} {size : Nat} {num : Int} {s : JSession} {cs : List JSession.Call}
    {d : Bytes} {e : PyErr} (h0 : sink.out = []) (hnum : num < 2 ^ 31) (hnew : JSession.new sink size num name f = (k, .ok s))
    (hs : Spec.Smooth s cs) (hd : d.length < 2 ^ 31) (he : ((s.run cs).1.write (.ok d)).2 = some e) (ds : List Bytes) (hds : ∀ x ∈ ds, x.length < 2 ^ 31) :
    (((s.run cs).1.write (.ok d)).1.run (ds.map (fun x => .write (.ok x)))).2 = ds.map (fun _ => none) ∧
    (((s.run cs).1.write (.ok d)).1.run (ds.map (fun x => .write (.ok x)))).1.packer = ((s.run cs).1.write (.ok d)).1.packer := by
  obtain ⟨hdr, ⟨hh⟩, hg, h1⟩ := new_good h0 hnew hnum
  obtain ⟨b1, c1, g1, g2, g3⟩ := run_good h1 cs hg (by simp only [List.length_nil]; omega) hs
  have hcnt : ((((s.run cs).1.write (.ok d)).1.count : Int) = ((s.run cs).1.write (.ok d)).1.num) := by
    unfold JSession.write at he ⊢
    have hp := pack_bin (d := d) (by omega)
    simp only [jArray, if_pos hd, hp] at he ⊢
    split at he
    · rename_i hc
      rw [if_pos hc]
      have h1 : JGood f hdr num { (s.run cs).1 with block := (s.run cs).1.block ++ Spec.bpack d, count := (s.run cs).1.count + 1 } b1 (c1 ++ [d]) := by
        refine ⟨g1.all, g1.buf, ?_, ?_, g1.comp, g1.num, g1.short⟩
        · simp only [g1.block, blockData_append, blockData_cons]; simp [Spec.blockData]
        · simp only [g1.count, List.length_append, List.length_singleton]
      obtain ⟨-, -, q⟩ := flushblock_good h1 (by simp)
      obtain ⟨q1, q2⟩ := q (by rw [he]; exact nofun)
      rw [q1, q2]
      exact hc
    · cases he
  have gen : ∀ (ds : List Bytes) {t : JSession}, (∀ x ∈ ds, x.length < 2 ^ 31) → t.num ≤ (t.count : Int) →
      (t.run (ds.map (fun x => .write (.ok x)))).2 = ds.map (fun _ => none) ∧ (t.run (ds.map (fun x => .write (.ok x)))).1.packer = t.packer := by
    intro ds
    induction ds with
    | nil => intro t _ _; exact ⟨rfl, rfl⟩
    | cons x ds ih =>
      intro t hx ht
      have hx1 := hx x (List.mem_cons_self ..)
      have hp := pack_bin (d := x) (by omega)
      have e : t.write (.ok x) = ({ t with block := t.block ++ Spec.bpack x, count := t.count + 1 }, none) := by
        unfold JSession.write
        simp only [jArray, if_pos hx1, hp]
        rw [if_neg (by omega)]
      have := ih (t := { t with block := t.block ++ Spec.bpack x, count := t.count + 1 }) (fun y hy => hx y (List.mem_cons_of_mem _ hy)) (by simp only; omega)
      simp only [List.map_cons, JSession.run, JSession.call, e, this.1, this.2]
      exact ⟨trivial, trivial⟩
  exact gen ds hds (by omega)

/-- C109. After close() has returned nothing arrives at the stream any more. -/
theorem C109_frozen {s : JSession} (h : s.close.2 = none) (cs : List JSession.Call) : (s.close.1.run cs).1.out = s.close.1.out := by
  have hfb : ∀ s : JSession, s.packer.sink.closed = true → s.flushblock.1.out = s.out ∧ s.flushblock.1.packer.sink.closed = true := by
    intro s hc
    unfold JSession.flushblock
    cases jArray (s.compress s.block) with
    | error e => exact ⟨rfl, hc⟩
    | ok z =>
      simp only
      cases hp : packBinHead z.length with
      | error e => exact ⟨rfl, hc⟩
      | ok b =>
        simp only
        have h1 := (adds_block hp).still s.packer hc
        have h2 := (adds_block hp).closed s.packer
        cases hq : JPacker.seq [JPacker.put b, JPacker.payload z, JPacker.flush] s.packer with
        | mk p r =>
          rw [hq] at h1 h2
          cases r with
          | some e => exact ⟨h1, h2.trans hc⟩
          | none => exact ⟨h1, h2.trans hc⟩
  have hfl : ∀ s : JSession, s.packer.sink.closed = true → s.flush.1.out = s.out ∧ s.flush.1.packer.sink.closed = true := by
    intro s hc
    unfold JSession.flush
    by_cases hn : s.count > 0
    · simp only [hn, if_true]
      obtain ⟨h1, h2⟩ := hfb s hc
      cases hq : s.flushblock with
      | mk s1 r =>
        rw [hq] at h1 h2
        cases r with
        | some e => exact ⟨h1, h2⟩
        | none => exact ⟨(sink_flush_out _).1.trans h1, (sink_flush_out _).2.trans h2⟩
    · simp only [hn, if_false]
      exact ⟨(sink_flush_out _).1, (sink_flush_out _).2.trans hc⟩
  have hcl : ∀ (s : JSession) (c : JSession.Call), s.packer.sink.closed = true → (s.call c).1.out = s.out ∧ (s.call c).1.packer.sink.closed = true := by
    intro s c hc
    cases c with
    | flush => exact hfl s hc
    | close =>
      simp only [JSession.call]
      unfold JSession.close
      obtain ⟨h1, h2⟩ := hfl s hc
      cases hq : s.flush with
      | mk s1 r =>
        rw [hq] at h1 h2
        cases r with
        | some e => exact ⟨h1, h2⟩
        | none => exact ⟨(sink_close_out _).1.trans h1, (sink_close_out _).2⟩
    | write a =>
      simp only [JSession.call]
      unfold JSession.write
      cases a with
      | error e => exact ⟨rfl, hc⟩
      | ok d =>
        simp only
        cases jArray d with
        | error e => exact ⟨rfl, hc⟩
        | ok z =>
          simp only
          cases pack (.bin z) with
          | error e => exact ⟨rfl, hc⟩
          | ok b =>
            simp only
            split
            · exact hfb _ hc
            · exact ⟨rfl, hc⟩
  have gen : ∀ (cs : List JSession.Call) (s : JSession), s.packer.sink.closed = true → (s.run cs).1.out = s.out := by
    intro cs
    induction cs with
    | nil => intro s _; rfl
    | cons c cs ih =>
      intro s hc
      obtain ⟨h1, h2⟩ := hcl s c hc
      simp only [JSession.run]
      rw [ih _ h2, h1]
  exact gen cs _ (close_closed h).1

/-- C109. Closing again does nothing and does not raise. -/
theorem C109_close_twice {s : JSession} (h : s.close.2 = none) : s.close.1.close = (s.close.1, none) := by
  obtain ⟨h1, h2, -⟩ := close_closed h
  generalize s.close.1 = t at h1 h2
  obtain ⟨⟨⟨o, c, r⟩, b, z⟩, bl, n, cp, nm⟩ := t
  simp only at h1 h2
  subst h1 h2
  rfl

/-- C109 fails for documents written after close(): as long as they do not fill a block `write` returns, and they are lost. -/
theorem C109_late_write_false {s : JSession} (h : s.close.2 = none) (ds : List Bytes) (hds : ∀ x ∈ ds, x.length < 2 ^ 31)
    (hn : (ds.length : Int) < s.num) (cs : List JSession.Call) :
    (s.close.1.run (ds.map (fun x => .write (.ok x)))).2 = ds.map (fun _ => none) ∧
    (s.close.1.run (ds.map (fun x => .write (.ok x)) ++ cs)).1.out = s.close.1.out := by
  refine ⟨?_, C109_frozen h _⟩
  obtain ⟨-, h2, h3⟩ := close_closed h
  have gen : ∀ (ds : List Bytes) {t : JSession}, (∀ x ∈ ds, x.length < 2 ^ 31) → (t.count : Int) + ds.length < t.num →
      (t.run (ds.map (fun x => .write (.ok x)))).2 = ds.map (fun _ => none) := by
    intro ds
    induction ds with
    | nil => intro t _ _; rfl
    | cons x ds ih =>
      intro t hx ht
      have hx1 := hx x (List.mem_cons_self ..)
      have hp := pack_bin (d := x) (by omega)
      simp only [List.length_cons] at ht
      have e : t.write (.ok x) = ({ t with block := t.block ++ Spec.bpack x, count := t.count + 1 }, none) := by
        unfold JSession.write
        simp only [jArray, if_pos hx1, hp]
        rw [if_neg (by omega)]
      have := ih (t := { t with block := t.block ++ Spec.bpack x, count := t.count + 1 }) (fun y hy => hx y (List.mem_cons_of_mem _ hy)) (by simp only; omega)
      simp only [List.map_cons, JSession.run, JSession.call, e, this]
  exact gen ds hds (by rw [h2, h3]; omega)

/-! ### witnesses -/

namespace Ex

/-- a document -/
def tinyDoc (b : UInt8) : Bytes := Spec.ascii "DM_1" ++ [b]

/-- a session on a stream that follows the rule, with a codec that stores what it is given -/
def onStream (rule : List (Option Nat)) (num : Int) (cs : List JSession.Call) : Option (JSession × List (Option PyErr)) :=
  match JSession.new ⟨[], false, rule⟩ 8192 num "none".toList id with
  | (_, .error _) => none
  | (_, .ok s) => some (s.run cs)

theorem plainBoth : Spec.BothRead [("none".toList, plain)] .ok "none".toList id :=
  ⟨⟨plain, rfl, fun _ => rfl⟩, .ok, rfl, fun _ => rfl⟩

/-- a header for blocks of one document -/
def hdrOne : Header "none".toList 1 ((fileMagic ++ [0xa4, 110, 111, 110, 101]) ++ [1] ++ [0xc2]) :=
  ⟨[0xa4, 110, 111, 110, 101], [1], [0xc2], rfl, rfl, rfl, rfl⟩

/-- three documents in blocks of two, a flush between, one that cannot be encoded -/
def smoothCalls : List JSession.Call :=
  [.write (.ok (tinyDoc 65)), .write (.error .value), .flush, .write (.ok (tinyDoc 66)), .write (.ok (tinyDoc 67)), .write (.ok (tinyDoc 68))]

/-- which calls raised -/
def raised (s : Option (JSession × List (Option PyErr))) : List Bool := (s.map (fun x => x.2.map Option.isSome)).getD []

/-- what has arrived at the stream -/
def arrived (s : Option (JSession × List (Option PyErr))) : Bytes := (s.map (fun x => x.1.out)).getD []

end Ex

/-- the hypotheses of C109_closed_partial and C109_lag hold for a session with a document that cannot be encoded -/
example : ∃ k s, JSession.new ⟨[], false, []⟩ 8192 2 "none".toList id = (k, .ok s) ∧ Spec.Smooth s (Ex.smoothCalls ++ [.close]) ∧
    Spec.given Ex.smoothCalls = [Ex.tinyDoc 65, Ex.tinyDoc 66, Ex.tinyDoc 67, Ex.tinyDoc 68] ∧
    (∀ d ∈ Spec.given Ex.smoothCalls, Spec.ascii "DM_1" <+: d) ∧
    (s.run Ex.smoothCalls).1.out = fileMagic ++ [0xa4, 110, 111, 110, 101, 2, 0xc2] ++
      Spec.blocksBytes id [[Ex.tinyDoc 65], [Ex.tinyDoc 66, Ex.tinyDoc 67]] := by
  refine ⟨_, _, rfl, ?_, by decide, by decide, by decide +kernel⟩
  have : ∀ x ∈ (Ex.smoothCalls ++ [JSession.Call.close]).zip [none, some PyErr.value, none, none, none, none, none],
      x.2 = none ∨ ∃ a, x.1 = .write a ∧ Spec.given [x.1] = [] := by
    intro x hx
    simp only [Ex.smoothCalls, List.cons_append, List.nil_append, List.zip_cons_cons, List.zip_nil_left, List.mem_cons, List.not_mem_nil, or_false] at hx
    rcases hx with rfl | rfl | rfl | rfl | rfl | rfl | rfl
    all_goals first | exact .inl rfl | exact .inr ⟨_, rfl, rfl⟩
  exact this

/-- a stream that raises in the second block: the first exception (C109_first_exception) -/
example : Ex.raised (Ex.onStream [none, none, none, none, none, some 5] 2 (Ex.smoothCalls.take 5)) = [false, true, false, false, true] ∧
    Ex.arrived (Ex.onStream [none, none, none, none, none, some 5] 2 (Ex.smoothCalls.take 5)) =
      fileMagic ++ [0xa4, 110, 111, 110, 101, 2, 0xc2] ++ Spec.blocksBytes id [[Ex.tinyDoc 65]] ++
        (Spec.blocksBytes id [[Ex.tinyDoc 66, Ex.tinyDoc 67]]).take 5 := by
  decide +kernel

/-- a stream that raises in the constructor (C109_failed_open) -/
example : ((JSession.new ⟨[], false, [none, some 2]⟩ 8192 2 "none".toList id).2.toOption.isNone ∧
    (JSession.new ⟨[], false, [none, some 2]⟩ 8192 2 "none".toList id).1.out = fileMagic.take 2) := by
  decide +kernel

/-- the stream raises once while a block is written; five more documents in blocks of one are taken and none arrives
(C109_failed_block) -/
example : Ex.raised (Ex.onStream [none, none, some 0] 1 ([65, 66, 67, 68, 69, 70].map (fun b => .write (.ok (Ex.tinyDoc b))))) =
    [true, false, false, false, false, false] ∧
    Ex.arrived (Ex.onStream [none, none, some 0] 1 ([65, 66, 67, 68, 69, 70].map (fun b => .write (.ok (Ex.tinyDoc b))))) = fileMagic := by
  decide +kernel

/-- after close(), a document is taken and lost; the one that fills the block raises (C109_late_write_false) -/
example : Ex.raised (Ex.onStream [] 2 [.write (.ok (Ex.tinyDoc 65)), .close, .write (.ok (Ex.tinyDoc 66)), .write (.ok (Ex.tinyDoc 67))]) =
    [false, false, false, true] := by
  decide +kernel

/-- C109 fails when the stream raises once and close() is called: the block is written twice. The only `write` raised,
and the file holds its document two times. -/
theorem C109_retry_false : ∃ k s, JSession.new ⟨[], false, [none, none, some 0]⟩ 8192 1 "none".toList id = (k, .ok s) ∧
    (s.run [.write (.ok (Ex.tinyDoc 65)), .close]).2 = [some .io, none] ∧
    Spec.HoldsDocs [("none".toList, Ex.plain)] .ok (s.run [.write (.ok (Ex.tinyDoc 65)), .close]).1.out [Ex.tinyDoc 65, Ex.tinyDoc 65] := by
  refine ⟨_, _, rfl, by decide +kernel, ?_⟩
  have hout : ∀ {o : Bytes}, o = ((fileMagic ++ [0xa4, 110, 111, 110, 101]) ++ [1] ++ [0xc2]) ++ Spec.blocksBytes id [[Ex.tinyDoc 65], [Ex.tinyDoc 65]] →
      Spec.HoldsDocs [("none".toList, Ex.plain)] .ok o [Ex.tinyDoc 65, Ex.tinyDoc 65] := by
    intro o h
    exact (cut_read (blocks := [[Ex.tinyDoc 65], [Ex.tinyDoc 65]]) (docs := [Ex.tinyDoc 65, Ex.tinyDoc 65]) Ex.plainBoth Ex.hdrOne (by decide) (by decide)
      (by unfold ShortBlocks; decide +kernel) List.prefix_rfl (by decide) (by rw [h]; exact List.prefix_rfl)).2.2 h
  exact hout (by decide +kernel)

/-- C109 fails when the stream takes a part of a block, raises once, and close() is called: a reader of either library
yields a document that nobody wrote. -/
theorem C109_mixture_false : Ex.raised (Ex.onStream [none, none, some 15] 1 [.write (.ok (Ex.tinyDoc 65)), .close]) = [true, false] ∧
    ((DocReader.new [("none".toList, Ex.plain)] (Ex.arrived (Ex.onStream [none, none, some 15] 1 [.write (.ok (Ex.tinyDoc 65)), .close]))).toOption.bind
      (fun r => (r.next.2.map MDoc.raw).toOption)) = some (Ex.tinyDoc 0xa4) ∧
    ((JDocReader.new .ok none (Ex.arrived (Ex.onStream [none, none, some 15] 1 [.write (.ok (Ex.tinyDoc 65)), .close]))).toOption.bind
      (fun r => r.nextRaw.2.toOption)) = some (some (Ex.tinyDoc 0xa4)) := by
  decide +kernel

/-- C109 in full: once close() has returned, the file holds the documents whose `write` returned. -/
def C109_full : Prop := ∀ (reg : Codecs) (unzip : Bytes → Except PyErr Bytes) (name : Str) (f : Bytes → Bytes) (sink k : JSink) (size : Nat) (num : Int)
  (s : JSession) (cs : List JSession.Call), Spec.BothRead reg unzip name f → sink.out = [] → num < 2 ^ 31 →
  JSession.new sink size num name f = (k, .ok s) → ((s.run cs).1.close).2 = none → (∀ d ∈ Spec.given cs, Spec.ascii "DM_1" <+: d) →
  Spec.HoldsDocs reg unzip (s.run cs).1.close.1.out (Spec.jReturned s cs)

theorem C109_full_false : ¬ C109_full := by
  intro h
  obtain ⟨k, s, h1, h2, h3⟩ := C109_retry_false
  have hw : (s.call (.write (.ok (Ex.tinyDoc 65)))).2 = some .io := by
    have := congrArg List.head? h2
    simpa only [JSession.run, List.head?_cons, Option.some.injEq] using this
  have hr : Spec.jReturned s [.write (.ok (Ex.tinyDoc 65))] = [] := by
    simp only [Spec.jReturned, JSession.run, hw, List.zip_cons_cons, List.zip_nil_left, List.flatMap_cons, List.flatMap_nil, Option.isNone]
    rfl
  have hc : ((s.run [.write (.ok (Ex.tinyDoc 65))]).1.close).2 = none := by
    have := congrArg (fun l => l[1]?) h2
    simpa only [JSession.run, List.getElem?_cons_succ, List.getElem?_cons_zero, Option.some.injEq, JSession.call] using this
  have := h _ _ _ _ _ k 8192 1 s [.write (.ok (Ex.tinyDoc 65))] Ex.plainBoth rfl (by decide) h1 hc (by decide)
  rw [hr] at this
  obtain ⟨-, r, e, hq⟩ := this
  obtain ⟨-, r', e', hq'⟩ := h3
  have heq : (s.run [.write (.ok (Ex.tinyDoc 65)), .close]).1.out = (s.run [.write (.ok (Ex.tinyDoc 65))]).1.close.1.out := rfl
  rw [heq, e] at e'
  cases e'
  have a := hq [.next] 3 (by decide)
  rw [hq' [.next] 3 (by decide)] at a
  simp only [Spec.answers, Spec.answer] at a
  cases a

end Verif
