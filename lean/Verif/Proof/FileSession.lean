import Verif.Model.FileSession
import Verif.Props.BlockFile
/-
A writer on a file does what the writer without one does, until the file is closed.
-/
set_option linter.unusedSimpArgs false
namespace Verif

theorem outFile_write {size : Nat} {f : OutFile} (b : Bytes) (h : f.closed = false) :
    ∃ f', f.write size b = .ok f' ∧ f'.all = f.all ++ b ∧ f'.closed = false ∧ f.disk <+: f'.disk := by
  unfold OutFile.write
  rw [if_neg (by simp [h])]
  split
  · exact ⟨_, rfl, by simp [OutFile.all], h, List.prefix_refl _⟩
  · split
    · exact ⟨_, rfl, by simp [OutFile.all], h, by simp [List.append_assoc]⟩
    · exact ⟨_, rfl, by simp [OutFile.all], h, by simp⟩

theorem outFile_buf {size : Nat} {f f' : OutFile} {b : Bytes} (h : f.write size b = .ok f') :
    f'.buf.length ≤ size := by
  unfold OutFile.write at h
  split at h
  · cases h
  · split at h
    · rename_i h1
      cases h
      simp only [List.length_append]; exact h1.1
    · split at h
      · cases h; simp
      · rename_i h1; cases h; simp only; omega

/-- the calls as calls of a writer without a file: close() flushes -/
def FileWriter.Call.plain : FileWriter.Call → DocWriter.Call
  | .write a => .write a
  | .flush => .flush
  | .close => .flush

/-- the writer on an open file and the one without: `old` is what the file held -/
structure Sim (old : Bytes) (s : FileWriter) (w : DocWriter) : Prop where
  all : s.file.all = old ++ Spec.payload w.log
  isOpen : s.file.closed = false
  block : s.block = w.block
  count : s.count = w.count
  codec : s.codec = w.codec
  num : s.num = w.num
  plain : w.boundary = false

theorem flush_sim {size : Nat} {old : Bytes} {s : FileWriter} {w : DocWriter} (h : Sim old s w) :
    (s.flush size).2 = w.flush.2 ∧ Sim old (s.flush size).1 w.flush.1 ∧ (s.flush size).1.path = s.path ∧
      s.file.disk <+: (s.flush size).1.file.disk := by
  unfold FileWriter.flush DocWriter.flush
  rw [← h.count, ← h.codec, ← h.block]
  by_cases hc : s.count > 0
  · rw [if_pos hc, if_pos hc]
    cases s.codec.compress s.block with
    | error e => exact ⟨rfl, h, rfl, List.prefix_refl _⟩
    | ok z =>
      simp only
      cases pack (.bin z) with
      | error e => exact ⟨rfl, h, rfl, List.prefix_refl _⟩
      | ok b =>
        obtain ⟨f', e, ha, ho, hp⟩ := outFile_write (size := size) b h.isOpen
        simp only [e]
        refine ⟨trivial, ⟨?_, ho, rfl, rfl, rfl, h.num, h.plain⟩, trivial, hp⟩
        simp only [ha, h.all, payload_append, payload_splits, Spec.payload, List.append_nil, List.append_assoc]
  · rw [if_neg hc, if_neg hc]
    exact ⟨rfl, h, rfl, List.prefix_refl _⟩

theorem write_sim {size : Nat} {old : Bytes} {s : FileWriter} {w : DocWriter} (h : Sim old s w) (a : DocArg) :
    (s.write size a).2 = (w.write a).2 ∧ Sim old (s.write size a).1 (w.write a).1 ∧ (s.write size a).1.path = s.path ∧
      s.file.disk <+: (s.write size a).1.file.disk := by
  unfold FileWriter.write DocWriter.write
  cases a.data with
  | error e => exact ⟨rfl, h, rfl, List.prefix_refl _⟩
  | ok d =>
    simp only
    cases pack (.bin d) with
    | error e => exact ⟨rfl, h, rfl, List.prefix_refl _⟩
    | ok b =>
      have h' : Sim old { s with block := s.block ++ b, count := s.count + 1 } { w with block := w.block ++ b, count := w.count + 1 } :=
        ⟨h.all, h.isOpen, by simp [h.block], by simp [h.count], h.codec, h.num, h.plain⟩
      simp only [← h.count, ← h.num]
      rw [← h.count, ← h.num] at h'
      by_cases hc : ((s.count + 1 : Nat) : Int) = s.num
      · rw [if_pos hc, if_pos hc]
        exact flush_sim h'
      · rw [if_neg hc, if_neg hc]
        exact ⟨rfl, h', rfl, List.prefix_refl _⟩

/-- a call that is not a close that succeeds -/
theorem call_sim {size : Nat} {old : Bytes} {s : FileWriter} {w : DocWriter} (h : Sim old s w) (c : FileWriter.Call)
    (hc : (s.call size c).1.file.closed = false) :
    Sim old (s.call size c).1 (w.after c.plain) ∧ (s.call size c).1.path = s.path ∧ s.file.disk <+: (s.call size c).1.file.disk := by
  cases c with
  | write a => exact (write_sim h a).2
  | flush => exact (flush_sim h).2
  | close =>
    obtain ⟨-, h2, h3⟩ := flush_sim (size := size) h
    simp only [FileWriter.call, FileWriter.close] at hc ⊢
    cases hf : s.flush size with
    | mk s' r =>
      rw [hf] at h2 h3
      cases r with
      | some e => exact ⟨h2, h3⟩
      | none => rw [hf] at hc; cases hc

/-- the calls on a closed file leave it as it is -/
theorem call_closed {size : Nat} {s : FileWriter} (h : s.file.closed = true) (hb : s.file.buf = []) (c : FileWriter.Call) :
    (s.call size c).1.file = s.file ∧ (s.call size c).1.path = s.path := by
  have hfl : ∀ {s : FileWriter}, s.file.closed = true → (s.flush size).1.file = s.file ∧ (s.flush size).1.path = s.path := by
    intro s h
    unfold FileWriter.flush
    split
    · split
      · exact ⟨rfl, rfl⟩
      · split
        · exact ⟨rfl, rfl⟩
        · have : ∀ b, s.file.write size b = .error .value := by intro b; unfold OutFile.write; rw [if_pos h]
          simp only [this]
          exact ⟨trivial, trivial⟩
    · exact ⟨rfl, rfl⟩
  cases c with
  | flush => exact hfl h
  | write a =>
    simp only [FileWriter.call, FileWriter.write]
    split
    · exact ⟨rfl, rfl⟩
    · split
      · exact ⟨rfl, rfl⟩
      · split
        · exact hfl (s := { s with block := s.block ++ _, count := s.count + 1 }) h
        · exact ⟨rfl, rfl⟩
  | close =>
    have := hfl h
    simp only [FileWriter.call, FileWriter.close]
    cases hf : s.flush size with
    | mk s' r =>
      rw [hf] at this
      cases r with
      | some e => exact this
      | none =>
        simp only [OutFile.close]
        refine ⟨?_, this.2⟩
        rw [this.1, hb, List.append_nil, ← hb, ← h]

theorem run_closed {size : Nat} (cs : List FileWriter.Call) : ∀ {s : FileWriter}, s.file.closed = true → s.file.buf = [] →
    (s.run size cs).file = s.file ∧ (s.run size cs).path = s.path := by
  induction cs with
  | nil => intro s _ _; exact ⟨rfl, rfl⟩
  | cons c cs ih =>
    intro s h hb
    obtain ⟨h1, h2⟩ := call_closed (size := size) h hb c
    obtain ⟨g1, g2⟩ := ih (s := (s.call size c).1) (by rw [h1]; exact h) (by rw [h1]; exact hb)
    exact ⟨g1.trans h1, g2.trans h2⟩

theorem fileRun_append (size : Nat) (s : FileWriter) (a b : List FileWriter.Call) : s.run size (a ++ b) = (s.run size a).run size b := by
  simp [FileWriter.run]

/-- a successful close -/
theorem close_sim {size : Nat} {old : Bytes} {s : FileWriter} {w : DocWriter} (h : Sim old s w) (hc : (s.close size).2 = none) :
    ∃ w', w.flush = (w', none) ∧ (s.close size).1.file = ⟨old ++ Spec.payload w'.log, [], true⟩ ∧ (s.close size).1.path = s.path ∧
      (s.close size).1.count = 0 := by
  obtain ⟨h1, h2, h3, -⟩ := flush_sim (size := size) h
  have hcnt : ∀ s' : FileWriter, s.flush size = (s', none) → s'.count = 0 := by
    intro s' e
    unfold FileWriter.flush at e
    split at e
    · split at e
      · cases e
      · split at e
        · cases e
        · split at e
          · cases e
          · cases e; rfl
    · rename_i hn
      cases e; omega
  unfold FileWriter.close at hc ⊢
  cases hf : s.flush size with
  | mk s' r =>
    rw [hf] at hc h1 h2 h3
    cases r with
    | some e => cases hc
    | none =>
      refine ⟨w.flush.1, ?_, ?_, h3, hcnt s' hf⟩
      · rw [Prod.ext_iff]; exact ⟨rfl, h1.symm⟩
      · simp only [OutFile.close, ← h2.all]; rfl

/-- an open file has not been closed before -/
theorem run_sim {size : Nat} {old : Bytes} (cs : List FileWriter.Call) : ∀ {s : FileWriter} {w : DocWriter}, Sim old s w →
    (s.run size cs).file.closed = false →
    Sim old (s.run size cs) (w.run (cs.map (·.plain))) ∧ (s.run size cs).path = s.path ∧ s.file.disk <+: (s.run size cs).file.disk := by
  induction cs with
  | nil => intro s w h _; exact ⟨h, rfl, List.prefix_refl _⟩
  | cons c cs ih =>
    intro s w h hc
    have hc1 : (s.call size c).1.file.closed = false := by
      cases hx : (s.call size c).1.file.closed with
      | false => rfl
      | true =>
        exfalso
        have hb : (s.call size c).1.file.buf = [] := by
          cases c with
          | write a =>
            have := (write_sim (size := size) h a).2.1.isOpen
            simp only [FileWriter.call] at hx
            rw [hx] at this; cases this
          | flush =>
            have := (flush_sim (size := size) h).2.1.isOpen
            simp only [FileWriter.call] at hx
            rw [hx] at this; cases this
          | close =>
            simp only [FileWriter.call] at hx ⊢
            cases hr : (s.close size).2 with
            | none => obtain ⟨w', -, e, -⟩ := close_sim h hr; rw [e]
            | some e =>
              have := (flush_sim (size := size) h).2.1.isOpen
              unfold FileWriter.close at hr hx
              cases hf : s.flush size with
              | mk s' r =>
                rw [hf] at hr hx this
                cases r with
                | none => cases hr
                | some e => simp only at hx this; rw [hx] at this; cases this
        have := (run_closed (size := size) cs hx hb).1
        have e : (s.run size (c :: cs)) = ((s.call size c).1).run size cs := rfl
        rw [e, this, hx] at hc
        cases hc
    obtain ⟨h1, h2, h3⟩ := call_sim h c hc1
    obtain ⟨g1, g2, g3⟩ := ih h1 hc
    exact ⟨g1, g2.trans h2, h3.trans g3⟩

/-- the writes of the constructor, if nothing raises -/
theorem writeParts_ok {size : Nat} : ∀ (bs : List Bytes) {f : OutFile}, f.closed = false →
    ∃ f', FileWriter.writeParts size f (bs.map .ok) = (f', none) ∧ f'.all = f.all ++ bs.flatten ∧ f'.closed = false ∧ f.disk <+: f'.disk := by
  intro bs
  induction bs with
  | nil => intro f h; exact ⟨f, rfl, by simp, h, List.prefix_refl _⟩
  | cons b bs ih =>
    intro f h
    obtain ⟨f1, e1, a1, c1, p1⟩ := outFile_write (size := size) b h
    obtain ⟨f2, e2, a2, c2, p2⟩ := ih c1
    refine ⟨f2, ?_, ?_, c2, p1.trans p2⟩
    · simp only [List.map_cons, FileWriter.writeParts, e1, e2]
    · rw [a2, a1]; simp

/-- what was in the file that a mode leaves there -/
def FileWriter.kept (fs : Disk) (path : Str) : OpenMode → Bytes
  | .a => (fs path).getD []
  | _ => []

theorem openFile_ok {fs : Disk} {path : Str} {mode : OpenMode} {f : OutFile} (h : FileWriter.openFile fs path mode = .ok f) :
    f = ⟨FileWriter.kept fs path mode, [], false⟩ := by
  cases mode with
  | x =>
    simp only [FileWriter.openFile] at h
    split at h
    · cases h
    · cases h; rfl
  | w => cases h; rfl
  | a => cases h; rfl

/-- the constructor -/
theorem new_sim {size : Nat} {fs fs1 : Disk} {path : Str} {mode : OpenMode} {num : Int} {c : CCodec} {s : FileWriter}
    (h : FileWriter.new size fs path mode num c = (fs1, .ok s)) :
    ∃ w, DocWriter.new false num c = .ok w ∧ Sim (FileWriter.kept fs path mode) s w ∧ s.path = path ∧
      FileWriter.kept fs path mode <+: s.file.disk ∧ fs1 = s.onDisk fs ∧ s.block = [] ∧ s.count = 0 := by
  unfold FileWriter.new at h
  cases ho : FileWriter.openFile fs path mode with
  | error e => rw [ho] at h; cases h
  | ok f =>
    rw [ho] at h
    have hf := openFile_ok ho
    unfold FileWriter.headerParts at h
    cases ha : pack (.str c.name) with
    | error e =>
      exfalso
      simp only [ha] at h
      obtain ⟨f1, e1, -⟩ := outFile_write (size := size) (f := f) fileMagic (by rw [hf])
      simp only [FileWriter.writeParts, e1] at h
      cases h
    | ok a =>
      cases hb : pack (.int num) with
      | error e =>
        exfalso
        simp only [ha, hb] at h
        obtain ⟨f1, e1, -, c1, -⟩ := outFile_write (size := size) (f := f) fileMagic (by rw [hf])
        obtain ⟨f2, e2, -⟩ := outFile_write (size := size) (f := f1) a c1
        simp only [FileWriter.writeParts, e1, e2] at h
        cases h
      | ok b =>
        cases hx : pack (.bool false) with
        | error e => exact absurd hx (by rw [show pack (.bool false) = .ok [0xc2] by decide]; exact nofun)
        | ok x =>
          obtain ⟨f', e, a1, c1, p1⟩ := writeParts_ok (size := size) [fileMagic, a, b, x] (f := f) (by rw [hf])
          simp only [List.map_cons, List.map_nil] at e
          simp only [ha, hb, hx, e, Prod.mk.injEq, Except.ok.injEq] at h
          obtain ⟨rfl, rfl⟩ := h
          refine ⟨⟨false, [.write fileMagic, .write a, .write b, .write x] ++ DocWriter.splits false, [], 0, c, num⟩, ?_, ?_, rfl, ?_, rfl, rfl, rfl⟩
          · simp only [DocWriter.new, ha, hb, hx]
          · refine ⟨?_, c1, rfl, rfl, rfl, rfl, rfl⟩
            simp only [a1, hf, payload_append, payload_splits, Spec.payload]
            simp [OutFile.all]
          · rw [hf] at p1; exact p1

/-! ### reading what has reached the disk -/

/-- `must` in the middle of an object -/
theorem must_cut {u : Unpacker} {o : Obj} {b rest more : Bytes} (h : pack o = .ok b) (hk : o.KeysOk) (hu : u.src.drop u.used = rest)
    (hb : b = rest ++ more) (hm : more ≠ []) : DocReader.must u = .error .stopIteration := by
  unfold DocReader.must
  rw [hu, C30_truncated h hk rest more hb hm]

theorem take_split {α : Type} (a b : List α) (n : Nat) : (n < a.length ∧ (a ++ b).take n = a.take n) ∨
    (a.length ≤ n ∧ (a ++ b).take n = a ++ b.take (n - a.length)) := by
  rcases Nat.lt_or_ge n a.length with h | h
  · exact .inl ⟨h, List.take_append_of_le_length (by omega)⟩
  · exact .inr ⟨h, by rw [List.take_append, List.take_of_length_le h]⟩

theorem drop_ne_nil {α : Type} {a : List α} {n : Nat} (h : n < a.length) : a.drop n ≠ [] := by
  intro e
  have := congrArg List.length e
  simp only [List.length_drop, List.length_nil] at this
  omega

/-- a file that ends within its header is refused -/
theorem header_cut {reg : Codecs} {c' : CCodec} {name : Str} {num : Int} {hd more : Bytes} (h : Header name num hd)
    (hc : getCodec reg name = .ok c') {n : Nat} (hn : n < hd.length) :
    DocReader.new reg ((hd ++ more).take n) = .error .io ∨ DocReader.new reg ((hd ++ more).take n) = .error .stopIteration := by
  obtain ⟨a, b, c, pa, pb, pc, rfl⟩ := h
  rw [List.take_append_of_le_length (by omega)]
  rw [List.append_assoc, List.append_assoc]
  simp only [List.length_append] at hn
  have hlen : fileMagic.length = 4 := rfl
  rcases take_split fileMagic (a ++ (b ++ c)) n with ⟨h1, e1⟩ | ⟨h1, e1⟩
  · left
    unfold DocReader.new
    rw [e1, if_pos]
    intro e
    have := congrArg List.length e
    simp only [List.length_take, hlen] at this
    omega
  right
  rw [e1]
  have h4 : (fileMagic ++ (a ++ (b ++ c)).take (n - fileMagic.length)).take 4 = fileMagic := by rw [← hlen, List.take_left]
  have hd4 : (fileMagic ++ (a ++ (b ++ c)).take (n - fileMagic.length)).drop 4 = (a ++ (b ++ c)).take (n - fileMagic.length) := by
    rw [← hlen, List.drop_left]
  unfold DocReader.new
  rw [if_neg (by rw [h4]; simp), hd4]
  generalize hm : n - fileMagic.length = m
  rcases take_split a (b ++ c) m with ⟨h2, e2⟩ | ⟨h2, e2⟩
  · rw [e2, must_cut (rest := a.take m) (more := a.drop m) pa (by trivial) rfl (by rw [List.take_append_drop]) (drop_ne_nil h2)]
  rw [e2]
  obtain ⟨m1, d1⟩ := must_pack (u := ⟨a ++ (b ++ c).take (m - a.length), 0⟩) pa (by trivial) rfl
  simp only at m1 d1
  simp only [m1, getCodecObj, hc]
  rcases take_split b c (m - a.length) with ⟨h3, e3⟩ | ⟨h3, e3⟩
  · rw [e3] at d1 ⊢
    rw [must_cut (rest := b.take (m - a.length)) (more := b.drop (m - a.length)) pb (by trivial) d1 (by rw [List.take_append_drop]) (drop_ne_nil h3)]
  rw [e3] at d1 ⊢
  obtain ⟨m2, d2⟩ := must_pack (u := ⟨a ++ (b ++ c.take (m - a.length - b.length)), 0 + a.length⟩) pb (by trivial) d1
  simp only at m2 d2
  simp only [m2]
  rw [must_cut (rest := c.take (m - a.length - b.length)) (more := c.drop (m - a.length - b.length)) pc (by trivial) d2
    (by rw [List.take_append_drop]) (drop_ne_nil (by omega))]

/-- reading the beginning of a file of whole blocks: the documents of the blocks that are there -/
theorem prefix_reads_at {reg : Codecs} {c' : CCodec} {name : Str} {num : Int} {hd : Bytes} {comp : Bytes → Bytes} {blocks : List (List Bytes)}
    (hh : Header name num hd) (hc' : getCodec reg name = .ok c') (hf0 : BF.Ok ⟨hd, comp, c'.decompress, blocks, []⟩) {n : Nat}
    (hn1 : hd.length ≤ n) (hn2 : n ≤ (hd ++ Spec.blocksBytes comp blocks).length) :
    ∃ (r : DocReader) (j : Nat), DocReader.new reg ((hd ++ Spec.blocksBytes comp blocks).take n) = .ok r ∧ j ≤ blocks.length ∧
      (n = (hd ++ Spec.blocksBytes comp blocks).length → j = blocks.length) ∧
      (hd.length + (Spec.blocksBytes comp (blocks.take j)).length ≤ n ∧
        ∀ i, j < i → i ≤ blocks.length → n < hd.length + (Spec.blocksBytes comp (blocks.take i)).length) ∧ ∀ k,
        (r.nexts ((blocks.take j).flatten.length + k)).map (fun x => x.map MDoc.raw) =
          (blocks.take j).flatten.map .ok ++ List.replicate k (.error .stopIteration) := by
  rw [List.length_append] at hn2
  obtain ⟨j, g1, g2, g3, rest, g4, g5⟩ := cut_point comp blocks (n - hd.length) (by omega)
  have hrest : unpack rest = .error .outOfData := by
    rcases g5 with rfl | ⟨ds, more, q1, q2, q3⟩
    · exact unpack_nil
    · exact C30_truncated (pack_bin (hf0.zfit ds (List.mem_of_getElem? q1))) (by trivial) rest more q3 q2
  have hmem : ∀ ds, ds ∈ blocks.take j → ds ∈ blocks := fun ds h => List.mem_of_mem_take h
  have hf : BF.Ok ⟨hd, comp, c'.decompress, blocks.take j, rest⟩ :=
    ⟨hrest, fun ds h => hf0.zfit ds (hmem ds h), fun ds h => hf0.dec ds (hmem ds h), fun ds h => hf0.fit ds (hmem ds h),
      fun ds h => hf0.magic ds (hmem ds h)⟩
  obtain ⟨r, e, hat, -⟩ := open_ok hh hc' ⟨hd, comp, c'.decompress, blocks.take j, rest⟩ rfl rfl
  refine ⟨r, j, ?_, g1, fun he => ?_, ⟨by omega, fun i h1 h2 => by have := g3 i h1 h2; omega⟩, fun k => ?_⟩
  · rw [← e]
    simp only [BF.raw]
    rw [List.take_append, List.take_of_length_le hn1, g4, List.append_assoc]
  · rw [List.length_append] at he
    rcases Nat.lt_or_ge j blocks.length with h | h
    · have := g3 blocks.length h (Nat.le_refl _)
      rw [List.take_length] at this
      omega
    · omega
  · have hl : (BF.refs ⟨hd, comp, c'.decompress, blocks.take j, rest⟩).length = (blocks.take j).flatten.length := by
      rw [← refs_snd comp (blocks.take j) hd.length, List.length_map]; rfl
    rw [← hl, nexts_ok hf k _ hat, List.map_append, List.map_map, List.map_replicate, ← refs_snd comp (blocks.take j) hd.length, List.map_map]
    rfl

theorem prefix_reads {reg : Codecs} {c' : CCodec} {name : Str} {num : Int} {hd : Bytes} {comp : Bytes → Bytes} {blocks : List (List Bytes)}
    (hh : Header name num hd) (hc' : getCodec reg name = .ok c') (hf0 : BF.Ok ⟨hd, comp, c'.decompress, blocks, []⟩) {n : Nat}
    (hn1 : hd.length ≤ n) (hn2 : n ≤ (hd ++ Spec.blocksBytes comp blocks).length) :
    ∃ (r : DocReader) (j : Nat), DocReader.new reg ((hd ++ Spec.blocksBytes comp blocks).take n) = .ok r ∧ j ≤ blocks.length ∧
      (n = (hd ++ Spec.blocksBytes comp blocks).length → j = blocks.length) ∧ ∀ k,
        (r.nexts ((blocks.take j).flatten.length + k)).map (fun x => x.map MDoc.raw) =
          (blocks.take j).flatten.map .ok ++ List.replicate k (.error .stopIteration) := by
  obtain ⟨r, j, h1, h2, h3, -, h4⟩ := prefix_reads_at hh hc' hf0 hn1 hn2
  exact ⟨r, j, h1, h2, h3, h4⟩

/-! ### reading on after the blocks -/

/-- next() at the end of the blocks is readblock() -/
theorem next_tail {f : BF} (hf : f.Fine) {o : Obj} {rest : Bytes} (ht : unpack f.tail = .ok (o, rest))
    (ho : o ≠ .nil ∧ ∀ z, o ≠ .bin z) : ∀ {r : DocReader} {up}, At f r up →
    (match up with
      | [] => r.next.2 = .error .type
      | d :: up => r.next.2 = .ok (docOf d) ∧ At f r.next.1 up) := by
  have hloop : ∀ (post : List (List Bytes)) {r : DocReader} {pre fuel}, Pos f r pre post → r.block = none → post.length < fuel →
      (match Spec.refs f.comp (f.hd.length + (Spec.blocksBytes f.comp pre).length) post with
      | [] => (DocReader.nextLoop fuel r).2 = .error .type
      | d :: up => (DocReader.nextLoop fuel r).2 = .ok (docOf d) ∧ At f (DocReader.nextLoop fuel r).1 up) := by
    intro post
    induction post with
    | nil =>
      intro r pre fuel h hb hfu
      obtain ⟨fuel, rfl⟩ : ∃ k, fuel = k + 1 := ⟨fuel - 1, by simp only [List.length_nil] at hfu; omega⟩
      have hd := h.drop
      simp only [Spec.blocksBytes, List.map_nil, List.flatten_nil, List.nil_append] at hd
      have hr : r.readblock.2 = .error .type := by
        unfold DocReader.readblock
        simp only [Unpacker.next, hd, ht]
        split
        · rename_i e; cases e
        · rename_i e; cases e; exact absurd rfl ho.1
        · rename_i e; cases e; exact absurd rfl (ho.2 _)
        · rfl
      simp only [Spec.refs]
      unfold DocReader.nextLoop
      cases hx : r.readblock with
      | mk r' y =>
        rw [hx] at hr
        simp only at hr
        subst hr
        rfl
    | cons ds post ih =>
      intro r pre fuel h hb hfu
      obtain ⟨fuel, rfl⟩ : ∃ k, fuel = k + 1 := ⟨fuel - 1, by simp only [List.length_cons] at hfu; omega⟩
      obtain ⟨r', e, h', hl, -⟩ := readblock_some hf h
      have hlen : f.hd.length + (Spec.blocksBytes f.comp pre).length + (Spec.blockBytes f.comp ds).length =
          f.hd.length + (Spec.blocksBytes f.comp (pre ++ [ds])).length := by
        rw [blocksBytes_append, List.length_append, blocksBytes_cons]
        simp [Spec.blocksBytes]; omega
      have h'' : Pos f { r' with block := some (Block.new r'.lastpos (Spec.blockData ds)) } (pre ++ [ds]) post :=
        ⟨h'.raw, h'.codec, h'.src, h'.split, h'.pos⟩
      unfold DocReader.nextLoop
      rw [e]
      simp only [Spec.refs, hlen]
      cases ds with
      | nil =>
        obtain ⟨r2, e2, h2, hb2⟩ := fromBlock_none h'' (BPos.new r'.lastpos [])
        simp only [e2, Spec.docRefs, List.nil_append]
        exact ih h2 hb2 (by simp only [List.length_cons] at hfu; omega)
      | cons d ds =>
        obtain ⟨r2, e2, h2⟩ := fromBlock_some hf h'' rfl (dpre := []) rfl hl rfl (BPos.new r'.lastpos (d :: ds))
        simp only [e2, Spec.docRefs, List.cons_append]
        simp only [Spec.blockData, List.map_nil, List.flatten_nil, List.length_nil, hl] at h2
        simp only [hl]
        exact ⟨rfl, h2⟩
  intro r up h
  obtain ⟨pre, post, hp, hb⟩ := h
  have hfuel : post.length < r.raw.length + 1 := by
    have := blocks_length_le hf
    rw [hp.split, List.length_append] at this
    rw [hp.raw]
    omega
  unfold DocReader.next
  cases hbl : r.block with
  | none =>
    simp only [hbl] at hb ⊢
    rw [hb]
    exact hloop post hp hbl hfuel
  | some b =>
    simp only [hbl] at hb ⊢
    obtain ⟨pre', ds, dpre, dpost, h1, h2, h3, h4, h5, h6⟩ := hb
    cases dpost with
    | nil =>
      obtain ⟨r', e, h', hb'⟩ := fromBlock_none hp h5
      simp only [e, h6, Spec.docRefs, List.nil_append]
      exact hloop post h' hb' (by rw [h'.raw, ← hp.raw]; exact hfuel)
    | cons d dpost =>
      obtain ⟨r', e, h'⟩ := fromBlock_some hf hp h1 h2 h3 h4 h5
      simp only [e, h6, Spec.docRefs, List.cons_append]
      exact ⟨trivial, h'⟩

theorem nexts_tail {f : BF} (hf : f.Fine) {o : Obj} {rest : Bytes} (ht : unpack f.tail = .ok (o, rest))
    (ho : o ≠ .nil ∧ ∀ z, o ≠ .bin z) : ∀ (up : List ((Nat × Nat) × Bytes)) {r : DocReader}, At f r up →
    r.nexts (up.length + 1) = up.map (fun e => .ok (docOf e)) ++ [.error .type] := by
  intro up
  induction up with
  | nil =>
    intro r h
    have := next_tail hf ht ho h
    simp only at this
    simp only [List.length_nil, DocReader.nexts, this]
    rfl
  | cons e up ih =>
    intro r h
    have := next_tail hf ht ho h
    simp only at this
    obtain ⟨h1, h2⟩ := this
    rw [List.length_cons]
    show r.next.2 :: DocReader.nexts (up.length + 1) r.next.1 = _
    rw [h1, ih h2]
    rfl

end Verif
