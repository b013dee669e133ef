import Verif.Proof.PyInput
/-
C111: the Python reader of block files on a file object that returns less than it is asked for, has no position, or with
blocks or documents larger than the unpacker's buffer.
-/
set_option linter.unusedSimpArgs false
namespace Verif

namespace Spec

/-- a file object that has a position, returns nothing only at the end of the file, and the first four bytes at once -/
structure Prompt (f : RawIn) : Prop where
  some : ∀ k ∈ f.plan, k ≠ 0
  magic : 4 ≤ f.plan.headD 4
  tells : f.tells = true

/-- a reader on the file object yields exactly these documents, and then StopIteration for ever -/
def PyYields (reg : Codecs) (max : Nat) (f : RawIn) (docs : List Bytes) : Prop :=
  ∃ r, FReader.new reg max f = .ok r ∧ ∀ k,
    (r.nexts (docs.length + k)).map (fun x => x.map MDoc.raw) = docs.map .ok ++ List.replicate k (.error .stopIteration)

end Spec

/-- C111. However the file object divides the bytes of a file, be it one that was written or any others: the constructor
raises what it raises on the whole file, or BufferFull; and if it returns, `next` does what it does on the whole file up to some
call, and BufferFull is raised from then on. -/
theorem C111_chunks {reg : Codecs} {max : Nat} {f : RawIn} (hf : Spec.Prompt f) (hm : 0 < max) :
    match FReader.new reg max f with
    | .error e => DocReader.new reg f.rest = .error e ∨ e = .overflow
    | .ok r => ∃ r', DocReader.new reg f.rest = .ok r' ∧ ∀ n, ∃ m ≤ n, r.nexts n = r'.nexts m ++ List.replicate (n - m) (.error .overflow) := by
  rcases fnew_sim (reg := reg) hm hf.some hf.magic hf.tells with ⟨e, e1, e2⟩ | ⟨r, r', e1, e2, e3, -⟩
  · rw [e1]
    exact e2.imp id And.left
  · rw [e1]
    exact ⟨r', e2, fun n => nexts_sim n e3⟩

/-- C111. If nothing in the file is larger than the buffer, it is read just as the whole file is, whatever is in it. -/
theorem C111_small {reg : Codecs} {max : Nat} {f : RawIn} (hf : Spec.Prompt f) (hm : 0 < max) (h : Spec.InBuffer reg max f.rest) :
    match DocReader.new reg f.rest with
    | .error e => FReader.new reg max f = .error e
    | .ok r' => ∃ r, FReader.new reg max f = .ok r ∧ ∀ n, r.nexts n = r'.nexts n := by
  rcases fnew_sim (reg := reg) hm hf.some hf.magic hf.tells with ⟨e, e1, e2⟩ | ⟨r, r', e1, e2, e3, e4, e5⟩
  · rcases e2 with e2 | ⟨-, e2⟩
    · rw [e2]; exact e1
    · exact absurd h e2
  · rw [e2]
    exact ⟨r, e1, fun n => nexts_easy n e3 (by rw [e4]; exact e5 h)⟩

/-- C111. A file of which no block and no document is larger than the buffer yields the documents that were written, however
the file object divides it, also if it is cut off anywhere (then those that the whole of what is left yields). -/
theorem C111_written_partial {reg : Codecs} {max : Nat} {name : Str} {f : Bytes → Bytes} {num : Int} {hd : Bytes} {bs : List (List Bytes)}
    {docs : List Bytes} {i : RawIn} (hb : Spec.Undoes reg name f) (hh : Header name num hd) (hi : Spec.Prompt i)
    (hr : i.rest <+: hd ++ Spec.blocksBytes f bs) (hl : hd.length ≤ max)
    (hz : ∀ ds ∈ bs, (f (Spec.blockData ds)).length < 2 ^ 32 ∧ (f (Spec.blockData ds)).length ≤ max)
    (hd1 : ∀ ds ∈ bs, ∀ d ∈ ds, d.length < 2 ^ 32 ∧ d.length ≤ max ∧ Spec.ascii "DM_1" <+: d) :
    (Spec.PyHolds reg i.rest docs → Spec.PyYields reg max i docs) ∧
    (i.rest = hd ++ Spec.blocksBytes f bs → Spec.PyYields reg max i bs.flatten) := by
  have hin : Spec.InBuffer reg max i.rest := inBuffer_prefix (inBuffer_written hb hh hl
    (fun ds hds => ⟨(hz ds hds).1, (hz ds hds).2, fun d hd => ⟨(hd1 ds hds d hd).1, (hd1 ds hds d hd).2.1⟩⟩)) hr
  have hpos : 0 < max := by
    have := hh.eq
    have h2 := congrArg List.length this
    simp only [List.length_append] at h2
    have : fileMagic.length = 4 := rfl
    omega
  have hany : ∀ docs, Spec.PyHolds reg i.rest docs → Spec.PyYields reg max i docs := by
    rintro docs ⟨r', h1, h2⟩
    have := C111_small hi hpos hin
    rw [h1] at this
    obtain ⟨r, h3, h4⟩ := this
    exact ⟨r, h3, fun k => by rw [h4]; exact h2 k⟩
  refine ⟨hany docs, fun he => hany _ ?_⟩
  refine (pcut_read hb hh (fun ds hds => (hz ds hds).1) List.prefix_rfl (fun d hd => ?_) (by rw [he]; exact List.prefix_rfl)).2.2 he
  obtain ⟨ds, h1, h2⟩ := List.mem_flatten.mp hd
  exact ⟨(hd1 ds h1 d h2).1, (hd1 ds h1 d h2).2.2⟩

/-- C111 fails for a block larger than the buffer: the file opens, and `next` raises for ever. Not one document of it, nor
of the blocks behind it, can be read; writing it raised nothing. -/
theorem C111_large_block_lost {reg : Codecs} {max : Nat} {name : Str} {f : Bytes → Bytes} {num : Int} {hd : Bytes} {ds : List Bytes}
    {bs : List (List Bytes)} {i : RawIn} (hb : Spec.Undoes reg name f) (hh : Header name num hd) (hi : Spec.Prompt i)
    (hr : i.rest = hd ++ Spec.blocksBytes f (ds :: bs)) (hl : hd.length ≤ max) (hm : 65536 ≤ max)
    (hz : (f (Spec.blockData ds)).length < 2 ^ 32) (hbig : max < (f (Spec.blockData ds)).length) :
    ∃ r, FReader.new reg max i = .ok r ∧ ∀ n, r.nexts n = List.replicate n (.error .overflow) := by
  obtain ⟨c, hc, -⟩ := hb
  obtain ⟨r, e1, g1, g2, g3, g4⟩ := fopen_ok hh hc hl hr hi.some hi.magic hi.tells
  refine ⟨r, e1, fun n => ?_⟩
  have hw : Spec.blocksBytes f (ds :: bs) = Spec.bpack (f (Spec.blockData ds)) ++ Spec.blocksBytes f bs := by
    simp [Spec.blocksBytes, Spec.blockBytes]
  rw [hw] at g1
  obtain ⟨h1, h2⟩ := next_stuck_file g1 (unpack_bpack hz _) (by
    rw [List.length_append, (bpack_len hz).2 (by omega), g2]; omega) g4
  cases n with
  | zero => rfl
  | succ n => rw [FReader.nexts, h1, nexts_stuck n h2, List.replicate_succ]

/-- C111 fails for a document larger than the buffer, however small its block: `next` raises for ever, and the documents
behind it cannot be read. -/
theorem C111_large_document_lost {reg : Codecs} {max : Nat} {name : Str} {f : Bytes → Bytes} {num : Int} {hd d : Bytes} {ds : List Bytes}
    {bs : List (List Bytes)} {i : RawIn} (hb : Spec.Undoes reg name f) (hh : Header name num hd) (hi : Spec.Prompt i)
    (hr : i.rest = hd ++ Spec.blocksBytes f ((d :: ds) :: bs)) (hl : hd.length ≤ max) (hm : 65536 ≤ max)
    (hz : (f (Spec.blockData (d :: ds))).length < 2 ^ 32) (hsmall : (f (Spec.blockData (d :: ds))).length ≤ max)
    (hd1 : d.length < 2 ^ 32) (hbig : max < d.length) :
    ∃ r, FReader.new reg max i = .ok r ∧ ∀ n, r.nexts n = List.replicate n (.error .overflow) := by
  obtain ⟨c, hc, hdec⟩ := hb
  obtain ⟨r, e1, g1, g2, g3, g4⟩ := fopen_ok hh hc hl hr hi.some hi.magic hi.tells
  refine ⟨r, e1, fun n => ?_⟩
  have hw : Spec.blocksBytes f ((d :: ds) :: bs) = Spec.bpack (f (Spec.blockData (d :: ds))) ++ Spec.blocksBytes f bs := by
    simp [Spec.blocksBytes, Spec.blockBytes]
  have hy : Spec.blockData (d :: ds) = Spec.bpack d ++ Spec.blockData ds := by simp [Spec.blockData]
  rw [hw] at g1
  obtain ⟨h1, h2⟩ := next_stuck_block (o := .bin d) (t := Spec.blockData ds) g1 (unpack_bpack hz _) (by
    have := (bpack_len hz).1
    rw [List.length_append, g2]; omega) g4 (by rw [g3]; exact hdec _) (by rw [hy]; exact unpack_bpack hd1 _) (by
    rw [hy, List.length_append, (bpack_len hd1).2 (by omega), g2]; omega)
  cases n with
  | zero => rfl
  | succ n => rw [FReader.nexts, h1, nexts_stuck n h2, List.replicate_succ]

/-- C111 fails on a file object that returns less than the first four bytes at once: the constructor raises IOError ("not a docria
file"), whatever the file holds. -/
theorem C111_short_magic_false {reg : Codecs} {max : Nat} {f : RawIn} {k : Nat} (h : f.plan.head? = some k) (hk : k < 4) :
    FReader.new reg max f = .error .io := by
  unfold FReader.new RawIn.read
  have hp : f.plan.headD 4 = k := by rw [List.headD_eq_head?_getD, h]; rfl
  simp only [hp]
  rw [if_pos]
  intro e
  have := congrArg List.length e
  rw [List.length_take] at this
  have h4 : fileMagic.length = 4 := rfl
  omega

/-- C111 fails on a file object without a position, such as a pipe: no file can be opened. The constructor asks for the position
last, and does not use it. -/
theorem C111_no_tell_false {reg : Codecs} {max : Nat} {f : RawIn} (hf : f.tells = false) (hm : 0 < max) (hp : ∀ k ∈ f.plan, k ≠ 0) :
    ∃ e, FReader.new reg max f = .error e := by
  cases hr : FReader.new reg max f with
  | error e => exact ⟨e, rfl⟩
  | ok r =>
    exfalso
    have hkeep : ∀ {u : FUnpacker} {w : Bytes} {o : Obj} {u' : FUnpacker}, UGood u w → u.must = .ok (o, u') →
        (∃ w', UGood u' w') ∧ u'.inp.tells = u.inp.tells := by
      intro u w o u' hg he
      obtain ⟨hq, hs⟩ := next_spec hg
      unfold FUnpacker.must at he
      generalize u.next = x at hq hs he
      obtain ⟨v, res⟩ := x
      cases hq with
      | item o' t g1 hl' hx hg' huu =>
        simp only at hx hg'
        subst hx
        cases he
        exact ⟨⟨_, hg'⟩, hs.tells⟩
      | stop g1 hl hx => simp only at hx; subst hx; cases he
      | fail e _ g1 hx => simp only at hx; subst hx; cases he
      | full hx => simp only at hx; subst hx; cases he
    unfold FReader.new RawIn.read at hr
    simp only at hr
    split at hr
    · cases hr
    · have hu0 : UGood ⟨[], { rest := f.rest.drop (min 4 (f.plan.headD 4)), plan := f.plan.tail, tells := f.tells }, false, 0, max⟩
          (f.rest.drop (min 4 (f.plan.headD 4))) := ⟨rfl, nofun, fun a ha => hp a (List.mem_of_mem_tail ha), by simp, hm⟩
      split at hr
      · cases hr
      · rename_i o1 u1 e1
        obtain ⟨⟨w1, g1⟩, t1⟩ := hkeep hu0 e1
        split at hr
        · cases hr
        · split at hr
          · cases hr
          · rename_i o2 u2 e2
            obtain ⟨⟨w2, g2⟩, t2⟩ := hkeep g1 e2
            split at hr
            · cases hr
            · rename_i o3 u3 e3
              obtain ⟨-, t3⟩ := hkeep g2 e3
              have : u3.inp.tells = false := by rw [t3, t2, t1]; exact hf
              split at hr
              · cases hr
              · cases hr
              · rw [this] at hr
                cases hr

namespace Ex

/-- the header of a file with the codec that stores what it is given, blocks of two documents -/
def plainHead : Bytes := fileMagic ++ [0xa4, 110, 111, 110, 101, 2, 0xc2]

/-- two blocks with three documents -/
def docsFile : Bytes := plainHead ++ Spec.blocksBytes id [[tinyDoc 65, tinyDoc 66], [tinyDoc 67]]

/-- what `n` calls of next() yield on a file object that returns as many bytes as the plan says, `none` for an exception -/
def fileRead (max : Nat) (file : Bytes) (plan : List Nat) (n : Nat) : Option (List (Option Bytes)) :=
  (FReader.new [("none".toList, plain)] max ⟨file, plan, true⟩).toOption.map (fun r => (r.nexts n).map (fun x => (x.map MDoc.raw).toOption))

def plainHeader : Header "none".toList 2 plainHead := ⟨[0xa4, 110, 111, 110, 101], [2], [0xc2], by decide +kernel, by decide +kernel, by decide +kernel, rfl⟩

end Ex

/-- a file object that returns one to five bytes at a time: the hypotheses of C111_chunks, C111_small and C111_written_partial, and
what is read -/
example : Spec.Prompt ⟨Ex.docsFile, [4, 1, 1, 2, 5, 3, 1, 1, 1, 4, 2], true⟩ ∧
    Spec.InBuffer [("none".toList, Ex.plain)] 65536 Ex.docsFile ∧
    Spec.PyYields [("none".toList, Ex.plain)] 65536 ⟨Ex.docsFile, [4, 1, 1, 2, 5, 3, 1, 1, 1, 4, 2], true⟩ [Ex.tinyDoc 65, Ex.tinyDoc 66, Ex.tinyDoc 67] ∧
    Ex.fileRead 65536 Ex.docsFile [4, 1, 1, 2, 5, 3, 1, 1, 1, 4, 2] 4 = some [some (Ex.tinyDoc 65), some (Ex.tinyDoc 66), some (Ex.tinyDoc 67), none] := by
  have hp : Spec.Prompt ⟨Ex.docsFile, [4, 1, 1, 2, 5, 3, 1, 1, 1, 4, 2], true⟩ := ⟨by decide, by decide, rfl⟩
  have h1 : ∀ ds ∈ [[Ex.tinyDoc 65, Ex.tinyDoc 66], [Ex.tinyDoc 67]],
      (id (Spec.blockData ds)).length < 2 ^ 32 ∧ (id (Spec.blockData ds)).length ≤ 65536 := by decide +kernel
  have h2 : ∀ ds ∈ [[Ex.tinyDoc 65, Ex.tinyDoc 66], [Ex.tinyDoc 67]], ∀ d ∈ ds,
      d.length < 2 ^ 32 ∧ d.length ≤ 65536 ∧ Spec.ascii "DM_1" <+: d := by decide +kernel
  exact ⟨hp, inBuffer_written Ex.plainUndoes Ex.plainHeader (by decide +kernel) (fun ds hds => ⟨(h1 ds hds).1, (h1 ds hds).2, fun d hd => ⟨(h2 ds hds d hd).1, (h2 ds hds d hd).2.1⟩⟩),
    (C111_written_partial (docs := []) Ex.plainUndoes Ex.plainHeader hp List.prefix_rfl (by decide +kernel) h1 h2).2 rfl, by decide +kernel⟩

/-- with the buffer that msgpack has by default: a block of one document of 100 MiB (C111_large_block_lost) -/
example : ∃ d : Bytes, d.length = 104857600 ∧ (Spec.blockData [d]).length < 2 ^ 32 ∧ 104857600 < (Spec.blockData [d]).length ∧ Ex.plainHead.length ≤ 104857600 ∧
    Spec.Prompt ⟨Ex.plainHead ++ Spec.blocksBytes id [[d]], [], true⟩ := by
  have hd : (List.replicate 104857600 (0 : UInt8)).length = 104857600 := List.length_replicate
  have hb : Spec.blockData [List.replicate 104857600 (0 : UInt8)] = Spec.bpack (List.replicate 104857600 0) := by
    rw [Spec.blockData, List.map_cons, List.map_nil, List.flatten_cons, List.flatten_nil, List.append_nil]
  have hl := (bpack_len (d := List.replicate 104857600 (0 : UInt8)) (by rw [hd]; omega)).2 (by rw [hd]; omega)
  rw [hd] at hl
  exact ⟨_, hd, by rw [hb, hl]; omega, by rw [hb, hl]; omega, by decide +kernel, ⟨by simp, by simp, rfl⟩⟩

/-- a codec that makes a block with a document of 100 MiB and a byte small (C111_large_document_lost) -/
example : ∃ (reg : Codecs) (f : Bytes → Bytes) (d : Bytes), Spec.Undoes reg "none".toList f ∧ 104857600 < d.length ∧ d.length < 2 ^ 32 ∧
    (f (Spec.blockData [d])).length ≤ 104857600 := by
  let d : Bytes := List.replicate 104857601 0
  have hd : d.length = 104857601 := List.length_replicate
  let c : CCodec := { Ex.plain with decompress := fun z => match z with | [] => .ok (Spec.blockData [d]) | _ :: t => .ok t }
  refine ⟨[("none".toList, c)], fun x => if x = Spec.blockData [d] then [] else 0 :: x, d, ⟨c, rfl, fun x => ?_⟩, by omega, by omega, ?_⟩
  · by_cases hx : x = Spec.blockData [d]
    · simp only [hx, if_true]; rfl
    · simp only [hx, if_false]; rfl
  · simp only [if_true, List.length_nil]; omega

/-- a block that is too large for a small buffer, behind one that is not: the first documents are read, and then next() raises for ever
(C111_chunks with `m = 2`) -/
example : Ex.fileRead 16 (Ex.plainHead ++ Spec.blocksBytes id [[Ex.tinyDoc 65, Ex.tinyDoc 66], [Ex.tinyDoc 67, Ex.tinyDoc 68, Ex.tinyDoc 69, Ex.tinyDoc 70], [Ex.tinyDoc 71]])
      [4, 1, 1, 2, 5, 3] 6 = some [some (Ex.tinyDoc 65), some (Ex.tinyDoc 66), none, none, none, none] ∧
    (Ex.pyRead (Ex.plainHead ++ Spec.blocksBytes id [[Ex.tinyDoc 65, Ex.tinyDoc 66], [Ex.tinyDoc 67, Ex.tinyDoc 68, Ex.tinyDoc 69, Ex.tinyDoc 70], [Ex.tinyDoc 71]]) 6).map
      (List.map Option.isSome) = some [true, true, true, true, true, true] := by
  decide +kernel

/-- C111 fails on a file object that once returns nothing although the file goes on: the reader raises StopIteration, and
the documents behind are missing without a word. -/
theorem C111_empty_read_lost :
    Ex.fileRead 65536 Ex.docsFile [] 4 = some [some (Ex.tinyDoc 65), some (Ex.tinyDoc 66), some (Ex.tinyDoc 67), none] ∧
    ((FReader.new [("none".toList, Ex.plain)] 65536 ⟨Ex.docsFile, [4, 7, 16, 0], true⟩).toOption.map (fun r => (r.nexts 4).map (fun x =>
      match x with | .ok d => some d.raw | .error .stopIteration => none | .error _ => some []))) =
        some [some (Ex.tinyDoc 65), some (Ex.tinyDoc 66), none, none] := by
  decide +kernel

/-- a file object that returns three of the first four bytes, and one without a position: the same file cannot be opened
(C111_short_magic_false, C111_no_tell_false) -/
example : Ex.fileRead 65536 Ex.docsFile [3, 1] 1 = none ∧
    (FReader.new [("none".toList, Ex.plain)] 65536 ⟨Ex.docsFile, [], false⟩).toOption.isNone = true := by
  decide +kernel

/-- C111 in full: a file that holds documents yields them on every file object that returns some of what is left, whatever its
size. -/
def C111_full : Prop := ∀ (reg : Codecs) (max : Nat) (f : RawIn) (docs : List Bytes), 65536 ≤ max → (∀ k ∈ f.plan, k ≠ 0) →
  Spec.PyHolds reg f.rest docs → Spec.PyYields reg max f docs

theorem C111_full_false : ¬ C111_full := by
  intro h
  have hw := (pcut_read (blocks := []) (docs := []) (file := Ex.plainHead) Ex.plainUndoes Ex.plainHeader (fun _ g => nomatch g) List.prefix_rfl
    (fun _ g => nomatch g) (List.prefix_append _ _)).2.2 (List.append_nil _).symm
  obtain ⟨r, e, -⟩ := h _ 65536 ⟨Ex.plainHead, [3], true⟩ [] (Nat.le_refl _) (by decide) hw
  rw [C111_short_magic_false (k := 3) rfl (by omega)] at e
  cases e

end Verif
