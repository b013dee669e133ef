import Verif.Props.JavaStream
import Verif.Props.JavaReader
import Verif.Props.JavaThreads
import Verif.Props.JavaBoundary
set_option linter.unusedSimpArgs false

/-! Concrete cases of the claims about the Java streams: each theorem is applied to arguments that meet its
hypotheses. -/

namespace Verif

namespace Ex

/-- a blob that begins like a document -/
def dm (k : UInt8) : Bytes := Spec.ascii "DM_1" ++ [k]

/-- three documents, two to a block, with a flush in between -/
def dmCalls : List JDocWriter.Call := [.write (dm 1), .flush, .write (dm 2), .write (dm 3)]

/-- the codec is known -/
def dmReg : Codecs := [("none".toList, plain)]

theorem dmReg_lossless : Spec.Lossless dmReg plain := ⟨plain, rfl, fun x z e => by cases e; rfl⟩

/-- the file that the calls leave -/
def dmFile : Bytes := hdr ++ Spec.blocksBytes id [[dm 1], [dm 2, dm 3]]

/-- the Java writer makes it -/
theorem dm_run (bnd : Bool) : ∃ s s', JDocWriter.new bnd 4 2 "none".toList id = .ok s ∧ s.run (dmCalls ++ [.flush]) = .ok s' ∧
    Spec.payload s'.log = dmFile := by
  cases bnd <;> exact ⟨_, _, rfl, rfl, by decide +kernel⟩

end Ex

/-- C80_writes: the writer takes the documents, whatever is flushed when -/
example : ∃ s s', JDocWriter.new true 4 2 "none".toList id = .ok s ∧ s.run Ex.dmCalls = .ok s' := by
  obtain ⟨s, _, h, -, -⟩ := Ex.dm_run true
  obtain ⟨s', h'⟩ := C80_writes h Ex.dmCalls (by decide) (fun ds hds => by
    have h1 : ∀ ds : List Bytes, ds <:+: [Ex.dm 1, Ex.dm 2, Ex.dm 3] → (Spec.blockData ds).length ≤ 100 := by
      intro ds hd
      have h2 : ∀ l : List Bytes, (∀ d ∈ l, d.length = 5) → (Spec.blockData l).length = 7 * l.length := by
        intro l hl
        induction l with
        | nil => rfl
        | cons d l ih =>
          have h3 := ih (fun x hx => hl x (by simp [hx]))
          have h4 := hl d (by simp)
          have h7 : (Spec.bpack d).length = 7 := by
            match d, h4 with
            | [a, b, c, e, f], _ => rfl
          simp [Spec.blockData] at h3 ⊢
          omega
      have h5 := h2 ds (fun d hd' => by
        have : d ∈ [Ex.dm 1, Ex.dm 2, Ex.dm 3] := hd.subset hd'
        clear hd' h2; revert d; decide)
      have h6 := hd.length_le
      simp at h6
      omega
    have := h1 ds hds
    simp; omega)
  exact ⟨s, s', h, h'⟩

/-- C80_same_file_partial: the Python writer leaves the same bytes -/
example : ∃ p, DocWriter.new true 2 Ex.plain = .ok p ∧ (p.run (Ex.dmCalls.map Spec.pyCall)).flush.2 = none ∧
    Spec.payload (p.run (Ex.dmCalls.map Spec.pyCall)).flush.1.log = Ex.dmFile := by
  obtain ⟨s, s', h, h', hf⟩ := Ex.dm_run false
  have hp : ∃ p, DocWriter.new true 2 Ex.plain = .ok p := ⟨_, rfl⟩
  obtain ⟨p, hp⟩ := hp
  obtain ⟨h1, h2⟩ := C80_same_file_partial (f := id) (c := Ex.plain) rfl hp h h' (by decide)
  exact ⟨p, hp, h2, by rw [← h1, hf]⟩

/-- C80_python_reads_partial: the Python reader gives the three documents, then the end twice -/
example : ∃ r, DocReader.new Ex.dmReg Ex.dmFile = .ok r ∧ (r.nexts 5).map (fun x => x.map MDoc.raw) =
    [.ok (Ex.dm 1), .ok (Ex.dm 2), .ok (Ex.dm 3), .error .stopIteration, .error .stopIteration] := by
  obtain ⟨s, s', h, h', hf⟩ := Ex.dm_run true
  obtain ⟨r, h1, h2⟩ := C80_python_reads_partial (c := Ex.plain) Ex.dmReg_lossless rfl (by decide) (by decide) h h' (by decide) (by decide)
  exact ⟨r, hf ▸ h1, h2 2⟩

/-- C80_splits_partial -/
example : ∃ s s', JDocWriter.new true 4 2 "none".toList id = .ok s ∧ s.run (Ex.dmCalls ++ [.flush]) = .ok s' ∧
    ∃ hd dss, Nonempty (Header "none".toList 2 hd) ∧ Ex.dmFile = hd ++ Spec.blocksBytes id dss ∧ dss.flatten = [Ex.dm 1, Ex.dm 2, Ex.dm 3] ∧
      ∀ k, 0 < k → k < dss.length → hd ++ Spec.blocksBytes id (dss.take k) ∈ Spec.splitPoints s'.log := by
  obtain ⟨s, s', h, h', hf⟩ := Ex.dm_run true
  exact ⟨s, s', h, h', hf ▸ C80_splits_partial h h' (by decide)⟩

/-- C81_java_files: the Java reader, after one document has been read, skips one, reads one and is at the end -/
example : ∃ r, JDocReader.new .ok none Ex.dmFile = .ok r ∧ r.calls 4 [.next, .skip, .next, .next] =
    [.ok (.doc (some (Ex.dm 1))), .ok (.flag true), .ok (.doc (some (Ex.dm 3))), .ok (.doc none)] := by
  obtain ⟨s, s', h, h', hf⟩ := Ex.dm_run true
  obtain ⟨r, h1, h2⟩ := C81_java_files (unzip := .ok) (dec := .ok) h h' (by decide) (by decide) (by decide) (by rw [hf]; decide +kernel) rfl (fun _ => rfl)
  exact ⟨r, hf ▸ h1, h2 _ 4 (by decide)⟩

/-- C81_python_files: the same from the writer of the Python library -/
example : ∃ (s1 : DocWriter) (r : JDocReader), JDocReader.new .ok none (Spec.payload s1.log) = .ok r ∧ r.calls 4 [.next, .skip, .next, .next] =
    [.ok (.doc (some (Ex.dm 1))), .ok (.flag true), .ok (.doc (some (Ex.dm 3))), .ok (.doc none)] := by
  have hp : ∃ p s1, DocWriter.new true 2 Ex.plain = .ok p ∧ (p.run (Ex.dmCalls.map Spec.pyCall)).flush = (s1, none) ∧
      (Spec.payload s1.log).length < 2 ^ 31 := ⟨_, _, rfl, rfl, by decide +kernel⟩
  obtain ⟨p, s1, hp, hs, hl⟩ := hp
  obtain ⟨r, h1, h2⟩ := C81_python_files (c := Ex.plain) (unzip := .ok) (dec := .ok) hp hs
    (by simp [Ex.dmCalls, Spec.pyCall, Spec.Real, Ex.dm]) rfl (fun x z e => by cases e; rfl) (by decide) hl (by decide)
  exact ⟨s1, r, h1, h2 _ 4 (by decide)⟩

theorem Ex.jfile_readable : ∀ ds ∈ [[[1], [2]], [], [[3]], [[4], [5]]], Spec.Readable id .ok ds := by
  intro ds hds
  refine ⟨?_, rfl, ?_⟩ <;> (revert ds; decide)

def Ex.hdr_header : Header "none".toList 2 Ex.hdr := ⟨_, _, _, rfl, rfl, rfl, by decide⟩

/-- C81_reads -/
example : ∃ r, JDocReader.new .ok none Ex.jfile = .ok r ∧ r.calls 6 [.skipN 2, .next, .skipN 9] =
    [.ok (.num 2), .ok (.doc (some [3])), .ok (.num 2)] := by
  obtain ⟨r, h1, h2⟩ := C81_reads Ex.hdr_header (by decide) (by decide) (by decide) (unzip := .ok) (dec := .ok) rfl Ex.jfile_readable
  exact ⟨r, h1, (h2 _ 6 (by decide)).trans (by decide +kernel)⟩

/-- C81_skip_block -/
example : ∃ r, JDocReader.new .ok none Ex.jfile = .ok r ∧ r.bcalls [.next, .skipBlock, .skipBlock, .next, .next, .skipBlock] =
    [.ok (.doc (some [1])), .ok (.flag true), .ok (.flag true), .ok (.doc (some [2])), .ok (.doc (some [4])), .ok (.flag false)] := by
  obtain ⟨r, h1, h2⟩ := C81_skip_block Ex.hdr_header (by decide) (by decide) (unzip := .ok) (dec := .ok) rfl Ex.jfile_readable
  exact ⟨r, h1, (h2 _).trans (by decide +kernel)⟩

/-- C81_streams_partial: the empty block is left out -/
example : ∃ r, JDocReader.new .ok none Ex.jfile = .ok r ∧ (r.allBlocks 5).2 = .ok [[[1], [2]], [[3]], [[4], [5]]] := by
  obtain ⟨r, h1, h2⟩ := C81_streams_partial Ex.hdr_header (by decide) (by decide) (unzip := .ok) (dec := .ok) rfl Ex.jfile_readable
  exact ⟨r, h1, (h2 5 (by decide)).trans (by decide +kernel)⟩

/-- C82_reads: two threads, eight steps that interleave -/
example : ∃ (taken left fl un : List (List Bytes)), [[[1]], [[2]]] = taken ++ left ∧
    (JThreads.run ⟨Ex.twoBlocks, [.top, .top]⟩ [0, 0, 1, 1, 0]).r.rest = Spec.blocksBytes id left ∧
    Spec.inFlight (JThreads.run ⟨Ex.twoBlocks, [.top, .top]⟩ [0, 0, 1, 1, 0]).pcs = fl.map (fun ds => id (Spec.blockData ds)) ∧
    (JThreads.run ⟨Ex.twoBlocks, [.top, .top]⟩ [0, 0, 1, 1, 0]).r.blks = un.map Spec.blockData ∧ (fl ++ un).Perm taken :=
  C82_reads (r := Ex.twoBlocks) rfl rfl (fun ds hds => ⟨by revert ds; decide, rfl, by revert ds; decide⟩) 2 [0, 0, 1, 1, 0]

/-- C82_alone_partial: the second of two threads runs alone and takes the first block -/
example : ∃ k, JThreads.run ⟨Ex.twoBlocks, [.top, .top]⟩ (List.replicate k 1) =
    ⟨Ex.twoBlocks.nextBlock.1, [.top, .done (some 0)]⟩ := by
  obtain ⟨k, h⟩ := C82_alone_partial Ex.twoBlocks [.top, .top] 1 rfl
  exact ⟨k, h (some 0) (by decide +kernel)⟩

/-! ### streams with boundaries -/

namespace Ex

/-- a payload longer than a segment, with a split after ten bytes -/
def bops : List BWriter.Op := [.write (List.replicate 10 7), .split, .write (List.replicate 5000 8)]

theorem bops_written : ∃ s0 s, BWriter.new 12 = .ok s0 ∧ s0.run bops = .ok s ∧ s.out.length = 5015 := by
  obtain ⟨j0, j, s0, s, -, -, h0, h, -⟩ := C76_same_file (b := 12) (by omega) bops
  have : ∃ s0 s, BWriter.new 12 = .ok s0 ∧ s0.run bops = .ok s ∧ s.out.length = 5015 := by
    refine ⟨_, _, h0, h, ?_⟩
    have e : (match BWriter.new 12 with
      | .error _ => 0
      | .ok s0 => match s0.run bops with | .error _ => 0 | .ok s => s.out.length) = 5015 := by decide +kernel
    simpa [h0, h] using e
  exact this

end Ex

/-- C76_layout -/
example : ∃ j0 j : JWriter, JWriter.new 12 = .ok j0 ∧ j0.run Ex.bops = .ok j ∧ j.out[0]? = some 12 ∧
    Spec.strip 12 j.out = List.replicate 10 7 ++ List.replicate 5000 8 := by
  obtain ⟨j0, j, -, -, h0, h, -, -, -⟩ := C76_same_file (b := 12) (by omega) Ex.bops
  obtain ⟨h1, h2, -⟩ := C76_layout (by omega) Ex.bops h0 h
  exact ⟨j0, j, h0, h, h1, by rw [h2]; exact congrArg (_ ++ ·) (List.append_nil _)⟩

/-- C76_byte_partial -/
example : ∃ j0 j : JWriter, JWriter.new 12 = .ok j0 ∧ j0.run Ex.bops = .ok j ∧ ∀ c, j.write [c] = .ok (j.writeByte c) := by
  obtain ⟨j0, j, s0, s, h0, h, k0, k, e⟩ := C76_same_file (b := 12) (by omega) Ex.bops
  obtain ⟨t0, t, k0', k', hl⟩ := Ex.bops_written
  rw [k0'] at k0; cases k0
  rw [k'] at k; cases k
  exact ⟨j0, j, h0, h, fun c => C76_byte_partial (by omega) Ex.bops h0 h (by rw [e, hl]; decide) c⟩

/-- C77_reads_partial: the stream gives 99 bytes first, then nothing; one byte, 4500 bytes, and what is left are read -/
example : ∃ s0 s r, BWriter.new 12 = .ok s0 ∧ s0.run Ex.bops = .ok s ∧ JReader.new ⟨s.out, 0, [99, 0, 3000], false⟩ = .ok r ∧
    r.calls [.one, .arr 4500, .arr 9000, .one] = (Spec.inputCalls (Spec.payload Ex.bops) [.one, .arr 4500, .arr 9000, .one]).map .ok := by
  obtain ⟨s0, s, h0, h, hl⟩ := Ex.bops_written
  obtain ⟨r, h1, h2⟩ := C77_reads_partial (by omega) Ex.bops h0 h [99, 0, 3000] false (.inr (by rw [hl]; decide)) [.one, .arr 4500, .arr 9000, .one]
  exact ⟨s0, s, r, h0, h, h1, h2⟩

/-- C77_skip_uncounted -/
example : ∃ s0 s r r' k, BWriter.new 12 = .ok s0 ∧ s0.run Ex.bops = .ok s ∧ JReader.new ⟨s.out, 0, [], true⟩ = .ok r ∧
    r.skip 100 = (r', .ok k) ∧ 0 < k ∧ r'.read = r.read := by
  obtain ⟨s0, s, h0, h, hl⟩ := Ex.bops_written
  obtain ⟨r, h1, -⟩ := C77_reads_partial (by omega) Ex.bops h0 h [] true (.inl rfl) []
  obtain ⟨r', k, h2, h3, h4, -⟩ := C77_skip_uncounted (by omega) Ex.bops h0 h h1 (n := 100) (by omega) (by decide +kernel)
  exact ⟨s0, s, r, r', k, h0, h, h1, h2, h3, h4⟩

/-- C77_available_partial: before anything has been read -/
example : ∃ s0 s r, BWriter.new 12 = .ok s0 ∧ s0.run Ex.bops = .ok s ∧ JReader.new ⟨s.out, 0, [], true⟩ = .ok r ∧
    0 < r.available ∧ r.available ≤ 5010 := by
  obtain ⟨s0, s, h0, h, hl⟩ := Ex.bops_written
  obtain ⟨r, h1, -⟩ := C77_reads_partial (by omega) Ex.bops h0 h [] true (.inl rfl) []
  have e : (match BWriter.new 12 with
      | .error _ => 0
      | .ok s0 => match s0.run Ex.bops with
        | .error _ => 0
        | .ok s => match JReader.new ⟨s.out, 0, [], true⟩ with | .error _ => 0 | .ok r => (r.after []).inp.pos) = 1 := by decide +kernel
  simp only [h0, h, h1] at e
  obtain ⟨h2, h3⟩ := C77_available_partial (by omega) Ex.bops h0 h [] [] h1 (by rw [e]; decide)
  exact ⟨s0, s, r, h0, h, h1, h3 (by decide +kernel), Nat.le_trans h2 (by decide +kernel)⟩

/-- C78_length_partial, C78_from_zero: the positions are those of the library's own test -/
example : computeLength 12 4100 8200 = (Spec.stripFrom 12 4100 (List.replicate 4100 0)).length := by
  have h := C78_length_partial (b := 12) (by omega) (start := 4100) (List.replicate 4100 0) ⟨by decide, .inl (by decide +kernel)⟩
    (by rw [List.length_replicate]; exact ⟨by decide, .inl (by decide +kernel)⟩)
  rwa [List.length_replicate] at h

example : computeLength 12 0 8201 + 3 = (Spec.strip 12 (List.replicate 8201 0)).length := by
  have h := C78_from_zero (b := 12) (by omega) (List.replicate 8201 0)
    (by rw [List.length_replicate]; exact ⟨by decide, .inl (by decide +kernel)⟩)
  rwa [List.length_replicate] at h

end Verif
