import Verif.Props.BlockFile
import Verif.Model.JavaStream
/-
C80, C81: block files of the Java library.
-/
set_option linter.unusedSimpArgs false
namespace Verif

namespace Spec

/-- the documents that the calls write -/
def blobs : List JDocWriter.Call → List Bytes
  | [] => []
  | .write d :: cs => d :: blobs cs
  | .flush :: cs => blobs cs

/-- the same calls on a Python writer: a document is given as a MsgpackDocument -/
def pyCall : JDocWriter.Call → DocWriter.Call
  | .write d => .write (.packed { raw := d, ref := none })
  | .flush => .flush

/-- what had been written at each split -/
def splitPoints : List BWriter.Op → List Bytes
  | [] => []
  | .split :: l => [] :: splitPoints l
  | .write d :: l => (splitPoints l).map (d ++ ·)

end Spec

/-! ### the writer -/

/-- a Java writer and a Python writer that have done the same -/
structure SameW (f : Bytes → Bytes) (hd : Bytes) (s : JDocWriter) (p : DocWriter) : Prop where
  payload : Spec.payload s.log ++ s.held = Spec.payload p.log
  block : s.block = p.block
  count : s.count = p.count
  num : s.num = p.num
  jcomp : s.compress = f
  pcomp : p.codec.compress = fun x => .ok (f x)
  held : s.held = [] ∨ Spec.payload p.log = hd

theorem same_new {f : Bytes → Bytes} {c : CCodec} {bnd bnd' early num p} (hc : c.compress = fun x => .ok (f x)) (hn : 1 ≤ num)
    (h : DocWriter.new bnd' num c = .ok p) : ∃ s, JDocWriter.new bnd early num c.name f = .ok s ∧ SameW f (Spec.payload p.log) s p ∧ s.count = 0 := by
  obtain ⟨hd, ⟨hh⟩, hi, hcod, hnum⟩ := new_inv h
  obtain ⟨a, b, x, pa, pb, pc, e⟩ := hh
  have hx : x = [0xc2] := by simp only [pack, packAt] at pc; cases pc; rfl
  have hlog := hi.log
  simp only [Spec.blocksBytes, List.map_nil, List.flatten_nil, List.append_nil] at hlog
  unfold JDocWriter.new
  rw [if_neg (by omega), pa, pb]
  simp only [cat]
  refine ⟨_, rfl, ⟨?_, ?_, ?_, hnum.symm, rfl, by rw [hcod, hc], .inr rfl⟩, rfl⟩
  · simp only [Spec.payload, List.append_nil, List.take_append_drop, hlog, e, hx, List.append_assoc]
  · rw [hi.block]; rfl
  · rw [hi.count]; rfl

theorem same_flushblock {f hd s p s'} (h : SameW f hd s p) (hc : p.count > 0) (hs : s.flushblock = .ok s') :
    ∃ p', p.flush = (p', none) ∧ SameW f hd s' p' ∧ s'.held = [] := by
  unfold JDocWriter.flushblock at hs
  cases hb : pack (.bin (s.compress s.block)) with
  | error e => rw [hb] at hs; cases hs
  | ok b =>
    rw [hb] at hs
    simp only [Except.ok.injEq] at hs
    subst hs
    have hb' : pack (.bin (f p.block)) = .ok b := by rw [← h.jcomp, ← h.block]; exact hb
    unfold DocWriter.flush
    rw [if_pos hc, h.pcomp]
    simp only [hb']
    refine ⟨_, rfl, ⟨?_, rfl, rfl, h.num, h.jcomp, h.pcomp, .inl rfl⟩, trivial⟩
    simp only [payload_append, payload_splits, Spec.payload, List.append_nil, List.nil_append, ← h.payload, List.append_assoc]

theorem same_flush {f hd s p s'} (h : SameW f hd s p) (hs : s.flush = .ok s') :
    ∃ p', p.flush = (p', none) ∧ SameW f hd s' p' ∧ (s.held = [] ∨ s.count > 0 → s'.held = []) := by
  unfold JDocWriter.flush at hs
  by_cases hc : s.count > 0
  · rw [if_pos hc] at hs
    obtain ⟨p', h1, h2, h3⟩ := same_flushblock h (by rw [← h.count]; exact hc) hs
    exact ⟨p', h1, h2, fun _ => h3⟩
  · rw [if_neg hc] at hs
    cases hs
    refine ⟨p, ?_, h, ?_⟩
    · unfold DocWriter.flush; rw [if_neg (by rw [← h.count]; exact hc)]
    · rintro (h1 | h1)
      · exact h1
      · exact absurd h1 hc

theorem same_write {f hd s p s'} (h : SameW f hd s p) (d : Bytes) (hs : s.write d = .ok s') :
    ∃ p', p.write (.packed { raw := d, ref := none }) = (p', none) ∧ SameW f hd s' p' ∧ (s'.held = [] ∨ s'.count > 0) := by
  unfold JDocWriter.write at hs
  unfold DocWriter.write
  cases hb : pack (.bin d) with
  | error e => rw [hb] at hs; cases hs
  | ok b =>
    rw [hb] at hs
    simp only [DocArg.data, hb] at hs ⊢
    have hS : SameW f hd { s with block := s.block ++ b, count := s.count + 1 } { p with block := p.block ++ b, count := p.count + 1 } :=
      ⟨h.payload, by simp only [h.block], by simp only [h.count], h.num, h.jcomp, h.pcomp, h.held⟩
    have hn := h.num
    have hcnt := h.count
    by_cases hc : ((s.count + 1 : Nat) : Int) = s.num
    · rw [if_pos hc] at hs
      rw [if_pos (by rw [← hcnt, ← hn]; exact hc)]
      obtain ⟨p', h1, h2, h3⟩ := same_flushblock hS (Nat.succ_pos _) hs
      exact ⟨p', h1, h2, .inl h3⟩
    · rw [if_neg hc] at hs
      rw [if_neg (by rw [← hcnt, ← hn]; exact hc)]
      cases hs
      exact ⟨_, rfl, hS, .inr (Nat.succ_pos _)⟩

theorem same_run {f hd} (cs : List JDocWriter.Call) : ∀ {s p s'}, SameW f hd s p → s.run cs = .ok s' →
    SameW f hd s' (p.run (cs.map Spec.pyCall)) ∧ ((s.held = [] ∨ s.count > 0 ∨ Spec.blobs cs ≠ []) → s'.held = [] ∨ s'.count > 0) := by
  induction cs with
  | nil =>
    intro s p s' h e
    cases e
    refine ⟨h, ?_⟩
    rintro (h1 | h1 | h1)
    · exact .inl h1
    · exact .inr h1
    · exact absurd rfl h1
  | cons c cs ih =>
    intro s p s' h e
    cases c with
    | write d =>
      simp only [JDocWriter.run] at e
      cases h1 : s.write d with
      | error x => rw [h1] at e; cases e
      | ok s1 =>
        rw [h1] at e
        simp only at e
        obtain ⟨p1, e1, g1, g2⟩ := same_write h d h1
        obtain ⟨g3, g4⟩ := ih g1 e
        refine ⟨?_, fun _ => g4 ?_⟩
        · show SameW f hd s' ((p.after _).run _)
          simp only [Spec.pyCall, DocWriter.after, e1]
          exact g3
        · rcases g2 with g | g
          · exact .inl g
          · exact .inr (.inl g)
    | flush =>
      simp only [JDocWriter.run] at e
      cases h1 : s.flush with
      | error x => rw [h1] at e; cases e
      | ok s1 =>
        rw [h1] at e
        simp only at e
        obtain ⟨p1, e1, g1, g2⟩ := same_flush h h1
        obtain ⟨g3, g4⟩ := ih g1 e
        refine ⟨?_, fun hne => g4 ?_⟩
        · show SameW f hd s' ((p.after _).run _)
          simp only [Spec.pyCall, DocWriter.after, e1]
          exact g3
        · rcases hne with hne | hne | hne
          · exact .inl (g2 (.inl hne))
          · exact .inl (g2 (.inr hne))
          · exact .inr (.inr hne)

/-- C80. Given the same documents and flushes, the same block size and compression, and at least one document, the
Java writer writes the same bytes as the Python writer, with or without boundaries, however much of the header the
packer holds back. -/
theorem C80_same_file_partial {f : Bytes → Bytes} {c : CCodec} {bnd bnd' early num cs p s s'} (hc : c.compress = fun x => .ok (f x))
    (hp : DocWriter.new bnd' num c = .ok p) (hs : JDocWriter.new bnd early num c.name f = .ok s)
    (hr : s.run (cs ++ [.flush]) = .ok s') (hne : Spec.blobs cs ≠ []) :
    Spec.payload s'.log = Spec.payload (p.run (cs.map Spec.pyCall)).flush.1.log ∧ (p.run (cs.map Spec.pyCall)).flush.2 = none := by
  have hn : 1 ≤ num := by
    unfold JDocWriter.new at hs
    by_cases h : num < 1
    · rw [if_pos h] at hs; cases hs
    · omega
  obtain ⟨s1, e1, h1, h2⟩ := same_new (bnd := bnd) (early := early) hc hn hp
  rw [hs] at e1; cases e1
  have split : ∀ (cs : List JDocWriter.Call) {s : JDocWriter}, s.run (cs ++ [.flush]) = .ok s' → ∃ t, s.run cs = .ok t ∧ t.flush = .ok s' := by
    intro cs
    induction cs with
    | nil =>
      intro s h
      refine ⟨s, rfl, ?_⟩
      simp only [List.nil_append, JDocWriter.run] at h
      cases hf : s.flush with
      | error e => rw [hf] at h; cases h
      | ok x => rw [hf] at h; simpa [JDocWriter.run] using h
    | cons c cs ih =>
      intro s h
      cases c with
      | write d =>
        simp only [List.cons_append, JDocWriter.run] at h ⊢
        cases hf : s.write d with
        | error e => rw [hf] at h; cases h
        | ok x => rw [hf] at h; exact ih h
      | flush =>
        simp only [List.cons_append, JDocWriter.run] at h ⊢
        cases hf : s.flush with
        | error e => rw [hf] at h; cases h
        | ok x => rw [hf] at h; exact ih h
  obtain ⟨t, g1, g2⟩ := split cs hr
  obtain ⟨g3, g4⟩ := same_run cs h1 g1
  obtain ⟨p', g5, g6, g7⟩ := same_flush g3 g2
  have hh := g7 (g4 (.inr (.inr hne)))
  have := g6.payload
  rw [hh, List.append_nil] at this
  rw [g5]
  exact ⟨this, rfl⟩

/-- C80. The calls succeed if the documents and the compressed blocks are shorter than 4 GiB. -/
theorem C80_writes {f : Bytes → Bytes} {bnd early num name s} (hs : JDocWriter.new bnd early num name f = .ok s) (cs : List JDocWriter.Call)
    (hd : ∀ d ∈ Spec.blobs cs, d.length < 2 ^ 32) (hf : ∀ ds, ds <:+: Spec.blobs cs → (f (Spec.blockData ds)).length < 2 ^ 32) :
    ∃ s', s.run cs = .ok s' := by
  have gen : ∀ (cs : List JDocWriter.Call) (all : List Bytes) {s : JDocWriter} (pre cur : List Bytes), s.compress = f → s.block = Spec.blockData cur →
      all = pre ++ (cur ++ Spec.blobs cs) → (∀ d ∈ all, d.length < 2 ^ 32) →
      (∀ ds, ds <:+: all → (f (Spec.blockData ds)).length < 2 ^ 32) → ∃ s', s.run cs = .ok s' := by
    intro cs all
    have hfl : ∀ {s : JDocWriter} {cur : List Bytes}, s.compress = f → s.block = Spec.blockData cur → cur <:+: all →
        (∀ ds, ds <:+: all → (f (Spec.blockData ds)).length < 2 ^ 32) →
        ∃ s', s.flushblock = .ok s' ∧ s'.compress = f ∧ s'.block = Spec.blockData [] := by
      intro s cur e1 e2 e3 hf
      have hl : (f s.block).length < 2 ^ 32 := by rw [e2]; exact hf cur e3
      unfold JDocWriter.flushblock
      rw [e1, pack_bin hl]
      exact ⟨_, rfl, rfl, rfl⟩
    induction cs with
    | nil => intro s pre cur _ _ _ _ _; exact ⟨s, rfl⟩
    | cons c cs ih =>
      intro s pre cur e1 e2 e3 hd hf
      cases c with
      | write d =>
        have e4 : all = pre ++ (cur ++ [d] ++ Spec.blobs cs) := by rw [e3]; simp [Spec.blobs]
        have hdm : d ∈ all := by rw [e4]; simp
        have hcur : cur ++ [d] <:+: all := ⟨pre, Spec.blobs cs, by rw [e4]; simp⟩
        have hblk : s.block ++ Spec.bpack d = Spec.blockData (cur ++ [d]) := by
          rw [e2, blockData_append, blockData_cons]; simp [Spec.blockData]
        simp only [JDocWriter.run, JDocWriter.write, pack_bin (hd d hdm)]
        by_cases hc : ((s.count + 1 : Nat) : Int) = s.num
        · rw [if_pos hc]
          obtain ⟨s1, g1, g2, g3⟩ := hfl (s := { s with block := s.block ++ Spec.bpack d, count := s.count + 1 }) e1 hblk hcur hf
          rw [g1]
          exact ih (pre ++ (cur ++ [d])) [] g2 g3 (by rw [e4]; simp) hd hf
        · rw [if_neg hc]
          exact ih (s := { s with block := s.block ++ Spec.bpack d, count := s.count + 1 }) pre (cur ++ [d]) e1 hblk e4 hd hf
      | flush =>
        simp only [JDocWriter.run, JDocWriter.flush]
        have e4 : all = pre ++ (cur ++ Spec.blobs cs) := e3
        by_cases hc : s.count > 0
        · rw [if_pos hc]
          obtain ⟨s1, g1, g2, g3⟩ := hfl e1 e2 ⟨pre, Spec.blobs cs, by rw [e4, List.append_assoc]⟩ hf
          rw [g1]
          exact ih (pre ++ cur) [] g2 g3 (by rw [e4]; simp) hd hf
        · rw [if_neg hc]
          exact ih pre cur e1 e2 e4 hd hf
  have h0 : s.compress = f ∧ s.block = Spec.blockData [] := by
    unfold JDocWriter.new at hs
    by_cases h : num < 1
    · rw [if_pos h] at hs; cases hs
    · rw [if_neg h] at hs
      split at hs
      · cases hs
      · cases hs; exact ⟨rfl, rfl⟩
  exact gen cs _ [] [] h0.1 h0.2 rfl hd hf

theorem accepted_py (cs : List JDocWriter.Call) (hl : ∀ d ∈ Spec.blobs cs, d.length < 2 ^ 32) : Spec.accepted (cs.map Spec.pyCall) = Spec.blobs cs := by
  induction cs with
  | nil => rfl
  | cons c cs ih =>
    cases c with
    | flush => simp only [List.map_cons, Spec.pyCall, Spec.accepted, Spec.blobs]; exact ih hl
    | write d =>
      have h1 : d.length < 2 ^ 32 := hl d (by simp [Spec.blobs])
      have h2 := ih (fun x hx => hl x (by simp [Spec.blobs, hx]))
      simp only [List.map_cons, Spec.pyCall, Spec.accepted, Spec.blobs, DocArg.data, if_pos h1, h2]

/-- C80. The Python reader reads what the Java writer wrote: if close() succeeds and there is a document, it yields
exactly the documents, in order, then StopIteration for ever. -/
theorem C80_python_reads_partial {reg : Codecs} {f : Bytes → Bytes} {c : CCodec} {bnd early num cs s s'} (hreg : Spec.Lossless reg c)
    (hc : c.compress = fun x => .ok (f x)) (hnum : num < 2 ^ 31) (hname : c.name ∈ JDocWriter.codecNames)
    (hs : JDocWriter.new bnd early num c.name f = .ok s) (hr : s.run (cs ++ [.flush]) = .ok s') (hne : Spec.blobs cs ≠ [])
    (hd : ∀ d ∈ Spec.blobs cs, d.length < 2 ^ 32 ∧ Spec.ascii "DM_1" <+: d) :
    ∃ r, DocReader.new reg (Spec.payload s'.log) = .ok r ∧ ∀ k,
      (r.nexts ((Spec.blobs cs).length + k)).map (fun x => x.map MDoc.raw) =
        (Spec.blobs cs).map .ok ++ List.replicate k (.error .stopIteration) := by
  have hn : 1 ≤ num := by
    unfold JDocWriter.new at hs
    by_cases h : num < 1
    · rw [if_pos h] at hs; cases hs
    · omega
  have hp : ∃ p, DocWriter.new false num c = .ok p := by
    obtain ⟨a, ha⟩ := C30_packs (.str c.name) (by
      simp only [JDocWriter.codecNames, List.mem_cons, List.not_mem_nil, or_false] at hname
      simp only [Spec.Fits]
      rcases hname with h | h | h <;> rw [h] <;> decide)
    obtain ⟨b, hb⟩ := C30_packs (.int num) (by simp only [Spec.Fits]; omega)
    have hf : pack (.bool false) = .ok [0xc2] := rfl
    unfold DocWriter.new
    rw [ha, hb, hf]
    exact ⟨_, rfl⟩
  obtain ⟨p, hp⟩ := hp
  obtain ⟨g1, g2⟩ := C80_same_file_partial hc hp hs hr hne
  have hreal : ∀ x ∈ cs.map Spec.pyCall, Spec.Real x := by
    intro x hx
    obtain ⟨y, hy, rfl⟩ := List.mem_map.mp hx
    cases y with
    | flush => trivial
    | write d =>
      refine (hd d ?_).2
      clear hr hne hd g1 g2 hx
      induction cs with
      | nil => cases hy
      | cons z cs ih =>
        rcases List.mem_cons.mp hy with hy | hy
        · rw [← hy]; simp [Spec.blobs]
        · have := ih hy
          cases z <;> simp [Spec.blobs, this]
  have := C42_round_trip (cs := cs.map Spec.pyCall) (s1 := (p.run (cs.map Spec.pyCall)).flush.1) hreg hp (by rw [← g2]) hreal
  rw [accepted_py cs (fun d h => (hd d h).1)] at this
  rw [g1]
  exact this

/-- C80 in full: the file of a closed Java writer can be opened. -/
def C80_full : Prop := ∀ (early : Nat) (reg : Codecs) (c : CCodec) (f : Bytes → Bytes) (num : Int) (cs : List JDocWriter.Call) (s s' : JDocWriter),
  Spec.Lossless reg c → (c.compress = fun x => .ok (f x)) → num < 2 ^ 31 → c.name ∈ JDocWriter.codecNames →
  JDocWriter.new false early num c.name f = .ok s → s.run (cs ++ [.flush]) = .ok s' →
  ∃ r, DocReader.new reg (Spec.payload s'.log) = .ok r

namespace Ex

/-- a codec that stores what it is given -/
def plain : CCodec := ⟨"none".toList, .ok, .ok⟩

/-- the file of a Java writer that is closed at once -/
def closedAtOnce (early : Nat) (num : Int) : Except PyErr Bytes :=
  match JDocWriter.new false early num "none".toList id with
  | .error e => .error e
  | .ok s => (s.run [.flush]).map (fun s => Spec.payload s.log)

/-- whether the Python reader opens a file -/
def opens (x : Except PyErr Bytes) : Bool :=
  match x with
  | .error _ => false
  | .ok raw => match DocReader.new [("none".toList, plain)] raw with
    | .error _ => false
    | .ok _ => true

/-- whether the Java reader opens a file -/
def jopens (x : Except PyErr Bytes) : Bool :=
  match x with
  | .error _ => false
  | .ok raw => match JDocReader.new .ok none raw with
    | .error _ => false
    | .ok _ => true

end Ex

/-- C80 fails for a file without documents, unless the packer has handed over the whole header of 12 bytes by itself:
neither reader opens it. -/
theorem C80_empty_lost : ∀ early < 12, Ex.opens (Ex.closedAtOnce early 128) = false ∧ Ex.jopens (Ex.closedAtOnce early 128) = false := by
  decide

/-- the whole header would do -/
example : Ex.opens (Ex.closedAtOnce 12 128) = true ∧ Ex.jopens (Ex.closedAtOnce 12 128) = true := by decide

theorem C80_full_false : ¬ C80_full := by
  intro h
  have hn : ∃ s, JDocWriter.new false 0 128 "none".toList id = .ok s ∧ s.run [.flush] = .ok s ∧ Spec.payload s.log = [] := by
    refine ⟨_, rfl, rfl, by decide⟩
  obtain ⟨s, h1, h2, h3⟩ := hn
  obtain ⟨r, hr⟩ := h 0 [("none".toList, Ex.plain)] Ex.plain id 128 [] s s ⟨Ex.plain, rfl, fun x z e => by cases e; rfl⟩ rfl
    (by decide) (by decide) h1 h2
  rw [h3] at hr
  have : DocReader.new [("none".toList, Ex.plain)] [] = .error .io := by rfl
  rw [this] at hr
  cases hr

/-! ### where the splits are -/

theorem splitPoints_append (a b : List BWriter.Op) : Spec.splitPoints (a ++ b) = Spec.splitPoints a ++ (Spec.splitPoints b).map (Spec.payload a ++ ·) := by
  induction a with
  | nil => simp [Spec.splitPoints, Spec.payload]
  | cons x a ih =>
    cases x with
    | split => simp [Spec.splitPoints, Spec.payload, ih]
    | write d => simp [Spec.splitPoints, Spec.payload, ih, Function.comp_def]

/-- a Java boundary writer that has written the blocks `dss` -/
structure JSplit (f : Bytes → Bytes) (hd : Bytes) (s : JDocWriter) (dss : List (List Bytes)) (cur : List Bytes) : Prop where
  bnd : s.boundary = true
  comp : s.compress = f
  payload : Spec.payload s.log ++ s.held = hd ++ Spec.blocksBytes f dss
  held : s.held = [] ∨ dss = []
  block : s.block = Spec.blockData cur
  count : s.count = cur.length
  points : ∀ k, 0 < k → k < dss.length → hd ++ Spec.blocksBytes f (dss.take k) ∈ Spec.splitPoints s.log

theorem jsplit_flushblock {f hd s dss cur s'} (h : JSplit f hd s dss cur) (hs : s.flushblock = .ok s') : JSplit f hd s' (dss ++ [cur]) [] := by
  unfold JDocWriter.flushblock at hs
  cases hb : pack (.bin (s.compress s.block)) with
  | error e => rw [hb] at hs; cases hs
  | ok b =>
    rw [hb] at hs
    simp only [Except.ok.injEq] at hs
    subst hs
    have hbe : b = Spec.blockBytes f cur := by rw [Spec.blockBytes, ← h.comp, ← h.block]; exact pack_bin_eq hb
    refine ⟨h.bnd, h.comp, ?_, .inl rfl, rfl, rfl, ?_⟩
    · simp only [payload_append, payload_splits, Spec.payload, List.append_nil, List.nil_append, blocksBytes_append, blocksBytes_cons]
      rw [← List.append_assoc, ← List.append_assoc, h.payload, ← List.append_assoc, hbe]
      simp [Spec.blocksBytes]
    · intro k hk hl
      simp only [List.length_append, List.length_singleton] at hl
      simp only [h.bnd, DocWriter.splits, if_true, splitPoints_append, List.mem_append]
      by_cases he : k < dss.length
      · rw [List.take_append_of_le_length (by omega)]
        exact .inl (.inl (h.points k hk he))
      · refine .inl (.inr ?_)
        have : k = dss.length := by omega
        subst this
        rw [List.take_left]
        simp only [Spec.splitPoints, List.map_cons, List.map_nil, List.append_nil, List.mem_singleton]
        rcases h.held with h1 | h1
        · have := h.payload
          rw [h1, List.append_nil] at this
          rw [this]
        · rw [h1] at hk; simp at hk

theorem jsplit_run {f hd} (cs : List JDocWriter.Call) : ∀ {s dss cur s'}, JSplit f hd s dss cur → s.run cs = .ok s' →
    ∃ dss' cur', JSplit f hd s' dss' cur' ∧ dss'.flatten ++ cur' = dss.flatten ++ cur ++ Spec.blobs cs := by
  induction cs with
  | nil => intro s dss cur s' h e; cases e; exact ⟨dss, cur, h, by simp [Spec.blobs]⟩
  | cons c cs ih =>
    intro s dss cur s' h e
    cases c with
    | write d =>
      simp only [JDocWriter.run] at e
      cases h1 : s.write d with
      | error x => rw [h1] at e; cases e
      | ok s1 =>
        rw [h1] at e
        simp only at e
        unfold JDocWriter.write at h1
        cases hb : pack (.bin d) with
        | error x => rw [hb] at h1; cases h1
        | ok b =>
          rw [hb] at h1
          simp only at h1
          have hS : JSplit f hd { s with block := s.block ++ b, count := s.count + 1 } dss (cur ++ [d]) := by
            refine ⟨h.bnd, h.comp, h.payload, h.held, ?_, ?_, h.points⟩
            · simp only [h.block, blockData_append, blockData_cons, pack_bin_eq hb]; simp [Spec.blockData]
            · simp [h.count]
          by_cases hc : ((s.count + 1 : Nat) : Int) = s.num
          · rw [if_pos hc] at h1
            obtain ⟨d2, c2, g1, g2⟩ := ih (jsplit_flushblock hS h1) e
            exact ⟨d2, c2, g1, by rw [g2]; simp [Spec.blobs]⟩
          · rw [if_neg hc] at h1
            cases h1
            obtain ⟨d2, c2, g1, g2⟩ := ih hS e
            exact ⟨d2, c2, g1, by rw [g2]; simp [Spec.blobs]⟩
    | flush =>
      simp only [JDocWriter.run] at e
      cases h1 : s.flush with
      | error x => rw [h1] at e; cases e
      | ok s1 =>
        rw [h1] at e
        simp only at e
        unfold JDocWriter.flush at h1
        by_cases hc : s.count > 0
        · rw [if_pos hc] at h1
          obtain ⟨d2, c2, g1, g2⟩ := ih (jsplit_flushblock h h1) e
          exact ⟨d2, c2, g1, by rw [g2]; simp [Spec.blobs]⟩
        · rw [if_neg hc] at h1
          cases h1
          obtain ⟨d2, c2, g1, g2⟩ := ih h e
          exact ⟨d2, c2, g1, by rw [g2]; simp [Spec.blobs]⟩

/-- C80. With boundaries, every block of the Java writer but the first begins where a split was made; so the markers in
it and after it lead to it. `early` as in `JDocWriter.new`. -/
theorem C80_splits_partial {f early num name cs s s'} (hs : JDocWriter.new true early num name f = .ok s) (hr : s.run (cs ++ [.flush]) = .ok s')
    (hne : Spec.blobs cs ≠ []) :
    ∃ hd dss, Nonempty (Header name num hd) ∧ Spec.payload s'.log = hd ++ Spec.blocksBytes f dss ∧ dss.flatten = Spec.blobs cs ∧
      ∀ k, 0 < k → k < dss.length → hd ++ Spec.blocksBytes f (dss.take k) ∈ Spec.splitPoints s'.log := by
  unfold JDocWriter.new at hs
  by_cases hn : num < 1
  · rw [if_pos hn] at hs; cases hs
  rw [if_neg hn] at hs
  cases ha : pack (.str name) with
  | error e => rw [ha] at hs; cases hs
  | ok a =>
    cases hb : pack (.int num) with
    | error e => rw [ha, hb] at hs; cases hs
    | ok b =>
      rw [ha, hb] at hs
      simp only [cat, Except.ok.injEq] at hs
      subst hs
      have hH : Nonempty (Header name num (fileMagic ++ (a ++ b) ++ [0xc2])) :=
        ⟨⟨a, b, [0xc2], ha, hb, rfl, by simp only [List.append_assoc]⟩⟩
      generalize fileMagic ++ (a ++ b) ++ [0xc2] = hd at hr hH
      have h0 : JSplit f hd ⟨true, [.write (hd.take early)], hd.drop early, [], 0, f, num⟩ [] [] :=
        ⟨rfl, rfl, by simp [Spec.payload, Spec.blocksBytes], .inr rfl, rfl, rfl, fun k _ h => by cases h⟩
      obtain ⟨dss, cur, g1, g2⟩ := jsplit_run _ h0 hr
      have hblob : Spec.blobs (cs ++ [.flush]) = Spec.blobs cs := by
        clear hr hne g2
        induction cs with
        | nil => rfl
        | cons c cs ih => cases c <;> simp [Spec.blobs, ih]
      rw [hblob] at g2
      have hcur : cur = [] := by
        -- the last call leaves nothing in the block
        have hl : s'.count = 0 := by
          have split : ∀ (cs : List JDocWriter.Call) {s : JDocWriter}, s.run (cs ++ [.flush]) = .ok s' → s'.count = 0 := by
            intro cs
            induction cs with
            | nil =>
              intro s h
              simp only [List.nil_append, JDocWriter.run, JDocWriter.flush, JDocWriter.flushblock] at h
              by_cases hc : s.count > 0
              · rw [if_pos hc] at h
                cases hb : pack (.bin (s.compress s.block)) with
                | error e => rw [hb] at h; cases h
                | ok b => rw [hb] at h; cases h; rfl
              · rw [if_neg hc] at h; cases h; omega
            | cons c cs ih =>
              intro s h
              cases c with
              | write d =>
                simp only [List.cons_append, JDocWriter.run] at h
                cases hf : s.write d with
                | error e => rw [hf] at h; cases h
                | ok x => rw [hf] at h; exact ih h
              | flush =>
                simp only [List.cons_append, JDocWriter.run] at h
                cases hf : s.flush with
                | error e => rw [hf] at h; cases h
                | ok x => rw [hf] at h; exact ih h
          exact split cs hr
        rw [g1.count] at hl
        exact List.eq_nil_of_length_eq_zero hl
      subst hcur
      simp only [List.append_nil, List.flatten_nil, List.nil_append] at g2
      have hheld : s'.held = [] := by
        rcases g1.held with h | h
        · exact h
        · rw [h] at g2; exact absurd g2.symm hne
      have hp := g1.payload
      rw [hheld, List.append_nil] at hp
      exact ⟨hd, dss, hH, hp, g2, g1.points⟩

namespace Ex

/-- what had been written at the splits, and what has been written in the end -/
def splitsOf (early : Nat) (calls : List JDocWriter.Call) : Except PyErr (List Bytes × Bytes) :=
  match JDocWriter.new true early 2 "none".toList id with
  | .error e => .error e
  | .ok s => (s.run calls).map (fun s => (Spec.splitPoints s.log, Spec.payload s.log))

/-- the same for the Python writer -/
def pySplitsOf (calls : List JDocWriter.Call) : Except PyErr (List Bytes × Bytes) :=
  match DocWriter.new true 2 plain with
  | .error e => .error e
  | .ok s => let s := s.run (calls.map Spec.pyCall); .ok (Spec.splitPoints s.log, Spec.payload s.log)

def threeDocs : List JDocWriter.Call := [.write [1], .write [2], .write [3], .flush]

def hdr : Bytes := [0x44, 0x6d, 0x66, 0x31, 0xa4, 0x6e, 0x6f, 0x6e, 0x65, 2, 0xc2]

end Ex

/-- C80 fails for the first block: no split is made between the header and it, wherever the packer hands over the
header, so the markers inside the first block lead into the header. The Python writer splits there. -/
theorem C80_first_block_fails :
    (∀ early < 11, ∃ l p, Ex.splitsOf early Ex.threeDocs = .ok (l, p) ∧ Ex.hdr ∉ l) ∧
    ∃ l p, Ex.pySplitsOf Ex.threeDocs = .ok (l, p) ∧ Ex.hdr ∈ l := by
  have h1 : ∀ early < 11, (match Ex.splitsOf early Ex.threeDocs with | .error _ => false | .ok x => decide (Ex.hdr ∉ x.1)) = true := by decide
  have h2 : (match Ex.pySplitsOf Ex.threeDocs with | .error _ => false | .ok x => decide (Ex.hdr ∈ x.1)) = true := by decide
  constructor
  · intro e he
    have := h1 e he
    split at this
    · cases this
    · rename_i x hx
      exact ⟨x.1, x.2, hx, by simpa using this⟩
  · split at h2
    · cases h2
    · rename_i x hx
      exact ⟨x.1, x.2, hx, by simpa using h2⟩

/-- non-vacuity of the theorems on writing: two blocks -/
example : Ex.splitsOf 4 Ex.threeDocs = .ok ([[0x44, 0x6d, 0x66, 0x31], Ex.hdr ++ [0xc4, 6, 0xc4, 1, 1, 0xc4, 1, 2]],
    Ex.hdr ++ [0xc4, 6, 0xc4, 1, 1, 0xc4, 1, 2] ++ [0xc4, 3, 0xc4, 1, 3]) := by decide

end Verif
