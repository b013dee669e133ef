import Verif.Proof.BlockFile
import Verif.Props.BoundaryWriter
/-
C42, C43, C44, C46 and the rest of C34: block files.
-/
set_option linter.unusedSimpArgs false
namespace Verif

namespace Spec

/-- what the codec that a file names undoes what the codec that wrote it did -/
def Lossless (reg : Codecs) (c : CCodec) : Prop :=
  ∃ c', getCodec reg c.name = .ok c' ∧ ∀ x z, c.compress x = .ok z → c'.decompress z = .ok x

/-- the documents that a sequence of calls adds to the collection: those of the `write` calls whose argument
can be encoded and is short enough for a MessagePack bin -/
def accepted : List DocWriter.Call → List Bytes
  | [] => []
  | .write a :: cs =>
    match a.data with
    | .ok d => if d.length < 2 ^ 32 then d :: accepted cs else accepted cs
    | .error _ => accepted cs
  | .flush :: cs => accepted cs

/-- MsgpackDocument arguments hold what the constructor lets through -/
def Real : DocWriter.Call → Prop
  | .write (.packed m) => ascii "DM_1" <+: m.raw
  | _ => True

end Spec

/-! ### writing -/

theorem pack_bin_short {d b : Bytes} (h : pack (.bin d) = .ok b) : d.length < 2 ^ 32 := by
  rcases Nat.lt_or_ge d.length (2 ^ 32) with h1 | h1
  · exact h1
  · exfalso
    have : packBinHead d.length = .error .value := by
      unfold packBinHead
      rw [if_neg (by omega), if_neg (by omega), if_neg (by omega)]
    simp only [pack, packAt, this] at h
    cases h

theorem pack_bin_eq {d b : Bytes} (h : pack (.bin d) = .ok b) : b = Spec.bpack d := by
  unfold Spec.bpack; rw [h]

/-- the compression as a function -/
def compOf (c : CCodec) (x : Bytes) : Bytes :=
  match c.compress x with
  | .ok z => z
  | .error _ => []

theorem payload_append (a b : List BWriter.Op) : Spec.payload (a ++ b) = Spec.payload a ++ Spec.payload b := by
  induction a with
  | nil => rfl
  | cons x a ih => cases x <;> simp [Spec.payload, ih]

theorem payload_splits (b : Bool) : Spec.payload (DocWriter.splits b) = [] := by cases b <;> rfl

/-- what has been written -/
structure FInv (hd : Bytes) (s : DocWriter) (blocks : List (List Bytes)) (cur : List Bytes) : Prop where
  log : Spec.payload s.log = hd ++ Spec.blocksBytes (compOf s.codec) blocks
  block : s.block = Spec.blockData cur
  count : s.count = cur.length
  comp : ∀ ds ∈ blocks, s.codec.compress (Spec.blockData ds) = .ok (compOf s.codec (Spec.blockData ds))
  zfit : ∀ ds ∈ blocks, (compOf s.codec (Spec.blockData ds)).length < 2 ^ 32
  ne : ∀ ds ∈ blocks, ds ≠ []

theorem flush_inv {hd s blocks cur} (h : FInv hd s blocks cur) :
    (s.flush = (s, none) ∧ cur = []) ∨ (∃ e, s.flush = (s, some e)) ∨
    (cur ≠ [] ∧ s.flush.2 = none ∧ FInv hd s.flush.1 (blocks ++ [cur]) [] ∧ s.flush.1.num = s.num ∧ s.flush.1.codec = s.codec) := by
  unfold DocWriter.flush
  by_cases hc : s.count > 0
  · rw [if_pos hc]
    have hne : cur ≠ [] := by rintro rfl; rw [h.count] at hc; simp at hc
    cases hz : s.codec.compress s.block with
    | error e => exact .inr (.inl ⟨e, rfl⟩)
    | ok z =>
      simp only
      cases hb : pack (.bin z) with
      | error e => exact .inr (.inl ⟨e, rfl⟩)
      | ok b =>
        refine .inr (.inr ⟨hne, rfl, ?_, rfl, rfl⟩)
        have hz' : compOf s.codec (Spec.blockData cur) = z := by
          unfold compOf; rw [← h.block, hz]
        refine ⟨?_, rfl, rfl, ?_, ?_, ?_⟩
        · simp only [payload_append, payload_splits, h.log, blocksBytes_append, blocksBytes_cons]
          simp only [Spec.payload, List.append_nil, List.append_assoc, Spec.blockBytes, Spec.blocksBytes, List.map_nil,
            List.flatten_nil, hz', pack_bin_eq hb]
        · intro ds hds
          rcases List.mem_append.mp hds with hm | hm
          · exact h.comp ds hm
          · simp only [List.mem_singleton] at hm
            subst hm
            show s.codec.compress _ = _
            rw [hz', ← h.block]; exact hz
        · intro ds hds
          rcases List.mem_append.mp hds with hm | hm
          · exact h.zfit ds hm
          · simp only [List.mem_singleton] at hm
            subst hm
            show (compOf s.codec _).length < _
            rw [hz']; exact pack_bin_short hb
        · intro ds hds
          rcases List.mem_append.mp hds with hm | hm
          · exact h.ne ds hm
          · simp only [List.mem_singleton] at hm
            rw [hm]; exact hne
  · rw [if_neg hc]
    refine .inl ⟨rfl, ?_⟩
    rw [h.count] at hc
    exact List.eq_nil_of_length_eq_zero (by omega)

/-- a write call: refused, or the document joins the current block, which may then be written -/
theorem write_inv {hd s blocks cur} (h : FInv hd s blocks cur) (a : DocArg) :
    (Spec.accepted [.write a] = [] ∧ ∃ e, s.write a = (s, some e)) ∨
    (∃ d s', Spec.accepted [.write a] = [d] ∧ FInv hd s' blocks (cur ++ [d]) ∧ s'.num = s.num ∧ s'.codec = s.codec ∧
      s'.count = s.count + 1 ∧ s.write a = if ((s.count + 1 : Nat) : Int) = s.num then s'.flush else (s', none)) := by
  unfold DocWriter.write
  cases hd' : a.data with
  | error e => exact .inl ⟨by simp only [Spec.accepted, hd'], e, rfl⟩
  | ok d =>
    simp only
    cases hb : pack (.bin d) with
    | error e =>
      refine .inl ⟨?_, e, rfl⟩
      simp only [Spec.accepted, hd']
      split
      · rename_i hl
        rw [pack_bin hl] at hb; cases hb
      · rfl
    | ok b =>
      refine .inr ⟨d, { s with block := s.block ++ b, count := s.count + 1 }, ?_, ?_, rfl, rfl, rfl, rfl⟩
      · simp only [Spec.accepted, hd', if_pos (pack_bin_short hb)]
      · refine ⟨h.log, ?_, ?_, h.comp, h.zfit, h.ne⟩
        · simp only [h.block, pack_bin_eq hb, blockData_append, blockData_cons]
          simp [Spec.blockData]
        · simp only [h.count, List.length_append, List.length_singleton]

theorem accepted_cons (c : DocWriter.Call) (cs : List DocWriter.Call) : Spec.accepted (c :: cs) = Spec.accepted [c] ++ Spec.accepted cs := by
  cases c with
  | flush => simp [Spec.accepted]
  | write a =>
    simp only [Spec.accepted]
    split
    · split <;> simp
    · rfl

theorem run_inv (cs : List DocWriter.Call) : ∀ {hd s blocks cur}, FInv hd s blocks cur →
    ∃ blocks' cur', FInv hd (s.run cs) blocks' cur' ∧ blocks'.flatten ++ cur' = blocks.flatten ++ cur ++ Spec.accepted cs ∧
      (s.run cs).codec = s.codec := by
  induction cs with
  | nil => intro hd s blocks cur h; exact ⟨blocks, cur, h, by simp [Spec.accepted], rfl⟩
  | cons c cs ih =>
    intro hd s blocks cur h
    have step : ∃ blocks' cur', FInv hd (s.after c) blocks' cur' ∧ blocks'.flatten ++ cur' = blocks.flatten ++ cur ++ Spec.accepted [c] ∧
        (s.after c).codec = s.codec := by
      have hfl : ∀ {s : DocWriter} {blocks cur}, FInv hd s blocks cur → ∃ blocks' cur', FInv hd s.flush.1 blocks' cur' ∧
          blocks'.flatten ++ cur' = blocks.flatten ++ cur ∧ s.flush.1.codec = s.codec := by
        intro s blocks cur h
        rcases flush_inv h with ⟨e, -⟩ | ⟨e, he⟩ | ⟨-, -, h', -, hc⟩
        · exact ⟨blocks, cur, by rw [e]; exact h, rfl, by rw [e]⟩
        · exact ⟨blocks, cur, by rw [he]; exact h, rfl, by rw [he]⟩
        · exact ⟨blocks ++ [cur], [], h', by simp, hc⟩
      cases c with
      | flush =>
        obtain ⟨b', c', h1, h2, h3⟩ := hfl h
        exact ⟨b', c', h1, by rw [h2]; simp [Spec.accepted], h3⟩
      | write a =>
        rcases write_inv h a with ⟨ha, e, he⟩ | ⟨d, s', ha, h', -, hc, -, he⟩
        · exact ⟨blocks, cur, by simp only [DocWriter.after, he]; exact h, by rw [ha]; simp, by simp only [DocWriter.after, he]⟩
        · simp only [DocWriter.after, he, ha]
          split
          · obtain ⟨b', c', h1, h2, h3⟩ := hfl h'
            exact ⟨b', c', h1, by rw [h2]; simp, by rw [h3, hc]⟩
          · exact ⟨blocks, cur ++ [d], h', by simp, hc⟩
    obtain ⟨b1, c1, h1, h2, h3⟩ := step
    obtain ⟨b2, c2, g1, g2, g3⟩ := ih h1
    refine ⟨b2, c2, g1, ?_, by rw [← h3]; exact g3⟩
    rw [g2, h2, accepted_cons c cs, List.append_assoc]

/-- the header of a file -/
structure Header (name : Str) (num : Int) (hd : Bytes) where
  a : Bytes
  b : Bytes
  c : Bytes
  pa : pack (.str name) = .ok a
  pb : pack (.int num) = .ok b
  pc : pack (.bool false) = .ok c
  eq : hd = fileMagic ++ a ++ b ++ c

theorem new_inv {bnd num c s0} (h : DocWriter.new bnd num c = .ok s0) :
    ∃ hd, Nonempty (Header c.name num hd) ∧ FInv hd s0 [] [] ∧ s0.codec = c ∧ s0.num = num := by
  unfold DocWriter.new at h
  cases ha : pack (.str c.name) with
  | error e => simp only [ha] at h; cases h
  | ok a =>
    cases hb : pack (.int num) with
    | error e => simp only [ha, hb] at h; cases h
    | ok b =>
      cases hc : pack (.bool false) with
      | error e => simp only [ha, hb, hc] at h; cases h
      | ok x =>
        simp only [ha, hb, hc, Except.ok.injEq] at h
        subst h
        refine ⟨fileMagic ++ a ++ b ++ x, ⟨⟨a, b, x, ha, hb, hc, rfl⟩⟩, ?_, rfl, rfl⟩
        refine ⟨?_, rfl, rfl, by simp, by simp, by simp⟩
        simp only [payload_append, payload_splits]
        simp [Spec.payload, Spec.blocksBytes]

theorem cat_prefix {a : Bytes} {b : Except PyErr Bytes} {bs : Bytes} (h : cat (.ok a) b = .ok bs) : ∃ y, bs = a ++ y := by
  cases b with
  | error e => cases h
  | ok y => cases h; exact ⟨y, rfl⟩

theorem encode_magic {x : Wire} {bs : Bytes} (h : encodeBytes x = .ok bs) : bs.take 4 = magic := by
  obtain ⟨y, rfl⟩ := cat_prefix h
  rfl

theorem accepted_magic {cs : List DocWriter.Call} (h : ∀ c ∈ cs, Spec.Real c) : ∀ d ∈ Spec.accepted cs, d.take 4 = magic ∧ d.length < 2 ^ 32 := by
  induction cs with
  | nil => intro d hd; cases hd
  | cons c cs ih =>
    intro d hd
    rw [accepted_cons, List.mem_append] at hd
    rcases hd with hd | hd
    · cases c with
      | flush => cases hd
      | write a =>
        simp only [Spec.accepted] at hd
        split at hd
        · rename_i d' hdat
          split at hd
          · rename_i hl
            simp only [List.mem_singleton] at hd
            subst hd
            refine ⟨?_, hl⟩
            cases a with
            | other => cases hdat
            | packed m =>
              have := h _ (List.mem_cons_self ..)
              simp only [Spec.Real] at this
              obtain ⟨t, ht⟩ := this
              cases hdat
              rw [← ht]
              have hm : Spec.ascii "DM_1" = magic := by decide
              rw [hm]
              rfl
            | doc w x t =>
              simp only [DocArg.data, World.encodeMsgpack] at hdat
              cases hw : w.toWire x t with
              | mk w1 r =>
                cases r with
                | error e => rw [hw] at hdat; cases hdat
                | ok wi => rw [hw] at hdat; exact encode_magic hdat
          · cases hd
        · cases hd
    · exact ih (fun c hc => h c (List.mem_cons_of_mem _ hc)) d hd

/-! ### opening -/

theorem must_pack {u : Unpacker} {o : Obj} {b rest : Bytes} (h : pack o = .ok b) (hk : o.KeysOk)
    (hu : u.src.drop u.used = b ++ rest) :
    DocReader.must u = .ok (o, ⟨u.src, u.used + b.length⟩) ∧ u.src.drop (u.used + b.length) = rest := by
  constructor
  · unfold DocReader.must
    rw [hu, C30_unpack_pack h hk, List.length_append]
    simp
  · rw [← List.drop_drop, hu, List.drop_left]

theorem open_ok {reg : Codecs} {c' : CCodec} {name num hd} (h : Header name num hd) (hc : getCodec reg name = .ok c') (f : BF)
    (hf : f.hd = hd) (hdec : f.dec = c'.decompress) : ∃ r, DocReader.new reg f.raw = .ok r ∧ At f r f.refs ∧ r.num = .int num ∧ Pos f r [] f.blocks := by
  obtain ⟨a, b, c, pa, pb, pc, he⟩ := h
  have hraw : f.raw = fileMagic ++ (a ++ (b ++ (c ++ (Spec.blocksBytes f.comp f.blocks ++ f.tail)))) := by
    unfold BF.raw; rw [hf, he]; simp only [List.append_assoc]
  have hlen : fileMagic.length = 4 := rfl
  have h4 : f.raw.take 4 = fileMagic := by rw [hraw, ← hlen, List.take_left]
  have hd4 : f.raw.drop 4 = a ++ (b ++ (c ++ (Spec.blocksBytes f.comp f.blocks ++ f.tail))) := by
    rw [hraw, ← hlen, List.drop_left]
  obtain ⟨m1, d1⟩ := must_pack (u := ⟨f.raw.drop 4, 0⟩) pa (by trivial) (by rw [List.drop_zero, hd4])
  simp only at m1 d1
  obtain ⟨m2, d2⟩ := must_pack (u := ⟨f.raw.drop 4, 0 + a.length⟩) pb (by trivial) d1
  simp only at m2 d2
  obtain ⟨m3, d3⟩ := must_pack (u := ⟨f.raw.drop 4, 0 + a.length + b.length⟩) pc (by trivial) d2
  simp only at m3 d3
  have hpos : Pos f ⟨f.raw, 4, ⟨f.raw.drop 4, 0 + a.length + b.length + c.length⟩, c'.decompress, .int num, none, 0⟩ [] f.blocks := by
    refine ⟨rfl, hdec.symm, rfl, rfl, ?_⟩
    simp only [Spec.blocksBytes, List.map_nil, List.flatten_nil, List.length_nil, hf, he, List.length_append, hlen]
    omega
  refine ⟨⟨f.raw, 4, ⟨f.raw.drop 4, 0 + a.length + b.length + c.length⟩, c'.decompress, .int num, none, 0⟩, ?_, ?_, rfl, hpos⟩
  · unfold DocReader.new
    rw [if_neg (by rw [h4]; simp), m1]
    simp only [getCodecObj, hc, m2, m3, truthy]
  · refine ⟨[], f.blocks, hpos, ?_⟩
    · simp only [Spec.blocksBytes, List.map_nil, List.flatten_nil, List.length_nil, Nat.add_zero]
      rfl

theorem closed_of_inv {reg : Codecs} {c c' : CCodec} {hd : Bytes} {s1 blocks cs} (hinv : ∀ x z, c.compress x = .ok z → c'.decompress z = .ok x)
    (hi3 : FInv hd s1 blocks []) (hfl3 : blocks.flatten = Spec.accepted cs) (hcod3 : s1.codec = c) (hreal : ∀ x ∈ cs, Spec.Real x) :
    Spec.payload s1.log = hd ++ Spec.blocksBytes (compOf c) blocks ∧
      (∀ tail, unpack tail = .error .outOfData → BF.Ok ⟨hd, compOf c, c'.decompress, blocks, tail⟩) := by
  have hmem : ∀ ds ∈ blocks, ∀ d ∈ ds, d.take 4 = magic ∧ d.length < 2 ^ 32 := fun ds hds d hd =>
    accepted_magic hreal d (by rw [← hfl3]; exact List.mem_flatten.mpr ⟨ds, hds, hd⟩)
  have hlog := hi3.log
  have hcomp := hi3.comp
  have hz := hi3.zfit
  rw [hcod3] at hlog hcomp hz
  refine ⟨hlog, fun tail ht => ⟨ht, hz, ?_, ?_, ?_⟩⟩
  · exact fun ds hds => hinv _ _ (hcomp ds hds)
  · exact fun ds hds d hd => (hmem ds hds d hd).2
  · exact fun ds hds d hd => (hmem ds hds d hd).1

/-- what the file of a closed writer contains -/
theorem closed_file {reg : Codecs} {c : CCodec} {bnd num cs s0 s1} (hreg : Spec.Lossless reg c) (h0 : DocWriter.new bnd num c = .ok s0)
    (h1 : (s0.run cs).flush = (s1, none)) (hreal : ∀ x ∈ cs, Spec.Real x) :
    ∃ (hd : Bytes) (c' : CCodec) (blocks : List (List Bytes)), Nonempty (Header c.name num hd) ∧ getCodec reg c.name = .ok c' ∧
      Spec.payload s1.log = hd ++ Spec.blocksBytes (compOf c) blocks ∧ blocks.flatten = Spec.accepted cs ∧
      (∀ ds ∈ blocks, ds ≠ []) ∧ (∀ tail, unpack tail = .error .outOfData → BF.Ok ⟨hd, compOf c, c'.decompress, blocks, tail⟩) ∧
      Spec.payload s0.log = hd := by
  obtain ⟨c', hc', hinv⟩ := hreg
  obtain ⟨hd, hh, hi, hcod, -⟩ := new_inv h0
  obtain ⟨blocks, cur, hi2, hfl, hcod2⟩ := run_inv cs hi
  simp only [List.flatten_nil, List.nil_append] at hfl
  have hfin : ∃ blocks', FInv hd s1 blocks' [] ∧ blocks'.flatten = Spec.accepted cs ∧ s1.codec = c := by
    rcases flush_inv hi2 with ⟨e, hn⟩ | ⟨e, he⟩ | ⟨-, -, h', -, hc⟩
    · rw [h1] at e; cases e
      subst hn
      exact ⟨blocks, hi2, by rw [← hfl]; simp, by rw [hcod2, hcod]⟩
    · rw [h1] at he; cases he
    · rw [h1] at h' hc
      exact ⟨blocks ++ [cur], h', by rw [← hfl]; simp, by rw [← hcod, ← hcod2]; exact hc⟩
  obtain ⟨blocks', hi3, hfl3, hcod3⟩ := hfin
  obtain ⟨g1, g2⟩ := closed_of_inv (reg := reg) hinv hi3 hfl3 hcod3 hreal
  refine ⟨hd, c', blocks', hh, hc', g1, hfl3, hi3.ne, g2, ?_⟩
  have := hi.log
  rw [this]; simp [Spec.blocksBytes]

/-! ### C42 -/

/-- `n` calls of next() -/
def DocReader.nexts : Nat → DocReader → List (Except PyErr MDoc)
  | 0, _ => []
  | n + 1, r => r.next.2 :: DocReader.nexts n r.next.1

theorem nexts_ok {f : BF} (hf : f.Ok) (k : Nat) : ∀ (up : List ((Nat × Nat) × Bytes)) {r : DocReader}, At f r up →
    r.nexts (up.length + k) = up.map (fun e => .ok (docOf e)) ++ List.replicate k (.error .stopIteration) := by
  intro up
  induction up with
  | nil =>
    simp only [List.length_nil, Nat.zero_add, List.map_nil, List.nil_append]
    induction k with
    | zero => intro r _; rfl
    | succ k ih =>
      intro r h
      obtain ⟨h1, h2⟩ := next_ok hf h
      simp only [DocReader.nexts, h1, ih h2, List.replicate_succ]
  | cons e up ih =>
    intro r h
    obtain ⟨h1, h2⟩ := next_ok hf h
    rw [List.length_cons, show up.length + 1 + k = (up.length + k) + 1 by omega]
    simp only [DocReader.nexts, h1, ih h2, List.map_cons, List.cons_append]

theorem docRefs_snd (p : Nat) : ∀ (ds : List Bytes) (o : Nat), (Spec.docRefs p o ds).map (·.2) = ds := by
  intro ds
  induction ds with
  | nil => intro o; rfl
  | cons d ds ih => intro o; simp [Spec.docRefs, ih]

theorem refs_snd (c : Bytes → Bytes) : ∀ (bs : List (List Bytes)) (p : Nat), (Spec.refs c p bs).map (·.2) = bs.flatten := by
  intro bs
  induction bs with
  | nil => intro p; rfl
  | cons d ds ih => intro o; simp [Spec.refs, ih, docRefs_snd]

/-- C42. Whatever documents are written, wherever flush() is called, for every block size and lossless codec:
if close() succeeds, a reader of the file yields exactly the documents that were accepted, in order, and then
StopIteration for ever. -/
theorem C42_round_trip {reg : Codecs} {c : CCodec} {bnd num cs s0 s1} (hreg : Spec.Lossless reg c)
    (h0 : DocWriter.new bnd num c = .ok s0) (h1 : (s0.run cs).flush = (s1, none)) (hreal : ∀ x ∈ cs, Spec.Real x) :
    ∃ r, DocReader.new reg (Spec.payload s1.log) = .ok r ∧ ∀ k,
      (r.nexts ((Spec.accepted cs).length + k)).map (fun x => x.map MDoc.raw) =
        (Spec.accepted cs).map .ok ++ List.replicate k (.error .stopIteration) := by
  obtain ⟨hd, c', blocks, ⟨hh⟩, hc', hlog, hfl, -, hok, -⟩ := closed_file hreg h0 h1 hreal
  have hf := hok [] unpack_nil
  obtain ⟨r, e, hat, -⟩ := open_ok hh hc' ⟨hd, compOf c, c'.decompress, blocks, []⟩ rfl rfl
  refine ⟨r, ?_, fun k => ?_⟩
  · rw [hlog, ← e]; simp only [BF.raw, List.append_nil]
  · have hs := refs_snd (compOf c) blocks hd.length
    have hl : (BF.refs ⟨hd, compOf c, c'.decompress, blocks, []⟩).length = (Spec.accepted cs).length := by
      rw [← hfl, ← hs, List.length_map]; rfl
    rw [← hl, nexts_ok hf k _ hat, List.map_append, List.map_map, ← hfl, ← hs, List.map_map]
    congr 1
    rw [List.map_replicate]; rfl

/-- C42, with a boundary writer as output: its payload is the file that a plain output would get. -/
theorem C42_boundary {c : CCodec} {b num} {cs : List DocWriter.Call} {s0 s0' : DocWriter} (hb : 12 ≤ b ∧ b ≤ 30)
    (h0 : DocWriter.new false num c = .ok s0) (h0' : DocWriter.new true num c = .ok s0') :
    Spec.payload (s0'.run cs).flush.1.log = Spec.payload (s0.run cs).flush.1.log ∧
    (s0'.run cs).flush.2 = (s0.run cs).flush.2 ∧
    ∃ w0 w, BWriter.new b = .ok w0 ∧ w0.run (s0'.run cs).flush.1.log = .ok w ∧
      Spec.strip b w.out = Spec.payload (s0.run cs).flush.1.log := by
  have same : ∀ (cs : List DocWriter.Call) {s s' : DocWriter}, Spec.payload s'.log = Spec.payload s.log → s'.block = s.block →
      s'.count = s.count → s'.codec = s.codec → s'.num = s.num →
      Spec.payload (s'.run cs).flush.1.log = Spec.payload (s.run cs).flush.1.log ∧ (s'.run cs).flush.2 = (s.run cs).flush.2 := by
    have hfl : ∀ {s s' : DocWriter}, Spec.payload s'.log = Spec.payload s.log → s'.block = s.block →
        s'.count = s.count → s'.codec = s.codec → s'.num = s.num →
        Spec.payload s'.flush.1.log = Spec.payload s.flush.1.log ∧ s'.flush.2 = s.flush.2 ∧ s'.flush.1.block = s.flush.1.block ∧
        s'.flush.1.count = s.flush.1.count ∧ s'.flush.1.codec = s.flush.1.codec ∧ s'.flush.1.num = s.flush.1.num := by
      intro s s' e1 e2 e3 e4 e5
      unfold DocWriter.flush
      rw [e2, e3, e4]
      split
      · split
        · exact ⟨e1, rfl, e2, e3, e4, e5⟩
        · split
          · exact ⟨e1, rfl, e2, e3, e4, e5⟩
          · exact ⟨by simp only [payload_append, payload_splits, e1], rfl, rfl, rfl, rfl, e5⟩
      · exact ⟨e1, rfl, e2, e3, e4, e5⟩
    intro cs
    induction cs with
    | nil =>
      intro s s' e1 e2 e3 e4 e5
      obtain ⟨g1, g2, -⟩ := hfl e1 e2 e3 e4 e5
      exact ⟨g1, g2⟩
    | cons x cs ih =>
      intro s s' e1 e2 e3 e4 e5
      show Spec.payload ((s'.after x).run cs).flush.1.log = Spec.payload ((s.after x).run cs).flush.1.log ∧
        ((s'.after x).run cs).flush.2 = ((s.after x).run cs).flush.2
      have : Spec.payload (s'.after x).log = Spec.payload (s.after x).log ∧ (s'.after x).block = (s.after x).block ∧
          (s'.after x).count = (s.after x).count ∧ (s'.after x).codec = (s.after x).codec ∧ (s'.after x).num = (s.after x).num := by
        cases x with
        | flush =>
          obtain ⟨g1, -, g3, g4, g5, g6⟩ := hfl e1 e2 e3 e4 e5
          exact ⟨g1, g3, g4, g5, g6⟩
        | write a =>
          simp only [DocWriter.after, DocWriter.write]
          split
          · exact ⟨e1, e2, e3, e4, e5⟩
          · split
            · exact ⟨e1, e2, e3, e4, e5⟩
            · rw [e3, e5, e2]
              rename_i bb _
              obtain ⟨g1, -, g3, g4, g5, g6⟩ := hfl (s := { s with block := s.block ++ bb, count := s.count + 1 })
                (s' := { s' with block := s.block ++ bb, count := s.count + 1 }) e1 rfl rfl e4 e5
              rw [e5] at g1 g3 g4 g5 g6
              split
              · exact ⟨g1, g3, g4, g5, g6⟩
              · exact ⟨e1, rfl, rfl, e4, rfl⟩
      obtain ⟨f1, f2, f3, f4, f5⟩ := this
      exact ih f1 f2 f3 f4 f5
  obtain ⟨hd, ⟨hh⟩, hi, hc, hn⟩ := new_inv h0
  obtain ⟨hd', ⟨hh'⟩, hi', hc', hn'⟩ := new_inv h0'
  have hhd : hd = hd' := by
    obtain ⟨a, b, c, pa, pb, pc, e⟩ := hh
    obtain ⟨a', b', c', pa', pb', pc', e'⟩ := hh'
    rw [pa] at pa'; cases pa'
    rw [pb] at pb'; cases pb'
    rw [pc] at pc'; cases pc'
    rw [e, e']
  obtain ⟨k1, k2⟩ := same cs (s := s0) (s' := s0') (by rw [hi.log, hi'.log, hhd]; rfl) (by rw [hi.block, hi'.block])
    (by rw [hi.count, hi'.count]) (by rw [hc, hc']) (by rw [hn, hn'])
  refine ⟨k1, k2, ?_⟩
  obtain ⟨w0, w, g0, g1, -, g2, -⟩ := C38_layout hb (s0'.run cs).flush.1.log
  exact ⟨w0, w, g0, g1, by rw [g2, k1]⟩

/-- the registry of collection.py:273-300, for given compression libraries; the last three entries and lz4 are
there if the libraries are installed -/
def builtin (zip bz2 lzma lz4 : CCodec) (zstd : Nat → Bytes → Except PyErr Bytes) (unzstd : Bytes → Except PyErr Bytes) :
    Except PyErr Codecs := do
  let r ← registerCodec [] "none".toList .ok .ok none
  let r ← registerCodec r "zip".toList zip.compress zip.decompress none
  let r ← registerCodec r "bzip2".toList bz2.compress bz2.decompress none
  let r ← registerCodec r "zipsq".toList (fun x => do zip.compress (← zip.compress x)) (fun x => do zip.decompress (← zip.decompress x)) none
  let r ← registerCodec r "lzma".toList lzma.compress lzma.decompress none
  let r ← registerCodec r "lz4".toList lz4.compress lz4.decompress none
  let r ← registerCodec r "zstd".toList (zstd 3) unzstd none
  let r ← registerCodec r "zstd:high".toList (zstd 9) unzstd (some "zstd".toList)
  registerCodec r "zstd:ultra".toList (zstd 22) unzstd (some "zstd".toList)

/-- C42. Every codec that docria registers is lossless in the sense of `C42_round_trip`, if the libraries are:
in particular the zstd variants, which files name just `zstd`, and the double compression `zipsq`. -/
theorem C42_builtin_codecs {zip bz2 lzma lz4 : CCodec} {zstd : Nat → Bytes → Except PyErr Bytes} {unzstd : Bytes → Except PyErr Bytes}
    (hlib : ∀ c ∈ [zip, bz2, lzma, lz4], ∀ x z, c.compress x = .ok z → c.decompress z = .ok x)
    (hz : ∀ l x z, zstd l x = .ok z → unzstd z = .ok x) :
    ∃ reg, builtin zip bz2 lzma lz4 zstd unzstd = .ok reg ∧
      dkeys reg = ["none", "zip", "bzip2", "zipsq", "lzma", "lz4", "zstd", "zstd:high", "zstd:ultra"].map String.toList ∧
      ∀ name c, getCodec reg name = .ok c → Spec.Lossless reg c := by
  have hreg : builtin zip bz2 lzma lz4 zstd unzstd = .ok [
      ("none".toList, ⟨"none".toList, .ok, .ok⟩),
      ("zip".toList, ⟨"zip".toList, zip.compress, zip.decompress⟩),
      ("bzip2".toList, ⟨"bzip2".toList, bz2.compress, bz2.decompress⟩),
      ("zipsq".toList, ⟨"zipsq".toList, fun x => do zip.compress (← zip.compress x), fun x => do zip.decompress (← zip.decompress x)⟩),
      ("lzma".toList, ⟨"lzma".toList, lzma.compress, lzma.decompress⟩),
      ("lz4".toList, ⟨"lz4".toList, lz4.compress, lz4.decompress⟩),
      ("zstd".toList, ⟨"zstd".toList, zstd 3, unzstd⟩),
      ("zstd:high".toList, ⟨"zstd".toList, zstd 9, unzstd⟩),
      ("zstd:ultra".toList, ⟨"zstd".toList, zstd 22, unzstd⟩)] := rfl
  refine ⟨_, hreg, rfl, ?_⟩
  intro name c h
  have hlib1 := hlib zip (by simp)
  have hsq : ∀ x z, (do zip.compress (← zip.compress x)) = Except.ok z → (do zip.decompress (← zip.decompress z)) = Except.ok x := by
    intro x z h
    cases h1 : zip.compress x with
    | error e => rw [h1] at h; cases h
    | ok y =>
      rw [h1] at h
      have h2 := hlib1 y z h
      show Except.bind (zip.decompress z) zip.decompress = _
      rw [h2]
      exact hlib1 x y h1
  unfold getCodec at h
  split at h
  · cases h
  · rename_i c' hg
    cases h
    have hm := dget_mem hg
    simp only [List.mem_cons, Prod.mk.injEq, List.not_mem_nil, or_false] at hm
    rcases hm with ⟨-, rfl⟩ | ⟨-, rfl⟩ | ⟨-, rfl⟩ | ⟨-, rfl⟩ | ⟨-, rfl⟩ | ⟨-, rfl⟩ | ⟨-, rfl⟩ | ⟨-, rfl⟩ | ⟨-, rfl⟩
    · exact ⟨_, rfl, fun x z h => by cases h; rfl⟩
    · exact ⟨_, rfl, hlib1⟩
    · exact ⟨_, rfl, hlib bz2 (by simp)⟩
    · exact ⟨_, rfl, hsq⟩
    · exact ⟨_, rfl, hlib lzma (by simp)⟩
    · exact ⟨_, rfl, hlib lz4 (by simp)⟩
    · exact ⟨_, rfl, hz 3⟩
    · exact ⟨_, rfl, hz 9⟩
    · exact ⟨_, rfl, hz 22⟩

/-! ### C43 -/

/-- a call on a reader; `get i` asks for the `i`-th reference -/
inductive ReadOp
  | next
  | get (i : Nat)

namespace Spec

/-- what calls on a reader should return: a cursor over the references of the file -/
def cursor (all : List ((Nat × Nat) × Bytes)) : Nat → List ReadOp → List (Except PyErr MDoc)
  | _, [] => []
  | cur, .next :: ops =>
    match all[cur]? with
    | some e => .ok (docOf e) :: cursor all (cur + 1) ops
    | none => .error .stopIteration :: cursor all cur ops
  | cur, .get i :: ops =>
    match all[i]? with
    | some e => .ok (docOf e) :: cursor all (i + 1) ops
    | none => cursor all cur ops

end Spec

/-- calls on a reader of a file with the references `all` -/
def DocReader.calls (all : List ((Nat × Nat) × Bytes)) : DocReader → List ReadOp → List (Except PyErr MDoc)
  | _, [] => []
  | r, .next :: ops => r.next.2 :: calls all r.next.1 ops
  | r, .get i :: ops =>
    match all[i]? with
    | some e => (r.get e.1).2 :: calls all (r.get e.1).1 ops
    | none => calls all r ops

theorem calls_ok {f : BF} (hf : f.Ok) (ops : List ReadOp) : ∀ {r : DocReader} {cur : Nat}, At f r (f.refs.drop cur) →
    r.calls f.refs ops = Spec.cursor f.refs cur ops := by
  induction ops with
  | nil => intros; rfl
  | cons op ops ih =>
    intro r cur h
    cases op with
    | next =>
      have hs := next_ok hf h
      simp only [DocReader.calls, Spec.cursor]
      cases hc : f.refs[cur]? with
      | none =>
        have hd : f.refs.drop cur = [] := List.drop_of_length_le (List.getElem?_eq_none_iff.mp hc)
        rw [hd] at hs
        simp only [hs.1]
        rw [ih (cur := cur) (by rw [hd]; exact hs.2)]
      | some e =>
        have hd : f.refs.drop cur = e :: f.refs.drop (cur + 1) := by
          obtain ⟨hl, he⟩ := List.getElem?_eq_some_iff.mp hc
          rw [← he, List.getElem_cons_drop]
        rw [hd] at hs
        simp only [hs.1]
        rw [ih (cur := cur + 1) hs.2]
    | get i =>
      simp only [DocReader.calls, Spec.cursor]
      cases hc : f.refs[i]? with
      | none => exact ih h
      | some e =>
        obtain ⟨hl, he⟩ := List.getElem?_eq_some_iff.mp hc
        have hd : f.refs = f.refs.take i ++ e :: f.refs.drop (i + 1) := by
          rw [← he, List.getElem_cons_drop, List.take_append_drop]
        obtain ⟨g1, g2⟩ := get_ok hf h hd
        simp only [g1]
        rw [ih (cur := i + 1) g2]

/-- the blocks of a file, as blocks() makes them -/
def blockList (c : Bytes → Bytes) : Nat → List (List Bytes) → List Block
  | _, [] => []
  | p, ds :: bs => Block.new p (Spec.blockData ds) :: blockList c (p + (Spec.blockBytes c ds).length) bs

theorem blocksLoop_ok {f : BF} (hf : f.Ok) (post : List (List Bytes)) : ∀ {r : DocReader} {pre fuel}, Pos f r pre post →
    post.length < fuel → (DocReader.blocksLoop fuel r).2 =
      .ok (blockList f.comp (f.hd.length + (Spec.blocksBytes f.comp pre).length) post) := by
  induction post with
  | nil =>
    intro r pre fuel h hfu
    obtain ⟨fuel, rfl⟩ : ∃ k, fuel = k + 1 := ⟨fuel - 1, by simp only [List.length_nil] at hfu; omega⟩
    obtain ⟨r', e, -⟩ := readblock_none hf h
    simp only [DocReader.blocksLoop, e, blockList]
  | cons ds post ih =>
    intro r pre fuel h hfu
    obtain ⟨fuel, rfl⟩ : ∃ k, fuel = k + 1 := ⟨fuel - 1, by simp only [List.length_cons] at hfu; omega⟩
    obtain ⟨r', e, h', hl, -⟩ := readblock_some hf.fine h
    have := ih h' (fuel := fuel) (by simp only [List.length_cons] at hfu; omega)
    have hlen : f.hd.length + (Spec.blocksBytes f.comp (pre ++ [ds])).length =
        f.hd.length + (Spec.blocksBytes f.comp pre).length + (Spec.blockBytes f.comp ds).length := by
      rw [blocksBytes_append, List.length_append, blocksBytes_cons]
      simp [Spec.blocksBytes]; omega
    simp only [DocReader.blocksLoop, e]
    cases hb : DocReader.blocksLoop fuel r' with
    | mk r2 x =>
      rw [hb] at this
      simp only at this
      simp only [this, blockList, hl, hlen]

theorem docsLoop_ok {p : Nat} (dpost : List Bytes) (hfit : ∀ d ∈ dpost, d.length < 2 ^ 32 ∧ d.take 4 = magic) :
    ∀ {b : Block} {dpre last fuel}, BPos b dpre dpost → b.position = p → last = (Spec.blockData dpre).length → dpost.length < fuel →
    (Block.docsLoop fuel last b).2 = .ok ((Spec.docRefs p (Spec.blockData dpre).length dpost).map (fun e => (e.1.2, docOf e))) := by
  induction dpost with
  | nil =>
    intro b dpre last fuel h hp hl hfu
    obtain ⟨fuel, rfl⟩ : ∃ k, fuel = k + 1 := ⟨fuel - 1, by simp only [List.length_nil] at hfu; omega⟩
    simp only [Block.docsLoop, bnext_none h, Spec.docRefs, List.map_nil]
  | cons d dpost ih =>
    intro b dpre last fuel h hp hl hfu
    obtain ⟨fuel, rfl⟩ : ∃ k, fuel = k + 1 := ⟨fuel - 1, by simp only [List.length_cons] at hfu; omega⟩
    have hd := hfit d (by simp)
    have hst := h.step
    have hlen : (Spec.blockData (dpre ++ [d])).length = (Spec.blockData dpre).length + (Spec.bpack d).length := by
      rw [blockData_append, List.length_append]; simp [Spec.blockData]
    have := ih (fun x hx => hfit x (by simp [hx])) (fuel := fuel) hst hp hst.pos (by simp only [List.length_cons] at hfu; omega)
    simp only [Block.docsLoop, bnext_some h hd.1 hd.2]
    cases hb : Block.docsLoop fuel (Block.tell { b with unp := ⟨b.unp.src, b.unp.used + (Spec.bpack d).length⟩ })
        { b with unp := ⟨b.unp.src, b.unp.used + (Spec.bpack d).length⟩ } with
    | mk b2 x =>
      rw [hst.pos] at hb
      rw [hst.pos, hb] at this
      simp only at this
      simp only [this, Spec.docRefs, List.map_cons, hp, h.pos, hl, hlen]

theorem docs_length_le {ds : List Bytes} (h : ∀ d ∈ ds, d.length < 2 ^ 32) : ds.length ≤ (Spec.blockData ds).length := by
  induction ds with
  | nil => exact Nat.zero_le _
  | cons d ds ih =>
    have h1 := ih (fun x hx => h x (by simp [hx]))
    have h2 := bpack_pos (h d (by simp))
    rw [blockData_cons, List.length_append, List.length_cons]
    omega

/-- a block that was obtained from a file, wherever it stands now: documents() -/
theorem documents_ok {b : Block} {dpre dpost : List Bytes} (h : BPos b dpre dpost)
    (hfit : ∀ d ∈ dpre ++ dpost, d.length < 2 ^ 32 ∧ d.take 4 = magic) :
    b.documents.2 = .ok ((Spec.docRefs b.position 0 (dpre ++ dpost)).map (fun e => (e.1.2, docOf e))) := by
  have h0 : BPos (b.seek 0) [] (dpre ++ dpost) := h.seek (d1 := []) rfl
  have := docs_length_le (fun d hd => (hfit d hd).1)
  unfold Block.documents
  exact docsLoop_ok (p := b.position) (dpre ++ dpost) hfit h0 rfl rfl (by rw [h.data]; omega)

theorem docRefs_ge (p : Nat) : ∀ (ds : List Bytes) (o : Nat), ∀ e ∈ Spec.docRefs p o ds, e.1.1 = p ∧ o ≤ e.1.2 := by
  intro ds
  induction ds with
  | nil => intro o e he; cases he
  | cons d ds ih =>
    intro o e he
    simp only [Spec.docRefs, List.mem_cons] at he
    rcases he with rfl | he
    · exact ⟨rfl, Nat.le_refl _⟩
    · have := ih _ e he
      exact ⟨this.1, by omega⟩

theorem refs_ge (c : Bytes → Bytes) : ∀ (bs : List (List Bytes)) (p : Nat), ∀ e ∈ Spec.refs c p bs, p ≤ e.1.1 := by
  intro bs
  induction bs with
  | nil => intro o e he; cases he
  | cons d ds ih =>
    intro o e he
    simp only [Spec.refs, List.mem_append] at he
    rcases he with he | he
    · exact Nat.le_of_eq (docRefs_ge _ _ _ e he).1.symm
    · have := ih _ e he
      omega

theorem docRefs_nodup (p : Nat) : ∀ {ds : List Bytes} (_ : ∀ d ∈ ds, d.length < 2 ^ 32) (o : Nat), ((Spec.docRefs p o ds).map (·.1)).Nodup := by
  intro ds
  induction ds with
  | nil => intro _ o; exact List.nodup_nil
  | cons d ds ih =>
    intro h o
    simp only [Spec.docRefs, List.map_cons, List.nodup_cons, List.mem_map, not_exists, not_and]
    refine ⟨fun e he heq => ?_, ih (fun x hx => h x (by simp [hx])) _⟩
    have h1 := docRefs_ge _ _ _ e he
    have h2 := bpack_pos (h d (by simp))
    rw [heq] at h1
    simp only at h1
    omega

theorem refs_nodup (c : Bytes → Bytes) : ∀ {bs : List (List Bytes)} (_ : ∀ ds ∈ bs, (c (Spec.blockData ds)).length < 2 ^ 32)
    (_ : ∀ ds ∈ bs, ∀ d ∈ ds, d.length < 2 ^ 32) (p : Nat), ((Spec.refs c p bs).map (·.1)).Nodup := by
  intro bs
  induction bs with
  | nil => intro _ _ p; exact List.nodup_nil
  | cons ds bs ih =>
    intro hz h p
    simp only [Spec.refs, List.map_append]
    rw [List.nodup_append]
    refine ⟨docRefs_nodup p (h ds (by simp)) 0, ih (fun x hx => hz x (by simp [hx])) (fun x hx => h x (by simp [hx])) _, ?_⟩
    intro x hx y hy hxy
    obtain ⟨e, he, rfl⟩ := List.mem_map.mp hx
    obtain ⟨e', he', rfl⟩ := List.mem_map.mp hy
    have h1 := (docRefs_ge _ _ _ e he).1
    have h2 := refs_ge _ _ _ e' he'
    have h3 := bpack_pos (hz ds (by simp))
    rw [← hxy, h1] at h2
    unfold Spec.blockBytes at h2
    omega

theorem blockList_docs (c : Bytes → Bytes) : ∀ {bs : List (List Bytes)} (_ : ∀ ds ∈ bs, ∀ d ∈ ds, d.length < 2 ^ 32 ∧ d.take 4 = magic) (p : Nat),
    ((blockList c p bs).map (fun b => match b.documents.2 with
          | .ok l => l.map (fun e => ((b.position, e.1), e.2))
          | .error _ => [])).flatten = (Spec.refs c p bs).map (fun e => (e.1, docOf e)) := by
  intro bs
  induction bs with
  | nil => intro _ p; rfl
  | cons ds bs ih =>
    intro h p
    simp only [blockList, List.map_cons, List.flatten_cons, Spec.refs, List.map_append]
    rw [ih (fun x hx => h x (by simp [hx]))]
    congr 1
    have := documents_ok (BPos.new p ds) (h ds (by simp))
    rw [this]
    simp only [List.nil_append, List.map_map]
    apply List.map_congr_left
    intro e he
    have := (docRefs_ge _ _ _ e he).1
    simp only [Function.comp]
    congr 1
    rw [Prod.ext_iff]
    exact ⟨this.symm, rfl⟩

/-- C43. The references of a collection. `refs` lists the accepted documents in order, each with a reference.
Any sequence of next() and get(ref) calls on a reader of the file, in any order, returns the documents with
their references as a cursor over `refs` does: in particular get(ref) returns the document of `ref`. The
blocks that blocks() yields have documents() with the same references. -/
theorem C43_references_partial {reg : Codecs} {c : CCodec} {bnd num cs s0 s1} (hreg : Spec.Lossless reg c)
    (h0 : DocWriter.new bnd num c = .ok s0) (h1 : (s0.run cs).flush = (s1, none)) (hreal : ∀ x ∈ cs, Spec.Real x) :
    ∃ r refs, DocReader.new reg (Spec.payload s1.log) = .ok r ∧ refs.map (·.2) = Spec.accepted cs ∧
      (refs.map (·.1)).Nodup ∧ (∀ ops, r.calls refs ops = Spec.cursor refs 0 ops) ∧
      ∃ bs, r.blocks.2 = .ok bs ∧
        (bs.map (fun b => match b.documents.2 with
          | .ok l => l.map (fun e => ((b.position, e.1), e.2))
          | .error _ => [])).flatten = refs.map (fun e => (e.1, docOf e)) := by
  obtain ⟨hd, c', blocks, ⟨hh⟩, hc', hlog, hfl, -, hok, -⟩ := closed_file hreg h0 h1 hreal
  have hf := hok [] unpack_nil
  obtain ⟨r, e, hat, -, hpos⟩ := open_ok hh hc' ⟨hd, compOf c, c'.decompress, blocks, []⟩ rfl rfl
  refine ⟨r, Spec.refs (compOf c) hd.length blocks, ?_, ?_, ?_, ?_, ?_⟩
  · rw [hlog, ← e]; simp only [BF.raw, List.append_nil]
  · rw [refs_snd, hfl]
  · exact refs_nodup _ hf.zfit hf.fit _
  · intro ops
    exact calls_ok hf ops (cur := 0) hat
  · have hfuel := blocks_length_le hf.fine
    refine ⟨_, blocksLoop_ok hf blocks hpos (by rw [hpos.raw]; simp only at hfuel; omega), ?_⟩
    simp only [Spec.blocksBytes, List.map_nil, List.flatten_nil, List.length_nil, Nat.add_zero]
    exact blockList_docs _ (fun ds hds d hd => ⟨hf.fit ds hds d hd, hf.magic ds hds d hd⟩) _

namespace Ex

/-- a registry with the codec `none` only (collection.py:273) -/
def reg : Codecs := [("none".toList, ⟨"none".toList, .ok, .ok⟩)]

/-- the smallest things that the constructor of MsgpackDocument lets through: the magic and one more byte -/
def tiny (b : UInt8) : Bytes := Spec.ascii "DM_1" ++ [b]

/-- a file with the blocks `A B` and `C D` -/
def file4 : Bytes := Spec.ascii "Dmf1" ++ [0xa4] ++ Spec.ascii "none" ++ [2, 0xc2] ++
  [0xc4, 14, 0xc4, 5] ++ tiny 65 ++ [0xc4, 5] ++ tiny 66 ++ [0xc4, 14, 0xc4, 5] ++ tiny 67 ++ [0xc4, 5] ++ tiny 68

/-- a reader of it -/
def reader4 : DocReader := ⟨file4, 4, ⟨file4.drop 4, 7⟩, .ok, .int 2, none, 0⟩

end Ex

/-- C43 does not hold when blocks are read from a reader in the middle of its iteration: the block that is
being iterated stays the old one, but the references name the block read last. Here a file of two blocks,
`A B` and `C D`: after next(), readblock(), the document B gets the reference of D. -/
theorem C43_interleaved_blocks_fail : ∃ (reg : Codecs) (raw : Bytes) (r : DocReader) (dA dB dC dD : Bytes) (refD : Nat × Nat),
    DocReader.new reg raw = .ok r ∧ dB ≠ dD ∧
    (r.nexts 4).map (fun x => x.map MDoc.raw) = [.ok dA, .ok dB, .ok dC, .ok dD] ∧
    ((r.get refD).2.map MDoc.raw) = .ok dD ∧
    ((r.next.1.readblock.1.next).2.map (fun d => (d.raw, d.ref))) = .ok (dB, some (refVal refD)) := by
  exact ⟨Ex.reg, Ex.file4, Ex.reader4, Ex.tiny 65, Ex.tiny 66, Ex.tiny 67, Ex.tiny 68, (27, 7), rfl, by decide, rfl, rfl, rfl⟩

/-! ### C44 -/

theorem cut_point (c : Bytes → Bytes) : ∀ (bs : List (List Bytes)) (n : Nat), n ≤ (Spec.blocksBytes c bs).length →
    ∃ j, j ≤ bs.length ∧ (Spec.blocksBytes c (bs.take j)).length ≤ n ∧
      (∀ j', j < j' → j' ≤ bs.length → n < (Spec.blocksBytes c (bs.take j')).length) ∧
      ∃ rest, (Spec.blocksBytes c bs).take n = Spec.blocksBytes c (bs.take j) ++ rest ∧
        (rest = [] ∨ ∃ ds more, bs[j]? = some ds ∧ more ≠ [] ∧ Spec.blockBytes c ds = rest ++ more) := by
  intro bs
  induction bs with
  | nil =>
    intro n h
    refine ⟨0, Nat.le_refl _, Nat.zero_le _, fun j' h1 h2 => ?_, [], by simp [Spec.blocksBytes], .inl rfl⟩
    simp only [List.length_nil] at h2; omega
  | cons ds bs ih =>
    intro n h
    rw [blocksBytes_cons, List.length_append] at h
    by_cases hn : n < (Spec.blockBytes c ds).length
    · refine ⟨0, Nat.zero_le _, Nat.zero_le _, ?_, (Spec.blockBytes c ds).take n, ?_, .inr ⟨ds, (Spec.blockBytes c ds).drop n, rfl, ?_, ?_⟩⟩
      · intro j' h1 h2
        obtain ⟨k, rfl⟩ : ∃ k, j' = k + 1 := ⟨j' - 1, by omega⟩
        rw [List.take_succ_cons, blocksBytes_cons, List.length_append]
        omega
      · rw [blocksBytes_cons, List.take_append_of_le_length (by omega)]
        rfl
      · intro he
        have := congrArg List.length he
        simp only [List.length_drop, List.length_nil] at this
        omega
      · rw [List.take_append_drop]
    · obtain ⟨j, h1, h2, h3, rest, h4, h5⟩ := ih (n - (Spec.blockBytes c ds).length) (by omega)
      refine ⟨j + 1, by simp only [List.length_cons]; omega, ?_, ?_, rest, ?_, ?_⟩
      · rw [List.take_succ_cons, blocksBytes_cons, List.length_append]; omega
      · intro j' g1 g2
        obtain ⟨k, rfl⟩ : ∃ k, j' = k + 1 := ⟨j' - 1, by omega⟩
        have := h3 k (by omega) (by simp only [List.length_cons] at g2; omega)
        rw [List.take_succ_cons, blocksBytes_cons, List.length_append]
        omega
      · rw [List.take_succ_cons, blocksBytes_cons, blocksBytes_cons, List.take_append, List.take_of_length_le (by omega), h4,
          List.append_assoc]
      · rcases h5 with h5 | ⟨d, more, g1, g2, g3⟩
        · exact .inl h5
        · exact .inr ⟨d, more, by rw [List.getElem?_cons_succ]; exact g1, g2, g3⟩

/-- C44. Cut a file anywhere after its header. `blocks` are the blocks of the whole file, and `j` is the number
of blocks that lie completely before the cut. The reader yields exactly the documents of these, with their
references, and then stops. -/
theorem C44_truncated {reg : Codecs} {c : CCodec} {bnd num cs s0 s1} (hreg : Spec.Lossless reg c)
    (h0 : DocWriter.new bnd num c = .ok s0) (h1 : (s0.run cs).flush = (s1, none)) (hreal : ∀ x ∈ cs, Spec.Real x)
    {n : Nat} (hn1 : (Spec.payload s0.log).length ≤ n) (hn2 : n ≤ (Spec.payload s1.log).length) :
    ∃ (blocks : List (List Bytes)) (r : DocReader) (j : Nat),
      Spec.payload s1.log = Spec.payload s0.log ++ Spec.blocksBytes (compOf c) blocks ∧
      blocks.flatten = Spec.accepted cs ∧ j ≤ blocks.length ∧
      (∀ i, i ≤ blocks.length → (i ≤ j ↔ (Spec.payload s0.log).length + (Spec.blocksBytes (compOf c) (blocks.take i)).length ≤ n)) ∧
      DocReader.new reg ((Spec.payload s1.log).take n) = .ok r ∧ ∀ k,
        r.nexts ((blocks.take j).flatten.length + k) =
          (Spec.refs (compOf c) (Spec.payload s0.log).length (blocks.take j)).map (fun e => .ok (docOf e)) ++
            List.replicate k (.error .stopIteration) := by
  obtain ⟨hd, c', blocks, ⟨hh⟩, hc', hlog, hfl, -, hok, hhd⟩ := closed_file hreg h0 h1 hreal
  rw [hhd] at hn1 ⊢
  rw [hlog, List.length_append] at hn2
  obtain ⟨j, g1, g2, g3, rest, g4, g5⟩ := cut_point (compOf c) blocks (n - hd.length) (by omega)
  have hf0 := hok [] unpack_nil
  have hrest : unpack rest = .error .outOfData := by
    rcases g5 with rfl | ⟨ds, more, q1, q2, q3⟩
    · exact unpack_nil
    · exact C30_truncated (pack_bin (hf0.zfit ds (List.mem_of_getElem? q1))) (by trivial) rest more q3 q2
  have hmem : ∀ ds, ds ∈ blocks.take j → ds ∈ blocks := fun ds h => List.mem_of_mem_take h
  have hf : BF.Ok ⟨hd, compOf c, c'.decompress, blocks.take j, rest⟩ :=
    ⟨hrest, fun ds h => hf0.zfit ds (hmem ds h), fun ds h => hf0.dec ds (hmem ds h), fun ds h => hf0.fit ds (hmem ds h),
      fun ds h => hf0.magic ds (hmem ds h)⟩
  obtain ⟨r, e, hat, -⟩ := open_ok hh hc' ⟨hd, compOf c, c'.decompress, blocks.take j, rest⟩ rfl rfl
  refine ⟨blocks, r, j, hlog, hfl, g1, ?_, ?_, fun k => ?_⟩
  · intro i hi
    constructor
    · intro hij
      have : (Spec.blocksBytes (compOf c) (blocks.take i)).length ≤ (Spec.blocksBytes (compOf c) (blocks.take j)).length := by
        have : blocks.take j = blocks.take i ++ (blocks.take j).drop i := by
          have h := List.take_append_drop i (blocks.take j)
          rw [List.take_take, Nat.min_eq_left hij] at h
          exact h.symm
        rw [this, blocksBytes_append, List.length_append]; omega
      omega
    · intro hle
      rcases Nat.lt_or_ge j i with h | h
      · have := g3 i h hi; omega
      · exact h
  · rw [← e, hlog]
    simp only [BF.raw]
    rw [List.take_append, List.take_of_length_le hn1, g4, List.append_assoc]
  · have hl : (BF.refs ⟨hd, compOf c, c'.decompress, blocks.take j, rest⟩).length = (blocks.take j).flatten.length := by
      rw [← refs_snd (compOf c) (blocks.take j) hd.length, List.length_map]; rfl
    rw [← hl, nexts_ok hf k _ hat]
    rfl

/-! ### C46 -/

namespace Spec

/-- no flush() raised, explicit or not, in the calls: write raises only for documents that are not accepted -/
def Clean : DocWriter → List DocWriter.Call → Prop
  | _, [] => True
  | s, .write a :: cs => (accepted [.write a] ≠ [] → (s.write a).2 = none) ∧ Clean (s.after (.write a)) cs
  | s, .flush :: cs => s.flush.2 = none ∧ Clean (s.after .flush) cs

/-- the sizes of the blocks of `total` documents without explicit flushes, `n` to a block -/
def blockSizes (total n : Nat) : List Nat :=
  List.replicate (total / n) n ++ (if total % n = 0 then [] else [total % n])

end Spec

theorem run_sizes {num : Nat} (hnum : 1 ≤ num) (full : Bool) (cs : List DocWriter.Call) : ∀ {hd s blocks cur}, FInv hd s blocks cur →
    s.num = (num : Int) → cur.length < num → (∀ ds ∈ blocks, ds.length ≤ num ∧ (full = true → ds.length = num)) →
    Spec.Clean s cs → (full = true → ∀ c ∈ cs, c ≠ .flush) →
    ∃ blocks' cur', FInv hd (s.run cs) blocks' cur' ∧ blocks'.flatten ++ cur' = blocks.flatten ++ cur ++ Spec.accepted cs ∧
      (s.run cs).codec = s.codec ∧ cur'.length < num ∧ (∀ ds ∈ blocks', ds.length ≤ num ∧ (full = true → ds.length = num)) := by
  induction cs with
  | nil => intro hd s blocks cur h hn hc hb _ _; exact ⟨blocks, cur, h, by simp [Spec.accepted], rfl, hc, hb⟩
  | cons c cs ih =>
    intro hd s blocks cur h hn hc hb hcl hfull
    have step : ∃ blocks' cur', FInv hd (s.after c) blocks' cur' ∧ blocks'.flatten ++ cur' = blocks.flatten ++ cur ++ Spec.accepted [c] ∧
        (s.after c).codec = s.codec ∧ (s.after c).num = (num : Int) ∧ cur'.length < num ∧
        (∀ ds ∈ blocks', ds.length ≤ num ∧ (full = true → ds.length = num)) ∧ Spec.Clean (s.after c) cs := by
      cases c with
      | flush =>
        obtain ⟨c1, c2⟩ := hcl
        simp only [DocWriter.after] at c2 ⊢
        rcases flush_inv h with ⟨e, he⟩ | ⟨e, he⟩ | ⟨-, -, h', hnn, hcc⟩
        · exact ⟨blocks, cur, by rw [e]; exact h, by simp [Spec.accepted], by rw [e], by rw [e]; exact hn, hc, hb, c2⟩
        · rw [he] at c1; cases c1
        · refine ⟨blocks ++ [cur], [], h', by simp [Spec.accepted], hcc, by rw [hnn]; exact hn, by simp; omega, ?_, c2⟩
          intro ds hds
          rcases List.mem_append.mp hds with hm | hm
          · exact hb ds hm
          · simp only [List.mem_singleton] at hm
            subst hm
            exact ⟨by omega, fun hf => absurd rfl (hfull hf .flush (List.mem_cons_self ..))⟩
      | write a =>
        obtain ⟨c1, c2⟩ := hcl
        simp only [DocWriter.after] at c2 ⊢
        rcases write_inv h a with ⟨ha, e, he⟩ | ⟨d, s', ha, h', hnn, hcc, hct, he⟩
        · exact ⟨blocks, cur, by rw [he]; exact h, by rw [ha]; simp, by rw [he], by rw [he]; exact hn, hc, hb, c2⟩
        · have c1 := c1 (by rw [ha]; simp)
          have hcnt := h.count
          by_cases heq : ((s.count + 1 : Nat) : Int) = s.num
          · rw [if_pos heq] at he
            rw [he] at c1 c2 ⊢
            rcases flush_inv h' with ⟨e, hx⟩ | ⟨e, hx⟩ | ⟨-, -, h2, hn2, hc2⟩
            · simp at hx
            · rw [hx] at c1; cases c1
            · refine ⟨blocks ++ [cur ++ [d]], [], h2, by rw [ha]; simp, by rw [hc2, hcc], by rw [hn2, hnn]; exact hn, by simp; omega, ?_, c2⟩
              intro ds hds
              rcases List.mem_append.mp hds with hm | hm
              · exact hb ds hm
              · simp only [List.mem_singleton] at hm
                subst hm
                simp only [List.length_append, List.length_singleton]
                omega
          · rw [if_neg heq] at he
            rw [he] at c2 ⊢
            refine ⟨blocks, cur ++ [d], h', by rw [ha]; simp, hcc, by rw [← hn]; exact hnn, ?_, hb, c2⟩
            simp only [List.length_append, List.length_singleton]
            omega
    obtain ⟨b1, c1, h1, h2, h3, h4, h5, h6, h7⟩ := step
    obtain ⟨b2, c2, g1, g2, g3, g4, g5⟩ := ih h1 h4 h5 h6 h7 (fun hf x hx => hfull hf x (List.mem_cons_of_mem _ hx))
    refine ⟨b2, c2, g1, ?_, by rw [← h3]; exact g3, g4, g5⟩
    rw [g2, h2, accepted_cons c cs, List.append_assoc]

theorem blockList_sizes (c : Bytes → Bytes) : ∀ {bs : List (List Bytes)} (_ : ∀ ds ∈ bs, ∀ d ∈ ds, d.length < 2 ^ 32 ∧ d.take 4 = magic) (p : Nat),
    (blockList c p bs).map (fun b => b.documents.2.map List.length) = bs.map (fun ds => .ok ds.length) := by
  intro bs
  induction bs with
  | nil => intro _ p; rfl
  | cons ds bs ih =>
    intro h p
    simp only [blockList, List.map_cons]
    rw [ih (fun x hx => h x (by simp [hx])), documents_ok (BPos.new p ds) (h ds (by simp))]
    have := congrArg List.length (docRefs_snd (Block.new p (Spec.blockData ds)).position ds 0)
    rw [List.length_map] at this
    simp only [List.nil_append, Except.map, List.length_map, this]

theorem full_sizes {num : Nat} : ∀ (blocks : List (List Bytes)), (∀ ds ∈ blocks, ds.length = num) →
    blocks.map List.length = List.replicate blocks.length num ∧ blocks.flatten.length = blocks.length * num := by
  intro blocks
  induction blocks with
  | nil => intro _; simp
  | cons ds bs ih =>
    intro h
    obtain ⟨i1, i2⟩ := ih (fun x hx => h x (by simp [hx]))
    have := h ds (by simp)
    refine ⟨by simp [i1, this, List.replicate_succ], ?_⟩
    rw [List.flatten_cons, List.length_append, i2, this, List.length_cons, Nat.add_mul]; omega

theorem sizes_of_inv {reg : Codecs} {c c' : CCodec} {num} {hd : Bytes} {s1 : DocWriter} {blocks cs} (hc' : getCodec reg c.name = .ok c')
    (hh : Header c.name num hd) (hinv : ∀ x z, c.compress x = .ok z → c'.decompress z = .ok x)
    (hi3 : FInv hd s1 blocks []) (hfl3 : blocks.flatten = Spec.accepted cs) (hcod3 : s1.codec = c) (hreal : ∀ x ∈ cs, Spec.Real x) :
    ∃ r bs, DocReader.new reg (Spec.payload s1.log) = .ok r ∧ r.blocks.2 = .ok bs ∧
      bs.map (fun b => b.documents.2.map List.length) = (blocks.map List.length).map .ok ∧
      (blocks.map List.length).sum = (Spec.accepted cs).length ∧ (∀ k ∈ blocks.map List.length, 1 ≤ k) := by
  obtain ⟨hlog, hok⟩ := closed_of_inv (reg := reg) hinv hi3 hfl3 hcod3 hreal
  have hf := hok [] unpack_nil
  obtain ⟨r, e, hat, -, hpos⟩ := open_ok hh hc' ⟨hd, compOf c, c'.decompress, blocks, []⟩ rfl rfl
  have hfuel := blocks_length_le hf.fine
  refine ⟨r, _, ?_, blocksLoop_ok hf blocks hpos (by rw [hpos.raw]; simp only at hfuel; omega), ?_, ?_, ?_⟩
  · rw [hlog, ← e]; simp only [BF.raw, List.append_nil]
  · rw [blockList_sizes _ (fun ds hds d hd => ⟨hf.fit ds hds d hd, hf.magic ds hds d hd⟩), List.map_map]
    rfl
  · rw [← hfl3, List.length_flatten]
  · intro k hk
    obtain ⟨ds, hds, rfl⟩ := List.mem_map.mp hk
    have := hi3.ne ds hds
    have := List.length_pos_iff.mpr this
    omega

/-- C46. No block of a closed file is empty, whatever happened before. If no flush failed, no block has more than
num_docs_per_block documents, and without explicit flushes all blocks but the last have exactly that many. -/
theorem C46_block_sizes {reg : Codecs} {c : CCodec} {bnd num cs s0 s1} (hreg : Spec.Lossless reg c)
    (h0 : DocWriter.new bnd num c = .ok s0) (h1 : (s0.run cs).flush = (s1, none)) (hreal : ∀ x ∈ cs, Spec.Real x) :
    ∃ r bs, ∃ sizes : List Nat, DocReader.new reg (Spec.payload s1.log) = .ok r ∧ r.blocks.2 = .ok bs ∧
      bs.map (fun b => b.documents.2.map List.length) = sizes.map .ok ∧
      sizes.sum = (Spec.accepted cs).length ∧ (∀ k ∈ sizes, 1 ≤ k) ∧
      (1 ≤ num → Spec.Clean s0 cs → (∀ k ∈ sizes, ((k : Nat) : Int) ≤ num) ∧
        ((∀ x ∈ cs, x ≠ .flush) → sizes = Spec.blockSizes (Spec.accepted cs).length num.toNat)) := by
  obtain ⟨c', hc', hinv⟩ := hreg
  obtain ⟨hd, ⟨hh⟩, hi, hcod, hnum⟩ := new_inv h0
  have fin : ∀ {blocks cur}, FInv hd (s0.run cs) blocks cur → (s0.run cs).codec = s0.codec →
      (cur = [] ∧ FInv hd s1 blocks [] ∧ s1.codec = c) ∨ (cur ≠ [] ∧ FInv hd s1 (blocks ++ [cur]) [] ∧ s1.codec = c) := by
    intro blocks cur hi2 hcod2
    rcases flush_inv hi2 with ⟨e, hn⟩ | ⟨e, he⟩ | ⟨hne, -, h', -, hc⟩
    · rw [h1] at e; cases e
      subst hn
      exact .inl ⟨rfl, hi2, by rw [hcod2, hcod]⟩
    · rw [h1] at he; cases he
    · rw [h1] at h' hc
      exact .inr ⟨hne, h', by rw [← hcod, ← hcod2]; exact hc⟩
  by_cases hcl : 1 ≤ num ∧ Spec.Clean s0 cs
  · obtain ⟨hn1, hcl⟩ := hcl
    obtain ⟨n, rfl⟩ : ∃ n : Nat, num = n := ⟨num.toNat, by omega⟩
    have hfull : ∃ full : Bool, full = true ↔ ∀ x ∈ cs, x ≠ DocWriter.Call.flush := by
      by_cases h : ∀ x ∈ cs, x ≠ DocWriter.Call.flush
      · exact ⟨true, by simpa using h⟩
      · exact ⟨false, by simpa using h⟩
    obtain ⟨full, hfull⟩ := hfull
    obtain ⟨blocks, cur, g1, g2, g3, g4, g5⟩ := run_sizes (num := n) (by omega) full cs hi hnum (by simp; omega) (by simp) hcl (fun h => hfull.mp h)
    simp only [List.flatten_nil, List.nil_append] at g2
    rcases fin g1 g3 with ⟨rfl, k1, k2⟩ | ⟨hne, k1, k2⟩
    · obtain ⟨r, bs, q1, q2, q3, q4, q5⟩ := sizes_of_inv (reg := reg) hc' hh hinv k1 (cs := cs) (by rw [← g2]; simp) k2 hreal
      refine ⟨r, bs, _, q1, q2, q3, q4, q5, fun _ _ => ⟨?_, fun hnf => ?_⟩⟩
      · intro k hk
        obtain ⟨ds, hds, rfl⟩ := List.mem_map.mp hk
        have := (g5 ds hds).1
        omega
      · obtain ⟨f1, f2⟩ := full_sizes (num := n) blocks (fun ds hds => (g5 ds hds).2 (hfull.mpr hnf))
        rw [List.append_nil] at g2
        rw [f1, ← g2, f2]
        unfold Spec.blockSizes
        rw [Int.toNat_natCast, Nat.mul_div_cancel _ (by omega), Nat.mul_mod_left, if_pos rfl, List.append_nil]
    · obtain ⟨r, bs, q1, q2, q3, q4, q5⟩ := sizes_of_inv (reg := reg) hc' hh hinv k1 (cs := cs) (by rw [← g2]; simp) k2 hreal
      refine ⟨r, bs, _, q1, q2, q3, q4, q5, fun _ _ => ⟨?_, fun hnf => ?_⟩⟩
      · intro k hk
        obtain ⟨ds, hds, rfl⟩ := List.mem_map.mp hk
        rcases List.mem_append.mp hds with hm | hm
        · have := (g5 ds hm).1
          omega
        · simp only [List.mem_singleton] at hm
          subst hm; omega
      · obtain ⟨f1, f2⟩ := full_sizes (num := n) blocks (fun ds hds => (g5 ds hds).2 (hfull.mpr hnf))
        have hpos := List.length_pos_iff.mpr hne
        have hd1 : (blocks.length * n + cur.length) / n = blocks.length := by
          rw [Nat.mul_comm, Nat.mul_add_div (by omega), Nat.div_eq_of_lt g4, Nat.add_zero]
        have hm1 : (blocks.length * n + cur.length) % n = cur.length := by
          rw [Nat.mul_comm, Nat.mul_add_mod, Nat.mod_eq_of_lt g4]
        rw [List.map_append, f1, ← g2, List.length_append, f2]
        unfold Spec.blockSizes
        rw [Int.toNat_natCast, hd1, hm1, if_neg (by omega)]
        rfl
  · obtain ⟨blocks, cur, hi2, hfl, hcod2⟩ := run_inv cs hi
    simp only [List.flatten_nil, List.nil_append] at hfl
    rcases fin hi2 hcod2 with ⟨rfl, k1, k2⟩ | ⟨hne, k1, k2⟩
    · obtain ⟨r, bs, q1, q2, q3, q4, q5⟩ := sizes_of_inv (reg := reg) hc' hh hinv k1 (cs := cs) (by rw [← hfl]; simp) k2 hreal
      exact ⟨r, bs, _, q1, q2, q3, q4, q5, fun a b => absurd ⟨a, b⟩ hcl⟩
    · obtain ⟨r, bs, q1, q2, q3, q4, q5⟩ := sizes_of_inv (reg := reg) hc' hh hinv k1 (cs := cs) (by rw [← hfl]; simp) k2 hreal
      exact ⟨r, bs, _, q1, q2, q3, q4, q5, fun a b => absurd ⟨a, b⟩ hcl⟩

namespace Ex

/-- write a MsgpackDocument of these bytes -/
def put (d : Bytes) : DocWriter.Call := .write (.packed { raw := d, ref := none })

/-- the numbers of documents of the blocks of a file -/
def sizesOf (reg : Codecs) (raw : Bytes) : Option (List Nat) :=
  match DocReader.new reg raw with
  | .error _ => none
  | .ok r =>
    match r.blocks.2 with
    | .error _ => none
    | .ok bs => bs.mapM (fun b => match b.documents.2 with
      | .ok l => some l.length
      | .error _ => none)

end Ex

/-- C46 does need that no flush fails: after one failure within write() the counter is past the configured number
and no block is written until flush() or close(). Here the compression fails for blocks that end in 66. -/
theorem C46_failed_flush_grows : ∃ (c : CCodec) (s0 : DocWriter) (docs : List Bytes),
    DocWriter.new false 2 c = .ok s0 ∧ Spec.Lossless [(c.name, c)] c ∧
    (s0.run (docs.map Ex.put)).flush.2 = none ∧
    Ex.sizesOf [(c.name, c)] (Spec.payload (s0.run (docs.map Ex.put)).flush.1.log) = some [5] := by
  refine ⟨⟨"none".toList, fun x => if x.getLast? = some 66 then .error .value else .ok x, .ok⟩, _,
    [Ex.tiny 65, Ex.tiny 66, Ex.tiny 67, Ex.tiny 68, Ex.tiny 69], rfl, ⟨_, rfl, ?_⟩, rfl, by decide +kernel⟩
  intro x z h
  simp only at h
  split at h
  · cases h
  · exact h.symm

/-! ### C34, the file reader -/

/-- C34, block files: what does not begin with the magic of block files is rejected with an error and not read -/
theorem C34_block_file_magic {reg : Codecs} {raw : Bytes} (h : ¬ Spec.ascii "Dmf1" <+: raw) : DocReader.new reg raw = .error .io := by
  unfold DocReader.new
  rw [if_pos]
  intro he
  apply h
  have : Spec.ascii "Dmf1" = fileMagic := by decide
  rw [this, ← he]
  exact List.take_prefix _ _

/-! ### examples -/

/-- Five documents, the block size 2, a flush in the middle, a refused write: the hypotheses of C42, C43, C44 and
C46, and what they say. -/
example :
    let cs : List DocWriter.Call := [Ex.put (Ex.tiny 65), .write .other, Ex.put (Ex.tiny 66),
      Ex.put (Ex.tiny 67), .flush, Ex.put (Ex.tiny 68), Ex.put (Ex.tiny 69)]
    ∃ s0 s1, DocWriter.new false 2 ⟨"none".toList, .ok, .ok⟩ = .ok s0 ∧ (s0.run cs).flush = (s1, none) ∧
      Spec.Lossless Ex.reg ⟨"none".toList, .ok, .ok⟩ ∧ (∀ x ∈ cs, Spec.Real x) ∧ Spec.Clean s0 cs ∧
      Spec.accepted cs = [Ex.tiny 65, Ex.tiny 66, Ex.tiny 67, Ex.tiny 68, Ex.tiny 69] ∧
      Ex.sizesOf Ex.reg (Spec.payload s1.log) = some [2, 1, 2] := by
  refine ⟨_, _, rfl, rfl, ⟨_, rfl, fun x z h => by cases h; rfl⟩, ?_, ?_, rfl, by decide +kernel⟩
  · intro x hx
    simp only [List.mem_cons, List.not_mem_nil, or_false] at hx
    rcases hx with rfl | rfl | rfl | rfl | rfl | rfl | rfl <;> first | exact List.prefix_append _ _ | exact trivial
  · exact ⟨fun _ => rfl, fun h => absurd rfl h, fun _ => rfl, fun _ => rfl, rfl, fun _ => rfl, fun _ => rfl, trivial⟩

/-- a document is written and read -/
example : ∃ s0 s1 bs, DocWriter.new false 2 ⟨"none".toList, .ok, .ok⟩ = .ok s0 ∧
    (s0.run [Ex.put (Ex.file4), Ex.put (Ex.tiny 66)]).flush = (s1, none) ∧
    Spec.payload s1.log = bs ∧ (Spec.payload s0.log).length ≤ 20 ∧ 20 ≤ bs.length :=
  ⟨_, _, _, rfl, rfl, rfl, by decide, by decide⟩

/-! ### C39: blocks on a boundary writer -/

/-- on a boundary writer: the four writes of the header and a split, then each block in one write and a split -/
def BlockLog (c : CCodec) (s : DocWriter) : Prop :=
  s.boundary = true ∧ s.codec = c ∧ ∃ (hd : List Bytes) (zs : List Bytes), hd.length = 4 ∧
    (∀ z ∈ zs, ∃ x y, c.compress x = .ok y ∧ pack (.bin y) = .ok z) ∧
    s.log = hd.map .write ++ [.split] ++ (zs.map (fun z => [.write z, .split])).flatten

theorem blockLog_flush {c} {s : DocWriter} (h : BlockLog c s) : BlockLog c s.flush.1 := by
  unfold DocWriter.flush
  split
  · split
    · exact h
    · split
      · exact h
      · obtain ⟨hb, rfl, hd, zs, h4, hz, e⟩ := h
        rename_i y hy _ b hbin
        refine ⟨hb, rfl, hd, zs ++ [b], h4, ?_, ?_⟩
        · intro z hm
          rcases List.mem_append.mp hm with hm | hm
          · exact hz z hm
          · rw [List.mem_singleton.mp hm]
            exact ⟨_, y, hy, hbin⟩
        simp only [e, hb, DocWriter.splits, if_true, List.map_append, List.flatten_append, List.append_assoc,
          List.map_cons, List.map_nil, List.flatten_cons, List.flatten_nil, List.append_nil, List.cons_append, List.nil_append]
  · exact h

theorem blockLog_after {c} {s : DocWriter} (h : BlockLog c s) (x : DocWriter.Call) : BlockLog c (s.after x) := by
  cases x with
  | flush => exact blockLog_flush h
  | write a =>
    simp only [DocWriter.after, DocWriter.write]
    split
    · exact h
    · split
      · exact h
      · rename_i b _
        have h' : BlockLog c { s with block := s.block ++ b, count := s.count + 1 } := h
        split
        · exact blockLog_flush h'
        · exact h'

theorem blockLog_run {c} (cs : List DocWriter.Call) : ∀ {s : DocWriter}, BlockLog c s → BlockLog c (s.run cs) := by
  induction cs with
  | nil => intro s h; exact h
  | cons x cs ih => intro s h; exact ih (blockLog_after h x)

theorem blockLog_new {num c s} (h : DocWriter.new true num c = .ok s) : BlockLog c s := by
  unfold DocWriter.new at h
  split at h
  · cases h
  · split at h
    · cases h
    · split at h
      · cases h
      · cases h
        exact ⟨rfl, rfl, [fileMagic, _, _, _], [], rfl, by simp, rfl⟩

/-- the number of `write` calls -/
def Spec.writes (ops : List BWriter.Op) : Nat := (ops.filter (fun o => match o with | .write _ => true | .split => false)).length

theorem block_split {zs : List Bytes} : ∀ {hd : List Bytes} {pre post : List BWriter.Op} {d},
    hd.map .write ++ [.split] ++ (zs.map (fun z => [BWriter.Op.write z, .split])).flatten = pre ++ .write d :: post →
    hd.length ≤ Spec.writes pre → (∃ p, pre = p ++ [.split]) ∧ d ∈ zs := by
  intro hd
  induction hd with
  | cons x hd ih =>
    intro pre post d e hn
    cases pre with
    | nil => simp [Spec.writes] at hn
    | cons o pre =>
      simp only [List.map_cons, List.cons_append, List.cons.injEq] at e
      obtain ⟨rfl, e⟩ := e
      obtain ⟨⟨p, hp⟩, hm⟩ := ih e (by simpa [Spec.writes] using hn)
      exact ⟨⟨.write x :: p, by rw [hp]; rfl⟩, hm⟩
  | nil =>
    induction zs with
    | nil =>
      intro pre post d e _
      cases pre with
      | nil => simp at e
      | cons o pre => cases pre <;> simp at e
    | cons z zs ih =>
      intro pre post d e _
      cases pre with
      | nil => simp at e
      | cons o pre =>
        cases pre with
        | nil => simp at e; exact ⟨⟨[], by rw [e.1]; rfl⟩, by simp [e.2.1]⟩
        | cons o2 pre =>
          simp only [List.map_nil, List.nil_append, List.map_cons, List.flatten_cons, List.cons_append, List.cons.injEq] at e
          obtain ⟨rfl, rfl, e⟩ := e
          cases pre with
          | nil => simp at e
          | cons o3 pre =>
            simp only [List.cons_append, List.cons.injEq] at e
            obtain ⟨rfl, e⟩ := e
            obtain ⟨⟨p, hp⟩, hm⟩ := ih (pre := .split :: pre) (post := post) (d := d) (by simp [e]) (by simp)
            exact ⟨⟨.split :: .write z :: p, by rw [hp]; rfl⟩, by simp [hm]⟩

/-- C39. In a file of documents on a boundary writer, every write after the header is a whole block, and a
marker that lies in a block holds the distance back to the start of that block (at least -2^31). -/
theorem C39_blocks {b : Nat} (hb : 12 ≤ b ∧ b ≤ 30) {num c s0} (h0 : DocWriter.new true num c = .ok s0)
    (cs : List DocWriter.Call) {pre post d} (hlog : (s0.run cs).log = pre ++ .write d :: post) (hn : 4 ≤ Spec.writes pre) :
    (∃ x z, c.compress x = .ok z ∧ pack (.bin z) = .ok d) ∧
    ∃ w0 w1 w2 w, BWriter.new b = .ok w0 ∧ w0.run pre = .ok w1 ∧ w1.write d = .ok w2 ∧ w0.run (s0.run cs).log = .ok w ∧
      ∀ p, p ≠ 0 → 2 ^ b ∣ p → w1.out.length ≤ p → p < w2.out.length →
        Spec.i32 ((w.out.drop p).take 4) = some (max (-0x80000000) ((w1.out.length : Int) - p)) := by
  obtain ⟨-, -, hd, zs, h4, hz, e⟩ := blockLog_run cs (blockLog_new h0)
  rw [hlog] at e
  obtain ⟨⟨q, rfl⟩, hm⟩ := block_split e.symm (by omega)
  refine ⟨hz d hm, ?_⟩
  obtain ⟨w0, k0, hi, ht, -⟩ := new_ok hb
  obtain ⟨q', hq', -⟩ := run_ok q hi ht
  obtain ⟨w1, k1, i1, t1, -⟩ := run_ok (q ++ [.split]) hi ht
  obtain ⟨w2, k2, i2, t2, -⟩ := write_ok i1 t1 d
  obtain ⟨w, k3, -⟩ := run_ok (q ++ [.split] ++ .write d :: post) hi ht
  refine ⟨w0, w1, w2, w, k0, k1, k2, by rw [hlog]; exact k3, fun p hp hm hlo hhi => ?_⟩
  refine C39_markers hb _ _ d k0 k1 (by rw [run_append _ _ k1]; simp only [BWriter.run, k2]) k3 (S := w1.out.length)
    (.inr ⟨q, [], ?_⟩) hp hm hlo hhi
  refine ⟨q', rfl, by simp, hq', ?_⟩
  rw [run_append _ _ hq'] at k1
  simp only [BWriter.run] at k1
  cases k1
  rfl

/-- C34. What a reader refuses: a codec that is not registered, and an advanced file, both with
NotImplementedError. -/
theorem C34_block_file_refused {reg : Codecs} {name : Str} {num : Int} {a b : Bytes} (ha : pack (.str name) = .ok a)
    (hb : pack (.int num) = .ok b) (rest : Bytes) :
    (name ∉ dkeys reg → DocReader.new reg (Spec.ascii "Dmf1" ++ (a ++ rest)) = .error .notImplemented) ∧
    (DocReader.new reg (Spec.ascii "Dmf1" ++ (a ++ (b ++ 0xc3 :: rest))) = .error .notImplemented) := by
  have hm : Spec.ascii "Dmf1" = fileMagic := by decide
  have hl : fileMagic.length = 4 := rfl
  have key : ∀ (rest : Bytes), DocReader.new reg (fileMagic ++ (a ++ rest)) =
      match getCodec reg name with
      | .error e => .error e
      | .ok c =>
        match DocReader.must ⟨a ++ rest, a.length⟩ with
        | .error e => .error e
        | .ok (num, u) =>
          match DocReader.must u with
          | .error e => .error e
          | .ok (adv, u) =>
            match truthy adv with
            | .error e => .error e
            | .ok true => .error .notImplemented
            | .ok false => .ok ⟨fileMagic ++ (a ++ rest), 4, u, c.decompress, num, none, 0⟩ := by
    intro rest
    unfold DocReader.new
    have h4 : (fileMagic ++ (a ++ rest)).take 4 = fileMagic := by rw [← hl, List.take_left]
    have hd4 : (fileMagic ++ (a ++ rest)).drop 4 = a ++ rest := by rw [← hl, List.drop_left]
    obtain ⟨m1, -⟩ := must_pack (u := ⟨a ++ rest, 0⟩) ha (by trivial) (by rw [List.drop_zero])
    rw [if_neg (by rw [h4]; simp), hd4, m1]
    simp only [getCodecObj, Nat.zero_add]
    rfl
  constructor
  · intro hn
    rw [hm, key]
    simp only [getCodec, (dget_none_iff reg name).mpr hn]
  · rw [hm, key]
    cases hg : getCodec reg name with
    | error e =>
      unfold getCodec at hg
      split at hg
      · cases hg; rfl
      · cases hg
    | ok c =>
      have pt : pack (.bool true) = .ok [0xc3] := by decide
      obtain ⟨m2, d2⟩ := must_pack (u := ⟨a ++ (b ++ 0xc3 :: rest), a.length⟩) hb (by trivial) (by rw [List.drop_left])
      obtain ⟨m3, -⟩ := must_pack (u := ⟨a ++ (b ++ 0xc3 :: rest), a.length + b.length⟩) pt (by trivial) d2
      simp only [m2, m3, truthy]

/-- C42. A registered codec cannot be replaced; a new one is found under its name. -/
theorem C42_register (reg : Codecs) (name : Str) (f g : Bytes → Except PyErr Bytes) (alias : Option Str) :
    (∀ c, getCodec reg name = .ok c → registerCodec reg name f g alias = .error .value) ∧
    (∀ e, getCodec reg name = .error e → ∃ reg', registerCodec reg name f g alias = .ok reg' ∧
      getCodec reg' name = .ok ⟨alias.getD name, f, g⟩ ∧ ∀ n, n ≠ name → getCodec reg' n = getCodec reg n) := by
  unfold registerCodec getCodec
  cases h : dget reg name with
  | some c => simp
  | none =>
    refine ⟨by simp, fun _ _ => ⟨_, rfl, by simp [dget_dset], fun n hn => ?_⟩⟩
    simp only [dget_dset, if_neg hn.symm]

/-- a document on a boundary writer: 5000 bytes, its block starts at 12, the marker at 4096 points there -/
example :
    let big := Spec.ascii "DM_1" ++ List.replicate 5000 7
    ∃ s0, DocWriter.new true 1 ⟨"none".toList, .ok, .ok⟩ = .ok s0 ∧
      (match BWriter.new 12 with
      | .error _ => none
      | .ok w0 => match w0.run (s0.run [.write (.packed { raw := big, ref := none })]).log with
        | .error _ => none
        | .ok w => some (Spec.i32 ((w.out.drop 4096).take 4), (w.out.drop 12).take 6)) =
        some (some (12 - 4096), [0xc5, 0x13, 0x8f, 0xc5, 0x13, 0x8c]) := ⟨_, rfl, by decide +kernel⟩

/-- an advanced file and one with an unknown codec -/
example : (DocReader.new Ex.reg (Spec.ascii "Dmf1" ++ [0xa4] ++ Spec.ascii "none" ++ [2, 0xc3])).toOption.isNone = true ∧
    (DocReader.new Ex.reg (Spec.ascii "Dmf1" ++ [0xa4] ++ Spec.ascii "none" ++ [2, 0xc2])).toOption.isSome = true ∧
    (DocReader.new Ex.reg (Spec.ascii "Dmf1" ++ [0xa4] ++ Spec.ascii "nine" ++ [2, 0xc2])).toOption.isNone = true := by decide +kernel

end Verif
