import Verif.Model.BoundaryDocs
import Verif.Props.BoundaryReader
import Verif.Props.PyInput
/-
C114: the Python reader of block files on a boundary reader.
-/
set_option linter.unusedSimpArgs false
namespace Verif

/-- the boundary reader and a file object that holds the payload stand at the same place -/
structure InSim (b : Nat) (raw : Bytes) (r : BReader) (g : RawIn) : Prop where
  boundary : r.boundary = b
  file : r.raw = raw
  synced : Synced r
  rest : g.rest = (Spec.strip b raw).drop r.offset
  plan : g.plan = []
  place : (∃ i, r.offset = 4 + i * 2 ^ 20) ∨ raw.length ≤ r.pos

theorem synced_end {r : BReader} (hb : 12 ≤ r.boundary) (h : Synced r) : r.raw.length ≤ r.pos ↔ (Spec.strip r.boundary r.raw).length ≤ r.offset := by
  rcases h with ⟨h1, -⟩ | h
  · constructor
    · intro g
      exact strip_end hb (by omega)
    · intro g
      rcases Nat.lt_or_ge r.pos r.raw.length with hlt | hge
      · obtain ⟨p1, p2⟩ := toAbsolute_spec hb r.offset
        have := strip_get r.raw p1
        rw [p2, ← h1, List.getElem?_eq_getElem hlt] at this
        obtain ⟨h, -⟩ := List.getElem?_eq_some_iff.mp this
        omega
      · exact hge
  · exact ⟨fun _ => h.2, fun _ => h.1⟩

section
variable {b : Nat} {raw : Bytes} (hb : 12 ≤ b) (hend : Spec.isPay b raw.length = true) (H : ∀ i, i * 2 ^ 20 < raw.length → Spec.Safe b (4 + i * 2 ^ 20))
include hb hend H

theorem insim_read {r : BReader} {g : RawIn} {n : Nat} (hr1 : r.boundary = b) (hr2 : r.raw = raw) (h1 : Synced r)
    (h2 : g.rest = (Spec.strip b raw).drop r.offset) (h3 : g.plan = []) (hn : (∃ i, r.offset + n = 4 + i * 2 ^ 20) ∨ raw.length ≤ r.pos) :
    (r.read (some n)).2 = .ok (g.read n).2 ∧ InSim b raw (r.read (some n)).1 (g.read n).1 := by
  subst hr1 hr2
  have hr : g.read n = ({ g with rest := g.rest.drop n }, g.rest.take n) := by
    unfold RawIn.read
    rw [h3]
    simp [h3]
  rw [hr]
  by_cases he : r.raw.length ≤ r.pos
  · have hl := (synced_end hb h1).mp he
    rw [List.drop_of_length_le hl] at h2
    rw [read_end he, h2]
    exact ⟨by simp, rfl, rfl, h1, by simp [List.drop_of_length_le hl], h3, .inr he⟩
  · obtain ⟨i, hi⟩ := hn.resolve_right he
    obtain ⟨s', e1, e2, e3, e4, e5⟩ := read_some hb hend h1 (n := n) (by
      rcases Nat.lt_or_ge (i * 2 ^ 20) r.raw.length with g | g
      · exact .inl (by rw [hi]; exact H i g)
      · exact .inr (by rw [guess_eq]; omega))
    rw [e1]
    refine ⟨by rw [h2], e4, e3, e2, ?_, h3, ?_⟩
    · simp only [h2, List.drop_drop]
      rcases e5 with e5 | ⟨e5, e6⟩
      · rw [e5]
      · rw [List.drop_of_length_le e5, List.drop_of_length_le e6]
    · rcases e5 with e5 | ⟨e5, e6⟩
      · exact .inl ⟨i, by simp only [e5, hi]⟩
      · exact .inr (by
          have := (synced_end (r := s') (by rw [e4]; exact hb) e2).mpr (by rw [e3, e4]; exact e5)
          rw [e3] at this
          exact this)

omit H in
theorem left_eq {r : BReader} {g : RawIn} (h : InSim b raw r g) : r.left = g.rest.length := by
  have c := cnt_pay hb hend
  have := strip_length b raw
  unfold BReader.left
  rw [h.rest, h.file, h.boundary, List.length_drop]
  omega

/-- the unpackers on the two -/
structure USim (b : Nat) (raw : Bytes) (u : BUnpacker) (f : FUnpacker) : Prop where
  buf : u.buf = f.buf
  inp : InSim b raw u.inp f.inp
  eof : u.eof = f.eof
  used : u.used = f.used
  max : u.max = f.max
  lim : f.buf.length + f.inp.rest.length + 2 ^ 20 ≤ f.max + 5
  big : 2 ^ 20 ≤ f.max
  tells : f.inp.tells = true

theorem bpull_sim : ∀ (fuel : Nat) {u : BUnpacker} {f : FUnpacker}, USim b raw u f →
    (u.pull fuel).2 = (f.pull fuel).2 ∧ USim b raw (u.pull fuel).1 (f.pull fuel).1 := by
  intro fuel
  induction fuel with
  | zero => intro u f h; exact ⟨rfl, h⟩
  | succ fuel ih =>
    intro u f h
    obtain ⟨h1, h2, h3, h4, h5, h6, h7, h8⟩ := h
    unfold BUnpacker.pull FUnpacker.pull
    rw [h1, h3, h4, h5]
    cases hu : unpack f.buf with
    | ok x =>
      obtain ⟨o, r⟩ := x
      obtain ⟨c, e, -⟩ := Loc.unpack.ok _ _ _ hu
      have hle : r.length ≤ f.buf.length := by rw [e, List.length_append]; omega
      exact ⟨rfl, rfl, h2, rfl, rfl, rfl, by simp only; omega, h7, h8⟩
    | error e =>
      by_cases he : e = .outOfData
      · subst he
        simp only
        split
        · exact ⟨rfl, h1, h2, h3, h4, h5, h6, h7, h8⟩
        · split
          · exact ⟨rfl, h1, h2, h3, h4, h5, h6, h7, h8⟩
          · have hask : min (min f.max (2 ^ 20)) (f.max + 5 - f.buf.length) = 2 ^ 20 := by omega
            rw [hask]
            obtain ⟨g1, g2⟩ := insim_read hb hend H (n := 2 ^ 20) h2.boundary h2.file h2.synced h2.rest h2.plan (by
              rcases h2.place with ⟨i, hi⟩ | g
              · exact .inl ⟨i + 1, by rw [hi, Nat.add_mul]; omega⟩
              · exact .inr g)
            have hl : (f.inp.read (2 ^ 20)).2.length + (f.inp.read (2 ^ 20)).1.rest.length = f.inp.rest.length := by
              unfold RawIn.read
              rw [← List.length_append, List.take_append_drop]
            have ht : (f.inp.read (2 ^ 20)).1.tells = true := h8
            generalize u.inp.read (some (2 ^ 20)) = x at g1 g2
            generalize f.inp.read (2 ^ 20) = y at g1 g2 hl ht
            obtain ⟨r', q⟩ := x
            obtain ⟨g', z⟩ := y
            simp only at g1 g2 hl ht
            subst g1
            simp only
            by_cases hz : z = []
            · rw [if_pos hz, if_pos hz]
              subst hz
              exact ih ⟨rfl, g2, rfl, rfl, rfl, by simp only [List.length_nil] at hl ⊢; omega, h7, ht⟩
            · rw [if_neg hz, if_neg hz]
              exact ih ⟨rfl, g2, rfl, rfl, rfl, by simp only [List.length_append]; omega, h7, ht⟩
      · cases e <;> first | exact absurd rfl he | exact ⟨rfl, h1, h2, h3, h4, h5, h6, h7, h8⟩

theorem bnext_sim {u : BUnpacker} {f : FUnpacker} (h : USim b raw u f) : u.next.2 = f.next.2 ∧ USim b raw u.next.1 f.next.1 := by
  unfold BUnpacker.next FUnpacker.next
  rw [left_eq hb hend h.inp]
  exact bpull_sim hb hend H _ h

theorem bmust_sim {u : BUnpacker} {f : FUnpacker} (h : USim b raw u f) :
    (∃ e, u.must = .error e ∧ f.must = .error e) ∨ ∃ o u' f', u.must = .ok (o, u') ∧ f.must = .ok (o, f') ∧ USim b raw u' f' := by
  obtain ⟨h1, h2⟩ := bnext_sim hb hend H h
  unfold BUnpacker.must FUnpacker.must
  generalize u.next = x at h1 h2
  generalize f.next = y at h1 h2
  obtain ⟨u', q⟩ := x
  obtain ⟨f', q'⟩ := y
  simp only at h1 h2
  subst h1
  cases q with
  | error e => exact .inl ⟨e, rfl, rfl⟩
  | ok q =>
    cases q with
    | none => exact .inl ⟨_, rfl, rfl⟩
    | some o => exact .inr ⟨o, u', f', rfl, rfl, h2⟩

/-- the document readers on the two -/
structure DSim (b : Nat) (raw : Bytes) (d : BDocs) (f : FReader) : Prop where
  len : d.len = f.len
  unp : USim b raw d.unp f.unp
  codec : d.codec = f.codec
  num : d.num = f.num
  block : d.block = f.block
  lastpos : d.lastpos = f.lastpos

theorem breadblock_sim {d : BDocs} {f : FReader} (h : DSim b raw d f) : d.readblock.2 = f.readblock.2 ∧ DSim b raw d.readblock.1 f.readblock.1 := by
  obtain ⟨h1, h2, h3, h4, h5, h6⟩ := h
  obtain ⟨g1, g2⟩ := bnext_sim hb hend H h2
  have hu := h2.used
  unfold BDocs.readblock FReader.readblock
  simp only
  rw [hu, h3]
  generalize d.unp.next = x at g1 g2
  generalize f.unp.next = y at g1 g2
  obtain ⟨u', q⟩ := x
  obtain ⟨f', q'⟩ := y
  simp only at g1 g2
  subst g1
  cases q with
  | error e => exact ⟨rfl, h1, g2, rfl, h4, h5, rfl⟩
  | ok q =>
    cases q with
    | none => exact ⟨rfl, h1, g2, rfl, h4, h5, rfl⟩
    | some o =>
      cases o <;> first | exact ⟨rfl, h1, g2, rfl, h4, h5, rfl⟩ | skip
      rename_i z
      simp only
      cases f.codec z <;> exact ⟨rfl, h1, g2, rfl, h4, h5, rfl⟩

omit hb hend H in
theorem bfromBlock_sim {d : BDocs} {f : FReader} (h : DSim b raw d f) (k : Block) :
    (d.fromBlock k).2 = (f.fromBlock k).2 ∧ DSim b raw (d.fromBlock k).1 (f.fromBlock k).1 := by
  obtain ⟨h1, h2, h3, h4, h5, h6⟩ := h
  have hm := h2.max
  unfold BDocs.fromBlock FReader.fromBlock
  rw [hm, h6]
  split
  · exact ⟨rfl, h1, h2, h3, h4, rfl, rfl⟩
  · generalize k.unp.next = x
    obtain ⟨u, q⟩ := x
    cases q with
    | error e => exact ⟨rfl, h1, h2, h3, h4, rfl, rfl⟩
    | ok o =>
      by_cases ho : o = .nil
      · subst ho
        exact ⟨rfl, h1, h2, h3, h4, rfl, rfl⟩
      · cases o <;> first
          | exact absurd rfl ho
          | (simp only
             generalize MDoc.ofObj _ _ = w
             cases w <;> exact ⟨rfl, h1, h2, h3, h4, rfl, rfl⟩)

theorem bnextLoop_sim : ∀ (fuel : Nat) {d : BDocs} {f : FReader}, DSim b raw d f →
    (d.nextLoop fuel).2 = (f.nextLoop fuel).2 ∧ DSim b raw (d.nextLoop fuel).1 (f.nextLoop fuel).1 := by
  intro fuel
  induction fuel with
  | zero => intro d f h; exact ⟨rfl, h⟩
  | succ fuel ih =>
    intro d f h
    obtain ⟨g1, g2⟩ := breadblock_sim hb hend H h
    unfold BDocs.nextLoop FReader.nextLoop
    generalize d.readblock = x at g1 g2
    generalize f.readblock = y at g1 g2
    obtain ⟨d', q⟩ := x
    obtain ⟨f', q'⟩ := y
    simp only at g1 g2
    subst g1
    cases q with
    | error e => exact ⟨rfl, g2⟩
    | ok q =>
      cases q with
      | none => exact ⟨rfl, g2⟩
      | some k =>
        obtain ⟨k1, k2⟩ := bfromBlock_sim (d := { d' with block := some k }) (f := { f' with block := some k })
          ⟨g2.len, g2.unp, g2.codec, g2.num, rfl, g2.lastpos⟩ k
        simp only
        generalize BDocs.fromBlock _ k = x at k1 k2
        generalize FReader.fromBlock _ k = y at k1 k2
        obtain ⟨d', q⟩ := x
        obtain ⟨f', q'⟩ := y
        simp only at k1 k2
        subst k1
        cases q with
        | error e => exact ⟨rfl, k2⟩
        | ok q =>
          cases q with
          | none => exact ih k2
          | some m => exact ⟨rfl, k2⟩

theorem bdnext_sim {d : BDocs} {f : FReader} (h : DSim b raw d f) : d.next.2 = f.next.2 ∧ DSim b raw d.next.1 f.next.1 := by
  unfold BDocs.next FReader.next
  rw [h.block]
  cases f.block with
  | none =>
    simp only [h.len]
    exact bnextLoop_sim hb hend H _ h
  | some k =>
    obtain ⟨k1, k2⟩ := bfromBlock_sim h k
    simp only
    generalize BDocs.fromBlock _ k = x at k1 k2
    generalize FReader.fromBlock _ k = y at k1 k2
    obtain ⟨d', q⟩ := x
    obtain ⟨f', q'⟩ := y
    simp only at k1 k2
    subst k1
    cases q with
    | error e => exact ⟨rfl, k2⟩
    | ok q =>
      cases q with
      | none =>
        simp only [k2.len]
        exact bnextLoop_sim hb hend H _ k2
      | some m => exact ⟨rfl, k2⟩

theorem bdnexts_sim : ∀ (n : Nat) {d : BDocs} {f : FReader}, DSim b raw d f → d.nexts n = f.nexts n := by
  intro n
  induction n with
  | zero => intros; rfl
  | succ n ih =>
    intro d f h
    obtain ⟨h1, h2⟩ := bdnext_sim hb hend H h
    unfold BDocs.nexts FReader.nexts
    rw [h1, ih h2]

theorem bdnew_sim {reg : Codecs} {max : Nat} {r : BReader} (h0 : r.raw = raw) (h1 : r.boundary = b) (h2 : r.offset = 0) (h3 : r.pos = 1)
    (hm : (Spec.strip b raw).length + 2 ^ 20 ≤ max + 5) (hmax : 2 ^ 20 ≤ max) :
    (∃ e, BDocs.new reg max r = .error e ∧ FReader.new reg max ⟨Spec.strip b raw, [], true⟩ = .error e) ∨
    ∃ d f, BDocs.new reg max r = .ok d ∧ FReader.new reg max ⟨Spec.strip b raw, [], true⟩ = .ok f ∧ DSim b raw d f := by
  have hs : Synced r := start_synced (by rw [h1]; exact hb) h2 h3
  obtain ⟨g1, g2⟩ := insim_read hb hend H (g := ⟨Spec.strip b raw, [], true⟩) (n := 4) h1 h0 hs (by rw [h2]; rfl) rfl (.inl ⟨0, by rw [h2]⟩)
  have hleft : r.left = (Spec.strip b raw).length := by
    have c := cnt_pay hb hend
    have := strip_length b raw
    unfold BReader.left
    rw [h0, h1, h2]
    omega
  have hg : (RawIn.read ⟨Spec.strip b raw, [], true⟩ 4).1.rest.length ≤ (Spec.strip b raw).length ∧ (RawIn.read ⟨Spec.strip b raw, [], true⟩ 4).1.tells = true := by
    unfold RawIn.read
    simp only [List.length_drop]
    exact ⟨by omega, trivial⟩
  unfold BDocs.new FReader.new
  rw [hleft]
  generalize r.read (some 4) = x at g1 g2
  generalize RawIn.read ⟨Spec.strip b raw, [], true⟩ 4 = y at g1 g2 hg
  obtain ⟨r', q⟩ := x
  obtain ⟨g', z⟩ := y
  simp only at g1 g2 hg
  subst g1
  simp only
  split
  · exact .inl ⟨_, rfl, rfl⟩
  · rcases bmust_sim hb hend H (u := ⟨[], r', false, 0, max⟩) (f := ⟨[], g', false, 0, max⟩) ⟨rfl, g2, rfl, rfl, rfl, by simp only [List.length_nil]; omega, hmax, hg.2⟩ with
      ⟨e, e1, e2⟩ | ⟨o1, u1, f1, e1, e2, e3⟩
    · rw [e1, e2]; exact .inl ⟨e, rfl, rfl⟩
    rw [e1, e2]
    simp only
    cases getCodecObj reg o1 with
    | error e => exact .inl ⟨e, rfl, rfl⟩
    | ok c =>
      simp only
      rcases bmust_sim hb hend H e3 with ⟨e, e1, e2⟩ | ⟨o2, u2, f2, e1, e2, e4⟩
      · rw [e1, e2]; exact .inl ⟨e, rfl, rfl⟩
      rw [e1, e2]
      simp only
      rcases bmust_sim hb hend H e4 with ⟨e, e1, e2⟩ | ⟨o3, u3, f3, e1, e2, e5⟩
      · rw [e1, e2]; exact .inl ⟨e, rfl, rfl⟩
      rw [e1, e2]
      simp only
      cases truthy o3 with
      | error e => exact .inl ⟨e, rfl, rfl⟩
      | ok t =>
        cases t with
        | true => exact .inl ⟨_, rfl, rfl⟩
        | false =>
          simp only [e5.tells, if_true]
          exact .inr ⟨_, _, rfl, rfl, rfl, e5, rfl, rfl, rfl, rfl⟩

end

/-- the reads of the unpacker end at safe places, if the file has fewer than a quarter of 2^b segments -/
theorem unpacker_safe {b len : Nat} (hb : 12 ≤ b ∧ b ≤ 20) (hl : 4 * (len / 2 ^ b) + 8 ≤ 2 ^ b) (i : Nat) (hi : i * 2 ^ 20 < len) : Spec.Safe b (4 + i * 2 ^ 20) := by
  have hB := pow_big hb.1
  have e : (2 : Nat) ^ 20 = 2 ^ (20 - b) * 2 ^ b := by rw [← Nat.pow_add]; congr 1; omega
  rw [e, ← Nat.mul_assoc] at hi ⊢
  generalize i * 2 ^ (20 - b) = q at *
  have hq : q ≤ len / 2 ^ b := (Nat.le_div_iff_mul_le (by omega)).mpr (by omega)
  intro k hk ⟨g1, g2⟩
  have hkq : q < k := by
    rcases Nat.lt_or_ge q k with g | g
    · exact g
    · have : k * 2 ^ b ≤ q * 2 ^ b := Nat.mul_le_mul_right _ g
      omega
  obtain ⟨t, rfl⟩ : ∃ t, k = q + 1 + t := ⟨k - q - 1, by omega⟩
  have h4 : 4 * t ≤ t * 2 ^ b := by rw [Nat.mul_comm]; exact Nat.mul_le_mul_left _ (by omega)
  rw [Nat.add_mul, Nat.add_mul] at g1
  omega

namespace Spec

/-- a document reader on a boundary reader on the file yields exactly these documents, and then StopIteration for ever -/
def BYields (reg : Codecs) (max : Nat) (file : Bytes) (docs : List Bytes) : Prop :=
  ∃ r d, BReader.new file = .ok r ∧ BDocs.new reg max r = .ok d ∧ ∀ k,
    (d.nexts (docs.length + k)).map (fun x => x.map MDoc.raw) = docs.map .ok ++ List.replicate k (.error .stopIteration)

end Spec

/-- C114. Through a boundary reader a document reader sees the payload, whatever is in it: it does what it does on a file
that is the payload. For boundaries up to 20, the default; files that do not end before a marker, have fewer than a quarter of 2^b segments and
fit into the unpacker's buffer with a read to spare.
Missing: other files; for those that end before a marker it is false (`C114_open_false`, `C114_end_false`). -/
theorem C114_payload_partial {b : Nat} (hb : 12 ≤ b ∧ b ≤ 20) (ops : List BWriter.Op) {s0 s : BWriter} (h0 : BWriter.new b = .ok s0) (h : s0.run ops = .ok s)
    (hend : ¬ 2 ^ b ∣ s.out.length) (hl : 4 * (s.out.length / 2 ^ b) + 8 ≤ 2 ^ b) {reg : Codecs} {max : Nat} (hm : (Spec.payload ops).length + 2 ^ 20 ≤ max + 5)
    (hmax : 2 ^ 20 ≤ max) :
    ∃ r, BReader.new s.out = .ok r ∧
      match FReader.new reg max ⟨Spec.payload ops, [], true⟩ with
      | .error e => BDocs.new reg max r = .error e
      | .ok f => ∃ d, BDocs.new reg max r = .ok d ∧ ∀ n, d.nexts n = f.nexts n := by
  obtain ⟨r, e, r1, r2, r3, r4, g2, g3⟩ := reader_of (b := b) (by omega) ops h0 h
  have hpos : 0 < s.out.length := by
    cases ho : s.out with
    | nil => rw [ho] at e; cases e
    | cons a l => simp
  have hp := end_pay hb.1 g3 hend hpos
  refine ⟨r, e, ?_⟩
  have hsafe := unpacker_safe hb hl
  rw [← g2] at hm ⊢
  rcases bdnew_sim hb.1 hp hsafe (reg := reg) r1 r2 r3 r4 hm hmax with ⟨x, x1, x2⟩ | ⟨d, f, x1, x2, x3⟩
  · rw [x2]; exact x1
  · rw [x2]
    exact ⟨d, x1, fun n => bdnexts_sim hb.1 hp hsafe n x3⟩

/-- C114. The documents that were written are read: what a document writer writes to a boundary writer, its header and its blocks, in
whatever calls. -/
theorem C114_written_partial {b : Nat} (hb : 12 ≤ b ∧ b ≤ 20) (ops : List BWriter.Op) {s0 s : BWriter} (h0 : BWriter.new b = .ok s0) (h : s0.run ops = .ok s)
    (hend : ¬ 2 ^ b ∣ s.out.length) (hl : 4 * (s.out.length / 2 ^ b) + 8 ≤ 2 ^ b)
    {reg : Codecs} {max : Nat} {name : Str} {f : Bytes → Bytes} {num : Int} {hd : Bytes} {bs : List (List Bytes)}
    (hm : (Spec.payload ops).length + 2 ^ 20 ≤ max + 5) (hmax : 2 ^ 20 ≤ max)
    (hu : Spec.Undoes reg name f) (hh : Header name num hd) (hp : Spec.payload ops = hd ++ Spec.blocksBytes f bs)
    (hd1 : ∀ ds ∈ bs, (f (Spec.blockData ds)).length < 2 ^ 32 ∧ (f (Spec.blockData ds)).length ≤ max)
    (hd2 : ∀ ds ∈ bs, ∀ d ∈ ds, d.length < 2 ^ 32 ∧ d.length ≤ max ∧ Spec.ascii "DM_1" <+: d) :
    Spec.BYields reg max s.out bs.flatten := by
  have hhl : hd.length ≤ max := by
    have := congrArg List.length hp
    rw [List.length_append] at this
    omega
  obtain ⟨g, g1, g2⟩ := (C111_written_partial (docs := []) (i := ⟨Spec.payload ops, [], true⟩) hu hh
    ⟨(fun k hk => nomatch hk), Nat.le_refl _, rfl⟩ (by rw [hp]; exact List.prefix_rfl) hhl hd1 hd2).2 hp
  obtain ⟨r, e, x⟩ := C114_payload_partial hb ops h0 h hend hl (reg := reg) hm hmax
  rw [g1] at x
  obtain ⟨d, x1, x2⟩ := x
  exact ⟨r, d, e, x1, fun k => by rw [x2]; exact g2 k⟩

namespace Ex

/-- the header and a block, with a document of `n` bytes and five, in segments of 4096 bytes -/
def docOps (n : Nat) : List BWriter.Op :=
  [.write fileMagic, .write [0xa4, 110, 111, 110, 101], .write [2], .write [0xc2], .split, .write (Spec.blockBytes id [tinyDoc 65 ++ List.replicate n 7]), .split]

/-- the file -/
def docFile (n : Nat) : Bytes := ((BWriter.new 12).toOption.bind (fun s => (s.run (docOps n)).toOption)).elim [] BWriter.out

/-- what a document reader makes of it: `none` if it cannot be opened, or the sizes of what two calls yield -/
def docRead (n : Nat) : Option (Option (List (Option Nat))) :=
  (BReader.new (docFile n)).toOption.map (fun r => (BDocs.new [("none".toList, plain)] 104857600 r).toOption.map (fun d => (d.nexts 2).map (fun x => (x.map (fun m => m.raw.length)).toOption)))

/-- such a file is read, if it does not end where a marker would be -/
theorem doc_yields (n : Nat) (hend : ¬ 2 ^ 12 ∣ (docFile n).length) (hl : (docFile n).length < 8192) (hn : (Spec.payload (docOps n)).length ≤ 8192)
    (h1 : (Spec.blockData [tinyDoc 65 ++ List.replicate n 7]).length ≤ 8192) (h2 : n ≤ 8000) :
    Spec.BYields [("none".toList, plain)] 104857600 (docFile n) [tinyDoc 65 ++ List.replicate n 7] := by
  obtain ⟨s0, s, g0, g1, -⟩ := C38_layout (b := 12) (by omega) (docOps n)
  have e : docFile n = s.out := by unfold docFile; rw [g0]; simp only [Except.toOption, Option.bind_some, g1, Option.elim_some]
  have h5 : (tinyDoc 65).length = 5 := by decide +kernel
  rw [e] at hend hl ⊢
  refine C114_written_partial (by omega) (docOps n) g0 g1 hend (by omega) (bs := [[tinyDoc 65 ++ List.replicate n 7]]) (by omega) (by omega) plainUndoes
    plainHeader rfl ?_ ?_
  · intro ds hds
    simp only [List.mem_singleton] at hds
    subst hds
    simp only [id]
    omega
  · intro ds hds d hd'
    simp only [List.mem_singleton] at hds
    subst hds
    simp only [List.mem_singleton] at hd'
    subst hd'
    simp only [List.length_append, List.length_replicate, h5]
    exact ⟨by omega, by omega, ⟨[65] ++ List.replicate n 7, by simp [tinyDoc]⟩⟩

end Ex

/-- the hypotheses of C114_written_partial, and so of C114_payload_partial, hold: for a file that ends a byte before the place of the next marker, and for one
that ends a byte behind that marker -/
example : (Spec.BYields [("none".toList, Ex.plain)] 104857600 (Ex.docFile 4072) [Ex.tinyDoc 65 ++ List.replicate 4072 7] ∧ (Ex.docFile 4072).length = 4095) ∧
    Spec.BYields [("none".toList, Ex.plain)] 104857600 (Ex.docFile 4074) [Ex.tinyDoc 65 ++ List.replicate 4074 7] ∧ (Ex.docFile 4074).length = 4101 := by
  have e1 : (Ex.docFile 4072).length = 4095 := by decide +kernel
  have e2 : (Ex.docFile 4074).length = 4101 := by decide +kernel
  exact ⟨⟨Ex.doc_yields 4072 (by omega) (by omega) (by decide +kernel) (by decide +kernel) (by omega), e1⟩,
    Ex.doc_yields 4074 (by omega) (by omega) (by decide +kernel) (by decide +kernel) (by omega), e2⟩

/-- C114 fails: a file that ends where the next marker would be cannot even be opened, as the unpacker reads to the end. -/
theorem C114_end_false : (Ex.docFile 4073).length = 2 ^ 12 ∧ Ex.docRead 4073 = some none :=
  ⟨by decide +kernel, by decide +kernel⟩

/-- C114 fails for every file of up to 1 MiB that ends where the next marker would be: it cannot be opened, with whatever codecs and whatever is in it. -/
theorem C114_open_false {b : Nat} (hb : 12 ≤ b ∧ b ≤ 30) (ops : List BWriter.Op) {s0 s : BWriter} (h0 : BWriter.new b = .ok s0) (h : s0.run ops = .ok s)
    (hend : 2 ^ b ∣ s.out.length) (hl : s.out.length ≤ 2 ^ 20) (reg : Codecs) {max : Nat} (hmax : 2 ^ 20 ≤ max) :
    ∃ r, BReader.new s.out = .ok r ∧ (BDocs.new reg max r = .error .io ∨ BDocs.new reg max r = .error .assertion ∨ BDocs.new reg max r = .error .value) := by
  have hB := pow_big hb.1
  obtain ⟨r, e, r1, r2, r3, r4, g2, g3⟩ := reader_of hb ops h0 h
  have hpos : 0 < s.out.length := by
    cases ho : s.out with
    | nil => rw [ho] at e; cases e
    | cons a l => simp
  have hge := Nat.le_of_dvd hpos hend
  have hb' : 12 ≤ r.boundary := by omega
  refine ⟨r, e, ?_⟩
  have h5 : Spec.isPay b 5 = true := by
    simp [Spec.isPay, Nat.mod_eq_of_lt (show 5 < 2 ^ b by omega)]
  have c5 := cnt_pay hb.1 h5
  rw [Nat.div_eq_of_lt (show 5 < 2 ^ b by omega)] at c5
  have gu : ∀ o, o + 1 < 2 ^ b → BReader.guess b o = o + 1 := fun o ho => by
    rw [guess_eq, Nat.div_eq_of_lt ho]; omega
  rcases start_synced hb' r3 r4 with ⟨s1, s2⟩ | ⟨s1, -⟩
  · have hr := read_slice hb' (n := some 4) (stop := 5) s1 s2 (by rw [r2]; exact h5) (by omega) (by rw [r1]; omega) (by
      simp only [BReader.rawPart, slice, r2, r3, r4]
      rw [gu 0 (by omega), gu _ (by omega)])
    have hc : cnt r.boundary 5 = 4 := by rw [r2]; omega
    rw [hc] at hr
    unfold BDocs.new
    rw [hr]
    simp only
    split
    · exact .inl rfl
    · have hs : BReader.toAbsolute b 4 = 5 := by
        unfold BReader.toAbsolute
        rw [Nat.shiftLeft_eq, Nat.one_mul, if_pos (by omega)]
      have ha := read_aligned (s := { r with pos := 5, offset := 4 }) hb' (n := some (2 ^ 20)) (stop := s.out.length) (by simp only [r2, hs])
        (by simp only [r2]; rw [gu _ (by omega)]) (by simp only [r2]; exact hend) (by simp only; omega) (by simp only [r1]; exact Nat.le_refl _) (by
          simp only [BReader.rawPart, slice, r1, r2]
          rw [gu 4 (by omega), guess_eq, List.take_of_length_le (by rw [List.length_drop]; omega), List.take_of_length_le (by rw [List.length_drop]; omega)])
      have hm : min (min max (2 ^ 20)) (max + 5 - 0) = 2 ^ 20 := by omega
      unfold BUnpacker.must BUnpacker.next
      rw [show ∀ x : Nat, x + 2 = (x + 1) + 1 from fun _ => rfl]
      unfold BUnpacker.pull
      simp only [show unpack [] = .error .outOfData from rfl, Bool.false_eq_true, if_false, List.length_nil]
      rw [if_neg (by omega), hm]
      generalize BReader.read _ (some (2 ^ 20)) = x at ha
      obtain ⟨x, y⟩ := x
      simp only at ha
      rcases ha with rfl | rfl
      · exact .inr (.inl rfl)
      · exact .inr (.inr rfl)
  · rw [r1, r4] at s1; omega

/-- the hypotheses of C114_open_false hold -/
example : ∃ r, BReader.new (Ex.docFile 4073) = .ok r ∧ (BDocs.new [("none".toList, Ex.plain)] 104857600 r = .error .io ∨
    BDocs.new [("none".toList, Ex.plain)] 104857600 r = .error .assertion ∨ BDocs.new [("none".toList, Ex.plain)] 104857600 r = .error .value) := by
  obtain ⟨s0, s, g0, g1, -⟩ := C38_layout (b := 12) (by omega) (Ex.docOps 4073)
  have e : Ex.docFile 4073 = s.out := by unfold Ex.docFile; rw [g0]; simp only [Except.toOption, Option.bind_some, g1, Option.elim_some]
  have hl := C114_end_false.1
  rw [e] at hl ⊢
  exact C114_open_false (by omega) _ g0 g1 (by rw [hl]; exact Nat.dvd_refl _) (by omega) _ (by omega)

/-- C114 in full: what was written to a boundary writer is read through a boundary reader, wherever the file ends -/
def C114_full : Prop := ∀ (b : Nat), 12 ≤ b ∧ b ≤ 20 → ∀ (ops : List BWriter.Op) (s0 s : BWriter), BWriter.new b = .ok s0 → s0.run ops = .ok s →
  ∀ (reg : Codecs) (max : Nat) (name : Str) (f : Bytes → Bytes) (num : Int) (hd : Bytes) (bs : List (List Bytes)),
  (Spec.payload ops).length + 2 ^ 20 ≤ max + 5 → 2 ^ 20 ≤ max → Spec.Undoes reg name f → Header name num hd →
  Spec.payload ops = hd ++ Spec.blocksBytes f bs →
  (∀ ds ∈ bs, (f (Spec.blockData ds)).length < 2 ^ 32 ∧ (f (Spec.blockData ds)).length ≤ max) →
  (∀ ds ∈ bs, ∀ d ∈ ds, d.length < 2 ^ 32 ∧ d.length ≤ max ∧ Spec.ascii "DM_1" <+: d) → Spec.BYields reg max s.out bs.flatten

theorem full_doc (H : C114_full) (n : Nat) (hn : (Spec.payload (Ex.docOps n)).length ≤ 8192)
    (h1 : (Spec.blockData [Ex.tinyDoc 65 ++ List.replicate n 7]).length ≤ 8192) (h2 : n ≤ 8000) :
    Spec.BYields [("none".toList, Ex.plain)] 104857600 (Ex.docFile n) [Ex.tinyDoc 65 ++ List.replicate n 7] := by
  obtain ⟨s0, s, g0, g1, -⟩ := C38_layout (b := 12) (by omega) (Ex.docOps n)
  have e : Ex.docFile n = s.out := by unfold Ex.docFile; rw [g0]; simp only [Except.toOption, Option.bind_some, g1, Option.elim_some]
  have h5 : (Ex.tinyDoc 65).length = 5 := by decide +kernel
  rw [e]
  refine H 12 (by omega) (Ex.docOps n) s0 s g0 g1 _ _ _ id 2 Ex.plainHead [[Ex.tinyDoc 65 ++ List.replicate n 7]] (by omega) (by omega) Ex.plainUndoes
    Ex.plainHeader rfl ?_ ?_
  · intro ds hds
    simp only [List.mem_singleton] at hds
    subst hds
    simp only [id]
    omega
  · intro ds hds d hd'
    simp only [List.mem_singleton] at hds
    subst hds
    simp only [List.mem_singleton] at hd'
    subst hd'
    simp only [List.length_append, List.length_replicate, h5]
    exact ⟨by omega, by omega, ⟨[65] ++ List.replicate n 7, by simp [Ex.tinyDoc]⟩⟩

theorem C114_full_false : ¬ C114_full := by
  intro H
  obtain ⟨r, d, k1, k2, -⟩ := full_doc H 4073 (by decide +kernel) (by decide +kernel) (by omega)
  have hf := C114_end_false.2
  unfold Ex.docRead at hf
  rw [k1] at hf
  simp only [Except.toOption, Option.map_some, k2] at hf
  cases hf

end Verif
