import Verif.Model.BlockFile
import Verif.Props.MsgpackCodec
/-
Reading block files: the reader is a cursor over the references of the file.
-/
set_option linter.unusedSimpArgs false
namespace Verif

namespace Spec

/-- a MessagePack bin -/
def bpack (d : Bytes) : Bytes :=
  match pack (.bin d) with
  | .ok b => b
  | .error _ => []

/-- the uncompressed contents of a block: its documents one after the other -/
def blockData (ds : List Bytes) : Bytes := (ds.map bpack).flatten

/-- a block in the file -/
def blockBytes (comp : Bytes → Bytes) (ds : List Bytes) : Bytes := bpack (comp (blockData ds))

/-- several blocks in the file -/
def blocksBytes (comp : Bytes → Bytes) (bs : List (List Bytes)) : Bytes := (bs.map (blockBytes comp)).flatten

/-- the references of the documents of a block at position `p`, the first at offset `o` -/
def docRefs (p : Nat) : Nat → List Bytes → List ((Nat × Nat) × Bytes)
  | _, [] => []
  | o, d :: ds => ((p, o), d) :: docRefs p (o + (bpack d).length) ds

/-- the references of all documents, blocks starting at position `p` -/
def refs (comp : Bytes → Bytes) : Nat → List (List Bytes) → List ((Nat × Nat) × Bytes)
  | _, [] => []
  | p, ds :: bs => docRefs p 0 ds ++ refs comp (p + (blockBytes comp ds).length) bs

end Spec

/-- what there is in a block file -/
structure BF where
  hd : Bytes
  comp : Bytes → Bytes
  dec : Bytes → Except PyErr Bytes
  blocks : List (List Bytes)
  tail : Bytes

namespace BF

def raw (f : BF) : Bytes := f.hd ++ Spec.blocksBytes f.comp f.blocks ++ f.tail

/-- all references -/
def refs (f : BF) : List ((Nat × Nat) × Bytes) := Spec.refs f.comp f.hd.length f.blocks

structure Ok (f : BF) : Prop where
  tail : unpack f.tail = .error .outOfData
  zfit : ∀ ds ∈ f.blocks, (f.comp (Spec.blockData ds)).length < 2 ^ 32
  dec : ∀ ds ∈ f.blocks, f.dec (f.comp (Spec.blockData ds)) = .ok (Spec.blockData ds)
  fit : ∀ ds ∈ f.blocks, ∀ d ∈ ds, d.length < 2 ^ 32
  magic : ∀ ds ∈ f.blocks, ∀ d ∈ ds, d.take 4 = magic

/-- the same without saying what follows the blocks -/
structure Fine (f : BF) : Prop where
  zfit : ∀ ds ∈ f.blocks, (f.comp (Spec.blockData ds)).length < 2 ^ 32
  dec : ∀ ds ∈ f.blocks, f.dec (f.comp (Spec.blockData ds)) = .ok (Spec.blockData ds)
  fit : ∀ ds ∈ f.blocks, ∀ d ∈ ds, d.length < 2 ^ 32
  magic : ∀ ds ∈ f.blocks, ∀ d ∈ ds, d.take 4 = magic

theorem Ok.fine {f : BF} (h : f.Ok) : f.Fine := ⟨h.zfit, h.dec, h.fit, h.magic⟩

end BF

/-- the MsgpackDocument that a reader makes of a document and its reference -/
def docOf (e : (Nat × Nat) × Bytes) : MDoc := { raw := e.2, ref := some (refVal e.1) }

theorem pack_bin {d : Bytes} (h : d.length < 2 ^ 32) : pack (.bin d) = .ok (Spec.bpack d) := by
  obtain ⟨b, hb⟩ := C30_packs (.bin d) (by simpa [Spec.Fits] using h)
  unfold Spec.bpack; rw [hb]

theorem unpack_bpack {d : Bytes} (h : d.length < 2 ^ 32) (rest : Bytes) : unpack (Spec.bpack d ++ rest) = .ok (.bin d, rest) :=
  C30_unpack_pack (pack_bin h) (by trivial) rest

theorem unpack_nil : unpack [] = .error .outOfData := by decide

theorem bpack_pos {d : Bytes} (h : d.length < 2 ^ 32) : 0 < (Spec.bpack d).length := by
  rcases Nat.eq_zero_or_pos (Spec.bpack d).length with h0 | h0
  · have := unpack_bpack h []
    rw [List.eq_nil_of_length_eq_zero h0, List.append_nil, unpack_nil] at this
    cases this
  · exact h0

theorem next_bpack {u : Unpacker} {d rest : Bytes} (h : d.length < 2 ^ 32) (hu : u.src.drop u.used = Spec.bpack d ++ rest) :
    u.next = (⟨u.src, u.used + (Spec.bpack d).length⟩, .ok (.bin d)) := by
  unfold Unpacker.next
  rw [hu, unpack_bpack h, List.length_append]
  simp

theorem next_end {u : Unpacker} (hu : unpack (u.src.drop u.used) = .error .outOfData) : u.next = (u, .ok .nil) := by
  unfold Unpacker.next
  rw [hu]

theorem ofObj_ok {d : Bytes} (h : d.take 4 = magic) (ref : Nat × Nat) : MDoc.ofObj (.bin d) ref = .ok (docOf (ref, d)) := by
  simp only [MDoc.ofObj, MDoc.ofBytes, h, ne_eq, not_true_eq_false, if_false, docOf]

theorem blockData_append (a b : List Bytes) : Spec.blockData (a ++ b) = Spec.blockData a ++ Spec.blockData b := by
  simp [Spec.blockData]

theorem blockData_cons (d : Bytes) (b : List Bytes) : Spec.blockData (d :: b) = Spec.bpack d ++ Spec.blockData b := by
  simp [Spec.blockData]

theorem blocksBytes_append (c) (a b : List (List Bytes)) : Spec.blocksBytes c (a ++ b) = Spec.blocksBytes c a ++ Spec.blocksBytes c b := by
  simp [Spec.blocksBytes]

theorem blocksBytes_cons (c) (d : List Bytes) (b : List (List Bytes)) :
    Spec.blocksBytes c (d :: b) = Spec.blockBytes c d ++ Spec.blocksBytes c b := by
  simp [Spec.blocksBytes]

/-- the unpacker of the reader stands between `pre` and `post` -/
structure Pos (f : BF) (r : DocReader) (pre post : List (List Bytes)) : Prop where
  raw : r.raw = f.raw
  codec : r.codec = f.dec
  src : r.unp.src = f.raw.drop r.base
  split : f.blocks = pre ++ post
  pos : r.unp.used + r.base = f.hd.length + (Spec.blocksBytes f.comp pre).length

theorem raw_drop (f : BF) {pre post : List (List Bytes)} (h : f.blocks = pre ++ post) :
    f.raw.drop (f.hd.length + (Spec.blocksBytes f.comp pre).length) = Spec.blocksBytes f.comp post ++ f.tail := by
  unfold BF.raw
  rw [h, blocksBytes_append, List.append_assoc, List.append_assoc, ← List.append_assoc f.hd]
  rw [← List.length_append, List.drop_left]

theorem Pos.drop {f : BF} {r pre post} (h : Pos f r pre post) : r.unp.src.drop r.unp.used = Spec.blocksBytes f.comp post ++ f.tail := by
  rw [h.src, List.drop_drop, Nat.add_comm, h.pos, raw_drop f h.split]

/-- readblock() with a block following -/
theorem readblock_some {f : BF} (hf : f.Fine) {r pre ds post} (h : Pos f r pre (ds :: post)) :
    ∃ r', r.readblock = (r', .ok (some (Block.new r'.lastpos (Spec.blockData ds)))) ∧ Pos f r' (pre ++ [ds]) post ∧
      r'.lastpos = f.hd.length + (Spec.blocksBytes f.comp pre).length ∧ r'.block = r.block ∧ r'.num = r.num := by
  have hm : ds ∈ f.blocks := by rw [h.split]; simp
  have hd := h.drop
  rw [blocksBytes_cons, List.append_assoc] at hd
  have hn := next_bpack (hf.zfit ds hm) hd
  refine ⟨{ r with lastpos := r.unp.used + r.base, unp := ⟨r.unp.src, r.unp.used + (Spec.blockBytes f.comp ds).length⟩ }, ?_, ?_, h.pos, rfl, rfl⟩
  · unfold DocReader.readblock
    simp only [hn, h.codec, hf.dec ds hm]
    rfl
  · refine ⟨h.raw, h.codec, h.src, by rw [h.split]; simp, ?_⟩
    have := h.pos
    rw [blocksBytes_append, List.length_append, blocksBytes_cons]
    simp only [Spec.blocksBytes, List.map_nil, List.flatten_nil, List.append_nil] at this ⊢
    omega

/-- readblock() at the end -/
theorem readblock_none {f : BF} (hf : f.Ok) {r pre} (h : Pos f r pre []) :
    ∃ r', r.readblock = (r', .ok none) ∧ Pos f r' pre [] ∧ r'.block = r.block ∧ r'.num = r.num := by
  have hd := h.drop
  simp only [Spec.blocksBytes, List.map_nil, List.flatten_nil, List.nil_append] at hd
  have hn := next_end (u := r.unp) (by rw [hd]; exact hf.tail)
  refine ⟨{ r with lastpos := r.unp.used + r.base }, ?_, ⟨h.raw, h.codec, h.src, h.split, h.pos⟩, rfl, rfl⟩
  unfold DocReader.readblock
  simp only [hn]

/-- a block with the documents `dpost` still to be read -/
structure BPos (b : Block) (dpre dpost : List Bytes) : Prop where
  data : b.data = Spec.blockData (dpre ++ dpost)
  src : b.unp.src = b.data.drop b.dataread
  pos : b.tell = (Spec.blockData dpre).length

theorem BPos.drop {b dpre dpost} (h : BPos b dpre dpost) : b.unp.src.drop b.unp.used = Spec.blockData dpost := by
  have := h.pos
  unfold Block.tell at this
  rw [h.src, List.drop_drop, Nat.add_comm, this, h.data, blockData_append, List.drop_left]

theorem BPos.new (p : Nat) (ds : List Bytes) : BPos (Block.new p (Spec.blockData ds)) [] ds := ⟨rfl, rfl, rfl⟩

theorem BPos.step {b : Block} {dpre dpost d} (h : BPos b dpre (d :: dpost)) :
    BPos { b with unp := ⟨b.unp.src, b.unp.used + (Spec.bpack d).length⟩ } (dpre ++ [d]) dpost := by
  refine ⟨by rw [h.data]; simp, h.src, ?_⟩
  have := h.pos
  unfold Block.tell at this ⊢
  simp only [blockData_append, blockData_cons, List.length_append] at this ⊢
  simp only [Spec.blockData, List.map_nil, List.flatten_nil, List.length_nil] at this ⊢
  omega

theorem BPos.seek {b : Block} {dpre dpost d1 d2} (h : BPos b dpre dpost) (e : dpre ++ dpost = d1 ++ d2) :
    BPos (b.seek (Spec.blockData d1).length) d1 d2 := by
  refine ⟨by rw [← e]; exact h.data, rfl, ?_⟩
  simp [Block.seek, Block.tell]

/-- `next` of a block -/
theorem bnext_some {b : Block} {dpre d dpost} (h : BPos b dpre (d :: dpost)) (hd : d.length < 2 ^ 32) (hm : d.take 4 = magic) :
    b.next = ({ b with unp := ⟨b.unp.src, b.unp.used + (Spec.bpack d).length⟩ }, .ok (docOf ((b.position, b.tell), d))) := by
  have := h.drop
  rw [blockData_cons] at this
  unfold Block.next
  rw [next_bpack hd this]
  simp only [ofObj_ok hm]

theorem bnext_none {b : Block} {dpre} (h : BPos b dpre []) : b.next = (b, .error .stopIteration) := by
  have := h.drop
  unfold Block.next
  rw [next_end (by rw [this]; exact unpack_nil)]

/-- where the reader is: what it will still yield -/
def At (f : BF) (r : DocReader) (up : List ((Nat × Nat) × Bytes)) : Prop :=
  ∃ pre post, Pos f r pre post ∧
    match r.block with
    | none => up = Spec.refs f.comp (f.hd.length + (Spec.blocksBytes f.comp pre).length) post
    | some b => ∃ pre' ds dpre dpost, pre = pre' ++ [ds] ∧ ds = dpre ++ dpost ∧
        r.lastpos = f.hd.length + (Spec.blocksBytes f.comp pre').length ∧ b.position = r.lastpos ∧ BPos b dpre dpost ∧
        up = Spec.docRefs r.lastpos (Spec.blockData dpre).length dpost ++
          Spec.refs f.comp (f.hd.length + (Spec.blocksBytes f.comp pre).length) post

theorem fromBlock_some {f : BF} (hf : f.Fine) {r : DocReader} {b : Block} {pre post pre' ds dpre d dpost} (h : Pos f r pre post)
    (h1 : pre = pre' ++ [ds]) (h2 : ds = dpre ++ d :: dpost)
    (h3 : r.lastpos = f.hd.length + (Spec.blocksBytes f.comp pre').length) (h4 : b.position = r.lastpos)
    (h5 : BPos b dpre (d :: dpost)) :
    ∃ r', r.fromBlock b = (r', .ok (some (docOf ((r.lastpos, (Spec.blockData dpre).length), d)))) ∧
      At f r' (Spec.docRefs r.lastpos ((Spec.blockData dpre).length + (Spec.bpack d).length) dpost ++
          Spec.refs f.comp (f.hd.length + (Spec.blocksBytes f.comp pre).length) post) := by
  have hm : ds ∈ f.blocks := by rw [h.split, h1]; simp
  have hdm : d ∈ ds := by rw [h2]; simp
  have hd := h5.drop
  rw [blockData_cons] at hd
  refine ⟨{ r with block := some { b with unp := ⟨b.unp.src, b.unp.used + (Spec.bpack d).length⟩ } }, ?_, ?_⟩
  · unfold DocReader.fromBlock
    rw [next_bpack (hf.fit ds hm d hdm) hd]
    simp only [ofObj_ok (hf.magic ds hm d hdm), h5.pos]
  · refine ⟨pre, post, ⟨h.raw, h.codec, h.src, h.split, h.pos⟩, pre', ds, dpre ++ [d], dpost, h1, by rw [h2]; simp, h3, h4, h5.step, ?_⟩
    rw [blockData_append, List.length_append]
    simp [Spec.blockData]

theorem fromBlock_none {f : BF} {r : DocReader} {b : Block} {pre post dpre} (h : Pos f r pre post) (h5 : BPos b dpre []) :
    ∃ r', r.fromBlock b = (r', .ok none) ∧ Pos f r' pre post ∧ r'.block = none := by
  have hd := h5.drop
  refine ⟨{ r with block := none }, ?_, ⟨h.raw, h.codec, h.src, h.split, h.pos⟩, rfl⟩
  unfold DocReader.fromBlock
  rw [next_end (by rw [hd]; exact unpack_nil)]

/-- what a call of next() does at a position: it yields the next element -/
def Steps (f : BF) (up : List ((Nat × Nat) × Bytes)) (x : DocReader × Except PyErr MDoc) : Prop :=
  match up with
  | [] => x.2 = .error .stopIteration ∧ At f x.1 []
  | e :: up => x.2 = .ok (docOf e) ∧ At f x.1 up

theorem nextLoop_ok {f : BF} (hf : f.Ok) (post : List (List Bytes)) : ∀ {r : DocReader} {pre fuel}, Pos f r pre post → r.block = none →
    post.length < fuel →
    Steps f (Spec.refs f.comp (f.hd.length + (Spec.blocksBytes f.comp pre).length) post) (DocReader.nextLoop fuel r) := by
  induction post with
  | nil =>
    intro r pre fuel h hb hfu
    obtain ⟨fuel, rfl⟩ : ∃ k, fuel = k + 1 := ⟨fuel - 1, by simp only [List.length_nil] at hfu; omega⟩
    obtain ⟨r', e, h', hb', -⟩ := readblock_none hf h
    unfold DocReader.nextLoop
    rw [e]
    refine ⟨rfl, pre, [], h', ?_⟩
    simp only [hb', hb, Spec.refs]
  | cons ds post ih =>
    intro r pre fuel h hb hfu
    obtain ⟨fuel, rfl⟩ : ∃ k, fuel = k + 1 := ⟨fuel - 1, by simp only [List.length_cons] at hfu; omega⟩
    obtain ⟨r', e, h', hl, -⟩ := readblock_some hf.fine h
    have hlen : f.hd.length + (Spec.blocksBytes f.comp pre).length + (Spec.blockBytes f.comp ds).length =
        f.hd.length + (Spec.blocksBytes f.comp (pre ++ [ds])).length := by
      rw [blocksBytes_append, List.length_append, blocksBytes_cons]
      simp [Spec.blocksBytes]; omega
    have h'' : Pos f { r' with block := some (Block.new r'.lastpos (Spec.blockData ds)) } (pre ++ [ds]) post :=
      ⟨h'.raw, h'.codec, h'.src, h'.split, h'.pos⟩
    unfold DocReader.nextLoop
    rw [e]
    simp only [Spec.refs, hlen]
    cases ds with
    | nil =>
      obtain ⟨r2, e2, h2, hb2⟩ := fromBlock_none h'' (BPos.new r'.lastpos [])
      simp only [e2, Spec.docRefs, List.nil_append]
      exact ih h2 hb2 (by simp only [List.length_cons] at hfu; omega)
    | cons d ds =>
      obtain ⟨r2, e2, h2⟩ := fromBlock_some hf.fine h'' rfl (dpre := []) rfl hl rfl (BPos.new r'.lastpos (d :: ds))
      simp only [e2, Spec.docRefs, List.cons_append, Steps]
      simp only [Spec.blockData, List.map_nil, List.flatten_nil, List.length_nil, hl] at h2
      simp only [hl]
      exact ⟨rfl, h2⟩

theorem blocks_length_le {f : BF} (hf : f.Fine) : f.blocks.length ≤ f.raw.length := by
  have : ∀ l : List (List Bytes), (∀ ds ∈ l, ds ∈ f.blocks) → l.length ≤ (Spec.blocksBytes f.comp l).length := by
    intro l
    induction l with
    | nil => intro _; exact Nat.zero_le _
    | cons a l ih =>
      intro h
      have h1 := ih (fun ds hd => h ds (by simp [hd]))
      have h2 := bpack_pos (hf.zfit a (h a (by simp)))
      rw [blocksBytes_cons, List.length_append, List.length_cons]
      unfold Spec.blockBytes
      omega
  have := this f.blocks (fun _ h => h)
  unfold BF.raw
  simp only [List.length_append]
  omega

/-- next() yields the next reference -/
theorem next_ok {f : BF} (hf : f.Ok) {r up} (h : At f r up) : Steps f up r.next := by
  obtain ⟨pre, post, hp, hb⟩ := h
  have hfuel : post.length < r.raw.length + 1 := by
    have := blocks_length_le hf.fine
    rw [hp.split, List.length_append] at this
    rw [hp.raw]
    omega
  unfold DocReader.next
  cases hbl : r.block with
  | none =>
    simp only [hbl] at hb ⊢
    rw [hb]
    exact nextLoop_ok hf post hp hbl hfuel
  | some b =>
    simp only [hbl] at hb ⊢
    obtain ⟨pre', ds, dpre, dpost, h1, h2, h3, h4, h5, h6⟩ := hb
    cases dpost with
    | nil =>
      obtain ⟨r', e, h', hb'⟩ := fromBlock_none hp h5
      simp only [e, h6, Spec.docRefs, List.nil_append]
      exact nextLoop_ok hf post h' hb' (by rw [h'.raw, ← hp.raw]; exact hfuel)
    | cons d dpost =>
      obtain ⟨r', e, h'⟩ := fromBlock_some hf.fine hp h1 h2 h3 h4 h5
      simp only [e, h6, Spec.docRefs, List.cons_append, Steps]
      exact ⟨trivial, h'⟩

/-- where a document is, from its place in the list of references -/
theorem docRefs_split {p : Nat} : ∀ {ds : List Bytes} {o ref d} {a b}, Spec.docRefs p o ds = a ++ (ref, d) :: b →
    ∃ dpre dpost, ds = dpre ++ d :: dpost ∧ ref = (p, o + (Spec.blockData dpre).length) ∧
      b = Spec.docRefs p (o + (Spec.blockData dpre).length + (Spec.bpack d).length) dpost := by
  intro ds
  induction ds with
  | nil => intro o ref d a b h; simp [Spec.docRefs] at h
  | cons x ds ih =>
    intro o ref d a b h
    cases a with
    | nil =>
      simp only [Spec.docRefs, List.nil_append, List.cons.injEq, Prod.mk.injEq] at h
      obtain ⟨⟨rfl, rfl⟩, rfl⟩ := h
      exact ⟨[], ds, rfl, by simp [Spec.blockData], by simp [Spec.blockData]⟩
    | cons e a =>
      simp only [Spec.docRefs, List.cons_append, List.cons.injEq] at h
      obtain ⟨dpre, dpost, h1, h2, h3⟩ := ih h.2
      refine ⟨x :: dpre, dpost, by rw [h1]; rfl, ?_, ?_⟩
      · rw [h2, blockData_cons, List.length_append, Nat.add_assoc]
      · rw [h3, blockData_cons, List.length_append, Nat.add_assoc o]

theorem refs_split {c : Bytes → Bytes} : ∀ {bs : List (List Bytes)} {p ref d} {a b}, Spec.refs c p bs = a ++ (ref, d) :: b →
    ∃ pre ds post dpre dpost, bs = pre ++ ds :: post ∧ ds = dpre ++ d :: dpost ∧
      ref = (p + (Spec.blocksBytes c pre).length, (Spec.blockData dpre).length) ∧
      b = Spec.docRefs ref.1 (ref.2 + (Spec.bpack d).length) dpost ++
        Spec.refs c (p + (Spec.blocksBytes c (pre ++ [ds])).length) post := by
  intro bs
  induction bs with
  | nil => intro p ref d a b h; simp [Spec.refs] at h
  | cons ds bs ih =>
    intro p ref d a b h
    simp only [Spec.refs] at h
    rcases List.append_eq_append_iff.mp h with ⟨a', h1, h2⟩ | ⟨c', h1, h2⟩
    · obtain ⟨pre, ds', post, dpre, dpost, g1, g2, g3, g4⟩ := ih h2
      refine ⟨ds :: pre, ds', post, dpre, dpost, by rw [g1]; rfl, g2, ?_, ?_⟩
      · rw [g3, blocksBytes_cons, List.length_append, Nat.add_assoc]
      · rw [g4, List.cons_append, blocksBytes_cons, List.length_append, Nat.add_assoc]
    · cases c' with
      | nil =>
        simp only [List.nil_append] at h2
        obtain ⟨pre, ds', post, dpre, dpost, g1, g2, g3, g4⟩ := ih (a := []) h2.symm
        refine ⟨ds :: pre, ds', post, dpre, dpost, by rw [g1]; rfl, g2, ?_, ?_⟩
        · rw [g3, blocksBytes_cons, List.length_append, Nat.add_assoc]
        · rw [g4, List.cons_append, blocksBytes_cons, List.length_append, Nat.add_assoc]
      | cons e c' =>
        simp only [List.cons_append, List.cons.injEq] at h2
        obtain ⟨rfl, rfl⟩ := h2
        obtain ⟨dpre, dpost, g1, g2, g3⟩ := docRefs_split h1
        refine ⟨[], ds, bs, dpre, dpost, rfl, g1, ?_, ?_⟩
        · rw [g2]; simp [Spec.blocksBytes]
        · rw [g3, g2]
          simp [Spec.blocksBytes]

/-- blocks are not empty byte strings, so a position determines the block -/
theorem pre_unique {f : BF} (hf : f.Ok) : ∀ {pre pre' : List (List Bytes)} {post post'}, pre ++ post = pre' ++ post' →
    (∀ ds ∈ pre ++ post, ds ∈ f.blocks) →
    (Spec.blocksBytes f.comp pre).length = (Spec.blocksBytes f.comp pre').length → pre = pre' ∧ post = post' := by
  intro pre
  induction pre with
  | nil =>
    intro pre' post post' h hm hl
    cases pre' with
    | nil => exact ⟨rfl, h⟩
    | cons x pre' =>
      have := bpack_pos (hf.zfit x (hm x (by rw [h]; simp)))
      rw [blocksBytes_cons, List.length_append] at hl
      simp only [Spec.blocksBytes, List.map_nil, List.flatten_nil, List.length_nil, Spec.blockBytes] at hl
      omega
  | cons x pre ih =>
    intro pre' post post' h hm hl
    cases pre' with
    | nil =>
      have := bpack_pos (hf.zfit x (hm x (by simp)))
      rw [blocksBytes_cons, List.length_append] at hl
      simp only [Spec.blocksBytes, List.map_nil, List.flatten_nil, List.length_nil, Spec.blockBytes] at hl
      omega
    | cons y pre' =>
      simp only [List.cons_append, List.cons.injEq] at h
      obtain ⟨rfl, h⟩ := h
      rw [blocksBytes_cons, blocksBytes_cons, List.length_append, List.length_append] at hl
      obtain ⟨h1, h2⟩ := ih h (fun ds hd => hm ds (by simp [hd])) (by omega)
      exact ⟨by rw [h1], h2⟩

theorem getIn_ok {f : BF} (hf : f.Ok) {r : DocReader} {b : Block} {pre post ds dpre d dpost e1 e2} (h : Pos f r (pre ++ [ds]) post)
    (h2 : ds = dpre ++ d :: dpost) (hl : r.lastpos = f.hd.length + (Spec.blocksBytes f.comp pre).length)
    (hb : b.position = r.lastpos) (h5 : BPos b e1 e2) (he : ds = e1 ++ e2) :
    ∃ r', r.getIn b (Spec.blockData dpre).length = (r', .ok (docOf ((r.lastpos, (Spec.blockData dpre).length), d))) ∧
      At f r' (Spec.docRefs r.lastpos ((Spec.blockData dpre).length + (Spec.bpack d).length) dpost ++
          Spec.refs f.comp (f.hd.length + (Spec.blocksBytes f.comp (pre ++ [ds])).length) post) := by
  have hm : ds ∈ f.blocks := by rw [h.split]; simp
  have hdm : d ∈ ds := by rw [h2]; simp
  have h6 := h5.seek (d1 := dpre) (d2 := d :: dpost) (by rw [← he, h2])
  have hn := bnext_some h6 (hf.fit ds hm d hdm) (hf.magic ds hm d hdm)
  have ht : (b.seek (Spec.blockData dpre).length).tell = (Spec.blockData dpre).length := h6.pos
  have hp : (b.seek (Spec.blockData dpre).length).position = r.lastpos := hb
  rw [ht, hp] at hn
  refine ⟨{ r with block := some { b.seek (Spec.blockData dpre).length with unp := ⟨(b.seek (Spec.blockData dpre).length).unp.src, (b.seek (Spec.blockData dpre).length).unp.used + (Spec.bpack d).length⟩ } }, ?_, ?_⟩
  · unfold DocReader.getIn
    rw [hn]
    simp only [Block.seek, hb]
  · refine ⟨pre ++ [ds], post, ⟨h.raw, h.codec, h.src, h.split, h.pos⟩, pre, ds, dpre ++ [d], dpost, rfl, by rw [h2]; simp, hl, hb, h6.step, ?_⟩
    rw [blockData_append, List.length_append]
    simp [Spec.blockData]

theorem getRead_ok {f : BF} (hf : f.Ok) {r : DocReader} {pre post ds dpre d dpost} (hraw : r.raw = f.raw) (hc : r.codec = f.dec)
    (h1 : f.blocks = pre ++ ds :: post) (h2 : ds = dpre ++ d :: dpost) :
    ∃ r', r.getRead (f.hd.length + (Spec.blocksBytes f.comp pre).length, (Spec.blockData dpre).length) =
        (r', .ok (docOf ((f.hd.length + (Spec.blocksBytes f.comp pre).length, (Spec.blockData dpre).length), d))) ∧
      At f r' (Spec.docRefs (f.hd.length + (Spec.blocksBytes f.comp pre).length)
          ((Spec.blockData dpre).length + (Spec.bpack d).length) dpost ++
          Spec.refs f.comp (f.hd.length + (Spec.blocksBytes f.comp (pre ++ [ds])).length) post) := by
  have hp : Pos f (r.seek (f.hd.length + (Spec.blocksBytes f.comp pre).length)) pre (ds :: post) :=
    ⟨hraw, hc, by simp only [DocReader.seek, hraw], h1, by simp [DocReader.seek]⟩
  obtain ⟨r1, e1, h1', hl, -⟩ := readblock_some hf.fine hp
  obtain ⟨r2, e2, h2'⟩ := getIn_ok hf h1' h2 hl (b := Block.new r1.lastpos (Spec.blockData ds)) rfl (BPos.new _ ds) rfl
  rw [hl] at e2 h2'
  refine ⟨r2, ?_, h2'⟩
  unfold DocReader.getRead
  rw [e1]
  simp only
  rw [hl]
  exact e2

/-- get(ref) yields the document of the reference and continues after it -/
theorem get_ok {f : BF} (hf : f.Ok) {r up} (h : At f r up) {a b : List ((Nat × Nat) × Bytes)} {e}
    (he : f.refs = a ++ e :: b) : (r.get e.1).2 = .ok (docOf e) ∧ At f (r.get e.1).1 b := by
  obtain ⟨ref, d⟩ := e
  obtain ⟨pre, ds, post, dpre, dpost, g1, g2, g3, g4⟩ := refs_split he
  obtain ⟨pre1, post1, hp, hb⟩ := h
  obtain ⟨r', e', h'⟩ := getRead_ok hf hp.raw hp.codec g1 g2
  have key : (r.getRead ref).2 = .ok (docOf (ref, d)) ∧ At f (r.getRead ref).1 b := by
    subst g3
    rw [e']
    exact ⟨rfl, by rw [g4]; exact h'⟩
  unfold DocReader.get
  cases hbl : r.block with
  | none => exact key
  | some bl =>
    simp only [hbl] at hb ⊢
    obtain ⟨pre', ds', e1, e2, h1, h2, h3, h4, h5, h6⟩ := hb
    split
    · exact key
    · rename_i hpos
      simp only [ne_eq, Decidable.not_not] at hpos
      subst h1
      have hs := hp.split
      rw [g1, List.append_assoc, List.singleton_append] at hs
      have hlen : (Spec.blocksBytes f.comp pre).length = (Spec.blocksBytes f.comp pre').length := by
        rw [g3] at hpos
        simp only at hpos
        omega
      obtain ⟨rfl, hs2⟩ := pre_unique hf hs (fun x hx => by rw [g1]; exact hx) hlen
      simp only [List.cons.injEq] at hs2
      obtain ⟨rfl, rfl⟩ := hs2
      obtain ⟨r2, e3, h7⟩ := getIn_ok hf hp g2 h3 h4 h5 h2
      have hr : ref = (r.lastpos, (Spec.blockData dpre).length) := by rw [g3, h3]
      subst hr
      simp only [e3]
      refine ⟨trivial, ?_⟩
      rw [g4]
      exact h7

end Verif
