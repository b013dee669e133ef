import Verif.Proof.Index
/-
C45: property indexes.
-/
set_option linter.unusedSimpArgs false
namespace Verif

namespace Spec

/-- the document satisfies all conditions; a condition on a property that was not indexed is never satisfied -/
def isHit (names : List Str) (conds : Dict Str Obj) (d : Bytes) : Bool :=
  conds.all (fun c => decide (c.1 ∈ names) && hasProp d c.1 c.2)

end Spec

theorem dkeys_init (names : List Str) : ∀ (d : Dict Str PropIdx), ∀ k, k ∈ dkeys (names.foldl (fun d p => dset d p []) d) ↔ k ∈ names ∨ k ∈ dkeys d := by
  induction names with
  | nil => intro d k; simp
  | cons p l ih =>
    intro d k
    rw [List.foldl_cons, ih, ← dget_isSome_iff (dset d p []), dget_dset, List.mem_cons]
    by_cases h : p = k
    · simp [h]
    · rw [if_neg h, dget_isSome_iff]
      constructor
      · rintro (h | h)
        · exact .inl (.inr h)
        · exact .inr h
      · rintro ((rfl | h) | h)
        · exact absurd rfl h
        · exact .inl h
        · exact .inr h

theorem docsFor_init (names : List Str) : ∀ (d : Dict Str PropIdx), (∀ k v, FileIndex.docsFor d k v = []) → ∀ k v,
    FileIndex.docsFor (names.foldl (fun d p => dset d p []) d) k v = [] := by
  induction names with
  | nil => intro d h k v; exact h k v
  | cons p l ih =>
    intro d h k v
    rw [List.foldl_cons]
    apply ih
    intro k v
    unfold FileIndex.docsFor
    rw [dget_dset]
    split
    · rfl
    · exact h k v

theorem mapE_blockDocs (c : Bytes → Bytes) : ∀ {bs : List (List Bytes)} (_ : ∀ ds ∈ bs, ∀ d ∈ ds, d.length < 2 ^ 32 ∧ d.take 4 = magic) (p : Nat),
    ∃ l, mapE FileIndex.blockDocs (blockList c p bs) = .ok l ∧ l.flatten = (Spec.refs c p bs).map docOf := by
  intro bs
  induction bs with
  | nil => intro _ p; exact ⟨[], rfl, rfl⟩
  | cons ds bs ih =>
    intro h p
    obtain ⟨l, h1, h2⟩ := ih (fun x hx => h x (by simp [hx])) (p + (Spec.blockBytes c ds).length)
    have hb : FileIndex.blockDocs (Block.new p (Spec.blockData ds)) = .ok ((Spec.docRefs p 0 ds).map docOf) := by
      have hl := docs_length_le (fun d hd => (h ds (by simp) d hd).1)
      have := docsLoop_ok (p := p) ds (h ds (by simp)) (BPos.new p ds) rfl rfl
        (fuel := (Block.new p (Spec.blockData ds)).data.length + 1) (by simp only [Block.new]; omega)
      unfold FileIndex.blockDocs
      rw [show (0 : Nat) = (Spec.blockData []).length from rfl, this]
      simp only [List.map_map]
      rfl
    refine ⟨(Spec.docRefs p 0 ds).map docOf :: l, ?_, ?_⟩
    · simp only [blockList, mapE, hb, h1]
    · simp only [List.flatten_cons, h2, Spec.refs, List.map_append]

/-- the parts of a file and its index -/
theorem index_parts {reg : Codecs} {c : CCodec} {bnd num cs s0 s1} (hreg : Spec.Lossless reg c)
    (h0 : DocWriter.new bnd num c = .ok s0) (h1 : (s0.run cs).flush = (s1, none)) (hreal : ∀ x ∈ cs, Spec.Real x) :
    ∃ (f : BF) (r : DocReader), f.Ok ∧ f.refs.map (·.2) = Spec.accepted cs ∧ DocReader.new reg (Spec.payload s1.log) = .ok r ∧
      At f r f.refs ∧ r.raw = f.raw ∧ r.codec = f.dec ∧
      ∀ names, FileIndex.build reg (Spec.payload s1.log) names =
        FileIndex.addDocs names 0 (f.refs.map docOf) ⟨names.foldl (fun d p => dset d p []) [], []⟩ := by
  obtain ⟨hd, c', blocks, ⟨hh⟩, hc', hlog, hfl, -, hok, -⟩ := closed_file hreg h0 h1 hreal
  have hf := hok [] unpack_nil
  obtain ⟨r, e, hat, -, hpos⟩ := open_ok hh hc' ⟨hd, compOf c, c'.decompress, blocks, []⟩ rfl rfl
  have hnew : DocReader.new reg (Spec.payload s1.log) = .ok r := by
    rw [hlog, ← e]; simp only [BF.raw, List.append_nil]
  refine ⟨⟨hd, compOf c, c'.decompress, blocks, []⟩, r, hf, ?_, hnew, hat, hpos.raw, hpos.codec, fun names => ?_⟩
  · show (Spec.refs _ _ _).map _ = _
    rw [refs_snd, hfl]
  · have hfuel := blocks_length_le hf.fine
    have hbl := blocksLoop_ok hf blocks hpos (fuel := r.raw.length + 1) (by rw [hpos.raw]; simp only at hfuel; omega)
    simp only [Spec.blocksBytes, List.map_nil, List.flatten_nil, List.length_nil, Nat.add_zero] at hbl
    obtain ⟨l, q1, q2⟩ := mapE_blockDocs (compOf c) (bs := blocks)
      (fun ds hds d hd => ⟨hf.fit ds hds d hd, hf.magic ds hds d hd⟩) hd.length
    unfold FileIndex.build
    rw [hnew]
    simp only [DocReader.blocks, hbl, q1, q2]
    rfl

/-- the numbers of the hits -/
theorem search_numbers {names : List Str} {es : List ((Nat × Nat) × Bytes)} {idx : FileIndex}
    (h : FileIndex.addDocs names 0 (es.map docOf) ⟨names.foldl (fun d p => dset d p []) [], []⟩ = .ok idx)
    {c : Str × Obj} {conds : List (Str × Obj)} :
    sortedSet (FileIndex.intersect (FileIndex.docsFor idx.properties c.1 c.2) (conds.map (fun e => FileIndex.docsFor idx.properties e.1 e.2))) =
      (List.range es.length).filter (fun i => (es[i]?).any (fun e => Spec.isHit names (c :: conds) e.2)) := by
  obtain ⟨-, -, a3⟩ := FileIndex.addDocs_ok h (fun p hp => (dkeys_init names [] p).mpr (.inl hp))
  have a4 : ∀ k v j, j ∈ FileIndex.docsFor idx.properties k v ↔ ∃ e, es[j]? = some e ∧ k ∈ names ∧ Spec.hasProp e.2 k v = true := by
    intro k v j
    rw [a3]
    simp only [docsFor_init names [] (fun _ _ => rfl), List.not_mem_nil, false_or]
    constructor
    · rintro ⟨m, e, rfl, h⟩; exact ⟨e, by rw [Nat.zero_add]; exact h.1, h.2⟩
    · rintro ⟨e, h⟩; exact ⟨j, e, by omega, h⟩
  apply sortedSet_eq
  intro i
  have hin : i ∈ FileIndex.intersect (FileIndex.docsFor idx.properties c.1 c.2) (conds.map (fun e => FileIndex.docsFor idx.properties e.1 e.2)) ↔
      ∀ x ∈ c :: conds, i ∈ FileIndex.docsFor idx.properties x.1 x.2 := by
    rw [FileIndex.mem_intersect]
    constructor
    · intro h x hx
      apply h
      rcases List.mem_cons.mp hx with rfl | hx
      · simp
      · exact List.mem_cons_of_mem _ (List.mem_map.mpr ⟨x, hx, rfl⟩)
    · intro h s hs
      rcases List.mem_cons.mp hs with rfl | hs
      · exact h c (by simp)
      · obtain ⟨x, hx, rfl⟩ := List.mem_map.mp hs
        exact h x (by simp [hx])
  rw [hin]
  constructor
  · intro hall
    obtain ⟨e, he, -⟩ := (a4 _ _ _).mp (hall c (by simp))
    obtain ⟨hlt, -⟩ := List.getElem?_eq_some_iff.mp he
    refine ⟨hlt, ?_⟩
    rw [he, Option.any_some]
    simp only [Spec.isHit, List.all_eq_true, Bool.and_eq_true, decide_eq_true_eq]
    intro x hx
    obtain ⟨e', he', h'⟩ := (a4 _ _ _).mp (hall x hx)
    rw [he] at he'; cases he'
    exact h'
  · rintro ⟨hlt, hh⟩ x hx
    rw [List.getElem?_eq_getElem hlt, Option.any_some] at hh
    simp only [Spec.isHit, List.all_eq_true, Bool.and_eq_true, decide_eq_true_eq] at hh
    exact (a4 _ _ _).mpr ⟨es[i], List.getElem?_eq_getElem hlt, hh x hx⟩

theorem filter_range {α : Type} (p : α → Bool) : ∀ (es : List α),
    ((List.range es.length).filter (fun i => (es[i]?).any p)).map (fun i => es[i]?) = (es.filter p).map some := by
  intro es
  induction es with
  | nil => rfl
  | cons e es ih =>
    rw [List.length_cons, List.range_succ_eq_map, List.filter_cons]
    simp only [List.getElem?_cons_zero, Option.any_some]
    have key : (List.filter (fun i => ((e :: es)[i]?).any p) (List.map Nat.succ (List.range es.length))).map (fun i => (e :: es)[i]?) =
        (es.filter p).map some := by
      rw [List.filter_map, List.map_map, ← ih]
      rfl
    by_cases hp : p e = true
    · rw [if_pos hp, List.map_cons, List.filter_cons, if_pos hp, key]
      rfl
    · rw [if_neg hp, List.filter_cons, if_neg hp, key]

theorem search_ok {α : Type} {step : Block → Block × Except PyErr α} {g : (Nat × Nat) × Bytes → Except PyErr α} (hg : StepReads step g)
    {f : BF} (hf : f.Ok) {reg raw r} (hr : DocReader.new reg raw = .ok r) (hraw : r.raw = f.raw) (hc : r.codec = f.dec) {names idx}
    (h : FileIndex.addDocs names 0 (f.refs.map docOf) ⟨names.foldl (fun d p => dset d p []) [], []⟩ = .ok idx)
    {conds : Dict Str Obj} (hne : conds ≠ []) (hh : ∀ e ∈ conds, e.2.hashable = true) :
    idx.search step reg (.ok raw) conds = Spec.yielded ((f.refs.filter (fun e => Spec.isHit names conds e.2)).map g) := by
  cases conds with
  | nil => exact absurd rfl hne
  | cons x l =>
    have hnum := search_numbers h (c := x) (conds := l)
    have hfr := filter_range (fun e : (Nat × Nat) × Bytes => Spec.isHit names (x :: l) e.2) f.refs
    obtain ⟨a1, -, -⟩ := FileIndex.addDocs_ok h (fun p hp => (dkeys_init names [] p).mpr (.inl hp))
    have hrd := readHits_ok hg hf (last := none) hraw hc (by intro b hb; cases hb) hfr
    simp only [List.nil_append] at a1
    unfold FileIndex.search
    rw [if_neg (by simp), FileIndex.hits_ok idx hh]
    simp only [List.map_cons, hnum, hr, a1]
    split
    · exact hrd
    · rename_i hz
      have hz : (List.filter (fun i => (f.refs[i]?).any (fun e => Spec.isHit names (x :: l) e.2))
        (List.range f.refs.length)) = [] := List.eq_nil_of_length_eq_zero (by omega)
      rw [hz] at hrd
      rw [← hrd]
      rfl

/-- C45. An index of a file finds exactly the documents that satisfy all conditions, in file order: the lazy search
yields those MsgpackDocuments that iterating the file yields and that have the properties, the eager search
what they decode to (an IOError if one cannot be decoded). -/
theorem C45_search {reg : Codecs} {c : CCodec} {bnd num cs s0 s1} (hreg : Spec.Lossless reg c)
    (h0 : DocWriter.new bnd num c = .ok s0) (h1 : (s0.run cs).flush = (s1, none)) (hreal : ∀ x ∈ cs, Spec.Real x)
    {names : List Str} {idx : FileIndex} (hidx : FileIndex.build reg (Spec.payload s1.log) names = .ok idx) :
    ∃ (r : DocReader) (docs : List MDoc), DocReader.new reg (Spec.payload s1.log) = .ok r ∧
      (∀ k, r.nexts (docs.length + k) = docs.map .ok ++ List.replicate k (.error .stopIteration)) ∧
      docs.map MDoc.raw = Spec.accepted cs ∧
      ∀ conds : Dict Str Obj, conds ≠ [] → (∀ e ∈ conds, e.2.hashable = true) →
        idx.searchLazy reg (.ok (Spec.payload s1.log)) conds = (docs.filter (fun d => Spec.isHit names conds d.raw), none) ∧
        idx.searchEager reg (.ok (Spec.payload s1.log)) conds =
          Spec.yielded ((docs.filter (fun d => Spec.isHit names conds d.raw)).map (fun d => decodeMsgpack d.raw)) := by
  obtain ⟨f, r, hf, hacc, hnew, hat, hraw, hcod, hbuild⟩ := index_parts hreg h0 h1 hreal
  rw [hbuild] at hidx
  have hyl : ∀ (l : List MDoc), Spec.yielded (l.map .ok) = (l, none) := by
    intro l
    induction l with
    | nil => rfl
    | cons x l ih => simp only [List.map_cons, Spec.yielded, ih]
  refine ⟨r, f.refs.map docOf, hnew, fun k => ?_, ?_, fun conds hne hh => ⟨?_, ?_⟩⟩
  · rw [List.length_map, nexts_ok hf k _ hat, List.map_map]; rfl
  · rw [List.map_map, ← hacc]; rfl
  · have := search_ok reads_next hf hnew hraw hcod hidx hne hh
    unfold FileIndex.searchLazy
    rw [this, List.filter_map, ← hyl, List.map_map]
    rfl
  · have := search_ok reads_decode hf hnew hraw hcod hidx hne hh
    unfold FileIndex.searchEager
    rw [this, List.filter_map, List.map_map]
    rfl

/-- C45: no conditions, no results; a condition on an unhashable value is a TypeError. -/
theorem C45_no_conditions {α : Type} (step : Block → Block × Except PyErr α) (reg file idx) :
    FileIndex.search step reg file idx [] = ([], none) := rfl

theorem C45_unhashable {α : Type} (step : Block → Block × Except PyErr α) (reg file) {idx : FileIndex} {conds : Dict Str Obj}
    (h : ∃ e ∈ conds, e.2.hashable = false) : FileIndex.search step reg file idx conds = ([], some .type) := by
  unfold FileIndex.search
  rw [if_neg (by intro h0; rw [List.eq_nil_of_length_eq_zero h0] at h; obtain ⟨e, he, -⟩ := h; cases he), FileIndex.hits_error idx h]

theorem addProps_succeeds {ps : Dict Str Obj} {i : Nat} : ∀ {names : List Str} {idx : Dict Str PropIdx}, (∀ p ∈ names, p ∈ dkeys idx) →
    (∀ k ∈ names, ∀ v, dget ps k = some v → v.hashable = true) → ∃ idx', FileIndex.addProps ps i names idx = .ok idx' := by
  intro names
  induction names with
  | nil => intro idx _ _; exact ⟨idx, rfl⟩
  | cons p l ih =>
    intro idx hp hh
    have : ∃ idx1, FileIndex.addProp ps i idx p = .ok idx1 := by
      unfold FileIndex.addProp
      cases hv : dget ps p with
      | none => exact ⟨_, rfl⟩
      | some v =>
        have := (dget_isSome_iff idx p).mpr (hp p (by simp))
        obtain ⟨d, hd⟩ := Option.isSome_iff_exists.mp this
        rw [hd]
        simp only [hh p (by simp) v hv, if_true]
        exact ⟨_, rfl⟩
    obtain ⟨idx1, h1⟩ := this
    obtain ⟨a1, -⟩ := FileIndex.addProp_ok h1 (hp p (by simp))
    obtain ⟨idx2, h2⟩ := ih (idx := idx1) (fun q hq => (a1 q).mpr (hp q (by simp [hq]))) (fun k hk => hh k (by simp [hk]))
    exact ⟨idx2, by simp only [FileIndex.addProps, h1, h2]⟩

theorem addDocs_succeeds {names : List Str} : ∀ {es : List ((Nat × Nat) × Bytes)} {i : Nat} {idx : FileIndex},
    (∀ p ∈ names, p ∈ dkeys idx.properties) →
    (∀ e ∈ es, ∃ ps, Spec.propsOf e.2 = some ps ∧ ∀ k ∈ names, ∀ v, dget ps k = some v → v.hashable = true) →
    ∃ idx', FileIndex.addDocs names i (es.map docOf) idx = .ok idx' := by
  intro es
  induction es with
  | nil => intro i idx _ _; exact ⟨idx, rfl⟩
  | cons e es ih =>
    intro i idx hp hh
    obtain ⟨ps, h1, h2⟩ := hh e (by simp)
    have hps : (MDoc.properties { raw := e.2, ref := none } []).2 = .ok (.map ps) := by
      unfold Spec.propsOf at h1
      split at h1
      · rename_i ps' h; cases h1; exact h
      · cases h1
    obtain ⟨idx1, h3⟩ := addProps_succeeds (i := i) hp h2
    obtain ⟨a1, -⟩ := FileIndex.addProps_ok h3 hp
    obtain ⟨idx2, h4⟩ := ih (i := i + 1) (idx := ⟨idx1, idx.docrefs ++ (docOf e).ref.toList⟩) (fun q hq => (a1 q).mpr (hp q hq))
      (fun x hx => hh x (by simp [hx]))
    exact ⟨idx2, by simp only [List.map_cons, FileIndex.addDocs, properties_docOf, hps, h3, h4]⟩

/-- C45: a file whose documents have readable properties, hashable where indexed, can be indexed. -/
theorem C45_build {reg : Codecs} {c : CCodec} {bnd num cs s0 s1} (hreg : Spec.Lossless reg c)
    (h0 : DocWriter.new bnd num c = .ok s0) (h1 : (s0.run cs).flush = (s1, none)) (hreal : ∀ x ∈ cs, Spec.Real x)
    {names : List Str} (hp : ∀ d ∈ Spec.accepted cs, ∃ ps, Spec.propsOf d = some ps ∧ ∀ k ∈ names, ∀ v, dget ps k = some v → v.hashable = true) :
    ∃ idx, FileIndex.build reg (Spec.payload s1.log) names = .ok idx := by
  obtain ⟨f, r, hf, hacc, hnew, hat, hraw, hcod, hbuild⟩ := index_parts hreg h0 h1 hreal
  rw [hbuild]
  apply addDocs_succeeds (fun p hp => (dkeys_init names [] p).mpr (.inl hp))
  intro e he
  exact hp e.2 (by rw [← hacc]; exact List.mem_map.mpr ⟨e, he, rfl⟩)

/-! ### several files -/

namespace Spec

/-- the results of several generators one after the other, up to the first exception -/
def chain {α : Type} : List (List α × Option PyErr) → List α × Option PyErr
  | [] => ([], none)
  | (a, some e) :: _ => (a, some e)
  | (a, none) :: l => (a ++ (chain l).1, (chain l).2)

/-- a path that names a file from the root: no `..` -/
def Plain (p : Path) : Prop := "..".toList ∉ p

end Spec

theorem resolve_plain (p : Path) (h : Spec.Plain p) : ∀ cwd : Path, Path.resolve cwd p = cwd ++ p := by
  induction p with
  | nil => intro cwd; simp [Path.resolve]
  | cons a p ih =>
    intro cwd
    simp only [Spec.Plain, List.mem_cons, not_or] at h
    have hstep : Path.resolve cwd (a :: p) = Path.resolve (cwd ++ [a]) p := by
      unfold Path.resolve
      rw [List.foldl_cons, if_neg (fun e => h.1 e.symm)]
    rw [hstep, ih h.2]
    simp

theorem resolve_up (n : Nat) : ∀ (cwd : Path) (q : List Str), Path.resolve cwd (List.replicate n "..".toList ++ q) =
    Path.resolve (cwd.take (cwd.length - n)) q := by
  induction n with
  | zero => intro cwd q; simp
  | succ n ih =>
    intro cwd q
    have hstep : Path.resolve cwd (List.replicate (n + 1) "..".toList ++ q) = Path.resolve cwd.dropLast (List.replicate n "..".toList ++ q) := by
      unfold Path.resolve
      rw [List.replicate_succ, List.cons_append, List.foldl_cons, if_pos rfl]
    rw [hstep, ih, List.dropLast_eq_take, List.take_take, List.length_take]
    congr 2
    omega

theorem common_spec : ∀ (p start : Path), Path.common p start ≤ start.length ∧
    p = start.take (Path.common p start) ++ p.drop (Path.common p start) := by
  intro p
  induction p with
  | nil => intro start; cases start <;> simp [Path.common]
  | cons a p ih =>
    intro start
    cases start with
    | nil => simp [Path.common]
    | cons b q =>
      simp only [Path.common]
      split
      · rename_i h
        subst h
        obtain ⟨h1, h2⟩ := ih q
        refine ⟨by simp only [List.length_cons]; omega, ?_⟩
        rw [List.take_succ_cons, List.drop_succ_cons, List.cons_append, ← h2]
      · simp

/-- C45: relpath is undone by resolving against the same directory, so different files have different relative
paths and opening the relative path from the base path opens the file. -/
theorem C45_relative_path {p base : Path} (hp : Spec.Plain p) : Path.resolve base (Path.rel p base) = p := by
  obtain ⟨h1, h2⟩ := common_spec p base
  unfold Path.rel
  rw [resolve_up, resolve_plain, show base.length - (base.length - Path.common p base) = Path.common p base by omega, ← h2]
  intro h
  exact hp (List.mem_of_mem_drop h)

/-- C45, several files: with the base path as working directory, the search of a DocumentIndex is the search of its
files one after the other, in the order they were added. -/
theorem C45_files {α : Type} (step : Block → Block × Except PyErr α) (reg : Codecs) (fs : Path → Option Bytes) (base : Path)
    (files : List (Path × FileIndex)) (hplain : ∀ e ∈ files, Spec.Plain e.1) (hdist : (files.map (·.1)).Nodup) (conds : Dict Str Obj) :
    DocIndex.search step reg fs base (files.foldl (fun d e => d.add e.1 e.2) ⟨base, []⟩) conds =
      Spec.chain (files.map (fun e => e.2.search step reg (match fs e.1 with | some b => .ok b | none => .error .io) conds)) := by
  have hidx : ∀ (files : List (Path × FileIndex)) (d : DocIndex), d.basepath = base → (∀ e ∈ files, Spec.Plain e.1) →
      (files.map (·.1)).Nodup → (∀ e ∈ files, Path.rel e.1 base ∉ dkeys d.index) →
      (files.foldl (fun d e => d.add e.1 e.2) d).index = d.index ++ files.map (fun e => (Path.rel e.1 base, e.2)) := by
    intro files
    induction files with
    | nil => intro d _ _ _ _; simp
    | cons e l ih =>
      intro d hb hp hn hd
      rw [List.map_cons, List.nodup_cons] at hn
      rw [List.foldl_cons, ih]
      · simp only [DocIndex.add, hb, dset_absent _ (hd e (by simp)), List.map_cons, List.append_assoc, List.singleton_append]
      · exact hb
      · exact fun x hx => hp x (by simp [hx])
      · exact hn.2
      · intro x hx hm
        simp only [DocIndex.add, hb, dset_absent _ (hd e (by simp)), dkeys, List.map_append, List.mem_append, List.map_cons,
          List.map_nil, List.mem_singleton] at hm
        rcases hm with hm | hm
        · exact hd x (by simp [hx]) hm
        · have := congrArg (Path.resolve base) hm
          rw [C45_relative_path (hp x (by simp [hx])), C45_relative_path (hp e (by simp))] at this
          exact hn.1 (List.mem_map.mpr ⟨x, hx, this⟩)
  have hbase : ∀ (files : List (Path × FileIndex)) (d : DocIndex), (files.foldl (fun d e => d.add e.1 e.2) d).basepath = d.basepath := by
    intro files
    induction files with
    | nil => intro d; rfl
    | cons e l ih => intro d; rw [List.foldl_cons, ih]; rfl
  unfold DocIndex.search
  rw [hidx files ⟨base, []⟩ rfl hplain hdist (by intro e _ h; cases h)]
  simp only [List.nil_append]
  clear hidx hbase hdist
  induction files with
  | nil => rfl
  | cons e l ih =>
    have := ih (fun x hx => hplain x (by simp [hx]))
    simp only [List.map_cons, DocIndex.searchLoop, DocIndex.openAt, C45_relative_path (hplain e (by simp))]
    rcases e.2.search step reg (match fs e.1 with | some b => .ok b | none => .error .io) conds with ⟨a, _ | x⟩
    · simp only [this, Spec.chain]
    · simp only [Spec.chain]

namespace Ex

/-- the beginning of a document with the property `a`, the value being one byte of MessagePack -/
def pdoc (v : UInt8) : Bytes := Spec.ascii "DM_1" ++ [4, 0x81, 0xa1, 97, v]

/-- a writer with the block size 2 and the documents a = 1, a = 2, a = True, a = 1 -/
def calls4 : List DocWriter.Call := [put (pdoc 1), put (pdoc 2), put (pdoc 0xc3), put (pdoc 1)]

/-- the file -/
def pfile : Bytes :=
  match DocWriter.new false 2 ⟨"none".toList, .ok, .ok⟩ with
  | .ok s => Spec.payload (s.run calls4).flush.1.log
  | .error _ => []

/-- the raw bytes that a search finds -/
def found (r : List MDoc × Option PyErr) : List Bytes × Option PyErr := (r.1.map MDoc.raw, r.2)

/-- an index of the property `a` of the file, searched lazily -/
def pfind (conds : Dict Str Obj) : Option (List Bytes × Option PyErr) :=
  match FileIndex.build reg pfile ["a".toList, "b".toList] with
  | .ok idx => some (found (idx.searchLazy reg (.ok pfile) conds))
  | .error _ => none

/-- the same through a DocumentIndex with the base path /d, the file being /d/f, from the directory `cwd` -/
def pfindAt (cwd : Path) (conds : Dict Str Obj) : Option (List Bytes × Option PyErr) :=
  match FileIndex.build reg pfile ["a".toList, "b".toList] with
  | .ok idx => some (found (DocIndex.search Block.next reg
      (fun p => if p = ["d".toList, "f".toList] then some pfile else none) cwd
      (DocIndex.add ⟨["d".toList], []⟩ ["d".toList, "f".toList] idx) conds))
  | .error _ => none

end Ex

/-- searches for a = 1.0, for a = 2 and b = 2, and for c = 1 -/
example : Ex.pfind [("a".toList, .float 0x3FF0000000000000)] = some ([Ex.pdoc 1, Ex.pdoc 0xc3, Ex.pdoc 1], none) ∧
    Ex.pfind [("a".toList, .int 2), ("b".toList, .int 2)] = some ([], none) ∧
    Ex.pfind [("c".toList, .int 1)] = some ([], none) := by decide +kernel

/-- the hypotheses of C45 for this file -/
example : ∃ s0 s1 idx, DocWriter.new false 2 ⟨"none".toList, .ok, .ok⟩ = .ok s0 ∧ (s0.run Ex.calls4).flush = (s1, none) ∧
    Spec.Lossless Ex.reg ⟨"none".toList, .ok, .ok⟩ ∧ (∀ x ∈ Ex.calls4, Spec.Real x) ∧
    FileIndex.build Ex.reg (Spec.payload s1.log) ["a".toList] = .ok idx := by
  have hl : Spec.Lossless Ex.reg ⟨"none".toList, .ok, .ok⟩ := ⟨_, rfl, fun x z h => by cases h; rfl⟩
  have hr : ∀ x ∈ Ex.calls4, Spec.Real x := by
    intro x hx
    simp only [Ex.calls4, List.mem_cons, List.not_mem_nil, or_false] at hx
    rcases hx with rfl | rfl | rfl | rfl <;> exact List.prefix_append _ _
  obtain ⟨s0, h0⟩ : ∃ s0, DocWriter.new false 2 ⟨"none".toList, .ok, .ok⟩ = .ok s0 := ⟨_, rfl⟩
  obtain ⟨s1, h1⟩ : ∃ s1, (s0.run Ex.calls4).flush = (s1, none) := by cases h0; exact ⟨_, rfl⟩
  obtain ⟨idx, h2⟩ := C45_build hl h0 h1 hr (names := ["a".toList]) (by
    have ha : Spec.accepted Ex.calls4 = [Ex.pdoc 1, Ex.pdoc 2, Ex.pdoc 0xc3, Ex.pdoc 1] := by decide
    have hp : ∀ v ∈ [(1, Obj.int 1), (2, .int 2), ((0xc3 : UInt8), .bool true)], Spec.propsOf (Ex.pdoc v.1) = some [("a".toList, v.2)] := by
      decide +kernel
    have fin : ∀ (b : UInt8) (v : Obj), v.hashable = true → Spec.propsOf (Ex.pdoc b) = some [("a".toList, v)] →
        ∃ ps, Spec.propsOf (Ex.pdoc b) = some ps ∧ ∀ k ∈ ["a".toList], ∀ v, dget ps k = some v → v.hashable = true := by
      intro b v hv h
      refine ⟨_, h, fun k hk w hw => ?_⟩
      simp only [List.mem_singleton] at hk
      subst hk
      simp only [dget, if_true, Option.some.injEq] at hw
      rw [← hw]; exact hv
    intro d hd
    rw [ha] at hd
    simp only [List.mem_cons, List.not_mem_nil, or_false] at hd
    rcases hd with rfl | rfl | rfl | rfl
    · exact fin 1 (.int 1) rfl (hp (1, _) (by simp))
    · exact fin 2 (.int 2) rfl (hp (2, _) (by simp))
    · exact fin 0xc3 (.bool true) rfl (hp (0xc3, _) (by simp))
    · exact fin 1 (.int 1) rfl (hp (1, _) (by simp)))
  exact ⟨s0, s1, idx, h0, h1, hl, hr, h2⟩

/-- C45 fails for a DocumentIndex unless the working directory is the base path: the file is then looked for in the
wrong place. Base path /d, file /d/f: the search works in /d, and raises FileNotFoundError in the root. -/
theorem C45_other_directory_fails : ∃ (conds : Dict Str Obj) (hit : Bytes),
    Ex.pfindAt ["d".toList] conds = some ([hit], none) ∧ Ex.pfindAt [] conds = some ([], some .io) :=
  ⟨[("a".toList, .int 2)], Ex.pdoc 2, by decide +kernel, by decide +kernel⟩

end Verif
