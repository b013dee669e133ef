import Verif.Model.Directory
import Verif.Props.Index
/-
C72: an index of a directory.
-/
set_option linter.unusedSimpArgs false
namespace Verif

namespace Spec

/-- the name of a docria file: a nonempty stem without dots, `.docria`, and possibly a compression suffix -/
def DocriaName (s : Str) : Prop :=
  ∃ stem ext, s = stem ++ ".docria".toList ++ ext ∧ stem ≠ [] ∧ '.' ∉ stem ∧
    ext ∈ [[], ".xz".toList, ".bz2".toList, ".z".toList, ".lz4".toList]

/-- `raw` is a file that a writer wrote and closed, and `docs` are what iterating it yields -/
def Written (reg : Codecs) (raw : Bytes) (docs : List MDoc) : Prop :=
  (∃ c bnd num cs s0 s1, Lossless reg c ∧ DocWriter.new bnd num c = .ok s0 ∧ (s0.run cs).flush = (s1, none) ∧
    (∀ x ∈ cs, Real x) ∧ raw = payload s1.log) ∧
  ∃ r, DocReader.new reg raw = .ok r ∧
    ∀ k, r.nexts (docs.length + k) = docs.map .ok ++ List.replicate k (.error .stopIteration)

end Spec

theorem namefilter_iff (s : Str) : namefilter.fullmatch s = true ↔ Spec.DocriaName s := by
  rw [Re.fullmatch_iff, namefilter, Re.lang_seq]
  simp only [Re.lang_plus_cls, Re.lang_seq, Re.lang_opt, Re.lang_alt, Re.lang_lit, Spec.DocriaName, bne_iff_ne]
  constructor
  · rintro ⟨x, y, rfl, ⟨h1, h2⟩, a, b, rfl, rfl, h3⟩
    refine ⟨x, b, by simp only [List.append_assoc], h1, fun h => h2 '.' h rfl, ?_⟩
    rcases h3 with rfl | ⟨u, v, rfl, rfl, h⟩
    · simp
    · rcases h with rfl | rfl | rfl | rfl <;> simp
  · rintro ⟨x, b, rfl, h1, h2, h3⟩
    refine ⟨x, _, List.append_assoc _ _ _, ⟨h1, fun c hc h => h2 (h ▸ hc)⟩, _, b, rfl, rfl, ?_⟩
    simp only [List.mem_cons, List.not_mem_nil, or_false] at h3
    rcases h3 with rfl | rfl | rfl | rfl | rfl
    · exact .inl rfl
    · exact .inr ⟨".".toList, _, rfl, rfl, .inl rfl⟩
    · exact .inr ⟨".".toList, _, rfl, rfl, .inr (.inl rfl)⟩
    · exact .inr ⟨".".toList, _, rfl, rfl, .inr (.inr (.inl rfl))⟩
    · exact .inr ⟨".".toList, _, rfl, rfl, .inr (.inr (.inr rfl))⟩

/-- C72. The files of a directory that are indexed are those with the name of a docria file. -/
theorem C72_names (listing : List Str) (f : Str) : f ∈ docriaFiles listing ↔ f ∈ listing ∧ Spec.DocriaName f := by
  rw [docriaFiles, List.mem_filter, namefilter_iff]

theorem docriaName_plain {f : Str} (h : Spec.DocriaName f) : f ≠ "..".toList := by
  obtain ⟨stem, ext, rfl, h1, h2, -⟩ := h
  cases stem with
  | nil => exact absurd rfl h1
  | cons c s =>
    intro h
    have h3 : (c :: s ++ ".docria".toList ++ ext).head? = some '.' := by rw [h]; rfl
    simp only [List.cons_append, List.head?_cons, Option.some.injEq] at h3
    exact h2 (by simp [h3])

theorem plain_snoc {dir : Path} {f : Str} (h : Spec.Plain dir) (hf : Spec.DocriaName f) : Spec.Plain (dir ++ [f]) := by
  unfold Spec.Plain at *
  rw [List.mem_append, List.mem_singleton, not_or]
  exact ⟨h, fun e => docriaName_plain hf e.symm⟩

theorem addFiles_eq {reg fs names dir} : ∀ (done : List Str) (d d' : DocIndex), addFiles reg fs names dir done d = .ok d' →
    ∃ is : List FileIndex, is.length = done.length ∧
      (∀ e ∈ done.zip is, buildFile reg fs names (dir ++ [e.1]) = .ok e.2) ∧
      d' = (done.zip is).foldl (fun d e => d.add (dir ++ [e.1]) e.2) d := by
  intro done
  induction done with
  | nil => intro d d' h; cases h; exact ⟨[], rfl, by simp, rfl⟩
  | cons f l ih =>
    intro d d' h
    unfold addFiles at h
    cases hb : buildFile reg fs names (dir ++ [f]) with
    | error e => rw [hb] at h; cases h
    | ok i =>
      rw [hb] at h
      obtain ⟨is, h1, h2, h3⟩ := ih _ _ h
      refine ⟨i :: is, by simp [h1], ?_, by rw [h3]; rfl⟩
      intro e he
      rw [List.zip_cons_cons] at he
      rcases List.mem_cons.mp he with rfl | he
      · exact hb
      · exact h2 e he

theorem chain_ok {α : Type} : ∀ (l : List (List α)), Spec.chain (l.map (fun x => (x, none))) = (l.flatten, none) := by
  intro l
  induction l with
  | nil => rfl
  | cons x l ih => simp only [List.map_cons, Spec.chain, ih, List.flatten_cons]

theorem ok_prefix : ∀ {a b : List MDoc} {j k : Nat},
    a.map Except.ok ++ List.replicate j (.error PyErr.stopIteration) =
      b.map Except.ok ++ List.replicate k (.error PyErr.stopIteration) → a = b := by
  intro a
  induction a with
  | nil =>
    intro b j k h
    cases b with
    | nil => rfl
    | cons x b => cases j <;> simp [List.replicate_succ] at h
  | cons x a ih =>
    intro b j k h
    cases b with
    | nil => cases k <;> simp [List.replicate_succ] at h
    | cons y b =>
      simp only [List.map_cons, List.cons_append, List.cons.injEq, Except.ok.injEq] at h
      rw [h.1, ih h.2]

theorem chain_yielded {α : Type} : ∀ (l : List (List (Except PyErr α))), Spec.chain (l.map Spec.yielded) = Spec.yielded l.flatten := by
  intro l
  induction l with
  | nil => rfl
  | cons x l ih =>
    rw [List.map_cons, List.flatten_cons]
    induction x with
    | nil => simp only [Spec.yielded, List.nil_append, Spec.chain]; rw [ih]
    | cons y x ihx =>
      cases y with
      | error e => simp only [Spec.yielded, List.cons_append, Spec.chain]
      | ok y =>
        simp only [Spec.yielded, List.cons_append]
        rw [← ihx]
        cases hy : Spec.yielded x with
        | mk a e =>
          cases e with
          | none => simp only [Spec.chain, List.cons_append]
          | some e => simp only [Spec.chain]

/-- the search of a directory is the search of its files -/
theorem directory_search {α : Type} {step : Block → Block × Except PyErr α} {reg : Codecs} {fs : Path → Option Bytes} {names : List Str} {dir base : Path} {listing done : List Str}
    {docs : Str → List MDoc} {d : DocIndex} (hnodup : listing.Nodup) (hdir : Spec.Plain dir)
    (hfiles : ∀ f ∈ listing, Spec.DocriaName f → ∃ raw, fs (dir ++ [f]) = some raw ∧ Spec.Written reg raw (docs f))
    (hdone : done.Perm (docriaFiles listing)) (hbuild : buildDirectory reg fs names dir base done = .ok d)
    {conds : Dict Str Obj} {res : Str → List α × Option PyErr}
    (hone : ∀ f idx raw, FileIndex.build reg raw names = .ok idx → Spec.Written reg raw (docs f) → idx.search step reg (.ok raw) conds = res f) :
    DocIndex.search step reg fs base d conds = Spec.chain (done.map res) := by
  obtain ⟨is, hlen, hbs, hd⟩ := addFiles_eq _ _ _ hbuild
  have hmem : ∀ f ∈ done, f ∈ listing ∧ Spec.DocriaName f := fun f hf => (C72_names _ _).mp (hdone.mem_iff.mp hf)
  have hnd : done.Nodup := hdone.nodup_iff.mpr (List.Nodup.sublist List.filter_sublist hnodup)
  have hfst : (done.zip is).map (·.1) = done := by
    rw [List.map_fst_zip (by omega)]
  have hzm : ∀ e ∈ done.zip is, e.1 ∈ done := fun e he => (List.of_mem_zip he).1
  have h1 := C45_files step reg fs base ((done.zip is).map (fun e => (dir ++ [e.1], e.2)))
    (by
      intro e he
      obtain ⟨x, hx, rfl⟩ := List.mem_map.mp he
      exact plain_snoc hdir (hmem _ (hzm x hx)).2)
    (by
      rw [List.map_map]
      have : ((fun x => x.1) ∘ fun (e : Str × FileIndex) => (dir ++ [e.1], e.2)) = (fun f => dir ++ [f]) ∘ (·.1) := rfl
      rw [this, ← List.map_map, hfst]
      exact hnd.map _ (fun a b hab h => hab (by simpa using h)))
    conds
  rw [List.foldl_map] at h1
  rw [hd, h1, List.map_map]
  refine Eq.trans (congrArg Spec.chain (List.map_congr_left (g := fun e => res e.1) fun e he => ?_)) ?_
  · obtain ⟨raw, hraw, hw⟩ := hfiles e.1 (hmem _ (hzm e he)).1 (hmem _ (hzm e he)).2
    have hb := hbs e he
    unfold buildFile at hb
    rw [hraw] at hb
    simp only at hb
    simp only [Function.comp_def, hraw]
    exact hone _ _ _ hb hw
  · have e1 : (fun (e : Str × FileIndex) => res e.1) = res ∘ (·.1) := rfl
    rw [e1, ← List.map_map, hfst]

/-- C45 for a file and the documents that it yields -/
theorem written_search {reg : Codecs} {raw : Bytes} {docs : List MDoc} {names : List Str} {idx : FileIndex}
    (hw : Spec.Written reg raw docs) (hb : FileIndex.build reg raw names = .ok idx) {conds : Dict Str Obj}
    (hc : conds ≠ []) (hh : ∀ e ∈ conds, e.2.hashable = true) :
    idx.searchLazy reg (.ok raw) conds = (docs.filter (fun d => Spec.isHit names conds d.raw), none) ∧
    idx.searchEager reg (.ok raw) conds =
      Spec.yielded ((docs.filter (fun d => Spec.isHit names conds d.raw)).map (fun d => decodeMsgpack d.raw)) := by
  obtain ⟨⟨c, bnd, num, cs, s0, s1, g1, g2, g3, g4, rfl⟩, r, g6, g7⟩ := hw
  obtain ⟨r', docs', k1, k2, k3, k4⟩ := C45_search g1 g2 g3 g4 hb
  rw [g6] at k1
  cases k1
  have hdocs : docs = docs' := by
    have q1 := g7 docs'.length
    have q2 := k2 docs.length
    rw [Nat.add_comm, q1] at q2
    exact ok_prefix q2
  rw [hdocs]
  exact k4 conds hc hh

/-- C72. The index of a directory, searched with its base path as working directory, finds exactly the documents
of the docria files in it that satisfy all conditions: file by file in the order the files were completed, each
in file order. `docs f` are the documents of the file `f`. The eager search yields what they decode to, up to the
first that cannot be decoded. -/
theorem C72_search_partial {reg : Codecs} {fs : Path → Option Bytes} {names : List Str} {dir base : Path} {listing done : List Str}
    {docs : Str → List MDoc} {d : DocIndex} (hnodup : listing.Nodup) (hdir : Spec.Plain dir)
    (hfiles : ∀ f ∈ listing, Spec.DocriaName f → ∃ raw, fs (dir ++ [f]) = some raw ∧ Spec.Written reg raw (docs f))
    (hdone : done.Perm (docriaFiles listing)) (hbuild : buildDirectory reg fs names dir base done = .ok d)
    {conds : Dict Str Obj} (hc : conds ≠ []) (hh : ∀ e ∈ conds, e.2.hashable = true) :
    let hits := done.flatMap (fun f => (docs f).filter (fun x => Spec.isHit names conds x.raw))
    DocIndex.search Block.next reg fs base d conds = (hits, none) ∧
    DocIndex.search FileIndex.decodeNext reg fs base d conds = Spec.yielded (hits.map (fun x => decodeMsgpack x.raw)) := by
  constructor
  · rw [directory_search hnodup hdir hfiles hdone hbuild (fun f idx raw hb hw => (written_search hw hb hc hh).1)]
    have e1 : (fun f => ((docs f).filter (fun x => Spec.isHit names conds x.raw), (none : Option PyErr))) =
        (fun x => (x, none)) ∘ (fun f => (docs f).filter (fun x => Spec.isHit names conds x.raw)) := rfl
    rw [e1, ← List.map_map, chain_ok, List.flatMap]
  · rw [directory_search hnodup hdir hfiles hdone hbuild (fun f idx raw hb hw => (written_search hw hb hc hh).2)]
    have e1 : (fun f => Spec.yielded (((docs f).filter (fun x => Spec.isHit names conds x.raw)).map (fun x => decodeMsgpack x.raw))) =
        Spec.yielded ∘ (fun f => ((docs f).filter (fun x => Spec.isHit names conds x.raw)).map (fun x => decodeMsgpack x.raw)) := rfl
    rw [e1, ← List.map_map, chain_yielded, List.map_flatMap, List.flatMap]

/-- C72. The order in which the files are completed does not matter, up to the order of the results: every search
finds the same documents as often. -/
theorem C72_order {reg : Codecs} {fs : Path → Option Bytes} {names : List Str} {dir base : Path} {listing done done' : List Str}
    {docs : Str → List MDoc} {d d' : DocIndex} (hnodup : listing.Nodup) (hdir : Spec.Plain dir)
    (hfiles : ∀ f ∈ listing, Spec.DocriaName f → ∃ raw, fs (dir ++ [f]) = some raw ∧ Spec.Written reg raw (docs f))
    (hdone : done.Perm (docriaFiles listing)) (hbuild : buildDirectory reg fs names dir base done = .ok d)
    (hdone' : done'.Perm (docriaFiles listing)) (hbuild' : buildDirectory reg fs names dir base done' = .ok d')
    {conds : Dict Str Obj} (hc : conds ≠ []) (hh : ∀ e ∈ conds, e.2.hashable = true) :
    (DocIndex.search Block.next reg fs base d conds).1.Perm (DocIndex.search Block.next reg fs base d' conds).1 := by
  rw [(C72_search_partial hnodup hdir hfiles hdone hbuild hc hh).1, (C72_search_partial hnodup hdir hfiles hdone' hbuild' hc hh).1]
  exact (hdone.trans hdone'.symm).flatMap_right _

/-- C72. A directory of docria files whose documents have readable properties, hashable where indexed, can be
indexed in every order. -/
theorem C72_builds {reg : Codecs} {fs : Path → Option Bytes} {names : List Str} {dir base : Path} {listing done : List Str}
    {docs : Str → List MDoc} (hfiles : ∀ f ∈ listing, Spec.DocriaName f → ∃ raw, fs (dir ++ [f]) = some raw ∧ Spec.Written reg raw (docs f))
    (hprops : ∀ f ∈ listing, Spec.DocriaName f → ∀ x ∈ docs f, ∃ ps, Spec.propsOf x.raw = some ps ∧
      ∀ k ∈ names, ∀ v, dget ps k = some v → v.hashable = true)
    (hdone : done.Perm (docriaFiles listing)) : ∃ d, buildDirectory reg fs names dir base done = .ok d := by
  have hmem : ∀ f ∈ done, f ∈ listing ∧ Spec.DocriaName f := fun f hf => (C72_names _ _).mp (hdone.mem_iff.mp hf)
  have : ∀ (l : List Str) (d : DocIndex), (∀ f ∈ l, f ∈ listing ∧ Spec.DocriaName f) → ∃ d', addFiles reg fs names dir l d = .ok d' := by
    intro l
    induction l with
    | nil => intro d _; exact ⟨d, rfl⟩
    | cons f l ih =>
      intro d hl
      obtain ⟨h1, h2⟩ := hl f (by simp)
      obtain ⟨raw, hraw, ⟨c, bnd, num, cs, s0, s1, g1, g2, g3, g4, rfl⟩, r, g6, g7⟩ := hfiles f h1 h2
      obtain ⟨f', r', hf, hacc, hnew, hat, hrw, hcod, -⟩ := index_parts g1 g2 g3 g4
      obtain ⟨i, hi⟩ : ∃ i, FileIndex.build reg (Spec.payload s1.log) names = .ok i := by
        refine C45_build g1 g2 g3 g4 (names := names) fun x hx => ?_
        obtain ⟨r2, hr2, hn2⟩ := C42_round_trip g1 g2 g3 g4
        rw [g6] at hr2
        cases hr2
        have q1 := hn2 (docs f).length
        have q2 := g7 (Spec.accepted cs).length
        rw [Nat.add_comm, q2, List.map_append, List.map_map, List.map_replicate] at q1
        have q3 : x ∈ (docs f).map MDoc.raw := by
          have : (Except.ok x : Except PyErr Bytes) ∈ (Spec.accepted cs).map .ok ++ List.replicate (docs f).length (.error .stopIteration) :=
            List.mem_append_left _ (List.mem_map.mpr ⟨x, hx, rfl⟩)
          rw [← q1] at this
          rcases List.mem_append.mp this with h | h
          · obtain ⟨y, hy, he⟩ := List.mem_map.mp h
            exact List.mem_map.mpr ⟨y, hy, by injection he⟩
          · have := List.eq_of_mem_replicate h
            cases this
        obtain ⟨y, hy, rfl⟩ := List.mem_map.mp q3
        exact hprops f h1 h2 y hy
      obtain ⟨d', hd'⟩ := ih (d.add (dir ++ [f]) i) (fun x hx => hl x (by simp [hx]))
      refine ⟨d', ?_⟩
      unfold addFiles buildFile
      rw [hraw]
      simp only
      rw [hi]
      exact hd'
  exact this done _ hmem

/-- C72. Other entries of the directory are not looked at: not even opened. -/
theorem C72_ignores {reg : Codecs} {fs fs' : Path → Option Bytes} {names : List Str} {dir base : Path} {listing done : List Str}
    (hdone : done.Perm (docriaFiles listing)) (h : ∀ f, Spec.DocriaName f → fs (dir ++ [f]) = fs' (dir ++ [f])) :
    buildDirectory reg fs names dir base done = buildDirectory reg fs' names dir base done := by
  have hmem : ∀ f ∈ done, Spec.DocriaName f := fun f hf => ((C72_names _ _).mp (hdone.mem_iff.mp hf)).2
  have : ∀ (l : List Str) (d : DocIndex), (∀ f ∈ l, Spec.DocriaName f) → addFiles reg fs names dir l d = addFiles reg fs' names dir l d := by
    intro l
    induction l with
    | nil => intro d _; rfl
    | cons f l ih =>
      intro d hl
      unfold addFiles buildFile
      rw [h f (hl f (by simp))]
      split
      · rfl
      · exact ih _ (fun x hx => hl x (by simp [hx]))
  exact this done _ hmem

/-- C72. One docria file that cannot be opened or indexed and there is no index. -/
theorem C72_all_or_nothing {reg : Codecs} {fs : Path → Option Bytes} {names : List Str} {dir base : Path} {listing done : List Str}
    (hdone : done.Perm (docriaFiles listing)) {f : Str} (hf : f ∈ listing) (hn : Spec.DocriaName f)
    (hbad : fs (dir ++ [f]) = none ∨ ∃ raw e, fs (dir ++ [f]) = some raw ∧ FileIndex.build reg raw names = .error e) :
    ∃ e, buildDirectory reg fs names dir base done = .error e := by
  have hin : f ∈ done := hdone.mem_iff.mpr ((C72_names _ _).mpr ⟨hf, hn⟩)
  cases hb : buildDirectory reg fs names dir base done with
  | error e => exact ⟨e, rfl⟩
  | ok d =>
    obtain ⟨is, hlen, hbs, -⟩ := addFiles_eq _ _ _ hb
    obtain ⟨i, hi⟩ : ∃ i, (f, i) ∈ done.zip is := by
      obtain ⟨k, hk, rfl⟩ := List.getElem_of_mem hin
      exact ⟨is[k]'(by omega), List.mem_iff_getElem.mpr ⟨k, by rw [List.length_zip]; omega, by rw [List.getElem_zip]⟩⟩
    have := hbs _ hi
    unfold buildFile at this
    rcases hbad with h | ⟨raw, e, h, h'⟩
    · rw [h] at this; cases this
    · rw [h] at this
      simp only at this
      rw [h'] at this; cases this

/-! ### an example -/

/-- names -/
example : docriaFiles ["a.docria".toList, "a.b.docria".toList, ".docria".toList, "x.docria.xz".toList, "x.docria.gz".toList, "n".toList] =
    ["a.docria".toList, "x.docria.xz".toList] := by decide +kernel

namespace Ex

/-- the directory /d with the file of C45 twice and a file that is not a docria file -/
def dfs : Path → Option Bytes := fun p =>
  if p = ["d".toList, "f.docria".toList] then some pfile
  else if p = ["d".toList, "g.docria.xz".toList] then some pfile
  else if p = ["d".toList, "notes".toList] then some [] else none

/-- the index of /d with the base path /, searched from / -/
def dfind (done : List Str) (conds : Dict Str Obj) : Option (List Bytes × Option PyErr) :=
  match buildDirectory reg dfs ["a".toList] ["d".toList] [] done with
  | .ok idx => some (found (idx.search Block.next reg dfs [] conds))
  | .error _ => none

end Ex

example : docriaFiles ["notes".toList, "g.docria.xz".toList, "f.docria".toList] = ["g.docria.xz".toList, "f.docria".toList] ∧
    Ex.dfind ["g.docria.xz".toList, "f.docria".toList] [("a".toList, .int 2)] = some ([Ex.pdoc 2, Ex.pdoc 2], none) ∧
    Ex.dfind ["f.docria".toList, "g.docria.xz".toList, "missing.docria".toList] [("a".toList, .int 2)] = none := by decide +kernel

/-- the hypotheses of C72 for this directory -/
example : Spec.Plain ["d".toList] ∧ ∀ f ∈ ["notes".toList, "g.docria.xz".toList, "f.docria".toList], Spec.DocriaName f →
    ∃ raw docs, Ex.dfs (["d".toList] ++ [f]) = some raw ∧ Spec.Written Ex.reg raw docs ∧ docs.length = 4 := by
  refine ⟨by unfold Spec.Plain; decide, ?_⟩
  have hw : ∃ docs, Spec.Written Ex.reg Ex.pfile docs ∧ docs.length = 4 := by
    have hl : Spec.Lossless Ex.reg ⟨"none".toList, .ok, .ok⟩ := ⟨_, rfl, fun x z h => by cases h; rfl⟩
    have hr : ∀ x ∈ Ex.calls4, Spec.Real x := by
      intro x hx
      simp only [Ex.calls4, List.mem_cons, List.not_mem_nil, or_false] at hx
      rcases hx with rfl | rfl | rfl | rfl <;> exact List.prefix_append _ _
    obtain ⟨s0, h0⟩ : ∃ s0, DocWriter.new false 2 ⟨"none".toList, .ok, .ok⟩ = .ok s0 := ⟨_, rfl⟩
    obtain ⟨s1, h1⟩ : ∃ s1, (s0.run Ex.calls4).flush = (s1, none) := by cases h0; exact ⟨_, rfl⟩
    have hp : Ex.pfile = Spec.payload s1.log := by
      unfold Ex.pfile
      rw [h0]
      simp only
      rw [h1]
    obtain ⟨f, r, hf, hacc, hnew, hat, hraw, hcod, -⟩ := index_parts hl h0 h1 hr
    refine ⟨f.refs.map docOf, ⟨⟨_, _, _, _, _, _, hl, h0, h1, hr, hp⟩, r, by rw [hp]; exact hnew, fun k => ?_⟩, ?_⟩
    · rw [List.length_map, nexts_ok hf k _ hat, List.map_map]; rfl
    · have := congrArg List.length hacc
      rw [List.length_map] at this
      rw [List.length_map, this]
      decide
  obtain ⟨docs, hd, hlen⟩ := hw
  intro f hf hn
  have h1 : f = "g.docria.xz".toList ∨ f = "f.docria".toList := by
    have := (C72_names _ _).mpr ⟨hf, hn⟩
    rw [show docriaFiles ["notes".toList, "g.docria.xz".toList, "f.docria".toList] = ["g.docria.xz".toList, "f.docria".toList] by decide +kernel] at this
    simpa using this
  rcases h1 with rfl | rfl
  · exact ⟨_, docs, rfl, hd, hlen⟩
  · exact ⟨_, docs, rfl, hd, hlen⟩

/-- C72 does not hold for every file that ends in `.docria`: a dot in the stem and the file is left out without a
word. -/
theorem C72_dotted_left_out : ∃ f : Str, ".docria".toList <:+ f ∧ ∀ listing, f ∉ docriaFiles listing := by
  refine ⟨"news.2019.docria".toList, ⟨"news.2019".toList, rfl⟩, fun l h => ?_⟩
  have h1 := (List.mem_filter.mp h).2
  revert h1
  decide +kernel

end Verif
