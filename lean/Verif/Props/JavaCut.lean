import Verif.Proof.JavaCut
/-
C107: reading a block file that is cut short with the Java library.
-/
set_option linter.unusedSimpArgs false
namespace Verif

namespace Spec

/-- the code goes beyond the documents `ds` that are left. `skip(n)` looks for a further block as soon as the last
document of a block has been skipped. -/
def past (ds : List Bytes) : JDocReader.Call → Bool
  | .next => ds.isEmpty
  | .skip => ds.isEmpty
  | .skipN n => decide (ds.length ≤ n.toNat)
  | .count => true

/-- the caller asks for more than the documents `ds` that are left -/
def asksMore (ds : List Bytes) : JDocReader.Call → Bool
  | .skipN n => decide (ds.length < n.toNat)
  | c => past ds c

/-- what some calls return, up to the first that raises because it goes beyond the documents -/
def cutAnswers (more : List Bytes → JDocReader.Call → Bool) : List Bytes → List JDocReader.Call → List (Except PyErr JDocReader.Ans)
  | _, [] => []
  | ds, c :: cs => if more ds c then [.error .outOfData] else .ok (answer ds c).1 :: cutAnswers more (answer ds c).2 cs

/-- the same when blocks are skipped: `cur` is left of the open block, `bs` are the whole blocks that follow -/
def cutBAnswers : List Bytes → List (List Bytes) → List JDocReader.BCall → List (Except PyErr JDocReader.Ans)
  | _, _, [] => []
  | cur, bs, .skipBlock :: cs => if bs.isEmpty then [.error .outOfData] else .ok (.flag true) :: cutBAnswers cur bs.tail cs
  | cur, bs, c :: cs =>
    if (cur ++ bs.flatten).isEmpty then [.error .outOfData]
    else .ok (banswer cur bs c).1 :: cutBAnswers (banswer cur bs c).2.1 (banswer cur bs c).2.2 cs

/-- what `nextBlock()` gives on the whole blocks `bs` and a rest -/
def streamList (bs : List (List Bytes)) : List (Except PyErr (Option (List Bytes))) :=
  (bs.filter (fun ds => !ds.isEmpty)).map (fun ds => .ok (some ds)) ++ [.error .outOfData]

/-- `j` of the blocks lie before byte `n` of a file with a header of `h` bytes -/
def BlocksBefore (comp : Bytes → Bytes) (h : Nat) (blocks : List (List Bytes)) (n j : Nat) : Prop :=
  j ≤ blocks.length ∧ ∀ i, i ≤ blocks.length → (i ≤ j ↔ h + (blocksBytes comp (blocks.take i)).length ≤ n)

/-- byte `n` is inside of a block -/
def CutInside (comp : Bytes → Bytes) (h : Nat) (blocks : List (List Bytes)) (n : Nat) : Prop :=
  h ≤ n ∧ n < h + (blocksBytes comp blocks).length ∧ ∀ i, i ≤ blocks.length → h + (blocksBytes comp (blocks.take i)).length ≠ n

end Spec

namespace JDocReader

/-- `k` times: `nextBlock()`, and the documents of the stream it gives -/
def streams : Nat → JDocReader → List (Except PyErr (Option (List Bytes)))
  | 0, _ => []
  | k + 1, r =>
    match r.nextBlock with
    | (r, .error e) => .error e :: r.streams k
    | (r, .ok none) => .ok none :: r.streams k
    | (r, .ok (some i)) => (consume ((r.left i).length + 1) r i).2.map some :: (consume ((r.left i).length + 1) r i).1.streams k

end JDocReader

open JDocReader

/-! ### the header -/

/-- the constructor reads this -/
def headerP (unzip : Bytes → Except PyErr Bytes) : P ((Bytes → Except PyErr Bytes) × Int) := do
  let m ← P.take 4
  if m ≠ fileMagic then P.fail .io
  else
    let codec ← P.lift (JDocReader.codecOf unzip (← jBin))
    let num ← jInt
    let b ← jBool
    if b then P.fail .notImplemented else return (codec, num)

theorem loc_headerP (unzip : Bytes → Except PyErr Bytes) : Loc (headerP unzip) :=
  (Loc.take 4).bind fun _ => Loc.ite (Loc.fail _) (jloc_Bin.bind fun _ => (Loc.lift _).bind fun _ => jloc_Int.bind fun _ => jloc_Bool.bind fun _ =>
    Loc.ite (Loc.fail _) (Loc.pure _))

theorem new_headerP (unzip : Bytes → Except PyErr Bytes) (raw : Bytes) : JDocReader.new unzip none raw = match headerP unzip raw with
    | .error e => .error e
    | .ok (x, rest) => .ok ⟨rest, x.1, x.2, [], none⟩ := by
  unfold JDocReader.new headerP
  simp only [P.bind_eq]
  cases P.take 4 raw with
  | error e => rfl
  | ok x =>
    obtain ⟨m, rest⟩ := x
    simp only
    by_cases hm : m ≠ fileMagic
    · rw [if_pos hm, if_pos hm]; rfl
    · rw [if_neg hm, if_neg hm]
      simp only [pickCodec, P.bind_eq]
      cases jBin rest with
      | error e => rfl
      | ok x =>
        obtain ⟨c, rest⟩ := x
        simp only [P.lift]
        cases codecOf unzip c with
        | error e => rfl
        | ok c =>
          simp only
          cases jInt rest with
          | error e => rfl
          | ok x =>
            obtain ⟨num, rest⟩ := x
            simp only
            cases jBool rest with
            | error e => rfl
            | ok x =>
              obtain ⟨b, rest⟩ := x
              cases b <;> rfl

/-- the whole header, with anything after it -/
theorem headerP_ok {name : Str} {num : Int} {hd : Bytes} (hh : Header name num hd) (h1 : -2 ^ 31 ≤ num) (h2 : num < 2 ^ 31)
    {unzip dec} (hdec : JDocReader.codecOf unzip (utf8Encode name) = .ok dec) (rest : Bytes) : headerP unzip (hd ++ rest) = .ok ((dec, num), rest) := by
  obtain ⟨a, b, c, pa, pb, pc, e⟩ := hh
  have hc : c = [0xc2] := by simp only [pack, packAt] at pc; cases pc; rfl
  subst hc
  have hm : P.take 4 (fileMagic ++ (a ++ (b ++ (0xc2 :: rest)))) = .ok (fileMagic, a ++ (b ++ (0xc2 :: rest))) := take_append fileMagic _
  rw [e]
  simp only [List.append_assoc, List.cons_append, List.nil_append, headerP, P.bind_eq, hm, ne_eq, not_true_eq_false, if_false,
    jBin_str pa (codecOf_name hdec), P.lift, hdec, jInt_int pb h1 h2, jBool_false]
  rfl

/-- C107. A file that is cut in its header is refused. -/
theorem C107_header {name : Str} {num : Int} {hd : Bytes} (hh : Header name num hd) (h1 : -2 ^ 31 ≤ num) (h2 : num < 2 ^ 31)
    {unzip dec} (hdec : JDocReader.codecOf unzip (utf8Encode name) = .ok dec) (rest : Bytes) {n : Nat} (hn : n < hd.length) :
    JDocReader.new unzip none ((hd ++ rest).take n) = .error .outOfData := by
  have h0 := headerP_ok hh h1 h2 hdec []
  rw [List.append_nil, ← List.take_append_drop n hd] at h0
  have := (loc_headerP unzip).short h0 (by
    intro e
    have := congrArg List.length e
    simp only [List.length_drop, List.length_nil] at this
    omega)
  rw [List.take_append_of_le_length (by omega), new_headerP, this]

/-! ### the blocks -/

theorem stump {z a b : Bytes} (hz : z.length < 2 ^ 31) (e : Spec.bpack z = a ++ b) (hb : b ≠ []) (ha : a ≠ []) : Stump a :=
  ⟨ha, jBin_short hz e hb, jSkip_short hz e hb ha⟩

/-- a file cut after the header, opened: the reader is one of the whole blocks before the cut, with a rest -/
theorem cut_open {name : Str} {num : Int} {hd : Bytes} (hh : Header name num hd) (h1 : -2 ^ 31 ≤ num) (h2 : num < 2 ^ 31)
    {unzip dec} (hdec : JDocReader.codecOf unzip (utf8Encode name) = .ok dec) {comp : Bytes → Bytes} {blocks : List (List Bytes)}
    (hok : ∀ ds ∈ blocks, Spec.Readable comp dec ds) {n : Nat} (hn1 : hd.length ≤ n) (hn2 : n ≤ hd.length + (Spec.blocksBytes comp blocks).length) :
    ∃ r j t, JDocReader.new unzip none ((hd ++ Spec.blocksBytes comp blocks).take n) = .ok (r.plus t) ∧ JRd comp r [] (blocks.take j) ∧
      Spec.BlocksBefore comp hd.length blocks n j ∧ (t = [] ∧ ¬ Spec.CutInside comp hd.length blocks n ∨ Stump t ∧ Spec.CutInside comp hd.length blocks n) := by
  obtain ⟨j, g1, g2, g3, rest, g4, g5⟩ := cut_point comp blocks (n - hd.length) (by omega)
  have hlen : n - hd.length = (Spec.blocksBytes comp (blocks.take j)).length + rest.length := by
    have := congrArg List.length g4
    rw [List.length_take, List.length_append] at this
    omega
  have hmono : ∀ i, i ≤ j → (Spec.blocksBytes comp (blocks.take i)).length ≤ (Spec.blocksBytes comp (blocks.take j)).length := by
    intro i hij
    have : blocks.take j = blocks.take i ++ (blocks.take j).drop i := by
      have h := List.take_append_drop i (blocks.take j)
      rw [List.take_take, Nat.min_eq_left hij] at h
      exact h.symm
    rw [this, blocksBytes_append, List.length_append]; omega
  refine ⟨⟨Spec.blocksBytes comp (blocks.take j), dec, num, [], none⟩, j, rest, ?_, ⟨rfl, .inl ⟨rfl, rfl⟩, by simp, fun ds h => hok ds (List.mem_of_mem_take h)⟩,
    ⟨g1, ?_⟩, ?_⟩
  · rw [List.take_append, List.take_of_length_le hn1, g4, new_headerP, headerP_ok hh h1 h2 hdec]
    rfl
  · intro i hi
    constructor
    · intro hij
      have := hmono i hij
      omega
    · intro hle
      rcases Nat.lt_or_ge j i with h | h
      · have := g3 i h hi; omega
      · exact h
  · by_cases he : rest = []
    · refine .inl ⟨he, fun hi => hi.2.2 j g1 ?_⟩
      rw [he, List.length_nil] at hlen
      omega
    · have hpos : 0 < rest.length := List.length_pos_iff.mpr he
      rcases g5 with g5 | ⟨ds, more, q1, q2, q3⟩
      · exact absurd g5 he
      · refine .inr ⟨stump (hok ds (List.mem_of_getElem? q1)).1 q3 q2 he, hn1, ?_, ?_⟩
        · have hjl : j < blocks.length := (List.getElem?_eq_some_iff.mp q1).1
          have := g3 blocks.length hjl (Nat.le_refl _)
          rw [List.take_length] at this
          omega
        · intro i hi e
          rcases Nat.lt_or_ge j i with h | h
          · have := g3 i h hi; omega
          · have := hmono i h; omega

theorem plus_nil (r : JDocReader) : r.plus [] = r := by simp [plus]

theorem no_blocks {comp r cur bs} (h : JRd comp r cur bs) (hr : r.rest = []) : bs = [] := by
  cases bs with
  | nil => rfl
  | cons ds bs =>
    have h0 := h.rest
    rw [hr, blocksBytes_cons, Spec.blockBytes] at h0
    have := bpack_pos (d := comp (Spec.blockData ds)) (by have := (h.ok ds (by simp)).1; omega)
    rw [(List.append_eq_nil_iff.mp h0.symm).1] at this
    simp at this

theorem call_cut {comp r cur bs bound t} (ht : Stump t) (h : JRd comp r cur bs) (hb : (cur ++ bs.flatten).length < bound) (c : JDocReader.Call) :
    (Spec.past (cur ++ bs.flatten) c = true → ((r.plus t).call bound c).2 = .error .outOfData) ∧
    (Spec.past (cur ++ bs.flatten) c = false → ((r.plus t).call bound c).2 = .ok (Spec.answer (cur ++ bs.flatten) c).1 ∧
      ∃ r' cur' bs', ((r.plus t).call bound c).1 = r'.plus t ∧ JRd comp r' cur' bs' ∧ cur' ++ bs'.flatten = (Spec.answer (cur ++ bs.flatten) c).2) := by
  obtain ⟨g1, cur', bs', g2, g3⟩ := call_answer h hb c
  have hend : ∀ {r' : JDocReader}, JRd comp r' cur' bs' → (r'.block = none → cur' = []) ∧ (r'.block ≠ none → cur' ≠ []) := by
    intro r' h'
    rcases h'.blk with ⟨h1, h2⟩ | ⟨i, h1, h2, h3⟩
    · exact ⟨fun _ => h2, fun h => absurd h1 h⟩
    · exact ⟨fun h => absurd h (by rw [h1]; simp), fun _ => h3⟩
  cases c with
  | next =>
    obtain ⟨p1, p2⟩ := nextRaw_plus ht r
    have hv : r.nextRaw.2 = .ok (cur ++ bs.flatten).head? := by
      obtain ⟨_, _, q, -⟩ := nextRaw_ok h
      exact q
    cases hl : cur ++ bs.flatten with
    | nil =>
      rw [hl] at hv
      refine ⟨fun _ => ?_, fun h => by simp [Spec.past] at h⟩
      simp only [JDocReader.call, p2 hv]; rfl
    | cons d ds =>
      rw [hl] at hv g1 g3
      refine ⟨fun h => by simp [Spec.past] at h, fun _ => ?_⟩
      have e := p1 d hv
      simp only [JDocReader.call, e]
      exact ⟨rfl, r.nextRaw.1, cur', bs', rfl, g2, g3⟩
  | skip =>
    obtain ⟨p1, p2⟩ := skip_plus ht r
    have hv : r.skip.2 = .ok (!(cur ++ bs.flatten).isEmpty) := by
      obtain ⟨_, _, q, -⟩ := skip_ok h
      exact q
    cases hl : cur ++ bs.flatten with
    | nil =>
      rw [hl] at hv
      refine ⟨fun _ => ?_, fun h => by simp [Spec.past] at h⟩
      simp only [JDocReader.call, p2 hv]; rfl
    | cons d ds =>
      rw [hl] at hv g1 g3
      refine ⟨fun h => by simp [Spec.past] at h, fun _ => ?_⟩
      have e := p1 hv
      simp only [JDocReader.call, e]
      exact ⟨rfl, r.skip.1, cur', bs', rfl, g2, g3⟩
  | skipN n =>
    have hv : (r.skips (some n) bound).2 = .ok (min n.toNat (cur ++ bs.flatten).length) := by
      simp only [JDocReader.call, Spec.answer, skipN] at g1
      cases hx : (r.skips (some n) bound).2 with
      | error e => rw [hx] at g1; cases g1
      | ok m => rw [hx] at g1; cases g1; rfl
    obtain ⟨p1, p2⟩ := skips_plus ht (some n) bound r _ hv
    obtain ⟨e1, e2⟩ := hend g2
    simp only [Spec.answer] at g3
    by_cases hbk : (r.skips (some n) bound).1.block = none
    · -- the end was reached
      have hr0 : JRd comp (r.skips (some n) bound).1 cur' bs' := g2
      have hbs : bs' = [] := no_blocks hr0 (skips_end _ _ _ _ hv hbk)
      have hle : (cur ++ bs.flatten).length ≤ n.toNat := by
        rw [hbs, e1 hbk] at g3
        exact List.drop_eq_nil_iff.mp g3.symm
      refine ⟨fun _ => ?_, fun h => by simp [Spec.past] at h; simp at hle; omega⟩
      simp only [JDocReader.call, skipN, p2 hbk]; rfl
    · have hc := e2 hbk
      have hgt : ¬ (cur ++ bs.flatten).length ≤ n.toNat := by
        intro hle
        rw [List.drop_eq_nil_of_le hle] at g3
        exact hc (List.append_eq_nil_iff.mp g3).1
      refine ⟨fun h => absurd (of_decide_eq_true h) hgt, fun _ => ?_⟩
      simp only [JDocReader.call, skipN, p1 hbk]
      exact ⟨rfl, (r.skips (some n) bound).1, cur', bs', rfl, g2, g3⟩
  | count =>
    refine ⟨fun _ => ?_, fun h => by cases h⟩
    have hv : (r.skips none bound).2 = .ok (cur ++ bs.flatten).length := by
      simp only [JDocReader.call, Spec.answer, count] at g1
      cases hx : (r.skips none bound).2 with
      | error e => rw [hx] at g1; cases g1
      | ok m => rw [hx] at g1; cases g1; rfl
    obtain ⟨p1, p2⟩ := skips_plus ht none bound r _ hv
    obtain ⟨e1, e2⟩ := hend g2
    simp only [Spec.answer] at g3
    have hbk : (r.skips none bound).1.block = none := by
      cases hb : (r.skips none bound).1.block with
      | none => rfl
      | some i => exact absurd (List.append_eq_nil_iff.mp g3).1 (e2 (by show (r.skips none bound).1.block ≠ none; rw [hb]; simp))
    simp only [JDocReader.call, count, p2 hbk]; rfl

theorem answer_length (ds : List Bytes) (c : JDocReader.Call) : (Spec.answer ds c).2.length ≤ ds.length := by
  cases c <;> simp only [Spec.answer, List.length_tail, List.length_drop, List.length_nil] <;> omega

theorem calls_cut {comp bound t} (ht : Stump t) (cs : List JDocReader.Call) : ∀ {r cur bs}, JRd comp r cur bs → (cur ++ bs.flatten).length < bound →
    Spec.cutAnswers Spec.past (cur ++ bs.flatten) cs <+: (r.plus t).calls bound cs := by
  induction cs with
  | nil => intro r cur bs _ _; exact List.nil_prefix
  | cons c cs ih =>
    intro r cur bs h hb
    obtain ⟨g1, g2⟩ := call_cut ht h hb c
    simp only [Spec.cutAnswers, JDocReader.calls]
    cases hp : Spec.past (cur ++ bs.flatten) c with
    | true =>
      rw [if_pos rfl, g1 hp]
      exact ⟨_, rfl⟩
    | false =>
      obtain ⟨q1, r', cur', bs', q2, q3, q4⟩ := g2 hp
      rw [if_neg (by simp), q1, q2, ← q4]
      refine List.cons_prefix_cons.mpr ⟨rfl, ih q3 ?_⟩
      rw [q4]
      have := answer_length (cur ++ bs.flatten) c
      omega

/-- C107. A file cut after its header opens. If the cut is between two blocks, the calls behave as on the whole blocks
before it; if it is inside of a block, they return the same until the first that goes beyond these blocks, which
raises. -/
theorem C107_reads_partial {name : Str} {num : Int} {hd : Bytes} (hh : Header name num hd) (h1 : -2 ^ 31 ≤ num) (h2 : num < 2 ^ 31)
    {unzip dec} (hdec : JDocReader.codecOf unzip (utf8Encode name) = .ok dec) {comp : Bytes → Bytes} {blocks : List (List Bytes)}
    (hok : ∀ ds ∈ blocks, Spec.Readable comp dec ds) {n : Nat} (hn1 : hd.length ≤ n) (hn2 : n ≤ hd.length + (Spec.blocksBytes comp blocks).length) :
    ∃ r j, JDocReader.new unzip none ((hd ++ Spec.blocksBytes comp blocks).take n) = .ok r ∧ Spec.BlocksBefore comp hd.length blocks n j ∧
      ∀ cs bound, (blocks.take j).flatten.length < bound →
        (¬ Spec.CutInside comp hd.length blocks n → r.calls bound cs = Spec.answers (blocks.take j).flatten cs) ∧
        (Spec.CutInside comp hd.length blocks n → Spec.cutAnswers Spec.past (blocks.take j).flatten cs <+: r.calls bound cs) := by
  obtain ⟨r, j, t, e, hr, hj, ht⟩ := cut_open hh h1 h2 hdec hok hn1 hn2
  refine ⟨r.plus t, j, e, hj, fun cs bound hb => ⟨fun hi => ?_, fun hi => ?_⟩⟩
  · rcases ht with ⟨rfl, -⟩ | ⟨-, h⟩
    · rw [plus_nil]
      have gen : ∀ (cs : List JDocReader.Call) {r : JDocReader} {cur bs}, JRd comp r cur bs → (cur ++ bs.flatten).length < bound →
          r.calls bound cs = Spec.answers (cur ++ bs.flatten) cs := by
        intro cs
        induction cs with
        | nil => intro r cur bs _ _; rfl
        | cons c cs ih =>
          intro r cur bs h hb
          obtain ⟨g1, c', b', g2, g3⟩ := call_answer h hb c
          simp only [JDocReader.calls, Spec.answers, g1]
          rw [ih g2 ?_, g3]
          rw [g3]
          have := answer_length (cur ++ bs.flatten) c
          omega
      exact gen cs hr hb
    · exact absurd h hi
  · rcases ht with ⟨-, h⟩ | ⟨h, -⟩
    · exact absurd hi h
    · exact calls_cut h cs hr hb

theorem bcalls_cut {comp t} (ht : Stump t) (cs : List JDocReader.BCall) : ∀ {r cur bs}, JRd comp r cur bs →
    Spec.cutBAnswers cur bs cs <+: (r.plus t).bcalls cs := by
  induction cs with
  | nil => intro r cur bs _; exact List.nil_prefix
  | cons c cs ih =>
    intro r cur bs h
    cases c with
    | next =>
      obtain ⟨c', b', g1, g2, -, g3⟩ := nextRaw_ok h
      have ha := advance_spec rfl g3
      obtain ⟨p1, p2⟩ := nextRaw_plus ht r
      simp only [Spec.cutBAnswers, JDocReader.bcalls, JDocReader.bcall, Spec.banswer, ha]
      cases hl : cur ++ bs.flatten with
      | nil =>
        rw [hl] at g1
        simp only [List.isEmpty_nil, if_true, p2 g1]
        exact ⟨_, rfl⟩
      | cons d ds =>
        rw [hl] at g1
        rw [if_neg (by simp), p1 d g1]
        exact List.cons_prefix_cons.mpr ⟨rfl, ih g2⟩
    | skip =>
      obtain ⟨c', b', g1, g2, -, g3⟩ := skip_ok h
      have ha := advance_spec rfl g3
      obtain ⟨p1, p2⟩ := skip_plus ht r
      simp only [Spec.cutBAnswers, JDocReader.bcalls, JDocReader.bcall, Spec.banswer, ha]
      cases hl : cur ++ bs.flatten with
      | nil =>
        rw [hl] at g1
        simp only [List.isEmpty_nil, if_true, p2 g1]
        exact ⟨_, rfl⟩
      | cons d ds =>
        rw [hl] at g1
        rw [if_neg (by simp), p1 g1]
        exact List.cons_prefix_cons.mpr ⟨rfl, ih g2⟩
    | skipBlock =>
      simp only [Spec.cutBAnswers, JDocReader.bcalls, JDocReader.bcall]
      cases bs with
      | nil =>
        have hr : (r.plus t).rest = t := by
          have : r.rest = [] := h.rest
          simp [plus, this]
        simp only [List.isEmpty_nil, if_true]
        unfold skipBlock
        rw [hr, if_neg ht.ne, ht.skip]
        exact ⟨_, rfl⟩
      | cons ds bs =>
        obtain ⟨f1, f2, f3⟩ := h.ok ds (by simp)
        have hr := h.rest
        rw [blocksBytes_cons, Spec.blockBytes] at hr
        have hp : (r.plus t).rest = Spec.bpack (comp (Spec.blockData ds)) ++ (Spec.blocksBytes comp bs ++ t) := by
          simp [plus, hr, List.append_assoc]
        have hne : (r.plus t).rest ≠ [] := fun e => ht.ne (List.append_eq_nil_iff.mp e).2
        rw [if_neg (by simp)]
        unfold skipBlock
        rw [if_neg hne, hp, jSkip_bpack f1]
        refine List.cons_prefix_cons.mpr ⟨rfl, ?_⟩
        exact ih (r := { r with rest := Spec.blocksBytes comp bs }) (bs := bs)
          ⟨rfl, h.blk, h.fits, fun x hx => h.ok x (List.mem_cons_of_mem _ hx)⟩

/-- C107. The same when blocks are skipped as well: `skipBlock()` raises when there is no whole block left, `nextRaw()`
and `skip()` when there is no document left before the cut. -/
theorem C107_skip_block {name : Str} {num : Int} {hd : Bytes} (hh : Header name num hd) (h1 : -2 ^ 31 ≤ num) (h2 : num < 2 ^ 31)
    {unzip dec} (hdec : JDocReader.codecOf unzip (utf8Encode name) = .ok dec) {comp : Bytes → Bytes} {blocks : List (List Bytes)}
    (hok : ∀ ds ∈ blocks, Spec.Readable comp dec ds) {n : Nat} (hi : Spec.CutInside comp hd.length blocks n) :
    ∃ r j, JDocReader.new unzip none ((hd ++ Spec.blocksBytes comp blocks).take n) = .ok r ∧ Spec.BlocksBefore comp hd.length blocks n j ∧
      ∀ cs, Spec.cutBAnswers [] (blocks.take j) cs <+: r.bcalls cs := by
  obtain ⟨r, j, t, e, hr, hj, ht⟩ := cut_open hh h1 h2 hdec hok hi.1 (Nat.le_of_lt hi.2.1)
  rcases ht with ⟨-, h⟩ | ⟨h, -⟩
  · exact absurd hi h
  · exact ⟨r.plus t, j, e, hj, fun cs => bcalls_cut h cs hr⟩

theorem streams_cut {comp t} (ht : Stump t) (k : Nat) : ∀ {r : JDocReader} {bs : List (List Bytes)}, r.rest = Spec.blocksBytes comp bs →
    (∀ ds ∈ bs, Spec.Readable comp r.codec ds) → (Spec.streamList bs).take k <+: (r.plus t).streams k := by
  induction k with
  | zero => intro r bs _ _; exact List.nil_prefix
  | succ k ih =>
    intro r bs hr hok
    obtain ⟨p1, p2⟩ := readNext_plus ht r
    unfold streams nextBlock
    unfold readNextBlock at p1 p2
    rcases readLoop_blocks bs (r.rest.length + 1) hr hok (Nat.lt_succ_self _) with ⟨h0, h1, h2, h3⟩ | ⟨i, ds, bs', h0, h1, h2, h3, h4, h5, h6⟩
    · have hl : Spec.streamList bs = [.error .outOfData] := by
        unfold Spec.streamList
        rw [← filter_dropWhile, h0]; rfl
      have := p2 h1
      rw [hl, List.take_succ_cons, List.take_nil]
      unfold readNextBlock
      cases hx : (r.plus t).readLoop ((r.plus t).rest.length + 1) with
      | mk r' a =>
        rw [hx] at this
        simp only at this
        subst this
        exact ⟨_, rfl⟩
    · have hmem : ∀ x ∈ ds :: bs', Spec.Readable comp r.codec x := fun x hx => hok x (mem_dropWhile (h0 ▸ hx))
      have hfit := (hmem ds (by simp)).2.2
      have hl : Spec.streamList bs = .ok (some ds) :: Spec.streamList bs' := by
        unfold Spec.streamList
        rw [← filter_dropWhile bs, h0, List.filter_cons, if_pos (by simp [h6])]
        rfl
      unfold readNextBlock
      rw [p1 i h1, hl, List.take_succ_cons]
      generalize (r.readLoop (r.rest.length + 1)).1 = r' at h2 h3 h4 h5
      have hlr : (r'.plus t).left i = Spec.blockData ds := by show r'.left i = _; simp only [JDocReader.left, h3]; rfl
      have hdl := blockData_length ds hfit
      obtain ⟨g1, g2, g3, -, -⟩ := consume_ok ds (((r'.plus t).left i).length + 1) hfit h3 (by rw [hlr]; omega)
      simp only
      rw [consume_plus, g1]
      refine List.cons_prefix_cons.mpr ⟨rfl, ?_⟩
      exact ih (by rw [g2, h4]) (fun x hx => by rw [g3, h5]; exact hmem x (by simp [hx]))

/-- C107. `nextBlock()` gives a stream for each whole block before the cut that is not empty, and then raises. -/
theorem C107_streams {name : Str} {num : Int} {hd : Bytes} (hh : Header name num hd) (h1 : -2 ^ 31 ≤ num) (h2 : num < 2 ^ 31)
    {unzip dec} (hdec : JDocReader.codecOf unzip (utf8Encode name) = .ok dec) {comp : Bytes → Bytes} {blocks : List (List Bytes)}
    (hok : ∀ ds ∈ blocks, Spec.Readable comp dec ds) {n : Nat} (hi : Spec.CutInside comp hd.length blocks n) :
    ∃ r j, JDocReader.new unzip none ((hd ++ Spec.blocksBytes comp blocks).take n) = .ok r ∧ Spec.BlocksBefore comp hd.length blocks n j ∧
      ∀ k, (Spec.streamList (blocks.take j)).take k <+: r.streams k := by
  obtain ⟨r, j, t, e, hr, hj, ht⟩ := cut_open hh h1 h2 hdec hok hi.1 (Nat.le_of_lt hi.2.1)
  rcases ht with ⟨-, h⟩ | ⟨h, -⟩
  · exact absurd hi h
  · exact ⟨r.plus t, j, e, hj, fun k => streams_cut h k hr.rest hr.ok⟩

/-! ### files of the libraries -/

/-- C107 for the files of the Python library that the Java library can read, C81. -/
theorem C107_python_files {c : CCodec} {bnd num cs s0 s1}
    (h0 : DocWriter.new bnd num c = .ok s0) (h1 : (s0.run cs).flush = (s1, none)) (hreal : ∀ x ∈ cs, Spec.Real x)
    {unzip dec} (hdec : JDocReader.codecOf unzip (utf8Encode c.name) = .ok dec) (hinv : ∀ x z, c.compress x = .ok z → dec z = .ok x)
    (hn : -2 ^ 31 ≤ num ∧ num < 2 ^ 31) (hsize : (Spec.payload s1.log).length < 2 ^ 31) (hdocs : ∀ d ∈ Spec.accepted cs, d.length < 2 ^ 31) :
    ∃ blocks, Spec.payload s1.log = Spec.payload s0.log ++ Spec.blocksBytes (compOf c) blocks ∧ blocks.flatten = Spec.accepted cs ∧
      (∀ n, n < (Spec.payload s0.log).length → JDocReader.new unzip none ((Spec.payload s1.log).take n) = .error .outOfData) ∧
      ∀ n, (Spec.payload s0.log).length ≤ n → n ≤ (Spec.payload s1.log).length →
        ∃ r j, JDocReader.new unzip none ((Spec.payload s1.log).take n) = .ok r ∧ Spec.BlocksBefore (compOf c) (Spec.payload s0.log).length blocks n j ∧
          ∀ calls bound, (blocks.take j).flatten.length < bound →
            (¬ Spec.CutInside (compOf c) (Spec.payload s0.log).length blocks n → r.calls bound calls = Spec.answers (blocks.take j).flatten calls) ∧
            (Spec.CutInside (compOf c) (Spec.payload s0.log).length blocks n →
              Spec.cutAnswers Spec.past (blocks.take j).flatten calls <+: r.calls bound calls) := by
  have hreg : Spec.Lossless [(c.name, ⟨c.name, c.compress, dec⟩)] c := ⟨⟨c.name, c.compress, dec⟩, by simp [getCodec, dget], hinv⟩
  obtain ⟨hd, c', blocks, ⟨hh⟩, hc', hlog, hfl, -, hok, hhd⟩ := closed_file hreg h0 h1 hreal
  have hdec' : c'.decompress = dec := by
    simp [getCodec, dget] at hc'
    rw [← hc']
  obtain ⟨-, hz, hd', -, -⟩ := hok [] rfl
  simp only [hdec'] at hz hd'
  have hread : ∀ ds ∈ blocks, Spec.Readable (compOf c) dec ds := by
    intro ds hds
    refine ⟨?_, hd' ds hds, fun d h => hdocs d (by rw [← hfl]; exact List.mem_flatten.mpr ⟨ds, hds, h⟩)⟩
    have := block_length hds (hz ds hds)
    rw [hlog, List.length_append] at hsize
    omega
  rw [hhd, hlog]
  refine ⟨blocks, rfl, hfl, fun n h => C107_header hh hn.1 hn.2 hdec _ h, fun n g1 g2 => ?_⟩
  rw [List.length_append] at g2
  exact C107_reads_partial hh hn.1 hn.2 hdec hread g1 g2

/-- C107 for the files of the Java library with a document, C80. -/
theorem C107_java_files {f : Bytes → Bytes} {bnd early num name cs s s'} (hs : JDocWriter.new bnd early num name f = .ok s)
    (hr : s.run (cs ++ [.flush]) = .ok s') (hne : Spec.blobs cs ≠ []) (hnum : num < 2 ^ 31)
    (hd : ∀ d ∈ Spec.blobs cs, d.length < 2 ^ 31 ∧ Spec.ascii "DM_1" <+: d) (hsize : (Spec.payload s'.log).length < 2 ^ 31)
    {unzip dec} (hdec : JDocReader.codecOf unzip (utf8Encode name) = .ok dec) (hinv : ∀ x, dec (f x) = .ok x) :
    ∃ hd blocks, Spec.payload s'.log = hd ++ Spec.blocksBytes f blocks ∧ blocks.flatten = Spec.blobs cs ∧
      (∀ n, n < hd.length → JDocReader.new unzip none ((Spec.payload s'.log).take n) = .error .outOfData) ∧
      ∀ n, hd.length ≤ n → n ≤ (Spec.payload s'.log).length →
        ∃ r j, JDocReader.new unzip none ((Spec.payload s'.log).take n) = .ok r ∧ Spec.BlocksBefore f hd.length blocks n j ∧
          ∀ calls bound, (blocks.take j).flatten.length < bound →
            (¬ Spec.CutInside f hd.length blocks n → r.calls bound calls = Spec.answers (blocks.take j).flatten calls) ∧
            (Spec.CutInside f hd.length blocks n → Spec.cutAnswers Spec.past (blocks.take j).flatten calls <+: r.calls bound calls) := by
  have hn : 1 ≤ num := by
    unfold JDocWriter.new at hs
    by_cases h : num < 1
    · rw [if_pos h] at hs; cases hs
    · omega
  have hp : ∃ p, DocWriter.new false num ⟨name, fun x => .ok (f x), dec⟩ = .ok p := by
    obtain ⟨a, ha⟩ := C30_packs (.str name) (by have := codecOf_name hdec; simp only [Spec.Fits]; omega)
    obtain ⟨b, hb⟩ := C30_packs (.int num) (by simp only [Spec.Fits]; omega)
    have hf : pack (.bool false) = .ok [0xc2] := rfl
    unfold DocWriter.new
    rw [ha, hb, hf]
    exact ⟨_, rfl⟩
  obtain ⟨p, hp⟩ := hp
  obtain ⟨g1, g2⟩ := C80_same_file_partial (c := ⟨name, fun x => .ok (f x), dec⟩) rfl hp hs hr hne
  have hacc := accepted_py cs (fun d h => by have := (hd d h).1; omega)
  have hmem : ∀ (l : List JDocWriter.Call) {d : Bytes}, .write d ∈ l → d ∈ Spec.blobs l := by
    intro l
    induction l with
    | nil => intro d h; cases h
    | cons c l ih =>
      intro d h
      rcases List.mem_cons.mp h with h | h
      · rw [← h]; simp [Spec.blobs]
      · have := ih h
        cases c <;> simp [Spec.blobs, this]
  rw [g1] at hsize ⊢
  rw [← hacc]
  refine ⟨_, C107_python_files hp (by rw [← g2]) ?_ hdec ?_ ⟨by omega, hnum⟩ hsize ?_⟩
  · intro x hx
    obtain ⟨y, hy, rfl⟩ := List.mem_map.mp hx
    cases y with
    | flush => trivial
    | write d => exact (hd d (hmem cs hy)).2
  · intro x z e
    cases e
    exact hinv x
  · intro d h
    rw [hacc] at h
    exact (hd d h).1

/-- C107 in full: a call raises only if it asks for more documents than there are in the whole blocks before the cut. -/
def C107_full : Prop := ∀ (hd : Bytes) (name : Str) (num : Int) (unzip dec : Bytes → Except PyErr Bytes) (comp : Bytes → Bytes)
  (blocks : List (List Bytes)) (n j : Nat) (r : JDocReader), Nonempty (Header name num hd) → -2 ^ 31 ≤ num → num < 2 ^ 31 →
  JDocReader.codecOf unzip (utf8Encode name) = .ok dec → (∀ ds ∈ blocks, Spec.Readable comp dec ds) → Spec.CutInside comp hd.length blocks n →
  Spec.BlocksBefore comp hd.length blocks n j → JDocReader.new unzip none ((hd ++ Spec.blocksBytes comp blocks).take n) = .ok r →
  ∀ cs bound, (blocks.take j).flatten.length < bound → Spec.cutAnswers Spec.asksMore (blocks.take j).flatten cs <+: r.calls bound cs

theorem before_unique {comp h blocks n i j} (hi : Spec.BlocksBefore comp h blocks n i) (hj : Spec.BlocksBefore comp h blocks n j) : i = j := by
  have h1 := (hi.2 j hj.1).mpr ((hj.2 j hj.1).mp (Nat.le_refl _))
  have h2 := (hj.2 i hi.1).mpr ((hi.2 i hi.1).mp (Nat.le_refl _))
  omega

/-- C107 fails for `skip(n)`: skipping as many documents as there are before the cut, or none when there are none left,
raises, while the same number of calls of `skip()` return true. -/
theorem C107_skip_fails {name : Str} {num : Int} {hd : Bytes} (hh : Header name num hd) (h1 : -2 ^ 31 ≤ num) (h2 : num < 2 ^ 31)
    {unzip dec} (hdec : JDocReader.codecOf unzip (utf8Encode name) = .ok dec) {comp : Bytes → Bytes} {blocks : List (List Bytes)}
    (hok : ∀ ds ∈ blocks, Spec.Readable comp dec ds) {n : Nat} (hi : Spec.CutInside comp hd.length blocks n) :
    ∃ r j, JDocReader.new unzip none ((hd ++ Spec.blocksBytes comp blocks).take n) = .ok r ∧ Spec.BlocksBefore comp hd.length blocks n j ∧
      ∀ bound, (blocks.take j).flatten.length < bound → (r.skipN bound (blocks.take j).flatten.length).2 = .error .outOfData ∧
        r.calls bound (List.replicate (blocks.take j).flatten.length .skip) = List.replicate (blocks.take j).flatten.length (.ok (.flag true)) := by
  obtain ⟨r, j, e, hj, hc⟩ := C107_reads_partial hh h1 h2 hdec hok hi.1 (Nat.le_of_lt hi.2.1)
  refine ⟨r, j, e, hj, fun bound hb => ⟨?_, ?_⟩⟩
  · have := (hc [.skipN (blocks.take j).flatten.length] bound hb).2 hi
    simp only [Spec.cutAnswers, Spec.past, Int.toNat_natCast, Nat.le_refl, decide_true, if_true, JDocReader.calls, JDocReader.call] at this
    have := (List.cons_prefix_cons.mp this).1
    cases hx : (r.skipN bound (blocks.take j).flatten.length).2 with
    | error x => rw [hx] at this; cases this; rfl
    | ok x => rw [hx] at this; cases this
  · have := (hc (List.replicate (blocks.take j).flatten.length .skip) bound hb).2 hi
    have key : ∀ ds : List Bytes, Spec.cutAnswers Spec.past ds (List.replicate ds.length .skip) = List.replicate ds.length (.ok (.flag true)) := by
      intro ds
      induction ds with
      | nil => rfl
      | cons d ds ih =>
        rw [List.length_cons, List.replicate_succ, List.replicate_succ]
        simp only [Spec.cutAnswers, Spec.past, List.isEmpty_cons, Spec.answer, List.tail_cons, ih]
        rfl
    rw [key] at this
    have hlen : ∀ (cs : List JDocReader.Call) (r : JDocReader), (r.calls bound cs).length = cs.length := by
      intro cs
      induction cs with
      | nil => intro r; rfl
      | cons c cs ih => intro r; simp [JDocReader.calls, ih]
    exact (this.eq_of_length (by rw [hlen, List.length_replicate, List.length_replicate])).symm

namespace Ex

/-- two blocks -/
def jtwo : List (List Bytes) := [[[1], [2]], [[3]]]

/-- what calls on the example of C81, cut after `n` bytes, return -/
def jcut (n : Nat) (cs : List JDocReader.Call) : List (Except PyErr JDocReader.Ans) :=
  match JDocReader.new .ok none (jfile.take n) with
  | .error e => [.error e]
  | .ok r => r.calls 20 cs

end Ex

theorem C107_full_false : ¬ C107_full := by
  intro h
  have hok : ∀ ds ∈ Ex.jtwo, Spec.Readable id .ok ds := by
    intro ds hds
    refine ⟨?_, rfl, ?_⟩ <;> (revert ds; unfold Ex.jtwo; decide)
  have hi : Spec.CutInside id Ex.hdr.length Ex.jtwo 20 := by
    refine ⟨by decide, by decide +kernel, ?_⟩
    intro i hi
    have : i = 0 ∨ i = 1 ∨ i = 2 := by simp [Ex.jtwo] at hi; omega
    rcases this with rfl | rfl | rfl <;> decide +kernel
  obtain ⟨r, j, e, hj, hf⟩ := C107_skip_fails (⟨_, _, _, rfl, rfl, rfl, by decide⟩ : Header "none".toList 2 Ex.hdr) (by decide) (by decide)
    (unzip := .ok) (dec := .ok) (by simp [codecOf]) hok hi
  have := h Ex.hdr "none".toList 2 .ok .ok id Ex.jtwo 20 j r ⟨⟨_, _, _, rfl, rfl, rfl, by decide⟩⟩ (by decide) (by decide) (by simp [codecOf])
    hok hi hj e [.skipN (List.take j Ex.jtwo).flatten.length] _ (Nat.lt_succ_self _)
  have hs := (hf _ (Nat.lt_succ_self _)).1
  generalize (List.take j Ex.jtwo).flatten = ds at this hs
  simp only [Spec.cutAnswers, Spec.asksMore, Int.toNat_natCast, Nat.lt_irrefl, decide_false, JDocReader.calls, JDocReader.call, hs] at this
  cases (List.cons_prefix_cons.mp this).1

/-- the blocks of the example begin at bytes 11, 19, 21 and 26: it is refused when cut in the header, ends quietly when
cut between two blocks, and raises when cut inside of a block -/
example : (List.range 11).all (fun n => decide (Ex.jcut n [.next] = [.error .outOfData])) = true ∧
    Ex.jcut 19 [.next, .next, .next] = [.ok (.doc (some [1])), .ok (.doc (some [2])), .ok (.doc none)] ∧
    Ex.jcut 22 [.next, .next, .next] = [.ok (.doc (some [1])), .ok (.doc (some [2])), .error .outOfData] ∧
    Ex.jcut 27 [.skipN 2, .next, .skip] = [.ok (.num 2), .ok (.doc (some [3])), .error .outOfData] ∧
    Ex.jcut 27 [.skipN 3] = [.error .outOfData] ∧ Ex.jcut 27 [.skipN 2, .count] = [.ok (.num 2), .error .outOfData] := by decide +kernel

/-- the streams of the same file: the empty second block gives none -/
example : (match JDocReader.new .ok none (Ex.jfile.take 27) with
    | .error e => [.error e]
    | .ok r => r.streams 3) = [.ok (some [[1], [2]]), .ok (some [[3]]), .error .outOfData] := by decide +kernel

/-- blocks skipped in it -/
example : (match JDocReader.new .ok none (Ex.jfile.take 27) with
    | .error e => [.error e]
    | .ok r => r.bcalls [.next, .skipBlock, .skipBlock, .next, .skipBlock]) =
      [.ok (.doc (some [1])), .ok (.flag true), .ok (.flag true), .ok (.doc (some [2])), .error .outOfData] ∧
    Spec.cutBAnswers [] [[[1], [2]], [], [[3]]] [.next, .skipBlock, .skipBlock, .next, .skipBlock] =
      [.ok (.doc (some [1])), .ok (.flag true), .ok (.flag true), .ok (.doc (some [2])), .error .outOfData] := by decide +kernel

end Verif
