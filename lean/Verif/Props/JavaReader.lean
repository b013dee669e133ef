import Verif.Proof.JavaUnpack
import Verif.Props.JavaStream
/-
C81: reading block files with the Java library.
-/
set_option linter.unusedSimpArgs false
namespace Verif

namespace Spec

/-- what a call on a sequence of documents returns, and what is left -/
def answer (ds : List Bytes) : JDocReader.Call → JDocReader.Ans × List Bytes
  | .next => (.doc ds.head?, ds.tail)
  | .skip => (.flag (!ds.isEmpty), ds.tail)
  | .skipN n => (.num (min n.toNat ds.length), ds.drop n.toNat)
  | .count => (.num ds.length, [])

/-- what some calls return -/
def answers : List Bytes → List JDocReader.Call → List (Except PyErr JDocReader.Ans)
  | _, [] => []
  | ds, c :: cs => .ok (answer ds c).1 :: answers (answer ds c).2 cs

/-- the blocks that a reader can read: shorter than 2 GiB, and the codec undoes the compression -/
def Readable (comp : Bytes → Bytes) (dec : Bytes → Except PyErr Bytes) (ds : List Bytes) : Prop :=
  (comp (blockData ds)).length < 2 ^ 31 ∧ dec (comp (blockData ds)) = .ok (blockData ds) ∧ ∀ d ∈ ds, d.length < 2 ^ 31

/-- documents and blocks that have not been opened -/
def blockAnswer (s : List Bytes × List (List Bytes)) : Bool × (List Bytes × List (List Bytes)) := (!s.2.isEmpty, (s.1, s.2.tail))

end Spec

/-- `cur` is left of the current block, `bs` are the blocks that have not been read -/
structure JRd (comp : Bytes → Bytes) (r : JDocReader) (cur : List Bytes) (bs : List (List Bytes)) : Prop where
  rest : r.rest = Spec.blocksBytes comp bs
  blk : (r.block = none ∧ cur = []) ∨ (∃ i, r.block = some i ∧ r.blks[i]? = some (Spec.blockData cur) ∧ cur ≠ [])
  fits : ∀ d ∈ cur, d.length < 2 ^ 31
  ok : ∀ ds ∈ bs, Spec.Readable comp r.codec ds

theorem blockData_nil {ds : List Bytes} (h : ∀ d ∈ ds, d.length < 2 ^ 31) : Spec.blockData ds = [] ↔ ds = [] := by
  constructor
  · intro e
    cases ds with
    | nil => rfl
    | cons d ds =>
      rw [blockData_cons] at e
      have := bpack_pos (d := d) (by have := h d (by simp); omega)
      rw [(List.append_eq_nil_iff.mp e).1] at this
      simp at this
  · rintro rfl; rfl

/-- readNextBlock(): the first block that is not empty -/
theorem readLoop_blocks {comp : Bytes → Bytes} (bs : List (List Bytes)) : ∀ (fuel : Nat) {r : JDocReader}, r.rest = Spec.blocksBytes comp bs →
    (∀ ds ∈ bs, Spec.Readable comp r.codec ds) → r.rest.length < fuel →
    (bs.dropWhile List.isEmpty = [] ∧ (r.readLoop fuel).2 = .ok none ∧ (r.readLoop fuel).1.rest = [] ∧ (r.readLoop fuel).1.codec = r.codec) ∨
    ∃ i ds bs', bs.dropWhile List.isEmpty = ds :: bs' ∧ (r.readLoop fuel).2 = .ok (some i) ∧ (r.readLoop fuel).1.block = some i ∧
      (r.readLoop fuel).1.blks[i]? = some (Spec.blockData ds) ∧ (r.readLoop fuel).1.rest = Spec.blocksBytes comp bs' ∧
      (r.readLoop fuel).1.codec = r.codec ∧ ds ≠ [] := by
  induction bs with
  | nil =>
    intro fuel r hr _ hf
    cases fuel with
    | zero => omega
    | succ fuel =>
      have : r.rest = [] := hr
      refine .inl ⟨rfl, ?_⟩
      simp only [JDocReader.readLoop, if_pos this]
      exact ⟨trivial, this, trivial⟩
  | cons ds bs ih =>
    intro fuel r hr hok hf
    cases fuel with
    | zero => omega
    | succ fuel =>
      obtain ⟨h1, h2, h3⟩ := hok ds (by simp)
      rw [blocksBytes_cons] at hr
      have hne : r.rest ≠ [] := by
        intro e
        have := bpack_pos (d := comp (Spec.blockData ds)) (by omega)
        rw [e] at hr
        have h0 := (List.append_eq_nil_iff.mp hr.symm).1
        rw [Spec.blockBytes] at h0
        rw [h0] at this
        simp at this
      have hj : jBin r.rest = .ok (comp (Spec.blockData ds), Spec.blocksBytes comp bs) := by
        rw [hr]; exact jBin_bpack h1 _
      have hlen : (Spec.blocksBytes comp bs).length < fuel := by
        have := bpack_pos (d := comp (Spec.blockData ds)) (by omega)
        rw [hr, List.length_append, Spec.blockBytes] at hf
        omega
      by_cases he : ds = []
      · have hb : Spec.blockData ds = [] := (blockData_nil h3).mpr he
        have hdw : (ds :: bs).dropWhile List.isEmpty = bs.dropWhile List.isEmpty := by
          rw [List.dropWhile_cons, if_pos (by simp [he])]
        have heq : r.readLoop (fuel + 1) = JDocReader.readLoop fuel { r with rest := Spec.blocksBytes comp bs, blks := r.blks ++ [Spec.blockData ds], block := some r.blks.length } := by
          simp only [JDocReader.readLoop, if_neg hne, hj, h2]
          rw [if_neg (by rw [hb]; simp)]
        rw [heq, hdw]
        exact ih fuel (r := { r with rest := Spec.blocksBytes comp bs, blks := r.blks ++ [Spec.blockData ds], block := some r.blks.length }) rfl
          (fun x hx => hok x (by simp [hx])) hlen
      · have hb : Spec.blockData ds ≠ [] := fun e => he ((blockData_nil h3).mp e)
        have heq : r.readLoop (fuel + 1) = ({ r with rest := Spec.blocksBytes comp bs, blks := r.blks ++ [Spec.blockData ds], block := some r.blks.length }, .ok (some r.blks.length)) := by
          simp only [JDocReader.readLoop, if_neg hne, hj, h2]
          rw [if_pos hb]
        refine .inr ⟨r.blks.length, ds, bs, ?_, ?_⟩
        · rw [List.dropWhile_cons, if_neg (by simp [he])]
        · rw [heq]
          refine ⟨rfl, rfl, ?_, rfl, rfl, he⟩
          simp

theorem mem_dropWhile {p : List Bytes → Bool} {bs : List (List Bytes)} {x} (h : x ∈ bs.dropWhile p) : x ∈ bs :=
  (List.dropWhile_sublist p).subset h

theorem flatten_dropWhile (bs : List (List Bytes)) : (bs.dropWhile List.isEmpty).flatten = bs.flatten := by
  induction bs with
  | nil => rfl
  | cons ds bs ih =>
    rw [List.dropWhile_cons]
    by_cases h : ds.isEmpty = true
    · rw [if_pos h, ih]
      rw [List.isEmpty_iff] at h
      simp [h]
    · rw [if_neg h]

theorem refill_ok {comp : Bytes → Bytes} {r : JDocReader} {bs : List (List Bytes)} (hr : r.rest = Spec.blocksBytes comp bs) (hok : ∀ ds ∈ bs, Spec.Readable comp r.codec ds) :
    (bs.dropWhile List.isEmpty = [] ∧ r.refill.2 = .ok none ∧ JRd comp r.refill.1 [] [] ∧ r.refill.1.codec = r.codec) ∨
    ∃ i ds bs', bs.dropWhile List.isEmpty = ds :: bs' ∧ r.refill.2 = .ok (some i) ∧ JRd comp r.refill.1 ds bs' ∧ r.refill.1.block = some i ∧ ds ≠ [] ∧
      r.refill.1.codec = r.codec := by
  unfold JDocReader.refill JDocReader.readNextBlock
  rcases readLoop_blocks bs (r.rest.length + 1) hr hok (Nat.lt_succ_self _) with ⟨h0, h1, h2, h3⟩ | ⟨i, ds, bs', h0, h1, h2, h3, h4, h5, h6⟩
  · left
    cases hx : r.readLoop (r.rest.length + 1) with
    | mk r' a =>
      rw [hx] at h1 h2 h3
      simp only at h1 h2 h3
      subst h1
      exact ⟨h0, rfl, ⟨by rw [h2]; rfl, .inl ⟨rfl, rfl⟩, by simp, by simp⟩, h3⟩
  · right
    cases hx : r.readLoop (r.rest.length + 1) with
    | mk r' a =>
      rw [hx] at h1 h2 h3 h4 h5
      simp only at h1 h2 h3 h4 h5
      subst h1
      have hmem : ∀ x ∈ ds :: bs', Spec.Readable comp r.codec x := fun x hx => hok x (mem_dropWhile (h0 ▸ hx))
      refine ⟨i, ds, bs', h0, rfl, ⟨h4, .inr ⟨i, rfl, h3, h6⟩, (hmem ds (by simp)).2.2, ?_⟩, rfl, h6, h5⟩
      intro x hx
      show Spec.Readable comp r'.codec x
      rw [h5]
      exact hmem x (by simp [hx])

/-- the state after `if(block == null) block = readNextBlock()` -/
theorem current_ok {comp r cur bs} (h : JRd comp r cur bs) :
    (cur = [] ∧ bs.flatten = [] ∧ bs.dropWhile List.isEmpty = [] ∧ r.current.2 = .ok none ∧ JRd comp r.current.1 [] []) ∨
    ∃ i c bs', r.current.2 = .ok (some i) ∧ JRd comp r.current.1 c bs' ∧ r.current.1.block = some i ∧ c ≠ [] ∧ c ++ bs'.flatten = cur ++ bs.flatten ∧
      ((cur ≠ [] ∧ c = cur ∧ bs' = bs) ∨ (cur = [] ∧ bs.dropWhile List.isEmpty = c :: bs')) := by
  unfold JDocReader.current
  rcases h.blk with ⟨h1, rfl⟩ | ⟨i, h1, h2, h3⟩
  · rw [h1]
    simp only
    rcases refill_ok h.rest h.ok with ⟨g0, g1, g2, -⟩ | ⟨i, ds, bs', g0, g1, g2, g3, g4, -⟩
    · exact .inl ⟨trivial, by rw [← flatten_dropWhile, g0]; rfl, g0, g1, g2⟩
    · refine .inr ⟨i, ds, bs', g1, g2, g3, g4, ?_, .inr ⟨trivial, g0⟩⟩
      rw [List.nil_append, ← flatten_dropWhile bs, g0]; rfl
  · rw [h1]
    exact .inr ⟨i, cur, bs, rfl, h, h1, h3, rfl, .inl ⟨h3, rfl, rfl⟩⟩

theorem left_ok {comp r c bs i} (h : JRd comp r c bs) (hi : r.block = some i) : r.left i = Spec.blockData c := by
  rcases h.blk with ⟨h1, -⟩ | ⟨j, h1, h2, -⟩
  · rw [hi] at h1; cases h1
  · rw [hi] at h1; cases h1
    simp [JDocReader.left, h2]

/-- one document on in the current block -/
theorem giveUp_ok {comp r d c bs i} (h : JRd comp r (d :: c) bs) (hi : r.block = some i) :
    JRd comp ((r.moved i (Spec.blockData c)).giveUp i) c bs := by
  have hlt : i < r.blks.length := by
    rcases h.blk with ⟨h1, -⟩ | ⟨j, h1, h2, -⟩
    · rw [hi] at h1; cases h1
    · rw [hi] at h1; cases h1
      exact (List.getElem?_eq_some_iff.mp h2).1
  have hleft : (r.moved i (Spec.blockData c)).left i = Spec.blockData c := by
    simp [JDocReader.left, JDocReader.moved, hlt]
  have hfits : ∀ x ∈ c, x.length < 2 ^ 31 := fun x hx => h.fits x (by simp [hx])
  unfold JDocReader.giveUp
  rw [hleft]
  by_cases hc : c = []
  · subst hc
    rw [if_pos (show Spec.blockData [] = [] from rfl)]
    exact ⟨h.rest, .inl ⟨rfl, rfl⟩, hfits, h.ok⟩
  · rw [if_neg (fun e => hc ((blockData_nil hfits).mp e))]
    refine ⟨h.rest, .inr ⟨i, hi, ?_, hc⟩, hfits, h.ok⟩
    simp [JDocReader.moved, hlt]

theorem nextRaw_ok {comp r cur bs} (h : JRd comp r cur bs) : ∃ cur' bs', r.nextRaw.2 = .ok (cur ++ bs.flatten).head? ∧
    JRd comp r.nextRaw.1 cur' bs' ∧ cur' ++ bs'.flatten = (cur ++ bs.flatten).tail ∧
    ((∃ d, cur = d :: cur' ∧ bs' = bs) ∨ (cur = [] ∧ bs.dropWhile List.isEmpty = [] ∧ cur' = [] ∧ bs' = []) ∨
      (cur = [] ∧ ∃ d, bs.dropWhile List.isEmpty = (d :: cur') :: bs')) := by
  unfold JDocReader.nextRaw
  rcases current_ok h with ⟨e1, e2, e3, g1, g2⟩ | ⟨i, c, bs', g1, g2, g3, g4, g5, g6⟩
  · cases hx : r.current with
    | mk r' a =>
      rw [hx] at g1 g2
      simp only at g1
      subst g1
      refine ⟨[], [], ?_, g2, ?_, .inr (.inl ⟨e1, e3, rfl, rfl⟩)⟩
      · rw [e1, e2]; rfl
      · rw [e1, e2]; rfl
  · cases hx : r.current with
    | mk r' a =>
      rw [hx] at g1 g2 g3
      simp only at g1 g2 g3
      subst g1
      simp only
      cases c with
      | nil => exact absurd rfl g4
      | cons d c =>
        have hl := left_ok g2 g3
        rw [blockData_cons] at hl
        rw [hl, jBin_bpack (g2.fits d (by simp))]
        refine ⟨c, bs', ?_, giveUp_ok g2 g3, ?_, ?_⟩
        · rw [← g5]; rfl
        · rw [← g5]; rfl
        · rcases g6 with ⟨-, rfl, rfl⟩ | ⟨q1, q2⟩
          · exact .inl ⟨d, rfl, rfl⟩
          · exact .inr (.inr ⟨q1, d, q2⟩)

theorem skip_ok {comp r cur bs} (h : JRd comp r cur bs) : ∃ cur' bs', r.skip.2 = .ok (!(cur ++ bs.flatten).isEmpty) ∧
    JRd comp r.skip.1 cur' bs' ∧ cur' ++ bs'.flatten = (cur ++ bs.flatten).tail ∧
    ((∃ d, cur = d :: cur' ∧ bs' = bs) ∨ (cur = [] ∧ bs.dropWhile List.isEmpty = [] ∧ cur' = [] ∧ bs' = []) ∨
      (cur = [] ∧ ∃ d, bs.dropWhile List.isEmpty = (d :: cur') :: bs')) := by
  unfold JDocReader.skip
  rcases current_ok h with ⟨e1, e2, e3, g1, g2⟩ | ⟨i, c, bs', g1, g2, g3, g4, g5, g6⟩
  · cases hx : r.current with
    | mk r' a =>
      rw [hx] at g1 g2
      simp only at g1
      subst g1
      refine ⟨[], [], ?_, g2, ?_, .inr (.inl ⟨e1, e3, rfl, rfl⟩)⟩
      · rw [e1, e2]; rfl
      · rw [e1, e2]; rfl
  · cases hx : r.current with
    | mk r' a =>
      rw [hx] at g1 g2 g3
      simp only at g1 g2 g3
      subst g1
      simp only
      cases c with
      | nil => exact absurd rfl g4
      | cons d c =>
        have hl := left_ok g2 g3
        rw [blockData_cons] at hl
        rw [hl, jSkip_bpack (g2.fits d (by simp))]
        refine ⟨c, bs', ?_, giveUp_ok g2 g3, ?_, ?_⟩
        · rw [← g5]; rfl
        · rw [← g5]; rfl
        · rcases g6 with ⟨-, rfl, rfl⟩ | ⟨q1, q2⟩
          · exact .inl ⟨d, rfl, rfl⟩
          · exact .inr (.inr ⟨q1, d, q2⟩)

/-- how many documents the loop skips, `k` having been skipped -/
def toSkip (n : Option Int) (k len : Nat) : Nat :=
  match n with
  | none => len
  | some n => min (n - k).toNat len

theorem jSkipLoop_ok {comp : Bytes → Bytes} {n : Option Int} (fuel : Nat) : ∀ {r : JDocReader} {cur bs i} (k : Nat), JRd comp r cur bs → r.block = some i →
    (cur ++ bs.flatten).length < fuel →
    ∃ cur' bs', (r.skipLoop n fuel i k).2 = .ok (k + toSkip n k (cur ++ bs.flatten).length) ∧ JRd comp (r.skipLoop n fuel i k).1 cur' bs' ∧
      cur' ++ bs'.flatten = (cur ++ bs.flatten).drop (toSkip n k (cur ++ bs.flatten).length) := by
  induction fuel with
  | zero => intro r cur bs i k _ _ h; omega
  | succ fuel ih =>
    intro r cur bs i k h hi hf
    unfold JDocReader.skipLoop
    by_cases hc : n.all (fun n => decide ((k : Int) < n)) = true
    · rw [if_pos hc]
      cases cur with
      | nil =>
        rcases h.blk with ⟨h1, -⟩ | ⟨j, -, -, h3⟩
        · rw [hi] at h1; cases h1
        · exact absurd rfl h3
      | cons d c =>
        have hl := left_ok h hi
        rw [blockData_cons] at hl
        rw [hl, jSkip_bpack (h.fits d (by simp))]
        simp only
        have hstep : ∀ len, toSkip n k (len + 1) = 1 + toSkip n (k + 1) len := by
          intro len
          cases n with
          | none => simp only [toSkip]; omega
          | some n =>
            simp only [Option.all_some, decide_eq_true_eq] at hc
            simp only [toSkip]
            omega
        have hlt : i < r.blks.length := by
          rcases h.blk with ⟨h1, -⟩ | ⟨j, h1, h2, -⟩
          · rw [hi] at h1; cases h1
          · rw [hi] at h1; cases h1
            exact (List.getElem?_eq_some_iff.mp h2).1
        have hfits : ∀ x ∈ c, x.length < 2 ^ 31 := fun x hx => h.fits x (by simp [hx])
        simp only [List.cons_append, List.length_cons] at hf ⊢
        by_cases he : c = []
        · subst he
          rw [if_pos (show Spec.blockData [] = [] from rfl)]
          have hm : (r.moved i (Spec.blockData [])).rest = Spec.blocksBytes comp bs := h.rest
          rcases refill_ok hm h.ok with ⟨g0, g1, g2, -⟩ | ⟨j, ds, bs', g0, g1, g2, g3, g4, -⟩
          · cases hx : (r.moved i (Spec.blockData [])).refill with
            | mk r' a =>
              rw [hx] at g1 g2
              simp only at g1 g2
              subst g1
              have hbs : bs.flatten = [] := by rw [← flatten_dropWhile, g0]; rfl
              have ht : toSkip n (k + 1) 0 = 0 := by cases n <;> simp [toSkip]
              refine ⟨[], [], ?_, g2, ?_⟩
              · simp only [hbs, List.nil_append, List.length_nil, hstep, ht]
              · simp only [hbs, List.nil_append, List.length_nil, hstep, ht]; rfl
          · cases hx : (r.moved i (Spec.blockData [])).refill with
            | mk r' a =>
              rw [hx] at g1 g2 g3
              simp only at g1 g2 g3
              subst g1
              have hbs : bs.flatten = ds ++ bs'.flatten := by rw [← flatten_dropWhile, g0]; rfl
              simp only [List.nil_append] at hf ⊢
              rw [hbs] at hf ⊢
              obtain ⟨c2, b2, q1, q2, q3⟩ := ih (k + 1) g2 g3 (by omega)
              refine ⟨c2, b2, ?_, q2, ?_⟩
              · rw [q1, hstep]; congr 1; omega
              · rw [q3, hstep, Nat.add_comm 1, List.drop_succ_cons]
        · rw [if_neg (fun e => he ((blockData_nil hfits).mp e))]
          have hJ : JRd comp (r.moved i (Spec.blockData c)) c bs :=
            ⟨h.rest, .inr ⟨i, hi, by simp [JDocReader.moved, hlt], he⟩, hfits, h.ok⟩
          obtain ⟨c2, b2, q1, q2, q3⟩ := ih (k + 1) hJ hi (by omega)
          refine ⟨c2, b2, ?_, q2, ?_⟩
          · rw [q1, hstep]; congr 1; omega
          · rw [q3, hstep, Nat.add_comm 1, List.drop_succ_cons]
    · rw [if_neg hc]
      have ht : ∀ len, toSkip n k len = 0 := by
        intro len
        cases n with
        | none => exact absurd rfl hc
        | some n =>
          simp only [Option.all_some, decide_eq_true_eq] at hc
          simp only [toSkip]
          omega
      refine ⟨cur, bs, ?_, h, ?_⟩
      · rw [ht]; rfl
      · rw [ht]; rfl

theorem call_answer {comp r cur bs bound} (h : JRd comp r cur bs) (hb : (cur ++ bs.flatten).length < bound) (c : JDocReader.Call) :
    (r.call bound c).2 = .ok (Spec.answer (cur ++ bs.flatten) c).1 ∧
    ∃ cur' bs', JRd comp (r.call bound c).1 cur' bs' ∧ cur' ++ bs'.flatten = (Spec.answer (cur ++ bs.flatten) c).2 := by
  have skips : ∀ (n : Option Int), ∃ cur' bs', (r.skips n bound).2 = .ok (toSkip n 0 (cur ++ bs.flatten).length) ∧
      JRd comp (r.skips n bound).1 cur' bs' ∧ cur' ++ bs'.flatten = (cur ++ bs.flatten).drop (toSkip n 0 (cur ++ bs.flatten).length) := by
    unfold JDocReader.skips
    intro n
    rcases current_ok h with ⟨e1, e2, e3, g1, g2⟩ | ⟨i, c, bs', g1, g2, g3, g4, g5, g6⟩
    · cases hx : r.current with
      | mk r' a =>
        rw [hx] at g1 g2
        simp only at g1 g2
        subst g1
        have ht : toSkip n 0 0 = 0 := by cases n <;> simp [toSkip]
        refine ⟨[], [], ?_, g2, ?_⟩
        · rw [e1, e2]; simp only [List.append_nil, List.length_nil, ht]
        · rw [e1, e2]; simp
    · cases hx : r.current with
      | mk r' a =>
        rw [hx] at g1 g2 g3
        simp only at g1 g2 g3
        subst g1
        rw [← g5] at hb ⊢
        obtain ⟨c2, b2, q1, q2, q3⟩ := jSkipLoop_ok (n := n) bound 0 g2 g3 hb
        exact ⟨c2, b2, by rw [q1, Nat.zero_add], q2, q3⟩
  cases c with
  | next =>
    obtain ⟨c', b', h1, h2, h3, -⟩ := nextRaw_ok h
    exact ⟨by simp only [JDocReader.call, h1]; rfl, c', b', h2, h3⟩
  | skip =>
    obtain ⟨c', b', h1, h2, h3, -⟩ := skip_ok h
    exact ⟨by simp only [JDocReader.call, h1]; rfl, c', b', h2, h3⟩
  | skipN n =>
    obtain ⟨c', b', h1, h2, h3⟩ := skips (some n)
    have ht : ∀ len : Nat, toSkip (some n) 0 len = min n.toNat len := by intro len; simp [toSkip]
    rw [ht] at h1 h3
    refine ⟨?_, c', b', h2, ?_⟩
    · show Except.map _ (r.skips (some n) bound).2 = _
      rw [h1]; rfl
    · rw [h3]
      show _ = (cur ++ bs.flatten).drop n.toNat
      by_cases hl : n.toNat ≤ (cur ++ bs.flatten).length
      · rw [Nat.min_eq_left hl]
      · rw [Nat.min_eq_right (by omega), List.drop_length, List.drop_eq_nil_of_le (by omega)]
  | count =>
    obtain ⟨c', b', h1, h2, h3⟩ := skips none
    refine ⟨?_, c', b', h2, ?_⟩
    · show Except.map _ (r.skips none bound).2 = _
      rw [h1]; rfl
    · rw [h3]
      simp only [toSkip, List.drop_length]; rfl

/-- a file with blocks, opened -/
theorem java_open {name : Str} {num : Int} {hd : Bytes} (hh : Header name num hd) (hl : (utf8Encode name).length < 2 ^ 31) (h1 : -2 ^ 31 ≤ num) (h2 : num < 2 ^ 31)
    {unzip dec} (hdec : JDocReader.codecOf unzip (utf8Encode name) = .ok dec) {comp : Bytes → Bytes} {blocks : List (List Bytes)}
    (hok : ∀ ds ∈ blocks, Spec.Readable comp dec ds) :
    ∃ r, JDocReader.new unzip none (hd ++ Spec.blocksBytes comp blocks) = .ok r ∧ JRd comp r [] blocks ∧ r.codec = dec ∧ r.num = num := by
  obtain ⟨a, b, c, pa, pb, pc, e⟩ := hh
  have hc : c = [0xc2] := by simp only [pack, packAt] at pc; cases pc; rfl
  subst hc
  have hm : P.take 4 (fileMagic ++ (a ++ (b ++ (0xc2 :: Spec.blocksBytes comp blocks)))) = .ok (fileMagic, a ++ (b ++ (0xc2 :: Spec.blocksBytes comp blocks))) :=
    take_append fileMagic _
  have hpick : JDocReader.pickCodec unzip none (a ++ (b ++ (0xc2 :: Spec.blocksBytes comp blocks))) = .ok (dec, b ++ (0xc2 :: Spec.blocksBytes comp blocks)) := by
    simp only [JDocReader.pickCodec, P.bind_eq, jBin_str pa hl, P.lift, hdec]
  refine ⟨⟨Spec.blocksBytes comp blocks, dec, num, [], none⟩, ?_, ⟨rfl, .inl ⟨rfl, rfl⟩, by simp, hok⟩, rfl, rfl⟩
  rw [e]
  simp only [List.append_assoc, List.cons_append, List.nil_append]
  unfold JDocReader.new
  rw [hm]
  simp only [ne_eq, not_true_eq_false, if_false, hpick, jInt_int pb h1 h2, jBool_false]

/-- C81. Whatever calls of `nextRaw()`, `skip()`, `skip(n)` and `count()` are made on a reader of a file with any
blocks, empty ones included, they behave like the same calls on the list of the documents. -/
theorem C81_reads {name : Str} {num : Int} {hd : Bytes} (hh : Header name num hd) (hl : (utf8Encode name).length < 2 ^ 31) (h1 : -2 ^ 31 ≤ num) (h2 : num < 2 ^ 31)
    {unzip dec} (hdec : JDocReader.codecOf unzip (utf8Encode name) = .ok dec) {comp : Bytes → Bytes} {blocks : List (List Bytes)}
    (hok : ∀ ds ∈ blocks, Spec.Readable comp dec ds) :
    ∃ r, JDocReader.new unzip none (hd ++ Spec.blocksBytes comp blocks) = .ok r ∧
      ∀ cs bound, blocks.flatten.length < bound → r.calls bound cs = Spec.answers blocks.flatten cs := by
  obtain ⟨r, hr, hj, -⟩ := java_open hh hl h1 h2 hdec hok
  refine ⟨r, hr, fun cs bound hb => ?_⟩
  have gen : ∀ (cs : List JDocReader.Call) {r : JDocReader} {cur bs}, JRd comp r cur bs → (cur ++ bs.flatten).length < bound →
      r.calls bound cs = Spec.answers (cur ++ bs.flatten) cs := by
    intro cs
    induction cs with
    | nil => intro r cur bs _ _; rfl
    | cons c cs ih =>
      intro r cur bs h hb
      obtain ⟨g1, c', b', g2, g3⟩ := call_answer h hb c
      simp only [JDocReader.calls, Spec.answers, g1]
      rw [ih g2 ?_, g3]
      rw [g3]
      cases c <;> simp only [Spec.answer, List.length_tail, List.length_drop, List.length_nil] <;> omega
  simpa using gen cs hj (by simpa using hb)

theorem codecOf_name {unzip : Bytes → Except PyErr Bytes} {name : Bytes} {dec} (h : JDocReader.codecOf unzip name = .ok dec) : name.length < 2 ^ 31 := by
  unfold JDocReader.codecOf at h
  split at h
  · rename_i e; rw [e]; decide
  · split at h
    · rename_i e; rw [e]; decide
    · split at h
      · rename_i e; rw [e]; decide
      · cases h

theorem block_length {comp : Bytes → Bytes} {blocks : List (List Bytes)} {ds} (h : ds ∈ blocks) (hz : (comp (Spec.blockData ds)).length < 2 ^ 32) :
    (comp (Spec.blockData ds)).length ≤ (Spec.blocksBytes comp blocks).length := by
  obtain ⟨a, b, rfl⟩ := List.append_of_mem h
  rw [blocksBytes_append, blocksBytes_cons, Spec.blockBytes]
  obtain ⟨x, -, hx⟩ := bpack_head hz
  rw [hx]
  simp only [List.length_append]
  omega

/-- C81. The Java reader reads what the Python writer wrote, if the codec is one of the three that Java knows, the
block size is a Java int, and the file and the documents are shorter than 2 GiB. -/
theorem C81_python_files {c : CCodec} {bnd num cs s0 s1}
    (h0 : DocWriter.new bnd num c = .ok s0) (h1 : (s0.run cs).flush = (s1, none)) (hreal : ∀ x ∈ cs, Spec.Real x)
    {unzip dec} (hdec : JDocReader.codecOf unzip (utf8Encode c.name) = .ok dec) (hinv : ∀ x z, c.compress x = .ok z → dec z = .ok x)
    (hn : -2 ^ 31 ≤ num ∧ num < 2 ^ 31) (hsize : (Spec.payload s1.log).length < 2 ^ 31) (hdocs : ∀ d ∈ Spec.accepted cs, d.length < 2 ^ 31) :
    ∃ r, JDocReader.new unzip none (Spec.payload s1.log) = .ok r ∧
      ∀ calls bound, (Spec.accepted cs).length < bound → r.calls bound calls = Spec.answers (Spec.accepted cs) calls := by
  have hreg : Spec.Lossless [(c.name, ⟨c.name, c.compress, dec⟩)] c := ⟨⟨c.name, c.compress, dec⟩, by simp [getCodec, dget], hinv⟩
  obtain ⟨hd, c', blocks, ⟨hh⟩, hc', hlog, hfl, -, hok, -⟩ := closed_file hreg h0 h1 hreal
  have hdec' : c'.decompress = dec := by
    simp [getCodec, dget] at hc'
    rw [← hc']
  obtain ⟨-, hz, hd', -, -⟩ := hok [] rfl
  simp only [hdec'] at hz hd'
  have hread : ∀ ds ∈ blocks, Spec.Readable (compOf c) dec ds := by
    intro ds hds
    refine ⟨?_, hd' ds hds, fun d h => hdocs d (by rw [← hfl]; exact List.mem_flatten.mpr ⟨ds, hds, h⟩)⟩
    have := block_length hds (hz ds hds)
    rw [hlog, List.length_append] at hsize
    omega
  rw [hlog, ← hfl]
  exact C81_reads hh (codecOf_name hdec) hn.1 hn.2 hdec hread

/-- C81. Of the codecs that docria registers in Python, the Java reader takes `none`, `zip` and `zipsq` and undoes them,
if Inflater undoes `zlib.compress`; files with any other are refused. -/
theorem C81_codecs {zip bz2 lzma lz4 : CCodec} {zstd : Nat → Bytes → Except PyErr Bytes} {unzstd : Bytes → Except PyErr Bytes} {reg : Codecs}
    (hreg : builtin zip bz2 lzma lz4 zstd unzstd = .ok reg) {unzip : Bytes → Except PyErr Bytes} (hz : ∀ x z, zip.compress x = .ok z → unzip z = .ok x)
    {name : Str} {c : CCodec} (hc : getCodec reg name = .ok c) :
    if name ∈ ["none", "zip", "zipsq"].map String.toList then ∃ dec, JDocReader.codecOf unzip (utf8Encode c.name) = .ok dec ∧ ∀ x z, c.compress x = .ok z → dec z = .ok x
    else JDocReader.codecOf unzip (utf8Encode c.name) = .error .notImplemented := by
  have hr : builtin zip bz2 lzma lz4 zstd unzstd = .ok [
      ("none".toList, ⟨"none".toList, .ok, .ok⟩),
      ("zip".toList, ⟨"zip".toList, zip.compress, zip.decompress⟩),
      ("bzip2".toList, ⟨"bzip2".toList, bz2.compress, bz2.decompress⟩),
      ("zipsq".toList, ⟨"zipsq".toList, fun x => do zip.compress (← zip.compress x), fun x => do zip.decompress (← zip.decompress x)⟩),
      ("lzma".toList, ⟨"lzma".toList, lzma.compress, lzma.decompress⟩),
      ("lz4".toList, ⟨"lz4".toList, lz4.compress, lz4.decompress⟩),
      ("zstd".toList, ⟨"zstd".toList, zstd 3, unzstd⟩),
      ("zstd:high".toList, ⟨"zstd".toList, zstd 9, unzstd⟩),
      ("zstd:ultra".toList, ⟨"zstd".toList, zstd 22, unzstd⟩)] := rfl
  have hm : (name, c) ∈ reg := by
    unfold getCodec at hc
    split at hc
    · cases hc
    · rename_i c2 h; cases hc; exact dget_mem h
  rw [hr] at hreg
  have hreg := Except.ok.inj hreg
  subst hreg
  clear hr
  simp only [List.mem_cons, List.not_mem_nil, or_false, Prod.mk.injEq] at hm
  rcases hm with ⟨rfl, rfl⟩ | ⟨rfl, rfl⟩ | ⟨rfl, rfl⟩ | ⟨rfl, rfl⟩ | ⟨rfl, rfl⟩ | ⟨rfl, rfl⟩ | ⟨rfl, rfl⟩ | ⟨rfl, rfl⟩ | ⟨rfl, rfl⟩
  · rw [if_pos (by decide)]
    exact ⟨_, rfl, fun x z h => h.symm ▸ (by cases h; rfl)⟩
  · rw [if_pos (by decide)]
    exact ⟨_, rfl, hz⟩
  · rw [if_neg (by decide)]; rfl
  · rw [if_pos (by decide)]
    refine ⟨_, rfl, fun x z h => ?_⟩
    cases h1 : zip.compress x with
    | error e => simp only [h1] at h; cases h
    | ok y =>
      simp only [h1] at h
      have h2 : zip.compress y = .ok z := h
      simp only [hz _ _ h2]
      exact hz _ _ h1
  all_goals rw [if_neg (by decide)]; rfl

/-- C81. The Java reader reads what the Java writer wrote. -/
theorem C81_java_files {f : Bytes → Bytes} {bnd early num name cs s s'} (hs : JDocWriter.new bnd early num name f = .ok s)
    (hr : s.run (cs ++ [.flush]) = .ok s') (hne : Spec.blobs cs ≠ []) (hnum : num < 2 ^ 31)
    (hd : ∀ d ∈ Spec.blobs cs, d.length < 2 ^ 31 ∧ Spec.ascii "DM_1" <+: d) (hsize : (Spec.payload s'.log).length < 2 ^ 31)
    {unzip dec} (hdec : JDocReader.codecOf unzip (utf8Encode name) = .ok dec) (hinv : ∀ x, dec (f x) = .ok x) :
    ∃ r, JDocReader.new unzip none (Spec.payload s'.log) = .ok r ∧
      ∀ calls bound, (Spec.blobs cs).length < bound → r.calls bound calls = Spec.answers (Spec.blobs cs) calls := by
  have hn : 1 ≤ num := by
    unfold JDocWriter.new at hs
    by_cases h : num < 1
    · rw [if_pos h] at hs; cases hs
    · omega
  have hp : ∃ p, DocWriter.new false num ⟨name, fun x => .ok (f x), dec⟩ = .ok p := by
    obtain ⟨a, ha⟩ := C30_packs (.str name) (by have := codecOf_name hdec; simp only [Spec.Fits]; omega)
    obtain ⟨b, hb⟩ := C30_packs (.int num) (by simp only [Spec.Fits]; omega)
    have hf : pack (.bool false) = .ok [0xc2] := rfl
    unfold DocWriter.new
    rw [ha, hb, hf]
    exact ⟨_, rfl⟩
  obtain ⟨p, hp⟩ := hp
  obtain ⟨g1, g2⟩ := C80_same_file_partial (c := ⟨name, fun x => .ok (f x), dec⟩) rfl hp hs hr hne
  have hacc := accepted_py cs (fun d h => by have := (hd d h).1; omega)
  rw [g1] at hsize ⊢
  rw [← hacc]
  refine C81_python_files hp (by rw [← g2]) ?_ hdec ?_ ⟨by omega, hnum⟩ hsize ?_
  · intro x hx
    obtain ⟨y, hy, rfl⟩ := List.mem_map.mp hx
    cases y with
    | flush => trivial
    | write d =>
      refine (hd d ?_).2
      clear hr hne hd g1 g2 hx hsize hacc
      induction cs with
      | nil => cases hy
      | cons z cs ih =>
        rcases List.mem_cons.mp hy with hy | hy
        · rw [← hy]; simp [Spec.blobs]
        · have := ih hy
          cases z <;> simp [Spec.blobs, this]
  · intro x z e
    cases e
    exact hinv x
  · intro d h
    rw [hacc] at h
    exact (hd d h).1

/-! ### block by block -/

namespace JDocReader

/-- a call on a reader that is read by documents and skipped by blocks -/
inductive BCall
  | next
  | skip
  | skipBlock

/-- such a call -/
def bcall (r : JDocReader) : BCall → JDocReader × Except PyErr Ans
  | .next => (r.nextRaw.1, r.nextRaw.2.map .doc)
  | .skip => (r.skip.1, r.skip.2.map .flag)
  | .skipBlock => (r.skipBlock.1, r.skipBlock.2.map .flag)

/-- what such calls return -/
def bcalls (r : JDocReader) : List BCall → List (Except PyErr Ans)
  | [] => []
  | c :: cs => (r.bcall c).2 :: (r.bcall c).1.bcalls cs

/-- all documents of the stream over unpacker `i` -/
def consume : Nat → JDocReader → Nat → JDocReader × Except PyErr (List Bytes)
  | 0, r, _ => (r, .error .unmodelled)
  | fuel + 1, r, i =>
    match r.streamNext i with
    | (r, .error e) => (r, .error e)
    | (r, .ok none) => (r, .ok [])
    | (r, .ok (some d)) =>
      match consume fuel r i with
      | (r, .error e) => (r, .error e)
      | (r, .ok ds) => (r, .ok (d :: ds))

/-- `nextBlock()` until it gives null, reading each stream to its end -/
def allBlocks : Nat → JDocReader → JDocReader × Except PyErr (List (List Bytes))
  | 0, r => (r, .error .unmodelled)
  | fuel + 1, r =>
    match r.nextBlock with
    | (r, .error e) => (r, .error e)
    | (r, .ok none) => (r, .ok [])
    | (r, .ok (some i)) =>
      match consume ((r.left i).length + 1) r i with
      | (r, .error e) => (r, .error e)
      | (r, .ok ds) =>
        match allBlocks fuel r with
        | (r, .error e) => (r, .error e)
        | (r, .ok dss) => (r, .ok (ds :: dss))

end JDocReader

namespace Spec

/-- go to the next document: what is left of the open block, and the blocks that have not been opened; an empty
block is passed over -/
def advance (cur : List Bytes) (bs : List (List Bytes)) : Option Bytes × List Bytes × List (List Bytes) :=
  match cur with
  | d :: cur => (some d, cur, bs)
  | [] =>
    match bs.dropWhile List.isEmpty with
    | [] => (none, [], [])
    | ds :: bs => (ds.head?, ds.tail, bs)

/-- what a call returns, and what is left -/
def banswer (cur : List Bytes) (bs : List (List Bytes)) : JDocReader.BCall → JDocReader.Ans × List Bytes × List (List Bytes)
  | .next => (.doc (advance cur bs).1, (advance cur bs).2)
  | .skip => (.flag (advance cur bs).1.isSome, (advance cur bs).2)
  | .skipBlock => (.flag (!bs.isEmpty), cur, bs.tail)

/-- what some calls return -/
def banswers : List Bytes → List (List Bytes) → List JDocReader.BCall → List (Except PyErr JDocReader.Ans)
  | _, _, [] => []
  | cur, bs, c :: cs => .ok (banswer cur bs c).1 :: banswers (banswer cur bs c).2.1 (banswer cur bs c).2.2 cs

end Spec

theorem advance_spec {cur cur' : List Bytes} {bs bs' : List (List Bytes)} {d : Option Bytes} (hd : d = (cur ++ bs.flatten).head?)
    (h : (∃ d, cur = d :: cur' ∧ bs' = bs) ∨ (cur = [] ∧ bs.dropWhile List.isEmpty = [] ∧ cur' = [] ∧ bs' = []) ∨
      (cur = [] ∧ ∃ d, bs.dropWhile List.isEmpty = (d :: cur') :: bs')) : Spec.advance cur bs = (d, cur', bs') := by
  rcases h with ⟨x, rfl, rfl⟩ | ⟨rfl, h1, rfl, rfl⟩ | ⟨rfl, x, h1⟩
  · simp [Spec.advance, hd]
  · have : bs.flatten = [] := by rw [← flatten_dropWhile, h1]; rfl
    simp [Spec.advance, h1, hd, this]
  · have : bs.flatten = (x :: cur') ++ bs'.flatten := by rw [← flatten_dropWhile, h1]; rfl
    simp [Spec.advance, h1, hd, this]

theorem skipBlock_ok {comp r cur bs} (h : JRd comp r cur bs) : r.skipBlock.2 = .ok (!bs.isEmpty) ∧ JRd comp r.skipBlock.1 cur bs.tail := by
  unfold JDocReader.skipBlock
  cases bs with
  | nil =>
    have : r.rest = [] := h.rest
    rw [if_pos this]
    exact ⟨rfl, h⟩
  | cons ds bs =>
    obtain ⟨h1, h2, h3⟩ := h.ok ds (by simp)
    have hr := h.rest
    rw [blocksBytes_cons, Spec.blockBytes] at hr
    have hp := bpack_pos (d := comp (Spec.blockData ds)) (by omega)
    rw [if_neg (by intro e; rw [e] at hr; have := congrArg List.length hr; simp at this; omega), hr, jSkip_bpack h1]
    exact ⟨rfl, ⟨rfl, h.blk, h.fits, fun x hx => h.ok x (List.mem_of_mem_tail hx)⟩⟩

/-- C81. Documents read and skipped one by one, and blocks skipped: `skipBlock()` leaves out exactly the next block
that has not been opened, empty or not, and what is left of the open block is still read. -/
theorem C81_skip_block {name : Str} {num : Int} {hd : Bytes} (hh : Header name num hd) (h1 : -2 ^ 31 ≤ num) (h2 : num < 2 ^ 31)
    {unzip dec} (hdec : JDocReader.codecOf unzip (utf8Encode name) = .ok dec) {comp : Bytes → Bytes} {blocks : List (List Bytes)}
    (hok : ∀ ds ∈ blocks, Spec.Readable comp dec ds) :
    ∃ r, JDocReader.new unzip none (hd ++ Spec.blocksBytes comp blocks) = .ok r ∧ ∀ cs, r.bcalls cs = Spec.banswers [] blocks cs := by
  obtain ⟨r, hr, hj, -⟩ := java_open hh (codecOf_name hdec) h1 h2 hdec hok
  refine ⟨r, hr, fun cs => ?_⟩
  have gen : ∀ (cs : List JDocReader.BCall) {r : JDocReader} {cur bs}, JRd comp r cur bs → r.bcalls cs = Spec.banswers cur bs cs := by
    intro cs
    induction cs with
    | nil => intro r cur bs _; rfl
    | cons c cs ih =>
      intro r cur bs h
      cases c with
      | next =>
        obtain ⟨c', b', g1, g2, -, g3⟩ := nextRaw_ok h
        have ha := advance_spec rfl g3
        simp only [JDocReader.bcalls, JDocReader.bcall, Spec.banswers, Spec.banswer, ha, g1, ih g2]
        rfl
      | skip =>
        obtain ⟨c', b', g1, g2, -, g3⟩ := skip_ok h
        have ha := advance_spec rfl g3
        simp only [JDocReader.bcalls, JDocReader.bcall, Spec.banswers, Spec.banswer, ha, g1, ih g2]
        congr 1
        cases cur ++ bs.flatten <;> rfl
      | skipBlock =>
        obtain ⟨g1, g2⟩ := skipBlock_ok h
        simp only [JDocReader.bcalls, JDocReader.bcall, Spec.banswers, Spec.banswer, g1, ih g2]
        rfl
  exact gen cs hj

/-- the stream of a block gives its documents -/
theorem consume_ok (ds : List Bytes) : ∀ (fuel : Nat) {r : JDocReader} {i : Nat}, (∀ d ∈ ds, d.length < 2 ^ 31) → r.blks[i]? = some (Spec.blockData ds) →
    ds.length < fuel → (r.consume fuel i).2 = .ok ds ∧ (r.consume fuel i).1.rest = r.rest ∧ (r.consume fuel i).1.codec = r.codec ∧
      (r.consume fuel i).1.block = r.block ∧ (r.consume fuel i).1.left i = [] := by
  induction ds with
  | nil =>
    intro fuel r i _ hb hf
    cases fuel with
    | zero => simp at hf
    | succ fuel =>
      have hl : r.left i = [] := by simp only [JDocReader.left, hb]; rfl
      simp only [JDocReader.consume, JDocReader.streamNext, if_pos hl]
      exact ⟨trivial, trivial, trivial, trivial, hl⟩
  | cons d ds ih =>
    intro fuel r i hfit hb hf
    cases fuel with
    | zero => simp at hf
    | succ fuel =>
      have hl : r.left i = Spec.bpack d ++ Spec.blockData ds := by simp only [JDocReader.left, hb, blockData_cons]; rfl
      have hp := bpack_pos (d := d) (by have := hfit d (by simp); omega)
      have hne : r.left i ≠ [] := by
        intro e; rw [hl] at e; rw [(List.append_eq_nil_iff.mp e).1] at hp; simp at hp
      have hlt : i < r.blks.length := (List.getElem?_eq_some_iff.mp hb).1
      have hj : jBin (r.left i) = .ok (d, Spec.blockData ds) := by rw [hl]; exact jBin_bpack (hfit d (by simp)) _
      obtain ⟨g1, g2, g3, g4, g5⟩ := ih fuel (r := r.moved i (Spec.blockData ds)) (i := i) (fun x hx => hfit x (by simp [hx]))
        (by simp [JDocReader.moved, hlt]) (by simp at hf; omega)
      simp only [JDocReader.consume, JDocReader.streamNext, if_neg hne, hj]
      cases hx : (r.moved i (Spec.blockData ds)).consume fuel i with
      | mk r' a =>
        rw [hx] at g1 g2 g3 g4 g5
        simp only at g1 g2 g3 g4 g5
        subst g1
        exact ⟨rfl, g2, g3, g4, g5⟩

theorem filter_dropWhile (bs : List (List Bytes)) : (bs.dropWhile List.isEmpty).filter (fun ds => !ds.isEmpty) = bs.filter (fun ds => !ds.isEmpty) := by
  induction bs with
  | nil => rfl
  | cons ds bs ih =>
    rw [List.dropWhile_cons]
    by_cases h : ds.isEmpty = true
    · rw [if_pos h, ih, List.filter_cons, if_neg (by simp [h])]
    · rw [if_neg h]

theorem blockData_length (ds : List Bytes) (h : ∀ d ∈ ds, d.length < 2 ^ 31) : ds.length ≤ (Spec.blockData ds).length := by
  induction ds with
  | nil => simp
  | cons d ds ih =>
    have hp := bpack_pos (d := d) (by have := h d (by simp); omega)
    have := ih (fun x hx => h x (by simp [hx]))
    rw [blockData_cons, List.length_append, List.length_cons]
    omega

/-- C81. `nextBlock()` called until it gives null, each stream read to its end, gives the documents of the blocks
that are not empty, block by block and in order. -/
theorem C81_streams_partial {name : Str} {num : Int} {hd : Bytes} (hh : Header name num hd) (h1 : -2 ^ 31 ≤ num) (h2 : num < 2 ^ 31)
    {unzip dec} (hdec : JDocReader.codecOf unzip (utf8Encode name) = .ok dec) {comp : Bytes → Bytes} {blocks : List (List Bytes)}
    (hok : ∀ ds ∈ blocks, Spec.Readable comp dec ds) :
    ∃ r, JDocReader.new unzip none (hd ++ Spec.blocksBytes comp blocks) = .ok r ∧
      ∀ bound, blocks.length < bound → (r.allBlocks bound).2 = .ok (blocks.filter (fun ds => !ds.isEmpty)) := by
  obtain ⟨r, hr, hj, hcod, -⟩ := java_open hh (codecOf_name hdec) h1 h2 hdec hok
  refine ⟨r, hr, fun bound hb => ?_⟩
  have gen : ∀ (bound : Nat) {r : JDocReader} {bs}, r.rest = Spec.blocksBytes comp bs → (∀ ds ∈ bs, Spec.Readable comp r.codec ds) → bs.length < bound →
      (r.allBlocks bound).2 = .ok (bs.filter (fun ds => !ds.isEmpty)) := by
    intro bound
    induction bound with
    | zero => intro r bs _ _ h; omega
    | succ bound ih =>
      intro r bs hr hok hb
      unfold JDocReader.allBlocks JDocReader.nextBlock JDocReader.readNextBlock
      rcases readLoop_blocks bs (r.rest.length + 1) hr hok (Nat.lt_succ_self _) with ⟨h0, h1, h2, h3⟩ | ⟨i, ds, bs', h0, h1, h2, h3, h4, h5, h6⟩
      · cases hx : r.readLoop (r.rest.length + 1) with
        | mk r' a =>
          rw [hx] at h1
          simp only at h1
          subst h1
          simp only
          rw [← filter_dropWhile, h0]; rfl
      · cases hx : r.readLoop (r.rest.length + 1) with
        | mk r' a =>
          rw [hx] at h1 h2 h3 h4 h5
          simp only at h1 h2 h3 h4 h5
          subst h1
          have hmem : ∀ x ∈ ds :: bs', Spec.Readable comp r.codec x := fun x hx => hok x (mem_dropWhile (h0 ▸ hx))
          have hfit := (hmem ds (by simp)).2.2
          have hl : r'.left i = Spec.blockData ds := by simp only [JDocReader.left, h3]; rfl
          have hdl := blockData_length ds hfit
          obtain ⟨g1, g2, g3, -, -⟩ := consume_ok ds ((r'.left i).length + 1) hfit h3 (by rw [hl]; omega)
          simp only
          cases hy : r'.consume ((r'.left i).length + 1) i with
          | mk r2 a =>
            rw [hy] at g1 g2 g3
            simp only at g1 g2 g3
            subst g1
            have hlen : bs'.length < bound := by
              have := (List.dropWhile_sublist List.isEmpty (l := bs)).length_le
              rw [h0, List.length_cons] at this
              omega
            have hrec := ih (r := r2) (bs := bs') (by rw [g2, h4]) (fun x hx => by rw [g3, h5]; exact hmem x (by simp [hx])) hlen
            simp only
            cases hz : r2.allBlocks bound with
            | mk r3 a =>
              rw [hz] at hrec
              simp only at hrec
              subst hrec
              simp only
              rw [← filter_dropWhile bs, h0, List.filter_cons, if_pos (by simp [h6])]
  exact gen bound hj.rest hj.ok hb

/-! ### what goes wrong -/

/-- C81 in full for `nextBlock()` followed by `next()`: after the stream of the first block has been read to its
end, `nextRaw()` gives the next document of the file. -/
def C81_full : Prop := ∀ (unzip : Bytes → Except PyErr Bytes) (raw : Bytes) (blocks : List (List Bytes)) (r r1 r2 : JDocReader) (i : Nat) (ds : List Bytes),
  JDocReader.new unzip none raw = .ok r → (r.allBlocks (blocks.length + 1)).2 = .ok blocks →
  r.nextBlock = (r1, .ok (some i)) → r1.consume (ds.length + 1) i = (r2, .ok ds) →
  r2.nextRaw.2 = .ok (blocks.flatten.drop ds.length).head?

/-- C81 fails when block streams and single documents are mixed: for every file whose first block has documents,
after its stream has been read to its end every `nextRaw()` and `skip()` raises, as the end of the block is not
noticed. -/
theorem C81_mixed_fails {name : Str} {num : Int} {hd : Bytes} (hh : Header name num hd) (h1 : -2 ^ 31 ≤ num) (h2 : num < 2 ^ 31)
    {unzip dec} (hdec : JDocReader.codecOf unzip (utf8Encode name) = .ok dec) {comp : Bytes → Bytes} {ds : List Bytes} {blocks : List (List Bytes)}
    (hok : ∀ x ∈ ds :: blocks, Spec.Readable comp dec x) (hne : ds ≠ []) :
    ∃ r r1 i r2, JDocReader.new unzip none (hd ++ Spec.blocksBytes comp (ds :: blocks)) = .ok r ∧ r.nextBlock = (r1, .ok (some i)) ∧
      r1.consume (ds.length + 1) i = (r2, .ok ds) ∧ r2.nextRaw = (r2, .error .outOfData) ∧ r2.skip = (r2, .error .outOfData) := by
  obtain ⟨r, hr, hj, hcod, -⟩ := java_open hh (codecOf_name hdec) h1 h2 hdec hok
  rcases readLoop_blocks (ds :: blocks) (r.rest.length + 1) hj.rest hj.ok (Nat.lt_succ_self _) with ⟨h0, -⟩ | ⟨i, ds', bs', h0, g1, g2, g3, g4, g5, g6⟩
  · rw [List.dropWhile_cons, if_neg (by simp [hne])] at h0; cases h0
  · rw [List.dropWhile_cons, if_neg (by simp [hne])] at h0
    cases h0
    cases hx : r.readLoop (r.rest.length + 1) with
    | mk r1 a =>
      rw [hx] at g1 g2 g3 g4 g5
      simp only at g1 g2 g3 g4 g5
      subst g1
      have hfit := (hok ds (by simp)).2.2
      obtain ⟨q1, q2, q3, q4, q5⟩ := consume_ok ds (ds.length + 1) hfit g3 (by omega)
      cases hy : r1.consume (ds.length + 1) i with
      | mk r2 a =>
        rw [hy] at q1 q2 q3 q4 q5
        simp only at q1 q2 q3 q4 q5
        subst q1
        refine ⟨r, r1, i, r2, hr, hx, hy, ?_, ?_⟩
        · simp only [JDocReader.nextRaw, JDocReader.current, q4, g2, q5]; rfl
        · simp only [JDocReader.skip, JDocReader.current, q4, g2, q5]; rfl

/-- C81 fails for a reader that is given its own codec: the name of the codec is not read, and is taken for the block
size. It fails on every file. -/
theorem C81_codecfn_fails {name : Str} {num : Int} {hd : Bytes} (hh : Header name num hd) (f unzip : Bytes → Except PyErr Bytes) (tail : Bytes) :
    JDocReader.new unzip (some f) (hd ++ tail) = .error .type := by
  obtain ⟨a, b, c, pa, pb, pc, e⟩ := hh
  have hm : P.take 4 (fileMagic ++ (a ++ (b ++ (c ++ tail)))) = .ok (fileMagic, a ++ (b ++ (c ++ tail))) := take_append fileMagic _
  rw [e]
  simp only [List.append_assoc]
  unfold JDocReader.new
  rw [hm]
  simp only [ne_eq, not_true_eq_false, if_false, JDocReader.pickCodec, P.pure_eq, jInt_str pa]

namespace Ex

/-- a file with three blocks, the second of them empty -/
def jfile : Bytes := hdr ++ Spec.blocksBytes id [[[1], [2]], [], [[3]], [[4], [5]]]

/-- the calls on it -/
def jread (cs : List JDocReader.Call) : List (Except PyErr JDocReader.Ans) :=
  match JDocReader.new .ok none jfile with
  | .error e => [.error e]
  | .ok r => r.calls 20 cs

/-- its blocks -/
def jblocks : Except PyErr (List (List Bytes)) :=
  match JDocReader.new .ok none jfile with
  | .error e => .error e
  | .ok r => (r.allBlocks 20).2

/-- skip two documents at once or one by one, skip a block, and read the next document -/
def jskips (once : Bool) : Except PyErr (Option Bytes) :=
  match JDocReader.new .ok none jfile with
  | .error e => .error e
  | .ok r =>
    let r := if once then (r.skipN 20 2).1 else r.skip.1.skip.1
    (r.skipBlock.1.skipBlock.1.nextRaw).2

/-- read the stream of the first block, then the next document -/
def jmixed : Except PyErr (Option Bytes) :=
  match JDocReader.new .ok none jfile with
  | .error e => .error e
  | .ok r => ((r.nextBlock.1.consume 3 0).1.nextRaw).2

end Ex

theorem C81_full_false : ¬ C81_full := by
  intro h
  have hr : ∃ r, JDocReader.new .ok none Ex.jfile = .ok r := ⟨_, rfl⟩
  obtain ⟨r, hr⟩ := hr
  have h1 : (r.allBlocks 4).2 = .ok [[[1], [2]], [[3]], [[4], [5]]] := by
    have : (JDocReader.new .ok none Ex.jfile >>= fun r => (r.allBlocks 4).2) = .ok [[[1], [2]], [[3]], [[4], [5]]] := by decide +kernel
    rw [hr] at this; exact this
  have h2 : r.nextBlock.2 = .ok (some 0) := by
    have : (JDocReader.new .ok none Ex.jfile >>= fun r => r.nextBlock.2) = .ok (some 0) := by decide +kernel
    rw [hr] at this; exact this
  have h3 : (r.nextBlock.1.consume 3 0).2 = .ok [[1], [2]] := by
    have : (JDocReader.new .ok none Ex.jfile >>= fun r => (r.nextBlock.1.consume 3 0).2) = .ok [[1], [2]] := by decide +kernel
    rw [hr] at this; exact this
  have h4 : ((r.nextBlock.1.consume 3 0).1.nextRaw).2 = .error .outOfData := by
    have : Ex.jmixed = .error .outOfData := by decide +kernel
    unfold Ex.jmixed at this
    rw [hr] at this; exact this
  have := h .ok Ex.jfile [[[1], [2]], [[3]], [[4], [5]]] r r.nextBlock.1 (r.nextBlock.1.consume 3 0).1 0 [[1], [2]] hr h1
    (by rw [← h2]) (by show r.nextBlock.1.consume 3 0 = _; rw [← h3])
  rw [h4] at this
  cases this

/-- C81 fails for `skip(n)` followed by `skipBlock()`: `skip(n)` has opened the next block already if it ended at the
end of a block, `n` calls of `skip()` have not, so that other documents are left out. -/
theorem C81_skip_differs : Ex.jskips true = .ok (some [3]) ∧ Ex.jskips false = .ok (some [4]) := by decide +kernel

example : Ex.jread [.next, .skip, .next, .count, .next] = [.ok (.doc (some [1])), .ok (.flag true), .ok (.doc (some [3])), .ok (.num 2), .ok (.doc none)] ∧
    Ex.jread [.skipN 4, .next, .skipN 3, .skip] = [.ok (.num 4), .ok (.doc (some [5])), .ok (.num 0), .ok (.flag false)] ∧
    Spec.answers [[1], [2], [3], [4], [5]] [.skipN 4, .next, .skipN 3, .skip] = [.ok (.num 4), .ok (.doc (some [5])), .ok (.num 0), .ok (.flag false)] := by
  decide +kernel

example : Ex.jblocks = .ok [[[1], [2]], [[3]], [[4], [5]]] := by decide +kernel

/-- the blocks are readable -/
example : ∀ ds ∈ [[[1], [2]], [], [[3]], [[4], [5]]], Spec.Readable id .ok ds := by
  intro ds hds
  refine ⟨?_, rfl, ?_⟩ <;> (revert ds; decide)

/-- the header of the example is one -/
example : Nonempty (Header "none".toList 2 Ex.hdr) := ⟨⟨_, _, _, rfl, rfl, rfl, by decide⟩⟩

example : Spec.banswers [] [[[1], [2]], [], [[3]], [[4], [5]]] [.next, .skipBlock, .skipBlock, .next, .next, .skipBlock] =
    [.ok (.doc (some [1])), .ok (.flag true), .ok (.flag true), .ok (.doc (some [2])), .ok (.doc (some [4])), .ok (.flag false)] := by decide +kernel

/-- a file of the Python library -/
def Ex.pyFile : Except PyErr Bytes :=
  match DocWriter.new false 2 Ex.plain with
  | .error e => .error e
  | .ok s => .ok (Spec.payload ((s.run ((Ex.threeDocs).map Spec.pyCall)).flush).1.log)

/-- the documents that the Java reader reads from it -/
example : (match Ex.pyFile with
    | .error e => [.error e]
    | .ok raw => match JDocReader.new .ok none raw with
      | .error e => [.error e]
      | .ok r => r.calls 10 [.next, .next, .next, .next]) = [.ok (.doc (some [1])), .ok (.doc (some [2])), .ok (.doc (some [3])), .ok (.doc none)] := by
  decide +kernel

end Verif
