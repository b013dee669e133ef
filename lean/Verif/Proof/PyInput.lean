import Verif.Model.PyInput
import Verif.Props.PySession
/-
The reader of block files on a file object that returns less than it is asked for does what the reader on the whole file does.
-/
set_option linter.unusedSimpArgs false
namespace Verif

namespace Spec

/-- a string of objects none of which is larger than an unpacker with a buffer of `max` bytes takes, and after them less than
the buffer holds -/
inductive Items (max : Nat) (P : Obj → Prop) : Bytes → Prop
  | stop {bs : Bytes} (h : unpack bs = .error .outOfData) (hl : bs.length < max + 5) : Items max P bs
  | item {bs r : Bytes} {o : Obj} (h : unpack bs = .ok (o, r)) (hl : bs.length - r.length ≤ max + 5) (hp : P o) (hr : Items max P r) : Items max P bs

end Spec

/-- the unpacker stands before `w` -/
structure UGood (u : FUnpacker) (w : Bytes) : Prop where
  all : u.buf ++ u.inp.rest = w
  eof : u.eof = true → u.inp.rest = [] ∧ u.buf.length < u.max + 5
  plan : ∀ k ∈ u.inp.plan, k ≠ 0
  small : u.buf.length ≤ u.max + 5
  pos : 0 < u.max

/-- nothing changed but what is in the buffer -/
structure USame (u v : FUnpacker) : Prop where
  max : v.max = u.max
  tells : v.inp.tells = u.inp.tells

/-- the buffer is full and does not hold an object -/
def Jam (u : FUnpacker) : Prop := unpack u.buf = .error .outOfData ∧ u.eof = false ∧ u.max + 5 ≤ u.buf.length

/-- the outcomes of `next(unpacker)` -/
inductive Pulled (u : FUnpacker) (w : Bytes) (x : FUnpacker × Except PyErr (Option Obj)) : Prop
  | item (o : Obj) (r : Bytes) (h : unpack w = .ok (o, r)) (hl : w.length - r.length ≤ u.max + 5) (hx : x.2 = .ok (some o)) (hg : UGood x.1 r)
      (hu : x.1.used = u.used + (w.length - r.length))
  | stop (h : unpack w = .error .outOfData) (hl : w.length < u.max + 5) (hx : x.2 = .ok none) (hg : UGood x.1 w) (hu : x.1.used = u.used)
  | fail (e : PyErr) (he : e ≠ .outOfData) (h : unpack w = .error e) (hx : x.2 = .error e) (hg : UGood x.1 w) (hu : x.1.used = u.used)
  | full (hx : x.2 = .error .overflow) (hg : UGood x.1 w) (hu : x.1.used = u.used) (hl : u.max + 5 ≤ w.length)
      (h : ∀ o r, unpack w = .ok (o, r) → u.max + 5 < w.length - r.length) (hj : Jam x.1)

theorem read_spec {f : RawIn} (h : ∀ k ∈ f.plan, k ≠ 0) {n : Nat} (hn : 0 < n) :
    (f.read n).2 ++ (f.read n).1.rest = f.rest ∧ (∀ k ∈ (f.read n).1.plan, k ≠ 0) ∧ (f.read n).1.tells = f.tells ∧ (f.read n).2.length ≤ n ∧
    ((f.read n).2 = [] → f.rest = []) := by
  unfold RawIn.read
  refine ⟨List.take_append_drop _ _, fun a ha => h a (List.mem_of_mem_tail ha), rfl, ?_, fun e => ?_⟩
  · simp only [List.length_take]
    have := Nat.min_le_left n (f.plan.headD n)
    omega
  · have hk0 : 0 < min n (f.plan.headD n) := by
      cases hp : f.plan with
      | nil => simpa using hn
      | cons a l =>
        have := h a (by rw [hp]; exact List.mem_cons_self ..)
        simp only [List.headD_cons, Nat.lt_min]
        omega
    simp only at e
    apply List.eq_nil_of_length_eq_zero
    have := congrArg List.length e
    rw [List.length_take, List.length_nil] at this
    omega

theorem pull_spec : ∀ (fuel : Nat) {u : FUnpacker} {w : Bytes}, UGood u w → (if u.eof then 0 else u.inp.rest.length + 1) < fuel →
    Pulled u w (u.pull fuel) ∧ USame u (u.pull fuel).1 := by
  intro fuel
  induction fuel with
  | zero => intro u w _ h; omega
  | succ fuel ih =>
    intro u w hg hf
    unfold FUnpacker.pull
    cases hb : unpack u.buf with
    | ok x =>
      obtain ⟨o, r⟩ := x
      obtain ⟨c, e1, e2⟩ := Loc.unpack.ok _ _ _ hb
      have hlen : u.buf.length = c.length + r.length := by rw [e1, List.length_append]
      have hw : w = c ++ (r ++ u.inp.rest) := by rw [← hg.all, e1, List.append_assoc]
      have hwl : w.length - (r ++ u.inp.rest).length = c.length := by rw [hw]; simp only [List.length_append]; omega
      have := hg.small
      refine ⟨.item o (r ++ u.inp.rest) (by rw [hw]; exact e2 _) (by omega) rfl
        ⟨rfl, fun g => ⟨(hg.eof g).1, ?_⟩, hg.plan, ?_, hg.pos⟩ (by simp only; omega), ⟨rfl, rfl⟩⟩
      · have := (hg.eof g).2
        simp only; omega
      · simp only; omega
    | error e =>
      by_cases he : e = .outOfData
      · subst he
        simp only
        by_cases hq : u.eof = true
        · rw [if_pos hq]
          obtain ⟨g1, g2⟩ := hg.eof hq
          have hw : u.buf = w := by rw [← hg.all, g1, List.append_nil]
          exact ⟨.stop (by rw [← hw]; exact hb) (by rw [← hw]; exact g2) rfl hg rfl, ⟨rfl, rfl⟩⟩
        · rw [if_neg hq]
          by_cases hm : u.buf.length ≥ u.max + 5
          · rw [if_pos hm]
            refine ⟨.full rfl hg rfl (by rw [← hg.all, List.length_append]; omega) ?_ ⟨hb, by simpa using hq, hm⟩, ⟨rfl, rfl⟩⟩
            intro o r h
            obtain ⟨c, e1, e2⟩ := Loc.unpack.ok _ _ _ h
            have hcl : w.length - r.length = c.length := by rw [e1, List.length_append]; omega
            rw [hcl]
            rcases Nat.lt_or_ge (u.max + 5) c.length with g | g
            · exact g
            · exfalso
              have hpre : c <+: u.buf := by
                have h1 : c <+: w := ⟨r, e1.symm⟩
                have h2 : u.buf <+: w := ⟨_, hg.all⟩
                exact List.prefix_of_prefix_length_le h1 h2 (by omega)
              obtain ⟨t, ht⟩ := hpre
              have := e2 t
              rw [ht, hb] at this
              cases this
          · rw [if_neg hm]
            have hpos := hg.pos
            generalize hn : min (min u.max (2 ^ 20)) (u.max + 5 - u.buf.length) = n
            have hn0 : 0 < n := by rw [← hn]; simp only [Nat.lt_min]; omega
            have hn1 : n ≤ u.max + 5 - u.buf.length := by rw [← hn]; exact Nat.min_le_right _ _
            obtain ⟨r1, r2, r3, r4, r5⟩ := read_spec (f := u.inp) hg.plan hn0
            generalize u.inp.read n = x at r1 r2 r3 r4 r5
            obtain ⟨f, b⟩ := x
            simp only at r1 r2 r3 r4 r5 ⊢
            have hq' : u.eof = false := by simpa using hq
            rw [hq'] at hf
            simp only [Bool.false_eq_true, if_false] at hf
            have hl1 := congrArg List.length r1
            rw [List.length_append] at hl1
            by_cases hr : b = []
            · rw [if_pos hr]
              have hrest := r5 hr
              have hw : u.buf = w := by rw [← hg.all, hrest, List.append_nil]
              have hfr : f.rest = [] := by rw [hr, List.nil_append, hrest] at r1; exact r1
              have h1 : UGood { u with inp := f, eof := true } w :=
                ⟨by simp only [hfr, List.append_nil]; exact hw, fun _ => ⟨hfr, by simp only; omega⟩, r2, hg.small, hg.pos⟩
              obtain ⟨g1, g2⟩ := ih h1 (by simp only [if_true]; omega)
              refine ⟨?_, ⟨g2.max, g2.tells.trans r3⟩⟩
              cases g1 with
              | item o r h hl hx hg hu => exact .item o r h hl hx hg hu
              | stop h hl hx hg hu => exact .stop h hl hx hg hu
              | fail e he h hx hg hu => exact .fail e he h hx hg hu
              | full hx hg hu hl h hj => exact .full hx hg hu hl h hj
            · rw [if_neg hr]
              have hlen : 0 < b.length := List.length_pos_iff.mpr hr
              have h1 : UGood { u with inp := f, buf := u.buf ++ b } w :=
                ⟨by simp only [List.append_assoc, r1]; exact hg.all, fun g => absurd g hq, r2,
                  by simp only [List.length_append]; omega, hg.pos⟩
              obtain ⟨g1, g2⟩ := ih h1 (by simp only [hq', Bool.false_eq_true, if_false]; omega)
              refine ⟨?_, ⟨g2.max, g2.tells.trans r3⟩⟩
              cases g1 with
              | item o r h hl hx hg hu => exact .item o r h hl hx hg hu
              | stop h hl hx hg hu => exact .stop h hl hx hg hu
              | fail e he h hx hg hu => exact .fail e he h hx hg hu
              | full hx hg hu hl h hj => exact .full hx hg hu hl h hj
      · have hw : unpack w = .error e := by rw [← hg.all]; exact Loc.unpack.err _ _ hb he _
        cases e <;> first | exact absurd rfl he | exact ⟨.fail _ he hw rfl hg rfl, ⟨rfl, rfl⟩⟩

theorem next_spec {u : FUnpacker} {w : Bytes} (h : UGood u w) : Pulled u w u.next ∧ USame u u.next.1 :=
  pull_spec _ h (by split <;> omega)

/-! ### the reader -/

/-- the two readers stand at the same place -/
structure RSim (f : FReader) (r : DocReader) : Prop where
  len : f.len = r.raw.length
  unp : UGood f.unp (r.unp.src.drop r.unp.used)
  used : f.unp.used = r.unp.used
  base : r.base = 4
  codec : f.codec = r.codec
  num : f.num = r.num
  block : f.block = r.block
  lastpos : f.lastpos = r.lastpos

/-- what a block may hold -/
def InBlock (max : Nat) (codec : Bytes → Except PyErr Bytes) (o : Obj) : Prop :=
  ∀ z y, o = .bin z → codec z = .ok y → Spec.Items max (fun _ => True) y

/-- nothing that is still to come is larger than the unpacker takes -/
structure Easy (max : Nat) (r : DocReader) : Prop where
  file : Spec.Items max (InBlock max r.codec) (r.unp.src.drop r.unp.used)
  block : ∀ b, r.block = some b → Spec.Items max (fun _ => True) (b.unp.src.drop b.unp.used)

/-- the reader cannot go on -/
def Stuck (f : FReader) : Prop := (f.block = none ∧ Jam f.unp) ∨ ∃ b, f.block = some b ∧ b.unp.full f.unp.max = true

/-- the same outcome; or BufferFull, and then something is too large -/
def RSame {α : Type} (max : Nat) (r : DocReader) (x : FReader × Except PyErr α) (y : DocReader × Except PyErr α) : Prop :=
  (x.2 = y.2 ∧ RSim x.1 y.1 ∧ x.1.unp.max = max) ∨ (x.2 = .error .overflow ∧ ¬ Easy max r ∧ Stuck x.1)

theorem unpack_ok_le {w : Bytes} {o : Obj} {r : Bytes} (h : unpack w = .ok (o, r)) : ∃ c, w = c ++ r ∧ w.length - r.length = c.length := by
  obtain ⟨c, e1, -⟩ := Loc.unpack.ok _ _ _ h
  exact ⟨c, e1, by rw [e1, List.length_append]; omega⟩

theorem drop_used {src : Bytes} {used : Nat} {o : Obj} {r : Bytes} (h : unpack (src.drop used) = .ok (o, r)) :
    src.drop (used + ((src.drop used).length - r.length)) = r := by
  obtain ⟨c, e1, e2⟩ := unpack_ok_le h
  rw [e2, ← List.drop_drop, e1, List.drop_left]

theorem unpNext_items {max : Nat} {P : Obj → Prop} {u : Unpacker} (h : Spec.Items max P (u.src.drop u.used)) :
    Spec.Items max P (u.next.1.src.drop u.next.1.used) ∧ ∀ o, u.next.2 = .ok o → o = .nil ∨ P o := by
  unfold Unpacker.next
  cases h with
  | stop h hl =>
    rw [h]
    exact ⟨.stop h hl, fun o e => by cases e; exact .inl rfl⟩
  | item h hl hp hr =>
    rw [h]
    refine ⟨?_, fun o e => by cases e; exact .inr hp⟩
    simp only [drop_used h]
    exact hr

theorem full_items {max : Nat} {P : Obj → Prop} {u : Unpacker} (h : Spec.Items max P (u.src.drop u.used)) : u.full max = false := by
  unfold Unpacker.full
  cases h with
  | stop h hl => rw [h]; simp only [decide_eq_false_iff_not]; omega
  | item h hl hp hr => rw [h]; simp only [decide_eq_false_iff_not]; omega

theorem readblock_easy {max : Nat} {r : DocReader} (h : Easy max r) : Easy max r.readblock.1 ∧
    ∀ b, r.readblock.2 = .ok (some b) → Easy max { r.readblock.1 with block := some b } := by
  obtain ⟨h1, h2⟩ := unpNext_items h.file
  unfold DocReader.readblock
  simp only
  generalize r.unp.next = x at h1 h2
  obtain ⟨u, res⟩ := x
  simp only at h1 h2
  cases res with
  | error e => exact ⟨⟨h1, h.block⟩, nofun⟩
  | ok o =>
    cases o with
    | bin z =>
      simp only
      cases hc : r.codec z with
      | error e => exact ⟨⟨h1, h.block⟩, nofun⟩
      | ok buf =>
        refine ⟨⟨h1, h.block⟩, fun b hb => ⟨h1, fun b' hb' => ?_⟩⟩
        cases hb
        cases hb'
        simp only [Block.new, List.drop_zero]
        rcases h2 _ rfl with e | e
        · cases e
        · exact e z buf rfl hc
    | _ => exact ⟨⟨h1, h.block⟩, nofun⟩

theorem fromBlock_easy {max : Nat} {r : DocReader} {b : Block} (h : Easy max r) (hb : r.block = some b) : Easy max (r.fromBlock b).1 := by
  obtain ⟨h1, h2⟩ := unpNext_items (h.block b hb)
  unfold DocReader.fromBlock
  generalize b.unp.next = x at h1 h2
  obtain ⟨u, res⟩ := x
  simp only at h1
  cases res with
  | error e => exact ⟨h.file, fun b' e => by cases e; exact h1⟩
  | ok o =>
    cases o with
    | nil => exact ⟨h.file, nofun⟩
    | _ =>
      simp only
      generalize MDoc.ofObj _ (r.lastpos, b.tell) = q
      cases q <;> exact ⟨h.file, fun b' e => by cases e; exact h1⟩

theorem nextLoop_easy {max : Nat} : ∀ (fuel : Nat) {r : DocReader}, Easy max r → Easy max (r.nextLoop fuel).1 := by
  intro fuel
  induction fuel with
  | zero => intro r h; exact h
  | succ fuel ih =>
    intro r h
    unfold DocReader.nextLoop
    obtain ⟨h1, h2⟩ := readblock_easy h
    generalize r.readblock = x at h1 h2
    obtain ⟨r1, a⟩ := x
    cases a with
    | error e => exact h1
    | ok a =>
      cases a with
      | none => exact h1
      | some b =>
        have h3 := fromBlock_easy (h2 b rfl) rfl
        simp only at h3 ⊢
        generalize DocReader.fromBlock { r1 with block := some b } b = y at h3
        obtain ⟨r2, c⟩ := y
        cases c with
        | error e => exact h3
        | ok c =>
          cases c with
          | none => exact ih h3
          | some d => exact h3

theorem next_easy {max : Nat} {r : DocReader} (h : Easy max r) : Easy max r.next.1 := by
  unfold DocReader.next
  cases hb : r.block with
  | none => exact nextLoop_easy _ h
  | some b =>
    have h3 := fromBlock_easy h hb
    simp only
    generalize r.fromBlock b = y at h3
    obtain ⟨r2, c⟩ := y
    cases c with
    | error e => exact h3
    | ok c =>
      cases c with
      | none => exact nextLoop_easy _ h3
      | some d => exact h3

theorem readblock_sim {f : FReader} {r : DocReader} (h : RSim f r) (hn : r.block = none) : RSame f.unp.max r f.readblock r.readblock := by
  have hlp : f.unp.used + 4 = r.unp.used + r.base := by rw [h.used, h.base]
  obtain ⟨hp, hs⟩ := next_spec h.unp
  unfold FReader.readblock DocReader.readblock Unpacker.next
  simp only
  generalize hx : f.unp.next = x at hp hs
  obtain ⟨u, res⟩ := x
  cases hp with
  | item o t hu hl hxx hg huu =>
    simp only at hxx hg huu hs
    subst hxx
    rw [hu]
    have hd := drop_used hu
    cases o with
    | bin z =>
      simp only
      rw [← h.codec]
      cases hc : f.codec z with
      | error e => exact .inl ⟨rfl, ⟨h.len, by simp only [hd]; exact hg, by simp only; rw [huu, h.used], h.base, by first | rfl | exact h.codec, h.num, h.block, hlp⟩, hs.max⟩
      | ok buf =>
        exact .inl ⟨by rw [hlp], ⟨h.len, by simp only [hd]; exact hg, by simp only; rw [huu, h.used], h.base, by first | rfl | exact h.codec, h.num, h.block, hlp⟩, hs.max⟩
    | nil => exact .inl ⟨rfl, ⟨h.len, by simp only [hd]; exact hg, by simp only; rw [huu, h.used], h.base, by first | rfl | exact h.codec, h.num, h.block, hlp⟩, hs.max⟩
    | _ => exact .inl ⟨rfl, ⟨h.len, by simp only [hd]; exact hg, by simp only; rw [huu, h.used], h.base, by first | rfl | exact h.codec, h.num, h.block, hlp⟩, hs.max⟩
  | stop hu hl hxx hg huu =>
    simp only at hxx hg huu hs
    subst hxx
    rw [hu]
    exact .inl ⟨rfl, ⟨h.len, hg, by simp only; rw [huu, h.used], h.base, h.codec, h.num, h.block, hlp⟩, hs.max⟩
  | fail e he hu hxx hg huu =>
    simp only at hxx hg huu hs
    subst hxx
    rw [hu]
    cases e <;> first | exact absurd rfl he | exact .inl ⟨rfl, ⟨h.len, hg, by simp only; rw [huu, h.used], h.base, h.codec, h.num, h.block, hlp⟩, hs.max⟩
  | full hxx hg huu hl hu hj =>
    simp only at hxx hj
    subst hxx
    refine .inr ⟨rfl, fun he => ?_, .inl ⟨h.block.trans hn, hj⟩⟩
    cases he.file with
    | stop g1 g2 => omega
    | item g1 g2 => have := hu _ _ g1; omega

theorem fromBlock_sim {f : FReader} {r : DocReader} (h : RSim f r) {b : Block} (hb : r.block = some b) : RSame f.unp.max r (f.fromBlock b) (r.fromBlock b) := by
  unfold FReader.fromBlock DocReader.fromBlock
  split
  · rename_i hq
    exact .inr ⟨rfl, fun he => (by rw [full_items (he.block b hb)] at hq; cases hq), .inr ⟨b, rfl, hq⟩⟩
  · left
    rw [h.lastpos]
    cases hn : b.unp.next with
    | mk u res =>
      cases res with
      | error e => exact ⟨rfl, ⟨h.len, h.unp, h.used, h.base, h.codec, h.num, rfl, by first | rfl | exact h.lastpos⟩, rfl⟩
      | ok o =>
        cases o with
        | nil => exact ⟨rfl, ⟨h.len, h.unp, h.used, h.base, h.codec, h.num, rfl, by first | rfl | exact h.lastpos⟩, rfl⟩
        | _ =>
          simp only
          generalize MDoc.ofObj _ (r.lastpos, b.tell) = q
          cases q <;> exact ⟨rfl, ⟨h.len, h.unp, h.used, h.base, h.codec, h.num, rfl, by first | rfl | exact h.lastpos⟩, rfl⟩

theorem fromBlock_ended {r : DocReader} {b : Block} (h : (r.fromBlock b).2 = .ok none) : (r.fromBlock b).1.block = none := by
  unfold DocReader.fromBlock at h ⊢
  generalize b.unp.next = x at h
  obtain ⟨u, res⟩ := x
  cases res with
  | error e => cases h
  | ok o =>
    cases o with
    | nil => rfl
    | _ =>
      simp only at h
      generalize MDoc.ofObj _ (r.lastpos, b.tell) = q at h
      cases q <;> cases h

theorem nextLoop_sim : ∀ (fuel : Nat) {f : FReader} {r : DocReader}, RSim f r → r.block = none → RSame f.unp.max r (f.nextLoop fuel) (r.nextLoop fuel) := by
  intro fuel
  induction fuel with
  | zero => intro f r h _; exact .inl ⟨rfl, h, rfl⟩
  | succ fuel ih =>
    intro f r h hn
    unfold FReader.nextLoop DocReader.nextLoop
    have hr := readblock_sim h hn
    have hez := fun he : Easy f.unp.max r => readblock_easy he
    generalize f.readblock = x at hr
    generalize r.readblock = y at hr hez
    obtain ⟨f1, a⟩ := x
    obtain ⟨r1, b⟩ := y
    rcases hr with ⟨e, hs, hm⟩ | e
    · simp only at e hs hm
      subst e
      cases a with
      | error e => exact .inl ⟨rfl, hs, hm⟩
      | ok a =>
        cases a with
        | none => exact .inl ⟨rfl, hs, hm⟩
        | some b =>
          have hb := fromBlock_sim (f := { f1 with block := some b }) (r := { r1 with block := some b })
            ⟨hs.len, hs.unp, hs.used, hs.base, hs.codec, hs.num, rfl, hs.lastpos⟩ (b := b) rfl
          have hez2 := fun he : Easy f.unp.max r => fromBlock_easy ((hez he).2 b rfl) rfl
          have hez3 := fun he : Easy f.unp.max r => (hez he).2 b rfl
          have hnb := fromBlock_ended (r := { r1 with block := some b }) (b := b)
          simp only at hb hez2 hez3 ⊢
          generalize FReader.fromBlock { f1 with block := some b } b = x at hb
          generalize DocReader.fromBlock { r1 with block := some b } b = y at hb hez2 hnb
          obtain ⟨f2, a⟩ := x
          obtain ⟨r2, b⟩ := y
          rcases hb with ⟨e, hs2, hm2⟩ | ⟨e, hno, hst⟩
          · simp only at e hs2 hm2
            subst e
            cases a with
            | error e => exact .inl ⟨rfl, hs2, hm2.trans hm⟩
            | ok a =>
              cases a with
              | none =>
                have := ih hs2 (hnb rfl)
                rw [hm2, hm] at this
                rcases this with g | ⟨g1, g2, g3⟩
                · exact .inl g
                · exact .inr ⟨g1, fun he => g2 (hez2 he), g3⟩
              | some d => exact .inl ⟨rfl, hs2, hm2.trans hm⟩
          · simp only at e
            subst e
            rw [hm] at hno
            exact .inr ⟨rfl, fun he => hno (hez3 he), hst⟩
    · obtain ⟨e, hno, hst⟩ := e
      simp only at e
      subst e
      exact .inr ⟨rfl, hno, hst⟩

theorem next_sim {f : FReader} {r : DocReader} (h : RSim f r) : RSame f.unp.max r f.next r.next := by
  unfold FReader.next DocReader.next
  rw [h.block, h.len]
  cases hb : r.block with
  | none => exact nextLoop_sim _ h hb
  | some b =>
    have hez := fun he : Easy f.unp.max r => fromBlock_easy he hb
    have hb := fromBlock_sim h hb
    have hnb := fromBlock_ended (r := r) (b := b)
    simp only
    generalize f.fromBlock b = x at hb
    generalize r.fromBlock b = y at hb hez hnb
    obtain ⟨f2, a⟩ := x
    obtain ⟨r2, c⟩ := y
    rcases hb with ⟨e, hs2, hm2⟩ | ⟨e, hno⟩
    · simp only at e hs2 hm2
      subst e
      cases a with
      | error e => exact .inl ⟨rfl, hs2, hm2⟩
      | ok a =>
        cases a with
        | none =>
          have := nextLoop_sim (f2.len + 1) hs2 (hnb rfl)
          rw [hm2] at this
          show RSame _ _ (f2.nextLoop (f2.len + 1)) (r2.nextLoop (r2.raw.length + 1))
          rw [← hs2.len]
          rcases this with g | ⟨g1, g2, g3⟩
          · exact .inl g
          · exact .inr ⟨g1, fun he => g2 (hez he), g3⟩
        | some d => exact .inl ⟨rfl, hs2, hm2⟩
    · simp only at e
      subst e
      exact .inr ⟨rfl, hno⟩

/-- once BufferFull has been raised it is raised for ever -/
theorem stuck_next {f : FReader} (h : Stuck f) : f.next.2 = .error .overflow ∧ Stuck f.next.1 := by
  rcases h with ⟨hb, h1, h2, h3⟩ | ⟨b, hb, hq⟩
  · have hn : f.unp.next = (f.unp, .error .overflow) := by
      unfold FUnpacker.next FUnpacker.pull
      rw [h1]
      simp only [h2, Bool.false_eq_true, if_false]
      rw [if_pos h3]
    have hr : f.readblock = ({ f with lastpos := f.unp.used + 4 }, .error .overflow) := by
      unfold FReader.readblock
      simp only [hn]
    have : f.next = ({ f with lastpos := f.unp.used + 4 }, .error .overflow) := by
      unfold FReader.next
      rw [hb]
      unfold FReader.nextLoop
      simp only [hr, hb]
    rw [this]
    exact ⟨rfl, .inl ⟨hb, h1, h2, h3⟩⟩
  · have hn : f.next = ({ f with block := some b }, .error .overflow) := by
      unfold FReader.next
      rw [hb]
      unfold FReader.fromBlock
      simp only [hq, if_true]
    rw [hn]
    exact ⟨rfl, .inr ⟨b, rfl, hq⟩⟩

theorem nexts_stuck : ∀ (n : Nat) {f : FReader}, Stuck f → f.nexts n = List.replicate n (.error .overflow) := by
  intro n
  induction n with
  | zero => intro f _; rfl
  | succ n ih =>
    intro f h
    obtain ⟨h1, h2⟩ := stuck_next h
    rw [FReader.nexts, h1, ih h2, List.replicate_succ]

theorem nexts_sim : ∀ (n : Nat) {f : FReader} {r : DocReader}, RSim f r →
    ∃ m ≤ n, f.nexts n = r.nexts m ++ List.replicate (n - m) (.error .overflow) := by
  intro n
  induction n with
  | zero => intro f r _; exact ⟨0, Nat.le_refl _, rfl⟩
  | succ n ih =>
    intro f r h
    rcases next_sim h with ⟨e, hs, -⟩ | ⟨e, -, hst⟩
    · obtain ⟨m, hm, g⟩ := ih hs
      refine ⟨m + 1, by omega, ?_⟩
      rw [FReader.nexts, DocReader.nexts, e, g, List.cons_append]
      congr 3
      omega
    · refine ⟨0, Nat.zero_le _, ?_⟩
      rw [FReader.nexts, e, nexts_stuck n hst]
      rfl

theorem nexts_easy : ∀ (n : Nat) {f : FReader} {r : DocReader}, RSim f r → Easy f.unp.max r → f.nexts n = r.nexts n := by
  intro n
  induction n with
  | zero => intro f r _ _; rfl
  | succ n ih =>
    intro f r h he
    simp only [FReader.nexts, DocReader.nexts]
    rcases next_sim h with ⟨e, hs, hm⟩ | ⟨e, hno, -⟩
    · rw [e, ih hs (by rw [hm]; exact next_easy he)]
    · exact absurd he hno

/-! ### opening -/

namespace Spec

/-- nothing in the file, and nothing in its blocks when they are decompressed by the codec that the file names, is larger than
an unpacker with a buffer of `max` bytes takes -/
def InBuffer (reg : Codecs) (max : Nat) (raw : Bytes) : Prop :=
  Items max (fun o => ∀ name rest c z y, unpack (raw.drop 4) = .ok (name, rest) → getCodecObj reg name = .ok c → o = .bin z → c.decompress z = .ok y →
    Items max (fun _ => True) y) (raw.drop 4)

end Spec

theorem items_mono {max : Nat} {P Q : Obj → Prop} (h : ∀ o, P o → Q o) {bs : Bytes} (hi : Spec.Items max P bs) : Spec.Items max Q bs := by
  induction hi with
  | stop h hl => exact .stop h hl
  | item h1 hl hp _ ih => exact .item h1 hl (h _ hp) ih

/-- the same of the beginning of such a string -/
theorem items_prefix {max : Nat} {P : Obj → Prop} {w : Bytes} (hi : Spec.Items max P w) : ∀ {t : Bytes}, t <+: w → Spec.Items max P t := by
  have hstop : ∀ {w t : Bytes}, t <+: w → (∀ o r, unpack t ≠ .ok (o, r)) → (∀ e, unpack w = .error e → e = .outOfData) → unpack t = .error .outOfData := by
    intro w t ⟨x, hx⟩ h1 h2
    cases hu : unpack t with
    | ok y => exact absurd hu (h1 y.1 y.2)
    | error e =>
      by_cases he : e = .outOfData
      · rw [he]
      · have := Loc.unpack.err _ _ hu he x
        rw [hx] at this
        exact absurd (h2 _ this) he
  induction hi with
  | @stop bs h hl =>
    intro t ht
    refine .stop (hstop ht (fun o r hu => ?_) (fun e he => ?_)) (Nat.lt_of_le_of_lt ht.length_le hl)
    · obtain ⟨c, e1, e2⟩ := Loc.unpack.ok _ _ _ hu
      obtain ⟨x, hx⟩ := ht
      have := e2 (r ++ x)
      rw [← List.append_assoc, ← e1, hx, h] at this
      cases this
    · rw [h] at he; cases he; rfl
  | @item bs r o h hl hp _ ih =>
    intro t ht
    obtain ⟨c, e1, e2⟩ := Loc.unpack.ok _ _ _ h
    have hcl : bs.length - r.length = c.length := by rw [e1, List.length_append]; omega
    rcases Nat.lt_or_ge t.length c.length with hlt | hge
    · refine .stop (hstop ht (fun o' r' hu => ?_) (fun e he => ?_)) (by omega)
      · obtain ⟨c', e1', e2'⟩ := Loc.unpack.ok _ _ _ hu
        obtain ⟨x, hx⟩ := ht
        have := e2' (r' ++ x)
        rw [← List.append_assoc, ← e1', hx, h] at this
        simp only [Except.ok.injEq, Prod.mk.injEq] at this
        have hl1 := congrArg List.length this.2
        have hl2 := congrArg List.length e1'
        have hl3 := congrArg List.length hx
        have hl4 := congrArg List.length e1
        simp only [List.length_append] at hl1 hl2 hl3 hl4
        omega
      · rw [h] at he; cases he
    · obtain ⟨x, hx⟩ := List.prefix_of_prefix_length_le (⟨r, e1.symm⟩ : c <+: bs) ht hge
      rw [← hx, e1] at ht
      rw [← hx]
      exact .item (e2 x) (by rw [List.length_append]; omega) hp (ih ((List.prefix_append_right_inj _).mp ht))

theorem inBuffer_prefix {reg : Codecs} {max : Nat} {raw t : Bytes} (h : Spec.InBuffer reg max raw) (ht : t <+: raw) : Spec.InBuffer reg max t := by
  have htt : t.drop 4 <+: raw.drop 4 := by
    obtain ⟨x, rfl⟩ := ht
    rw [List.drop_append]
    exact List.prefix_append _ _
  refine items_mono (fun o ho name rest c z y h1 => ?_) (items_prefix h htt)
  obtain ⟨c', e1, e2⟩ := Loc.unpack.ok _ _ _ h1
  obtain ⟨x, hx⟩ := htt
  have := e2 (rest ++ x)
  rw [← List.append_assoc, ← e1, hx] at this
  exact ho name _ c z y this

/-- what `must` does, after the magic bytes -/
theorem must_sim {u : FUnpacker} {v : Unpacker} (P : Obj → Prop) (h : UGood u (v.src.drop v.used)) (hu : u.used = v.used) :
    (∃ e, u.must = .error e ∧ (DocReader.must v = .error e ∨ e = .overflow ∧ ¬ Spec.Items u.max P (v.src.drop v.used))) ∨
    ∃ o u' v', u.must = .ok (o, u') ∧ DocReader.must v = .ok (o, v') ∧ UGood u' (v'.src.drop v'.used) ∧ u'.used = v'.used ∧ u'.max = u.max ∧
      u'.inp.tells = u.inp.tells ∧ (Spec.Items u.max P (v.src.drop v.used) → Spec.Items u'.max P (v'.src.drop v'.used)) ∧
      ∃ t, unpack (v.src.drop v.used) = .ok (o, t) := by
  obtain ⟨hp, hs⟩ := next_spec h
  unfold FUnpacker.must DocReader.must
  generalize u.next = x at hp hs
  obtain ⟨w, res⟩ := x
  cases hp with
  | item o t g1 hl hx hg huu =>
    simp only at hx hg huu hs
    subst hx
    rw [g1]
    refine .inr ⟨o, w, _, rfl, rfl, ?_, by simp only; rw [huu, hu], hs.max, hs.tells, ?_, t, rfl⟩
    · simp only [drop_used g1]
      exact hg
    · simp only [drop_used g1]
      rw [hs.max]
      intro hi
      cases hi with
      | stop g _ => rw [g1] at g; cases g
      | item g _ _ hr =>
        rw [g1] at g
        cases g
        exact hr
  | stop g1 hl hx hg huu =>
    simp only at hx
    subst hx
    rw [g1]
    exact .inl ⟨_, rfl, .inl rfl⟩
  | fail e he g1 hx hg huu =>
    simp only at hx
    subst hx
    rw [g1]
    cases e <;> first | exact absurd rfl he | exact .inl ⟨_, rfl, .inl rfl⟩
  | full hx hg huu hl g1 =>
    simp only at hx
    subst hx
    refine .inl ⟨_, rfl, .inr ⟨rfl, fun he => ?_⟩⟩
    cases he with
    | stop q1 q2 => omega
    | item q1 q2 => have := g1 _ _ q1; omega

theorem fnew_sim {reg : Codecs} {max : Nat} {f : RawIn} (hm : 0 < max) (hp : ∀ k ∈ f.plan, k ≠ 0) (h4 : 4 ≤ f.plan.headD 4) (ht : f.tells = true) :
    (∃ e, FReader.new reg max f = .error e ∧ (DocReader.new reg f.rest = .error e ∨ e = .overflow ∧ ¬ Spec.InBuffer reg max f.rest)) ∨
    ∃ r r', FReader.new reg max f = .ok r ∧ DocReader.new reg f.rest = .ok r' ∧ RSim r r' ∧ r.unp.max = max ∧
      (Spec.InBuffer reg max f.rest → Easy max r') := by
  unfold FReader.new DocReader.new Spec.InBuffer
  generalize hP : (fun o : Obj => ∀ name rest c z y, unpack (f.rest.drop 4) = .ok (name, rest) → getCodecObj reg name = .ok c → o = .bin z →
    c.decompress z = .ok y → Spec.Items max (fun _ => True) y) = P
  have hk : min 4 (f.plan.headD 4) = 4 := by omega
  simp only [RawIn.read, hk]
  by_cases hmag : f.rest.take 4 = fileMagic
  · rw [if_neg (by simpa using hmag), if_neg (by simpa using hmag)]
    have hu0 : UGood ⟨[], { rest := f.rest.drop 4, plan := f.plan.tail, tells := f.tells }, false, 0, max⟩
        ((⟨f.rest.drop 4, 0⟩ : Unpacker).src.drop (⟨f.rest.drop 4, 0⟩ : Unpacker).used) :=
      ⟨rfl, nofun, fun a ha => hp a (List.mem_of_mem_tail ha), by simp, hm⟩
    rcases must_sim P hu0 rfl with ⟨e, e1, e2⟩ | ⟨o1, u1, v1, e1, e2, g1, g2, g3, g4, i1, t1, ht1⟩
    · rw [e1]
      rcases e2 with e2 | ⟨e2, e3⟩
      · rw [e2]; exact .inl ⟨e, rfl, .inl rfl⟩
      · exact .inl ⟨e, rfl, .inr ⟨e2, e3⟩⟩
    rw [e1, e2]
    simp only [List.drop_zero] at i1 ht1 g3 ⊢
    cases hcod : getCodecObj reg o1 with
    | error e => exact .inl ⟨e, rfl, .inl rfl⟩
    | ok c =>
      simp only
      rcases must_sim P g1 g2 with ⟨e, e1, e2⟩ | ⟨o2, u2, v2, e1, e2, g5, g6, g7, g8, i2, -⟩
      · rw [e1]
        rcases e2 with e2 | ⟨e2, e3⟩
        · rw [e2]; exact .inl ⟨e, rfl, .inl rfl⟩
        · exact .inl ⟨e, rfl, .inr ⟨e2, fun hi => e3 (i1 hi)⟩⟩
      rw [e1, e2]
      simp only
      rcases must_sim P g5 g6 with ⟨e, e1, e2⟩ | ⟨o3, u3, v3, e1, e2, g9, g10, g11, g12, i3, -⟩
      · rw [e1]
        rcases e2 with e2 | ⟨e2, e3⟩
        · rw [e2]; exact .inl ⟨e, rfl, .inl rfl⟩
        · exact .inl ⟨e, rfl, .inr ⟨e2, fun hi => e3 (i2 (i1 hi))⟩⟩
      rw [e1, e2]
      simp only
      cases truthy o3 with
      | error e => exact .inl ⟨e, rfl, .inl rfl⟩
      | ok b =>
        cases b with
        | true => exact .inl ⟨_, rfl, .inl rfl⟩
        | false =>
          have htt : u3.inp.tells = true := by rw [g12, g8, g4]; exact ht
          have hmm : u3.max = max := by rw [g11, g7, g3]
          simp only [htt, if_true]
          refine .inr ⟨_, _, rfl, rfl, ⟨rfl, g9, g10, rfl, rfl, rfl, rfl, rfl⟩, hmm, fun hi => ⟨?_, nofun⟩⟩
          have := i3 (i2 (i1 hi))
          rw [hmm] at this
          refine items_mono (fun o ho z y h1 h2 => ?_) this
          rw [← hP] at ho
          exact ho o1 t1 c z y ht1 hcod h1 h2
  · rw [if_pos hmag, if_pos hmag]
    exact .inl ⟨_, rfl, .inl rfl⟩

/-! ### files as they are written -/

theorem bpack_len {d : Bytes} (h : d.length < 2 ^ 32) : (Spec.bpack d).length ≤ d.length + 5 ∧ (65536 ≤ d.length → (Spec.bpack d).length = d.length + 5) := by
  have hb := pack_bin h
  have hh : ∃ p, packBinHead d.length = .ok p ∧ p.length ≤ 5 ∧ (65536 ≤ d.length → p.length = 5) := by
    unfold packBinHead
    by_cases h1 : d.length < 2 ^ 8
    · rw [if_pos h1]; exact ⟨_, rfl, by simp [be_length], by omega⟩
    · rw [if_neg h1]
      by_cases h2 : d.length < 2 ^ 16
      · rw [if_pos h2]; exact ⟨_, rfl, by simp [be_length], by omega⟩
      · rw [if_neg h2, if_pos h]; exact ⟨_, rfl, by simp [be_length], by simp [be_length]⟩
  obtain ⟨p, hp, h1, h2⟩ := hh
  have hq : pack (.bin d) = .ok (p ++ d) := by
    simp only [pack, packAt, hp]
    rfl
  rw [hb, Except.ok.injEq] at hq
  rw [hq, List.length_append]
  exact ⟨by omega, fun g => by have := h2 g; omega⟩

theorem items_data {max : Nat} {ds : List Bytes} (h : ∀ d ∈ ds, d.length < 2 ^ 32 ∧ d.length ≤ max) :
    Spec.Items max (fun _ => True) (Spec.blockData ds) := by
  induction ds with
  | nil => exact .stop unpack_nil (by simp [Spec.blockData])
  | cons d ds ih =>
    obtain ⟨h1, h2⟩ := h d (List.mem_cons_self ..)
    have hl := (bpack_len h1).1
    have : Spec.blockData (d :: ds) = Spec.bpack d ++ Spec.blockData ds := by simp [Spec.blockData]
    rw [this]
    exact .item (unpack_bpack h1 _) (by rw [List.length_append]; omega) trivial (ih (fun x hx => h x (List.mem_cons_of_mem _ hx)))

theorem items_blocks {max : Nat} {P : Obj → Prop} {f : Bytes → Bytes} {bs : List (List Bytes)}
    (h : ∀ ds ∈ bs, (f (Spec.blockData ds)).length < 2 ^ 32 ∧ (f (Spec.blockData ds)).length ≤ max ∧ P (.bin (f (Spec.blockData ds)))) :
    Spec.Items max P (Spec.blocksBytes f bs) := by
  induction bs with
  | nil => exact .stop unpack_nil (by simp [Spec.blocksBytes])
  | cons d ds ih =>
    obtain ⟨h1, h2, h3⟩ := h d (List.mem_cons_self ..)
    have hl := (bpack_len h1).1
    have : Spec.blocksBytes f (d :: ds) = Spec.bpack (f (Spec.blockData d)) ++ Spec.blocksBytes f ds := by
      simp [Spec.blocksBytes, Spec.blockBytes]
    rw [this]
    exact .item (unpack_bpack h1 _) (by rw [List.length_append]; omega) h3 (ih (fun x hx => h x (List.mem_cons_of_mem _ hx)))

/-- what follows the header -/
theorem header_items {max : Nat} {P : Obj → Prop} {name : Str} {num : Int} {hd rest : Bytes} (hh : Header name num hd) (hl : hd.length ≤ max)
    (hp : ∀ o, (∀ z, o ≠ .bin z) → P o) (h : Spec.Items max P rest) :
    Spec.Items max P ((hd ++ rest).drop 4) ∧ ∃ t, unpack ((hd ++ rest).drop 4) = .ok (.str name, t) := by
  obtain ⟨a, b, c, pa, pb, pc, he⟩ := hh
  have hlen : fileMagic.length = 4 := rfl
  have hd4 : (hd ++ rest).drop 4 = a ++ (b ++ (c ++ rest)) := by
    rw [he]
    simp only [List.append_assoc]
    rw [← hlen, List.drop_left]
  have hl2 := congrArg List.length he
  simp only [List.length_append] at hl2
  rw [hd4]
  refine ⟨?_, _, unpack_pack pa (by trivial) _⟩
  refine .item (unpack_pack pa (by trivial) _) (by rw [List.length_append]; omega) (hp _ nofun) ?_
  refine .item (unpack_pack pb (by trivial) _) (by rw [List.length_append]; omega) (hp _ nofun) ?_
  exact .item (unpack_pack pc (by trivial) _) (by rw [List.length_append]; omega) (hp _ nofun) h

theorem inBuffer_written {reg : Codecs} {max : Nat} {name : Str} {f : Bytes → Bytes} {num : Int} {hd : Bytes} {bs : List (List Bytes)}
    (hb : Spec.Undoes reg name f) (hh : Header name num hd) (hl : hd.length ≤ max)
    (h : ∀ ds ∈ bs, (f (Spec.blockData ds)).length < 2 ^ 32 ∧ (f (Spec.blockData ds)).length ≤ max ∧ ∀ d ∈ ds, d.length < 2 ^ 32 ∧ d.length ≤ max) :
    Spec.InBuffer reg max (hd ++ Spec.blocksBytes f bs) := by
  obtain ⟨c, hc, hdec⟩ := hb
  obtain ⟨-, t, ht⟩ := header_items (P := fun _ => True) hh hl (fun _ _ => trivial)
    (items_blocks (f := f) (bs := bs) (fun ds hds => ⟨(h ds hds).1, (h ds hds).2.1, trivial⟩))
  unfold Spec.InBuffer
  refine (header_items hh hl (fun o ho n r c' z y h1 h2 h3 h4 => absurd h3 (ho z)) (items_blocks fun ds hds => ?_)).1
  obtain ⟨g1, g2, g3⟩ := h ds hds
  refine ⟨g1, g2, fun n r c' z y h1 h2 h3 h4 => ?_⟩
  rw [ht] at h1
  cases h1
  have hcc : c' = c := by
    have : getCodecObj reg (.str name) = getCodec reg name := rfl
    rw [this, hc] at h2
    cases h2; rfl
  subst hcc
  cases h3
  rw [hdec] at h4
  cases h4
  exact items_data g3

/-! ### objects that are too large -/

theorem must_ok {u : FUnpacker} {o : Obj} {b rest : Bytes} (h : UGood u (b ++ rest)) (hp : pack o = .ok b) (hk : o.KeysOk) (hl : b.length ≤ u.max + 5) :
    ∃ u', u.must = .ok (o, u') ∧ UGood u' rest ∧ u'.max = u.max ∧ u'.inp.tells = u.inp.tells := by
  obtain ⟨hq, hs⟩ := next_spec h
  have hu := unpack_pack hp hk rest
  unfold FUnpacker.must
  generalize u.next = x at hq hs
  obtain ⟨v, res⟩ := x
  cases hq with
  | item o' t g1 hl' hx hg huu =>
    rw [hu] at g1
    cases g1
    simp only at hx
    subst hx
    exact ⟨v, rfl, hg, hs.max, hs.tells⟩
  | stop g1 => rw [hu] at g1; cases g1
  | fail e he g1 => rw [hu] at g1; cases g1
  | full hx hg huu _ g1 _ =>
    have := g1 _ _ hu
    rw [List.length_append] at this
    omega

/-- the header is read, whatever follows it -/
theorem fopen_ok {reg : Codecs} {c' : CCodec} {name : Str} {num : Int} {hd rest : Bytes} {max : Nat} {f : RawIn} (hh : Header name num hd)
    (hc : getCodec reg name = .ok c') (hl : hd.length ≤ max) (hr : f.rest = hd ++ rest) (hp : ∀ k ∈ f.plan, k ≠ 0) (h4 : 4 ≤ f.plan.headD 4)
    (ht : f.tells = true) : ∃ r, FReader.new reg max f = .ok r ∧ UGood r.unp rest ∧ r.unp.max = max ∧ r.codec = c'.decompress ∧ r.block = none := by
  obtain ⟨a, b, c, pa, pb, pc, he⟩ := hh
  have hlen : fileMagic.length = 4 := rfl
  have hraw : f.rest = fileMagic ++ (a ++ (b ++ (c ++ rest))) := by rw [hr, he]; simp only [List.append_assoc]
  have ht4 : f.rest.take 4 = fileMagic := by rw [hraw, ← hlen, List.take_left]
  have hd4 : f.rest.drop 4 = a ++ (b ++ (c ++ rest)) := by rw [hraw, ← hlen, List.drop_left]
  have hl2 := congrArg List.length he
  simp only [List.length_append, hlen] at hl2
  have hk : min 4 (f.plan.headD 4) = 4 := by omega
  unfold FReader.new
  simp only [RawIn.read, hk, ht4, hd4, ne_eq, not_true_eq_false, if_false]
  have hu0 : UGood ⟨[], { rest := a ++ (b ++ (c ++ rest)), plan := f.plan.tail, tells := f.tells }, false, 0, max⟩ (a ++ (b ++ (c ++ rest))) :=
    ⟨rfl, nofun, fun x hx => hp x (List.mem_of_mem_tail hx), by simp, by simp only; omega⟩
  obtain ⟨u1, e1, g1, m1, t1⟩ := must_ok hu0 pa (by trivial) (by simp only; omega)
  simp only at m1 t1
  obtain ⟨u2, e2, g2, m2, t2⟩ := must_ok g1 pb (by trivial) (by omega)
  obtain ⟨u3, e3, g3, m3, t3⟩ := must_ok g2 pc (by trivial) (by omega)
  have htt : u3.inp.tells = true := by rw [t3, t2, t1]; exact ht
  simp only [e1, e2, e3, getCodecObj, hc, truthy, htt, if_true]
  exact ⟨_, rfl, g3, by simp only; omega, rfl, rfl⟩

/-- the file goes on with an object that is too large -/
theorem next_stuck_file {f : FReader} {w : Bytes} (h : UGood f.unp w) {o : Obj} {r : Bytes} (hu : unpack w = .ok (o, r))
    (hl : f.unp.max + 5 < w.length - r.length) (hb : f.block = none) : f.next.2 = .error .overflow ∧ Stuck f.next.1 := by
  obtain ⟨hp, hs⟩ := next_spec h
  unfold FReader.next
  rw [hb]
  simp only
  unfold FReader.nextLoop FReader.readblock
  simp only
  generalize f.unp.next = x at hp hs
  obtain ⟨v, res⟩ := x
  cases hp with
  | item o' t g1 hl' => rw [hu] at g1; cases g1; omega
  | stop g1 => rw [hu] at g1; cases g1
  | fail e he g1 => rw [hu] at g1; cases g1
  | full hx hg huu _ _ hj =>
    simp only at hx hj
    subst hx
    exact ⟨rfl, .inl ⟨hb, hj⟩⟩

/-- the next block starts with a document that is too large -/
theorem next_stuck_block {f : FReader} {w : Bytes} (h : UGood f.unp w) {z y r : Bytes} (hu : unpack w = .ok (.bin z, r))
    (hl : w.length - r.length ≤ f.unp.max + 5) (hb : f.block = none) (hc : f.codec z = .ok y) {o : Obj} {t : Bytes} (hy : unpack y = .ok (o, t))
    (hly : f.unp.max + 5 < y.length - t.length) : f.next.2 = .error .overflow ∧ Stuck f.next.1 := by
  obtain ⟨hp, hs⟩ := next_spec h
  unfold FReader.next
  rw [hb]
  simp only
  unfold FReader.nextLoop FReader.readblock
  simp only
  generalize f.unp.next = x at hp hs
  obtain ⟨v, res⟩ := x
  cases hp with
  | item o' t' g1 hl' hx hg huu =>
    rw [hu] at g1
    cases g1
    simp only at hx hs
    subst hx
    simp only [hc]
    have hm := hs.max
    have hq : (Block.new (f.unp.used + 4) y).unp.full v.max = true := by
      unfold Unpacker.full Block.new
      simp only [List.drop_zero, hy]
      rw [hm]
      exact decide_eq_true hly
    unfold FReader.fromBlock
    simp only [hq, if_true]
    exact ⟨by trivial, .inr ⟨_, rfl, hq⟩⟩
  | stop g1 => rw [hu] at g1; cases g1
  | fail e he g1 => rw [hu] at g1; cases g1
  | full hx hg huu _ g1 _ => have := g1 _ _ hu; omega

end Verif
