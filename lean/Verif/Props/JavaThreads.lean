import Verif.Model.JavaThreads
import Verif.Props.JavaReader
/-
C82: `nextBlock()` from several threads.
-/
set_option linter.unusedSimpArgs false
namespace Verif

namespace Spec

/-- the compressed blocks that threads have taken from the file and not yet decompressed -/
def inFlight : List JPc → List Bytes
  | [] => []
  | .bytes z :: pcs => z :: inFlight pcs
  | _ :: pcs => inFlight pcs

/-- the blocks that threads have returned -/
def returned : List JPc → List Nat
  | [] => []
  | .done (some i) :: pcs => i :: returned pcs
  | _ :: pcs => returned pcs

end Spec

open JThreads

/-- whatever was read is in flight or has been unpacked -/
structure Taken (comp : Bytes → Bytes) (blocks : List (List Bytes)) (s : JThreads) : Prop where
  ex : ∃ (taken left fl un : List (List Bytes)), blocks = taken ++ left ∧ s.r.rest = Spec.blocksBytes comp left ∧ (∀ ds ∈ blocks, Spec.Readable comp s.r.codec ds) ∧
    Spec.inFlight s.pcs = fl.map (fun ds => comp (Spec.blockData ds)) ∧ s.r.blks = un.map Spec.blockData ∧ (fl ++ un).Perm taken

theorem inFlight_set {pcs : List JPc} {t : Nat} {pc : JPc} (h : pcs[t]? = some pc) (pc' : JPc) :
    ∃ a b, Spec.inFlight pcs = a ++ Spec.inFlight [pc] ++ b ∧ Spec.inFlight (pcs.set t pc') = a ++ Spec.inFlight [pc'] ++ b := by
  induction pcs generalizing t with
  | nil => simp at h
  | cons p pcs ih =>
    have hc : ∀ (q : JPc) (l : List JPc), Spec.inFlight (q :: l) = Spec.inFlight [q] ++ Spec.inFlight l := by
      intro q l; cases q <;> rfl
    cases t with
    | zero =>
      simp only [List.getElem?_cons_zero, Option.some.injEq] at h
      subst h
      exact ⟨[], Spec.inFlight pcs, by rw [hc]; rfl, by rw [List.set_cons_zero, hc]; rfl⟩
    | succ t =>
      rw [List.getElem?_cons_succ] at h
      obtain ⟨a, b, h1, h2⟩ := ih h
      refine ⟨Spec.inFlight [p] ++ a, b, ?_, ?_⟩
      · rw [hc, h1]; simp only [List.append_assoc]
      · rw [List.set_cons_succ, hc, h2]; simp only [List.append_assoc]

theorem taken_step {comp blocks s} (h : Taken comp blocks s) (t : Nat) : Taken comp blocks (s.step t) := by
  obtain ⟨taken, left, fl, un, h1, h2, h3, h4, h5, h6⟩ := h.ex
  unfold JThreads.step
  cases hp : s.pcs[t]? with
  | none => exact h
  | some pc =>
    have keep : ∀ pc', Spec.inFlight [pc] = [] → Spec.inFlight [pc'] = [] → Taken comp blocks ⟨s.r, s.pcs.set t pc'⟩ := by
      intro pc' e1 e2
      obtain ⟨a, b, g1, g2⟩ := inFlight_set hp pc'
      refine ⟨taken, left, fl, un, h1, h2, h3, ?_, h5, h6⟩
      rw [e1] at g1; rw [e2] at g2
      show Spec.inFlight (s.pcs.set t pc') = _
      rw [g2, ← g1, h4]
    cases pc with
    | done b => exact keep _ rfl rfl
    | failed e => exact keep _ rfl rfl
    | ret => exact keep _ rfl rfl
    | check =>
      simp only [JThreads.step1]
      cases hb : s.r.block with
      | none => exact keep _ rfl rfl
      | some i =>
        simp only
        by_cases hl : s.r.left i ≠ []
        · rw [if_pos hl]; exact keep _ rfl rfl
        · rw [if_neg hl]; exact keep _ rfl rfl
    | top =>
      simp only [JThreads.step1]
      by_cases hr : s.r.rest = []
      · rw [if_pos hr]; exact keep _ rfl rfl
      · rw [if_neg hr]
        cases left with
        | nil => exact absurd h2 hr
        | cons ds left =>
          obtain ⟨r1, r2, r3⟩ := h3 ds (by rw [h1]; simp)
          have hj : jBin s.r.rest = .ok (comp (Spec.blockData ds), Spec.blocksBytes comp left) := by
            rw [h2, blocksBytes_cons]; exact jBin_bpack r1 _
          rw [hj]
          obtain ⟨a, b, g1, g2⟩ := inFlight_set hp (.bytes (comp (Spec.blockData ds)))
          simp only [Spec.inFlight, List.append_nil] at g1 g2
          rw [g1] at h4
          obtain ⟨fa, fb, e1, e2, e3⟩ := List.map_eq_append_iff.mp h4.symm
          refine ⟨taken ++ [ds], left, fa ++ [ds] ++ fb, un, by rw [h1]; simp, rfl, h3, ?_, h5, ?_⟩
          · show Spec.inFlight (s.pcs.set t _) = _
            rw [g2]; simp only [List.map_append, e2, e3, List.map_cons, List.map_nil, List.append_assoc]
          · rw [e1] at h6
            have : (fa ++ [ds] ++ fb ++ un).Perm (fa ++ fb ++ un ++ [ds]) := by
              rw [List.append_assoc, List.append_assoc, List.append_assoc, List.append_assoc]
              refine List.Perm.append_left fa ?_
              rw [← List.append_assoc fb]
              exact List.perm_append_comm
            exact this.trans (List.Perm.append_right [ds] h6)
    | bytes z =>
      simp only [JThreads.step1]
      obtain ⟨a, b, g1, g2⟩ := inFlight_set hp .check
      simp only [Spec.inFlight, List.append_nil] at g1 g2
      rw [g1] at h4
      obtain ⟨fa, fb, e1, e2, e3⟩ := List.map_eq_append_iff.mp h4.symm
      obtain ⟨fa1, fd, q1, q2, q3⟩ := List.map_eq_append_iff.mp e2
      obtain ⟨ds, rfl, q4⟩ : ∃ ds, fd = [ds] ∧ comp (Spec.blockData ds) = z := by
        cases fd with
        | nil => simp at q3
        | cons x l =>
          cases l with
          | nil => simp at q3; exact ⟨x, rfl, q3⟩
          | cons y l => simp at q3
      have hmem : ds ∈ blocks := by
        rw [h1]
        refine List.mem_append_left _ (h6.subset ?_)
        rw [e1, q1]; simp
      obtain ⟨r1, r2, r3⟩ := h3 ds hmem
      rw [← q4, r2]
      refine ⟨taken, left, fa1 ++ fb, un ++ [ds], h1, h2, h3, ?_, ?_, ?_⟩
      · show Spec.inFlight (s.pcs.set t _) = _
        rw [g2, List.map_append, q2, e3]
      · show s.r.blks ++ [Spec.blockData ds] = _
        rw [h5]; simp
      · rw [e1, q1] at h6
        refine List.Perm.trans ?_ h6
        simp only [List.append_assoc]
        refine List.Perm.append_left fa1 ?_
        rw [← List.append_assoc]
        exact List.perm_append_comm

/-- C82. Whatever the threads do, every block is read from the file exactly once: what threads hold compressed and
what has been unpacked is, in some order, a prefix of the file's blocks, and the rest is still to be read. -/
theorem C82_reads {comp : Bytes → Bytes} {blocks : List (List Bytes)} {r : JDocReader} (hr : r.rest = Spec.blocksBytes comp blocks) (hb : r.blks = [])
    (hok : ∀ ds ∈ blocks, Spec.Readable comp r.codec ds) (n : Nat) (sched : List Nat) :
    ∃ (taken left fl un : List (List Bytes)), blocks = taken ++ left ∧ (JThreads.run ⟨r, List.replicate n .top⟩ sched).r.rest = Spec.blocksBytes comp left ∧
      Spec.inFlight (JThreads.run ⟨r, List.replicate n .top⟩ sched).pcs = fl.map (fun ds => comp (Spec.blockData ds)) ∧
      (JThreads.run ⟨r, List.replicate n .top⟩ sched).r.blks = un.map Spec.blockData ∧ (fl ++ un).Perm taken := by
  have gen : ∀ (sched : List Nat) {s : JThreads}, Taken comp blocks s → Taken comp blocks (s.run sched) := by
    intro sched
    induction sched with
    | nil => intro s h; exact h
    | cons t ts ih => intro s h; exact ih (taken_step h t)
  have h0 : Taken comp blocks ⟨r, List.replicate n .top⟩ := by
    refine ⟨[], blocks, [], [], rfl, hr, hok, ?_, by simp [hb], by simp⟩
    show Spec.inFlight (List.replicate n .top) = _
    induction n with
    | zero => rfl
    | succ n ih => rw [List.replicate_succ]; exact ih
  obtain ⟨taken, left, fl, un, h1, h2, -, h4, h5, h6⟩ := (gen sched h0).ex
  exact ⟨taken, left, fl, un, h1, h2, h4, h5, h6⟩

theorem step_at {r : JDocReader} {pcs : List JPc} {t : Nat} {pc : JPc} (h : pcs[t]? = some pc) :
    JThreads.step ⟨r, pcs⟩ t = ⟨(step1 r pc).1, pcs.set t (step1 r pc).2⟩ := by
  simp only [JThreads.step, h]

/-- C82. A thread that is not interrupted does what `nextBlock()` does. -/
theorem C82_alone_partial (r : JDocReader) (pcs : List JPc) (t : Nat) (ht : pcs[t]? = some .top) :
    ∃ k, ∀ res, r.nextBlock.2 = .ok res → JThreads.run ⟨r, pcs⟩ (List.replicate k t) = ⟨r.nextBlock.1, pcs.set t (.done res)⟩ := by
  have gen : ∀ (fuel : Nat) {r : JDocReader} {pcs : List JPc}, pcs[t]? = some .top →
      ∃ k, ∀ res, (r.readLoop fuel).2 = .ok res → JThreads.run ⟨r, pcs⟩ (List.replicate k t) = ⟨(r.readLoop fuel).1, pcs.set t (.done res)⟩ := by
    intro fuel
    induction fuel with
    | zero => intro r pcs _; exact ⟨0, fun res h => by simp [JDocReader.readLoop] at h⟩
    | succ fuel ih =>
      intro r pcs ht
      have hlt : t < pcs.length := (List.getElem?_eq_some_iff.mp ht).1
      unfold JDocReader.readLoop
      by_cases hr : r.rest = []
      · rw [if_pos hr]
        refine ⟨1, fun res h => ?_⟩
        simp only [Except.ok.injEq] at h
        subst h
        simp only [List.replicate, JThreads.run]
        rw [step_at ht]
        simp only [step1, if_pos hr]
      · rw [if_neg hr]
        cases hj : jBin r.rest with
        | error e => exact ⟨0, fun res h => by simp at h⟩
        | ok x =>
          obtain ⟨z, rest⟩ := x
          simp only
          cases hc : r.codec z with
          | error e => exact ⟨0, fun res h => by simp at h⟩
          | ok d =>
            simp only
            have three : ∀ ts, JThreads.run ⟨r, pcs⟩ (t :: t :: t :: ts) =
                JThreads.run ⟨{ r with rest := rest, blks := r.blks ++ [d], block := some r.blks.length }, pcs.set t (if d ≠ [] then .ret else .top)⟩ ts := by
              intro ts
              have s1 : step1 r .top = ({ r with rest := rest }, .bytes z) := by simp only [step1, if_neg hr, hj]
              have s2 : step1 { r with rest := rest } (.bytes z) =
                  ({ r with rest := rest, blks := r.blks ++ [d], block := some r.blks.length }, .check) := by simp only [step1, hc]
              have s3 : step1 { r with rest := rest, blks := r.blks ++ [d], block := some r.blks.length } .check =
                  ({ r with rest := rest, blks := r.blks ++ [d], block := some r.blks.length }, if d ≠ [] then .ret else .top) := by
                simp [step1, JDocReader.left]
              simp only [JThreads.run]
              rw [step_at ht, s1]
              simp only
              rw [step_at (r := { r with rest := rest }) (pcs := pcs.set t (.bytes z)) (pc := .bytes z) (by simp [hlt]), s2]
              simp only [List.set_set]
              rw [step_at (pcs := pcs.set t .check) (pc := .check) (by simp [hlt]), s3]
              simp only [List.set_set]
            by_cases hd : d ≠ []
            · rw [if_pos hd]
              refine ⟨4, fun res h => ?_⟩
              simp only [Except.ok.injEq] at h
              subst h
              show JThreads.run ⟨r, pcs⟩ (t :: t :: t :: [t]) = _
              rw [three, if_pos hd]
              simp only [JThreads.run]
              rw [step_at (pc := .ret) (by simp [hlt])]
              simp [step1]
            · rw [if_neg hd]
              obtain ⟨k, hk⟩ := ih (r := { r with rest := rest, blks := r.blks ++ [d], block := some r.blks.length }) (pcs := pcs.set t .top) (by simp [hlt])
              refine ⟨k + 3, fun res h => ?_⟩
              show JThreads.run ⟨r, pcs⟩ (t :: t :: t :: List.replicate k t) = _
              rw [three, if_neg hd, hk res h]
              simp
  exact gen _ ht

/-- C82 in full: no block is given to two threads. -/
def C82_full : Prop := ∀ (r : JDocReader) (n : Nat) (sched : List Nat), r.blks = [] →
  (Spec.returned (JThreads.run ⟨r, List.replicate n .top⟩ sched).pcs).Nodup

namespace Ex

/-- a reader with two blocks of one document each -/
def twoBlocks : JDocReader := ⟨Spec.blocksBytes id [[[1]], [[2]]], .ok, 1, [], none⟩

/-- both threads unpack their block, then both return -/
def race : JThreads := JThreads.run ⟨twoBlocks, [.top, .top]⟩ [0, 0, 1, 1, 0, 0, 1, 1]

/-- one after the other -/
def noRace : JThreads := JThreads.run ⟨twoBlocks, [.top, .top]⟩ [0, 0, 0, 0, 1, 1, 1, 1]

/-- the second block is empty, and thread 1 unpacks it between the check and the return of thread 0 -/
def raceEmpty : JThreads := JThreads.run ⟨⟨Spec.blocksBytes id [[[1]], []], .ok, 1, [], none⟩, [.top, .top]⟩ [0, 0, 0, 1, 1, 0]

end Ex

/-- C82 fails: two threads get the second block, and the first block is given to nobody although the file has been
read to its end. -/
theorem C82_block_lost : Ex.race.pcs = [.done (some 1), .done (some 1)] ∧ Ex.race.r.rest = [] ∧ Ex.race.r.blks = [Spec.blockData [[1]], Spec.blockData [[2]]] := by
  decide +kernel

/-- C82 fails: a thread gets an empty block, which `nextBlock()` never gives to a single thread. -/
theorem C82_empty_given : Ex.raceEmpty.pcs[0]? = some (.done (some 1)) ∧ Ex.raceEmpty.r.left 1 = [] := by decide +kernel

theorem C82_full_false : ¬ C82_full := by
  intro h
  have := h Ex.twoBlocks 2 [0, 0, 1, 1, 0, 0, 1, 1] rfl
  revert this
  decide +kernel

example : Ex.noRace.pcs = [.done (some 0), .done (some 1)] := by decide +kernel

end Verif
