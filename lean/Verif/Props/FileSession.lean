import Verif.Proof.FileSession
/-
C106: document files written by name: existing files, close(), `with`, exceptions, and a program that stops before.
-/
set_option linter.unusedSimpArgs false
namespace Verif

namespace Spec
open FileWriter

/-- the document that a call hands over -/
def handedBy : FileWriter.Call → Option Bytes
  | .write a =>
    match a.data with
    | .ok d => if d.length < 2 ^ 32 then some d else none
    | .error _ => none
  | _ => none

/-- the documents of the calls that can be encoded and are short enough for a MessagePack bin -/
def handed (cs : List FileWriter.Call) : List Bytes := cs.filterMap handedBy

/-- the documents of the write() calls that returned, given what each call raised -/
def returnedDocs : List (FileWriter.Call × Option PyErr) → List Bytes
  | [] => []
  | (.write a, none) :: l =>
    match a.data with
    | .ok d => d :: returnedDocs l
    | .error _ => returnedDocs l
  | _ :: l => returnedDocs l

/-- the calls with what they raised -/
def outcomes (size : Nat) (s : FileWriter) (cs : List FileWriter.Call) : List (FileWriter.Call × Option PyErr) :=
  cs.zip (s.results size cs)

/-- the calls that the body of a `with` statement made, with what they raised -/
def made (size : Nat) : FileWriter → List FileWriter.Step → List (FileWriter.Call × Option PyErr)
  | _, [] => []
  | _, .raise _ :: _ => []
  | s, .call c caught :: l =>
    match (s.call size c).2 with
    | none => (c, none) :: made size (s.call size c).1 l
    | some e => (c, some e) :: (if caught then made size (s.call size c).1 l else [])

/-- MsgpackDocument arguments hold what the constructor lets through -/
def RealCall : FileWriter.Call → Prop
  | .write (.packed m) => ascii "DM_1" <+: m.raw
  | _ => True

/-- a reader of the file yields exactly these documents, and then StopIteration for ever -/
def Yields (reg : Codecs) (fs : Disk) (path : Str) (docs : List Bytes) : Prop :=
  ∃ raw r, fs path = some raw ∧ DocReader.new reg raw = .ok r ∧ ∀ k,
    (r.nexts (docs.length + k)).map (fun x => x.map MDoc.raw) = docs.map .ok ++ List.replicate k (.error .stopIteration)

/-- the compression of up to `n` bytes succeeds and gives no more than a MessagePack bin can hold -/
def Total (c : CCodec) (n : Nat) : Prop := ∀ x : Bytes, x.length ≤ n → ∃ z, c.compress x = .ok z ∧ z.length < 2 ^ 32

/-- the compression of the documents of these calls, or some of them, does not fail -/
def Compresses (c : CCodec) (cs : List FileWriter.Call) : Prop := Total c (blockData (handed cs)).length

/-- nothing is written after a close() -/
def NoLate : List FileWriter.Call → Prop
  | [] => True
  | .close :: cs => (∀ a, .write a ∉ cs) ∧ NoLate cs
  | _ :: cs => NoLate cs

/-- what one expects: once the file is closed it holds exactly the documents whose write() returned -/
def KeepsFile (size : Nat) (reg : Codecs) (c : CCodec) : Prop :=
  ∀ (fs fs1 : Disk) (path : Str) (mode : OpenMode) (num : Int) (s : FileWriter) (cs : List FileWriter.Call),
    mode ≠ .a → FileWriter.new size fs path mode num c = (fs1, .ok s) → (∀ x ∈ cs, RealCall x) →
    (s.run size cs).file.closed = true → Yields reg ((s.run size cs).onDisk fs1) path (returnedDocs (outcomes size s cs))

end Spec

theorem handed_accepted (cs : List FileWriter.Call) : Spec.accepted (cs.map (·.plain)) = Spec.handed cs := by
  induction cs with
  | nil => rfl
  | cons c cs ih =>
    cases c with
    | write a =>
      simp only [Spec.handed, List.filterMap_cons, Spec.handedBy, List.map_cons, FileWriter.Call.plain, Spec.accepted] at ih ⊢
      cases a.data with
      | error e => exact ih
      | ok d =>
        simp only
        split
        · rw [ih]
        · exact ih
    | flush => exact ih
    | close => exact ih

theorem real_plain {cs : List FileWriter.Call} (h : ∀ x ∈ cs, Spec.RealCall x) : ∀ x ∈ cs.map (·.plain), Spec.Real x := by
  intro x hx
  obtain ⟨c, hc, rfl⟩ := List.mem_map.mp hx
  have := h c hc
  cases c with
  | write a => cases a <;> exact this
  | flush => trivial
  | close => trivial

theorem kept_nil {fs : Disk} {path : Str} {mode : OpenMode} (h : mode ≠ .a) : FileWriter.kept fs path mode = [] := by
  cases mode with
  | a => exact absurd rfl h
  | _ => rfl

/-- C106. Open a file by name, new or emptied, and make any calls, exceptions being caught. Once a close() has succeeded,
the file holds exactly the documents that had been handed over before, for every block size and lossless codec; what
was in the file before does not matter, and no later call changes it. -/
theorem C106_closed {size : Nat} {reg : Codecs} {c : CCodec} {fs fs1 : Disk} {path : Str} {mode : OpenMode} {num : Int} {s : FileWriter}
    {pre post : List FileWriter.Call} (hreg : Spec.Lossless reg c) (hm : mode ≠ .a)
    (h0 : FileWriter.new size fs path mode num c = (fs1, .ok s)) (hreal : ∀ x ∈ pre, Spec.RealCall x)
    (ho : (s.run size pre).file.closed = false) (hc : ((s.run size pre).close size).2 = none) :
    Spec.Yields reg ((s.run size (pre ++ .close :: post)).onDisk fs1) path (Spec.handed pre) ∧
      (s.run size (pre ++ .close :: post)).file.closed = true := by
  obtain ⟨w, hw, hs, hp, -, -⟩ := new_sim h0
  rw [kept_nil hm] at hs
  obtain ⟨g1, g2, -⟩ := run_sim pre hs ho
  obtain ⟨w', e1, e2, e3, -⟩ := close_sim g1 hc
  have hrun : s.run size (pre ++ .close :: post) = (((s.run size pre).close size).1).run size post := by
    rw [fileRun_append]; rfl
  obtain ⟨q1, q2⟩ := run_closed (size := size) post (s := ((s.run size pre).close size).1) (by rw [e2]) (by rw [e2])
  obtain ⟨r, hr, hn⟩ := C42_round_trip hreg hw e1 (real_plain hreal)
  rw [handed_accepted] at hn
  rw [hrun]
  refine ⟨⟨Spec.payload w'.log, r, ?_, hr, hn⟩, by rw [q1, e2]⟩
  simp only [FileWriter.onDisk, q1, q2, e2, e3, g2, hp, upd_same, List.nil_append]

/-- a file yields one list of documents -/
theorem yields_unique {reg : Codecs} {fs : Disk} {path : Str} {a b : List Bytes} (h1 : Spec.Yields reg fs path a) (h2 : Spec.Yields reg fs path b) :
    a = b := by
  obtain ⟨raw, r, e1, e2, e3⟩ := h1
  obtain ⟨raw', r', g1, g2, g3⟩ := h2
  rw [e1] at g1; cases g1
  rw [e2] at g2; cases g2
  have h := (e3 (b.length + 1)).symm
  rw [show a.length + (b.length + 1) = b.length + (a.length + 1) by omega, g3] at h
  have key : ∀ (a b : List Bytes) (m n : Nat), (a.map (Except.ok (ε := PyErr)) ++ List.replicate (m + 1) (.error .stopIteration)) =
      (b.map .ok ++ List.replicate (n + 1) (.error .stopIteration)) → a = b := by
    intro a
    induction a with
    | nil =>
      intro b m n h
      cases b with
      | nil => rfl
      | cons y b => simp [List.replicate_succ] at h
    | cons x a ih =>
      intro b m n h
      cases b with
      | nil => simp [List.replicate_succ] at h
      | cons y b =>
        simp only [List.map_cons, List.cons_append, List.cons.injEq, Except.ok.injEq] at h
        rw [h.1, ih b m n h.2]
  exact key _ _ _ _ h

/-! ### the documents whose write() returned -/

theorem results_append (size : Nat) : ∀ (a b : List FileWriter.Call) (s : FileWriter),
    s.results size (a ++ b) = s.results size a ++ (s.run size a).results size b := by
  intro a
  induction a with
  | nil => intro b s; rfl
  | cons c a ih => intro b s; simp only [List.cons_append, FileWriter.results, ih]; rfl

theorem results_length (size : Nat) : ∀ (a : List FileWriter.Call) (s : FileWriter), (s.results size a).length = a.length := by
  intro a
  induction a with
  | nil => intro s; rfl
  | cons c a ih => intro s; simp only [FileWriter.results, List.length_cons, ih]

theorem outcomes_append (size : Nat) (a b : List FileWriter.Call) (s : FileWriter) :
    Spec.outcomes size s (a ++ b) = Spec.outcomes size s a ++ Spec.outcomes size (s.run size a) b := by
  unfold Spec.outcomes
  rw [results_append, List.zip_append (by rw [results_length])]

theorem returned_append (a b : List (FileWriter.Call × Option PyErr)) : Spec.returnedDocs (a ++ b) = Spec.returnedDocs a ++ Spec.returnedDocs b := by
  induction a with
  | nil => rfl
  | cons x a ih =>
    obtain ⟨c, r⟩ := x
    cases c with
    | write d =>
      cases r with
      | none =>
        simp only [List.cons_append, Spec.returnedDocs]
        cases d.data with
        | error e => exact ih
        | ok d => simp only [ih, List.cons_append]
      | some e => simp only [List.cons_append, Spec.returnedDocs, ih]
    | flush => simp only [List.cons_append, Spec.returnedDocs, ih]
    | close => simp only [List.cons_append, Spec.returnedDocs, ih]

theorem flush_total {size n : Nat} {s : FileWriter} (hc : Spec.Total s.codec n) (hb : s.block.length ≤ n) (ho : s.file.closed = false) :
    (s.flush size).2 = none ∧ (s.flush size).1.block.length ≤ s.block.length := by
  unfold FileWriter.flush
  split
  · obtain ⟨z, e, hz⟩ := hc s.block hb
    obtain ⟨f', e', -⟩ := outFile_write (size := size) (Spec.bpack z) ho
    simp only [e, pack_bin hz, e']
    exact ⟨trivial, Nat.zero_le _⟩
  · exact ⟨rfl, Nat.le_refl _⟩

theorem call_codec {size : Nat} {s : FileWriter} (c : FileWriter.Call) : (s.call size c).1.codec = s.codec := by
  have hfl : ∀ s : FileWriter, (s.flush size).1.codec = s.codec := by
    intro s
    unfold FileWriter.flush
    split
    · split
      · rfl
      · split
        · rfl
        · split <;> rfl
    · rfl
  cases c with
  | flush => exact hfl s
  | write a =>
    simp only [FileWriter.call, FileWriter.write]
    split
    · rfl
    · split
      · rfl
      · split
        · rw [hfl]
        · rfl
  | close =>
    have := hfl s
    simp only [FileWriter.call, FileWriter.close]
    cases hf : s.flush size with
    | mk s' r =>
      rw [hf] at this
      cases r <;> exact this

/-- on an open file with such a compression, what is handed over is what returns -/
theorem write_total {size n : Nat} {s : FileWriter} (a : DocArg) (hc : Spec.Total s.codec n)
    (hb : s.block.length + (Spec.blockData (Spec.handed [.write a])).length ≤ n) (ho : s.file.closed = false) :
    Spec.returnedDocs [(.write a, (s.write size a).2)] = Spec.handed [.write a] ∧
      (s.write size a).1.block.length ≤ s.block.length + (Spec.blockData (Spec.handed [.write a])).length := by
  simp only [Spec.handed, List.filterMap_cons, List.filterMap_nil, Spec.handedBy] at hb ⊢
  unfold FileWriter.write
  cases hd : a.data with
  | error e => exact ⟨rfl, Nat.le_add_right _ _⟩
  | ok d =>
    simp only [hd] at hb ⊢
    by_cases hl : d.length < 2 ^ 32
    · rw [if_pos hl] at hb ⊢
      rw [pack_bin hl]
      simp only [Spec.blockData, List.map_cons, List.map_nil, List.flatten_cons, List.flatten_nil, List.append_nil] at hb ⊢
      split
      · obtain ⟨h1, h2⟩ := flush_total (size := size) (s := { s with block := s.block ++ Spec.bpack d, count := s.count + 1 }) hc
          (by simp only [List.length_append]; exact hb) ho
        rw [h1]
        simp only [Spec.returnedDocs, hd]
        simp only [List.length_append] at h2
        exact ⟨trivial, h2⟩
      · simp only [Spec.returnedDocs, hd, List.length_append]
        exact ⟨trivial, Nat.le_refl _⟩
    · rw [if_neg hl]
      cases hb : pack (.bin d) with
      | error e => exact ⟨rfl, Nat.le_add_right _ _⟩
      | ok b => exact absurd (pack_bin_short hb) hl

theorem call_open {size : Nat} {s : FileWriter} (ho : s.file.closed = false) (c : FileWriter.Call) (hc : c ≠ .close) :
    (s.call size c).1.file.closed = false := by
  have hfl : ∀ {s : FileWriter}, s.file.closed = false → (s.flush size).1.file.closed = false := by
    intro s ho
    unfold FileWriter.flush
    split
    · split
      · exact ho
      · split
        · exact ho
        · rename_i b _
          obtain ⟨f', e, -, h, -⟩ := outFile_write (size := size) b ho
          simp only [e]; exact h
    · exact ho
  cases c with
  | flush => exact hfl ho
  | close => exact absurd rfl hc
  | write a =>
    simp only [FileWriter.call, FileWriter.write]
    split
    · exact ho
    · split
      · exact ho
      · split
        · exact hfl (s := { s with block := s.block ++ _, count := s.count + 1 }) ho
        · exact ho

theorem handed_cons (c : FileWriter.Call) (cs : List FileWriter.Call) : Spec.handed (c :: cs) = Spec.handed [c] ++ Spec.handed cs := by
  simp only [Spec.handed, List.filterMap_cons, List.filterMap_nil]
  split <;> simp

/-- without close() the file stays open and what is handed over is what returns -/
theorem open_total {size n : Nat} (cs : List FileWriter.Call) : ∀ {s : FileWriter}, Spec.Total s.codec n →
    s.block.length + (Spec.blockData (Spec.handed cs)).length ≤ n → s.file.closed = false → .close ∉ cs →
    Spec.returnedDocs (Spec.outcomes size s cs) = Spec.handed cs ∧ (s.run size cs).file.closed = false ∧ (s.run size cs).codec = s.codec ∧
      (s.run size cs).block.length ≤ n := by
  induction cs with
  | nil => intro s _ hb ho _; exact ⟨rfl, ho, rfl, by simp only [FileWriter.run, List.foldl_nil]; omega⟩
  | cons c cs ih =>
    intro s hc hb ho hn
    have hne : c ≠ .close := by intro e; exact hn (by rw [e]; exact List.mem_cons_self ..)
    have hk := call_codec (size := size) (s := s) c
    rw [handed_cons, blockData_append, List.length_append] at hb
    have hstep : Spec.returnedDocs [(c, (s.call size c).2)] = Spec.handed [c] ∧
        (s.call size c).1.block.length ≤ s.block.length + (Spec.blockData (Spec.handed [c])).length := by
      cases c with
      | write a => exact write_total a hc (by omega) ho
      | flush =>
        have := (flush_total (size := size) hc (by omega) ho).2
        exact ⟨rfl, Nat.le_trans this (Nat.le_add_right _ _)⟩
      | close => exact absurd rfl hne
    obtain ⟨h1, h2, h3, h4⟩ := ih (s := (s.call size c).1) (by rw [hk]; exact hc) (by omega) (call_open ho c hne)
      (fun h => hn (List.mem_cons_of_mem _ h))
    refine ⟨?_, h2, h3.trans hk, h4⟩
    have e1 : Spec.outcomes size s (c :: cs) = [(c, (s.call size c).2)] ++ Spec.outcomes size (s.call size c).1 cs := rfl
    rw [e1, handed_cons, returned_append, h1, hstep.1]

/-- and then close() succeeds -/
theorem close_total {size n : Nat} {s : FileWriter} (hc : Spec.Total s.codec n) (hb : s.block.length ≤ n) (ho : s.file.closed = false) :
    (s.close size).2 = none := by
  have := (flush_total (size := size) hc hb ho).1
  unfold FileWriter.close
  cases hf : s.flush size with
  | mk s' r =>
    rw [hf] at this
    simp only at this
    subst this
    rfl

theorem handed_append (a b : List FileWriter.Call) : Spec.handed (a ++ b) = Spec.handed a ++ Spec.handed b := by
  simp [Spec.handed]

theorem returned_no_write : ∀ (l : List (FileWriter.Call × Option PyErr)), (∀ a, ∀ x ∈ l, x.1 ≠ .write a) → Spec.returnedDocs l = [] := by
  intro l
  induction l with
  | nil => intro _; rfl
  | cons x l ih =>
    intro h
    obtain ⟨c, r⟩ := x
    have h' := ih (fun a y hy => h a y (List.mem_cons_of_mem _ hy))
    cases c with
    | write a => exact absurd rfl (h a _ (List.mem_cons_self ..))
    | flush => simpa only [Spec.returnedDocs] using h'
    | close => simpa only [Spec.returnedDocs] using h'

theorem noLate_append : ∀ (pre post : List FileWriter.Call), Spec.NoLate (pre ++ .close :: post) → ∀ a, .write a ∉ post := by
  intro pre
  induction pre with
  | nil => intro post h; exact h.1
  | cons c pre ih =>
    intro post h
    cases c with
    | write a => exact ih post h
    | flush => exact ih post h
    | close => exact ih post h.2

/-- the first close -/
theorem first_close : ∀ (cs : List FileWriter.Call), .close ∈ cs → ∃ pre post, cs = pre ++ .close :: post ∧ .close ∉ pre := by
  intro cs
  induction cs with
  | nil => intro h; cases h
  | cons c cs ih =>
    intro h
    by_cases e : c = .close
    · exact ⟨[], cs, by rw [e]; rfl, by simp⟩
    · have h' : .close ∈ cs := by
        rcases List.mem_cons.mp h with h | h
        · exact absurd h.symm e
        · exact h
      obtain ⟨pre, post, h1, h2⟩ := ih h'
      exact ⟨c :: pre, post, by rw [h1]; rfl, fun h3 => by
        rcases List.mem_cons.mp h3 with h3 | h3
        · exact e h3.symm
        · exact h2 h3⟩

/-- C106: `Spec.KeepsFile`, if the compression does not fail and nothing is written after a close(). -/
theorem C106_keeps_partial {size : Nat} {reg : Codecs} {c : CCodec} {fs fs1 : Disk} {path : Str} {mode : OpenMode} {num : Int} {s : FileWriter}
    {cs : List FileWriter.Call} (hreg : Spec.Lossless reg c) (htot : Spec.Compresses c cs) (hm : mode ≠ .a)
    (h0 : FileWriter.new size fs path mode num c = (fs1, .ok s)) (hreal : ∀ x ∈ cs, Spec.RealCall x) (hl : Spec.NoLate cs)
    (hc : (s.run size cs).file.closed = true) :
    Spec.Yields reg ((s.run size cs).onDisk fs1) path (Spec.returnedDocs (Spec.outcomes size s cs)) := by
  obtain ⟨w, hw, hs, -, -, -, hb0, -⟩ := new_sim h0
  have hcod : s.codec = c := by
    rw [hs.codec]
    obtain ⟨-, -, -, h, -⟩ := new_inv hw
    exact h
  unfold Spec.Compresses at htot
  rw [← hcod] at htot
  by_cases hmem : .close ∈ cs
  · obtain ⟨pre, post, rfl, hn⟩ := first_close cs hmem
    obtain ⟨h1, h2, h3, h4⟩ := open_total (size := size) pre htot
      (by rw [hb0, handed_append, blockData_append, List.length_append, List.length_nil]; omega) hs.isOpen hn
    have hcl := close_total (size := size) (s := s.run size pre) (by rw [h3]; exact htot) h4 h2
    have := (C106_closed (post := post) hreg hm h0 (fun x hx => hreal x (List.mem_append_left _ hx)) h2 hcl).1
    rw [outcomes_append, returned_append, h1]
    have hlate := noLate_append pre post hl
    rw [returned_no_write (Spec.outcomes size (s.run size pre) (.close :: post)), List.append_nil]
    · exact this
    · intro a x hx e
      have hx1 := (List.of_mem_zip (show (x.1, x.2) ∈ _ from hx)).1
      rw [e] at hx1
      rcases List.mem_cons.mp hx1 with h | h
      · cases h
      · exact hlate a h
  · have := (open_total (size := size) cs htot (by rw [hb0, List.length_nil]; omega) hs.isOpen hmem).2.1
    rw [this] at hc; cases hc

/-! ### the with statement -/

theorem made_run {size : Nat} : ∀ (l : List FileWriter.Step) (s : FileWriter),
    ∃ cs, Spec.made size s l = Spec.outcomes size s cs ∧ (s.body size l).1 = s.run size cs ∧
      (∀ c ∈ cs, ∃ b, .call c b ∈ l) ∧ (Spec.made size s l).map (·.1) = cs := by
  intro l
  induction l with
  | nil => intro s; exact ⟨[], rfl, rfl, nofun, rfl⟩
  | cons x l ih =>
    intro s
    cases x with
    | raise e => exact ⟨[], rfl, rfl, nofun, rfl⟩
    | call c caught =>
      obtain ⟨cs, h1, h2, h3, h4⟩ := ih (s.call size c).1
      cases hr : s.call size c with
      | mk s' r =>
        rw [hr] at h1 h2 h4
        have hcons : ∀ cs, Spec.outcomes size s (c :: cs) = (c, r) :: Spec.outcomes size s' cs := by
          intro cs
          have : Spec.outcomes size s (c :: cs) = (c, (s.call size c).2) :: Spec.outcomes size (s.call size c).1 cs := rfl
          rw [this, hr]
        have hrun : ∀ cs, s.run size (c :: cs) = s'.run size cs := by
          intro cs
          have : s.run size (c :: cs) = (s.call size c).1.run size cs := rfl
          rw [this, hr]
        have hmem : ∀ x ∈ c :: cs, ∃ b, FileWriter.Step.call x b ∈ FileWriter.Step.call c caught :: l := by
          intro x hx
          rcases List.mem_cons.mp hx with rfl | hx
          · exact ⟨caught, List.mem_cons_self ..⟩
          · obtain ⟨b, hb⟩ := h3 x hx
            exact ⟨b, List.mem_cons_of_mem _ hb⟩
        cases r with
        | none =>
          refine ⟨c :: cs, ?_, ?_, hmem, ?_⟩
          · simp only [Spec.made, hr, h1, hcons]
          · simp only [FileWriter.body, hr, h2, hrun]
          · simp only [Spec.made, hr, List.map_cons, h4]
        | some e =>
          cases caught with
          | true =>
            refine ⟨c :: cs, ?_, ?_, hmem, ?_⟩
            · simp only [Spec.made, hr, h1, hcons, if_true]
            · simp only [FileWriter.body, hr, h2, hrun, if_true]
            · simp only [Spec.made, hr, List.map_cons, h4, if_true]
          | false =>
            refine ⟨[c], ?_, ?_, ?_, ?_⟩
            · simp only [Spec.made, hr, hcons, Bool.false_eq_true, if_false]; rfl
            · simp only [FileWriter.body, hr, hrun, Bool.false_eq_true, if_false]; rfl
            · intro x hx
              rw [List.mem_singleton.mp hx]
              exact ⟨false, List.mem_cons_self ..⟩
            · simp [Spec.made, hr]

/-- C106, `with`: whatever the body does, calls that raise and are caught or not, an exception of its own: after the
statement the file is closed and holds exactly the documents whose write() returned, and the exception of the body goes
on to the caller. The body does not close the file, and the compression does not fail. -/
theorem C106_with_partial {size : Nat} {reg : Codecs} {c : CCodec} {fs fs1 : Disk} {path : Str} {mode : OpenMode} {num : Int} {s : FileWriter}
    {l : List FileWriter.Step} (hreg : Spec.Lossless reg c) (htot : Spec.Compresses c ((Spec.made size s l).map (·.1))) (hm : mode ≠ .a)
    (h0 : FileWriter.new size fs path mode num c = (fs1, .ok s)) (hreal : ∀ x b, .call x b ∈ l → Spec.RealCall x)
    (hnc : ∀ b, .call .close b ∉ l) :
    (s.withBlock size l).2 = (s.body size l).2 ∧ (s.withBlock size l).1.file.closed = true ∧
      Spec.Yields reg ((s.withBlock size l).1.onDisk fs1) path (Spec.returnedDocs (Spec.made size s l)) := by
  obtain ⟨cs, h1, h2, h3, h4⟩ := made_run (size := size) l s
  obtain ⟨w, hw, hs, -, -, -, hb0, -⟩ := new_sim h0
  have hcod : s.codec = c := by
    rw [hs.codec]
    obtain ⟨-, -, -, h, -⟩ := new_inv hw
    exact h
  unfold Spec.Compresses at htot
  rw [← hcod, h4] at htot
  have hn : FileWriter.Call.close ∉ cs := fun h => by obtain ⟨b, hb⟩ := h3 _ h; exact hnc b hb
  obtain ⟨g1, g2, g3, g4⟩ := open_total (size := size) cs htot (by rw [hb0, List.length_nil]; omega) hs.isOpen hn
  have hcl := close_total (size := size) (s := s.run size cs) (by rw [g3]; exact htot) g4 g2
  have hy := C106_closed (post := []) hreg hm h0 (fun x hx => by obtain ⟨b, hb⟩ := h3 x hx; exact hreal x b hb) g2 hcl
  have hrun : s.run size (cs ++ [.close]) = ((s.run size cs).close size).1 := by rw [fileRun_append]; rfl
  rw [hrun] at hy
  have hwb : s.withBlock size l = (((s.run size cs).close size).1, (s.body size l).2) := by
    unfold FileWriter.withBlock
    cases hb : s.body size l with
    | mk s' e =>
      rw [hb] at h2
      simp only at h2
      subst h2
      cases hx : (s.run size cs).close size with
      | mk s2 r =>
        rw [hx] at hcl
        simp only at hcl
        subst hcl
        simp only [hx]
  rw [hwb, h1, g1]
  exact ⟨rfl, hy.2, hy.1⟩

/-! ### after close() -/

/-- C106. After a successful close() nothing changes the file any more. -/
theorem C106_frozen {size : Nat} {s : FileWriter} {cs : List FileWriter.Call} (fs : Disk) (h : (s.close size).2 = none) :
    (((s.close size).1).run size cs).onDisk fs = ((s.close size).1).onDisk fs := by
  have : (s.close size).1.file.closed = true ∧ (s.close size).1.file.buf = [] := by
    unfold FileWriter.close at h ⊢
    cases hf : s.flush size with
    | mk s' r =>
      rw [hf] at h
      cases r with
      | some e => cases h
      | none => exact ⟨rfl, rfl⟩
  obtain ⟨h1, h2⟩ := run_closed (size := size) cs this.1 this.2
  simp only [FileWriter.onDisk, h1, h2]

/-- C106. Closing again does nothing, if nothing was written since. -/
theorem C106_close_twice {size : Nat} {s : FileWriter} (h : (s.close size).2 = none) :
    ((s.close size).1).close size = ((s.close size).1, none) := by
  unfold FileWriter.close at h ⊢
  cases hf : s.flush size with
  | mk s' r =>
    rw [hf] at h
    cases r with
    | some e => cases h
    | none =>
      simp only
      have hcnt : s'.count = 0 := by
        unfold FileWriter.flush at hf
        split at hf
        · split at hf
          · cases hf
          · split at hf
            · cases hf
            · split at hf
              · cases hf
              · cases hf; rfl
        · rename_i hn
          cases hf; omega
      have : FileWriter.flush size { s' with file := s'.file.close } = ({ s' with file := s'.file.close }, none) := by
        unfold FileWriter.flush
        rw [if_neg (by simp only; omega)]
      rw [this]
      simp only [OutFile.close, List.append_nil]

/-- C106: what becomes of a document written after close(). Unless it fills a block, write() returns as if nothing were
wrong; the document is not in the file and never gets there. -/
theorem C106_late_write {size : Nat} {s : FileWriter} {a : DocArg} {d : Bytes} (h : s.file.closed = true) (hb : s.file.buf = [])
    (hd : a.data = .ok d) (hl : d.length < 2 ^ 32) (hn : ((s.count + 1 : Nat) : Int) ≠ s.num) :
    (s.write size a).2 = none ∧ (∀ fs cs, ((s.write size a).1.run size cs).onDisk fs = s.onDisk fs) ∧
      ∀ cs : List FileWriter.Call, (∃ e, ((s.write size a).1.run size cs).close size = ((s.write size a).1.run size cs, some e)) ∧
        ∃ e, ((s.write size a).1.run size cs).flush size = ((s.write size a).1.run size cs, some e) := by
  have hw : s.write size a = ({ s with block := s.block ++ Spec.bpack d, count := s.count + 1 }, none) := by
    simp only [FileWriter.write, hd, pack_bin hl, if_neg hn]
  have hfail : ∀ s : FileWriter, s.file.closed = true → 0 < s.count → ∃ e, s.flush size = (s, some e) := by
    intro s h hc
    unfold FileWriter.flush
    rw [if_pos hc]
    split
    · exact ⟨_, rfl⟩
    · split
      · exact ⟨_, rfl⟩
      · have : ∀ b, s.file.write size b = .error .value := by intro b; unfold OutFile.write; rw [if_pos h]
        simp only [this]
        exact ⟨_, rfl⟩
  have hrun : ∀ (cs : List FileWriter.Call) (s : FileWriter), s.file.closed = true → s.file.buf = [] → 0 < s.count →
      0 < (s.run size cs).count := by
    intro cs
    induction cs with
    | nil => intro s _ _ h; exact h
    | cons c cs ih =>
      intro s h hb hc
      obtain ⟨h1, -⟩ := call_closed (size := size) h hb c
      refine ih (s.call size c).1 (by rw [h1]; exact h) (by rw [h1]; exact hb) ?_
      cases c with
      | flush =>
        obtain ⟨e, he⟩ := hfail s h hc
        simp only [FileWriter.call, he]; exact hc
      | close =>
        obtain ⟨e, he⟩ := hfail s h hc
        simp only [FileWriter.call, FileWriter.close, he]; exact hc
      | write a =>
        simp only [FileWriter.call, FileWriter.write]
        split
        · exact hc
        · split
          · exact hc
          · rename_i b _
            obtain ⟨e, he⟩ := hfail { s with block := s.block ++ b, count := s.count + 1 } h (Nat.succ_pos _)
            split
            · rw [he]; exact Nat.succ_pos _
            · exact Nat.succ_pos _
  rw [hw]
  refine ⟨rfl, fun fs cs => ?_, fun cs => ?_⟩
  · obtain ⟨h1, h2⟩ := run_closed (size := size) cs (s := { s with block := s.block ++ Spec.bpack d, count := s.count + 1 }) h hb
    simp only [FileWriter.onDisk, h1, h2]
  · have hc := hrun cs { s with block := s.block ++ Spec.bpack d, count := s.count + 1 } h hb (Nat.succ_pos _)
    obtain ⟨h1, -⟩ := run_closed (size := size) cs (s := { s with block := s.block ++ Spec.bpack d, count := s.count + 1 }) h hb
    obtain ⟨e, he⟩ := hfail _ (by rw [h1]; exact h) hc
    refine ⟨⟨e, ?_⟩, e, he⟩
    unfold FileWriter.close
    rw [he]

/-! ### before close() -/

/-- C106. Any time before close(), so also if the program stops there: if the whole header has reached the disk, the file
holds the first of the documents handed over; if not, it is refused. Nothing else is ever read. -/
theorem C106_crash {size : Nat} {reg : Codecs} {c : CCodec} {fs fs1 : Disk} {path : Str} {mode : OpenMode} {num : Int} {s : FileWriter}
    {cs : List FileWriter.Call} (hreg : Spec.Lossless reg c) (hm : mode ≠ .a)
    (h0 : FileWriter.new size fs path mode num c = (fs1, .ok s)) (hreal : ∀ x ∈ cs, Spec.RealCall x)
    (ho : (s.run size cs).file.closed = false) :
    (s.file.all.length ≤ (s.run size cs).file.disk.length →
      ∃ n, Spec.Yields reg ((s.run size cs).onDisk fs1) path ((Spec.handed cs).take n)) ∧
    ((s.run size cs).file.disk.length < s.file.all.length →
      ∃ raw, (s.run size cs).onDisk fs1 path = some raw ∧
        (DocReader.new reg raw = .error .io ∨ DocReader.new reg raw = .error .stopIteration)) := by
  obtain ⟨c', hc', hinv⟩ := hreg
  obtain ⟨w, hw, hs, hp, -, -⟩ := new_sim h0
  rw [kept_nil hm] at hs
  obtain ⟨g1, g2, -⟩ := run_sim cs hs ho
  obtain ⟨hd, ⟨hh⟩, hi, hcod, -⟩ := new_inv hw
  obtain ⟨blocks, cur, hi2, hfl, hcod2⟩ := run_inv (cs.map (·.plain)) hi
  simp only [List.flatten_nil, List.nil_append] at hfl
  rw [handed_accepted] at hfl
  have hall := g1.all
  rw [hi2.log, hcod2, hcod, List.nil_append] at hall
  have hhead : s.file.all = hd := by
    rw [hs.all, hi.log]; simp [Spec.blocksBytes]
  have hok : BF.Ok ⟨hd, compOf c, c'.decompress, blocks, []⟩ := by
    have hcomp := hi2.comp
    have hz := hi2.zfit
    rw [hcod2, hcod] at hcomp hz
    have hmem : ∀ ds ∈ blocks, ∀ d ∈ ds, d.take 4 = magic ∧ d.length < 2 ^ 32 := fun ds hds d hd =>
      accepted_magic (real_plain hreal) d (by
        rw [handed_accepted, ← hfl]
        exact List.mem_append_left _ (List.mem_flatten.mpr ⟨ds, hds, hd⟩))
    exact ⟨unpack_nil, hz, fun ds hds => hinv _ _ (hcomp ds hds), fun ds hds d hd => (hmem ds hds d hd).2,
      fun ds hds d hd => (hmem ds hds d hd).1⟩
  have hpre : (s.run size cs).file.disk = (hd ++ Spec.blocksBytes (compOf c) blocks).take (s.run size cs).file.disk.length := by
    rw [← hall, OutFile.all, List.take_left]
  have hle : (s.run size cs).file.disk.length ≤ (hd ++ Spec.blocksBytes (compOf c) blocks).length := by
    rw [← hall, OutFile.all, List.length_append]; omega
  have hat : (s.run size cs).onDisk fs1 path = some (s.run size cs).file.disk := by
    simp only [FileWriter.onDisk, g2, hp, upd_same]
  rw [hhead]
  constructor
  · intro hn
    obtain ⟨r, j, e, -, -, hr⟩ := prefix_reads hh hc' hok hn hle
    refine ⟨(blocks.take j).flatten.length, _, r, hat, by rw [hpre]; exact e, ?_⟩
    have : (Spec.handed cs).take (blocks.take j).flatten.length = (blocks.take j).flatten := by
      rw [← hfl]
      have : blocks.flatten = (blocks.take j).flatten ++ (blocks.drop j).flatten := by
        rw [← List.flatten_append, List.take_append_drop]
      rw [this, List.append_assoc, List.take_left]
    rw [this]
    exact hr
  · intro hn
    exact ⟨_, hat, by rw [hpre]; exact header_cut hh hc' hn⟩

/-- nothing is on the disk as long as everything fits into the buffer -/
def SmallFile (size : Nat) (f : OutFile) : Prop := f.closed = false → f.all.length < size → f.disk = []

theorem smallFile_write {size : Nat} {f f' : OutFile} {b : Bytes} (h : SmallFile size f) (hw : f.write size b = .ok f') : SmallFile size f' := by
  intro ho hl
  unfold OutFile.write at hw
  split at hw
  · cases hw
  · rename_i hc
    have hc' : f.closed = false := by simpa using hc
    split at hw
    · cases hw
      refine h hc' ?_
      simp only [OutFile.all, List.length_append] at hl ⊢
      omega
    · exfalso
      rename_i hx
      apply hx
      split at hw <;> cases hw <;> simp only [OutFile.all, List.length_append, List.length_nil] at hl <;> omega

theorem smallFile_flush {size : Nat} {s : FileWriter} (h : SmallFile size s.file) : SmallFile size (s.flush size).1.file := by
  unfold FileWriter.flush
  split
  · split
    · exact h
    · split
      · exact h
      · split
        · exact h
        · rename_i f e
          exact smallFile_write h e
  · exact h

theorem smallFile_run {size : Nat} (cs : List FileWriter.Call) : ∀ {s : FileWriter}, SmallFile size s.file → SmallFile size (s.run size cs).file := by
  induction cs with
  | nil => intro s h; exact h
  | cons c cs ih =>
    intro s h
    refine ih (s := (s.call size c).1) ?_
    cases c with
    | flush => exact smallFile_flush h
    | write a =>
      simp only [FileWriter.call, FileWriter.write]
      split
      · exact h
      · split
        · exact h
        · split
          · exact smallFile_flush (s := { s with block := s.block ++ _, count := s.count + 1 }) h
          · exact h
    | close =>
      have := smallFile_flush h
      simp only [FileWriter.call, FileWriter.close]
      cases hf : s.flush size with
      | mk s' r =>
        rw [hf] at this
        cases r with
        | none => intro ho; cases ho
        | some e => exact this

theorem smallFile_parts {size : Nat} : ∀ (ps : List (Except PyErr Bytes)) {f f' : OutFile}, SmallFile size f →
    FileWriter.writeParts size f ps = (f', none) → SmallFile size f' := by
  intro ps
  induction ps with
  | nil => intro f f' h e; cases e; exact h
  | cons p ps ih =>
    intro f f' h e
    cases p with
    | error x => cases e
    | ok b =>
      unfold FileWriter.writeParts at e
      split at e
      · cases e
      · rename_i f1 e1
        exact ih (smallFile_write h e1) e

theorem smallFile_new {size : Nat} {c : CCodec} {fs fs1 : Disk} {path : Str} {mode : OpenMode} {num : Int} {s : FileWriter}
    (hm : mode ≠ .a) (h0 : FileWriter.new size fs path mode num c = (fs1, .ok s)) : SmallFile size s.file := by
  unfold FileWriter.new at h0
  split at h0
  · cases h0
  · rename_i f ho
    have hf := openFile_ok ho
    rw [kept_nil hm] at hf
    split at h0
    · cases h0
    · rename_i f1 e1
      simp only [Prod.mk.injEq, Except.ok.injEq] at h0
      obtain ⟨-, rfl⟩ := h0
      exact smallFile_parts _ (fun _ _ => by rw [hf]) e1

/-- C106. flush() does not put the blocks on the disk, contrary to its documentation: as long as all that was written is
less than Python's buffer, the file is empty, whatever was flushed. -/
theorem C106_buffered {size : Nat} {c : CCodec} {fs fs1 : Disk} {path : Str} {mode : OpenMode} {num : Int} {s : FileWriter}
    {cs : List FileWriter.Call} (hm : mode ≠ .a) (h0 : FileWriter.new size fs path mode num c = (fs1, .ok s))
    (ho : (s.run size cs).file.closed = false) (hl : (s.run size cs).file.all.length < size) :
    (s.run size cs).onDisk fs1 path = some [] := by
  obtain ⟨w, hw, hs, hp, -, -⟩ := new_sim h0
  rw [kept_nil hm] at hs
  obtain ⟨g1, g2, -⟩ := run_sim cs hs ho
  have h := smallFile_run cs (smallFile_new hm h0) ho hl
  simp only [FileWriter.onDisk, g2, hp, upd_same, h]

theorem path_run {size : Nat} (cs : List FileWriter.Call) : ∀ (s : FileWriter), (s.run size cs).path = s.path := by
  have hpath : ∀ (s : FileWriter) (c : FileWriter.Call), (s.call size c).1.path = s.path := by
    have hfl : ∀ s : FileWriter, (s.flush size).1.path = s.path := by
      intro s
      unfold FileWriter.flush
      split
      · split
        · rfl
        · split
          · rfl
          · split <;> rfl
      · rfl
    intro s c
    cases c with
    | flush => exact hfl s
    | write a =>
      simp only [FileWriter.call, FileWriter.write]
      split
      · rfl
      · split
        · rfl
        · split
          · rw [hfl]
          · rfl
    | close =>
      have := hfl s
      simp only [FileWriter.call, FileWriter.close]
      cases hf : s.flush size with
      | mk s' r =>
        rw [hf] at this
        cases r <;> exact this
  induction cs with
  | nil => intro s; rfl
  | cons c cs ih => intro s; exact (ih (s.call size c).1).trans (hpath s c)

/-- C106. Never more than Python's buffer is missing on the disk. -/
theorem C106_missing {size : Nat} {c : CCodec} {fs fs1 : Disk} {path : Str} {mode : OpenMode} {num : Int} {s : FileWriter}
    (cs : List FileWriter.Call) (h0 : FileWriter.new size fs path mode num c = (fs1, .ok s)) :
    ∃ raw, (s.run size cs).onDisk fs1 path = some raw ∧ raw <+: (s.run size cs).file.all ∧
      (s.run size cs).file.all.length ≤ raw.length + size := by
  have hflush : ∀ {s : FileWriter}, s.file.buf.length ≤ size → (s.flush size).1.file.buf.length ≤ size := by
    intro s h
    unfold FileWriter.flush
    split
    · split
      · exact h
      · split
        · exact h
        · split
          · exact h
          · rename_i f e
            exact outFile_buf e
    · exact h
  have hrun : ∀ (cs : List FileWriter.Call) (s : FileWriter), s.file.buf.length ≤ size → (s.run size cs).file.buf.length ≤ size := by
    intro cs
    induction cs with
    | nil => intro s h; exact h
    | cons c cs ih =>
      intro s h
      refine ih (s.call size c).1 ?_
      cases c with
      | flush => exact hflush h
      | write a =>
        simp only [FileWriter.call, FileWriter.write]
        split
        · exact h
        · split
          · exact h
          · split
            · exact hflush (s := { s with block := s.block ++ _, count := s.count + 1 }) h
            · exact h
      | close =>
        have := hflush h
        simp only [FileWriter.call, FileWriter.close]
        cases hf : s.flush size with
        | mk s' r =>
          rw [hf] at this
          cases r with
          | none => exact Nat.zero_le _
          | some e => exact this
  have hparts : ∀ (ps : List (Except PyErr Bytes)) {f f' : OutFile}, f.buf.length ≤ size →
      FileWriter.writeParts size f ps = (f', none) → f'.buf.length ≤ size := by
    intro ps
    induction ps with
    | nil => intro f f' h e; cases e; exact h
    | cons p ps ih =>
      intro f f' h e
      cases p with
      | error x => cases e
      | ok b =>
        unfold FileWriter.writeParts at e
        split at e
        · cases e
        · rename_i f1 e1
          exact ih (outFile_buf e1) e
  have hpath := path_run (size := size) cs s
  have hnew : s.file.buf.length ≤ size := by
    unfold FileWriter.new at h0
    split at h0
    · cases h0
    · rename_i f ho
      have hf := openFile_ok ho
      split at h0
      · cases h0
      · rename_i f1 e1
        simp only [Prod.mk.injEq, Except.ok.injEq] at h0
        obtain ⟨-, rfl⟩ := h0
        exact hparts _ (by rw [hf]; exact Nat.zero_le _) e1
  obtain ⟨-, -, -, hp, -⟩ := new_sim h0
  refine ⟨(s.run size cs).file.disk, by simp only [FileWriter.onDisk, hpath, hp, upd_same], List.prefix_append _ _, ?_⟩
  have := hrun cs s hnew
  simp only [OutFile.all, List.length_append]
  omega

/-! ### existing files, and other files -/

/-- C106. By default (mode `xb`) a file that exists is refused and stays as it is. -/
theorem C106_exclusive {size : Nat} {fs : Disk} {path : Str} {num : Int} {c : CCodec} (h : (fs path).isSome) :
    FileWriter.new size fs path .x num c = (fs, .error .io) := by
  simp only [FileWriter.new, FileWriter.openFile, h, if_true]

/-- C106. Neither the constructor, in any mode and whether or not it raises, nor any call touches another file. -/
theorem C106_others {size : Nat} {fs : Disk} {path : Str} {mode : OpenMode} {num : Int} {c : CCodec} {other : Str} (h : other ≠ path) :
    (FileWriter.new size fs path mode num c).1 other = fs other ∧
      ∀ s, (FileWriter.new size fs path mode num c).2 = .ok s → ∀ cs fs', (s.run size cs).onDisk fs' other = fs' other := by
  refine ⟨?_, ?_⟩
  · unfold FileWriter.new
    split
    · rfl
    · split
      · exact upd_ne _ _ h
      · exact upd_ne _ _ h
  · intro s hs cs fs'
    have hp : s.path = path := by
      cases hn : FileWriter.new size fs path mode num c with
      | mk fs1 r =>
        rw [hn] at hs
        simp only at hs
        subst hs
        obtain ⟨-, -, -, hp, -⟩ := new_sim hn
        exact hp
    refine upd_ne _ _ ?_
    rw [path_run, hp]; exact h

/-- C106. Opening a file in mode `ab` does not continue a collection: if the file held `docs`, a reader yields these and
then TypeError, whatever the session appends. -/
theorem C106_append {size : Nat} {reg : Codecs} {c c2 : CCodec} {fs fs1 fs2 : Disk} {path : Str} {mode : OpenMode} {num num2 : Int}
    {s s2 : FileWriter} {pre cs : List FileWriter.Call} (hreg : Spec.Lossless reg c) (hm : mode ≠ .a)
    (h0 : FileWriter.new size fs path mode num c = (fs1, .ok s)) (hreal : ∀ x ∈ pre, Spec.RealCall x)
    (ho : (s.run size pre).file.closed = false) (hc : ((s.run size pre).close size).2 = none)
    (h2 : FileWriter.new size ((s.run size (pre ++ [.close])).onDisk fs1) path .a num2 c2 = (fs2, .ok s2))
    (ho2 : (s2.run size cs).file.closed = false) (hc2 : ((s2.run size cs).close size).2 = none) :
    ∃ raw r, (s2.run size (cs ++ [.close])).onDisk fs2 path = some raw ∧ DocReader.new reg raw = .ok r ∧
      (r.nexts ((Spec.handed pre).length + 1)).map (fun x => x.map MDoc.raw) = (Spec.handed pre).map .ok ++ [.error .type] := by
  obtain ⟨w, hw, hs, hp, -, -⟩ := new_sim h0
  rw [kept_nil hm] at hs
  obtain ⟨g1, g2, -⟩ := run_sim pre hs ho
  obtain ⟨w', e1, e2, e3, -⟩ := close_sim g1 hc
  have hrun : s.run size (pre ++ [.close]) = ((s.run size pre).close size).1 := by rw [fileRun_append]; rfl
  have hold : (s.run size (pre ++ [.close])).onDisk fs1 path = some (Spec.payload w'.log) := by
    rw [hrun]
    simp only [FileWriter.onDisk, e2, e3, g2, hp, upd_same, List.nil_append]
  obtain ⟨v, hv, hs2, hp2, -, -⟩ := new_sim h2
  simp only [FileWriter.kept, hold, Option.getD_some] at hs2
  obtain ⟨q1, q2, -⟩ := run_sim cs hs2 ho2
  obtain ⟨v', f1, f2, f3, -⟩ := close_sim q1 hc2
  have hrun2 : s2.run size (cs ++ [.close]) = ((s2.run size cs).close size).1 := by rw [fileRun_append]; rfl
  obtain ⟨hd, c', blocks, ⟨hh⟩, hc', hlog, hfl, -, hok, -⟩ := closed_file hreg hw e1 (real_plain hreal)
  rw [handed_accepted] at hfl
  have htail : ∃ rest, Spec.payload v'.log = 0x44 :: rest := by
    obtain ⟨hd2, ⟨⟨a, b, x, -, -, -, he⟩⟩, hi, hcod, -⟩ := new_inv hv
    obtain ⟨bs, cur, hi2, -, -⟩ := run_inv (cs.map (·.plain)) hi
    have : ∃ bs', Spec.payload v'.log = hd2 ++ bs' := by
      rcases flush_inv hi2 with ⟨e, -⟩ | ⟨e, he⟩ | ⟨-, -, h', -, -⟩
      · rw [f1] at e; cases e; exact ⟨_, hi2.log⟩
      · rw [f1] at he; cases he
      · rw [f1] at h'; exact ⟨_, h'.log⟩
    obtain ⟨bs', hb⟩ := this
    rw [hb, he]
    exact ⟨_, rfl⟩
  obtain ⟨rest, hrest⟩ := htail
  have hfine := (hok [] unpack_nil).fine
  have hf : BF.Fine ⟨hd, compOf c, c'.decompress, blocks, Spec.payload v'.log⟩ := ⟨hfine.zfit, hfine.dec, hfine.fit, hfine.magic⟩
  obtain ⟨r, e, hat, -⟩ := open_ok hh hc' ⟨hd, compOf c, c'.decompress, blocks, Spec.payload v'.log⟩ rfl rfl
  have hun : unpack (Spec.payload v'.log) = .ok (.int 68, rest) := by
    rw [hrest]
    exact C30_unpack_pack (o := .int 68) (bs := [0x44]) (by decide) (by trivial) rest
  have hn := nexts_tail hf hun ⟨by exact nofun, by exact nofun⟩ _ hat
  refine ⟨Spec.payload w'.log ++ Spec.payload v'.log, r, ?_, ?_, ?_⟩
  · rw [hrun2]
    simp only [FileWriter.onDisk, f2, f3, q2, hp2, upd_same]
  · rw [← e, hlog]; rfl
  · have hsnd := refs_snd (compOf c) blocks hd.length
    have hl : (BF.refs ⟨hd, compOf c, c'.decompress, blocks, Spec.payload v'.log⟩).length = (Spec.handed pre).length := by
      rw [← hfl, ← hsnd, List.length_map]; rfl
    rw [← hl, hn, List.map_append, List.map_map, ← hfl, ← hsnd, List.map_map]
    rfl

/-! ### what does not hold -/

namespace Ex

/-- the codec `none` -/
def plainCodec : CCodec := ⟨"none".toList, .ok, .ok⟩

/-- a file name -/
def somePath : Str := "a.docria".toList

/-- an empty disk -/
def noFiles : Disk := fun _ => none

/-- a call that writes a document -/
def putTiny (b : UInt8) : FileWriter.Call := .write (.packed { raw := tiny b, ref := none })

/-- what `n` calls of next() on a reader of the file yield, `none` for an exception; `none` if it cannot be opened -/
def readAll (reg : Codecs) (fs : Disk) (path : Str) (n : Nat) : Option (List (Option Bytes)) :=
  match fs path with
  | none => none
  | some raw =>
    match DocReader.new reg raw with
    | .error _ => none
    | .ok r => some ((r.nexts n).map (fun x =>
        match x with
        | .ok d => some d.raw
        | .error _ => none))

/-- the disk after a session on an empty disk, and what the calls raised -/
def session (size : Nat) (num : Int) (c : CCodec) (cs : List FileWriter.Call) : Option (Disk × List (Option PyErr)) :=
  match FileWriter.new size noFiles somePath .x num c with
  | (fs, .ok s) => some ((s.run size cs).onDisk fs, s.results size cs)
  | (_, .error _) => none

end Ex

/-- C106 fails for a document written after close(), with any lossless codec: write() returns, and the document is not in
the file. Here `B` after the close(), on a file of blocks of 128 documents. -/
theorem C106_late_write_false {size : Nat} {reg : Codecs} {c : CCodec} {b z : Bytes} (hreg : Spec.Lossless reg c)
    (hname : pack (.str c.name) = .ok b) (hz : c.compress (Spec.bpack (Ex.tiny 65)) = .ok z) (hl : z.length < 2 ^ 32) :
    ¬ Spec.KeepsFile size reg c := by
  intro hk
  have hnum : pack (.int 128) = .ok [0xcc, 128] := by decide
  have hbool : pack (.bool false) = .ok [0xc2] := by decide
  obtain ⟨f, e, -, ho, -⟩ := writeParts_ok (size := size) [fileMagic, b, [0xcc, 128], [0xc2]] (f := ⟨[], [], false⟩) rfl
  simp only [List.map_cons, List.map_nil] at e
  have hnew : FileWriter.new size Ex.noFiles Ex.somePath .x 128 c =
      (FileWriter.onDisk ⟨Ex.somePath, f, [], 0, c, 128⟩ Ex.noFiles, .ok ⟨Ex.somePath, f, [], 0, c, 128⟩) := by
    have hopen : FileWriter.openFile Ex.noFiles Ex.somePath .x = .ok ⟨[], [], false⟩ := rfl
    simp only [FileWriter.new, hopen, FileWriter.headerParts, hname, hnum, hbool, e]
  have ht : ∀ b, pack (.bin (Ex.tiny b)) = .ok (Spec.bpack (Ex.tiny b)) := fun b => pack_bin (by rw [show (Ex.tiny b).length = 5 from rfl]; omega)
  have hput : ∀ (s : FileWriter) b, ((s.count + 1 : Nat) : Int) ≠ s.num → s.call size (Ex.putTiny b) =
      ({ s with block := s.block ++ Spec.bpack (Ex.tiny b), count := s.count + 1 }, none) := by
    intro s b hn
    simp only [FileWriter.call, Ex.putTiny, FileWriter.write, DocArg.data, ht, if_neg hn]
  obtain ⟨f', e', -, -⟩ := outFile_write (size := size) (Spec.bpack z) ho
  have hclose : (FileWriter.mk Ex.somePath f (Spec.bpack (Ex.tiny 65)) 1 c 128).close size =
      (⟨Ex.somePath, f'.close, [], 0, c, 128⟩, none) := by
    simp only [FileWriter.close, FileWriter.flush, hz, pack_bin hl, e']
    rfl
  have h1 := hput ⟨Ex.somePath, f, [], 0, c, 128⟩ 65 (by simp)
  have h2 := hput ⟨Ex.somePath, f'.close, [], 0, c, 128⟩ 66 (by simp)
  simp only [List.nil_append] at h1 h2
  have hreal : ∀ b, Spec.RealCall (Ex.putTiny b) := fun b => ⟨_, rfl⟩
  have hrun : (FileWriter.mk Ex.somePath f [] 0 c 128).run size [Ex.putTiny 65] = ⟨Ex.somePath, f, Spec.bpack (Ex.tiny 65), 1, c, 128⟩ := by
    simp only [FileWriter.run, List.foldl_cons, List.foldl_nil, h1]
  have hcl := C106_closed (post := [Ex.putTiny 66]) (pre := [Ex.putTiny 65]) hreg (by exact nofun) hnew
    (by intro x hx; rw [List.mem_singleton.mp hx]; exact hreal 65) (by rw [hrun]; exact ho) (by rw [hrun, hclose])
  have hke := hk Ex.noFiles _ Ex.somePath .x 128 _ ([Ex.putTiny 65] ++ .close :: [Ex.putTiny 66]) (by exact nofun) hnew
    (by
      intro x hx
      simp only [List.singleton_append, List.mem_cons, List.not_mem_nil, or_false] at hx
      rcases hx with rfl | rfl | rfl
      · exact hreal 65
      · trivial
      · exact hreal 66) hcl.2
  have := yields_unique hcl.1 hke
  have hres : FileWriter.results size ⟨Ex.somePath, f, [], 0, c, 128⟩ [Ex.putTiny 65, .close, Ex.putTiny 66] = [none, none, none] := by
    have hc' : ∀ s : FileWriter, s.call size .close = s.close size := fun _ => rfl
    simp only [FileWriter.results, h1, hc', Nat.zero_add, hclose, h2]
  simp only [List.singleton_append, Spec.outcomes, hres] at this
  revert this
  simp only [List.zip_cons_cons, List.zip_nil_right]
  decide

/-- C106 fails for a compression that fails: write() raised, and the document is in the file nevertheless; the caller who
tries again writes it twice. Here the compression fails for blocks that end in 66. -/
theorem C106_failed_write_false : ∃ (reg : Codecs) (c : CCodec), Spec.Lossless reg c ∧
    (Ex.session 8192 2 c [Ex.putTiny 65, Ex.putTiny 66, Ex.putTiny 67, .close]).map (·.2) = some [none, some .value, none, none] ∧
    (Ex.session 8192 2 c [Ex.putTiny 65, Ex.putTiny 66, Ex.putTiny 67, .close]).bind (fun x => Ex.readAll reg x.1 Ex.somePath 4) =
      some [some (Ex.tiny 65), some (Ex.tiny 66), some (Ex.tiny 67), none] := by
  refine ⟨Ex.reg, ⟨"none".toList, fun x => if x.getLast? = some 66 then .error .value else .ok x, .ok⟩, ⟨_, rfl, fun x z h => ?_⟩,
    by decide +kernel, by decide +kernel⟩
  simp only at h
  split at h
  · cases h
  · cases h; rfl

/-- C106: flush() returned, and the file is empty: a reader of it raises. -/
theorem C106_flush_false :
    (Ex.session 8192 2 Ex.plainCodec [Ex.putTiny 65, .flush]).map (·.2) = some [none, none] ∧
    (Ex.session 8192 2 Ex.plainCodec [Ex.putTiny 65, .flush]).bind (fun x => x.1 Ex.somePath) = some [] ∧
    (∀ reg, DocReader.new reg [] = .error .io) := by
  exact ⟨by decide +kernel, by decide +kernel, fun reg => rfl⟩

/-- C106: a constructor that raises leaves a file. `num_docs_per_block` is an integer that MessagePack cannot hold: the file
now exists, so that the next attempt fails in mode `xb`, and a collection that was there is lost in mode `wb`. -/
theorem C106_failed_open {size : Nat} {fs : Disk} {path : Str} {mode : OpenMode} {num : Int} {c : CCodec} {b : Bytes}
    (hname : pack (.str c.name) = .ok b) (hnum : 2 ^ 64 ≤ num) (hm : mode = .w ∨ mode = .x ∧ fs path = none) :
    (FileWriter.new size fs path mode num c).2 = .error .overflow ∧
      (FileWriter.new size fs path mode num c).1 path = some (fileMagic ++ b) ∧
      ∀ num' c', (FileWriter.new size (FileWriter.new size fs path mode num c).1 path .x num' c').2 = .error .io := by
  have hopen : FileWriter.openFile fs path mode = .ok ⟨[], [], false⟩ := by
    rcases hm with rfl | ⟨rfl, h⟩
    · rfl
    · simp only [FileWriter.openFile, h]; rfl
  have hov : pack (.int num) = .error .overflow := by
    have h64 : (2 : Int) ^ 64 = 18446744073709551616 := by decide
    have hge : 0 ≤ num := by omega
    simp only [pack, packAt, packInt, if_pos hge]
    rw [if_neg (by omega), if_neg (by omega), if_neg (by omega), if_neg (by omega), if_neg (by omega)]
  obtain ⟨f1, e1, a1, c1, -⟩ := outFile_write (size := size) (f := ⟨[], [], false⟩) fileMagic rfl
  obtain ⟨f2, e2, a2, -, -⟩ := outFile_write (size := size) (f := f1) b c1
  have hnew : FileWriter.new size fs path mode num c = (upd fs path (some f2.close.disk), .error .overflow) := by
    simp only [FileWriter.new, hopen, FileWriter.headerParts, hname, hov, FileWriter.writeParts, e1, e2]
  rw [hnew]
  refine ⟨rfl, ?_, fun num' c' => ?_⟩
  · simp only [upd_same]
    have : f2.close.disk = f2.all := rfl
    rw [this, a2, a1]
    simp [OutFile.all]
  · rw [C106_exclusive (by simp only [upd_same]; rfl)]

namespace Ex

/-- something that is no document -/
def putOther : FileWriter.Call := .write .other

/-- a `with` statement on an empty disk: the file, and what is raised -/
def withSession (size : Nat) (num : Int) (c : CCodec) (l : List FileWriter.Step) : Option (Disk × Option PyErr) :=
  match FileWriter.new size noFiles somePath .x num c with
  | (fs, .ok s) => some ((s.withBlock size l).1.onDisk fs, (s.withBlock size l).2)
  | (_, .error _) => none

end Ex

/-- the codec `none` compresses all these -/
example : Spec.Compresses Ex.plainCodec [Ex.putTiny 65, Ex.putTiny 66, Ex.putOther, Ex.putTiny 67, .close] := by
  intro x hx
  refine ⟨x, rfl, ?_⟩
  have : (Spec.blockData (Spec.handed [Ex.putTiny 65, Ex.putTiny 66, Ex.putOther, Ex.putTiny 67, .close])).length = 21 := by decide
  rw [this] at hx
  omega

example : Spec.NoLate [Ex.putTiny 65, Ex.putOther, .close, .flush, .close] := by
  simp [Spec.NoLate, Ex.putTiny, Ex.putOther]

/-- blocks of two documents and a call that raises; the file is closed twice -/
example : (Ex.session 8192 2 Ex.plainCodec [Ex.putTiny 65, Ex.putOther, Ex.putTiny 66, Ex.putTiny 67, .close, .close]).map (·.2) =
      some [none, some .value, none, none, none, none] ∧
    (Ex.session 8192 2 Ex.plainCodec [Ex.putTiny 65, Ex.putOther, Ex.putTiny 66, Ex.putTiny 67, .close, .close]).bind
      (fun x => Ex.readAll Ex.reg x.1 Ex.somePath 4) = some [some (Ex.tiny 65), some (Ex.tiny 66), some (Ex.tiny 67), none] := by
  exact ⟨by decide +kernel, by decide +kernel⟩

/-- `with`: an exception that is caught, and one of the body itself -/
example : (Ex.withSession 8192 2 Ex.plainCodec [.call (Ex.putTiny 65) false, .call Ex.putOther true, .call (Ex.putTiny 66) false,
      .raise .key, .call (Ex.putTiny 67) false]).map (·.2) = some (some .key) ∧
    (Ex.withSession 8192 2 Ex.plainCodec [.call (Ex.putTiny 65) false, .call Ex.putOther true, .call (Ex.putTiny 66) false,
      .raise .key, .call (Ex.putTiny 67) false]).bind (fun x => Ex.readAll Ex.reg x.1 Ex.somePath 3) =
        some [some (Ex.tiny 65), some (Ex.tiny 66), none] := by
  exact ⟨by decide +kernel, by decide +kernel⟩

/-- a buffer of 16 bytes, blocks of one document, not closed: two of the three documents are on the disk -/
example : (Ex.session 16 1 Ex.plainCodec [Ex.putTiny 65, Ex.putTiny 66, Ex.putTiny 67]).bind
      (fun x => Ex.readAll Ex.reg x.1 Ex.somePath 3) = some [some (Ex.tiny 65), some (Ex.tiny 66), none] ∧
    (Ex.session 16 1 Ex.plainCodec [Ex.putTiny 65, Ex.putTiny 66, Ex.putTiny 67, .close]).bind
      (fun x => Ex.readAll Ex.reg x.1 Ex.somePath 4) = some [some (Ex.tiny 65), some (Ex.tiny 66), some (Ex.tiny 67), none] := by
  exact ⟨by decide +kernel, by decide +kernel⟩

end Verif
