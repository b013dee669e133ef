import Verif.Props.Printout
set_option linter.unusedSimpArgs false
/-
C60: wrapped tables.
-/
namespace Verif
open Printout

namespace Spec
namespace Print

/-- consecutive nonempty blocks of columns covering `[a, n)` -/
inductive Consecutive (n : Nat) : Nat → List (Nat × Nat) → Prop
  | nil : Consecutive n n []
  | cons {a b bs} : a < b → b ≤ n → Consecutive n b bs → Consecutive n a ((a, b) :: bs)

/-- a cell in a column of width `w`: blanks on both sides, then up to the width -/
def col (pad w : Nat) (s : Str) : Str :=
  List.replicate pad ' ' ++ s ++ List.replicate (w - s.length) ' ' ++ List.replicate pad ' '

/-- a line: the index column unless hidden, then columns `a`, ..., `b - 1` -/
def line (t : Table) (ws : List Nat) (cells : List Str) (a b : Nat) : Str :=
  (if t.hideIndex then [] else col t.padding (ws.getD 0 0) (cells.getD 0 [])) ++
    (List.range' a (b - a)).flatMap (fun k => col t.padding (ws.getD k 0) (cells.getD k []))

/-- the width of columns `a`, ..., `b - 1` -/
def colsWidth (t : Table) (ws : List Nat) (a b : Nat) : Nat :=
  ((List.range' a (b - a)).map (fun k => ws.getD k 0 + t.padding * 2)).sum

/-- the width of a block -/
def blockWidth (t : Table) (ws : List Nat) (a b : Nat) : Nat :=
  (if t.hideIndex then 0 else ws.getD 0 0 + t.padding * 2) + colsWidth t ws a b

/-- the lines of a block: the caption or two empty lines, the header with a mark if more blocks follow, the rows -/
def blockText (t : Table) (cap : Option Str) (hs : List Str) (rows : List (Option (List Str))) (ws : List Nat)
    (a b : Nat) : List Str :=
  (if a = 1 then (match cap with | none => [] | some c => [center (blockWidth t ws a b) c, []]) else [[], []]) ++
  (if t.hideHeader then [] else [line t ws hs a b ++ (if b = hs.length then [] else " \\".toList), []]) ++
  rows.flatMap (fun r => match r with
    | none => [[], center (blockWidth t ws a b) "...".toList, []]
    | some cells => [line t ws cells a b])

/-- `ws` are the column widths: each the largest length of what the column shows -/
def AreWidths (t : Table) (hs : List Str) (rows : List (Option (List Str))) (ws : List Nat) : Prop :=
  ws.length = hs.length ∧ ∀ k, k < hs.length →
    (∀ cells, some cells ∈ rows → (cells.getD k []).length ≤ ws.getD k 0) ∧
    (t.hideHeader = false → (hs.getD k []).length ≤ ws.getD k 0) ∧
    (ws.getD k 0 = 0 ∨ (∃ cells, some cells ∈ rows ∧ (cells.getD k []).length = ws.getD k 0) ∨
      (t.hideHeader = false ∧ (hs.getD k []).length = ws.getD k 0))

/-- the table has a value for every column in every row -/
def Full (t : Table) : Prop :=
  ∃ h, t.header = some h ∧ ∀ r ∈ t.body, h.elems.length ≤ r.elems.length

/-- the table has a value for every column in every row that is shown -/
def FullShown (o : Options) (t : Table) : Prop :=
  ∃ h, t.header = some h ∧ ∀ i r, some i ∈ shown o.maxRows t.body.length → t.body[i]? = some r → h.elems.length ≤ r.elems.length

theorem Full.shown {t : Table} (h : Full t) (o : Options) : FullShown o t := by
  obtain ⟨hd, h1, h2⟩ := h
  exact ⟨hd, h1, fun i r _ hr => h2 r (List.mem_of_getElem? hr)⟩

end Print
end Spec

open Spec.Print

/-! ### blocks -/

theorem colsWidth_self (t : Table) (ws : List Nat) (a : Nat) : colsWidth t ws a a = 0 := by simp [colsWidth]

theorem colsWidth_cons (t : Table) (ws : List Nat) {a b : Nat} (h : a < b) :
    colsWidth t ws a b = ws.getD a 0 + t.padding * 2 + colsWidth t ws (a + 1) b := by
  unfold colsWidth
  obtain ⟨n, hn⟩ : ∃ n, b - a = n + 1 := ⟨b - a - 1, by omega⟩
  rw [hn, List.range'_succ, show b - (a + 1) = n by omega]
  simp

theorem blockLoop_spec (o : Options) (t : Table) (ws : List Nat) (n i width : Nat) :
    let we := blockLoop o t.padding ws i (n + 1) width
    i < we.2 ∧ we.2 ≤ i + n + 1 ∧ we.1 = width + colsWidth t ws i we.2 ∧
    (we.2 = i + n + 1 ∨ ∃ d, o.maxDisplayWidth = some d ∧ (we.1 : Int) > d) ∧
    (∀ d, o.maxDisplayWidth = some d → we.2 = i + 1 ∨ ((width + colsWidth t ws i (we.2 - 1) : Nat) : Int) ≤ d) := by
  induction n generalizing i width with
  | zero =>
    have hw := colsWidth_cons t ws (show i < i + 1 by omega)
    rw [colsWidth_self] at hw
    simp only [blockLoop]
    cases hd : o.maxDisplayWidth with
    | none =>
      simp only [hw]
      exact ⟨by omega, by omega, by omega, .inl (by first | trivial | omega), fun d h => by cases h⟩
    | some d =>
      simp only
      split
      · simp only [hw]
        exact ⟨by omega, by omega, by omega, .inl (by first | trivial | omega), fun d h => .inl trivial⟩
      · simp only [hw]
        exact ⟨by omega, by omega, by omega, .inl (by first | trivial | omega), fun d h => .inl trivial⟩
  | succ n ih =>
    simp only
    have key : (∀ d, o.maxDisplayWidth = some d → ((width + (ws.getD i 0 + t.padding * 2) : Nat) : Int) ≤ d) →
        blockLoop o t.padding ws i (n + 1 + 1) width =
          blockLoop o t.padding ws (i + 1) (n + 1) (width + (ws.getD i 0 + t.padding * 2)) →
        (let we := blockLoop o t.padding ws i (n + 1 + 1) width
         i < we.2 ∧ we.2 ≤ i + (n + 1) + 1 ∧ we.1 = width + colsWidth t ws i we.2 ∧
          (we.2 = i + (n + 1) + 1 ∨ ∃ d, o.maxDisplayWidth = some d ∧ (we.1 : Int) > d) ∧
          (∀ d, o.maxDisplayWidth = some d →
            we.2 = i + 1 ∨ ((width + colsWidth t ws i (we.2 - 1) : Nat) : Int) ≤ d)) := by
      intro hle he
      rw [he]
      obtain ⟨h1, h2, h3, h4, h5⟩ := ih (i + 1) (width + (ws.getD i 0 + t.padding * 2))
      generalize blockLoop o t.padding ws (i + 1) (n + 1) (width + (ws.getD i 0 + t.padding * 2)) = we at *
      simp only
      refine ⟨by omega, by omega, ?_, ?_, ?_⟩
      · rw [h3, colsWidth_cons t ws (show i < we.2 by omega)]; omega
      · rcases h4 with h4 | h4
        · exact .inl (by omega)
        · exact .inr h4
      · intro d hd
        right
        rw [colsWidth_cons t ws (show i < we.2 - 1 by omega)]
        rcases h5 d hd with h | h
        · rw [show we.2 - 1 = i + 1 by omega, colsWidth_self]
          have := hle d hd
          omega
        · omega
    cases hd : o.maxDisplayWidth with
    | none =>
      rw [← hd]
      apply key
      · intro d h; rw [hd] at h; cases h
      · simp only [blockLoop, hd]
    | some d =>
      by_cases hgt : ((width + (ws.getD i 0 + t.padding * 2) : Nat) : Int) > d
      · have hw := colsWidth_cons t ws (show i < i + 1 by omega)
        rw [colsWidth_self] at hw
        have he : blockLoop o t.padding ws i (n + 1 + 1) width = (width + (ws.getD i 0 + t.padding * 2), i + 1) := by
          simp only [blockLoop, hd]
          rw [if_pos hgt]
        rw [he]
        simp only [hw]
        exact ⟨by omega, by omega, by omega, .inr ⟨d, rfl, hgt⟩, fun d h => .inl trivial⟩
      · rw [← hd]
        apply key
        · intro d' h; rw [hd] at h; cases h; omega
        · conv => lhs; unfold blockLoop
          simp only [hd]
          rw [if_neg hgt]

theorem cut_eq {α : Type} (xs : List α) (z : α) (a b : Nat) (hb : b ≤ xs.length) :
    cut xs a b = (List.range' a (b - a)).map (fun k => xs.getD k z) := by
  apply List.ext_getElem?
  intro i
  simp only [cut, List.getElem?_take, List.getElem?_drop, List.getElem?_map]
  by_cases hi : i < b - a
  · rw [if_pos hi, List.getElem?_range' hi]
    have : a + i < xs.length := by omega
    simp [List.getD, this]
  · rw [if_neg hi, List.getElem?_eq_none (by simp; omega)]
    rfl

theorem headD_getD {α : Type} (xs : List α) (z : α) : xs.headD z = xs.getD 0 z := by cases xs <;> rfl

theorem column_eq (t : Table) (w : Nat) (s : Str) : column t w s = col t.padding w s := by
  simp [column, col, ljust]

theorem fmtLine_eq (t : Table) (ws : List Nat) (cells : List Str) (a b : Nat) (h1 : b ≤ ws.length)
    (h2 : b ≤ cells.length) : fmtLine t (lineCells t ws cells a b) = line t ws cells a b := by
  have hz : (cut ws a b).zip (cut cells a b) =
      (List.range' a (b - a)).map (fun k => (ws.getD k 0, cells.getD k [])) := by
    rw [cut_eq ws 0 a b h1, cut_eq cells [] a b h2, List.zip_map']
  unfold fmtLine lineCells line
  split
  · rw [hz, List.flatMap_map]
    simp [column_eq]
  · rw [List.zip_cons_cons, hz, List.flatMap_cons, List.flatMap_map, headD_getD, headD_getD]
    simp [column_eq]

/-- every row has a cell for every column -/
def RowsFull (n : Nat) (rows : List (Option (List Str))) : Prop := ∀ cells, some cells ∈ rows → n ≤ cells.length

theorem blockLines_eq {o : Options} {t : Table} {hs : List Str} {rows : List (Option (List Str))} {ws : List Nat}
    {a b : Nat} {cap : Option Str} (hcap : ∀ c, t.caption = some c → ∃ s, truncate o c = .ok s ∧ cap = some s)
    (hcap0 : t.caption = none → cap = none) (hw : ws.length = hs.length) (hb : b ≤ hs.length)
    (hr : RowsFull hs.length rows) :
    blockLines o t hs rows ws a b (blockWidth t ws a b) = .ok (blockText t cap hs rows ws a b) := by
  have h1 : rows.flatMap (rowLines t ws a b (blockWidth t ws a b)) = rows.flatMap (fun r => match r with
      | none => [[], center (blockWidth t ws a b) "...".toList, []]
      | some cells => [line t ws cells a b]) := by
    have hg : ∀ l : List (Option (List Str)), (∀ x ∈ l, x ∈ rows) →
        l.flatMap (rowLines t ws a b (blockWidth t ws a b)) = l.flatMap (fun r => match r with
          | none => [[], center (blockWidth t ws a b) "...".toList, []]
          | some cells => [line t ws cells a b]) := by
      intro l
      induction l with
      | nil => intro _; rfl
      | cons x l ih =>
        intro hx
        rw [List.flatMap_cons, List.flatMap_cons, ih (fun y hy => hx y (List.mem_cons_of_mem _ hy))]
        cases x with
        | none => rfl
        | some cells =>
          simp only [rowLines]
          rw [fmtLine_eq t ws cells a b (by omega) (by have := hr cells (hx _ (by simp)); omega)]
    exact hg rows (fun x hx => hx)
  have h2 : fmtLine t (lineCells t ws hs a b) = line t ws hs a b := fmtLine_eq t ws hs a b (by omega) hb
  unfold blockLines blockText
  simp only [h1, h2]
  by_cases ha : a = 1
  · simp only [ha, if_true]
    cases hc : t.caption with
    | none =>
      rw [hcap0 hc]
      by_cases hb' : b = hs.length <;> simp [hb']
    | some c =>
      obtain ⟨s, hs1, hs2⟩ := hcap c hc
      rw [hs2]
      by_cases hb' : b = hs.length <;> simp [hb', hs1]
  · simp only [ha, if_false]
    by_cases hb' : b = hs.length <;> simp [hb']

/-- what the code guarantees about the width of a block -/
def BlockOk (o : Options) (t : Table) (ws : List Nat) (n : Nat) (ab : Nat × Nat) : Prop :=
  (ab.2 = n ∨ ∃ d, o.maxDisplayWidth = some d ∧ (blockWidth t ws ab.1 ab.2 : Int) > d) ∧
  (∀ d, o.maxDisplayWidth = some d → ab.2 = ab.1 + 1 ∨ (blockWidth t ws ab.1 (ab.2 - 1) : Int) ≤ d)

theorem startWidth_eq (t : Table) (ws : List Nat) :
    startWidth t ws = if t.hideIndex then 0 else ws.getD 0 0 + t.padding * 2 := by
  unfold startWidth
  rw [headD_getD]

theorem blocks_spec {o : Options} {t : Table} {hs : List Str} {rows : List (Option (List Str))} {ws : List Nat}
    {cap : Option Str} (hcap : ∀ c, t.caption = some c → ∃ s, truncate o c = .ok s ∧ cap = some s)
    (hcap0 : t.caption = none → cap = none) (hw : ws.length = hs.length) (hr : RowsFull hs.length rows)
    (fuel pos : Nat) (hf : hs.length ≤ pos + fuel) (hp : pos ≤ hs.length) :
    ∃ bl, Consecutive hs.length pos bl ∧ (∀ ab ∈ bl, BlockOk o t ws hs.length ab) ∧
      blocks o t hs rows ws fuel pos = .ok (bl.flatMap (fun ab => blockText t cap hs rows ws ab.1 ab.2)) := by
  induction fuel generalizing pos with
  | zero =>
    have : pos = hs.length := by omega
    subst this
    exact ⟨[], .nil, by simp, by simp [blocks]⟩
  | succ fuel ih =>
    by_cases hlt : pos < hs.length
    · obtain ⟨n, hn⟩ : ∃ n, hs.length - pos = n + 1 := ⟨hs.length - pos - 1, by omega⟩
      have hsp := blockLoop_spec o t ws n pos (startWidth t ws)
      simp only [blocks, hlt, if_true, hn]
      generalize blockLoop o t.padding ws pos (n + 1) (startWidth t ws) = we at *
      obtain ⟨h1, h2, h3, h4, h5⟩ := hsp
      have hbw : we.1 = blockWidth t ws pos we.2 := by rw [h3, startWidth_eq]; rfl
      obtain ⟨bl, hc, hok, heq⟩ := ih we.2 (by omega) (by omega)
      refine ⟨(pos, we.2) :: bl, .cons h1 (by omega) hc, ?_, ?_⟩
      · intro ab hab
        rcases List.mem_cons.1 hab with rfl | hab
        · refine ⟨?_, ?_⟩
          · rcases h4 with h4 | h4
            · exact .inl (by simp only; omega)
            · exact .inr (by rw [hbw] at h4; exact h4)
          · intro d hd
            have := h5 d hd
            rw [startWidth_eq] at this
            exact this
        · exact hok ab hab
      · rw [hbw, blockLines_eq hcap hcap0 hw (by omega) hr]
        simp only [heq, List.flatMap_cons]
    · have : pos = hs.length := by omega
      subst this
      exact ⟨[], .nil, by simp, by simp [blocks]⟩

/-! ### widths -/

theorem maxNat_spec (ns : List Nat) : (∀ n ∈ ns, n ≤ maxNat ns) ∧ (maxNat ns = 0 ∨ maxNat ns ∈ ns) := by
  induction ns with
  | nil => simp [maxNat]
  | cons a ns ih =>
    have e : maxNat (a :: ns) = max a (maxNat ns) := rfl
    rw [e]
    constructor
    · intro n hn
      rcases List.mem_cons.1 hn with rfl | hn
      · omega
      · have := ih.1 n hn; omega
    · rcases ih.2 with h | h
      · rw [h, Nat.max_zero]
        exact .inr (by simp)
      · by_cases hle : a ≤ maxNat ns
        · rw [Nat.max_eq_right hle]
          exact .inr (List.mem_cons_of_mem _ h)
        · rw [Nat.max_eq_left (by omega)]
          exact .inr (by simp)

theorem rowWidth_spec {rows : List (Option (List Str))} {n k : Nat} (hr : RowsFull n rows) (hk : k < n) :
    ∃ w, rowWidth (rows.filterMap id) k = .ok w ∧
      (∀ cells, some cells ∈ rows → (cells.getD k []).length ≤ w) ∧
      (w = 0 ∨ ∃ cells, some cells ∈ rows ∧ (cells.getD k []).length = w) := by
  have hm : ∀ cells, cells ∈ rows.filterMap id ↔ some cells ∈ rows := by intro c; simp
  have htot : ∀ l : List (List Str), (∀ c ∈ l, n ≤ c.length) →
      mapRow (cellLen k) l =
        (.ok (l.map (fun c => (c.getD k []).length)) : Except PyErr (List Nat)) := by
    intro l
    induction l with
    | nil => intro _; rfl
    | cons c l ih =>
      intro h
      have hc : k < c.length := Nat.lt_of_lt_of_le hk (h c (by simp))
      have e : c.getD k [] = c[k] := by simp [List.getD, hc]
      simp only [mapRow, cellLen, List.getElem?_eq_getElem hc, ih (fun x hx => h x (List.mem_cons_of_mem _ hx)),
        List.map_cons, e]
  have h1 := htot (rows.filterMap id) (fun c hc => hr c ((hm c).1 hc))
  refine ⟨maxNat ((rows.filterMap id).map (fun c => (c.getD k []).length)), ?_, ?_, ?_⟩
  · simp only [rowWidth, h1]
  · intro cells hc
    exact (maxNat_spec _).1 _ (List.mem_map.2 ⟨cells, (hm _).2 hc, rfl⟩)
  · rcases (maxNat_spec ((rows.filterMap id).map (fun c => (c.getD k []).length))).2 with h | h
    · exact .inl h
    · obtain ⟨c, hc, he⟩ := List.mem_map.1 h
      exact .inr ⟨c, (hm c).1 hc, he⟩

theorem widths_spec {t : Table} {hs : List Str} {rows : List (Option (List Str))} (hr : RowsFull hs.length rows) :
    ∃ ws, widths t hs rows = .ok ws ∧ AreWidths t hs rows ws := by
  obtain ⟨rw', hrw⟩ := mapRow_total (f := rowWidth (rows.filterMap id)) (l := List.range hs.length) (by
    intro k hk
    obtain ⟨w, hw, _⟩ := rowWidth_spec hr (List.mem_range.1 hk)
    exact ⟨w, hw⟩)
  obtain ⟨hl, hg⟩ := mapRow_ok hrw
  rw [List.length_range] at hl
  have hget : ∀ k, k < hs.length → (∀ cells, some cells ∈ rows → (cells.getD k []).length ≤ rw'.getD k 0) ∧
      (rw'.getD k 0 = 0 ∨ ∃ cells, some cells ∈ rows ∧ (cells.getD k []).length = rw'.getD k 0) := by
    intro k hk
    obtain ⟨y, hy, hf⟩ := hg k k (by rw [List.getElem?_range hk])
    obtain ⟨w, hw, h1, h2⟩ := rowWidth_spec hr hk
    rw [hw] at hf
    cases hf
    have : rw'.getD k 0 = y := by simp [List.getD, hy]
    rw [this]
    exact ⟨h1, h2⟩
  simp only [widths, hrw]
  refine ⟨_, rfl, ?_⟩
  by_cases hh : t.hideHeader = true
  · rw [if_pos hh]
    refine ⟨hl, fun k hk => ?_⟩
    obtain ⟨h1, h2⟩ := hget k hk
    refine ⟨h1, fun h => by simp [hh] at h, ?_⟩
    rcases h2 with h | h
    · exact .inl h
    · exact .inr (.inl h)
  · rw [if_neg hh]
    refine ⟨by simp [hl], fun k hk => ?_⟩
    obtain ⟨h1, h2⟩ := hget k hk
    have he : (((hs.zip rw').map (fun p => max p.1.length p.2)).getD k 0) = max (hs.getD k []).length (rw'.getD k 0) := by
      have hk2 : k < rw'.length := by omega
      have hz : (hs.zip rw')[k]? = some (hs[k], rw'[k]) := by
        rw [List.getElem?_zip_eq_some]
        exact ⟨List.getElem?_eq_getElem hk, List.getElem?_eq_getElem hk2⟩
      simp [List.getD, hk, hk2, hz]
    rw [he]
    refine ⟨fun c hc => ?_, fun _ => Nat.le_max_left _ _, ?_⟩
    · have := h1 c hc; omega
    · by_cases hle : (hs.getD k []).length ≤ rw'.getD k 0
      · rw [Nat.max_eq_right hle]
        rcases h2 with h | h
        · exact .inl h
        · exact .inr (.inl h)
      · rw [Nat.max_eq_left (by omega)]
        exact .inr (.inr ⟨by simpa using hh, rfl⟩)

theorem each_length {α β : Type} {R : α → β → Prop} {as : List α} {bs : List β} (h : Each R as bs) :
    bs.length = as.length := by
  induction h with
  | nil => rfl
  | cons _ _ ih => simp [ih]

theorem compile_full {o : Options} {t : Table} {hs : List Str} {rows : List (Option (List Str))}
    (ops : List SetOp) (ho : Settable ops o) (hf : FullShown o t) (h : compile o (formatText o) t = .ok (hs, rows)) :
    RowsFull hs.length rows ∧ 1 ≤ hs.length := by
  have h59 := C59_text ops o ho t hs rows h
  obtain ⟨hd, hhd, hlen⟩ := hf
  unfold compile at h
  rw [hhd] at h
  simp only at h
  split at h
  · simp at h
  · rename_i hs' hfm
    split at h
    · simp at h
    · rename_i hb
      clear hb
      simp only [Except.ok.injEq, Prod.mk.injEq] at h
      obtain ⟨rfl, rfl⟩ := h
      have hl : ∀ r i cs, formatText o r i = .ok cs → cs.length = r.elems.length + 1 := by
        intro r i cs hc
        unfold formatText at hc
        split at hc
        · simp at hc
        · rename_i rest hm
          simp only [Except.ok.injEq] at hc
          subst hc
          simp [(mapRow_ok hm).1]
      have e := hl _ _ _ hfm
      refine ⟨?_, by omega⟩
      intro cells hc
      generalize shown o.maxRows t.body.length = idx at h59 hlen
      induction h59 with
      | nil => cases hc
      | @cons a b as bs hr _ ih =>
        rcases List.mem_cons.1 hc with rfl | hc
        · cases a with
          | none => exact hr.elim
          | some i =>
            obtain ⟨r, h1, rest, h2, h3⟩ := hr
            have hrl := hlen i r (by simp) h1
            have := each_length h3
            rw [h2, List.length_cons]
            omega
        · exact ih hc (fun i r hi => hlen i r (List.mem_cons_of_mem _ hi))

/-! ### C60 -/

/-- C60. Printing a table that has a value for every column in every row it shows terminates: if the cells and the caption can be
cut, the lines printed are those of consecutive blocks of columns, from the first column to the last, each
line showing the index (unless hidden) and the cells of the block's columns in order, padded to the columns' widths. -/
theorem C60_columns_partial (ops : List SetOp) (o : Options) (ho : Settable ops o) (t : Table) (hf : FullShown o t)
    (hs : List Str) (rows : List (Option (List Str))) (hc : compile o (formatText o) t = .ok (hs, rows))
    (cap : Option Str) (hcap : ∀ c, t.caption = some c → ∃ s, truncate o c = .ok s ∧ cap = some s)
    (hcap0 : t.caption = none → cap = none) :
    ∃ ws bl, AreWidths t hs rows ws ∧ Consecutive hs.length 1 bl ∧
      textLines o t = .ok (bl.flatMap (fun ab => blockText t cap hs rows ws ab.1 ab.2) ++ [[]]) ∧
      (∀ ab ∈ bl, ∀ d, o.maxDisplayWidth = some d →
        ab.2 = ab.1 + 1 ∨ (blockWidth t ws ab.1 (ab.2 - 1) : Int) ≤ d) ∧
      (∀ ab ∈ bl, ab.2 < hs.length → ∃ d, o.maxDisplayWidth = some d ∧ (blockWidth t ws ab.1 ab.2 : Int) > d) := by
  obtain ⟨hr, h1⟩ := compile_full ops ho hf hc
  obtain ⟨ws, hw, haw⟩ := widths_spec (t := t) hr
  obtain ⟨bl, hb, hok, heq⟩ := blocks_spec (o := o) (t := t) hcap hcap0 haw.1 hr hs.length 1 (by omega) h1
  refine ⟨ws, bl, haw, hb, ?_, fun ab hab => (hok ab hab).2, ?_⟩
  · simp only [textLines, hc, hw, heq]
  · intro ab hab hlt
    rcases (hok ab hab).1 with h | h
    · omega
    · exact h

theorem mapRow_error {α β : Type} {f : α → Except PyErr β} {e : PyErr} {l : List α} (hf : ∀ x ∈ l, ∀ e', f x = .error e' → e' = e)
    {x : α} (hx : x ∈ l) (he : f x = .error e) : mapRow f l = .error e := by
  induction l with
  | nil => cases hx
  | cons a l ih =>
    unfold mapRow
    cases ha : f a with
    | error e' => rw [hf a (by simp) e' ha]
    | ok y =>
      have hxl : x ∈ l := by
        rcases List.mem_cons.mp hx with rfl | h
        · rw [he] at ha; cases ha
        · exact h
      simp only
      rw [ih (fun z hz => hf z (List.mem_cons_of_mem _ hz)) hxl]

theorem cellLen_error {i : Nat} {r : List Str} {e : PyErr} (h : cellLen i r = .error e) : e = .index := by
  unfold cellLen at h
  split at h
  · cases h; rfl
  · cases h

theorem rowWidth_error {rows : List (List Str)} {i : Nat} {e : PyErr} (h : rowWidth rows i = .error e) : e = .index := by
  have key : ∀ l : List (List Str), mapRow (cellLen i) l = .error e → e = .index := by
    intro l
    induction l with
    | nil => intro h; cases h
    | cons a l ih =>
      intro h
      unfold mapRow at h
      cases ha : cellLen i a with
      | error e' => rw [ha] at h; cases h; exact cellLen_error ha
      | ok y =>
        rw [ha] at h
        cases hb : mapRow (cellLen i) l with
        | error e' => rw [hb] at h; cases h; exact ih hb
        | ok ys => rw [hb] at h; cases h
  unfold rowWidth at h
  cases hb : mapRow (cellLen i) rows with
  | error e' => rw [hb] at h; cases h; exact key rows hb
  | ok ys => rw [hb] at h; cases h

theorem each_mem {α β : Type} {R : α → β → Prop} {as : List α} {bs : List β} (h : Each R as bs) {a : α} (ha : a ∈ as) :
    ∃ b ∈ bs, R a b := by
  induction h with
  | nil => cases ha
  | cons hr _ ih =>
    rcases List.mem_cons.mp ha with rfl | h
    · exact ⟨_, by simp, hr⟩
    · obtain ⟨b, h1, h2⟩ := ih h
      exact ⟨b, List.mem_cons_of_mem _ h1, h2⟩

/-- C60. Printing a table that shows a row with fewer values than the header raises IndexError; nothing is printed. -/
theorem C60_short_row (ops : List SetOp) (o : Options) (ho : Settable ops o) (t : Table) {h r : Row} {i : Nat} (hh : t.header = some h)
    (hi : some i ∈ shown o.maxRows t.body.length) (hr : t.body[i]? = some r) (hlt : r.elems.length < h.elems.length)
    (hs : List Str) (rows : List (Option (List Str))) (hc : compile o (formatText o) t = .ok (hs, rows)) :
    renderText o t = .error .index := by
  obtain ⟨c, hcm, hcr⟩ := each_mem (C59_text ops o ho t hs rows hc) hi
  have hl : ∀ r i cs, formatText o r i = .ok cs → cs.length = r.elems.length + 1 := by
    intro r i cs hc
    unfold formatText at hc
    split at hc
    · simp at hc
    · rename_i rest hm
      simp only [Except.ok.injEq] at hc
      subst hc
      simp [(mapRow_ok hm).1]
  have hhs : hs.length = h.elems.length + 1 := by
    unfold compile at hc
    rw [hh] at hc
    simp only at hc
    split at hc
    · simp at hc
    · rename_i hs' hfm
      split at hc
      · simp at hc
      · simp only [Except.ok.injEq, Prod.mk.injEq] at hc
        rw [← hc.1]
        exact hl _ _ _ hfm
  cases c with
  | none => exact hcr.elim
  | some cells =>
    obtain ⟨r', h1, rest, h2, h3⟩ := hcr
    rw [hr] at h1
    cases h1
    have hcl : cells.length = r.elems.length + 1 := by rw [h2, List.length_cons, each_length h3]
    have hrow : rowWidth (rows.filterMap id) cells.length = .error .index := by
      unfold rowWidth
      rw [mapRow_error (f := cellLen cells.length) (fun x _ e' he => cellLen_error he) (x := cells) (List.mem_filterMap.mpr ⟨_, hcm, rfl⟩)
        (by unfold cellLen; rw [List.getElem?_eq_none (Nat.le_refl _)])]
    have hw : widths t hs rows = .error .index := by
      unfold widths
      rw [mapRow_error (f := rowWidth (rows.filterMap id)) (fun x _ e' he => rowWidth_error he) (List.mem_range.mpr (by omega : cells.length < hs.length)) hrow]
    unfold renderText textLines
    rw [hc]
    simp only [hw]

/-- C60, every column is in exactly one block -/
theorem C60_once (n a : Nat) (bl : List (Nat × Nat)) (h : Consecutive n a bl) :
    bl.flatMap (fun ab => List.range' ab.1 (ab.2 - ab.1)) = List.range' a (n - a) := by
  induction h with
  | nil => simp
  | @cons a b bs hab hbn _ ih =>
    rw [List.flatMap_cons, ih]
    have e : n - a = (b - a) + (n - b) := by omega
    rw [e, ← List.range'_append_1]
    congr 2
    omega

theorem col_length {pad w : Nat} {s : Str} (h : s.length ≤ w) : (col pad w s).length = w + pad * 2 := by
  simp [col]; omega

theorem flatMap_length_sum {α : Type} (l : List α) (f : α → Str) (g : α → Nat) (h : ∀ x ∈ l, (f x).length = g x) :
    (l.flatMap f).length = (l.map g).sum := by
  induction l with
  | nil => rfl
  | cons a l ih =>
    simp [h a (by simp), ih (fun x hx => h x (List.mem_cons_of_mem _ hx))]

/-- C60, the width of what is printed: every row of a block is printed exactly as wide as the block, and so is the
header, up to the mark ` \` for further blocks. -/
theorem C60_line_width (t : Table) (hs : List Str) (rows : List (Option (List Str))) (ws : List Nat)
    (hw : AreWidths t hs rows ws) (h1 : 1 ≤ hs.length) (a b : Nat) (hb : b ≤ hs.length) :
    (∀ cells, some cells ∈ rows → (line t ws cells a b).length = blockWidth t ws a b) ∧
    (t.hideHeader = false → (line t ws hs a b).length = blockWidth t ws a b) := by
  have gen : ∀ cells : List Str, (∀ k, k < hs.length → (cells.getD k []).length ≤ ws.getD k 0) →
      (line t ws cells a b).length = blockWidth t ws a b := by
    intro cells hc
    unfold line blockWidth colsWidth
    rw [List.length_append, flatMap_length_sum _ _ (fun k => ws.getD k 0 + t.padding * 2)]
    · split
      · rfl
      · rw [col_length (hc 0 (by omega))]
    · intro k hk
      have := List.mem_range'_1.1 hk
      exact col_length (hc k (by omega))
  exact ⟨fun cells hc => gen cells (fun k hk => (hw.2 k hk).1 cells hc),
    fun hh => gen hs (fun k hk => (hw.2 k hk).2.1 hh)⟩

namespace Ex

/-- three columns of eight characters on a display of twenty-two -/
def wide : Table where
  header := some ⟨[.str "aaaaaaaa".toList, .str "bbbbbbbb".toList, .str "cccccccc".toList], some "#".toList⟩
  body := [⟨[.str "1".toList, .str "2".toList, .str "3".toList], none⟩]
  hideIndex := true
  padding := 1

def opt22 : Options := ({} : Options).apply (.displayWidth (some ⟨22, 1, by decide⟩))

example : Full wide := ⟨_, rfl, by decide⟩

/-- Non-vacuity of C60_short_row: a second row with one value of three -/
example : renderText opt22 { wide with body := wide.body ++ [⟨[.str "1".toList], none⟩] } = .error .index := by decide

/-- a short row that is not shown does no harm: of three rows the first and the last are shown -/
example : FullShown { opt22 with maxRows := some 2 } { wide with body := wide.body ++ [⟨[.str "1".toList], none⟩] ++ wide.body } :=
  ⟨_, rfl, fun i r hi hr => by
    have : i = 0 ∨ i = 2 := by
      have h : shown (some 2) 3 = [some 0, none, some 2] := by decide
      rw [show ({ wide with body := wide.body ++ [⟨[.str "1".toList], none⟩] ++ wide.body } : Table).body.length = 3 from rfl] at hi
      rw [show ({ opt22 with maxRows := some 2 } : Options).maxRows = some 2 from rfl, h] at hi
      simp at hi
      omega
    rcases this with rfl | rfl <;> cases hr <;> decide⟩

example : textLines opt22 wide = .ok [" aaaaaaaa  bbbbbbbb  cccccccc ".toList, [], " 1         2         3        ".toList, []] := by
  decide

end Ex

/-- C60, violated: a block may be wider than the display, since the column that exceeds it is kept in the block. Here
every column alone, and any two together, fit into 22 characters, but the table is printed in lines of 30. -/
theorem C60_too_wide_fails :
    ∃ ops o t ls, Settable ops o ∧ (∀ op ∈ ops, Whole op) ∧ o.maxDisplayWidth = some 22 ∧ Full t ∧
      textLines o t = .ok ls ∧ ∃ l ∈ ls, l.length = 30 :=
  ⟨[.displayWidth (some ⟨22, 1, by decide⟩)], Ex.opt22, Ex.wide, _, rfl, by simp [Whole], by decide, ⟨_, rfl, by decide⟩,
    rfl, " aaaaaaaa  bbbbbbbb  cccccccc ".toList, by decide, by decide⟩

end Verif
