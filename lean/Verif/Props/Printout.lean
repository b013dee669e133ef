import Verif.Model.Printout
set_option linter.unusedSimpArgs false
/-
C58, C59: truncated cells and truncated tables.
-/
namespace Verif
open Printout

namespace Spec
namespace Print

/-- the options after some assignments, starting from the defaults -/
def Settable (ops : List SetOp) (o : Options) : Prop := o = ops.foldl Options.apply {}

/-- whole numbers only -/
def Whole : SetOp → Prop
  | .rows (some s) | .columns (some s) | .columnWidth (some s) | .displayWidth (some s) => s.den = 1
  | _ => True

/-- a shortened text: a prefix and a suffix of the text that do not overlap, with " ... " between -/
def Shortened (s t : Str) : Prop :=
  ∃ p m q, s = p ++ m ++ q ∧ p ≠ [] ∧ m ≠ [] ∧ q ≠ [] ∧ t = p ++ " ... ".toList ++ q

end Print
end Spec

/-! ### slices -/

theorem pySlice_prefix {α : Type} (xs : List α) (k : Int) (h0 : 0 ≤ k) (hk : k ≤ xs.length) :
    pySlice xs (some 0) (some k) = xs.take k.toNat := by
  have h1 : adjustIdx xs.length 0 = 0 := by unfold adjustIdx; split <;> (try split) <;> omega
  have h2 : adjustIdx xs.length k = k := by unfold adjustIdx; split <;> (try split) <;> omega
  simp [pySlice, sliceIndices, h1, h2]

theorem pySlice_suffix {α : Type} (xs : List α) (k : Int) (h0 : 0 < k) (hk : k ≤ xs.length) :
    pySlice xs (some (-k)) none = xs.drop (xs.length - k.toNat) := by
  have h1 : adjustIdx xs.length (-k) = xs.length - k := by unfold adjustIdx; split <;> (try split) <;> omega
  simp only [pySlice, sliceIndices, h1]
  have e : ((xs.length : Int) - k).toNat = xs.length - k.toNat := by omega
  rw [e, List.take_of_length_le]
  simp only [List.length_drop]
  omega

/-! ### C58 -/

theorem setting_gt {s : Setting} {k : Int} (hk : 0 ≤ k) (hs : ¬ s.le k = true) :
    k ≤ s.toInt ∧ (s.den = 1 → k < s.toInt) := by
  simp only [Setting.le, decide_eq_true_eq, Setting.toInt] at hs ⊢
  have h1 : 0 ≤ k * (s.den : Int) := Int.mul_nonneg hk (Int.natCast_nonneg _)
  have hp := s.pos
  rw [Int.tdiv_eq_ediv_of_nonneg (by omega)]
  refine ⟨(Int.le_ediv_iff_mul_le (by omega)).2 (by omega), ?_⟩
  intro h
  rw [h] at hs ⊢
  simp only [Int.natCast_one, Int.mul_one, Int.ediv_one] at hs ⊢
  omega

/-- what the setters guarantee -/
structure OptInv (whole : Prop) (o : Options) : Prop where
  rows : ∀ m, o.maxRows = some m → 0 ≤ m ∧ (whole → 1 ≤ m)
  col : ∀ c, o.maxColumnWidth = some c → 6 ≤ c ∧ (whole → 7 ≤ c)
  disp : ∀ d, o.maxDisplayWidth = some d → 10 ≤ d ∧ (whole → 11 ≤ d)

theorem optInv_apply {whole : Prop} {o : Options} (h : OptInv whole o) (op : SetOp)
    (hw : whole → Spec.Print.Whole op) : OptInv whole (o.apply op) := by
  cases op with
  | rows s =>
    cases s with
    | none => exact ⟨by simp [Options.apply, Options.setMaxRows], h.col, h.disp⟩
    | some s =>
      by_cases hs : s.le 0 = true
      · simp only [Options.apply, Options.setMaxRows, hs, if_true]; exact h
      · simp only [Options.apply, Options.setMaxRows, hs, if_false, Bool.false_eq_true]
        refine ⟨?_, h.col, h.disp⟩
        have := setting_gt (by omega) hs
        intro m hm
        cases hm
        exact ⟨this.1, fun q => this.2 (hw q)⟩
  | columns s =>
    cases s with
    | none => exact ⟨h.rows, h.col, h.disp⟩
    | some s =>
      by_cases hs : s.le 0 = true
      · simp only [Options.apply, Options.setMaxColumns, hs, if_true]; exact h
      · simp only [Options.apply, Options.setMaxColumns, hs, if_false, Bool.false_eq_true]
        exact ⟨h.rows, h.col, h.disp⟩
  | columnWidth s =>
    cases s with
    | none => exact ⟨h.rows, by simp [Options.apply, Options.setMaxColumnWidth], h.disp⟩
    | some s =>
      by_cases hs : s.le 6 = true
      · simp only [Options.apply, Options.setMaxColumnWidth, hs, if_true]; exact h
      · simp only [Options.apply, Options.setMaxColumnWidth, hs, if_false, Bool.false_eq_true]
        refine ⟨h.rows, ?_, h.disp⟩
        have := setting_gt (by omega) hs
        intro m hm
        cases hm
        exact ⟨this.1, fun q => this.2 (hw q)⟩
  | displayWidth s =>
    cases s with
    | none => exact ⟨h.rows, h.col, by simp [Options.apply, Options.setMaxDisplayWidth]⟩
    | some s =>
      by_cases hs : s.le 10 = true
      · simp only [Options.apply, Options.setMaxDisplayWidth, hs, if_true]; exact h
      · simp only [Options.apply, Options.setMaxDisplayWidth, hs, if_false, Bool.false_eq_true]
        refine ⟨h.rows, h.col, ?_⟩
        have := setting_gt (by omega) hs
        intro m hm
        cases hm
        exact ⟨this.1, fun q => this.2 (hw q)⟩
  | largeScreen =>
    refine ⟨h.rows, ?_, ?_⟩ <;> (intro c hc; simp [Options.apply] at hc; omega)

theorem optInv_settable {ops : List SetOp} {o : Options} (h : Spec.Print.Settable ops o) :
    OptInv (∀ op ∈ ops, Spec.Print.Whole op) o := by
  have gen : ∀ (l : List SetOp) (o : Options) (whole : Prop), OptInv whole o → (whole → ∀ op ∈ l, Spec.Print.Whole op) →
      OptInv whole (l.foldl Options.apply o) := by
    intro l
    induction l with
    | nil => intro o w h _; exact h
    | cons op l ih =>
      intro o w h hw
      exact ih _ w (optInv_apply h op (fun q => hw q op (by simp))) (fun q x hx => hw q x (List.mem_cons_of_mem _ hx))
  rw [Spec.Print.Settable] at h
  subst h
  apply gen _ _ _ _ (fun q => q)
  constructor <;> (intro m hm; simp at hm; omega)

theorem truncate_cut {o : Options} {c d : Int} (hc : o.maxColumnWidth = some c) (hd : o.maxDisplayWidth = some d)
    (h7 : 7 ≤ c) (h10 : 10 ≤ d) (s : Str) :
    (¬ (s.length : Int) > min (d - 5) (c - 5) ∧ truncate o s = .ok s) ∨
    ((s.length : Int) > min (d - 5) (c - 5) ∧ ∃ p m q, s = p ++ m ++ q ∧ p ≠ [] ∧ m ≠ [] ∧ q ≠ [] ∧
      (p.length : Int) = min (d - 5) (c - 5) / 2 ∧ (q.length : Int) = min (d - 5) (c - 5) / 2 ∧
      truncate o s = .ok (p ++ " ... ".toList ++ q)) := by
  simp only [truncate, hc, hd]
  by_cases hlen : (s.length : Int) > min (d - 5) (c - 5)
  · rw [if_pos hlen]
    right
    refine ⟨hlen, ?_⟩
    generalize hk : min (d - 5) (c - 5) / 2 = k
    have h1 : 1 ≤ k := by omega
    have h2 : 2 * k < s.length := by omega
    rw [pySlice_prefix s k (by omega) (by omega), pySlice_suffix s k (by omega) (by omega)]
    obtain ⟨n, rfl⟩ : ∃ n : Nat, k = n := ⟨k.toNat, by omega⟩
    simp only [Int.toNat_natCast]
    refine ⟨s.take n, (s.drop n).take (s.length - 2 * n), s.drop (s.length - n), ?_, ?_, ?_, ?_, ?_, ?_, rfl⟩
    · rw [List.append_assoc]
      have : s.drop (s.length - n) = (s.drop n).drop (s.length - 2 * n) := by
        rw [List.drop_drop]; congr 1; omega
      rw [this, List.take_append_drop, List.take_append_drop]
    · intro h; have := congrArg List.length h; simp only [List.length_take, List.length_nil] at this; omega
    · intro h; have := congrArg List.length h; simp only [List.length_take, List.length_drop, List.length_nil] at this; omega
    · intro h; have := congrArg List.length h; simp only [List.length_drop, List.length_nil] at this; omega
    · simp only [List.length_take]; omega
    · simp only [List.length_drop]; omega
  · left
    rw [if_neg hlen]
    exact ⟨hlen, rfl⟩

/-- C58. With options set to whole numbers or None, and a display width that is not None unless the column width is
None too, every text is printed in at most `max_column_width` characters; a text at least five characters shorter
than both widths is printed as it is, any other as a nonempty prefix and a nonempty suffix that do not overlap.
Missing: a display width of None (C58_no_display_fails) and fractional settings (C58_fraction_fails). -/
theorem C58_truncate_partial (ops : List SetOp) (o : Options) (ho : Spec.Print.Settable ops o)
    (hw : ∀ op ∈ ops, Spec.Print.Whole op) (hd : o.maxDisplayWidth = none → o.maxColumnWidth = none) (s : Str) :
    ∃ t, truncate o s = .ok t ∧
      (o.maxColumnWidth = none → t = s) ∧
      (∀ c d, o.maxColumnWidth = some c → o.maxDisplayWidth = some d →
        (t.length : Int) ≤ c ∧ (t.length : Int) ≤ d ∧
        ((s.length : Int) + 5 ≤ c ∧ (s.length : Int) + 5 ≤ d → t = s) ∧
        (t = s ∨ Spec.Print.Shortened s t)) := by
  have inv := optInv_settable ho
  cases hc : o.maxColumnWidth with
  | none => exact ⟨s, by simp [truncate, hc], fun _ => rfl, fun c d h => by cases h⟩
  | some c =>
    cases hdd : o.maxDisplayWidth with
    | none => rw [hc] at hd; cases hd hdd
    | some d =>
      have h7 := (inv.col c hc).2 hw
      have h10 := (inv.disp d hdd).1
      rcases truncate_cut hc hdd h7 h10 s with ⟨hl, ht⟩ | ⟨hl, p, m, q, e, hp, hm, hq, lp, lq, ht⟩
      · refine ⟨s, ht, fun _ => rfl, ?_⟩
        rintro c' d' ⟨⟩ ⟨⟩
        exact ⟨by omega, by omega, fun _ => rfl, .inl rfl⟩
      · refine ⟨p ++ " ... ".toList ++ q, ht, fun h => by simp at h, ?_⟩
        rintro c' d' ⟨⟩ ⟨⟩
        have hlen : ((p ++ " ... ".toList ++ q).length : Int) = p.length + 5 + q.length := by
          simp; omega
        refine ⟨by omega, by omega, fun h => by omega, .inr ⟨p, m, q, e, hp, hm, hq, rfl⟩⟩

/-- C58, violated: "Setting any setting to None will disable truncation for that aspect", but with a display width of
None every cell raises TypeError. -/
theorem C58_no_display_fails :
    ∃ ops o, Spec.Print.Settable ops o ∧ (∀ op ∈ ops, Spec.Print.Whole op) ∧ ∀ s, truncate o s = .error .type :=
  ⟨[.displayWidth none], _, rfl, by simp [Spec.Print.Whole], fun s => rfl⟩

/-- C58, violated: a column width of 6.5 is accepted and kept as 6; cutting then keeps the whole text and adds five
characters to it. -/
theorem C58_fraction_fails :
    ∃ ops o, Spec.Print.Settable ops o ∧ o.maxColumnWidth = some 6 ∧
      truncate o "unabridged".toList = .ok " ... unabridged".toList :=
  ⟨[.columnWidth (some ⟨13, 2, by decide⟩)], _, rfl, rfl, rfl⟩

/-- the default options cut a text of 40 characters to 29 -/
example : truncate {} "0123456789012345678901234567890123456789".toList =
    .ok "012345678901 ... 890123456789".toList := by decide

example : truncate {} "short".toList = .ok "short".toList := by decide

/-- reading `max_columns` gives the number of rows -/
theorem C58_max_columns_getter_fails : ∃ o : Options, o.maxColumns = some 8 ∧ o.getMaxColumns = some 100 :=
  ⟨{}, rfl, rfl⟩

/-! ### C59 -/

namespace Spec
namespace Print

/-- the numbers of the rows a table of `n` rows shows, `none` for the gap -/
def shown (maxRows : Option Int) (n : Nat) : List (Option Nat) :=
  match maxRows with
  | none => (List.range n).map some
  | some m =>
    if (n : Int) ≤ m then (List.range n).map some
    else (List.range (m / 2).toNat).map some ++ [none] ++
      (List.range (m / 2).toNat).map (fun k => some (n - (m / 2).toNat + k))

/-- a printed row against its number: the formatted row with that number, or the gap -/
def RowAt (fmt : Row → Int → Except PyErr (List Str)) (body : List Row) : Option Nat → Option (List Str) → Prop
  | none, none => True
  | some i, some cs => ∃ r, body[i]? = some r ∧ fmt r i = .ok cs
  | _, _ => False

end Print
end Spec

theorem mapRow_ok {α β : Type} {f : α → Except PyErr β} {l : List α} {r : List β} (h : mapRow f l = .ok r) :
    r.length = l.length ∧ ∀ (k : Nat) (x : α), l[k]? = some x → ∃ y, r[k]? = some y ∧ f x = .ok y := by
  induction l generalizing r with
  | nil => simp [mapRow] at h; subst h; simp
  | cons a l ih =>
    simp only [mapRow] at h
    cases ha : f a with
    | error e => rw [ha] at h; simp at h
    | ok y =>
      rw [ha] at h
      simp only at h
      cases hl : mapRow f l with
      | error e => rw [hl] at h; simp at h
      | ok ys =>
        rw [hl] at h
        simp only [Except.ok.injEq] at h
        subst h
        obtain ⟨h1, h2⟩ := ih hl
        refine ⟨by simp [h1], ?_⟩
        intro k x hk
        cases k with
        | zero => simp at hk; subst hk; exact ⟨y, by simp, ha⟩
        | succ k => simp at hk ⊢; exact h2 k x hk

theorem mapRow_total {α β : Type} {f : α → Except PyErr β} {l : List α} (h : ∀ x ∈ l, ∃ y, f x = .ok y) :
    ∃ r, mapRow f l = .ok r := by
  induction l with
  | nil => exact ⟨[], rfl⟩
  | cons a l ih =>
    obtain ⟨y, hy⟩ := h a (by simp)
    obtain ⟨r, hr⟩ := ih (fun x hx => h x (List.mem_cons_of_mem _ hx))
    exact ⟨y :: r, by simp [mapRow, hy, hr]⟩

/-- rows printed one by one -/
inductive Each {α β : Type} (R : α → β → Prop) : List α → List β → Prop
  | nil : Each R [] []
  | cons {a b as bs} : R a b → Each R as bs → Each R (a :: as) (b :: bs)

theorem Each.append {α β : Type} {R : α → β → Prop} {a1 a2 : List α} {b1 b2 : List β} (h1 : Each R a1 b1)
    (h2 : Each R a2 b2) : Each R (a1 ++ a2) (b1 ++ b2) := by
  induction h1 with
  | nil => exact h2
  | cons h _ ih => exact .cons h ih

theorem each_of_get {α β : Type} {R : α → β → Prop} {as : List α} {bs : List β} (hl : bs.length = as.length)
    (h : ∀ (k : Nat) (a : α), as[k]? = some a → ∃ b, bs[k]? = some b ∧ R a b) : Each R as bs := by
  induction as generalizing bs with
  | nil => simp at hl; subst hl; exact .nil
  | cons a as ih =>
    cases bs with
    | nil => simp at hl
    | cons b bs =>
      obtain ⟨b', hb, hr⟩ := h 0 a rfl
      simp at hb
      subst hb
      exact .cons hr (ih (by simpa using hl) (fun k x hk => by simpa using h (k + 1) x (by simpa using hk)))

theorem zip_from {body seg : List Row} (off h : Nat) (hle : off + h ≤ body.length)
    (hseg : ∀ k, k < h → seg[k]? = body[off + k]?) (f : Nat → Int)
    {fmt : Row → Int → Except PyErr (List Str)} (hf : ∀ k, f k = ((off + k : Nat) : Int))
    {r : List (Option (List Str))} (hr : formatRows fmt (((List.range h).map f).zip seg) = .ok r) :
    Each (Spec.Print.RowAt fmt body) ((List.range h).map (fun k => some (off + k))) r := by
  obtain ⟨h1, h2⟩ := mapRow_ok hr
  have hsl : h ≤ seg.length := by
    cases h with
    | zero => omega
    | succ h =>
      have := hseg h (by omega)
      rw [List.getElem?_eq_getElem (show off + h < body.length by omega)] at this
      exact (List.getElem?_eq_some_iff.1 this).1
  apply each_of_get
  · simp [h1]; omega
  · intro k a hk
    have hkh : k < h := by
      have := (List.getElem?_eq_some_iff.1 hk).1
      simpa using this
    have hk2 : a = some (off + k) := by
      rw [List.getElem?_map, List.getElem?_range hkh] at hk
      simpa using hk.symm
    subst hk2
    have hb : off + k < body.length := by omega
    have hs := hseg k hkh
    rw [List.getElem?_eq_getElem hb] at hs
    obtain ⟨y, hy1, hy2⟩ := h2 k (f k, body[off + k]) (by
      rw [List.getElem?_zip_eq_some]
      exact ⟨by rw [List.getElem?_map, List.getElem?_range hkh]; rfl, hs⟩)
    refine ⟨y, hy1, ?_⟩
    simp only [hf] at hy2
    cases hfm : fmt body[off + k] ((off + k : Nat) : Int) with
    | error e => rw [hfm] at hy2; simp at hy2
    | ok c =>
      rw [hfm] at hy2
      simp only [Except.ok.injEq] at hy2
      subst hy2
      exact ⟨body[off + k], by simp [hb], hfm⟩

/-- C59. When the printing succeeds, the table shows exactly the rows of `Spec.Print.shown`: all of them when there are
at most `max_rows`, otherwise the first and the last `max_rows // 2` with one gap between, each formatted with its
own number. It holds for any way to format a row, so for text and for HTML. -/
theorem C59_rows (ops : List SetOp) (o : Options) (ho : Spec.Print.Settable ops o)
    (fmt : Row → Int → Except PyErr (List Str)) (body : List Row) (rows : List (Option (List Str)))
    (h : compileBody o fmt body = .ok rows) :
    Each (Spec.Print.RowAt fmt body) (Spec.Print.shown o.maxRows body.length) rows := by
  have inv := optInv_settable ho
  have all : ∀ r, formatRows fmt ((intRange 0 body.length).zip body) = .ok r →
      Each (Spec.Print.RowAt fmt body) ((List.range body.length).map some) r := by
    intro r hr
    have := zip_from (body := body) (seg := body) 0 body.length (by omega) (by intro k _; simp)
      (fun k => 0 + (k : Int)) (by intro k; simp) (fmt := fmt) (r := r) (by simpa [intRange] using hr)
    simpa using this
  unfold compileBody at h
  simp only at h
  unfold Spec.Print.shown
  cases hm : o.maxRows with
  | none => rw [hm] at h; exact all _ h
  | some m =>
    rw [hm] at h
    simp only at h ⊢
    by_cases hgt : (body.length : Int) > m
    · rw [if_pos hgt] at h
      rw [if_neg (by omega)]
      have hm0 := (inv.rows m hm).1
      generalize hk : m / 2 = k at h
      have hk0 : 0 ≤ k := by omega
      obtain ⟨n, rfl⟩ : ∃ n : Nat, k = n := ⟨k.toNat, by omega⟩
      have hn : 2 * n < body.length ∨ n = 0 := by omega
      have hn2 : n ≤ body.length := by omega
      rw [pySlice_prefix body n (by omega) (by omega)] at h
      simp only [Int.toNat_natCast] at h ⊢
      split at h
      · simp at h
      · rename_i upper hu
        split at h
        · simp at h
        · rename_i lower hl
          simp only [Except.ok.injEq] at h
          subst h
          refine ((?_ : Each _ _ upper).append (.cons trivial .nil)).append (?_ : Each _ _ lower)
          · have := zip_from (body := body) (seg := body.take n) 0 n (by omega)
              (by intro k hk; rw [List.getElem?_take_of_lt hk]; simp) (fun k => 0 + (k : Int)) (by intro k; simp)
              (by simpa [intRange] using hu)
            simpa using this
          · apply zip_from (body := body) (body.length - n) n (by omega) (seg := pySlice body (some (-n)) none) ?_
              (fun k => ((body.length : Int) - n) + k) (by intro k; omega)
            · have e : ((body.length : Int) - ((body.length : Int) - n)).toNat = n := by omega
              simpa only [intRange, e] using hl
            · intro k hk
              rw [pySlice_suffix body n (by omega) (by omega)]
              simp
    · rw [if_neg hgt] at h
      rw [if_pos (by omega)]
      exact all _ h

theorem pySlice_mem {α : Type} {xs : List α} {a b : Option Int} {x : α} (h : x ∈ pySlice xs a b) : x ∈ xs := by
  unfold pySlice at h
  exact List.mem_of_mem_drop (List.mem_of_mem_take h)

theorem formatRows_total {fmt : Row → Int → Except PyErr (List Str)} {is : List Int} {rs body : List Row}
    (hsub : ∀ r ∈ rs, r ∈ body) (hf : ∀ r ∈ body, ∀ i, ∃ cs, fmt r i = .ok cs) :
    ∃ r, formatRows fmt (is.zip rs) = .ok r := by
  apply mapRow_total
  intro p hp
  obtain ⟨cs, hcs⟩ := hf p.2 (hsub _ (List.of_mem_zip hp).2) p.1
  exact ⟨some cs, by simp [hcs]⟩

/-- C59. The printing succeeds when every row can be formatted. -/
theorem C59_succeeds (o : Options) (fmt : Row → Int → Except PyErr (List Str)) (body : List Row)
    (hf : ∀ r ∈ body, ∀ i, ∃ cs, fmt r i = .ok cs) : ∃ rows, compileBody o fmt body = .ok rows := by
  unfold compileBody
  simp only
  obtain ⟨all, hall⟩ := formatRows_total (is := intRange 0 body.length) (rs := body) (body := body) (fun r h => h) hf
  split
  · exact ⟨all, hall⟩
  · split
    · rename_i m _ _
      obtain ⟨u, hu⟩ := formatRows_total (is := intRange 0 (m / 2)) (rs := pySlice body (some 0) (some (m / 2)))
        (body := body) (fun r h => pySlice_mem h) hf
      obtain ⟨l, hl⟩ := formatRows_total (is := intRange (body.length - m / 2) body.length)
        (rs := pySlice body (some (-(m / 2))) none) (body := body) (fun r h => pySlice_mem h) hf
      exact ⟨u ++ [none] ++ l, by simp [hu, hl]⟩
    · exact ⟨all, hall⟩

namespace Spec
namespace Print

/-- a printed text row: the row's own index or else its number, then the cells, each cut as C58 says -/
def TextRow (o : Options) (r : Row) (i : Nat) (cs : List Str) : Prop :=
  ∃ rest, cs = (match r.index with | none => natStr i | some x => x) :: rest ∧
    Each (fun e c => truncate o (match e with | .cell t _ => t | .str s => s | .obj s => s) = .ok c) r.elems rest

end Print
end Spec

theorem formatText_ok {o : Options} {r : Row} {i : Nat} {cs : List Str} (h : formatText o r i = .ok cs) :
    Spec.Print.TextRow o r i cs := by
  unfold formatText at h
  split at h
  · simp at h
  · rename_i rest hr
    simp only [Except.ok.injEq] at h
    subst h
    refine ⟨rest, ?_, ?_⟩
    · cases hx : r.index with
      | none =>
        have : ¬ (i : Int) < 0 := by omega
        simp [indexCell, hx, intStr, this]
      | some x => simp [indexCell, hx]
    · obtain ⟨h1, h2⟩ := mapRow_ok hr
      apply each_of_get h1
      intro k a hk
      obtain ⟨y, hy, hf⟩ := h2 k a hk
      refine ⟨y, hy, ?_⟩
      cases a <;> exact hf

/-- C59 for text: whenever the lines of a table are computed from rows, those are the rows of
`Spec.Print.shown`, with the right index and cells. -/
theorem C59_text (ops : List SetOp) (o : Options) (ho : Spec.Print.Settable ops o) (t : Table) (hs : List Str)
    (rows : List (Option (List Str))) (h : compile o (formatText o) t = .ok (hs, rows)) :
    Each (fun i c => match i, c with
        | none, none => True
        | some i, some cs => ∃ r, t.body[i]? = some r ∧ Spec.Print.TextRow o r i cs
        | _, _ => False)
      (Spec.Print.shown o.maxRows t.body.length) rows := by
  unfold compile at h
  split at h
  · simp at h
  · split at h
    · simp at h
    · split at h
      · simp at h
      · rename_i rs hb
        simp only [Except.ok.injEq, Prod.mk.injEq] at h
        obtain ⟨_, rfl⟩ := h
        have := C59_rows ops o ho _ _ _ hb
        clear hb
        generalize Spec.Print.shown o.maxRows t.body.length = idx at this
        induction this with
        | nil => exact .nil
        | @cons a b as bs hr _ ih =>
          refine .cons ?_ ih
          cases a <;> cases b
          · trivial
          · exact hr
          · exact hr
          · obtain ⟨r, h1, h2⟩ := hr
            exact ⟨r, h1, formatText_ok h2⟩

namespace Ex

/-- five rows -/
def tbl : Table where
  header := some ⟨[.str "v".toList], some "#".toList⟩
  body := [⟨[.str "a".toList], none⟩, ⟨[.str "b".toList], none⟩, ⟨[.str "c".toList], some "x".toList⟩,
    ⟨[.str "d".toList], none⟩, ⟨[.str "e".toList], none⟩]

def opt4 : Options := ({} : Options).apply (.rows (some ⟨4, 1, by decide⟩))

example : Spec.Print.shown opt4.maxRows 5 = [some 0, some 1, none, some 3, some 4] := by decide
example : Spec.Print.shown (some 5) 5 = [some 0, some 1, some 2, some 3, some 4] := by decide
example : Spec.Print.shown (some 1) 5 = [none] := by decide

example : compile opt4 (formatText opt4) tbl = .ok (["#".toList, "v".toList],
    [some ["0".toList, "a".toList], some ["1".toList, "b".toList], none, some ["3".toList, "d".toList],
      some ["4".toList, "e".toList]]) := by decide

end Ex
end Verif
