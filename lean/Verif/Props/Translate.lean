import Verif.Proof.Sweep
import Verif.Model.History
/-
C54: span_translate.
-/
namespace Verif
set_option linter.unusedSimpArgs false
open World

namespace Spec

/-- A call of `span_translate` on existing layers of the right types: `ms` are the nodes of the mapping layer with
source span `[sa m, sb m)` and target span starting at `ta m`; `rs` are the nodes of the remapped layer; those
whose target is unset have the source span `[a r, b r)`; `T` is the target text. -/
structure Translation (w : World) (mapping target source remap rsource rtarget : Str) (T : Nat)
    (ms rs : List Nat) (sa sb ta a b : Nat → Int) : Prop where
  /-- the layers exist, their fields are text span fields, and the target text exists -/
  layers : ∃ M R ctx tt ts tr trt, dget w.dl mapping = some M ∧ dget w.dl remap = some R ∧
    dget (w.layers M).fields target = some tt ∧ tt.tname = .span ∧
    dget tt.options "context".toList = some (.str ctx) ∧ dget w.dt ctx = some T ∧
    dget (w.layers M).fields source = some ts ∧ ts.tname = .span ∧
    dget (w.layers R).fields rsource = some tr ∧ tr.tname = .span ∧
    dget (w.layers R).fields rtarget = some trt ∧ trt.tname = .span ∧
    w.iter M = ms.map some ∧ w.iter R = rs.map some
  /-- every mapping node has its two spans, and they are not empty in the source -/
  msource : ∀ m ∈ ms, ∃ t, dget (w.nodes m).fields source = some (.span t (sa m) (sb m))
  mtarget : ∀ m ∈ ms, ∃ t e, dget (w.nodes m).fields target = some (.span t (ta m) e)
  mnonempty : ∀ m ∈ ms, sa m < sb m
  /-- every remapped node without target has its source span -/
  rsource : ∀ r ∈ rs, dget (w.nodes r).fields rtarget = none →
    ∃ t, dget (w.nodes r).fields rsource = some (.span t (a r) (b r))
  /-- nodes of a layer are distinct and have distinct indices -/
  mnodup : ms.Nodup
  rnodup : rs.Nodup
  ids : ∀ r ∈ rs, ∀ s ∈ rs, (w.nodes r).id = (w.nodes s).id → r = s

/-- position `p` of the source is position `x` of the target: it lies inside a mapping interval, at the same
distance from its start -/
def MapsTo (ms : List Nat) (sa sb ta : Nat → Int) (p x : Int) : Prop :=
  ∃ m ∈ ms, sa m ≤ p ∧ p < sb m ∧ x = ta m + (p - sa m)

/-- no two mapping intervals share a position -/
def Disjoint (ms : List Nat) (sa sb : Nat → Int) : Prop :=
  ∀ m ∈ ms, ∀ m' ∈ ms, m ≠ m' → ∀ p, ¬ (sa m ≤ p ∧ p < sb m ∧ sa m' ≤ p ∧ p < sb m')

end Spec

/-- the marks and what is fixed during the sweep -/
structure TCtx (w0 : World) (target rtarget : Str) (ms us : List Nat) (sa sb ta a b : Nat → Int)
    (evs : List TMark) : Prop where
  mem : ∀ x, x ∈ evs ↔ (∃ m ∈ ms, x = mStart sa m ∨ x = mStop sb m) ∨ (∃ r ∈ us, x = rStart a r ∨ x = rStop b r)
  nodup : evs.Nodup
  sorted : evs.Pairwise (fun a b => keyLe a.1 b.1 = true)
  target : ∀ m ∈ ms, ∃ t e, dget (w0.nodes m).fields target = some (.span t (ta m) e)
  nonempty : ∀ m ∈ ms, sa m < sb m
  unset : ∀ r ∈ us, dget (w0.nodes r).fields rtarget = none
  ids : ∀ r ∈ us, ∀ s ∈ us, (w0.nodes r).id = (w0.nodes s).id → r = s

/-- what holds between two marks -/
structure TInv (w0 : World) (T : Nat) (rtarget : Str) (ms us : List Nat) (sa sb ta a b : Nat → Int)
    (done : List TMark) (cur : Option Nat) (w : World) (s : TState) : Prop where
  world : w = { w0 with nodes := w.nodes }
  other : ∀ n, ¬ (n ∈ us ∧ rStop b n ∈ done) → w.nodes n = w0.nodes n
  set : ∀ r ∈ us, rStop b r ∈ done → ∃ x y sp, Spec.MapsTo ms sa sb ta (a r) x ∧
    Spec.MapsTo ms sa sb ta (b r - 1) y ∧ (w0.texts T).getSlice (some x) (some (y + 1)) none = .ok sp ∧
    w.nodes r = { w0.nodes r with fields := dset (w0.nodes r).fields rtarget (.span T sp.start sp.stop) } ∧
    a r < b r
  active : s.active = cur.map (fun m => (sa m, ta m))
  curm : ∀ m, cur = some m → m ∈ ms ∧ mStart sa m ∈ done ∧ mStop sb m ∉ done
  closed : ∀ m ∈ ms, mStart sa m ∈ done → mStop sb m ∈ done ∨ cur = some m
  disj : ∀ m ∈ ms, ∀ m' ∈ ms, m ≠ m' → mStart sa m ∈ done → mStart sa m' ∈ done → sb m ≤ sa m' ∨ sb m' ≤ sa m
  offs : ∀ i x, dget s.offsets i = some x →
    ∃ r ∈ us, (w0.nodes r).id = i ∧ rStart a r ∈ done ∧ Spec.MapsTo ms sa sb ta (a r) x
  started : ∀ r ∈ us, rStart a r ∈ done → ∃ x, dget s.offsets (w0.nodes r).id = some x

section
variable {w0 : World} {T : Nat} {target rtarget : Str} {ms us : List Nat} {sa sb ta a b : Nat → Int}
  {evs : List TMark}

theorem mstart_ne_mstop (m m' : Nat) : mStart sa m ≠ mStop sb m' := by
  intro h; have := congrArg (fun x => x.1.2) h; simp [mStart, mStop] at this
theorem m_ne_r (x y : Int × Int) (m r : Nat) : ((x, (false, m)) : TMark) ≠ (y, (true, r)) := by
  intro h; have := congrArg (fun x => x.2.1) h; simp at this
theorem rstart_ne_rstop (r r' : Nat) : rStart a r ≠ rStop b r' := by
  intro h; have := congrArg (fun x => x.1.2) h; simp [rStart, rStop] at this

/-- the id and the span of a node, seen in the current state -/
theorem TInv.id {done cur w s} (h : TInv w0 T rtarget ms us sa sb ta a b done cur w s) (n : Nat) :
    (w.nodes n).id = (w0.nodes n).id := by
  by_cases hn : n ∈ us ∧ rStop b n ∈ done
  · obtain ⟨_, _, _, _, _, _, h1, _⟩ := h.set n hn.1 hn.2
    rw [h1]
  · rw [h.other n hn]

theorem TInv.tgt {done cur w s} (hc : TCtx w0 target rtarget ms us sa sb ta a b evs)
    (h : TInv w0 T rtarget ms us sa sb ta a b done cur w s) (m : Nat) (hm : m ∈ ms) :
    ∃ e, w.spanOf! m target = .ok (ta m, e) := by
  obtain ⟨t, e, h0⟩ := hc.target m hm
  refine ⟨e, ?_⟩
  have : dget (w.nodes m).fields target = some (.span t (ta m) e) := by
    by_cases hn : m ∈ us ∧ rStop b m ∈ done
    · obtain ⟨_, _, _, _, _, _, h1, _⟩ := h.set m hn.1 hn.2
      rw [h1]
      simp only
      rw [dget_dset, if_neg, h0]
      intro he
      have := hc.unset m hn.1
      rw [he, h0] at this
      simp at this
    · rw [h.other m hn]; exact h0
  simp [spanOf!, spanBounds, this]

/-- the interval open at a mark of a remapped node is the one containing its position -/
theorem inside (hc : TCtx w0 target rtarget ms us sa sb ta a b evs) {done todo cur w s} {mk : TMark}
    (he : evs = done ++ mk :: todo) (h : TInv w0 T rtarget ms us sa sb ta a b done cur w s) (m : Nat)
    (hm : cur = some m) (hmk : 1 ≤ mk.1.2) (hr : mk.2.1 = true) : sa m ≤ mk.1.1 ∧ mk.1.1 < sb m := by
  obtain ⟨hb, ha, _, _, hrest, _⟩ := sorted_at hc.sorted hc.nodup he
  obtain ⟨h1, h2, h3⟩ := h.curm m hm
  have k1 := hb _ h2
  have : mStop sb m ∈ todo := by
    rcases hrest (mStop sb m) ((hc.mem _).2 (Or.inl ⟨m, h1, Or.inr rfl⟩)) h3 with h | h
    · rw [← h] at hr; simp [mStop] at hr
    · exact h
  have k2 := ha _ this
  rw [keyLe_iff] at k1 k2
  simp only [mStart, mStop] at k1 k2
  omega

theorem covered_open (hc : TCtx w0 target rtarget ms us sa sb ta a b evs) {done todo cur w s} {mk : TMark}
    (he : evs = done ++ mk :: todo) (h : TInv w0 T rtarget ms us sa sb ta a b done cur w s) (m : Nat)
    (hm : m ∈ ms) (hmk : 1 ≤ mk.1.2) (hr : mk.2.1 = true) (h1 : sa m ≤ mk.1.1) (h2 : mk.1.1 < sb m) :
    cur = some m := by
  obtain ⟨hb, ha, _, _, hrest, _⟩ := sorted_at hc.sorted hc.nodup he
  have hs : mStart sa m ∈ done := by
    have hin : mStart sa m ∈ evs := (hc.mem _).2 (Or.inl ⟨m, hm, Or.inl rfl⟩)
    by_cases hd : mStart sa m ∈ done
    · exact hd
    · rcases hrest _ hin hd with h | h
      · rw [← h] at hr; simp [mStart] at hr
      · have := ha _ h
        rw [keyLe_iff] at this
        simp only [mStart] at this
        omega
  rcases h.closed m hm hs with h3 | h3
  · have := hb _ h3
    rw [keyLe_iff] at this
    simp only [mStop] at this
    omega
  · exact h3

/-- marks of the mapping -/
theorem TInv.step_map (hc : TCtx w0 target rtarget ms us sa sb ta a b evs) {done todo cur w s} {mk : TMark}
    (he : evs = done ++ mk :: todo) (h : TInv w0 T rtarget ms us sa sb ta a b done cur w s) (m : Nat) (hm : m ∈ ms)
    (hmk : mk = mStart sa m ∨ mk = mStop sb m) {w' s'}
    (hstep : translateStep T target rtarget w s mk = ((w', s'), none)) :
    ∃ cur', TInv w0 T rtarget ms us sa sb ta a b (done ++ [mk]) cur' w' s' := by
  obtain ⟨hb, ha, hmd, hme, hrest, _⟩ := sorted_at hc.sorted hc.nodup he
  have hrs : ∀ r, rStop b r ∈ done ++ [mk] ↔ rStop b r ∈ done := by
    intro r
    have : rStop b r ≠ mk := by
      rcases hmk with rfl | rfl <;> exact fun h => m_ne_r _ _ _ _ h.symm
    simp [this]
  have hra : ∀ r, rStart a r ∈ done ++ [mk] ↔ rStart a r ∈ done := by
    intro r
    have : rStart a r ≠ mk := by
      rcases hmk with rfl | rfl <;> exact fun h => m_ne_r _ _ _ _ h.symm
    simp [this]
  rcases hmk with rfl | rfl
  · -- a mapping interval begins
    simp only [translateStep, mStart] at hstep
    rw [if_neg (by decide), if_pos trivial] at hstep
    cases hcur : cur with
    | some m0 =>
      rw [h.active, hcur] at hstep
      simp at hstep
    | none =>
      have hact := h.active
      rw [hcur] at hact
      simp only [Option.map_none] at hact
      obtain ⟨e, het⟩ := h.tgt hc m hm
      rw [hact] at hstep
      simp only [het, Prod.mk.injEq, and_true] at hstep
      obtain ⟨rfl, rfl⟩ := hstep
      have hclosed : ∀ m' ∈ ms, mStart sa m' ∈ done → sb m' ≤ sa m := by
        intro m' hm' hs'
        rcases h.closed m' hm' hs' with h1 | h1
        · have := hb _ h1
          rw [keyLe_iff] at this
          simp only [mStart, mStop] at this
          omega
        · rw [hcur] at h1; simp at h1
      refine ⟨some m, h.world, ?_, ?_, ?_, ?_, ?_, ?_, ?_, ?_⟩
      · intro n hn; rw [hrs] at hn; exact h.other n hn
      · intro r hr hd; rw [hrs] at hd; exact h.set r hr hd
      · simp
      · rintro m' hm'
        cases hm'
        refine ⟨hm, by simp, ?_⟩
        intro hd
        rcases List.mem_append.1 hd with hd | hd
        · have := hb _ hd
          rw [keyLe_iff] at this
          simp only [mStart, mStop] at this
          have := hc.nonempty m hm
          omega
        · simp only [List.mem_singleton] at hd
          exact mstart_ne_mstop _ _ hd.symm
      · intro m' hm' hd
        rcases List.mem_append.1 hd with hd | hd
        · rcases h.closed m' hm' hd with h1 | h1
          · exact Or.inl (List.mem_append_left _ h1)
          · rw [hcur] at h1; simp at h1
        · simp only [List.mem_singleton] at hd
          have : m' = m := congrArg (fun x => x.2.2) hd
          exact Or.inr (by rw [this])
      · intro m1 hm1 m2 hm2 hne hd1 hd2
        have hspl : ∀ k, mStart sa k ∈ done ++ [mStart sa m] → mStart sa k ∈ done ∨ k = m := by
          intro k hk
          rcases List.mem_append.1 hk with hk | hk
          · exact Or.inl hk
          · exact Or.inr (congrArg (fun x => x.2.2) (List.mem_singleton.1 hk))
        rcases hspl m1 hd1 with e1 | e1 <;> rcases hspl m2 hd2 with e2 | e2
        · exact h.disj m1 hm1 m2 hm2 hne e1 e2
        · rw [e2]; exact Or.inl (hclosed m1 hm1 e1)
        · rw [e1]; exact Or.inr (hclosed m2 hm2 e2)
        · exact absurd (e1.trans e2.symm) hne
      · intro i x hx
        obtain ⟨r, h1, h2, h3, h4⟩ := h.offs i x hx
        exact ⟨r, h1, h2, List.mem_append_left _ h3, h4⟩
      · intro r hr hd; rw [hra] at hd; exact h.started r hr hd
  · -- a mapping interval ends
    simp only [translateStep, mStop, if_true, Prod.mk.injEq, and_true] at hstep
    obtain ⟨rfl, rfl⟩ := hstep
    have hsm : mStart sa m ∈ done := by
      have hin : mStart sa m ∈ evs := (hc.mem _).2 (Or.inl ⟨m, hm, Or.inl rfl⟩)
      by_cases hd : mStart sa m ∈ done
      · exact hd
      · rcases hrest _ hin hd with h1 | h1
        · exact absurd h1 (mstart_ne_mstop _ _)
        · have := ha _ h1
          rw [keyLe_iff] at this
          simp only [mStart, mStop] at this
          have := hc.nonempty m hm
          omega
    have hms : ∀ m', mStart sa m' ∈ done ++ [mStop sb m] ↔ mStart sa m' ∈ done := by
      intro m'
      simp [mstart_ne_mstop (sa := sa) (sb := sb) m' m]
    have hcur : cur = some m := by
      rcases h.closed m hm hsm with h1 | h1
      · exact absurd h1 hmd
      · exact h1
    refine ⟨none, h.world, ?_, ?_, ?_, ?_, ?_, ?_, ?_, ?_⟩
    · intro n hn; rw [hrs] at hn; exact h.other n hn
    · intro r hr hd; rw [hrs] at hd; exact h.set r hr hd
    · simp
    · simp
    · intro m' hm' hd
      rw [hms] at hd
      rcases h.closed m' hm' hd with h1 | h1
      · exact Or.inl (List.mem_append_left _ h1)
      · rw [hcur] at h1
        cases h1
        exact Or.inl (by simp)
    · intro m1 hm1 m2 hm2 hne hd1 hd2
      rw [hms] at hd1 hd2
      exact h.disj m1 hm1 m2 hm2 hne hd1 hd2
    · intro i x hx
      obtain ⟨r, h1, h2, h3, h4⟩ := h.offs i x hx
      exact ⟨r, h1, h2, List.mem_append_left _ h3, h4⟩
    · intro r hr hd; rw [hra] at hd; exact h.started r hr hd

/-- marks of the remapped nodes -/
theorem TInv.step_remap (hc : TCtx w0 target rtarget ms us sa sb ta a b evs) {done todo cur w s} {mk : TMark}
    (he : evs = done ++ mk :: todo) (h : TInv w0 T rtarget ms us sa sb ta a b done cur w s) (r : Nat) (hr : r ∈ us)
    (hmk : mk = rStart a r ∨ mk = rStop b r) {w' s'}
    (hstep : translateStep T target rtarget w s mk = ((w', s'), none)) :
    ∃ cur', TInv w0 T rtarget ms us sa sb ta a b (done ++ [mk]) cur' w' s' := by
  obtain ⟨hb, ha, hmd, hme, hrest, _⟩ := sorted_at hc.sorted hc.nodup he
  have hmsp : ∀ m, mStop sb m ∈ done ++ [mk] ↔ mStop sb m ∈ done := by
    intro m
    have : mStop sb m ≠ mk := by
      rcases hmk with rfl | rfl <;> exact m_ne_r _ _ _ _
    simp [this]
  have hmst : ∀ m, mStart sa m ∈ done ++ [mk] ↔ mStart sa m ∈ done := by
    intro m
    have : mStart sa m ≠ mk := by
      rcases hmk with rfl | rfl <;> exact m_ne_r _ _ _ _
    simp [this]
  -- the parts that do not change
  have hkeep : ∀ c, cur = c →
      (∀ m, c = some m → m ∈ ms ∧ mStart sa m ∈ done ++ [mk] ∧ mStop sb m ∉ done ++ [mk]) ∧
      (∀ m ∈ ms, mStart sa m ∈ done ++ [mk] → mStop sb m ∈ done ++ [mk] ∨ c = some m) ∧
      (∀ m ∈ ms, ∀ m' ∈ ms, m ≠ m' → mStart sa m ∈ done ++ [mk] → mStart sa m' ∈ done ++ [mk] →
        sb m ≤ sa m' ∨ sb m' ≤ sa m) := by
    rintro c rfl
    refine ⟨?_, ?_, ?_⟩
    · intro m hm; rw [hmst, hmsp]; exact h.curm m hm
    · intro m hm hd; rw [hmst] at hd; rw [hmsp]; exact h.closed m hm hd
    · intro m hm m' hm' hne h1 h2; rw [hmst] at h1 h2; exact h.disj m hm m' hm' hne h1 h2
  obtain ⟨hk1, hk2, hk3⟩ := hkeep cur rfl
  cases hcur : cur with
  | none =>
    exfalso
    have hact := h.active
    rw [hcur] at hact
    simp only [Option.map_none] at hact
    rcases hmk with rfl | rfl <;> simp [translateStep, rStart, rStop, hact] at hstep
  | some m =>
    have hact := h.active
    rw [hcur] at hact
    simp only [Option.map_some] at hact
    obtain ⟨hmm, _, _⟩ := h.curm m hcur
    rcases hmk with rfl | rfl
    · -- first character
      obtain ⟨i1, i2⟩ := inside hc he h m hcur (by simp [rStart]) (by simp [rStart])
      simp only [rStart] at i1 i2
      simp only [translateStep, rStart, hact, if_true, Prod.mk.injEq, and_true] at hstep
      obtain ⟨rfl, rfl⟩ := hstep
      have hrs : ∀ r', rStop b r' ∈ done ++ [rStart a r] ↔ rStop b r' ∈ done := by
        intro r'
        have : rStop b r' ≠ rStart a r := fun h => rstart_ne_rstop _ _ h.symm
        simp [this]
      refine ⟨some m, h.world, ?_, ?_, ?_, by rw [← hcur]; exact hk1, by rw [← hcur]; exact hk2, hk3, ?_, ?_⟩
      · intro n hn; rw [hrs] at hn; exact h.other n hn
      · intro r' hr' hd; rw [hrs] at hd; exact h.set r' hr' hd
      · simp [hact]
      · intro i x hx
        simp only at hx
        rw [dget_dset, h.id] at hx
        split at hx
        · rename_i hi
          simp only [Option.some.injEq] at hx
          exact ⟨r, hr, hi, by simp, m, hmm, i1, i2, by omega⟩
        · obtain ⟨r', h1, h2, h3, h4⟩ := h.offs i x hx
          exact ⟨r', h1, h2, List.mem_append_left _ h3, h4⟩
      · intro r' hr' hd
        simp only
        rw [dget_dset, h.id]
        split
        · exact ⟨_, rfl⟩
        · rename_i hne
          rcases List.mem_append.1 hd with hd | hd
          · exact h.started r' hr' hd
          · simp only [List.mem_singleton] at hd
            have : r' = r := congrArg (fun x => x.2.2) hd
            exact absurd (by rw [this]) hne
    · -- last character
      obtain ⟨i1, i2⟩ := inside hc he h m hcur (by simp [rStop]) (by simp [rStop])
      simp only [rStop] at i1 i2
      simp only [translateStep, rStop, hact, h.id] at hstep
      rw [if_neg (by decide), if_pos trivial] at hstep
      cases hx : dget s.offsets (w0.nodes r).id with
      | none => rw [hx] at hstep; simp at hstep
      | some x =>
        rw [hx] at hstep
        simp only at hstep
        have htexts : w.texts = w0.texts := by rw [h.world]
        rw [htexts] at hstep
        cases hsp : (w0.texts T).getSlice (some x) (some (b r - 1 - sa m + ta m + 1)) none with
        | error e => rw [hsp] at hstep; simp at hstep
        | ok sp =>
          rw [hsp] at hstep
          simp only [Prod.mk.injEq, and_true] at hstep
          obtain ⟨rfl, rfl⟩ := hstep
          obtain ⟨r', hr', hid, hst, hmp⟩ := h.offs _ x hx
          have := hc.ids r' hr' r hr hid
          subst this
          have hlt : a r' < b r' := by
            have := hb _ hst
            rw [keyLe_iff] at this
            simp only [rStart, rStop] at this
            omega
          have hold : w.nodes r' = w0.nodes r' := h.other r' (fun hh => hmd hh.2)
          have hrs : ∀ n, n ≠ r' → (rStop b n ∈ done ++ [rStop b r'] ↔ rStop b n ∈ done) := by
            intro n hn
            have : rStop b n ≠ rStop b r' := fun h => hn (congrArg (fun x => x.2.2) h)
            simp [this]
          have hra : ∀ n, (rStart a n ∈ done ++ [rStop b r'] ↔ rStart a n ∈ done) := by
            intro n
            simp [rstart_ne_rstop (a := a) (b := b) n r']
          refine ⟨some m, ?_, ?_, ?_, by simp [hact], by rw [← hcur]; exact hk1, by rw [← hcur]; exact hk2, hk3, ?_, ?_⟩
          · rw [h.world]; rfl
          · intro n hn
            have hne : n ≠ r' := by rintro rfl; exact hn ⟨hr', by simp⟩
            rw [hrs n hne] at hn
            simp only [setField, modNode, upd, hne, if_false]
            exact h.other n hn
          · intro n hn hd
            by_cases hne : n = r'
            · subst hne
              refine ⟨x, b n - 1 - sa m + ta m, sp, hmp, ⟨m, hmm, i1, i2, by omega⟩, hsp, ?_, hlt⟩
              simp [setField, modNode, upd, hold]
            · rw [hrs n hne] at hd
              simp only [setField, modNode, upd, hne, if_false]
              exact h.set n hn hd
          · intro i y hy
            obtain ⟨r2, h1, h2, h3, h4⟩ := h.offs i y hy
            exact ⟨r2, h1, h2, List.mem_append_left _ h3, h4⟩
          · intro n hn hd; rw [hra] at hd; exact h.started n hn hd

theorem TInv.step (hc : TCtx w0 target rtarget ms us sa sb ta a b evs) {done todo cur w s} {mk : TMark}
    (he : evs = done ++ mk :: todo) (h : TInv w0 T rtarget ms us sa sb ta a b done cur w s) {w' s'}
    (hstep : translateStep T target rtarget w s mk = ((w', s'), none)) :
    ∃ cur', TInv w0 T rtarget ms us sa sb ta a b (done ++ [mk]) cur' w' s' := by
  rcases (hc.mem mk).1 (sorted_at hc.sorted hc.nodup he).2.2.2.1 with ⟨m, hm, hmk⟩ | ⟨r, hr, hmk⟩
  · exact h.step_map hc he m hm hmk hstep
  · exact h.step_remap hc he r hr hmk hstep

/-- a sweep that ends without an exception went through all marks -/
theorem loop_sound (hc : TCtx w0 target rtarget ms us sa sb ta a b evs) (todo : List TMark) :
    ∀ {done cur w s w'}, evs = done ++ todo → TInv w0 T rtarget ms us sa sb ta a b done cur w s →
      translateLoop T target rtarget w s todo = (w', none) →
      ∃ cur' s', TInv w0 T rtarget ms us sa sb ta a b evs cur' w' s' := by
  induction todo with
  | nil =>
    intro done cur w s w' he h hl
    simp only [translateLoop, Prod.mk.injEq, and_true] at hl
    subst hl
    simp only [List.append_nil] at he
    exact ⟨cur, s, he ▸ h⟩
  | cons mk todo ih =>
    intro done cur w s w' he h hl
    simp only [translateLoop] at hl
    cases hst : translateStep T target rtarget w s mk with
    | mk p e =>
      obtain ⟨w1, s1⟩ := p
      rw [hst] at hl
      cases e with
      | some e => simp at hl
      | none =>
        simp only at hl
        obtain ⟨cur', h'⟩ := h.step hc he hst
        exact ih (by rw [he]; simp) h' hl

/-- conditions under which no mark raises -/
structure TGood (w0 : World) (T : Nat) (ms us : List Nat) (sa sb ta a b : Nat → Int) : Prop where
  disj : Spec.Disjoint ms sa sb
  cover : ∀ r ∈ us, a r < b r ∧ ∃ x y, Spec.MapsTo ms sa sb ta (a r) x ∧ Spec.MapsTo ms sa sb ta (b r - 1) y ∧
    0 ≤ x ∧ x ≤ y + 1 ∧ y + 1 ≤ (w0.texts T).text.length

theorem MapsTo.unique (hd : Spec.Disjoint ms sa sb) {p x y : Int} (h1 : Spec.MapsTo ms sa sb ta p x)
    (h2 : Spec.MapsTo ms sa sb ta p y) : x = y := by
  obtain ⟨m, hm, a1, a2, rfl⟩ := h1
  obtain ⟨m', hm', b1, b2, rfl⟩ := h2
  by_cases h : m = m'
  · subst h; rfl
  · exact absurd ⟨a1, a2, b1, b2⟩ (hd m hm m' hm' h p)

theorem getSlice_inrange (t : TextObj) (x y : Int) (h0 : 0 ≤ x) (h1 : x ≤ y) (h2 : y ≤ t.text.length) :
    t.getSlice (some x) (some y) none = .ok ⟨t, x, y⟩ := by
  unfold TextObj.getSlice sliceIndices
  simp only [adjustIdx_of_mem _ _ h0 (Int.le_trans h1 h2), adjustIdx_of_mem _ _ (by omega : 0 ≤ y) h2]
  simp only [ne_eq, not_true_eq_false, false_and, if_false]
  rw [if_neg (by omega), if_neg (by omega)]
  unfold TextSpan.mk'
  rw [if_pos h1]

theorem step_progress (hc : TCtx w0 target rtarget ms us sa sb ta a b evs)
    (hg : TGood w0 T ms us sa sb ta a b) {done todo cur w s} {mk : TMark}
    (he : evs = done ++ mk :: todo) (h : TInv w0 T rtarget ms us sa sb ta a b done cur w s) :
    ∃ w' s', translateStep T target rtarget w s mk = ((w', s'), none) := by
  obtain ⟨hb, ha, hmd, hme, hrest, _⟩ := sorted_at hc.sorted hc.nodup he
  rcases (hc.mem mk).1 hme with ⟨m, hm, rfl | rfl⟩ | ⟨r, hr, hmk⟩
  · cases hcur : cur with
    | some m0 =>
      exfalso
      obtain ⟨h1, h2, h3⟩ := h.curm m0 hcur
      have k1 := hb _ h2
      have hin : mStop sb m0 ∈ todo := by
        rcases hrest (mStop sb m0) ((hc.mem _).2 (Or.inl ⟨m0, h1, Or.inr rfl⟩)) h3 with h4 | h4
        · exact absurd h4.symm (mstart_ne_mstop _ _)
        · exact h4
      have k2 := ha _ hin
      rw [keyLe_iff] at k1 k2
      simp only [mStart, mStop] at k1 k2
      have hne : m0 ≠ m := by rintro rfl; exact hmd h2
      have := hc.nonempty m hm
      exact hg.disj m0 h1 m hm hne (sa m) ⟨by omega, by omega, by omega, by omega⟩
    | none =>
      have hact := h.active
      rw [hcur] at hact
      simp only [Option.map_none] at hact
      obtain ⟨e, het⟩ := h.tgt hc m hm
      refine ⟨w, { s with active := some (sa m, ta m) }, ?_⟩
      simp only [translateStep, mStart]
      rw [if_neg (by decide), if_pos trivial, hact]
      simp [het]
  · exact ⟨w, { s with active := none }, by simp [translateStep, mStop]⟩
  · obtain ⟨hlt, x, y, hx, hy, h0, h1, h2⟩ := hg.cover r hr
    rcases hmk with rfl | rfl
    · obtain ⟨m, hm, m1, m2, rfl⟩ := hx
      have hcur := covered_open hc he h m hm (by simp [rStart]) (by simp [rStart]) m1 m2
      have hact := h.active
      rw [hcur] at hact
      simp only [Option.map_some] at hact
      refine ⟨w, { s with offsets := dset s.offsets (w.nodes r).id (a r - sa m + ta m) }, ?_⟩
      simp [translateStep, rStart, hact]
    · have hy0 := hy
      obtain ⟨m, hm, m1, m2, rfl⟩ := hy
      have hcur := covered_open hc he h m hm (by simp [rStop]) (by simp [rStop]) m1 m2
      have hact := h.active
      rw [hcur] at hact
      simp only [Option.map_some] at hact
      have hst : rStart a r ∈ done := by
        have hin : rStart a r ∈ evs := (hc.mem _).2 (Or.inr ⟨r, hr, Or.inl rfl⟩)
        by_cases hd : rStart a r ∈ done
        · exact hd
        · rcases hrest _ hin hd with h3 | h3
          · exact absurd h3 (rstart_ne_rstop _ _)
          · have := ha _ h3
            rw [keyLe_iff] at this
            simp only [rStart, rStop] at this
            omega
      obtain ⟨x', hx'⟩ := h.started r hr hst
      obtain ⟨r', hr', hid, _, hmp⟩ := h.offs _ _ hx'
      have := hc.ids r' hr' r hr hid
      subst this
      have := MapsTo.unique hg.disj hmp hx
      subst this
      have htexts : w.texts = w0.texts := by rw [h.world]
      have hsl := getSlice_inrange (w0.texts T) x' (b r' - 1 - sa m + ta m + 1) h0 (by omega) (by omega)
      refine ⟨w.setField r' rtarget (.span T x' (b r' - 1 - sa m + ta m + 1)), s, ?_⟩
      simp only [translateStep, rStop, hact, h.id]
      rw [if_neg (by decide), if_pos trivial, hx']
      simp only [htexts, hsl]

theorem loop_progress (hc : TCtx w0 target rtarget ms us sa sb ta a b evs)
    (hg : TGood w0 T ms us sa sb ta a b) (todo : List TMark) :
    ∀ {done cur w s}, evs = done ++ todo → TInv w0 T rtarget ms us sa sb ta a b done cur w s →
      ∃ w', translateLoop T target rtarget w s todo = (w', none) := by
  induction todo with
  | nil => intro done cur w s _ _; exact ⟨w, rfl⟩
  | cons mk todo ih =>
    intro done cur w s he h
    obtain ⟨w1, s1, hst⟩ := step_progress hc hg he h
    obtain ⟨cur', h'⟩ := h.step hc he hst
    simp only [translateLoop, hst]
    exact ih (by rw [he]; simp) h'

end

/-- the nodes to be given a target -/
def unsetOf (w : World) (rtarget : Str) (rs : List Nat) : List Nat :=
  rs.filter (fun r => (dget (w.nodes r).fields rtarget).isNone)

theorem translate_prepare {w : World} {mapping target source remap rsource rtarget : Str} {T : Nat}
    {ms rs : List Nat} {sa sb ta a b : Nat → Int}
    (h : Spec.Translation w mapping target source remap rsource rtarget T ms rs sa sb ta a b) :
    ∃ evs, w.spanTranslate mapping target source remap rsource rtarget =
        translateLoop T target rtarget w ⟨none, []⟩ evs ∧
      TCtx w target rtarget ms (unsetOf w rtarget rs) sa sb ta a b evs := by
  obtain ⟨M, R, ctx, tt, ts, tr, trt, l1, l2, l3, l4, l5, l6, l7, l8, l9, l10, l11, l12, l13, l14⟩ := h.layers
  have hm := mappingMarks_eq w source sa sb ms (by
    intro m hm; obtain ⟨t, ht⟩ := h.msource m hm; simp [spanOf!, spanBounds, ht])
  have hr := remapMarks_eq w rsource rtarget a b rs (by
    intro r hr hn; obtain ⟨t, ht⟩ := h.rsource r hr hn; simp [spanOf!, spanBounds, ht])
  refine ⟨sortByKey (ms.flatMap (fun m => [mStart sa m, mStop sb m]) ++
    (rs.filter (fun r => (dget (w.nodes r).fields rtarget).isNone)).flatMap (fun r => [rStart a r, rStop b r])), by
    unfold spanTranslate translatePrepare
    simp only [l1, l2, assertSpan, l3, l4, l7, l8, l9, l10, l11, l12, if_true, DataType.opt, l5, l6, l13, l14, hm, hr], ?_⟩
  refine ⟨?_, ?_, sortByKey_sorted _, h.mtarget, h.mnonempty, ?_, ?_⟩
  · intro x
    rw [(sortByKey_perm _).mem_iff, List.mem_append, List.mem_flatMap, List.mem_flatMap]
    simp [unsetOf]
  · rw [(sortByKey_perm _).nodup_iff, List.nodup_append]
    refine ⟨?_, ?_, ?_⟩
    · exact flatMap_two_nodup _ _ (fun x => x.2.2) (fun _ => rfl) (fun _ => rfl)
        (fun n => mstart_ne_mstop n n) ms h.mnodup
    · exact flatMap_two_nodup _ _ (fun x => x.2.2) (fun _ => rfl) (fun _ => rfl)
        (fun n => rstart_ne_rstop n n) _ (h.rnodup.filter _)
    · intro x hx y hy hxy
      subst hxy
      obtain ⟨m, _, hm⟩ := List.mem_flatMap.1 hx
      obtain ⟨r, _, hr⟩ := List.mem_flatMap.1 hy
      simp only [List.mem_cons, List.not_mem_nil, or_false] at hm hr
      have h1 : x.2.1 = false := by rcases hm with rfl | rfl <;> rfl
      have h2 : x.2.1 = true := by rcases hr with rfl | rfl <;> rfl
      rw [h1] at h2; simp at h2
  · intro r hr
    have := (List.mem_filter.1 hr).2
    simpa using this
  · intro r hr s hs he
    exact h.ids r (List.mem_filter.1 hr).1 s (List.mem_filter.1 hs).1 he

theorem translate_start {w : World} {target rtarget : Str} {T : Nat} {ms us : List Nat} {sa sb ta a b : Nat → Int} :
    TInv w T rtarget ms us sa sb ta a b [] none w ⟨none, []⟩ :=
  ⟨rfl, fun _ _ => rfl, by simp, rfl, by simp, by simp, by simp, by simp [dget], by simp⟩

/-- C54. When the mapping intervals are disjoint, and every node without target has a nonempty source span whose
first and last characters lie inside mapping intervals and translate to a span of the target text, then
`span_translate` succeeds: each such node is given the span of the target text from the translated first character
to just after the translated last character, and nothing else changes — neither the nodes whose target was set nor
any other part of the document. -/
theorem C54_translate {w : World} {mapping target source remap rsource rtarget : Str} {T : Nat}
    {ms rs : List Nat} {sa sb ta a b : Nat → Int}
    (h : Spec.Translation w mapping target source remap rsource rtarget T ms rs sa sb ta a b)
    (hd : Spec.Disjoint ms sa sb) (x y : Nat → Int)
    (hin : ∀ r ∈ rs, dget (w.nodes r).fields rtarget = none → a r < b r ∧
      Spec.MapsTo ms sa sb ta (a r) (x r) ∧ Spec.MapsTo ms sa sb ta (b r - 1) (y r) ∧
      0 ≤ x r ∧ x r ≤ y r + 1 ∧ y r + 1 ≤ (w.texts T).text.length) :
    ∃ w', w.spanTranslate mapping target source remap rsource rtarget = (w', none) ∧
      (∀ r ∈ rs, dget (w.nodes r).fields rtarget = none → w'.nodes r =
        { w.nodes r with fields := dset (w.nodes r).fields rtarget (.span T (x r) (y r + 1)) }) ∧
      (∀ n, ¬ (n ∈ rs ∧ dget (w.nodes n).fields rtarget = none) → w'.nodes n = w.nodes n) ∧
      w' = { w with nodes := w'.nodes } := by
  obtain ⟨evs, heq, hc⟩ := translate_prepare h
  have hus : ∀ r, r ∈ unsetOf w rtarget rs ↔ r ∈ rs ∧ dget (w.nodes r).fields rtarget = none := by
    intro r; simp [unsetOf, List.mem_filter]
  have hg : TGood w T ms (unsetOf w rtarget rs) sa sb ta a b := by
    refine ⟨hd, fun r hr => ?_⟩
    obtain ⟨h1, h2⟩ := (hus r).1 hr
    obtain ⟨i1, i2, i3, i4, i5, i6⟩ := hin r h1 h2
    exact ⟨i1, x r, y r, i2, i3, i4, i5, i6⟩
  obtain ⟨w', hw'⟩ := loop_progress (T := T) hc hg evs (done := []) rfl (translate_start (target := target))
  obtain ⟨cur', s', hinv⟩ := loop_sound hc evs (done := []) rfl (translate_start (target := target)) hw'
  refine ⟨w', by rw [heq, hw'], ?_, ?_, hinv.world⟩
  · intro r hr hn
    have hmem : r ∈ unsetOf w rtarget rs := (hus r).2 ⟨hr, hn⟩
    obtain ⟨x', y', sp, h1, h2, h3, h4, _⟩ :=
      hinv.set r hmem ((hc.mem _).2 (Or.inr ⟨r, hmem, Or.inr rfl⟩))
    obtain ⟨i1, i2, i3, i4, i5, i6⟩ := hin r hr hn
    have e1 := MapsTo.unique hd h1 i2
    have e2 := MapsTo.unique hd h2 i3
    subst e1 e2
    rw [getSlice_inrange _ _ _ i4 i5 i6] at h3
    cases h3
    exact h4
  · intro n hn
    apply hinv.other
    rintro ⟨h1, _⟩
    exact hn ((hus n).1 h1)

/-- C54, the converse: if `span_translate` does not raise, then the mapping intervals are disjoint and every span
to be translated is nonempty and starts and ends inside a mapping interval. So overlapping mappings, gaps and
empty spans raise. -/
theorem C54_raises_otherwise {w : World} {mapping target source remap rsource rtarget : Str} {T : Nat}
    {ms rs : List Nat} {sa sb ta a b : Nat → Int}
    (h : Spec.Translation w mapping target source remap rsource rtarget T ms rs sa sb ta a b)
    (hok : (w.spanTranslate mapping target source remap rsource rtarget).2 = none) :
    Spec.Disjoint ms sa sb ∧ ∀ r ∈ rs, dget (w.nodes r).fields rtarget = none → a r < b r ∧
      (∃ x, Spec.MapsTo ms sa sb ta (a r) x) ∧ (∃ y, Spec.MapsTo ms sa sb ta (b r - 1) y) := by
  obtain ⟨evs, heq, hc⟩ := translate_prepare h
  cases hr : w.spanTranslate mapping target source remap rsource rtarget with
  | mk w' e =>
    rw [hr] at hok
    simp only at hok
    subst hok
    obtain ⟨cur', s', hinv⟩ := loop_sound hc evs (done := []) rfl (translate_start (target := target)) (heq ▸ hr)
    constructor
    · intro m hm m' hm' hne p hp
      have h1 : mStart sa m ∈ evs := (hc.mem _).2 (Or.inl ⟨m, hm, Or.inl rfl⟩)
      have h2 : mStart sa m' ∈ evs := (hc.mem _).2 (Or.inl ⟨m', hm', Or.inl rfl⟩)
      have := hinv.disj m hm m' hm' hne h1 h2
      omega
    · intro r hrs hn
      have hmem : r ∈ unsetOf w rtarget rs := by simp [unsetOf, List.mem_filter, hrs, hn]
      obtain ⟨x', y', sp, h1, h2, _, _, h5⟩ :=
        hinv.set r hmem ((hc.mem _).2 (Or.inr ⟨r, hmem, Or.inr rfl⟩))
      exact ⟨h5, ⟨x', h1⟩, ⟨y', h2⟩⟩

namespace Ex

def spanT (ctx : String) : DataType := ⟨.span, true, [("context".toList, .str ctx.toList)]⟩

/-- Source text 0 "abXXcd", target text 1 "--ab-cd": the mapping sends [0,2) to 2 and [4,6) to 5. The remapped layer
has a node over both intervals, a node inside the second one, and a node whose target is already set. -/
def trOps (extra : List Op) : List Op :=
  [.addText "src".toList "abXXcd".toList, .addText "tgt".toList "--ab-cd".toList,
   .addLayer "map".toList [("s".toList, spanT "src"), ("t".toList, spanT "tgt")],
   .addLayer "tok".toList [("s".toList, spanT "src"), ("t".toList, spanT "tgt")],
   .addNew 0 [("s".toList, .span 0 4 6), ("t".toList, .span 1 5 7)],
   .addNew 0 [("s".toList, .span 0 0 2), ("t".toList, .span 1 2 4)],
   .addNew 1 [("s".toList, .span 0 1 6)],
   .addNew 1 [("s".toList, .span 0 5 6)],
   .addNew 1 [("s".toList, .span 0 2 3), ("t".toList, .span 1 0 1)]] ++ extra

def trW (extra : List Op) : World := World.empty.run (trOps extra)

def trRun (w : World) : World × Option PyErr :=
  w.spanTranslate "map".toList "t".toList "s".toList "tok".toList "s".toList "t".toList

def tgts (w : World) (ns : List Nat) : List (Option Value) := ns.map (fun n => dget (w.nodes n).fields "t".toList)

set_option maxRecDepth 20000 in
theorem trW_translation : Spec.Translation (trW []) "map".toList "t".toList "s".toList "tok".toList "s".toList
    "t".toList 1 [0, 1] [2, 3, 4] (fun m => if m = 0 then 4 else 0) (fun m => if m = 0 then 6 else 2)
    (fun m => if m = 0 then 5 else 2) (fun r => if r = 2 then 1 else 5) (fun _ => 6) := by
  refine ⟨⟨0, 1, "tgt".toList, spanT "tgt", spanT "src", spanT "src", spanT "tgt", by decide +kernel⟩, ?_, ?_, by decide, ?_,
    by decide, by decide, by decide +kernel⟩
  · intro m hm
    simp only [List.mem_cons, List.not_mem_nil, or_false] at hm
    rcases hm with rfl | rfl
    · exact ⟨0, by decide +kernel⟩
    · exact ⟨0, by decide +kernel⟩
  · intro m hm
    simp only [List.mem_cons, List.not_mem_nil, or_false] at hm
    rcases hm with rfl | rfl
    · exact ⟨1, 7, by decide +kernel⟩
    · exact ⟨1, 4, by decide +kernel⟩
  · intro m hm
    simp only [List.mem_cons, List.not_mem_nil, or_false] at hm
    rcases hm with rfl | rfl | rfl
    · exact fun _ => ⟨0, by decide +kernel⟩
    · exact fun _ => ⟨0, by decide +kernel⟩
    · intro h; exact absurd h (by decide +kernel)

-- the hypotheses of C54_translate: disjoint, and both unset nodes start and end inside an interval
example : Spec.Disjoint [0, 1] (fun m => if m = 0 then 4 else 0) (fun m => if m = 0 then 6 else 2) := by
  intro m hm m' hm' hne p
  simp only [List.mem_cons, List.not_mem_nil, or_false] at hm hm'
  rcases hm with rfl | rfl <;> rcases hm' with rfl | rfl <;> simp at hne ⊢ <;> omega
example : Spec.MapsTo [0, 1] (fun m => if m = 0 then 4 else 0) (fun m => if m = 0 then 6 else 2)
    (fun m => if m = 0 then 5 else 2) 1 3 := ⟨1, by decide, by decide, by decide, by decide⟩
example : Spec.MapsTo [0, 1] (fun m => if m = 0 then 4 else 0) (fun m => if m = 0 then 6 else 2)
    (fun m => if m = 0 then 5 else 2) 5 6 := ⟨0, by decide, by decide, by decide, by decide⟩
set_option maxRecDepth 20000 in
example : tgts (trRun (trW [])).1 [2, 3, 4] = [some (.span 1 3 7), some (.span 1 6 7), some (.span 1 0 1)] := by
  decide +kernel

-- overlapping mappings, gaps and empty spans raise
set_option maxRecDepth 20000 in
example : (trRun (trW [.addNew 0 [("s".toList, .span 0 1 3), ("t".toList, .span 1 0 2)]])).2 = some .assertion := by
  decide +kernel
set_option maxRecDepth 20000 in
example : (trRun (trW [.addNew 1 [("s".toList, .span 0 3 5)]])).2 = some .assertion := by decide +kernel
set_option maxRecDepth 20000 in
example : (trRun (trW [.addNew 1 [("s".toList, .span 0 5 5)]])).2 = some .assertion := by decide +kernel

end Ex

/-- Empty mapping intervals are outside of C54: such an interval is disjoint from all others, but its end mark
sorts before its start mark (algorithm.py:231-232), so it stays active and the next interval raises. -/
theorem C54_empty_interval_fails : ∃ w : World, Reachable w ∧
    (w.spanTranslate "map".toList "t".toList "s".toList "tok".toList "s".toList "t".toList).2 = some .assertion ∧
    ((w.iter 0).filterMap id).map (fun n => dget (w.nodes n).fields "s".toList) =
      [some (.span 0 4 6), some (.span 0 0 2), some (.span 0 3 3)] ∧
    ((w.iter 1).filterMap id).filterMap (fun n =>
      if (dget (w.nodes n).fields "t".toList).isNone then dget (w.nodes n).fields "s".toList else none) =
      [.span 0 1 6, .span 0 5 6] := by
  refine ⟨Ex.trW [.addNew 0 [("s".toList, .span 0 3 3), ("t".toList, .span 1 0 0)]], reachable_run _ (by decide), ?_⟩
  decide +kernel

end Verif
