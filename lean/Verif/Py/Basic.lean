/-
Python built-ins used by docria: exceptions, slicing, searching.
Trusted: these definitions are read off the CPython language reference, not off /repo.
-/
namespace Verif

/-- Exceptions raised by the modelled code (class names of Python / docria).
`unmodelled` marks behaviour this model leaves out; no theorem concludes anything from it. -/
inductive PyErr
  | assertion | value | key | type | attribute | index | notImplemented | io | stopIteration
  | schema             -- docria.model.SchemaError               (model.py:32)
  | schemaValidation   -- docria.model.SchemaValidationError     (model.py:24)
  | dataValidation     -- docria.model.DataValidationError       (model.py:39)
  | data               -- docria.codec.DataError                 (codec.py:29)
  | overflow           -- OverflowError / ValueError of msgpack's Packer
  | outOfData          -- msgpack.OutOfData
  | unmodelled
  deriving DecidableEq, Repr

deriving instance DecidableEq for Except

/-- Python `str`: a sequence of code points. -/
abbrev Str := List Char

/-- CPython `PySlice_AdjustIndices` for one bound and step 1. -/
def adjustIdx (n : Nat) (i : Int) : Int :=
  if i < 0 then (if i + n < 0 then 0 else i + n) else (if i ≥ n then n else i)

/-- `slice(a, b).indices(n)` for step `None` or `1` (first two components). -/
def sliceIndices (n : Nat) (a b : Option Int) : Int × Int :=
  ((match a with | none => 0 | some i => adjustIdx n i),
   (match b with | none => (n : Int) | some i => adjustIdx n i))

/-- `xs[a:b]` on a Python list or str. -/
def pySlice {α} (xs : List α) (a b : Option Int) : List α :=
  let (lo, hi) := sliceIndices xs.length a b
  (xs.drop lo.toNat).take (hi - lo).toNat

/-- `xs[i]` on a Python list or str: negative indices count from the end, otherwise IndexError. -/
def pyIndex {α} (xs : List α) (i : Int) : Except PyErr α :=
  let j := if i < 0 then i + xs.length else i
  if j < 0 then .error .index
  else match xs[j.toNat]? with
    | some x => .ok x
    | none => .error .index

theorem adjustIdx_range (n : Nat) (i : Int) : 0 ≤ adjustIdx n i ∧ adjustIdx n i ≤ n := by
  unfold adjustIdx; split <;> split <;> omega

theorem sliceIndices_range (n : Nat) (a b : Option Int) :
    0 ≤ (sliceIndices n a b).1 ∧ (sliceIndices n a b).1 ≤ n ∧
    0 ≤ (sliceIndices n a b).2 ∧ (sliceIndices n a b).2 ≤ n := by
  unfold sliceIndices
  cases a <;> cases b <;> simp <;>
    (try have h1 := adjustIdx_range n ‹Int›) <;> (try omega)
  rename_i x y
  have := adjustIdx_range n x
  have := adjustIdx_range n y
  omega

theorem adjustIdx_of_mem (n : Nat) (i : Int) (h0 : 0 ≤ i) (h1 : i ≤ n) : adjustIdx n i = i := by
  unfold adjustIdx; split <;> (try split) <;> omega

/-- Slicing with in-range bounds. -/
theorem pySlice_inrange {α} (xs : List α) (a b : Int) (h0 : 0 ≤ a) (h2 : a ≤ xs.length)
    (hb0 : 0 ≤ b) (hb : b ≤ xs.length) :
    pySlice xs (some a) (some b) = (xs.drop a.toNat).take (b - a).toNat := by
  simp [pySlice, sliceIndices, adjustIdx_of_mem _ _ h0 h2, adjustIdx_of_mem _ _ hb0 hb]

theorem pyIndex_mem {α} {xs : List α} {i : Int} {x : α} (h : pyIndex xs i = .ok x) : x ∈ xs := by
  unfold pyIndex at h
  dsimp only at h
  generalize (if i < 0 then i + (xs.length : Int) else i) = j at h
  split at h
  · simp at h
  · split at h
    · rename_i y hy
      simp at h; subst h; exact List.mem_of_getElem? hy
    · simp at h

/-- insertion into a sorted list -/
def insertInt (x : Int) : List Int → List Int
  | [] => [x]
  | y :: ys => if x ≤ y then x :: y :: ys else y :: insertInt x ys

/-- Python `sorted` on ints (written as an insertion sort, which the kernel can evaluate) -/
def sortedInts : List Int → List Int
  | [] => []
  | x :: xs => insertInt x (sortedInts xs)

theorem insertInt_perm (x : Int) (l : List Int) : (insertInt x l).Perm (x :: l) := by
  induction l with
  | nil => exact .refl _
  | cons y ys ih =>
    simp only [insertInt]; split
    · exact .refl _
    · exact (ih.cons y).trans (List.Perm.swap x y ys)

theorem sortedInts_perm (l : List Int) : (sortedInts l).Perm l := by
  induction l with
  | nil => exact .refl _
  | cons x xs ih => exact (insertInt_perm x _).trans (ih.cons x)

theorem insertInt_sorted (x : Int) (l : List Int) (h : l.Pairwise (· ≤ ·)) : (insertInt x l).Pairwise (· ≤ ·) := by
  induction l with
  | nil => simp [insertInt]
  | cons y ys ih =>
    rw [List.pairwise_cons] at h
    simp only [insertInt]; split
    · rename_i hxy
      rw [List.pairwise_cons]
      refine ⟨?_, List.pairwise_cons.mpr h⟩
      intro z hz; simp only [List.mem_cons] at hz
      rcases hz with rfl | hz
      · exact hxy
      · have := h.1 z hz; omega
    · rw [List.pairwise_cons]
      refine ⟨?_, ih h.2⟩
      intro z hz
      have := (insertInt_perm x ys).mem_iff.mp hz
      simp only [List.mem_cons] at this
      rcases this with rfl | hz
      · omega
      · exact h.1 z hz

theorem sortedInts_sorted (l : List Int) : (sortedInts l).Pairwise (· ≤ ·) := by
  induction l with
  | nil => exact .nil
  | cons x xs ih => exact insertInt_sorted x _ ih

/-- a list comprehension whose element expression can raise -/
def mapE {α β : Type} (f : α → Except PyErr β) : List α → Except PyErr (List β)
  | [] => .ok []
  | x :: xs =>
    match f x with
    | .error e => .error e
    | .ok y =>
      match mapE f xs with
      | .error e => .error e
      | .ok ys => .ok (y :: ys)

theorem mapE_ok {α β : Type} {f : α → Except PyErr β} {g : α → β} {l : List α}
    (h : ∀ x ∈ l, f x = .ok (g x)) : mapE f l = .ok (l.map g) := by
  induction l with
  | nil => rfl
  | cons x xs ih =>
    simp only [mapE, h x (by simp), ih (fun y hy => h y (by simp [hy])), List.map_cons]

theorem mapE_inv {α β : Type} {f : α → Except PyErr β} {l : List α} : ∀ {l' : List β}, mapE f l = .ok l' →
    l'.length = l.length ∧ ∀ (i : Nat) (h : i < l.length) (h' : i < l'.length), f l[i] = .ok l'[i] := by
  induction l with
  | nil => intro l' h; simp [mapE] at h; subst h; simp
  | cons x xs ih =>
    intro l' h
    simp only [mapE] at h
    split at h
    · cases h
    · rename_i y hy
      split at h
      · cases h
      · rename_i ys hys
        cases h
        obtain ⟨h1, h2⟩ := ih hys
        refine ⟨by simp [h1], fun i hi hi' => ?_⟩
        cases i with
        | zero => exact hy
        | succ i => exact h2 i _ _

end Verif
