import Verif.Proof.WithFields
import Verif.Proof.Convert
import Verif.Proof.JavaDouble
import Verif.Proof.JsonCodec
import Verif.Props.Codec
import Verif.Props.Layer
/-
C102: values that are not of the declared type, when encoding.
-/
set_option linter.unusedSimpArgs false
set_option exponentiation.threshold 2000
namespace Verif
open World

namespace Spec

/-- the value is of the declared type, as far as the Python class goes -/
inductive Typed : TName → Value → Prop
  | i32 {i} : Typed .i32 (.int i)
  | i64 {i} : Typed .i64 (.int i)
  | f64 {x} : Typed .f64 (.float x)
  | bool {b} : Typed .bool (.bool b)
  | string {s} : Typed .string (.str s)
  | binary {b} : Typed .binary (.bytes b)
  | noderef {n} : Typed .noderef (.node n)
  | noderefMany {ns} : Typed .noderefMany (.nodes ns)
  | nodespan {l r} : Typed .nodespan (.nodespan l r)
  | span {T a b} : Typed .span (.span T a b)

/-- the integer nearest to a float on the side of zero. `parts` and `dValue` count in units of 2^-1074. -/
def WholePart (x : UInt64) (i : Int) : Prop :=
  Finite x ∧ (0 ≤ dValue x → i * parts ≤ dValue x ∧ dValue x < (i + 1) * parts) ∧
    (dValue x ≤ 0 → (i - 1) * parts < dValue x ∧ dValue x ≤ i * parts)

/-- a float that no other is nearer to an integer than; the even one if there are two. There is none for integers that are
nearer to 2^1024, or as near, than to the largest float. -/
def Nearest (i : Int) (x : UInt64) : Prop :=
  Finite x ∧ i.natAbs < 2 ^ 1024 - 2 ^ 970 ∧ (2 ^ 63 ≤ x.toNat ↔ i < 0) ∧ ∀ y, Finite y → (dValue x - i * parts).natAbs ≤ (dValue y - i * parts).natAbs ∧
    ((dValue x - i * parts).natAbs = (dValue y - i * parts).natAbs → dValue x ≠ dValue y → x.toNat % 2 = 0)

def AllDigits (s : Str) : Prop := s ≠ [] ∧ ∀ c ∈ s, c.isDigit = true
def AllSpace (s : Str) : Prop := ∀ c ∈ s, c ∈ [' ', '\t', '\n', Char.ofNat 11, Char.ofNat 12, '\r']

/-- text for an integer: a sign or none, groups of digits with single underscores between them, white space around it all -/
def TextOfInt (s : Str) (i : Int) : Prop :=
  ∃ (a sign d : Str) (gs : List Str) (b : Str), s = a ++ sign ++ d ++ (gs.map ('_' :: ·)).flatten ++ b ∧ AllSpace a ∧ AllSpace b ∧ AllDigits d ∧ (∀ g ∈ gs, AllDigits g) ∧
    ((sign = [] ∨ sign = ['+']) ∧ i = Nat.ofDigitChars 10 (d ++ gs.flatten) 0 ∨ sign = ['-'] ∧ i = -(Nat.ofDigitChars 10 (d ++ gs.flatten) 0 : Int))

/-- the nodes of a layer from `l` to `r`, in order -/
def Stretch (w : World) (l r : NodeId) (ns : List NodeId) : Prop :=
  ∃ L a b, Holds w L (a ++ ns ++ b) ∧ ns.head? = some l ∧ ns.getLast? = some r

/-- the truth value of a Python object, for the kinds of objects that the library knows -/
def Truth (w : World) : Value → Bool → Prop
  | .none, r => r = false
  | .bool c, r => r = c
  | .int i, r => r = true ↔ i ≠ 0
  | .float x, r => r = true ↔ (Finite x → dValue x ≠ 0)
  | .str s, r => r = true ↔ s ≠ []
  | .bytes b, r => r = true ↔ b ≠ []
  | .node n, r => r = true ↔ ∃ f v, dget (w.nodes n).fields f = some v
  | .nodes ns, r => r = true ↔ ns ≠ []
  | .nodespan a b, r => r = true ∧ ∃ ns, Stretch w a b ns
  | .span _ a b, r => r = true ↔ a ≠ b
  | .ext _ _, r => r = true
  | .data (.arr l), r => r = true ↔ l ≠ []
  | .data (.map l), r => r = true ↔ l ≠ []
  | _, _ => False

/-- what takes the place of a value that is not of the declared type -/
inductive Becomes (w : World) : TName → Value → Value → Prop
  | intBool {t} {b : Bool} : t = .i32 ∨ t = .i64 → Becomes w t (.bool b) (.int (if b then 1 else 0))
  | whole {t x i} : t = .i32 ∨ t = .i64 → WholePart x i → Becomes w t (.float x) (.int i)
  | intText {t s i} : t = .i32 ∨ t = .i64 → TextOfInt s i → Becomes w t (.str s) (.int i)
  | intBytes {t b i} : t = .i32 ∨ t = .i64 → TextOfInt (b.map fun x => Char.ofNat x.toNat) i → Becomes w t (.bytes b) (.int i)
  | nearest {i x} : Nearest i x → Becomes w .f64 (.int i) (.float x)
  | nearestBool {b : Bool} {x} : Nearest (if b then 1 else 0) x → Becomes w .f64 (.bool b) (.float x)
  | truth {v b} : v ≠ .none → Truth w v b → Becomes w .bool v (.bool b)
  | decimal {i} : Becomes w .string (.int i) (.str (intStr i))
  | boolText {b : Bool} : Becomes w .string (.bool b) (.str (if b then "True".toList else "False".toList))
  | spanText {T a b} : Becomes w .string (.span T a b) (.str (pySlice (w.texts T).text (some a) (some b)))
  | bytesText {b} : Becomes w .string (.bytes b) (.str (bytesText b))
  | zeros {n : Nat} : Becomes w .binary (.int n) (.bytes (List.replicate n 0))
  | oneZero {b : Bool} : Becomes w .binary (.bool b) (.bytes (if b then [0] else []))
  | byteList {l : List Obj} {b : Bytes} : l.length = b.length →
      (∀ (j : Nat) o y, l[j]? = some o → b[j]? = some y → o = .int y.toNat ∨ ∃ c : Bool, o = .bool c ∧ y = if c then 1 else 0) →
      Becomes w .binary (.data (.arr l)) (.bytes b)
  | bareNode {n} : (∀ f, dget (w.nodes n).fields f = none) → Becomes w .binary (.node n) (.bytes [])
  | noNode : Becomes w .binary (.nodes []) (.bytes [])
  | noEntry : Becomes w .binary (.data (.map [])) (.bytes [])
  | farSpan {T a b} : (∀ c, pyIndex (w.texts T).text a ≠ .ok c) → Becomes w .binary (.span T a b) (.bytes [])
  | stretch {l r ns} : Stretch w l r ns → Becomes w .noderefMany (.nodespan l r) (.nodes ns)
  | noNodes {v} : Truth w v false → (∀ i, v ≠ .int i) → (∀ b, v ≠ .bool b) → (∀ x, v ≠ .float x) → Becomes w .noderefMany v .none
  | neighbours {n l r L a b} : Holds w L (a ++ [l, n, r] ++ b) → Becomes w .nodespan (.node n) (.nodespan l r)

/-- what can stand in a column of the written data, by the name of the column's type. Nodes and offsets are counted. -/
inductive InColumn : Str → Obj → Prop
  | missing {t} : InColumn t .nil
  | i32 {i} : InColumn "i32".toList (.int i)
  | i64 {i} : InColumn "i64".toList (.int i)
  | f64 {x} : InColumn "f64".toList (.float x)
  | bool {b} : InColumn "i1".toList (.bool b)
  | string {s} : InColumn "str".toList (.str s)
  | binary {b} : InColumn "bin".toList (.bin b)
  | noderef {i} : InColumn "noderef".toList (.int i)
  | noderefMany {is : List Int} : InColumn "noderef_array".toList (.arr (is.map .int))
  | nodespan {i j} : InColumn "nodespan".toList (.arr [.int i, .int j])
  | span {i : Nat} : InColumn "span".toList (.int i)

/-- a value set in a declared field of a node of the document, and not of the declared type -/
def Mistyped (w : World) (t : DataType) (v : Value) : Prop :=
  ∃ k L i n f, dget w.dl k = some L ∧ At w k i n ∧ (f, t) ∈ (w.layers L).fields ∧ dget (w.nodes n).fields f = some v ∧
    v ≠ .none ∧ ¬ Typed t.tname v

/-- a text span that starts beyond the end of its text, and is not empty -/
def Beyond (w : World) (v : Value) : Prop :=
  ∃ T a b, v = .span T a b ∧ a ≠ b ∧ ∀ c, pyIndex (w.texts T).text a ≠ .ok c

end Spec

open Spec

/-! ### numbers -/

theorem floatNum_finite {x : UInt64} (h : Finite x) : Obj.floatNum x = .fin (dValue x) := by
  have hx := x.toNat_lt
  unfold Finite at h
  have e1 : x.toNat / 2 ^ 52 % 2048 = x.toNat % 2 ^ 63 / 2 ^ 52 := by omega
  have e4 : x.toNat % 2 ^ 52 = x.toNat % 2 ^ 63 % 2 ^ 52 := by omega
  unfold Obj.floatNum dValue
  simp only [e1]
  rw [if_neg h]
  unfold magnitude
  rw [e4]
  generalize x.toNat % 2 ^ 63 / 2 ^ 52 = E
  generalize x.toNat % 2 ^ 63 % 2 ^ 52 = F
  have e5 : (x.toNat / 2 ^ 63 = 1) ↔ (2 ^ 63 ≤ x.toNat) := by omega
  by_cases hn : 2 ^ 63 ≤ x.toNat
  · simp only [e5, hn, decide_true, if_true, Nat.add_comm F]
  · simp only [e5, hn, decide_false, if_false, Bool.false_eq_true, Nat.add_comm F]

theorem floatNum_fin {x : UInt64} {z : Int} (h : Obj.floatNum x = .fin z) : Finite x ∧ z = dValue x := by
  have hf : Finite x := by
    intro he
    have hx := x.toNat_lt
    have e1 : x.toNat / 2 ^ 52 % 2048 = 2047 := by omega
    unfold Obj.floatNum at h
    simp only [e1, if_true] at h
    split at h <;> cases h
  rw [floatNum_finite hf] at h
  exact ⟨hf, (Obj.Num.fin.inj h).symm⟩

theorem floatInt_whole {x : UInt64} {i : Int} (h : floatInt x = .ok i) : WholePart x i := by
  unfold floatInt at h
  split at h
  · rename_i z hz
    obtain ⟨hf, rfl⟩ := floatNum_fin hz
    refine ⟨hf, ?_⟩
    have hp : (0 : Int) < (parts : Int) := by have := parts_pos; omega
    have e : (2 ^ 1074 : Int) = (parts : Int) := by unfold parts; rw [Int.natCast_pow]; rfl
    rw [e] at h
    simp only [Except.ok.injEq] at h
    subst h
    generalize (parts : Int) = P at hp
    generalize dValue x = z
    refine ⟨fun h0 => ?_, fun h0 => ?_⟩
    · rw [Int.tdiv_eq_ediv_of_nonneg h0]
      have h1 := Int.mul_ediv_add_emod z P
      have h2 := Int.emod_nonneg z (Int.ne_of_gt hp)
      have h3 := Int.emod_lt_of_pos z hp
      rw [Int.add_mul, Int.one_mul, Int.mul_comm]
      omega
    · have h0' : 0 ≤ -z := by omega
      have e : z.tdiv P = -((-z) / P) := by
        rw [← Int.tdiv_eq_ediv_of_nonneg h0', Int.neg_tdiv, Int.neg_neg]
      rw [e]
      have h1 := Int.mul_ediv_add_emod (-z) P
      have h2 := Int.emod_nonneg (-z) (Int.ne_of_gt hp)
      have h3 := Int.emod_lt_of_pos (-z) hp
      rw [Int.sub_mul, Int.one_mul, Int.neg_mul, Int.mul_comm _ P]
      omega
  · cases h
  · cases h

theorem natDouble_eq (n : Nat) : natDouble n = if natToDouble n < 2047 * 2 ^ 52 then .ok (natToDouble n) else .error .overflow := by
  unfold natDouble natToDouble
  by_cases h0 : n = 0
  · rw [if_pos h0, if_pos h0]; rfl
  · rw [if_neg h0, if_neg h0]
    have : topBits n n.log2 = if n.log2 ≤ 52 then n * 2 ^ (52 - n.log2) else
        (if 2 ^ (n.log2 - 52) < 2 * (n % 2 ^ (n.log2 - 52)) ∨ 2 * (n % 2 ^ (n.log2 - 52)) = 2 ^ (n.log2 - 52) ∧ n / 2 ^ (n.log2 - 52) % 2 = 1
          then n / 2 ^ (n.log2 - 52) + 1 else n / 2 ^ (n.log2 - 52)) := by
      unfold topBits
      split
      · rfl
      · simp only
        generalize n / 2 ^ (n.log2 - 52) = q
        generalize n % 2 ^ (n.log2 - 52) = r
        generalize 2 ^ (n.log2 - 52) = s
        split <;> split <;> omega
    simp only [this]
    by_cases h : n.log2 ≤ 52 <;> simp only [h, if_true, if_false]

theorem apart_abs (a b : Nat) : ((a : Int) - b).natAbs = apart a b := by unfold apart; omega

theorem largest : magnitude (2047 * 2 ^ 52) = 2 ^ 1024 * parts ∧ magnitude (2047 * 2 ^ 52 - 1) = (2 ^ 1024 - 2 ^ 971) * parts := by decide +kernel

/-- the integers that have a nearest float -/
theorem natToDouble_fits (n : Nat) : natToDouble n < 2047 * 2 ^ 52 ↔ n < 2 ^ 1024 - 2 ^ 970 := by
  obtain ⟨l1, l2⟩ := largest
  have n1 := natToDouble_near n (2047 * 2 ^ 52)
  have n2 := natToDouble_near n (2047 * 2 ^ 52 - 1)
  have ev := natToDouble_even n (2047 * 2 ^ 52)
  rw [l1] at n1 ev
  rw [l2] at n2
  have m1 := @magnitude_le (natToDouble n) (2047 * 2 ^ 52 - 1)
  have m2 := @magnitude_le (2047 * 2 ^ 52 - 1) (natToDouble n)
  have m3 := @magnitude_le (2047 * 2 ^ 52) (natToDouble n)
  rw [l2] at m1 m2
  rw [l1] at m3
  have hn : n < 2 ^ 1024 - 2 ^ 970 ↔ n * parts < (2 ^ 1024 - 2 ^ 970) * parts := (Nat.mul_lt_mul_right parts_pos).symm
  rw [hn]
  have hd : 0 < 2 ^ 970 * parts := Nat.mul_pos (Nat.two_pow_pos _) parts_pos
  have e1 : (2 ^ 1024 - 2 ^ 970) * parts + 2 ^ 970 * parts = 2 ^ 1024 * parts := by
    rw [← Nat.add_mul]
  have e2 : (2 ^ 1024 - 2 ^ 971) * parts + 2 * (2 ^ 970 * parts) = 2 ^ 1024 * parts := by
    rw [← Nat.mul_assoc, ← Nat.add_mul]
  generalize 2 ^ 970 * parts = D at *
  generalize (2 ^ 1024 - 2 ^ 970) * parts = U1 at *
  generalize (2 ^ 1024 - 2 ^ 971) * parts = U2 at *
  generalize 2 ^ 1024 * parts = U at *
  generalize magnitude (natToDouble n) = A at *
  generalize n * parts = N at *
  generalize natToDouble n = B at *
  unfold apart at *
  constructor
  · intro h
    have : A ≤ U2 := m1.mpr (by omega)
    apply Decidable.byContradiction
    intro hc
    have : B % 2 = 0 := ev (by omega) (by omega)
    have : U2 ≤ A := by omega
    have := m2.mp this
    omega
  · intro h
    apply Decidable.byContradiction
    intro hc
    have : U ≤ A := m3.mpr (by omega)
    omega

theorem intDouble_nearest {i : Int} {x : UInt64} (h : intDouble i = .ok x) : Nearest i x := by
  unfold intDouble at h
  rw [natDouble_eq] at h
  split at h
  · cases h
  rename_i b hb
  split at hb
  · rename_i hlt
    injection hb with hb
    subst hb
    injection h with h
    have hm : x.toNat % 2 ^ 63 = natToDouble i.natAbs ∧ (2 ^ 63 ≤ x.toNat ↔ i < 0) := by
      rw [← h, UInt64.toNat_ofNat']
      split <;> omega
    have hf : Finite x := by unfold Finite; rw [hm.1]; omega
    refine ⟨hf, (natToDouble_fits _).mp hlt, hm.2, fun y hy => ?_⟩
    have hxe : x.toNat % 2 = natToDouble i.natAbs % 2 := by omega
    have hn := natToDouble_near i.natAbs (y.toNat % 2 ^ 63)
    have he := natToDouble_even i.natAbs (y.toNat % 2 ^ 63)
    have hz := natToDouble_near i.natAbs 0
    rw [show magnitude 0 = 0 from rfl] at hz
    rw [hxe]
    unfold dValue
    rw [hm.1]
    generalize natToDouble i.natAbs % 2 = par at *
    have hp := parts_pos
    generalize magnitude (natToDouble i.natAbs) = A at *
    generalize magnitude (y.toNat % 2 ^ 63) = B at *
    have hi : (i * (parts : Int)).natAbs = i.natAbs * parts := by rw [Int.natAbs_mul]; rfl
    have hs : i < 0 → i * (parts : Int) ≤ 0 := fun h => Int.mul_nonpos_of_nonpos_of_nonneg (by omega) (by omega)
    have hs' : ¬ i < 0 → 0 ≤ i * (parts : Int) := fun h => Int.mul_nonneg (by omega) (by omega)
    generalize i * (parts : Int) = Z at *
    rw [← hi] at hn he hz
    unfold apart at hn he hz
    by_cases hneg : i < 0
    · have := hs hneg
      rw [if_pos (hm.2.mpr hneg)]
      split
      · omega
      · omega
    · have := hs' hneg
      rw [if_neg (fun h => hneg (hm.2.mp h))]
      split
      · omega
      · omega
  · cases hb

/-- there is only one nearest float -/
theorem intDouble_of {i : Int} {x : UInt64} (h : Nearest i x) : intDouble i = .ok x := by
  obtain ⟨y, hy⟩ : ∃ y, intDouble i = .ok y := by
    unfold intDouble
    rw [natDouble_eq, if_pos ((natToDouble_fits _).mpr h.2.1)]
    exact ⟨_, rfl⟩
  rw [hy]
  congr 1
  have k := intDouble_nearest hy
  obtain ⟨fx, -, sx, nx⟩ := h
  obtain ⟨fy, -, sy, ny⟩ := k
  have hx := x.toNat_lt
  have hy' := y.toNat_lt
  have hs : 2 ^ 63 ≤ x.toNat ↔ 2 ^ 63 ≤ y.toNat := sx.trans sy.symm
  by_cases he : dValue x = dValue y
  · unfold dValue at he
    have hm : magnitude (x.toNat % 2 ^ 63) = magnitude (y.toNat % 2 ^ 63) := by
      by_cases h1 : 2 ^ 63 ≤ x.toNat
      · rw [if_pos h1, if_pos (hs.mp h1)] at he; omega
      · rw [if_neg h1, if_neg (fun k => h1 (hs.mpr k))] at he; omega
    have l1 := magnitude_le.mp (Nat.le_of_eq hm)
    have l2 := magnitude_le.mp (Nat.le_of_eq hm.symm)
    apply UInt64.toNat_inj.mp
    omega
  · exfalso
    obtain ⟨a1, a2⟩ := nx y fy
    obtain ⟨b1, b2⟩ := ny x fx
    have ex := a2 (by omega) he
    have ey := b2 (by omega) (Ne.symm he)
    -- the one between them
    have key : ∀ p q : UInt64, Finite p → Finite q → (2 ^ 63 ≤ p.toNat ↔ 2 ^ 63 ≤ q.toNat) → p.toNat % 2 = 0 → q.toNat % 2 = 0 → p.toNat < q.toNat →
        ∃ z, Finite z ∧ (dValue p < dValue z ∧ dValue z < dValue q ∨ dValue q < dValue z ∧ dValue z < dValue p) := by
      intro p q fp fq hs ep eq hlt
      have hp := p.toNat_lt
      have hq := q.toNat_lt
      have hz : (UInt64.ofNat (p.toNat + 1)).toNat = p.toNat + 1 := by rw [UInt64.toNat_ofNat']; omega
      refine ⟨UInt64.ofNat (p.toNat + 1), ?_, ?_⟩
      · unfold Finite at *; rw [hz]; omega
      · unfold dValue
        rw [hz]
        by_cases h1 : 2 ^ 63 ≤ p.toNat
        · have m1 : magnitude (p.toNat % 2 ^ 63) < magnitude ((p.toNat + 1) % 2 ^ 63) := magnitude_lt (by omega)
          have m2 : magnitude ((p.toNat + 1) % 2 ^ 63) < magnitude (q.toNat % 2 ^ 63) := magnitude_lt (by omega)
          rw [if_pos h1, if_pos (hs.mp h1), if_pos (by omega)]
          right; omega
        · have h2 : ¬ 2 ^ 63 ≤ q.toNat := fun k => h1 (hs.mpr k)
          have m1 : magnitude (p.toNat % 2 ^ 63) < magnitude ((p.toNat + 1) % 2 ^ 63) := magnitude_lt (by omega)
          have m2 : magnitude ((p.toNat + 1) % 2 ^ 63) < magnitude (q.toNat % 2 ^ 63) := magnitude_lt (by omega)
          rw [if_neg h1, if_neg h2, if_neg (by omega)]
          left; omega
    have hne : x.toNat ≠ y.toNat := fun k => he (by rw [UInt64.toNat_inj.mp k])
    rcases Nat.lt_or_gt_of_ne hne with hlt | hlt
    · obtain ⟨z, fz, hz⟩ := key x y fx fy hs ex ey hlt
      have := (nx z fz).1
      omega
    · obtain ⟨z, fz, hz⟩ := key y x fy fx hs.symm ey ex hlt
      have := (nx z fz).1
      omega

theorem whole_unique {x : UInt64} {i j : Int} (h : WholePart x i) (k : WholePart x j) : i = j := by
  obtain ⟨-, h1, h2⟩ := h
  obtain ⟨-, k1, k2⟩ := k
  have hp : (0 : Int) < (parts : Int) := by have := parts_pos; omega
  generalize (parts : Int) = P at *
  generalize dValue x = z at *
  have lt : ∀ {a b : Int}, a * P < b * P → a < b := fun h => Int.lt_of_mul_lt_mul_right h (Int.le_of_lt hp)
  rcases Int.le_total 0 z with hz | hz
  · have a := lt (Int.lt_of_le_of_lt (h1 hz).1 (k1 hz).2)
    have b := lt (Int.lt_of_le_of_lt (k1 hz).1 (h1 hz).2)
    omega
  · have a := lt (Int.lt_of_lt_of_le (h2 hz).1 (k2 hz).2)
    have b := lt (Int.lt_of_lt_of_le (k2 hz).1 (h2 hz).2)
    omega

theorem floatInt_of {x : UInt64} {i : Int} (h : WholePart x i) : floatInt x = .ok i := by
  obtain ⟨j, hj⟩ : ∃ j, floatInt x = .ok j := by
    unfold floatInt
    rw [floatNum_finite h.1]
    exact ⟨_, rfl⟩
  rw [hj, whole_unique (floatInt_whole hj) h]

/-! ### text -/

theorem intDigits_groups {s : Str} : ∀ {acc n : Nat} {u : Bool}, intDigits acc u s = some n →
    ∃ (d : Str) (gs : List Str), (u = true → d ≠ []) ∧ (∀ c ∈ d, c.isDigit = true) ∧ (∀ g ∈ gs, AllDigits g) ∧
      s = d ++ (gs.map ('_' :: ·)).flatten ∧ n = Nat.ofDigitChars 10 (d ++ gs.flatten) acc := by
  induction s with
  | nil =>
    intro acc n u h
    simp only [intDigits] at h
    split at h
    · cases h
    · rename_i hu
      cases h
      exact ⟨[], [], fun h => absurd h hu, by simp, by simp, rfl, by simp [Nat.ofDigitChars_eq_foldl]⟩
  | cons c s ih =>
    intro acc n u h
    simp only [intDigits] at h
    split at h
    · rename_i hc
      subst hc
      split at h
      · cases h
      · rename_i hu
        obtain ⟨d, gs, h1, h2, h3, rfl, rfl⟩ := ih h
        exact ⟨[], d :: gs, fun h => absurd h hu, by simp, by
          intro g hg
          rcases List.mem_cons.mp hg with rfl | hg
          · exact ⟨h1 rfl, h2⟩
          · exact h3 g hg, by simp, by simp⟩
    · split at h
      · rename_i hd
        obtain ⟨d, gs, -, h2, h3, rfl, rfl⟩ := ih h
        refine ⟨c :: d, gs, fun _ => by simp, by
          intro x hx
          rcases List.mem_cons.mp hx with rfl | hx
          · exact hd
          · exact h2 x hx, h3, by simp, ?_⟩
        simp only [List.cons_append, Nat.ofDigitChars_eq_foldl, List.foldl_cons]
        congr 1
        rw [Nat.mul_comm]
        rfl
      · cases h

theorem intDigits_of {d : Str} {gs : List Str} {acc : Nat} {u : Bool} (hd : u = true → d ≠ []) (h1 : ∀ c ∈ d, c.isDigit = true)
    (h2 : ∀ g ∈ gs, AllDigits g) : intDigits acc u (d ++ (gs.map ('_' :: ·)).flatten) = some (Nat.ofDigitChars 10 (d ++ gs.flatten) acc) := by
  induction gs generalizing d acc u with
  | nil =>
    simp only [List.map_nil, List.flatten_nil, List.append_nil]
    induction d generalizing acc u with
    | nil =>
      cases u with
      | true => exact absurd rfl (hd rfl)
      | false => simp [intDigits, Nat.ofDigitChars_eq_foldl]
    | cons c d ih =>
      have hc := h1 c (List.mem_cons_self ..)
      have : c ≠ '_' := by rintro rfl; simp at hc
      simp only [intDigits, if_neg this, hc, if_true]
      rw [ih (by simp) (fun c hc => h1 c (List.mem_cons_of_mem _ hc))]
      simp only [Nat.ofDigitChars_eq_foldl, List.foldl_cons, Nat.mul_comm]
      rfl
  | cons g gs ihg =>
    induction d generalizing acc u with
    | nil =>
      cases u with
      | true => exact absurd rfl (hd rfl)
      | false =>
        simp only [List.nil_append, List.map_cons, List.flatten_cons, List.cons_append, intDigits, if_true, Bool.false_eq_true, if_false]
        have hg := h2 g (List.mem_cons_self ..)
        exact ihg (fun _ => hg.1) hg.2 (fun g hg => h2 g (List.mem_cons_of_mem _ hg))
    | cons c d ih =>
      have hc := h1 c (List.mem_cons_self ..)
      have : c ≠ '_' := by rintro rfl; simp at hc
      simp only [List.cons_append, intDigits, if_neg this, hc, if_true]
      rw [ih (by simp) (fun c hc => h1 c (List.mem_cons_of_mem _ hc))]
      simp only [Nat.ofDigitChars_eq_foldl, List.foldl_cons, Nat.mul_comm]
      rfl

theorem spaceC_iff (c : Char) : isSpaceC c = true ↔ c ∈ [' ', '\t', '\n', Char.ofNat 11, Char.ofNat 12, '\r'] := by
  simp [isSpaceC, or_assoc]

/-- text without the white space at its ends -/
theorem strip_parts (s : Str) : ∃ a b, AllSpace a ∧ AllSpace b ∧ s = a ++ ((s.dropWhile isSpaceC).reverse.dropWhile isSpaceC).reverse ++ b := by
  refine ⟨s.takeWhile isSpaceC, ((s.dropWhile isSpaceC).reverse.takeWhile isSpaceC).reverse, ?_, ?_, ?_⟩
  · intro c hc
    exact (spaceC_iff c).mp (List.all_eq_true.mp List.all_takeWhile c hc)
  · intro c hc
    exact (spaceC_iff c).mp (List.all_eq_true.mp List.all_takeWhile c (List.mem_reverse.mp hc))
  · have h1 := List.takeWhile_append_dropWhile (p := isSpaceC) (l := s)
    have h2 := List.takeWhile_append_dropWhile (p := isSpaceC) (l := (s.dropWhile isSpaceC).reverse)
    have h3 := congrArg List.reverse h2
    rw [List.reverse_append, List.reverse_reverse] at h3
    rw [List.append_assoc, h3, h1]

theorem textInt_text {s : Str} {i : Int} (h : textInt s = .ok i) : TextOfInt s i := by
  obtain ⟨a, b, ha, hb, hs⟩ := strip_parts s
  unfold textInt at h
  generalize ((s.dropWhile isSpaceC).reverse.dropWhile isSpaceC).reverse = m at *
  have key : ∀ {r : Str} {j : Int}, intUnsigned r = .ok j → ∃ (d : Str) (gs : List Str), AllDigits d ∧ (∀ g ∈ gs, AllDigits g) ∧
      r = d ++ (gs.map ('_' :: ·)).flatten ∧ j = Nat.ofDigitChars 10 (d ++ gs.flatten) 0 := by
    intro r j hj
    unfold intUnsigned at hj
    split at hj
    · rename_i n hn
      cases hj
      obtain ⟨d, gs, h1, h2, h3, h4, h5⟩ := intDigits_groups hn
      exact ⟨d, gs, ⟨h1 rfl, h2⟩, h3, h4, by rw [h5]⟩
    · cases hj
  split at h
  · rename_i r
    split at h
    · rename_i j hj
      cases h
      obtain ⟨d, gs, h1, h2, rfl, rfl⟩ := key hj
      exact ⟨a, ['-'], d, gs, b, by rw [hs]; simp, ha, hb, h1, h2, .inr ⟨rfl, rfl⟩⟩
    · cases h
  · rename_i r
    obtain ⟨d, gs, h1, h2, rfl, rfl⟩ := key h
    exact ⟨a, ['+'], d, gs, b, by rw [hs]; simp, ha, hb, h1, h2, .inl ⟨.inr rfl, rfl⟩⟩
  · obtain ⟨d, gs, h1, h2, rfl, rfl⟩ := key h
    exact ⟨a, [], d, gs, b, by rw [hs]; simp, ha, hb, h1, h2, .inl ⟨.inl rfl, rfl⟩⟩

/-- white space at both ends goes away if nothing else starts or ends with it -/
theorem strip_middle {a m b : Str} (ha : AllSpace a) (hb : AllSpace b) {c d : Char} (hc : m.head? = some c) (hd : m.getLast? = some d)
    (h1 : isSpaceC c = false) (h2 : isSpaceC d = false) :
    (((a ++ m ++ b).dropWhile isSpaceC).reverse.dropWhile isSpaceC).reverse = m := by
  have drop : ∀ {x y : Str} {e : Char}, AllSpace x → y.head? = some e → isSpaceC e = false → (x ++ y).dropWhile isSpaceC = y := by
    intro x y e hx hy he
    induction x with
    | nil =>
      cases y with
      | nil => rfl
      | cons z y => simp at hy; subst hy; simp [List.dropWhile_cons, he]
    | cons z x ih =>
      have := (spaceC_iff z).mpr (hx z (List.mem_cons_self ..))
      simp only [List.cons_append, List.dropWhile_cons, this, if_true]
      exact ih (fun c hc => hx c (List.mem_cons_of_mem _ hc))
  rw [List.append_assoc, drop ha (e := c) (by rw [List.head?_append, hc]; rfl) h1, List.reverse_append]
  rw [drop (e := d) (fun c hc => hb c (List.mem_reverse.mp hc)) (by rw [List.head?_reverse, hd]) h2, List.reverse_reverse]

theorem digit_noSpace {c : Char} (h : c.isDigit = true) : isSpaceC c = false := by
  cases hs : isSpaceC c with
  | false => rfl
  | true =>
    exfalso
    have := (spaceC_iff c).mp hs
    simp only [List.mem_cons, List.not_mem_nil, or_false] at this
    rcases this with rfl | rfl | rfl | rfl | rfl | rfl <;> revert h <;> decide

/-- the last character of a run of groups is a digit -/
theorem groups_last {d : Str} {gs : List Str} (hd : AllDigits d) (hg : ∀ g ∈ gs, AllDigits g) :
    ∃ c, (d ++ (gs.map ('_' :: ·)).flatten).getLast? = some c ∧ c.isDigit = true := by
  induction gs generalizing d with
  | nil =>
    simp only [List.map_nil, List.flatten_nil, List.append_nil]
    have := List.getLast?_eq_some_getLast hd.1
    exact ⟨_, this, hd.2 _ (List.getLast_mem hd.1)⟩
  | cons g gs ih =>
    obtain ⟨c, h1, h2⟩ := ih (hg g (List.mem_cons_self ..)) (fun g h => hg g (List.mem_cons_of_mem _ h))
    refine ⟨c, ?_, h2⟩
    have : d ++ (List.map ('_' :: ·) (g :: gs)).flatten = (d ++ ['_']) ++ (g ++ (gs.map ('_' :: ·)).flatten) := by simp
    rw [this, List.getLast?_append, h1]
    rfl

theorem textInt_of {s : Str} {i : Int} (h : TextOfInt s i) : textInt s = .ok i := by
  obtain ⟨a, sign, d, gs, b, rfl, ha, hb, hd, hg, hs⟩ := h
  obtain ⟨z, hz, hzd⟩ := groups_last hd hg
  have hu : intUnsigned (d ++ (gs.map ('_' :: ·)).flatten) = .ok (Nat.ofDigitChars 10 (d ++ gs.flatten) 0) := by
    unfold intUnsigned
    rw [intDigits_of (fun _ => hd.1) hd.2 hg]
  have hne : d ++ (gs.map ('_' :: ·)).flatten ≠ [] := by simp [hd.1]
  obtain ⟨x, d', hx⟩ := List.exists_cons_of_ne_nil hd.1
  have hxd : x.isDigit = true := hd.2 x (by rw [hx]; simp)
  have e : a ++ sign ++ d ++ (gs.map ('_' :: ·)).flatten ++ b = a ++ (sign ++ (d ++ (gs.map ('_' :: ·)).flatten)) ++ b := by simp
  unfold textInt
  rw [e]
  have hl : (sign ++ (d ++ (gs.map ('_' :: ·)).flatten)).getLast? = some z := by rw [List.getLast?_append, hz]; rfl
  rcases hs with ⟨rfl | rfl, rfl⟩ | ⟨rfl, rfl⟩
  · rw [strip_middle ha hb (c := x) (d := z) (by rw [hx]; simp) hl (digit_noSpace hxd) (digit_noSpace hzd)]
    rw [List.nil_append]
    split
    · rename_i r hr; rw [hx] at hr; simp at hr; rw [hr.1] at hxd; exact absurd hxd (by decide)
    · rename_i r hr; rw [hx] at hr; simp at hr; rw [hr.1] at hxd; exact absurd hxd (by decide)
    · exact hu
  · rw [strip_middle ha hb (c := '+') (d := z) rfl hl (by decide) (digit_noSpace hzd)]
    exact hu
  · rw [strip_middle ha hb (c := '-') (d := z) rfl hl (by decide) (digit_noSpace hzd)]
    simp only [List.cons_append, List.nil_append, hu]

/-! ### nodes -/

theorem reach_compile {w : World} (h : Reachable w) (x tv : Bool) : Reachable (w.compile x tv).1 := by
  obtain ⟨w0, hs, h1, h2⟩ := h
  exact ⟨w0, _, h1, .snoc (op := .compile x tv) h2 trivial⟩

theorem holds_live {w : World} (hi : Inv w) (L : LayerId) : Holds w L (live (w.layers L).slots) := (holds_iff hi).mpr rfl

theorem iter_stretch {w : World} (h : Reachable w) {l r : NodeId} {ns : List NodeId} (he : w.nodeSpanIter l r = .ok ns) : Stretch w l r ns := by
  have hi := h.inv
  have h0 := he
  simp only [nodeSpanIter, bind, Except.bind] at he
  split at he
  · cases he
  rename_i i hil
  split at he
  · cases he
  rename_i j hjr
  split at he
  · cases he
  rename_i hij
  simp only [iterSpan, hil, hjr, bind, Except.bind] at he
  split at he
  · cases he
  rename_i L hL
  rw [if_pos (by omega)] at he
  simp only [iterNodespan, hil, hjr, bind, Except.bind] at he
  rw [if_neg hij] at he
  split at he
  · cases he
  rename_i hc
  have hcr : (w.nodes r).coll = some L := by
    apply Decidable.byContradiction; intro hn; exact hc (.inr hn)
  clear he
  obtain ⟨pre, mid, post, e, hm⟩ := C14_any_pair L _ (holds_live hi L) l r ((hi.mem_iff L l).mpr hL) ((hi.mem_iff L r).mpr hcr)
  have hh : Holds w L (pre ++ mid ++ post) := e ▸ holds_live hi L
  rcases hm with ⟨h1, h2⟩ | ⟨h1, h2⟩
  · have := (C14_nodespan h L pre mid post l r hh h1 h2).2.1
    rw [h0] at this
    cases this
    exact ⟨L, pre, post, hh, h1, h2⟩
  · have hk := (C14_nodespan h L pre mid post r l hh h1 h2)
    have : l = r := by
      have h3 := hk.1
      simp only [nodeSpanMk, hcr, hil, hjr, bind, Except.bind, reduceCtorEq, if_false] at h3
      split at h3
      · cases h3
      rename_i hji
      obtain ⟨a, a1, a2⟩ := hi.bound l L hL
      obtain ⟨b, b1, b2⟩ := hi.bound r L hcr
      rw [hi.nodeI_ok a1] at hil; rw [hi.nodeI_ok b1] at hjr
      cases hil; cases hjr
      have : a = b := by omega
      subst this
      rw [a2] at b2
      simpa using b2
    subst this
    have := hk.2.1
    rw [h0] at this
    cases this
    exact ⟨L, pre, post, hh, h1, h2⟩

theorem neighbourI_ok {w : World} {e i} (h : w.neighbourI e = .ok i) : ∃ n, e = .ok (some n) ∧ w.nodeI n = .ok i := by
  unfold neighbourI at h
  split at h
  · exact ⟨_, rfl, h⟩
  · cases h
  · cases h

theorem left_right {w : World} (h : Reachable w) {n l r : NodeId} (h1 : w.nodeLeft n = .ok (some l)) (h2 : w.nodeRight n = .ok (some r)) :
    ∃ L a b, Holds w L (a ++ [l, n, r] ++ b) := by
  have hi := h.inv
  cases hc : (w.nodes n).coll with
  | none => rw [nodeLeft, hc] at h1; cases h1
  | some L =>
    obtain ⟨pre, post, e⟩ := List.append_of_mem ((hi.mem_iff L n).mpr hc)
    have hh : Holds w L (pre ++ n :: post) := e ▸ holds_live hi L
    obtain ⟨e1, e2⟩ := C13_neighbours h L pre post n hh
    rw [h1] at e1; rw [h2] at e2
    injection e1 with e1; injection e2 with e2
    obtain ⟨a, rfl⟩ := List.getLast?_eq_some_iff.mp e1.symm
    cases post with
    | nil => simp at e2
    | cons x b =>
      simp at e2; subst e2
      refine ⟨L, a, b, ?_⟩
      have : a ++ [l] ++ n :: r :: b = a ++ [l, n, r] ++ b := by simp
      rw [← this]; exact hh

theorem truth_spec {w : World} (h : Reachable w) {v : Value} {b : Bool} : (w.truth v = .ok b ∧ v ≠ .other) ↔ Truth w v b := by
  cases v with
  | none => cases b <;> simp [truth, Truth]
  | bool c => cases b <;> cases c <;> simp [truth, Truth]
  | int i => cases b <;> simp [truth, Truth]
  | float x =>
    have : (¬ Obj.floatNum x = .fin 0) ↔ (Finite x → dValue x ≠ 0) := by
      constructor
      · intro h1 hf h2
        exact h1 (by rw [floatNum_finite hf, h2])
      · intro h1 h2
        obtain ⟨hf, e⟩ := floatNum_fin h2
        exact h1 hf e.symm
    simp only [truth, Truth, ne_eq, ← this]
    cases b <;> simp
  | str s => cases b <;> simp [truth, Truth]
  | bytes s => cases b <;> simp [truth, Truth]
  | node n =>
    have : (¬ (w.nodes n).fields = []) ↔ ∃ f v, dget (w.nodes n).fields f = some v := by
      constructor
      · intro hne
        obtain ⟨e, d, hd⟩ := List.exists_cons_of_ne_nil hne
        obtain ⟨f, v⟩ := e
        refine ⟨f, v, ?_⟩
        rw [hd]; simp [dget]
      · rintro ⟨f, v, hv⟩ e
        rw [e] at hv; cases hv
    simp only [truth, Truth, ne_eq, ← this]
    cases b <;> simp
  | nodes ns => cases b <;> simp [truth, Truth]
  | nodespan l r =>
    simp only [truth, Truth]
    constructor
    · rintro ⟨he, -⟩
      split at he
      · cases he
      · rename_i ns hns
        cases he
        have hs := iter_stretch h hns
        obtain ⟨L, p, q, -, h1, -⟩ := id hs
        refine ⟨?_, _, hs⟩
        simp only [ne_eq, decide_eq_true_eq]
        rintro rfl; cases h1
    · rintro ⟨rfl, ns, L, p, q, h1, h2, h3⟩
      rw [(C14_nodespan h L p ns q l r h1 h2 h3).2.1]
      refine ⟨?_, by simp⟩
      cases ns with
      | nil => cases h2
      | cons => rfl
  | span T a c =>
    have : (¬ c - a = 0) ↔ a ≠ c := by omega
    simp only [truth, Truth, ne_eq, this]
    cases b <;> simp
  | ext a c => cases b <;> simp [truth, Truth]
  | data o => cases o <;> simp only [truth, Truth, reduceCtorEq, false_and] <;> cases b <;> simp
  | other => simp [truth, Truth]

theorem mapE_bytes : ∀ {l : List Obj} {b : Bytes}, mapE byteOf l = .ok b → l.length = b.length ∧
    ∀ (j : Nat) o y, l[j]? = some o → b[j]? = some y → o = .int y.toNat ∨ ∃ c : Bool, o = .bool c ∧ y = if c then 1 else 0 := by
  intro l
  induction l with
  | nil => intro b h; cases h; exact ⟨rfl, by simp⟩
  | cons o l ih =>
    intro b h
    simp only [mapE] at h
    split at h
    · cases h
    rename_i y hy
    split at h
    · cases h
    rename_i ys hys
    cases h
    obtain ⟨h1, h2⟩ := ih hys
    refine ⟨by simp [h1], ?_⟩
    intro j o' y' ho hy'
    cases j with
    | zero =>
      simp at ho hy'; subst ho; subst hy'
      unfold byteOf at hy
      split at hy
      · rename_i i
        split at hy
        · cases hy
          left
          have : (UInt8.ofNat i.toNat).toNat = i.toNat := by rw [UInt8.toNat_ofNat']; omega
          rw [this]; congr 1; omega
        · cases hy
      · rename_i c
        cases hy
        right; exact ⟨c, rfl, by cases c <;> rfl⟩
      · cases hy
    | succ j => exact h2 j o' y' (by simpa using ho) (by simpa using hy')

/-- what is written for one value is what is written for what it becomes -/
theorem cell_becomes {w : World} (h : Reachable w) {idx : Dict Int Nat} {t : TName} {v : Value} {l : List Obj} (hne : v ≠ .none) (ht : t ≠ .span)
    (he : w.encodeCell idx t v = .ok l) :
    Typed t v ∨ (∃ v', Becomes w t v v' ∧ (Typed t v' ∨ v' = .none) ∧ w.encodeCell idx t v' = .ok l) ∨ (t = .noderefMany ∧ Beyond w v) := by
  have hint : ∀ {t}, t = .i32 ∨ t = .i64 → ∀ {v l}, (match World.asInt v with | .ok i => .ok [.int i] | .error e => .error e : Except PyErr (List Obj)) = .ok l →
      v = .none ∨ Typed t v ∨ (∃ v', Becomes w t v v' ∧ (Typed t v' ∨ v' = .none) ∧ w.encodeCell idx t v' = .ok l) := by
    intro t ht v l hl
    split at hl
    · rename_i i hi
      cases hl
      have hty : ∀ i, Typed t (.int i) := by intro i; rcases ht with rfl | rfl <;> constructor
      have hen : w.encodeCell idx t (.int i) = .ok [.int i] := by rcases ht with rfl | rfl <;> rfl
      right
      cases v <;> simp only [World.asInt, reduceCtorEq] at hi
      case bool b => cases hi; exact .inr ⟨_, .intBool ht, .inl (hty _), hen⟩
      case int j => exact .inl (hty _)
      case float x => exact .inr ⟨_, .whole ht (floatInt_whole hi), .inl (hty _), hen⟩
      case str s =>
        split at hi
        · exact .inr ⟨_, .intText ht (textInt_text hi), .inl (hty _), hen⟩
        · cases hi
      case bytes b => exact .inr ⟨_, .intBytes ht (textInt_text hi), .inl (hty _), hen⟩
    · cases hl
  have hother : ∀ {v}, w.encodeOther t v = .ok l → v ≠ .none → 
      Typed t v ∨ (∃ v', Becomes w t v v' ∧ (Typed t v' ∨ v' = .none) ∧ w.encodeCell idx t v' = .ok l) ∨ (t = .noderefMany ∧ Beyond w v) := by
    intro v he hne
    unfold encodeOther at he
    split at he
    · rcases hint (.inl rfl) he with rfl | h | h
      · exact absurd rfl hne
      · exact .inl h
      · exact .inr (.inl h)
    · rcases hint (.inr rfl) he with rfl | h | h
      · exact absurd rfl hne
      · exact .inl h
      · exact .inr (.inl h)
    · split at he
      · rename_i x hx
        cases he
        cases v <;> simp only [asFloat, reduceCtorEq] at hx
        case float y => exact .inl .f64
        case int i => exact .inr (.inl ⟨_, .nearest (intDouble_nearest hx), .inl .f64, rfl⟩)
        case bool b => exact .inr (.inl ⟨_, .nearestBool (intDouble_nearest hx), .inl .f64, rfl⟩)
      · cases he
    · split at he
      · rename_i b hb
        cases he
        have hb : w.truth v = .ok b ∧ v ≠ .other := by
          unfold asTruth at hb
          split at hb
          · cases hb
          · exact ⟨hb, by assumption⟩
        exact .inr (.inl ⟨_, .truth hne ((truth_spec h).mp hb), .inl .bool, rfl⟩)
      · cases he
    · split at he
      · rename_i s hs
        cases he
        cases v <;> simp only [asText, reduceCtorEq] at hs
        case none => exact absurd rfl hne
        case str s => exact .inl .string
        case int i => cases hs; exact .inr (.inl ⟨_, .decimal, .inl .string, rfl⟩)
        case bool b => cases hs; exact .inr (.inl ⟨_, .boolText, .inl .string, rfl⟩)
        case span T a b => cases hs; exact .inr (.inl ⟨_, .spanText, .inl .string, rfl⟩)
        case bytes b => cases hs; exact .inr (.inl ⟨_, .bytesText, .inl .string, rfl⟩)
      · cases he
    · split at he
      · rename_i b hb
        cases he
        cases v <;> simp only [asBytes, reduceCtorEq] at hb
        case bytes b => exact .inl .binary
        case int i =>
          split at hb
          · cases hb
          · cases hb
            have : i = (i.toNat : Int) := by omega
            refine .inr (.inl ⟨_, ?_, .inl .binary, rfl⟩)
            exact this ▸ (.zeros : Becomes w .binary (.int (i.toNat : Int)) _)
        case bool b => cases hb; exact .inr (.inl ⟨_, .oneZero, .inl .binary, rfl⟩)
        case node n =>
          split at hb
          · rename_i hf
            cases hb
            exact .inr (.inl ⟨_, .bareNode (fun f => by rw [hf]; rfl), .inl .binary, rfl⟩)
          · cases hb
        case nodes ns =>
          split at hb
          · rename_i hf
            subst hf
            cases hb
            exact .inr (.inl ⟨_, .noNode, .inl .binary, rfl⟩)
          · cases hb
        case nodespan a c =>
          split at hb
          · rename_i ns hns
            split at hb
            · rename_i hn
              subst hn
              obtain ⟨-, -, -, -, h1, -⟩ := iter_stretch h hns
              cases h1
            · cases hb
          · cases hb
        case span T a c =>
          split at hb
          · cases hb
          · rename_i hx
            cases hb
            exact .inr (.inl ⟨_, .farSpan (fun c hc => by rw [hc] at hx; cases hx), .inl .binary, rfl⟩)
        case data o =>
          cases o <;> simp only [reduceCtorEq] at hb
          case arr a =>
            obtain ⟨h1, h2⟩ := mapE_bytes hb
            exact .inr (.inl ⟨_, .byteList h1 h2, .inl .binary, rfl⟩)
          case map a =>
            split at hb
            · rename_i hf
              subst hf
              cases hb
              exact .inr (.inl ⟨_, .noEntry, .inl .binary, rfl⟩)
            · cases hb
      · cases he
    · split at he
      · rename_i hns
        obtain ⟨-, -, -, -, h1, -⟩ := iter_stretch h hns
        cases h1
      · rename_i ns hne hns
        split at he
        · rename_i is his
          cases he
          refine .inr (.inl ⟨_, .stretch (iter_stretch h hns), .inl .noderefMany, ?_⟩)
          cases ns with
          | nil => exact absurd rfl hne
          | cons n ns => simp only [encodeCell, his]
        · cases he
      · cases he
    · rename_i T a b _
      simp only [lenZero, truth] at he
      split at he
      · rename_i hz
        cases he
        refine .inr (.inl ⟨_, .noNodes ?_ (by simp) (by simp) (by simp), .inr rfl, rfl⟩)
        simp at hz
        simp only [Truth, Bool.false_eq_true, false_iff]; omega
      · rename_i hz
        split at he
        · cases he
        · rename_i hx
          cases he
          refine .inr (.inr ⟨rfl, T, a, b, rfl, ?_, fun c hc => by rw [hc] at hx; cases hx⟩)
          simp at hz
          omega
      · cases he
    · rename_i hns hsp
      split at he
      · rename_i hz
        cases he
        unfold lenZero at hz
        split at hz <;> try (cases hz; done)
        rename_i v h0 h1 h2 h3 h4 h5
        split at hz
        · rename_i b hb
          simp at hz
          subst hz
          exact .inr (.inl ⟨_, .noNodes ((truth_spec h).mp ⟨hb, h5⟩) h2 h1 h3, .inr rfl, rfl⟩)
        · cases hz
      · cases he
      · cases he
    · rename_i n
      split at he
      · rename_i i j h1 h2
        cases he
        obtain ⟨a, a1, a2⟩ := neighbourI_ok h1
        obtain ⟨b, b1, b2⟩ := neighbourI_ok h2
        obtain ⟨L, p, q, hh⟩ := left_right h a1 b1
        exact .inr (.inl ⟨_, .neighbours hh, .inl .nodespan, by simp only [encodeCell, a2, b2]⟩)
      · cases he
      · cases he
    · cases he
    · cases he
  unfold encodeCell at he
  split at he <;> first
    | exact absurd rfl hne
    | exact absurd rfl ht
    | exact .inl (by constructor)
    | (rename_i b; cases he; exact .inr (.inl ⟨_, .intBool (.inl rfl), .inl .i32, rfl⟩))
    | (rename_i b; cases he; exact .inr (.inl ⟨_, .intBool (.inr rfl), .inl .i64, rfl⟩))
    | exact hother he hne


/-! ### documents -/

theorem Holds.same {w u : World} (hi : Inv w) (hu : Inv u) (s : SameObs w u) {L ns} (h : Holds u L ns) : Holds w L ns := by
  rw [holds_iff hi]; rw [holds_iff hu] at h; rw [h, s.live]

theorem Stretch.same {w u : World} (hi : Inv w) (hu : Inv u) (s : SameObs w u) {l r ns} (h : Stretch u l r ns) : Stretch w l r ns := by
  obtain ⟨L, a, b, h1, h2, h3⟩ := h
  exact ⟨L, a, b, Holds.same hi hu s h1, h2, h3⟩

theorem Truth.same {w u : World} (hi : Inv w) (hu : Inv u) (s : SameObs w u) {v b} (h : Truth u v b) : Truth w v b := by
  cases v with
  | node n => simp only [Truth, (s.node n).2] at h ⊢; exact h
  | nodespan l r => obtain ⟨h1, ns, h2⟩ := h; exact ⟨h1, ns, Stretch.same hi hu s h2⟩
  | data o => cases o <;> exact h
  | _ => exact h

theorem Becomes.same {w u : World} (hi : Inv w) (hu : Inv u) (s : SameObs w u) {t v v'} (h : Becomes u t v v') : Becomes w t v v' := by
  cases h with
  | intBool h => exact .intBool h
  | whole h k => exact .whole h k
  | intText h k => exact .intText h k
  | intBytes h k => exact .intBytes h k
  | nearest h => exact .nearest h
  | nearestBool h => exact .nearestBool h
  | truth h k => exact .truth h (Truth.same hi hu s k)
  | decimal => exact .decimal
  | boolText => exact .boolText
  | spanText => rw [s.texts]; exact .spanText
  | bytesText => exact .bytesText
  | zeros => exact .zeros
  | oneZero => exact .oneZero
  | byteList h k => exact .byteList h k
  | bareNode h => exact .bareNode (fun f => by rw [← (s.node _).2]; exact h f)
  | noNode => exact .noNode
  | noEntry => exact .noEntry
  | farSpan h => exact .farSpan (by rw [← s.texts]; exact h)
  | stretch h => exact .stretch (Stretch.same hi hu s h)
  | noNodes h a b c => exact .noNodes (Truth.same hi hu s h) a b c
  | neighbours h => exact .neighbours (Holds.same hi hu s h)

theorem textInt_ascii {s : Str} {i : Int} (h : TextOfInt s i) : s.all (fun c => decide (c.toNat < 128)) = true := by
  obtain ⟨a, sign, d, gs, b, rfl, ha, hb, hd, hg, hs⟩ := h
  have dig : ∀ c : Char, c.isDigit = true → c.toNat < 128 := by
    intro c hc
    simp only [Char.isDigit, Bool.and_eq_true, decide_eq_true_eq] at hc
    have := UInt32.le_iff_toNat_le.mp hc.2
    exact Nat.lt_of_le_of_lt this (by decide)
  have spc : ∀ c : Char, c ∈ [' ', '\t', '\n', Char.ofNat 11, Char.ofNat 12, '\r'] → c.toNat < 128 := by
    intro c hc
    simp only [List.mem_cons, List.not_mem_nil, or_false] at hc
    rcases hc with rfl | rfl | rfl | rfl | rfl | rfl <;> decide
  have sg : ∀ c ∈ sign, c.toNat < 128 := by
    intro c hc
    rcases hs with ⟨rfl | rfl, -⟩ | ⟨rfl, -⟩
    · cases hc
    · simp at hc; subst hc; decide
    · simp at hc; subst hc; decide
  have gr : ∀ c ∈ (gs.map ('_' :: ·)).flatten, c.toNat < 128 := by
    intro c hc
    obtain ⟨l, hl, hc⟩ := List.mem_flatten.mp hc
    obtain ⟨g, hg', rfl⟩ := List.mem_map.mp hl
    rcases List.mem_cons.mp hc with rfl | hc
    · decide
    · exact dig c ((hg g hg').2 c hc)
  rw [List.all_eq_true]
  intro c hc
  simp only [List.mem_append] at hc
  rw [decide_eq_true_eq]
  rcases hc with (((hc | hc) | hc) | hc) | hc
  · exact spc c (ha c hc)
  · exact sg c hc
  · exact dig c (hd.2 c hc)
  · exact gr c hc
  · exact spc c (hb c hc)

theorem mapE_bytes_of : ∀ {l : List Obj} {b : Bytes}, l.length = b.length →
    (∀ (j : Nat) o y, l[j]? = some o → b[j]? = some y → o = .int y.toNat ∨ ∃ c : Bool, o = .bool c ∧ y = if c then 1 else 0) → mapE byteOf l = .ok b := by
  intro l
  induction l with
  | nil => intro b h _; cases b with | nil => rfl | cons => simp at h
  | cons o l ih =>
    intro b h k
    cases b with
    | nil => simp at h
    | cons y b =>
      have e : byteOf o = .ok y := by
        rcases k 0 o y rfl rfl with rfl | ⟨c, rfl, rfl⟩
        · have := y.toNat_lt
          simp only [byteOf]
          rw [if_pos (by omega)]
          congr 1
          apply UInt8.toNat_inj.mp
          simp
        · cases c <;> rfl
      simp only [mapE, e, ih (by simpa using h) (fun j o y h1 h2 => k (j + 1) o y (by simpa using h1) (by simpa using h2))]

/-- a value is written as what it becomes -/
theorem cell_accepts {w : World} (h : Reachable w) {idx : Dict Int Nat} {t : TName} {v v' : Value} (hb : Becomes w t v v') :
    w.encodeCell idx t v = w.encodeCell idx t v' := by
  cases hb with
  | intBool h => rcases h with rfl | rfl <;> rfl
  | whole h k => rcases h with rfl | rfl <;> simp only [encodeCell, encodeOther, World.asInt, floatInt_of k]
  | intText h k => rcases h with rfl | rfl <;> simp only [encodeCell, encodeOther, World.asInt, textInt_of k, textInt_ascii k, if_true]
  | intBytes h k => rcases h with rfl | rfl <;> simp only [encodeCell, encodeOther, World.asInt, textInt_of k]
  | nearest k => simp only [encodeCell, encodeOther, asFloat, intDouble_of k]
  | nearestBool k => simp only [encodeCell, encodeOther, asFloat, intDouble_of k]
  | truth hn k =>
    obtain ⟨k1, k2⟩ := (truth_spec h).mpr k
    have : w.asTruth v = w.truth v := by cases v <;> first | rfl | exact absurd rfl k2
    cases v <;> first
      | exact absurd rfl hn
      | (cases k1; rfl)
      | simp only [encodeCell, encodeOther, this, k1]
  | decimal => rfl
  | boolText => rfl
  | spanText => rfl
  | bytesText => rfl
  | zeros => simp only [encodeCell, encodeOther, asBytes]; rw [if_neg (by omega)]; rfl
  | oneZero => rfl
  | byteList k1 k2 => simp only [encodeCell, encodeOther, asBytes, mapE_bytes_of k1 k2]
  | bareNode k =>
    rename_i n
    have : (w.nodes n).fields = [] := by
      cases hf : (w.nodes n).fields with
      | nil => rfl
      | cons e d => obtain ⟨f, v⟩ := e; have := k f; rw [hf] at this; simp [dget] at this
    simp only [encodeCell, encodeOther, asBytes, this, if_true]
  | noNode => rfl
  | noEntry => rfl
  | farSpan k =>
    rename_i T a b
    simp only [encodeCell, encodeOther, asBytes]
    cases hp : pyIndex (w.texts T).text a with
    | ok c => exact absurd hp (k c)
    | error e => rfl
  | stretch k =>
    obtain ⟨L, p, q, h1, h2, h3⟩ := k
    have := (C14_nodespan h L p _ q _ _ h1 h2 h3).2.1
    rename_i ns
    cases ns with
    | nil => cases h2
    | cons n ns => simp only [encodeCell, encodeOther, this]
  | noNodes k a b c =>
    obtain ⟨k1, k2⟩ := (truth_spec h).mpr k
    cases v <;> first
      | exact absurd rfl (a _)
      | exact absurd rfl (b _)
      | exact absurd rfl (c _)
      | exact absurd rfl k2
      | rfl
      | (simp only [encodeCell, encodeOther, lenZero, k1, Bool.not_false]; done)
      | (simp only [Truth, Bool.false_eq_true, false_and] at k; done)
      | skip
    case nodes ns =>
      have : ns = [] := by simpa [Truth] using k
      subst this; rfl
  | neighbours k =>
    rename_i n l r L a b
    have e : Holds w L ((a ++ [l]) ++ n :: (r :: b)) := by
      have : (a ++ [l]) ++ n :: (r :: b) = a ++ [l, n, r] ++ b := by simp
      rw [this]; exact k
    obtain ⟨e1, e2⟩ := C13_neighbours h L _ _ n e
    rw [List.getLast?_append, List.getLast?_singleton] at e1
    simp only [Option.some_or, List.head?_cons] at e1 e2
    simp only [encodeCell, encodeOther, e1, e2, neighbourI]

theorem Beyond.same {w u : World} (s : SameObs w u) {v} (h : Beyond u v) : Beyond w v := by
  obtain ⟨T, a, b, h1, h2, h3⟩ := h
  exact ⟨T, a, b, h1, h2, by rw [← s.texts]; exact h3⟩

/-- the index of offsets only matters for spans -/
theorem encodeCell_idx (w : World) {t : TName} (ht : t ≠ .span) (v : Value) (a b : Dict Int Nat) : w.encodeCell a t v = w.encodeCell b t v := by
  unfold encodeCell
  split <;> first | rfl | exact absurd rfl ht | skip

theorem span_cell_typed {w : World} {idx v l} (h : w.encodeCell idx .span v = .ok l) (hne : v ≠ .none) : Typed .span v := by
  cases v <;> first | exact .span | exact absurd rfl hne | cases h

/-- C102. Where types are not checked, a value is written as what it becomes: encoding does the same, down to its errors, as
if that had been set instead. -/
theorem C102_same {w : World} (h : Reachable w) {x tv : Bool} {k : Str} {L : LayerId} {i : Nat} {n : NodeId} {f : Str} {t : DataType} {v v' : Value}
    (hL : dget w.dl k = some L) (hn : At w k i n) (hf : (f, t) ∈ (w.layers L).fields) (hv : dget (w.nodes n).fields f = some v)
    (hb : Becomes w t.tname v v') (hch : tv = false ∨ x = true ∨ t.checked = false) :
    ((w.setField n f v').toWire x tv).2 = (w.toWire x tv).2 := by
  have hsp : t.tname ≠ .span := by
    intro e
    rw [e] at hb
    cases hb <;> simp_all
  obtain ⟨i1, so⟩ := compile_spec h.inv x tv
  rw [setField_with]
  obtain ⟨L', hL', hat⟩ := hn
  rw [hL] at hL'; cases hL'
  have hlive : n ∈ live (w.layers L).slots := by
    have := List.mem_of_getElem? hat
    rw [h.inv.iter_eq] at this; simpa using this
  have hcoll := (h.inv.mem_iff L n).mp hlive
  -- the only cell that changes
  have key : ∀ (k' : Str) (L' : LayerId) (f' : Str) (t' : DataType) (m : NodeId), (k', L') ∈ w.dl → (f', t') ∈ (w.layers L').fields → m ∈ live (w.layers L').slots →
      dget (if m = n then dset (w.nodes n).fields f v' else (w.nodes m).fields) f' = dget (w.nodes m).fields f' ∨ (m = n ∧ f' = f ∧ t' = t) := by
    intro k' L' f' t' m h2 h3 h4
    by_cases hm : m = n
    · subst hm
      have := (h.inv.mem_iff L' m).mp h4
      rw [hcoll] at this; cases this
      rw [if_pos rfl, dget_dset]
      by_cases hff : f = f'
      · subst hff
        refine .inr ⟨rfl, rfl, ?_⟩
        have a := dget_of_mem (h.wf.fieldKeys L) h3
        have b := dget_of_mem (h.wf.fieldKeys L) hf
        rw [a] at b; cases b; rfl
      · rw [if_neg hff]; exact .inl rfl
    · rw [if_neg hm]; exact .inl rfl
  have hkey : f ∈ dkeys (w.nodes n).fields := List.mem_map.mpr ⟨_, dget_mem hv, rfl⟩
  refine toWire_with _ h.inv ⟨fun m => ?_, fun k' L' f' t' m h2 h3 hs h4 => ?_, fun hcond k' L' f' t' m h2 h3 h4 => ?_⟩
    (fun k' L' f' t' m h2 h3 h4 idx' => ?_)
  · by_cases hm : m = n
    · subst hm; rw [if_pos rfl, dkeys_dset, if_pos hkey]
    · rw [if_neg hm]
  · rcases key k' L' f' t' m h2 h3 h4 with he | ⟨-, -, rfl⟩
    · exact he
    · exact absurd hs hsp
  · rcases key k' L' f' t' m h2 h3 h4 with he | ⟨-, -, rfl⟩
    · exact .inl he
    · rcases hch with rfl | rfl | hch
      · simp at hcond
      · simp at hcond
      · exact .inr hch
  · rcases key k' L' f' t' m h2 h3 h4 with he | ⟨rfl, rfl, rfl⟩
    · rw [he]
    · rw [if_pos rfl, dget_dset, if_pos rfl, hv, Option.getD_some, Option.getD_some]
      exact (cell_accepts (reach_compile h x tv) (Becomes.same i1 h.inv (SameObs.symm so) hb)).symm

/-- C102. If a document is encoded, every value set is of the declared type, or `Becomes` gives one that is and that it is
written as. (One exception: a text span that starts beyond its text, for an array of nodes.) -/
theorem C102_converted {w : World} (h : Reachable w) {x tv : Bool} {wire : Wire} (hok : (w.toWire x tv).2 = .ok wire)
    {k : Str} {L : LayerId} {i : Nat} {n : NodeId} {f : Str} {t : DataType} {v : Value}
    (hL : dget w.dl k = some L) (hn : At w k i n) (hf : (f, t) ∈ (w.layers L).fields) (hv : dget (w.nodes n).fields f = some v) (hne : v ≠ .none) :
    Typed t.tname v ∨
    (∃ v', Becomes w t.tname v v' ∧ (Typed t.tname v' ∨ v' = .none) ∧
      ((tv = false ∨ x = true ∨ t.checked = false) → ((w.setField n f v').toWire x tv).2 = .ok wire)) ∨
    (t.tname = .noderefMany ∧ Beyond w v) := by
  obtain ⟨w1, offs, idx, wl, tw, col, cell, hc, i1, so, -, -, -, hcell, -⟩ := wire_cell h hok hL hn hf
  rw [hv, Option.getD_some] at hcell
  by_cases hsp : t.tname = .span
  · rw [hsp] at hcell ⊢
    exact .inl (span_cell_typed hcell hne)
  have h1 : Reachable w1 := by have := reach_compile h x tv; rwa [hc] at this
  rcases cell_becomes h1 hne hsp hcell with hh | ⟨v', hb, hty, -⟩ | ⟨hh, hb⟩
  · exact .inl hh
  · have hb := Becomes.same h.inv i1 so hb
    exact .inr (.inl ⟨v', hb, hty, fun hch => by rw [C102_same h hL hn hf hv hb hch, hok]⟩)
  · exact .inr (.inr ⟨hh, Beyond.same so hb⟩)

/-- C102. Whatever the values, the data written has in each column only entries of the kind its type calls for. -/
theorem C102_columns (w : World) (x tv : Bool) {wire : Wire} (hok : (w.toWire x tv).2 = .ok wire) {k wl f tw col o}
    (hk : (k, wl) ∈ wire.layers) (hf : (f, tw, col) ∈ wl.cols) (ho : o ∈ col) : InColumn tw.name o := by
  unfold toWire at hok
  cases hc : w.compile x tv with
  | mk w1 r1 =>
  rw [hc] at hok
  cases r1 with
  | error e => simp at hok
  | ok offs =>
  simp only at hok
  unfold wireOf at hok
  split at hok
  · simp at hok
  split at hok
  · simp at hok
  rename_i lays hlays
  split at hok
  · simp at hok
  cases hok
  obtain ⟨e, -, he⟩ := mapE_mem hlays hk
  unfold encodeEntry at he
  split at he
  · simp at he
  rename_i wl' hwl
  cases he
  unfold encodeLayer at hwl
  split at hwl
  · simp at hwl
  rename_i cols hcols
  cases hwl
  obtain ⟨e', -, he'⟩ := mapE_mem hcols hf
  obtain ⟨f', t⟩ := e'
  unfold encodeField at he'
  split at he'
  · simp at he'
  rename_i tw' htw
  split at he'
  · simp at he'
  rename_i col' hcol
  cases he'
  have hname : t.tname.wire = .ok tw.name := by
    unfold DataType.encode at htw
    split at htw
    · simp at htw
    · rename_i s hs
      simp only at hs htw
      split at htw
      · cases htw; exact hs
      · split at htw
        · cases htw; exact hs
        · simp at htw
  unfold encodeCol at hcol
  split at hcol
  · simp at hcol
  split at hcol
  · simp at hcol
  split at hcol
  · simp at hcol
  rename_i cells hcells
  cases hcol
  obtain ⟨c, hc1, hc2⟩ := List.mem_flatten.mp ho
  obtain ⟨m, -, hm⟩ := mapE_mem hcells hc1
  cases m with
  | none => simp at hm
  | some m =>
    have := encodeCell_kind hm o hc2
    simp only at this
    generalize t.tname = tn at hname this
    generalize tw.name = nm at hname
    cases this with
    | nil => exact .missing
    | int h => rcases h with rfl | rfl <;> (cases hname; constructor)
    | float => cases hname; exact .f64
    | bool => cases hname; exact .bool
    | str => cases hname; exact .string
    | bin => cases hname; exact .binary
    | node => cases hname; exact .noderef
    | nodes => cases hname; exact .noderefMany
    | pair => cases hname; exact .nodespan
    | span => cases hname; exact .span

theorem textInt_err {s : Str} {e : PyErr} (h : textInt s = .error e) : e = .value := by
  have hu : ∀ {r e}, intUnsigned r = .error e → e = .value := by
    intro r e h
    unfold intUnsigned at h
    split at h <;> cases h
    rfl
  unfold textInt at h
  split at h
  · split at h
    · cases h
    · rename_i e1; cases h; exact hu e1
  · exact hu h
  · exact hu h

/-- C102. Text for integers is read as Python's `int` reads it; other text is refused with ValueError. -/
theorem C102_int_text (s : Str) : (∀ i, textInt s = .ok i ↔ TextOfInt s i) ∧ ((∀ i, ¬ TextOfInt s i) → textInt s = .error .value) := by
  refine ⟨fun i => ⟨textInt_text, textInt_of⟩, fun h => ?_⟩
  cases e : textInt s with
  | ok i => exact absurd (textInt_text e) (h i)
  | error e' => rw [textInt_err e]

/-- C102 in full: a document with a value that is not of the declared type is not encoded. -/
def C102_full : Prop := ∀ w, Reachable w → ∀ t v, Mistyped w t v → ∀ wire, (w.toWire false true).2 ≠ .ok wire

theorem validated {w : World} (hi : Inv w) {w1 offs} (hc : w.compile false true = (w1, .ok offs)) {k L n} (hk : (k, L) ∈ w.dl)
    (hn : some n ∈ w.iter L) : ∃ u, Inv u ∧ SameObs w u ∧ u.validate L n = .ok () := by
  unfold compile at hc
  split at hc
  · simp at hc
  · split at hc
    · simp at hc
    · split at hc
      · simp at hc
      · split at hc
        · simp at hc
        · rename_i o ho
          exact (compileLayers_done false true w.dl hi _ o (congrArg Prod.snd ho)).1 rfl rfl k L n hk hn

/-- C102, in part: encoding with its validation, and with types that check their values, refuses a value that is not of the
declared type, but for a bool where an integer is declared and a NodeSpan where an array of nodes is. Missing: types
that check nothing, which is what decoding makes, and encoding without validation. -/
theorem C102_refused_partial {w : World} (h : Reachable w) {t : DataType} {v : Value} (hm : Mistyped w t v) (ht : t.checked = true)
    (hb : ∀ b, v = .bool b → t.tname ≠ .i32 ∧ t.tname ≠ .i64) (hs : ∀ l r, v = .nodespan l r → t.tname ≠ .noderefMany) :
    ∀ wire, (w.toWire false true).2 ≠ .ok wire := by
  intro wire hok
  obtain ⟨k, L, i, n, f, hL, hn, hf, hv, hne, hty⟩ := hm
  obtain ⟨w1, offs, idx, wl, tw, col, cell, hc, i1, so, -, -, -, hcell, -⟩ := wire_cell h hok hL hn hf
  rw [hv, Option.getD_some] at hcell
  obtain ⟨L', hL', hat⟩ := hn
  rw [hL] at hL'; cases hL'
  obtain ⟨u, -, su, hu⟩ := validated h.inv hc (dget_mem hL) (List.mem_of_getElem? hat)
  have := (validateFields_iff u _ _).mp hu (f, t) (by rw [(su.attrs L).2.1]; exact hf) v (by rw [(su.node n).2]; exact hv)
  simp only [DataType.isValid, ht, Bool.not_true, Bool.false_eq_true, if_false] at this
  apply hty
  clear hty
  cases htn : t.tname <;> simp only [htn, bind, Except.bind] at this hb hs hcell ⊢
  case i32 =>
    cases v <;> simp [DataType.asInt] at this
    · exact absurd rfl (hb _ rfl).1
    · constructor
  case i64 =>
    cases v <;> simp [DataType.asInt] at this
    · exact absurd rfl (hb _ rfl).2
    · constructor
  case noderefMany =>
    split at this
    · simp at this
    · cases v <;> simp [pure, Except.pure] at this
      constructor
  case ext => cases v <;> first | exact absurd rfl hne | cases hcell
  case unknown => cases v <;> first | exact absurd rfl hne | cases hcell
  all_goals (cases v <;> first | constructor | simp at this)

namespace Ex
/-- text where a type that checks its values declares integers -/
def opsWrong : List Op := [.addLayer "tok".toList [("x".toList, ⟨.i32, true, []⟩)], .addNew 0 [("x".toList, .int 1)],
  .setField 0 "x".toList (.str "12".toList)]
def wwrong : World := World.empty.run opsWrong
end Ex

/-- C102_refused_partial applies to text where a new layer declares integers; without validation it is converted. -/
example : Reachable Ex.wwrong ∧ Mistyped Ex.wwrong ⟨.i32, true, []⟩ (.str "12".toList) ∧
    (Ex.wwrong.toWire false false).2 = .ok ⟨[], [], [("tok".toList, ⟨1, [("x".toList, ⟨"i32".toList, none⟩, [.int 12])]⟩)]⟩ := by
  refine ⟨reachable_run _ (by decide), ⟨"tok".toList, 0, 0, 0, "x".toList, by decide, ⟨0, by decide, by decide⟩, by decide, by decide, by simp, ?_⟩,
    by decide +kernel⟩
  intro h
  cases h

namespace Ex
/-- three nodes with nothing but missing values, of a type for each conversion below -/
def wireMixed : Wire := ⟨[], [], [("tok".toList, ⟨3, [
  ("i".toList, ⟨"i32".toList, none⟩, [.nil, .nil, .nil]), ("d".toList, ⟨"f64".toList, none⟩, [.nil, .nil, .nil]),
  ("b".toList, ⟨"bin".toList, none⟩, [.nil, .nil, .nil]), ("q".toList, ⟨"i64".toList, none⟩, [.nil, .nil, .nil]),
  ("m".toList, ⟨"noderef_array".toList, some [("layer".toList, .str "tok".toList)]⟩, [.nil, .nil, .nil]),
  ("n".toList, ⟨"nodespan".toList, some [("layer".toList, .str "tok".toList)]⟩, [.nil, .nil, .nil])]⟩)]⟩

/-- 3.7, 5, 2, "-1_0", a NodeSpan and a Node set on the middle node -/
def opsMixed : List Op := [.setField 1 "i".toList (.float 0x400D99999999999A), .setField 1 "d".toList (.int 5),
  .setField 1 "b".toList (.int 2), .setField 1 "q".toList (.str " -1_0 ".toList), .setField 1 "m".toList (.nodespan 0 2),
  .setField 1 "n".toList (.node 1)]

/-- what is written then -/
def wireConverted : Wire := ⟨[], [], [("tok".toList, ⟨3, [
  ("i".toList, ⟨"i32".toList, none⟩, [.nil, .int 3, .nil]), ("d".toList, ⟨"f64".toList, none⟩, [.nil, .float 0x4014000000000000, .nil]),
  ("b".toList, ⟨"bin".toList, none⟩, [.nil, .bin [0, 0], .nil]), ("q".toList, ⟨"i64".toList, none⟩, [.nil, .int (-10), .nil]),
  ("m".toList, ⟨"noderef_array".toList, some [("layer".toList, .str "tok".toList)]⟩, [.nil, .arr [.int 0, .int 1, .int 2], .nil]),
  ("n".toList, ⟨"nodespan".toList, some [("layer".toList, .str "tok".toList)]⟩, [.nil, .arr [.int 0, .int 2], .nil])]⟩)]⟩

def wmixed0 : World := match fromWire wireMixed with | .ok w => w | .error _ => World.empty
def wmixed : World := wmixed0.run opsMixed
end Ex

/-- C102 applies to a decoded document with values of other types. -/
theorem C102_decoded_converts : fromWire Ex.wireMixed = .ok Ex.wmixed0 ∧ Reachable Ex.wmixed ∧
    (Ex.wmixed.toWire false true).2 = .ok Ex.wireConverted ∧
    dget (Ex.wmixed.nodes 1).fields "i".toList = some (.float 0x400D99999999999A) ∧
    dget (Ex.wmixed.nodes 1).fields "n".toList = some (.node 1) := by
  refine ⟨rfl, ?_, by decide +kernel, by decide, by decide⟩
  obtain ⟨h, hh⟩ := hist_run (.nil : Hist Ex.wmixed0 [] Ex.wmixed0) Ex.opsMixed (by decide)
  exact ⟨_, h, .inr ⟨Ex.wireMixed, rfl⟩, hh⟩

/-- C102 fails: 3.7 in a field of 32-bit integers of a decoded document is written as 3. -/
theorem C102_full_false : ¬ C102_full := by
  intro h
  obtain ⟨-, hr, hw, hv, -⟩ := C102_decoded_converts
  refine h _ hr ⟨.i32, false, []⟩ _ ⟨"tok".toList, 0, 1, 1, "i".toList, by decide, ⟨0, by decide, by decide⟩, by decide, hv, by simp, ?_⟩ _ hw
  intro ht
  cases ht

end Verif
