import Verif.Proof.Msgpack
/-
C30: the MessagePack byte form of a value is self delimiting and invertible.
-/
set_option linter.unusedSimpArgs false
namespace Verif

/-- C30. Unpacking the bytes of a packed value followed by any other bytes returns that value and stops
right after it. -/
theorem C30_unpack_pack {o : Obj} {bs : Bytes} (h : pack o = .ok bs) (hk : o.KeysOk) (rest : Bytes) :
    unpack (bs ++ rest) = .ok (o, rest) := unpack_pack h hk rest

/-- C30. Bytes cut short anywhere never unpack to a value: the unpacker asks for more data. -/
theorem C30_truncated {o : Obj} {bs : Bytes} (h : pack o = .ok bs) (hk : o.KeysOk) (cut rest : Bytes)
    (hc : bs = cut ++ rest) (hr : rest ≠ []) : unpack cut = .error .outOfData := by
  have hf := unpack_pack h hk []
  rw [List.append_nil, hc] at hf
  cases hu : unpack cut with
  | ok vr =>
    obtain ⟨v, r⟩ := vr
    obtain ⟨u, h1, h2⟩ := Loc.unpack.ok _ _ _ hu
    have := h2 (r ++ rest)
    rw [← List.append_assoc, ← h1, hf] at this
    simp at this
    exact absurd this.2.2 hr
  | error e =>
    by_cases he : e = .outOfData
    · rw [he]
    · have := Loc.unpack.err _ _ hu he rest
      rw [hf] at this; cases this

/-- C30. Two values with the same bytes are the same value; more generally, no packed value is a proper
prefix of another. -/
theorem C30_prefix_free {o o' : Obj} {bs bs' r r' : Bytes} (h : pack o = .ok bs) (h' : pack o' = .ok bs')
    (hk : o.KeysOk) (hk' : o'.KeysOk) (he : bs ++ r = bs' ++ r') : o = o' ∧ bs = bs' ∧ r = r' := by
  have h1 := unpack_pack h hk r
  have h2 := unpack_pack h' hk' r'
  rw [he, h2] at h1
  simp only [Except.ok.injEq, Prod.mk.injEq] at h1
  obtain ⟨rfl, rfl⟩ := h1
  exact ⟨rfl, List.append_cancel_right he, rfl⟩

/-- C30, for sequences: several values written one after the other are read back one after the other. -/
theorem C30_sequence {os : List Obj} {bs : Bytes} (h : packList 512 os = .ok bs)
    (hk : ∀ o ∈ os, o.KeysOk) (rest : Bytes) : P.times unpack os.length (bs ++ rest) = .ok (os, rest) := by
  refine times_packList os 512 1024 bs rest h (by omega) ?_
  clear h
  induction os with
  | nil => trivial
  | cons o os ih => exact ⟨hk o (by simp), ih fun x hx => hk x (by simp [hx])⟩

mutual
/-- what the format can hold: 64-bit integers, sizes below 2^32, nesting at most `lim` -/
def Spec.Fits : Nat → Obj → Prop
  | 0, _ => False
  | _ + 1, .int i => -2 ^ 63 ≤ i ∧ i < 2 ^ 64
  | _ + 1, .str s => (utf8Encode s).length < 2 ^ 32
  | _ + 1, .bin b => b.length < 2 ^ 32
  | lim + 1, .arr l => l.length < 2 ^ 32 ∧ FitsL lim l
  | lim + 1, .map l => l.length < 2 ^ 32 ∧ FitsM lim l
  | _ + 1, _ => True
def Spec.FitsL : Nat → List Obj → Prop
  | _, [] => True
  | lim, x :: xs => Fits lim x ∧ FitsL lim xs
def Spec.FitsM : Nat → List (Str × Obj) → Prop
  | _, [] => True
  | lim, (k, x) :: xs => lim ≠ 0 ∧ (utf8Encode k).length < 2 ^ 32 ∧ Fits lim x ∧ FitsM lim xs
end

theorem packInt_ok {i : Int} (h : -2 ^ 63 ≤ i ∧ i < 2 ^ 64) : ∃ bs, packInt i = .ok bs := by
  unfold packInt
  simp only
  repeat' split
  all_goals first | exact ⟨_, rfl⟩ | (exfalso; omega)

theorem packStr_ok {s : Str} (h : (utf8Encode s).length < 2 ^ 32) : ∃ bs, packStr s = .ok bs := by
  unfold packStr packStrHead
  simp only
  repeat' split
  all_goals first | exact ⟨_, rfl⟩ | (exfalso; omega)

theorem packBinHead_ok {n : Nat} (h : n < 2 ^ 32) : ∃ bs, packBinHead n = .ok bs := by
  unfold packBinHead
  repeat' split
  all_goals first | exact ⟨_, rfl⟩ | (exfalso; omega)

theorem packArrHead_ok {n : Nat} (h : n < 2 ^ 32) : ∃ bs, packArrHead n = .ok bs := by
  unfold packArrHead
  repeat' split
  all_goals first | exact ⟨_, rfl⟩ | (exfalso; omega)

theorem packMapHead_ok {n : Nat} (h : n < 2 ^ 32) : ∃ bs, packMapHead n = .ok bs := by
  unfold packMapHead
  repeat' split
  all_goals first | exact ⟨_, rfl⟩ | (exfalso; omega)

mutual
theorem packAt_ok : ∀ (o : Obj) (lim : Nat), Spec.Fits lim o → ∃ bs, packAt lim o = .ok bs
  | o, 0, h => by simp [Spec.Fits] at h
  | .nil, lim + 1, _ => ⟨_, rfl⟩
  | .bool false, lim + 1, _ => ⟨_, rfl⟩
  | .bool true, lim + 1, _ => ⟨_, rfl⟩
  | .float _, lim + 1, _ => ⟨_, rfl⟩
  | .int i, lim + 1, h => by simp only [Spec.Fits] at h; simp only [packAt]; exact packInt_ok h
  | .str s, lim + 1, h => by simp only [Spec.Fits] at h; simp only [packAt]; exact packStr_ok h
  | .bin b, lim + 1, h => by
    simp only [Spec.Fits] at h
    obtain ⟨x, hx⟩ := packBinHead_ok h
    simp only [packAt, hx]; exact ⟨_, rfl⟩
  | .arr l, lim + 1, h => by
    simp only [Spec.Fits] at h
    obtain ⟨x, hx⟩ := packArrHead_ok h.1
    obtain ⟨y, hy⟩ := packList_ok l lim h.2
    simp only [packAt, hx, hy]; exact ⟨_, rfl⟩
  | .map l, lim + 1, h => by
    simp only [Spec.Fits] at h
    obtain ⟨x, hx⟩ := packMapHead_ok h.1
    obtain ⟨y, hy⟩ := packPairs_ok l lim h.2
    simp only [packAt, hx, hy]; exact ⟨_, rfl⟩
theorem packList_ok : ∀ (l : List Obj) (lim : Nat), Spec.FitsL lim l → ∃ bs, packList lim l = .ok bs
  | [], lim, _ => ⟨_, rfl⟩
  | x :: xs, lim, h => by
    simp only [Spec.FitsL] at h
    obtain ⟨a, ha⟩ := packAt_ok x lim h.1
    obtain ⟨b, hb⟩ := packList_ok xs lim h.2
    simp only [packList, ha, hb]; exact ⟨_, rfl⟩
theorem packPairs_ok : ∀ (l : List (Str × Obj)) (lim : Nat), Spec.FitsM lim l → ∃ bs, packPairs lim l = .ok bs
  | [], lim, _ => ⟨_, rfl⟩
  | (k, x) :: xs, lim, h => by
    simp only [Spec.FitsM] at h
    have hk : ∃ bs, packKey lim k = .ok bs := by
      cases lim with
      | zero => exact absurd rfl h.1
      | succ lim => simp only [packKey]; exact packStr_ok h.2.1
    obtain ⟨c, hc⟩ := hk
    obtain ⟨a, ha⟩ := packAt_ok x lim h.2.2.1
    obtain ⟨b, hb⟩ := packPairs_ok xs lim h.2.2.2
    simp only [packPairs, hc, ha, hb]; exact ⟨_, rfl⟩
end

/-- C30. Every value within the limits of the format can be packed. -/
theorem C30_packs (o : Obj) (h : Spec.Fits 512 o) : ∃ bs, pack o = .ok bs := packAt_ok o 512 h

-- a nested value, its bytes, reading it back with bytes following, and cut short
example : pack (.map [("a".toList, .arr [.int 1, .int (-200), .nil]), ("é".toList, .bin [255])]) =
    .ok [0x82, 0xa1, 0x61, 0x93, 0x01, 0xd1, 0xff, 0x38, 0xc0, 0xa2, 0xc3, 0xa9, 0xc4, 0x01, 0xff] := by decide
example : (Obj.map [("a".toList, .arr [.int 1, .int (-200), .nil]), ("é".toList, .bin [255])]).KeysOk := by
  simp [Obj.KeysOk, Obj.KeysOkM, Obj.KeysOkL]
example : Spec.Fits 512 (.map [("a".toList, .arr [.int 1, .int (-200), .nil]), ("é".toList, .bin [255])]) := by
  simp [Spec.Fits, Spec.FitsM, Spec.FitsL]; decide
set_option maxRecDepth 20000 in
example : unpack [0x82, 0xa1, 0x61, 0x93, 0x01, 0xd1, 0xff, 0x38, 0xc0, 0xa2, 0xc3, 0xa9, 0xc4, 0x01, 0xff, 7, 7] =
    .ok (.map [("a".toList, .arr [.int 1, .int (-200), .nil]), ("é".toList, .bin [255])], [7, 7]) := by decide
set_option maxRecDepth 20000 in
example : unpack [0x82, 0xa1, 0x61, 0x93, 0x01, 0xd1, 0xff] = .error .outOfData := by decide
example : pack (.int (2 ^ 64)) = .error .overflow := by decide

end Verif
