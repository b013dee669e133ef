import Verif.Model.Tar
import Verif.Props.BlockFile
/-
C47: tar archives.
-/
set_option linter.unusedSimpArgs false
namespace Verif

namespace Spec

/-- the documents that a sequence of write calls adds -/
def tarred : List DocArg → List Bytes
  | [] => []
  | a :: as =>
    match a.data with
    | .ok d => d :: tarred as
    | .error _ => tarred as

/-- `n` calls of next() on a tar reader -/
def tarNexts : Nat → List TarMember → List (Except PyErr MDoc)
  | 0, _ => []
  | n + 1, ms => (tarNext ms).2 :: tarNexts n (tarNext ms).1

end Spec

/-- the number that digits stand for -/
def digitsVal (l : Str) : Nat := l.foldl (fun a c => 10 * a + (c.toNat - 48)) 0

theorem digit_toNat {n : Nat} (h : n < 10) : (Char.ofNat (48 + n)).toNat - 48 = n := by
  have : n = 0 ∨ n = 1 ∨ n = 2 ∨ n = 3 ∨ n = 4 ∨ n = 5 ∨ n = 6 ∨ n = 7 ∨ n = 8 ∨ n = 9 := by omega
  rcases this with rfl | rfl | rfl | rfl | rfl | rfl | rfl | rfl | rfl | rfl <;> rfl

theorem digitsVal_decimal (n : Nat) : digitsVal (decimal n) = n := by
  induction n using Nat.strongRecOn with
  | _ n ih =>
    unfold decimal
    split
    · rename_i h
      simp only [digitsVal, List.foldl_cons, List.foldl_nil, digit_toNat h]; omega
    · rename_i h
      have := ih (n / 10) (by omega)
      unfold digitsVal at this ⊢
      rw [List.foldl_append, this]
      simp only [List.foldl_cons, List.foldl_nil, digit_toNat (show n % 10 < 10 by omega)]
      omega

theorem digitsVal_pad (k : Nat) (l : Str) : digitsVal (List.replicate k '0' ++ l) = digitsVal l := by
  induction k with
  | zero => rfl
  | succ k ih => rw [List.replicate_succ, List.cons_append, ← ih]; rfl

/-- different numbers have different names -/
theorem docName_inj {i j : Nat} (h : docName i = docName j) : i = j := by
  unfold docName at h
  have h := List.append_cancel_right h
  have h := List.append_cancel_left h
  have := congrArg digitsVal h
  rwa [digitsVal_pad, digitsVal_pad, digitsVal_decimal, digitsVal_decimal] at this

theorem pathJoin_inj {r a b : Str} (h : pathJoin r a = pathJoin r b) : a = b := by
  unfold pathJoin at h
  split at h
  · exact List.append_cancel_left h
  · have := List.append_cancel_left h
    simpa using this

theorem pathJoin_ne {r a : Str} (ha : a ≠ []) : pathJoin r a ≠ r := by
  intro h
  have := congrArg List.length h
  have hp := List.length_pos_iff.mpr ha
  unfold pathJoin at this
  split at this <;> simp only [List.length_append, List.length_cons] at this <;> omega

/-- the name of the member with the number `i` -/
def tarName (rootdir : Option Str) (fmt : Nat → Str) (i : Nat) : Str :=
  match rootdir with
  | some d => pathJoin d (fmt i)
  | none => fmt i

/-- the members that documents become -/
def tarMembers (rootdir : Option Str) (fmt : Nat → Str) : Nat → List Bytes → List TarMember
  | _, [] => []
  | i, d :: ds => ⟨tarName rootdir fmt i, true, d⟩ :: tarMembers rootdir fmt (i + 1) ds

theorem run_members (as : List DocArg) : ∀ (w : TarWriter), (w.run as).members = w.members ++ tarMembers w.rootdir w.fmt w.i (Spec.tarred as) := by
  induction as with
  | nil => intro w; simp [TarWriter.run, Spec.tarred, tarMembers]
  | cons a as ih =>
    intro w
    have hrun : w.run (a :: as) = (w.write a).1.run as := rfl
    rw [hrun, ih]
    unfold TarWriter.write
    cases hd : a.data with
    | error e => simp only [Spec.tarred, hd]
    | ok d =>
      simp only [Spec.tarred, hd, tarMembers, List.append_assoc, List.singleton_append]
      rfl

theorem tarNexts_ok (rootdir fmt) (k : Nat) : ∀ (ds : List Bytes) (i : Nat), (∀ d ∈ ds, d.take 4 = magic) →
    (Spec.tarNexts (ds.length + k) (tarMembers rootdir fmt i ds)) =
      ds.map (fun d => .ok { raw := d, ref := some .none }) ++ List.replicate k (.error .stopIteration) := by
  intro ds
  induction ds with
  | nil =>
    intro i _
    simp only [List.length_nil, Nat.zero_add, List.map_nil, List.nil_append, tarMembers]
    induction k with
    | zero => rfl
    | succ k ih => rw [List.replicate_succ, ← ih]; rfl
  | cons d ds ih =>
    intro i h
    have h1 : tarNext (tarMembers rootdir fmt i (d :: ds)) = (tarMembers rootdir fmt (i + 1) ds, .ok { raw := d, ref := some .none }) := by
      simp only [tarMembers, tarNext, if_true, MDoc.ofBytes, h d (by simp), ne_eq, not_true_eq_false, if_false]
    rw [List.length_cons, Nat.add_right_comm, Spec.tarNexts, h1]
    simp only
    rw [ih (i + 1) (fun x hx => h x (by simp [hx]))]
    rfl

theorem tarred_magic {as : List DocArg} (h : ∀ a ∈ as, Spec.Real (.write a)) : ∀ d ∈ Spec.tarred as, d.take 4 = magic := by
  induction as with
  | nil => intro d hd; cases hd
  | cons a as ih =>
    intro d hd
    have ih := ih (fun x hx => h x (by simp [hx]))
    simp only [Spec.tarred] at hd
    split at hd
    · rename_i d' hdat
      rcases List.mem_cons.mp hd with rfl | hd
      · cases a with
        | other => cases hdat
        | packed m =>
          have := h _ (List.mem_cons_self ..)
          simp only [Spec.Real] at this
          obtain ⟨t, ht⟩ := this
          cases hdat
          rw [← ht]
          have hm : Spec.ascii "DM_1" = magic := by decide
          rw [hm]
          rfl
        | doc w x t =>
          simp only [DocArg.data, World.encodeMsgpack] at hdat
          cases hw : w.toWire x t with
          | mk w1 r =>
            cases r with
            | error e => rw [hw] at hdat; cases hdat
            | ok wi => rw [hw] at hdat; exact encode_magic hdat
      · exact ih d hd
    · exact ih d hd

/-- C47. The tar reader yields exactly the documents written, in order, whatever the root directory and the names. -/
theorem C47_round_trip (rootdir : Option Str) (fmt : Nat → Str) {as : List DocArg} (h : ∀ a ∈ as, Spec.Real (.write a)) (k : Nat) :
    (Spec.tarNexts ((Spec.tarred as).length + k) ((TarWriter.new rootdir fmt).run as).members).map (fun x => x.map MDoc.raw) =
      (Spec.tarred as).map .ok ++ List.replicate k (.error .stopIteration) := by
  have key : Spec.tarNexts ((Spec.tarred as).length + k) ((TarWriter.new rootdir fmt).run as).members =
      Spec.tarNexts ((Spec.tarred as).length + k) (tarMembers rootdir fmt 0 (Spec.tarred as)) := by
    rw [run_members]
    cases rootdir with
    | none => rfl
    | some d =>
      have hn : ∀ ms, tarNext (⟨d, false, []⟩ :: ms) = tarNext ms := fun ms => rfl
      show Spec.tarNexts _ ([⟨d, false, []⟩] ++ tarMembers (some d) fmt 0 (Spec.tarred as)) = _
      generalize (Spec.tarred as).length + k = n
      cases n with
      | zero => rfl
      | succ n => simp only [Spec.tarNexts, List.singleton_append, hn]
  rw [key, tarNexts_ok _ _ _ _ _ (tarred_magic h), List.map_append, List.map_map, List.map_replicate]
  rfl

theorem tarMembers_names (rootdir fmt) (hf : ∀ i j, fmt i = fmt j → i = j) : ∀ (ds : List Bytes) (i : Nat),
    ((tarMembers rootdir fmt i ds).map (·.name)).Nodup ∧ ∀ n ∈ (tarMembers rootdir fmt i ds).map (·.name), ∃ j, i ≤ j ∧ n = tarName rootdir fmt j := by
  have hinj : ∀ i j, tarName rootdir fmt i = tarName rootdir fmt j → i = j := by
    intro i j h
    unfold tarName at h
    cases rootdir with
    | none => exact hf i j h
    | some d => exact hf i j (pathJoin_inj h)
  intro ds
  induction ds with
  | nil => intro i; exact ⟨List.nodup_nil, by intro n h; cases h⟩
  | cons d ds ih =>
    intro i
    obtain ⟨h1, h2⟩ := ih (i + 1)
    simp only [tarMembers, List.map_cons, List.nodup_cons]
    refine ⟨⟨fun hm => ?_, h1⟩, fun n hn => ?_⟩
    · obtain ⟨j, hj, he⟩ := h2 _ hm
      have := hinj _ _ he
      omega
    · rcases List.mem_cons.mp hn with rfl | hn
      · exact ⟨i, Nat.le_refl _, rfl⟩
      · obtain ⟨j, hj, he⟩ := h2 n hn
        exact ⟨j, by omega, he⟩

/-- C47. The members of the archive, with the root directory, have different names. -/
theorem C47_names (rootdir : Option Str) (as : List DocArg) :
    (((TarWriter.new rootdir).run as).members.map (·.name)).Nodup := by
  obtain ⟨h1, h2⟩ := tarMembers_names rootdir docName (fun i j h => docName_inj h) (Spec.tarred as) 0
  rw [run_members]
  cases rootdir with
  | none => exact h1
  | some d =>
    show ((⟨d, false, []⟩ :: tarMembers (some d) docName 0 (Spec.tarred as)).map (·.name)).Nodup
    rw [List.map_cons, List.nodup_cons]
    refine ⟨fun hm => ?_, h1⟩
    obtain ⟨j, -, he⟩ := h2 _ hm
    exact pathJoin_ne (by simp [docName]) he.symm

/-- a decimal digit -/
def dig (n : Nat) : Char := Char.ofNat (48 + n)

theorem dig_lt : ∀ a b : Fin 10, (dig a < dig b ↔ a < b) ∧ (dig a = dig b ↔ a = b) := by decide

theorem docName_five {i : Nat} (h : i < 100000) : docName i = "doc".toList ++ ([dig (i / 10000), dig (i / 1000 % 10), dig (i / 100 % 10),
    dig (i / 10 % 10), dig (i % 10)] ++ ".msgpack".toList) := by
  unfold docName
  rw [List.append_assoc]
  congr 2
  have h0 : '0' = dig 0 := rfl
  have d1 : ∀ n, n < 10 → decimal n = [dig n] := by intro n hn; rw [decimal, if_pos hn]; rfl
  have d2 : ∀ n, ¬ n < 10 → decimal n = decimal (n / 10) ++ [dig (n % 10)] := by intro n hn; rw [decimal, if_neg hn]; rfl
  have z : ∀ n, n < 10 → n % 10 = n := fun n h => Nat.mod_eq_of_lt h
  by_cases h1 : i < 10
  · rw [d1 i h1]
    have e1 : i / 10 = 0 := by omega
    have e2 : i / 100 = 0 := by omega
    have e3 : i / 1000 = 0 := by omega
    have e4 : i / 10000 = 0 := by omega
    rw [e1, e2, e3, e4, z i h1]; rfl
  rw [d2 i h1]
  by_cases h2 : i / 10 < 10
  · rw [d1 _ h2]
    have e2 : i / 100 = 0 := by omega
    have e3 : i / 1000 = 0 := by omega
    have e4 : i / 10000 = 0 := by omega
    rw [e2, e3, e4, z _ h2]; rfl
  rw [d2 _ h2, Nat.div_div_eq_div_mul]
  by_cases h3 : i / 100 < 10
  · rw [d1 _ h3]
    have e3 : i / 1000 = 0 := by omega
    have e4 : i / 10000 = 0 := by omega
    rw [e3, e4, z _ h3]; rfl
  rw [d2 _ h3, Nat.div_div_eq_div_mul]
  by_cases h4 : i / 1000 < 10
  · rw [d1 _ h4]
    have e4 : i / 10000 = 0 := by omega
    rw [e4, z _ h4]; rfl
  rw [d2 _ h4, Nat.div_div_eq_div_mul, d1 _ (by omega)]
  rfl

theorem lt_digits {a b : Nat} {s t : Str} (ha : a < 10) (hb : b < 10) (h : a < b ∨ a = b ∧ s < t) : dig a :: s < dig b :: t := by
  rw [List.cons_lt_cons_iff]
  obtain ⟨h1, h2⟩ := dig_lt ⟨a, ha⟩ ⟨b, hb⟩
  rcases h with h | ⟨rfl, h⟩
  · exact .inl (h1.mpr h)
  · exact .inr ⟨rfl, h⟩

/-- C47. Up to 100000 documents, the default names sort in the order of writing. -/
theorem C47_names_sorted {i j : Nat} (hij : i < j) (hj : j < 100000) : docName i < docName j := by
  rw [docName_five (Nat.lt_trans hij hj), docName_five hj]
  apply List.append_left_lt
  simp only [List.cons_append, List.nil_append]
  have m : ∀ n, n % 10 < 10 := fun n => Nat.mod_lt _ (by decide)
  have st : ∀ {x y : Nat}, x ≤ y → x / 10 = y / 10 → x % 10 < y % 10 ∨ x % 10 = y % 10 ∧ x = y := by intro x y h1 h2; omega
  have dv : ∀ d, i / d ≤ j / d := fun d => Nat.div_le_div_right (Nat.le_of_lt hij)
  refine lt_digits (by omega) (by omega) ((Nat.lt_or_eq_of_le (dv 10000)).imp id fun h0 => ⟨h0, ?_⟩)
  refine lt_digits (m _) (m _) ((st (dv 1000) (by rw [Nat.div_div_eq_div_mul, Nat.div_div_eq_div_mul]; exact h0)).imp id
    (And.imp id fun h1 => ?_))
  refine lt_digits (m _) (m _) ((st (dv 100) (by rw [Nat.div_div_eq_div_mul, Nat.div_div_eq_div_mul]; exact h1)).imp id
    (And.imp id fun h2 => ?_))
  refine lt_digits (m _) (m _) ((st (dv 10) (by rw [Nat.div_div_eq_div_mul, Nat.div_div_eq_div_mul]; exact h2)).imp id
    (And.imp id fun h3 => ?_))
  exact lt_digits (m _) (m _) ((st (Nat.le_of_lt hij) h3).imp id fun h4 => absurd h4.2 (Nat.ne_of_lt hij))

/-- C47. The sixth digit breaks that order. -/
theorem C47_names_sorted_fails : docName 100000 < docName 99999 := by decide +kernel

/-- two documents and a refused call, in a directory -/
example : (((TarWriter.new (some "x".toList)).run [.packed { raw := Ex.tiny 65, ref := none }, .other,
      .packed { raw := Ex.tiny 66, ref := none }]).members.map (fun m => (m.name, m.isfile, m.data))) =
    [("x".toList, false, []), ("x/doc00000.msgpack".toList, true, Ex.tiny 65), ("x/doc00001.msgpack".toList, true, Ex.tiny 66)] ∧
    Spec.tarred [.packed { raw := Ex.tiny 65, ref := none }, .other, .packed { raw := Ex.tiny 66, ref := none }] =
      [Ex.tiny 65, Ex.tiny 66] ∧ docName 1234567 = "doc1234567.msgpack".toList := by decide +kernel

/-- a name without a number would collide -/
example : ¬ (((TarWriter.new none (fun _ => "doc".toList)).run [.packed { raw := [], ref := none }, .packed { raw := [], ref := none }]).members.map
    (·.name)).Nodup := by decide

end Verif
